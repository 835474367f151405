import Verif.Props.SineWaves
import Verif.Props.FourierSum
import Verif.Props.AmplitudeSpectrum
import Mathlib.Analysis.SpecialFunctions.Trigonometric.Bounds

/-!
# C160: the spectrum of a sine wave of any frequency

C124 is about frequencies that are among those of the spectrum. The waves of `/repo/docs/tutorial.ipynb` (cells 35, 47) are not.
-/

set_option linter.unusedSectionVars false

namespace SweepDesign
open Spec Real

noncomputable section

/-- the Dirichlet kernel: `n` cosines, symmetric about 0 -/
def Spec.dirichlet (n : ℕ) (u : ℝ) : ℝ := ∑ j ∈ Finset.range n, cos ((2 * (j : ℝ) - (n - 1)) * u)

theorem dirichlet_sin (n : ℕ) (u : ℝ) : dirichlet n u * sin u = sin (n * u) := by
  have h : ∀ j : ℕ, cos ((2 * (j : ℝ) - (n - 1)) * u) * sin u =
      sin ((2 * ((j + 1 : ℕ) : ℝ) - n) * u) / 2 - sin ((2 * (j : ℝ) - n) * u) / 2 := by
    intro j
    rw [show (2 * ((j + 1 : ℕ) : ℝ) - n) * u = (2 * (j : ℝ) - (n - 1)) * u + u by push_cast; ring,
      show (2 * (j : ℝ) - n) * u = (2 * (j : ℝ) - (n - 1)) * u - u by ring, sin_add, sin_sub]
    ring
  rw [dirichlet, Finset.sum_mul, Finset.sum_congr rfl fun j _ => h j,
    Finset.sum_range_sub (fun j : ℕ => sin ((2 * (j : ℝ) - n) * u) / 2),
    show (2 * (n : ℝ) - n) * u = n * u by ring, show (2 * ((0 : ℕ) : ℝ) - n) * u = -(n * u) by push_cast; ring, sin_neg]
  ring

theorem dirichlet_zero (n : ℕ) : dirichlet n 0 = n := by simp [dirichlet]

theorem dirichlet_exp (n : ℕ) (u : ℝ) : ∑ j ∈ Finset.range n, Complex.exp (((2 * (j : ℝ) - (n - 1)) * u : ℝ) * Complex.I) = dirichlet n u := by
  have h : ∑ j ∈ Finset.range n, sin ((2 * (j : ℝ) - (n - 1)) * u) = 0 := by
    have := Finset.sum_range_reflect (fun j : ℕ => sin ((2 * (j : ℝ) - (n - 1)) * u)) n
    have e : ∑ j ∈ Finset.range n, sin ((2 * ((n - 1 - j : ℕ) : ℝ) - (n - 1)) * u) =
        -∑ j ∈ Finset.range n, sin ((2 * (j : ℝ) - (n - 1)) * u) := by
      rw [← Finset.sum_neg_distrib]
      refine Finset.sum_congr rfl fun j hj => ?_
      have hj := Finset.mem_range.1 hj
      rw [← sin_neg]
      congr 1
      rw [Nat.cast_sub (by omega), Nat.cast_sub (by omega)]
      push_cast
      ring
    linarith
  simp only [Complex.exp_mul_I, Finset.sum_add_distrib, ← Complex.ofReal_cos, ← Complex.ofReal_sin, ← Finset.sum_mul,
    ← Complex.ofReal_sum, h]
  simp [dirichlet]

/-- one half of the wave -/
theorem half_wave (n : ℕ) (t0 s c d : ℝ) :
    ∑ j ∈ Finset.range n, Complex.exp ((c * (t0 + j * s) + d : ℝ) * Complex.I) =
      Complex.exp ((c * (t0 + (n - 1) * s / 2) + d : ℝ) * Complex.I) * dirichlet n (c * s / 2) := by
  rw [← dirichlet_exp, Finset.mul_sum]
  refine Finset.sum_congr rfl fun j _ => ?_
  rw [← Complex.exp_add, ← add_mul, ← Complex.ofReal_add]
  congr 3
  ring

/-- **C160.** The kernel of `n` samples is `sin (n u) / sin u`; it is `n` at 0 and nowhere larger. -/
theorem C160_kernel (n : ℕ) (u : ℝ) : dirichlet n u * sin u = sin (n * u) ∧ dirichlet n 0 = n ∧ |dirichlet n u| ≤ n := by
  refine ⟨dirichlet_sin n u, dirichlet_zero n, ?_⟩
  refine (Finset.abs_sum_le_sum_abs _ _).trans ((Finset.sum_le_sum fun j _ => abs_cos_le_one _).trans ?_)
  simp

variable {r : Rel ℝ ℝ} {k : ℕ} {A w p : ℝ}

/-- **C160.** The spectrum of a sine wave of any frequency. With `c` the middle of the signal, `ω` the angular frequency of the value
and `s` the sample it is `A / (2i) e^{-iωc} (e^{i(wc + p)} D((w - ω) s / 2) - e^{-i(wc + p)} D((w + ω) s / 2))`, `D` the Dirichlet
kernel of the number of samples. -/
theorem C160_spectrum (h : SampledOn r k (sineWave A w p)) (a : ℤ) (ha : r.x.start = a * r.x.sample) (N : ℕ)
    (hN : (N : ℤ) = max (a + k) 0 - min a 0 + 1) :
    ∃ sp lf lv, r.getSpectrum = .ok sp ∧ sp.getData = .ok (lf, lv) ∧ lf.length = N / 2 + 1 ∧ lv.length = N / 2 + 1 ∧
      ∀ i (h1 : i < lf.length) (h2 : i < lv.length), lf[i] = i / (N * r.x.sample) ∧
        lv[i] = (A : ℂ) / (2 * Complex.I) * Complex.exp (-((2 * π * lf[i] * ((r.x.start + r.x.stop) / 2) : ℝ) * Complex.I)) *
          (Complex.exp ((w * ((r.x.start + r.x.stop) / 2) + p : ℝ) * Complex.I) * dirichlet (k + 1) ((w - 2 * π * lf[i]) * r.x.sample / 2) -
           Complex.exp (-((w * ((r.x.start + r.x.stop) / 2) + p : ℝ) * Complex.I)) * dirichlet (k + 1) ((w + 2 * π * lf[i]) * r.x.sample / 2)) := by
  have hs := h.rising
  have hk := h.two
  have hw := h.whole
  obtain ⟨hl, hv⟩ := samples_whole hs h.whole h.samples
  obtain ⟨lx, hd⟩ := (balanced_iff_getData r).1 h.balanced
  obtain ⟨lx, ly⟩ := lx
  obtain ⟨hx, rfl, hlen⟩ := (getData_ok_iff _ _ _).1 hd
  have hx' := hx
  rw [array_whole r.x k hs hw, Except.ok.injEq] at hx'
  obtain ⟨sp, lf, lv, e1, e2, e3, e4, e5⟩ := C69_fourier_sum r lx r.y hd r.x.sample hs a (a + k) (by omega) rfl ha
    (by push_cast; linarith) N hN
  refine ⟨sp, lf, lv, e1, e2, e3, e4, fun i h1 h2 => ⟨(e5 i h1 h2).1, ?_⟩⟩
  rw [(e5 i h1 h2).2, hl]
  set f := lf[i] with hf
  set c := (r.x.start + r.x.stop) / 2 with hc
  have hc' : c = r.x.start + (((k + 1 : ℕ) : ℝ) - 1) * r.x.sample / 2 := by rw [hc]; push_cast; linarith
  have term : ∀ j ∈ Finset.range (k + 1), ((r.y.getD j 0 : ℝ) : ℂ) *
      Complex.exp (-(2 * π * Complex.I * ((f * lx.getD j 0 : ℝ) : ℂ))) = (A : ℂ) / (2 * Complex.I) *
        (Complex.exp (((w - 2 * π * f) * (r.x.start + j * r.x.sample) + p : ℝ) * Complex.I) -
         Complex.exp ((-(w + 2 * π * f) * (r.x.start + j * r.x.sample) + -p : ℝ) * Complex.I)) := by
    intro j hj
    have hj := Finset.mem_range.1 hj
    have ht : lx.getD j 0 = r.x.start + j * r.x.sample := by
      rw [← hx']
      simp [List.getD, hj]
    rw [hv j (by omega), ht]
    set t := r.x.start + (j : ℝ) * r.x.sample
    have hsin : ((sineWave A w p t : ℝ) : ℂ) = (A : ℂ) / (2 * Complex.I) *
        (Complex.exp ((w * t + p : ℝ) * Complex.I) - Complex.exp (-((w * t + p : ℝ)) * Complex.I)) := by
      rw [sineWave, Complex.ofReal_mul, Complex.ofReal_sin, Complex.sin]
      have hA : (A : ℂ) / (2 * Complex.I) = -(A * Complex.I / 2) := by
        rw [div_eq_iff (by simp)]
        linear_combination (A : ℂ) * Complex.I_sq
      rw [hA]
      ring
    rw [hsin, mul_assoc, sub_mul, ← Complex.exp_add, ← Complex.exp_add]
    congr 3
    · push_cast; ring
    · push_cast; ring
  rw [Finset.sum_congr rfl term, ← Finset.mul_sum, Finset.sum_sub_distrib, half_wave, half_wave, ← hc', mul_assoc ((A : ℂ) / (2 * Complex.I))]
  have hneg : dirichlet (k + 1) (-(w + 2 * π * f) * r.x.sample / 2) = dirichlet (k + 1) ((w + 2 * π * f) * r.x.sample / 2) := by
    unfold dirichlet
    refine Finset.sum_congr rfl fun j _ => ?_
    rw [← cos_neg]
    congr 1
    ring
  rw [hneg]
  congr 1
  rw [mul_sub, ← mul_assoc, ← mul_assoc, ← Complex.exp_add, ← Complex.exp_add]
  congr 3
  · push_cast; ring
  · push_cast; ring

/-- **C160.** The amplitude spectrum, exactly and within bounds. -/
theorem C160_amplitude (h : SampledOn r k (sineWave A w p)) (a : ℤ) (ha : r.x.start = a * r.x.sample) (N : ℕ)
    (hN : (N : ℤ) = max (a + k) 0 - min a 0 + 1) :
    ∃ q lf lv, r.signalAmplitude = .ok q ∧ q.getData = .ok (lf, lv) ∧ lf.length = N / 2 + 1 ∧ lv.length = N / 2 + 1 ∧
      ∀ i (h1 : i < lf.length) (h2 : i < lv.length), lf[i] = i / (N * r.x.sample) ∧
        (lv[i] ^ 2 = A ^ 2 / 4 * (dirichlet (k + 1) ((w - 2 * π * lf[i]) * r.x.sample / 2) ^ 2 +
          dirichlet (k + 1) ((w + 2 * π * lf[i]) * r.x.sample / 2) ^ 2 -
          2 * dirichlet (k + 1) ((w - 2 * π * lf[i]) * r.x.sample / 2) * dirichlet (k + 1) ((w + 2 * π * lf[i]) * r.x.sample / 2) *
            cos (w * (r.x.start + r.x.stop) + 2 * p))) ∧
        abs (lv[i] - |A| / 2 * |dirichlet (k + 1) ((w - 2 * π * lf[i]) * r.x.sample / 2)|) ≤
          |A| / 2 * |dirichlet (k + 1) ((w + 2 * π * lf[i]) * r.x.sample / 2)| := by
  obtain ⟨sp, lf, lv, e1, e2, e3, e4, e5⟩ := C160_spectrum h a ha N hN
  obtain ⟨hx, rfl, hlen⟩ := (getData_ok_iff _ _ _).1 e2
  have hq : (⟨sp.x, sp.y.map fun z => ‖z‖⟩ : Rel ℝ ℝ).getData = .ok (lf, sp.y.map fun z => ‖z‖) :=
    (getData_ok_iff _ _ _).2 ⟨hx, rfl, by simpa using hlen⟩
  refine ⟨⟨sp.x, sp.y.map fun z => ‖z‖⟩, lf, sp.y.map fun z => ‖z‖, ?_, hq, e3, by simpa using e4, fun i h1 h2 => ?_⟩
  · rw [Rel.signalAmplitude, e1, except_bind_ok, Rel.getAmpSpectrum]
    exact (make_ok_iff _ _ _).2 ⟨(balanced_iff_getData _).2 ⟨_, hq⟩, rfl⟩
  have h2' : i < sp.y.length := by simpa using h2
  refine ⟨(e5 i h1 h2').1, ?_⟩
  rw [List.getElem_map, (e5 i h1 h2').2]
  set x := dirichlet (k + 1) ((w - 2 * π * lf[i]) * r.x.sample / 2)
  set y := dirichlet (k + 1) ((w + 2 * π * lf[i]) * r.x.sample / 2)
  set c := w * ((r.x.start + r.x.stop) / 2) + p with hc
  rw [norm_mul, norm_mul, ← neg_mul, ← Complex.ofReal_neg, Complex.norm_exp_ofReal_mul_I, mul_one, norm_div, norm_mul, Complex.norm_I,
    mul_one, Complex.norm_real, Complex.norm_ofNat, Real.norm_eq_abs]
  constructor
  · rw [mul_pow, div_pow, sq_abs, Complex.sq_norm, Complex.normSq_apply]
    have e : Complex.exp ((c : ℂ) * Complex.I) * x - Complex.exp (-((c : ℂ) * Complex.I)) * y =
        ⟨cos c * (x - y), sin c * (x + y)⟩ := by
      rw [← neg_mul, Complex.exp_mul_I, Complex.exp_mul_I, Complex.cos_neg, Complex.sin_neg, ← Complex.ofReal_cos, ← Complex.ofReal_sin]
      apply Complex.ext <;> simp [-Complex.ofReal_cos, -Complex.ofReal_sin] <;> ring
    rw [e]
    simp only
    rw [show w * (r.x.start + r.x.stop) + 2 * p = 2 * c by rw [hc]; ring, cos_two_mul]
    have := sin_sq_add_cos_sq c
    linear_combination (A ^ 2 / 4) * (x + y) ^ 2 * this
  · rw [← mul_sub, abs_mul, abs_of_nonneg (by positivity : (0 : ℝ) ≤ |A| / 2)]
    refine mul_le_mul_of_nonneg_left ?_ (by positivity)
    have n1 : ‖Complex.exp ((c : ℂ) * Complex.I) * (x : ℂ)‖ = |x| := by
      rw [norm_mul, Complex.norm_exp_ofReal_mul_I, one_mul, Complex.norm_real, Real.norm_eq_abs]
    have n2 : ‖Complex.exp (-((c : ℂ) * Complex.I)) * (y : ℂ)‖ = |y| := by
      rw [← neg_mul, ← Complex.ofReal_neg, norm_mul, Complex.norm_exp_ofReal_mul_I, one_mul, Complex.norm_real, Real.norm_eq_abs]
    rw [← n1, ← n2]
    refine (abs_norm_sub_norm_le _ _).trans (le_of_eq ?_)
    rw [sub_sub_cancel_left, norm_neg]

/-- **C160.** With time zero among the times of the signal the Dirichlet kernels all have the same numerator: the amplitude at the
frequencies other than that of the wave is what `|A sin (N w s / 2)|` leaves. -/
theorem C160_leak (h : SampledOn r k (sineWave A w p)) (a : ℤ) (ha : r.x.start = a * r.x.sample) (h0 : a ≤ 0) (h1 : 0 ≤ a + k) :
    ∃ q lf lv, r.signalAmplitude = .ok q ∧ q.getData = .ok (lf, lv) ∧ lf.length = (k + 1) / 2 + 1 ∧ lv.length = (k + 1) / 2 + 1 ∧
      ∀ i (_ : i < lf.length) (h2 : i < lv.length), lf[i] = i / ((k + 1) * r.x.sample) ∧
        (sin (w * r.x.sample / 2 - π * i / (k + 1)) ≠ 0 → sin (w * r.x.sample / 2 + π * i / (k + 1)) ≠ 0 →
        abs (lv[i] - |A * sin ((k + 1) * (w * r.x.sample / 2))| / (2 * |sin (w * r.x.sample / 2 - π * i / (k + 1))|)) ≤
          |A * sin ((k + 1) * (w * r.x.sample / 2))| / (2 * |sin (w * r.x.sample / 2 + π * i / (k + 1))|)) := by
  obtain ⟨q, lf, lv, e1, e2, e3, e4, e5⟩ := C160_amplitude h a ha (k + 1) (by omega)
  refine ⟨q, lf, lv, e1, e2, e3, e4, fun i g1 g2 => ?_⟩
  obtain ⟨f1, -, f3⟩ := e5 i g1 g2
  refine ⟨by rw [f1]; push_cast; rfl, fun s1 s2 => ?_⟩
  have hs := h.rising.ne'
  have hk : ((k : ℝ) + 1) ≠ 0 := by positivity
  have u1 : (w - 2 * π * lf[i]) * r.x.sample / 2 = w * r.x.sample / 2 - π * i / (k + 1) := by
    rw [f1]; push_cast; field_simp
  have u2 : (w + 2 * π * lf[i]) * r.x.sample / 2 = w * r.x.sample / 2 + π * i / (k + 1) := by
    rw [f1]; push_cast; field_simp
  rw [u1, u2] at f3
  have d1 := dirichlet_sin (k + 1) (w * r.x.sample / 2 - π * i / (k + 1))
  have d2 := dirichlet_sin (k + 1) (w * r.x.sample / 2 + π * i / (k + 1))
  have t1 : ((k + 1 : ℕ) : ℝ) * (w * r.x.sample / 2 - π * i / (k + 1)) = (k + 1) * (w * r.x.sample / 2) - i * π := by
    push_cast; field_simp
  have t2 : ((k + 1 : ℕ) : ℝ) * (w * r.x.sample / 2 + π * i / (k + 1)) = (k + 1) * (w * r.x.sample / 2) + i * π := by
    push_cast; field_simp
  have m1 : |sin ((k + 1) * (w * r.x.sample / 2) - i * π)| = |sin ((k + 1) * (w * r.x.sample / 2))| := by
    rw [sin_sub_nat_mul_pi, abs_mul, abs_pow, abs_neg, abs_one, one_pow, one_mul]
  have m2 : |sin ((k + 1) * (w * r.x.sample / 2) + i * π)| = |sin ((k + 1) * (w * r.x.sample / 2))| := by
    rw [sin_add_nat_mul_pi, abs_mul, abs_pow, abs_neg, abs_one, one_pow, one_mul]
  rw [t1] at d1
  rw [t2] at d2
  have c1 : |A| / 2 * |dirichlet (k + 1) (w * r.x.sample / 2 - π * i / (k + 1))| =
      |A * sin ((k + 1) * (w * r.x.sample / 2))| / (2 * |sin (w * r.x.sample / 2 - π * i / (k + 1))|) := by
    have := abs_pos.2 s1
    rw [abs_mul, ← m1, ← d1, abs_mul, eq_div_iff (by positivity)]
    ring
  have c2 : |A| / 2 * |dirichlet (k + 1) (w * r.x.sample / 2 + π * i / (k + 1))| =
      |A * sin ((k + 1) * (w * r.x.sample / 2))| / (2 * |sin (w * r.x.sample / 2 + π * i / (k + 1))|) := by
    have := abs_pos.2 s2
    rw [abs_mul, ← m2, ← d2, abs_mul, eq_div_iff (by positivity)]
    ring
  rwa [c1, c2] at f3

/-! ## the waves of the tutorial -/

/-- `A sin (2π (m / 10) t)` on the axis of the tutorial, 10 s with 10001 points: `m` periods -/
def Spec.tutorialWave (A : ℝ) (m : ℕ) : Rel ℝ ℝ :=
  ⟨⟨0, 10, 1 / 1000⟩, (List.range 10001).map fun i : ℕ => A * sin (2 * π * (m / 10) * (i / 1000))⟩

theorem tutorialWave_sampled (A : ℝ) (m : ℕ) : SampledOn (tutorialWave A m) 10000 (sineWave A (2 * π * (m / 10)) 0) where
  rising := by norm_num [tutorialWave]
  whole := by norm_num [tutorialWave]
  two := by norm_num
  samples := by
    refine ⟨_, (getData_ok_iff _ _ _).2 ⟨array_whole _ 10000 (by norm_num [tutorialWave]) (by norm_num [tutorialWave]), ?_, by simp⟩⟩
    simp only [tutorialWave, sineWave, List.map_map, Function.comp_def]
    congr 1
    funext i
    congr 2
    ring

theorem sin_pi_ge (t : ℝ) (h0 : 0 ≤ t) (h1 : t ≤ 6 / 10) : t ≤ sin (π * t) := by
  have hp := pi_pos
  rcases le_total t (1 / 2) with h | h
  · have := mul_le_sin (x := π * t) (by positivity) (by nlinarith)
    rw [← mul_assoc, div_mul_cancel₀ _ hp.ne'] at this
    linarith
  · have := mul_le_sin (x := π * (1 - t)) (by nlinarith) (by nlinarith)
    rw [← mul_assoc, div_mul_cancel₀ _ hp.ne', show π * (1 - t) = π - π * t by ring, sin_pi_sub] at this
    linarith

theorem abs_sin_pi_ge (t : ℝ) (h : |t| ≤ 1 / 2) : 2 * |t| ≤ |sin (π * t)| := by
  have hp := pi_pos
  have := mul_abs_le_abs_sin (x := π * t) (by rw [abs_mul, abs_of_pos hp]; nlinarith)
  rwa [abs_mul, abs_of_pos hp, ← mul_assoc, div_mul_cancel₀ _ hp.ne'] at this

/-- the amplitude spectrum of one wave -/
theorem tutorialWave_amplitude (A : ℝ) (hA : 0 < A) (m : ℕ) (h1 : 1 ≤ m) (h2 : m ≤ 200) :
    ∃ q lf lv, (tutorialWave A m).signalAmplitude = .ok q ∧ q.getData = .ok (lf, lv) ∧ lf.length = 5001 ∧ lv.length = 5001 ∧
      ∀ i (_ : i < lf.length) (_ : i < lv.length), lf[i] = i / (10001 / 1000) ∧
        (i = m → A * (10001 / 2 * (1 - (π * (m / 10000)) ^ 2 / 6) - π * (m / 10000) * 10001 / (4 * m)) ≤ lv[i]) ∧
        (i ≠ m → lv[i] ≤ A * (π * (m / 10000) * 10001 / (4 * |(m : ℝ) + m / 10000 - i|) + π * (m / 10000) * 10001 / (2 * (m + i)))) := by
  obtain ⟨q, lf, lv, e1, e2, e3, e4, e5⟩ := C160_leak (tutorialWave_sampled A m) 0 (by norm_num [tutorialWave]) (by norm_num) (by norm_num)
  refine ⟨q, lf, lv, e1, e2, by rw [e3], by rw [e4], fun i g1 g2 => ?_⟩
  obtain ⟨f1, f2⟩ := e5 i g1 g2
  have hi : i ≤ 5000 := by rw [e3] at g1; omega
  have hm1 : (1 : ℝ) ≤ m := by exact_mod_cast h1
  have hm2 : (m : ℝ) ≤ 200 := by exact_mod_cast h2
  have hi' : (i : ℝ) ≤ 5000 := by exact_mod_cast hi
  have hi0 : (0 : ℝ) ≤ i := by positivity
  have hp := pi_pos
  have hx : (tutorialWave A m).x.sample = 1 / 1000 := rfl
  rw [hx] at f1 f2
  refine ⟨by rw [f1]; norm_num, ?_⟩
  set x := π * ((m : ℝ) / 10000) with hxd
  have hx0 : 0 < x := by positivity
  have hx1 : x ≤ 1 := by
    have := pi_le_four
    rw [hxd]; nlinarith
  have a1 : 2 * π * ((m : ℝ) / 10) * (1 / 1000) / 2 - π * i / (((10000 : ℕ) : ℝ) + 1) = π * (((m : ℝ) + m / 10000 - i) / 10001) := by
    push_cast; ring
  have a2 : 2 * π * ((m : ℝ) / 10) * (1 / 1000) / 2 + π * i / (((10000 : ℕ) : ℝ) + 1) = π * (((m : ℝ) + m / 10000 + i) / 10001) := by
    push_cast; ring
  have a3 : (((10000 : ℕ) : ℝ) + 1) * (2 * π * ((m : ℝ) / 10) * (1 / 1000) / 2) = x + m * π := by rw [hxd]; push_cast; ring
  have a4 : |sin (x + m * π)| = sin x := by
    rw [sin_add_nat_mul_pi, abs_mul, abs_pow, abs_neg, abs_one, one_pow, one_mul, abs_of_pos]
    exact sin_pos_of_pos_of_lt_pi hx0 (by linarith [two_le_pi])
  rw [a1, a2, a3, abs_mul, a4, abs_of_pos hA] at f2
  have hsx : sin x ≤ x := sin_le hx0.le
  have hsx' : x - x ^ 3 / 6 < sin x := sin_gt_sub_cube hx0
  have hs0 : 0 < sin x := sin_pos_of_pos_of_lt_pi hx0 (by linarith [two_le_pi])
  set t := ((m : ℝ) + m / 10000 - i) / 10001 with ht
  set t' := ((m : ℝ) + m / 10000 + i) / 10001 with ht'
  have b2 : (m + i) / 10001 ≤ sin (π * t') := by
    refine le_trans ?_ (sin_pi_ge t' (by rw [ht']; positivity) (by rw [ht']; linarith))
    rw [ht']
    have : (0 : ℝ) ≤ m / 10000 := by positivity
    linarith
  have b2p : (0 : ℝ) < (m + i) / 10001 := by positivity
  have habs : |t| = |(m : ℝ) + m / 10000 - i| / 10001 := by rw [ht, abs_div]; norm_num
  have ht2 : |t| ≤ 1 / 2 := by
    rw [abs_le, ht]
    constructor <;> linarith
  have b1 := abs_sin_pi_ge t ht2
  have htne : t ≠ 0 := by
    intro h
    rw [ht, div_eq_zero_iff] at h
    rcases h with h | h
    · have h3 : (10001 : ℝ) * m = 10000 * i := by linarith
      have h4 : 10001 * m = 10000 * i := by exact_mod_cast h3
      omega
    · norm_num at h
  have b1p : 0 < |t| := abs_pos.2 htne
  have hh := f2 (abs_pos.1 (by linarith)) (by linarith [b2p, b2] : (0 : ℝ) < sin (π * t')).ne'
  rw [abs_of_pos (by linarith : (0 : ℝ) < sin (π * t'))] at hh
  have hv : A * sin x / (2 * sin (π * t')) ≤ A * (x * 10001 / (2 * (m + i))) := by
    have c : A * (x * 10001 / (2 * (m + i))) = A * x / (2 * ((m + i) / 10001)) := by field_simp
    rw [c]
    apply div_le_div₀ (by positivity) (mul_le_mul_of_nonneg_left hsx hA.le) (by positivity) (by linarith)
  obtain ⟨l1, l2⟩ := abs_le.1 hh
  constructor
  · rintro rfl
    have c1 : |sin (π * t)| ≤ x / 10001 := by
      refine abs_sin_le_abs.trans (le_of_eq ?_)
      rw [abs_mul, abs_of_pos hp, habs, add_sub_cancel_left, abs_of_pos (by positivity), hxd]
      ring
    have c2 : A * (10001 / 2 * (1 - x ^ 2 / 6)) ≤ A * sin x / (2 * |sin (π * t)|) := by
      have c : A * (10001 / 2 * (1 - x ^ 2 / 6)) = A * (x - x ^ 3 / 6) / (2 * (x / 10001)) := by field_simp
      rw [c]
      apply div_le_div₀ (by positivity) (mul_le_mul_of_nonneg_left hsx'.le hA.le) (by linarith) (by linarith)
    have c3 : A * (x * 10001 / (2 * (i + i))) = A * (x * 10001 / (4 * i)) := by ring
    rw [c3] at hv
    rw [mul_sub]
    linarith
  · intro _
    have c1 : A * sin x / (2 * |sin (π * t)|) ≤ A * (x * 10001 / (4 * |(m : ℝ) + m / 10000 - i|)) := by
      have hne : 0 < |(m : ℝ) + m / 10000 - i| := by
        have := b1p
        rw [habs] at this
        exact (div_pos_iff_of_pos_right (by norm_num)).1 this
      have c : A * (x * 10001 / (4 * |(m : ℝ) + m / 10000 - i|)) = A * x / (2 * (2 * |t|)) := by rw [habs]; field_simp; norm_num
      rw [c]
      apply div_le_div₀ (by positivity) (mul_le_mul_of_nonneg_left hsx hA.le) (by positivity) (by linarith)
    rw [mul_add]
    linarith

/-- a wave away from its own frequency -/
theorem tutorial_far {A M D P x : ℝ} (hA : 0 ≤ A) (hM : 0 ≤ M) (hD : 0 < D) (hP : 0 < P) {d e : ℝ} (hd : D ≤ d) (he : P ≤ e)
    (h : x ≤ A * (π * (M / 10000) * 10001 / (4 * d) + π * (M / 10000) * 10001 / (2 * e))) :
    x ≤ A * (4 * (M / 10000) * 10001 / (4 * D) + 4 * (M / 10000) * 10001 / (2 * P)) := by
  have hp := pi_le_four
  have hp0 := pi_pos
  refine h.trans (mul_le_mul_of_nonneg_left (add_le_add ?_ ?_) hA)
  · apply div_le_div₀ (by positivity) _ (by positivity) (by linarith)
    exact mul_le_mul_of_nonneg_right (mul_le_mul_of_nonneg_right hp (by positivity)) (by norm_num)
  · apply div_le_div₀ (by positivity) _ (by positivity) (by linarith)
    exact mul_le_mul_of_nonneg_right (mul_le_mul_of_nonneg_right hp (by positivity)) (by norm_num)

/-- **C160.** The sum of the two waves of the tutorial, 1 Hz and a tenth of 20 Hz: neither frequency is among those of the spectrum,
but the amplitude is at least 4990 at 10/10.001 Hz, at least 490 at 200/10.001 Hz and at most 40 at every other frequency. -/
theorem C160_tutorial : ∃ q a lf lv, (tutorialWave 1 10).add (.rel false (tutorialWave (1 / 10) 200)) = .ok q ∧
    q.signalAmplitude = .ok a ∧ a.getData = .ok (lf, lv) ∧ lf.length = 5001 ∧ lv.length = 5001 ∧
    ∀ i (_ : i < lf.length) (_ : i < lv.length), lf[i] = i / (10001 / 1000) ∧ lf[i] ≠ 1 ∧ lf[i] ≠ 20 ∧
      (i = 10 → 4990 ≤ lv[i]) ∧ (i = 200 → 490 ≤ lv[i]) ∧ (i ≠ 10 → i ≠ 200 → lv[i] ≤ 40) := by
  have hb1 := (tutorialWave_sampled 1 10).balanced
  have hb2 := (tutorialWave_sampled (1 / 10) 200).balanced
  have hx : (tutorialWave 1 10).x = (tutorialWave (1 / 10) 200).x := rfl
  obtain ⟨q1, lf1, lv1, w1, w2, w3, w4, w5⟩ := tutorialWave_amplitude 1 one_pos 10 (by norm_num) (by norm_num)
  obtain ⟨q2, lf2, lv2, v1, v2, v3, v4, v5⟩ := tutorialWave_amplitude (1 / 10) (by norm_num) 200 (by norm_num) (by norm_num)
  have hadd : (tutorialWave 1 10).add (.rel false (tutorialWave (1 / 10) 200)) =
      .ok ⟨(tutorialWave 1 10).x, List.zipWith (· + ·) (tutorialWave 1 10).y (tutorialWave (1 / 10) 200).y⟩ := by
    have : (MathOp.add.fn : ℝ → ℝ → Option ℝ) = fun a b => some (a + b) := rfl
    rw [Rel.add, operation_equal_axes false _ _ _ hb1 hb2 hx, this, zipWith_some, finite_map_some]
    rfl
  obtain ⟨a1, a2, a, t1, t2, t3, t4, t5, t6, t7, t8⟩ := C112_triangle _ _ _ hb1 hb2 hx (by norm_num [tutorialWave])
    (by rw [tutorialWave, List.length_map, List.length_range]; norm_num) false (Or.inl hadd)
  rw [w1] at t1
  rw [v1] at t2
  cases t1
  cases t2
  obtain ⟨x1, rfl, z1⟩ := (getData_ok_iff _ _ _).1 w2
  obtain ⟨x2, rfl, z2⟩ := (getData_ok_iff _ _ _).1 v2
  rw [t4] at x1
  refine ⟨_, a, lf1, a.y, hadd, t3, (getData_ok_iff _ _ _).2 ⟨x1, rfl, by omega⟩, w3, by omega, fun i g1 g2 => ?_⟩
  obtain ⟨f1, f2, f3⟩ := w5 i g1 (by omega)
  obtain ⟨-, r2, r3⟩ := v5 i (by omega) (by omega)
  obtain ⟨k1, k2⟩ := t8 i (by omega) (by omega) g2
  have p4 := pi_le_four
  have p0 := pi_pos
  have psq : π ^ 2 ≤ 16 := by nlinarith
  push_cast at f2 f3 r2 r3
  refine ⟨f1, ?_, ?_, ?_, ?_, ?_⟩
  · rw [f1]
    intro h
    have h : (i : ℝ) * 1000 = 10001 := by linarith
    have : i * 1000 = 10001 := by exact_mod_cast h
    omega
  · rw [f1]
    intro h
    have h : (i : ℝ) * 1000 = 200020 := by linarith
    have : i * 1000 = 200020 := by exact_mod_cast h
    omega
  · intro hi
    have lo := f2 hi
    have up := tutorial_far (D := 100) (P := 100) (by norm_num) (by norm_num) (by norm_num) (by norm_num)
      (by subst hi; norm_num) (by subst hi; norm_num) (r3 (by omega))
    have := (abs_le.1 (le_refl |q1.y[i] - q2.y[i]|)).2
    norm_num at lo up
    linarith
  · intro hi
    have lo := r2 hi
    have up := tutorial_far (D := 100) (P := 100) (by norm_num) (by norm_num) (by norm_num) (by norm_num)
      (by subst hi; norm_num) (by subst hi; norm_num) (f3 (by omega))
    have := (abs_le.1 (le_refl |q1.y[i] - q2.y[i]|)).1
    norm_num at lo up
    linarith
  · intro n1 n2
    have hi0 : (0 : ℝ) ≤ i := by positivity
    have up1 := tutorial_far (D := 99 / 100) (P := 10) (by norm_num) (by norm_num) (by norm_num) (by norm_num)
      (by
        rcases (show i ≤ 9 ∨ 11 ≤ i by omega) with h | h
        · have : (i : ℝ) ≤ 9 := by exact_mod_cast h
          exact le_trans (by linarith) (le_abs_self _)
        · have : (11 : ℝ) ≤ i := by exact_mod_cast h
          exact le_trans (by linarith) (neg_le_abs _)) (by linarith) (f3 n1)
    have up2 := tutorial_far (D := 97 / 100) (P := 200) (by norm_num) (by norm_num) (by norm_num) (by norm_num)
      (by
        rcases (show i ≤ 199 ∨ 201 ≤ i by omega) with h | h
        · have : (i : ℝ) ≤ 199 := by exact_mod_cast h
          exact le_trans (by linarith) (le_abs_self _)
        · have : (201 : ℝ) ≤ i := by exact_mod_cast h
          exact le_trans (by linarith) (neg_le_abs _)) (by linarith) (r3 n2)
    norm_num at up1 up2
    linarith

-- a signal that begins at 3 s: the spectrum has the frequencies of the six times 0 to 5, the kernel is that of three samples
example : ∃ sp lf lv, (⟨⟨3, 5, 1⟩, (List.range 3).map fun i : ℕ => sineWave 2 1 0 (3 + (i : ℝ) * 1)⟩ : Rel ℝ ℝ).getSpectrum = .ok sp ∧
    sp.getData = .ok (lf, lv) ∧ lf.length = 4 ∧ ∀ (h : 1 < lf.length), lf[1] = 1 / 6 := by
  have hs : SampledOn (⟨⟨3, 5, 1⟩, (List.range 3).map fun i : ℕ => sineWave 2 1 0 (3 + (i : ℝ) * 1)⟩ : Rel ℝ ℝ) 2 (sineWave 2 1 0) :=
    ⟨by norm_num, by norm_num, by norm_num, ⟨_, (getData_ok_iff _ _ _).2 ⟨array_whole _ 2 (by norm_num) (by norm_num), by
      simp only [List.map_map, Function.comp_def], by simp⟩⟩⟩
  obtain ⟨sp, lf, lv, e1, e2, e3, e4, e5⟩ := C160_spectrum hs 3 (by norm_num) 6 (by norm_num)
  refine ⟨sp, lf, lv, e1, e2, e3, fun h => ?_⟩
  rw [(e5 1 h (by omega)).1]
  norm_num

example := C160_amplitude (tutorialWave_sampled 1 10) 0 (by norm_num [tutorialWave]) 10001 (by norm_num)
example := C160_leak (tutorialWave_sampled 1 10) 0 (by norm_num [tutorialWave]) (by norm_num) (by norm_num)

end

end SweepDesign
