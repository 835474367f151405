import Verif.Lemmas.Inverse
import Verif.Props.Spectral
import Verif.Props.SpectrumSignal

/-!
# C79: from a spectrum to a signal and back
-/

set_option linter.unusedSectionVars false

namespace SweepDesign
open Spec

/-- the value a spectrum has after the way to a signal of `n` samples and back: the imaginary part is lost at 0 and at half the
length -/
noncomputable def Spec.kept (y : List ℂ) (n k : ℕ) : ℂ :=
  if k = 0 ∨ 2 * k = n then ((y.getD k 0).re : ℂ) else y.getD k 0

theorem twoSided_kept (y : List ℂ) (n k : ℕ) (hk : 2 * k ≤ n) : twoSided y n k = kept y n k := by
  unfold twoSided kept hermitianExt
  rw [if_pos hk]
  rfl

theorem countP_zero_start {t : Axis ℝ} {l : List ℝ} (hl : t.array = .ok l) (h0 : t.start = 0) (hinc : t.start ≤ t.stop) :
    (l.countP fun v => decide (v < 0)) = 0 := by
  rw [List.countP_eq_zero]
  intro v hv
  obtain ⟨i, hi, rfl⟩ := List.mem_iff_getElem.1 hv
  rw [(Axis.array_spaced hl).2 i hi, h0]
  have := t.step_nonneg hinc
  simp only [zero_add, decide_eq_true_eq, not_lt]
  positivity

/-- a signal on an axis that starts at 0 whose samples come from `irfft`: its spectrum -/
theorem spectrum_of_irfft (t : Axis ℝ) (h0 : t.start = 0) (hinc : t.start < t.stop) (n : ℕ) (hn : 2 ≤ n) (hsz : t.size = .ok n)
    (w : List ℝ) (hw : w.length = n) (y : List ℂ) (hd : ∀ k < n, dft n (at0 w) k = twoSided y n k) :
    Rel.getSpectrum ⟨t, w⟩ = .ok ⟨⟨0, ((n / 2 : ℕ) : ℝ) * (1 / ((n : ℝ) * t.sample)), 1 / ((n : ℝ) * t.sample)⟩,
      (List.range (n / 2 + 1)).map fun k => kept y n k⟩ := by
  have hb : Balanced (⟨t, w⟩ : Rel ℝ ℝ) := by show t.size = _; rw [hsz, hw]
  obtain ⟨⟨l, w'⟩, hdt⟩ := (balanced_iff_getData _).1 hb
  obtain ⟨hx, rfl, hlen⟩ := (getData_ok_iff _ _ _).1 hdt
  obtain ⟨y', z, e1, e2, e3, e4, e5, e6⟩ := getSpectrum_eq _ hb hinc.le (by simp only; omega)
  obtain ⟨p1, p2⟩ := e3 h0.le (by simp only; linarith)
  simp only at p2
  subst p2
  rw [p1, reorder_sorted t l y' hx hlen hinc.le, countP_zero_start hx h0 hinc.le] at e4
  simp only [List.rotate_zero, Except.ok.injEq] at e4
  subst e4
  rw [e6]
  simp only [hw]
  congr 2
  refine List.map_congr_left fun k hk => ?_
  have := List.mem_range.1 hk
  rw [hd k (by omega), twoSided_kept _ _ _ (by omega)]

/-- **C79.** A spectrum turned into a signal on a time axis of `n ≥ 2` points that starts at 0, and back: `n / 2 + 1` values on the
frequencies `k / (n sample)`, each of them the value with the same index (0 if there is none), where the imaginary parts of the
first value and, for even `n`, of the last one are lost. -/
theorem C79_time_given (s : Rel ℝ ℂ) (t : Axis ℝ) (h0 : t.start = 0) (hinc : t.start < t.stop) (n : ℕ) (hn : 2 ≤ n)
    (hsz : t.size = .ok n) :
    ∃ q p, s.getSignal (.axis t) = .ok q ∧ q.x = t ∧ q.y.length = n ∧ q.getSpectrum = .ok p ∧
      p.x = ⟨0, ((n / 2 : ℕ) : ℝ) * (1 / ((n : ℝ) * t.sample)), 1 / ((n : ℝ) * t.sample)⟩ ∧ p.y.length = n / 2 + 1 ∧
      ∀ k (hk : k < p.y.length), p.y[k] = kept s.y n k := by
  obtain ⟨w, h1, h2, h3⟩ := dft_irfft s.y n (by omega) (some (n : ℤ)) rfl
  obtain ⟨q, q1, q2, q3⟩ := getSignal_axis s t w n hsz h1 h2
  obtain ⟨hs, -⟩ := (t.size_ok_iff n).1 hsz
  have hx := t.array_eq hs
  have hlen : (linspace t.start t.stop (t.steps + 1)).length = w.length := by
    have := Axis.size_of_array hx
    rw [hsz] at this
    simp only [Except.ok.injEq] at this
    omega
  rw [reorder_sorted t _ w hx hlen hinc.le, countP_zero_start hx h0 hinc.le] at q1
  simp only [List.rotate_zero, Except.ok.injEq] at q1
  subst q1
  refine ⟨⟨t, w⟩, _, q3, rfl, h2, spectrum_of_irfft t h0 hinc n hn hsz w h2 s.y h3, rfl, by simp, fun k hk => by simp⟩

/-- **C79.** The way there and back is lossless exactly for spectra of `n / 2 + 1` values that are real at the first and, for even
`n`, at the last one. -/
theorem C79_lossless (s : Rel ℝ ℂ) (t : Axis ℝ) (h0 : t.start = 0) (hinc : t.start < t.stop) (n : ℕ) (hn : 2 ≤ n)
    (hsz : t.size = .ok n) :
    ∃ q p, s.getSignal (.axis t) = .ok q ∧ q.getSpectrum = .ok p ∧
      (p.y = s.y ↔ s.y.length = n / 2 + 1 ∧ (s.y.getD 0 0).im = 0 ∧ (n % 2 = 0 → (s.y.getD (n / 2) 0).im = 0)) := by
  obtain ⟨q, p, h1, -, -, h2, -, h3, h4⟩ := C79_time_given s t h0 hinc n hn hsz
  refine ⟨q, p, h1, h2, ?_⟩
  have hre : ∀ z : ℂ, (z.re : ℂ) = z ↔ z.im = 0 := fun z => by
    rw [Complex.ext_iff]; simp [eq_comm]
  constructor
  · intro e
    have hl : s.y.length = n / 2 + 1 := by rw [← e, h3]
    have hk : ∀ k, k ≤ n / 2 → kept s.y n k = s.y.getD k 0 := by
      intro k hk
      rw [← h4 k (by omega), getD_lt _ _ _ (by omega)]
      exact List.getElem_of_eq e _
    refine ⟨hl, ?_, fun he => ?_⟩
    · have := hk 0 (by omega)
      rw [kept, if_pos (.inl rfl)] at this
      exact (hre _).1 this
    · have := hk (n / 2) le_rfl
      rw [kept, if_pos (.inr (by omega))] at this
      exact (hre _).1 this
  · rintro ⟨hl, a, b⟩
    refine List.ext_getElem (by omega) fun k k1 k2 => ?_
    rw [h4 k k1, kept, getD_lt _ _ _ k2]
    split
    · rename_i h
      rw [hre]
      rcases h with rfl | h
      · rw [getD_lt _ _ _ k2] at a; exact a
      · have := b (by omega)
        rw [getD_lt _ _ _ (by omega)] at this
        have e : n / 2 = k := by omega
        simpa only [e] using this
    · rfl

/-- **C79.** Without a time axis: `m ≥ 2` values come back on an axis from 0 to `f_last - f_first` with as many values; the imaginary
parts of the first and the last are lost. -/
theorem C79_default (s : Rel ℝ ℂ) (m : ℕ) (hm : 2 ≤ m) (hl : s.y.length = m) (hinc : s.x.start < s.x.stop) :
    ∃ q p, s.getSignal = .ok q ∧ q.getSpectrum = .ok p ∧
      p.x = ⟨0, s.x.stop - s.x.start, (s.x.stop - s.x.start) / (m - 1)⟩ ∧ p.y.length = m ∧
      ∀ k (hk : k < p.y.length), p.y[k] = kept s.y (2 * (m - 1)) k := by
  obtain ⟨w, w0, w2, h⟩ := getSignal_none m hm s.y hl
  obtain ⟨q, q1, q2, q3, q4, q5, q6⟩ := h s.x hinc none (by simp)
  have hl2 : (2 * ((s.y.length : ℤ) - 1)) = ((2 * (m - 1) : ℕ) : ℤ) := by omega
  obtain ⟨w', w1, -, w3⟩ := dft_irfft s.y (2 * (m - 1)) (by omega) none hl2
  rw [w0, Except.ok.injEq] at w1
  subst w1
  have hd : 0 < s.x.stop - s.x.start := by linarith
  have hqs : 0 < q.x.sample := by rw [q4]; positivity
  have hqx : q.x.start = 0 := by rw [q3]; rfl
  have hqi : q.x.start < q.x.stop := by
    rw [q5]
    have : (0 : ℝ) < (2 * (m - 1) - 1 : ℕ) := by exact_mod_cast (by omega : 0 < 2 * (m - 1) - 1)
    nlinarith
  obtain ⟨t, y⟩ := q
  simp only at q2 hqs hqx hqi q4
  subst q2
  have hsp := spectrum_of_irfft t hqx hqi (2 * (m - 1)) (by omega) (by rw [← w2]; exact q6) y w2 s.y w3
  have hm1 : ((m - 1 : ℕ) : ℝ) = (m : ℝ) - 1 := by rw [Nat.cast_sub (by omega)]; simp
  have hm0 : (0 : ℝ) < (m : ℝ) - 1 := by rw [← hm1]; exact_mod_cast (by omega : 0 < m - 1)
  refine ⟨_, _, q1, hsp, ?_, by simp; omega, fun k hk => by simp⟩
  have e : 1 / (((2 * (m - 1) : ℕ) : ℝ) * t.sample) = (s.x.stop - s.x.start) / (m - 1) := by
    rw [q4]
    push_cast
    rw [hm1]
    field_simp
  simp only [e, Axis.mk.injEq, true_and, and_true]
  rw [show 2 * (m - 1) / 2 = m - 1 by omega, hm1]
  field_simp

/-- the values `1, i, 2` come back from a signal of four samples; with `i` in the first place it is lost -/
example : (∃ q p, Rel.getSignal ⟨⟨0, 2, 1⟩, [1, Complex.I, 2]⟩ (.axis ⟨0, 3, 1⟩) = .ok q ∧ q.getSpectrum = .ok p ∧
      p.y = [1, Complex.I, 2]) ∧
    ∃ q p, Rel.getSignal ⟨⟨3, 5, 1⟩, [Complex.I, Complex.I, 2]⟩ = .ok q ∧ q.getSpectrum = .ok p ∧ p.x = ⟨0, 2, 1⟩ ∧
      p.y = [0, Complex.I, 2] := by
  constructor
  · have hs : (⟨0, 3, 1⟩ : Axis ℝ).size = .ok 4 := by
      rw [Axis.size_of_array (array_whole ⟨0, 3, 1⟩ 3 (by norm_num) (by norm_num))]; simp
    obtain ⟨q, p, h1, h2, h3⟩ := C79_lossless ⟨⟨0, 2, 1⟩, [1, Complex.I, 2]⟩ ⟨0, 3, 1⟩ rfl (by norm_num) 4 (by norm_num) hs
    exact ⟨q, p, h1, h2, h3.2 ⟨rfl, by simp, by simp⟩⟩
  · obtain ⟨q, p, h1, h2, h3, h4, h5⟩ := C79_default ⟨⟨3, 5, 1⟩, [Complex.I, Complex.I, 2]⟩ 3 (by norm_num) rfl (by norm_num)
    refine ⟨q, p, h1, h2, by rw [h3]; norm_num, List.ext_getElem (by rw [h4]; rfl) fun k k1 k2 => ?_⟩
    rw [h5 k k1]
    match k, k2 with
    | 0, _ => simp [kept]
    | 1, _ => simp [kept]
    | 2, _ => simp [kept]

end SweepDesign
