import Verif.Props.Accuracy

/-!
# C159: what `diff`, `integrate`, `get_norm` and resampling make of a sine wave

Where C129 bounds the errors for smooth functions, here are the exact results for samples of `A sin (w t + p)`.
-/

set_option linter.unusedSectionVars false

namespace SweepDesign
open Spec Real

noncomputable section

/-- the sine wave of amplitude `A`, angular frequency `w` and phase `p` -/
def Spec.sineWave (A w p t : ℝ) : ℝ := A * sin (w * t + p)

/-- the relation is on `k ≥ 1` whole steps of its sample and holds the values of `f` -/
structure Spec.SampledOn (r : Rel ℝ ℝ) (k : ℕ) (f : ℝ → ℝ) : Prop where
  rising : 0 < r.x.sample
  whole : r.x.stop - r.x.start = k * r.x.sample
  two : 1 ≤ k
  samples : SamplesOf r f

section
variable {r : Rel ℝ ℝ} {k : ℕ} {f : ℝ → ℝ}

theorem Spec.SampledOn.balanced (h : SampledOn r k f) : Balanced r :=
  (balanced_iff_getData r).2 (by obtain ⟨lx, h⟩ := h.samples; exact ⟨_, h⟩)

theorem whole_accepted {r : Rel ℝ ℝ} {k : ℕ} (hb : Balanced r) (hs : 0 < r.x.sample) (hw : r.x.stop - r.x.start = k * r.x.sample)
    (h1 : 1 ≤ k) : (∃ q, r.integrate = .ok q) ∧ ∃ q, r.diff = .ok q := by
  have e : (r.x.stop - r.x.start) / r.x.sample = k := by
    rw [hw, mul_div_assoc, div_self hs.ne', mul_one]
  have hk : (1 : ℝ) ≤ k := by exact_mod_cast h1
  have hl : r.y.length = k + 1 := by
    obtain ⟨⟨lx, ly⟩, hd⟩ := (balanced_iff_getData r).1 hb
    obtain ⟨hx, rfl, hlen⟩ := (getData_ok_iff _ _ _).1 hd
    rw [array_whole r.x k hs hw, Except.ok.injEq] at hx
    rw [← hlen, ← hx]
    simp
  refine ((C15_accepted r hb).1 (by rw [e]; linarith) (by omega)).1 ?_
  rw [e]
  rintro ⟨n, hn⟩
  have h2 : (2 : ℝ) * k = 2 * n + 1 := by rw [hn]; ring
  have h3 : (2 : ℤ) * k = 2 * n + 1 := by exact_mod_cast h2
  omega

theorem Spec.SampledOn.accepted (h : SampledOn r k f) : (∃ q, r.integrate = .ok q) ∧ ∃ q, r.diff = .ok q :=
  whole_accepted h.balanced h.rising h.whole h.two

/-- the values of `diff` for any function -/
theorem diff_sampled (h : SampledOn r k f) : ∃ q, r.diff = .ok q ∧
    SamplesOf q fun t => (f (t + r.x.sample / 2) - f (t - r.x.sample / 2)) / r.x.sample := by
  obtain ⟨q, hq⟩ := h.accepted.2
  obtain ⟨hl, hv⟩ := samples_whole h.rising h.whole h.samples
  obtain ⟨xs, e1, e2, e3⟩ := diff_axis h.rising h.whole hl hq
  obtain ⟨-, -, -, -, -, -, h6⟩ := C14_diff_values r q hq
  have hlen := ((getData_ok_iff _ _ _).1 e1).2.2
  refine ⟨q, hq, xs, ?_⟩
  rw [e1]
  congr 2
  apply List.ext_getElem (by simp [hlen])
  intro i a b
  rw [List.getElem_map, h6 i a, e3 i (by omega), hv i (by omega), hv (i + 1) (by omega), smul_eq_mul]
  push_cast
  rw [show r.x.start + (i : ℝ) * r.x.sample + r.x.sample / 2 + r.x.sample / 2 = r.x.start + ((i : ℝ) + 1) * r.x.sample by ring,
    show r.x.start + (i : ℝ) * r.x.sample + r.x.sample / 2 - r.x.sample / 2 = r.x.start + (i : ℝ) * r.x.sample by ring]
  field_simp

/-- the values of `integrate` for a function whose trapezoids are known -/
theorem integrate_sampled (h : SampledOn r k f) (g : ℝ → ℝ) (hg : ∀ n : ℕ, r.x.sample * ∑ j ∈ Finset.range n,
      (f (r.x.start + (j : ℝ) * r.x.sample) + f (r.x.start + ((j : ℝ) + 1) * r.x.sample)) / 2 = g (r.x.start + (n : ℝ) * r.x.sample)) :
    (∃ q, r.integrate = .ok q ∧ SamplesOf q g) ∧ r.oneIntegrate = .ok (g r.x.stop) := by
  obtain ⟨hl, hv⟩ := samples_whole h.rising h.whole h.samples
  have hsum : ∀ n, n ≤ k → r.x.sample * ∑ j ∈ Finset.range n, (r.y.getD j 0 + r.y.getD (j + 1) 0) / 2 =
      g (r.x.start + (n : ℝ) * r.x.sample) := by
    intro n hn
    rw [← hg n]
    congr 1
    apply Finset.sum_congr rfl
    intro j hj
    have := Finset.mem_range.1 hj
    rw [hv j (by omega), hv (j + 1) (by omega)]
    push_cast
    rfl
  constructor
  · obtain ⟨q, hq⟩ := h.accepted.1
    obtain ⟨h1, h2, h3, h4, h5, h6⟩ := C13_integrate_values r q hq
    have hk1 := h.two
    have ha := array_whole q.x (k - 1) (by rw [h3]; exact h.rising) (by
      rw [h1, h2, h3]; push_cast [Nat.cast_sub hk1]; linarith [h.whole])
    refine ⟨q, hq, _, (getData_ok_iff _ _ _).2 ⟨ha, ?_, by simp⟩⟩
    apply List.ext_getElem (by simp; omega)
    intro i a b
    rw [h6 i b, smul_eq_mul, hsum (i + 1) (by omega)]
    simp only [List.getElem_map, List.getElem_range]
    congr 1
    rw [h1, h3]
    push_cast
    ring
  · rw [oneIntegrate_sum r h.balanced]
    have hst : r.x.step = r.x.sample := by
      have hsp := Axis.array_spaced (array_whole r.x k h.rising h.whole)
      have hn : r.x.steps = k := by have := hsp.1; simp at this; omega
      have : (k : ℝ) ≠ 0 := by have := h.two; positivity
      rw [Axis.step, hn, h.whole]; field_simp
    rw [hl, Nat.add_sub_cancel, ← Finset.mul_sum, hst, hsum k le_rfl]
    congr 2
    linarith [h.whole]

/-- the values of `diff` after `integrate` for any function -/
theorem back_sampled (h : SampledOn r k f) (h2 : 2 ≤ k) : ∃ q d, r.integrate = .ok q ∧ q.diff = .ok d ∧
    SamplesOf d fun t => (f (t - r.x.sample / 2) + f (t + r.x.sample / 2)) / 2 := by
  obtain ⟨hl, hv⟩ := samples_whole h.rising h.whole h.samples
  obtain ⟨q, hq⟩ := h.accepted.1
  obtain ⟨a1, a2, a3, a4, a5, -⟩ := C13_integrate_values r q hq
  have hbq : Balanced q := (balanced_iff _).2 ((Axis.size_ok_iff _ _).1 a5)
  obtain ⟨d, hd⟩ := (whole_accepted hbq (by rw [a3]; exact h.rising) (k := k - 1)
    (by rw [a1, a2, a3]; push_cast [Nat.cast_sub h.two]; linarith [h.whole]) (by omega)).2
  obtain ⟨b1, b2, b3, b4, b5⟩ := C16_diff_integrate r q d hq hd
  have ha := array_whole d.x (k - 2) (by rw [b3]; exact h.rising) (by
    rw [b1, b2, b3]; push_cast [Nat.cast_sub h2]; linarith [h.whole])
  refine ⟨q, d, hq, hd, _, (getData_ok_iff _ _ _).2 ⟨ha, ?_, by simp⟩⟩
  apply List.ext_getElem (by simp; omega)
  intro i a b
  rw [b5 i b, hv _ (by omega), hv _ (by omega)]
  simp only [List.getElem_map, List.getElem_range]
  rw [b1, b3]
  push_cast
  congr 2 <;> congr 1 <;> ring

/-- the norm for a function the trapezoids of whose square are known -/
theorem norm_sampled [PyPow ℝ] (h : SampledOn r k f) (g : ℝ → ℝ) (hg : ∀ n : ℕ, r.x.sample * ∑ j ∈ Finset.range n,
      (f (r.x.start + (j : ℝ) * r.x.sample) ^ 2 + f (r.x.start + ((j : ℝ) + 1) * r.x.sample) ^ 2) / 2 =
        g (r.x.start + (n : ℝ) * r.x.sample)) :
    r.getNorm = .ok (g r.x.stop / r.x.sample) := by
  obtain ⟨lx, hr⟩ := h.samples
  have hr2 : (⟨r.x, r.y.map fun v => v ^ 2⟩ : Rel ℝ ℝ).getData = .ok (lx, lx.map fun t => f t ^ 2) := by
    obtain ⟨hx, hy, hlen⟩ := (getData_ok_iff _ _ _).1 hr
    refine (getData_ok_iff _ _ _).2 ⟨hx, ?_, by simp⟩
    rw [← hy, List.map_map]; rfl
  have hone := (integrate_sampled (r := ⟨r.x, r.y.map fun v => v ^ 2⟩) (f := fun t => f t ^ 2)
    ⟨h.rising, h.whole, h.two, lx, hr2⟩ g hg).2
  have hsq : r.pow (.other (.num 2)) = .ok ⟨r.x, r.y.map fun a => a ^ 2⟩ := by
    rw [Rel.pow, operation_num r 2 .pow h.balanced]
    have : (r.y.map fun a => MathOp.fn .pow a 2) = (r.y.map fun a => a ^ 2).map some := by
      simp [MathOp.fn, PyPow.ppow_two, pow_two]
    rw [this, finite_map_some]
    rfl
  simp only [Rel.getNorm, hsq, except_bind_ok, hone, except_pure, smul_eq_mul]
  rw [div_eq_inv_mul]

end

/-! ## sums of sines -/

theorem sin_add_sin_step (a d : ℝ) : (sin a + sin (a + d)) * sin (d / 2) = cos (d / 2) * (cos a - cos (a + d)) := by
  obtain ⟨b, rfl⟩ : ∃ b, a = b - d / 2 := ⟨a + d / 2, by ring⟩
  rw [show b - d / 2 + d = b + d / 2 by ring, sin_add, sin_sub, cos_add, cos_sub]
  ring

theorem cos_add_cos_step (a d : ℝ) : (cos a + cos (a + d)) * sin (d / 2) = cos (d / 2) * (sin (a + d) - sin a) := by
  obtain ⟨b, rfl⟩ : ∃ b, a = b - d / 2 := ⟨a + d / 2, by ring⟩
  rw [show b - d / 2 + d = b + d / 2 by ring, sin_add, sin_sub, cos_add, cos_sub]
  ring

/-- trapezoids of a cosine -/
theorem cos_trapezoids (a d : ℝ) (h : sin (d / 2) ≠ 0) (n : ℕ) :
    ∑ j ∈ Finset.range n, (cos (a + (j : ℝ) * d) + cos (a + ((j : ℝ) + 1) * d)) / 2 =
      cos (d / 2) / sin (d / 2) / 2 * (sin (a + (n : ℝ) * d) - sin a) := by
  induction n with
  | zero => simp
  | succ n ih =>
    rw [Finset.sum_range_succ, ih]
    have e := cos_add_cos_step (a + (n : ℝ) * d) d
    rw [show a + (n : ℝ) * d + d = a + ((n : ℝ) + 1) * d by ring, ← eq_div_iff h, mul_div_right_comm] at e
    rw [e]
    push_cast
    ring

/-- trapezoids of a sine -/
theorem sin_trapezoids (a d : ℝ) (h : sin (d / 2) ≠ 0) (n : ℕ) :
    ∑ j ∈ Finset.range n, (sin (a + (j : ℝ) * d) + sin (a + ((j : ℝ) + 1) * d)) / 2 =
      cos (d / 2) / sin (d / 2) / 2 * (cos a - cos (a + (n : ℝ) * d)) := by
  induction n with
  | zero => simp
  | succ n ih =>
    rw [Finset.sum_range_succ, ih]
    have e := sin_add_sin_step (a + (n : ℝ) * d) d
    rw [show a + (n : ℝ) * d + d = a + ((n : ℝ) + 1) * d by ring, ← eq_div_iff h, mul_div_right_comm] at e
    rw [e]
    push_cast
    ring

/-- where `sin (d / 2)` vanishes all samples are equal -/
theorem sin_periodic (a d : ℝ) (h : sin (d / 2) = 0) (n : ℕ) : sin (a + (n : ℝ) * d) = sin a := by
  obtain ⟨m, hm⟩ := sin_eq_zero_iff.1 h
  rw [show a + (n : ℝ) * d = a + ((n * m : ℤ) : ℝ) * (2 * π) by push_cast; rw [show d = 2 * ((m : ℝ) * π) by linarith]; ring]
  exact sin_add_int_mul_two_pi a _

/-- the same, of a cosine -/
theorem cos_periodic (a d : ℝ) (h : sin (d / 2) = 0) (n : ℕ) : cos (a + (n : ℝ) * d) = cos a := by
  obtain ⟨m, hm⟩ := sin_eq_zero_iff.1 h
  rw [show a + (n : ℝ) * d = a + ((n * m : ℤ) : ℝ) * (2 * π) by push_cast; rw [show d = 2 * ((m : ℝ) * π) by linarith]; ring]
  exact cos_add_int_mul_two_pi a _

/-! ## C159 -/

variable {r : Rel ℝ ℝ} {k : ℕ} {A w p : ℝ}

/-- **C159.** `diff` turns a sine wave into the cosine wave at the middle of the samples, times `2 / s * sin (w s / 2)` instead of `w`. -/
theorem C159_diff (h : SampledOn r k (sineWave A w p)) :
    ∃ q, r.diff = .ok q ∧ SamplesOf q fun t => 2 / r.x.sample * sin (w * r.x.sample / 2) * (A * cos (w * t + p)) := by
  obtain ⟨q, h1, h2⟩ := diff_sampled h
  refine ⟨q, h1, ?_⟩
  convert h2 using 2 with t
  simp only [sineWave]
  rw [show w * (t + r.x.sample / 2) + p = (w * t + p) + w * r.x.sample / 2 by ring,
    show w * (t - r.x.sample / 2) + p = (w * t + p) - w * r.x.sample / 2 by ring, sin_add, sin_sub]
  ring

/-- **C159.** `integrate` turns it into the cosine wave from the start to each point, times `s / 2 * cot (w s / 2)` instead of `1 / w`;
`one_integrate` gives the last of these values. -/
theorem C159_integrate (h : SampledOn r k (sineWave A w p)) (hw : sin (w * r.x.sample / 2) ≠ 0) :
    (∃ q, r.integrate = .ok q ∧ SamplesOf q fun t =>
      r.x.sample / 2 * (cos (w * r.x.sample / 2) / sin (w * r.x.sample / 2)) * (A * cos (w * r.x.start + p) - A * cos (w * t + p))) ∧
    r.oneIntegrate = .ok (r.x.sample / 2 * (cos (w * r.x.sample / 2) / sin (w * r.x.sample / 2)) *
      (A * cos (w * r.x.start + p) - A * cos (w * r.x.stop + p))) := by
  refine integrate_sampled h (fun t => r.x.sample / 2 * (cos (w * r.x.sample / 2) / sin (w * r.x.sample / 2)) *
    (A * cos (w * r.x.start + p) - A * cos (w * t + p))) fun n => ?_
  have e := sin_trapezoids (w * r.x.start + p) (w * r.x.sample) hw n
  have e2 : ∑ j ∈ Finset.range n, (sineWave A w p (r.x.start + (j : ℝ) * r.x.sample) +
      sineWave A w p (r.x.start + ((j : ℝ) + 1) * r.x.sample)) / 2 =
      A * ∑ j ∈ Finset.range n, (sin (w * r.x.start + p + (j : ℝ) * (w * r.x.sample)) +
        sin (w * r.x.start + p + ((j : ℝ) + 1) * (w * r.x.sample))) / 2 := by
    rw [Finset.mul_sum]
    refine Finset.sum_congr rfl fun j _ => ?_
    simp only [sineWave]
    rw [show w * (r.x.start + (j : ℝ) * r.x.sample) + p = w * r.x.start + p + (j : ℝ) * (w * r.x.sample) by ring,
      show w * (r.x.start + ((j : ℝ) + 1) * r.x.sample) + p = w * r.x.start + p + ((j : ℝ) + 1) * (w * r.x.sample) by ring]
    ring
  rw [e2, e, show w * (r.x.start + (n : ℝ) * r.x.sample) + p = w * r.x.start + p + (n : ℝ) * (w * r.x.sample) by ring]
  ring

/-- **C159.** If the sample is a whole number of periods the samples are all equal, and so the integral is a straight line. -/
theorem C159_integrate_alias (h : SampledOn r k (sineWave A w p)) (hw : sin (w * r.x.sample / 2) = 0) :
    (∃ q, r.integrate = .ok q ∧ SamplesOf q fun t => A * sin (w * r.x.start + p) * (t - r.x.start)) ∧
    r.oneIntegrate = .ok (A * sin (w * r.x.start + p) * (r.x.stop - r.x.start)) := by
  refine integrate_sampled h (fun t => A * sin (w * r.x.start + p) * (t - r.x.start)) fun n => ?_
  have e : ∀ j : ℕ, sineWave A w p (r.x.start + (j : ℝ) * r.x.sample) = A * sin (w * r.x.start + p) := by
    intro j
    simp only [sineWave]
    rw [show w * (r.x.start + (j : ℝ) * r.x.sample) + p = w * r.x.start + p + (j : ℝ) * (w * r.x.sample) by ring,
      sin_periodic _ _ hw]
  have e' : ∀ j : ℕ, sineWave A w p (r.x.start + ((j : ℝ) + 1) * r.x.sample) = A * sin (w * r.x.start + p) := fun j => by
    have := e (j + 1)
    push_cast at this
    exact this
  simp only [e, e', Finset.sum_const, Finset.card_range, nsmul_eq_mul]
  ring

/-- **C159.** Differentiating the integral gives the wave back smaller, by the factor `cos (w s / 2)`. -/
theorem C159_back (h : SampledOn r k (sineWave A w p)) (h2 : 2 ≤ k) :
    ∃ q d, r.integrate = .ok q ∧ q.diff = .ok d ∧ SamplesOf d fun t => cos (w * r.x.sample / 2) * sineWave A w p t := by
  obtain ⟨q, d, e1, e2, e3⟩ := back_sampled h h2
  refine ⟨q, d, e1, e2, ?_⟩
  convert e3 using 2 with t
  simp only [sineWave]
  rw [show w * (t + r.x.sample / 2) + p = (w * t + p) + w * r.x.sample / 2 by ring,
    show w * (t - r.x.sample / 2) + p = (w * t + p) - w * r.x.sample / 2 by ring, sin_add (w * t + p), sin_sub (w * t + p)]
  ring

theorem square_sine (A x : ℝ) : (A * sin x) ^ 2 = A ^ 2 / 2 * (1 - cos (2 * x)) := by
  rw [cos_two_mul, mul_pow, sin_sq]
  ring

/-- **C159.** The norm of a sine wave on `k` steps is `k A² / 2` up to a term that depends on the phases at both ends. -/
theorem C159_norm [PyPow ℝ] (h : SampledOn r k (sineWave A w p)) (hw : sin (w * r.x.sample) ≠ 0) :
    r.getNorm = .ok (A ^ 2 / 2 * (k - cos (w * r.x.sample) / sin (w * r.x.sample) / 2 *
      (sin (2 * (w * r.x.stop + p)) - sin (2 * (w * r.x.start + p))))) := by
  have hs := h.rising
  have hn := norm_sampled h (fun t => r.x.sample * (A ^ 2 / 2 * ((t - r.x.start) / r.x.sample -
    cos (w * r.x.sample) / sin (w * r.x.sample) / 2 * (sin (2 * (w * t + p)) - sin (2 * (w * r.x.start + p)))))) fun n => by
    have e := cos_trapezoids (2 * (w * r.x.start + p)) (2 * (w * r.x.sample)) (by rwa [mul_div_cancel_left₀ _ two_ne_zero]) n
    rw [mul_div_cancel_left₀ _ (two_ne_zero (α := ℝ))] at e
    congr 1
    have e2 : ∑ j ∈ Finset.range n, (sineWave A w p (r.x.start + (j : ℝ) * r.x.sample) ^ 2 +
        sineWave A w p (r.x.start + ((j : ℝ) + 1) * r.x.sample) ^ 2) / 2 =
        A ^ 2 / 2 * (n - ∑ j ∈ Finset.range n, (cos (2 * (w * r.x.start + p) + (j : ℝ) * (2 * (w * r.x.sample))) +
          cos (2 * (w * r.x.start + p) + ((j : ℝ) + 1) * (2 * (w * r.x.sample)))) / 2) := by
      have hc : (n : ℝ) = ∑ j ∈ Finset.range n, (1 : ℝ) := by simp
      rw [hc, ← Finset.sum_sub_distrib, Finset.mul_sum]
      refine Finset.sum_congr rfl fun j _ => ?_
      simp only [sineWave, square_sine]
      rw [show 2 * (w * (r.x.start + (j : ℝ) * r.x.sample) + p) = 2 * (w * r.x.start + p) + (j : ℝ) * (2 * (w * r.x.sample)) by ring,
        show 2 * (w * (r.x.start + ((j : ℝ) + 1) * r.x.sample) + p) =
          2 * (w * r.x.start + p) + ((j : ℝ) + 1) * (2 * (w * r.x.sample)) by ring]
      ring
    rw [e2, e, add_sub_cancel_left, mul_div_assoc, div_self hs.ne', mul_one,
      show 2 * (w * (r.x.start + (n : ℝ) * r.x.sample) + p) = 2 * (w * r.x.start + p) + (n : ℝ) * (2 * (w * r.x.sample)) by ring]
  rw [hn, mul_div_cancel_left₀ _ hs.ne', h.whole, mul_div_assoc, div_self hs.ne', mul_one]

/-- **C159.** Over a whole number of half periods the norm is `k A² / 2`, whatever the phase. -/
theorem C159_norm_periods [PyPow ℝ] (h : SampledOn r k (sineWave A w p)) (hw : sin (w * r.x.sample) ≠ 0) (m : ℤ)
    (hm : w * (r.x.stop - r.x.start) = m * π) : r.getNorm = .ok (k * A ^ 2 / 2) := by
  rw [C159_norm h hw, show 2 * (w * r.x.stop + p) = 2 * (w * r.x.start + p) + (m : ℝ) * (2 * π) by linear_combination 2 * hm,
    sin_add_int_mul_two_pi]
  congr 1
  ring

/-- **C159.** Where all samples have the same absolute value (the sample is a whole number of half periods), it is `k` times their square. -/
theorem C159_norm_alias [PyPow ℝ] (h : SampledOn r k (sineWave A w p)) (hw : sin (w * r.x.sample) = 0) :
    r.getNorm = .ok (k * (A * sin (w * r.x.start + p)) ^ 2) := by
  have hs := h.rising
  have hn := norm_sampled h (fun t => (t - r.x.start) * (A * sin (w * r.x.start + p)) ^ 2) fun n => by
    have e : ∀ j : ℕ, sineWave A w p (r.x.start + (j : ℝ) * r.x.sample) ^ 2 = (A * sin (w * r.x.start + p)) ^ 2 := by
      intro j
      simp only [sineWave, square_sine]
      rw [show 2 * (w * (r.x.start + (j : ℝ) * r.x.sample) + p) = 2 * (w * r.x.start + p) + (j : ℝ) * (2 * (w * r.x.sample)) by ring,
        cos_periodic _ _ (by rwa [mul_div_cancel_left₀ _ (two_ne_zero (α := ℝ))])]
    have e' : ∀ j : ℕ, sineWave A w p (r.x.start + ((j : ℝ) + 1) * r.x.sample) ^ 2 = (A * sin (w * r.x.start + p)) ^ 2 := fun j => by
      have := e (j + 1)
      push_cast at this
      exact this
    simp only [e, e', Finset.sum_const, Finset.card_range, nsmul_eq_mul]
    ring
  rw [hn, h.whole]
  congr 1
  field_simp

/-- **C159.** Resampling: half way between two samples the interpolated value is `cos (w s / 2)` times the wave. -/
theorem C159_between (h : SampledOn r k (sineWave A w p)) (a : Axis ℝ) (ha : a.sample ≠ 0) :
    ∃ q xs ys, r.interpolateExtrapolate (.axis a) = .ok q ∧ q.x = a ∧ q.getData = .ok (xs, ys) ∧
      ∀ i (hi : i < xs.length) (hi' : i < ys.length) (j : ℕ), j < k →
        xs[i] = r.x.start + ((j : ℝ) + 1 / 2) * r.x.sample → ys[i] = cos (w * r.x.sample / 2) * sineWave A w p xs[i] := by
  have hs := h.rising
  obtain ⟨lx, hr⟩ := h.samples
  obtain ⟨q, xs, ys, e1, e2, e3, e4⟩ := C20_piecewise_linear r lx _ hr a ha
  refine ⟨q, xs, ys, e1, e2, e3, fun i hi hi' j hj hx => ?_⟩
  obtain ⟨hl, -, -⟩ := (getData_ok_iff _ _ _).1 hr
  rw [array_whole r.x k h.rising h.whole, Except.ok.injEq] at hl
  subst hl
  have c1 : j + 1 < ((List.range (k + 1)).map fun i : ℕ => r.x.start + (i : ℝ) * r.x.sample).length := by simp; omega
  have hb := (e4 i hi hi').between j c1 (by simpa using c1)
  simp only [List.getElem_map, List.getElem_range, smul_eq_mul] at hb
  push_cast at hb
  have hlt : r.x.start + (j : ℝ) * r.x.sample ≤ r.x.start + ((j : ℝ) + 1) * r.x.sample := by linarith
  rw [min_eq_left hlt, max_eq_right hlt] at hb
  rw [hb (by rw [hx]; linarith) (by rw [hx]; linarith), hx]
  have hf : (r.x.start + ((j : ℝ) + 1 / 2) * r.x.sample - (r.x.start + (j : ℝ) * r.x.sample)) /
      (r.x.start + ((j : ℝ) + 1) * r.x.sample - (r.x.start + (j : ℝ) * r.x.sample)) = 1 / 2 := by
    rw [show r.x.start + ((j : ℝ) + 1 / 2) * r.x.sample - (r.x.start + (j : ℝ) * r.x.sample) = 1 / 2 * r.x.sample by ring,
      show r.x.start + ((j : ℝ) + 1) * r.x.sample - (r.x.start + (j : ℝ) * r.x.sample) = r.x.sample by ring]
    field_simp
  rw [hf]
  simp only [sineWave]
  rw [show w * (r.x.start + (j : ℝ) * r.x.sample) + p = (w * (r.x.start + ((j : ℝ) + 1 / 2) * r.x.sample) + p) - w * r.x.sample / 2 by ring,
    show w * (r.x.start + ((j : ℝ) + 1) * r.x.sample) + p = (w * (r.x.start + ((j : ℝ) + 1 / 2) * r.x.sample) + p) + w * r.x.sample / 2 by ring,
    sin_add, sin_sub]
  ring

/-! ## the sine of `docs/tutorial.ipynb` -/

/-- one oscillation per second for ten seconds, sampled at 1000 Hz -/
def Spec.tutorialSine : Rel ℝ ℝ := ⟨⟨0, 10, 1 / 1000⟩, (List.range 10001).map fun i : ℕ => sin (2 * π * (i / 1000))⟩

theorem tutorialSine_sampled : SampledOn tutorialSine 10000 (sineWave 1 (2 * π) 0) where
  rising := by norm_num [tutorialSine]
  whole := by norm_num [tutorialSine]
  two := by norm_num
  samples := by
    refine ⟨_, (getData_ok_iff _ _ _).2 ⟨array_whole _ 10000 (by norm_num [tutorialSine]) (by norm_num [tutorialSine]), ?_, by simp⟩⟩
    simp only [tutorialSine, sineWave, List.map_map, Function.comp_def]
    congr 1
    funext i
    rw [one_mul, add_zero, zero_add]
    congr 2
    ring

/-- **C159.** `get_norm` of the sine of the tutorial is 5000, the number printed there. -/
theorem C159_tutorial [PyPow ℝ] : tutorialSine.getNorm = .ok 5000 := by
  have h0 : sin (2 * π * tutorialSine.x.sample) ≠ 0 := by
    apply (sin_pos_of_pos_of_lt_pi _ _).ne'
    · simp only [tutorialSine]; positivity
    · simp only [tutorialSine]; linarith [pi_pos]
  rw [C159_norm_periods tutorialSine_sampled h0 20 (by simp only [tutorialSine]; push_cast; ring)]
  norm_num

-- the integral over the ten periods vanishes
example : ∃ v, tutorialSine.oneIntegrate = .ok v ∧ v = 0 := by
  have h0 : sin (2 * π * tutorialSine.x.sample / 2) ≠ 0 := by
    apply (sin_pos_of_pos_of_lt_pi _ _).ne'
    · simp only [tutorialSine]; positivity
    · simp only [tutorialSine]; linarith [pi_pos]
  refine ⟨_, (C159_integrate tutorialSine_sampled h0).2, ?_⟩
  have : cos (2 * π * tutorialSine.x.stop + 0) = cos (2 * π * tutorialSine.x.start + 0) := by
    simp only [tutorialSine]
    rw [show 2 * π * 10 + 0 = (2 * π * 0 + 0) + (10 : ℤ) * (2 * π) by push_cast; ring, cos_add_int_mul_two_pi]
  rw [this]
  ring

example := C159_diff tutorialSine_sampled
example := C159_back tutorialSine_sampled (by norm_num)
example := C159_between tutorialSine_sampled ⟨0, 10, 1 / 2000⟩ (by norm_num)

end

end SweepDesign
