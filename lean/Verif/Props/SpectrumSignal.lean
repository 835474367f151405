import Verif.Props.Spectral

/-!
# C78: the signal of any spectrum, without a time axis
-/

set_option linter.unusedSectionVars false

namespace SweepDesign
open Spec

theorem getSignal_none (m : ℕ) (hm : 2 ≤ m) (y : List ℂ) (hy : y.length = m) :
    ∃ w : List ℝ, irfft y none = .ok w ∧ w.length = 2 * (m - 1) ∧
      ∀ (x : Axis ℝ) (_ : x.start < x.stop) (t0 : Option ℝ) (_ : ∀ v ∈ t0, 0 ≤ v),
      ∃ q, Rel.getSignal ⟨x, y⟩ .none t0 = .ok q ∧ q.y = w ∧ q.x.start = t0.getD 0 ∧
        q.x.sample = 1 / (2 * (x.stop - x.start)) ∧ q.x.stop = q.x.start + (2 * (m - 1) - 1 : ℕ) * q.x.sample ∧ Balanced q := by
  have hl : (2 * ((y.length : ℤ) - 1)) = ((2 * (m - 1) : ℕ) : ℤ) := by omega
  obtain ⟨w, h1, h2⟩ := irfft_length y (2 * (m - 1)) (by omega)
  have hw : irfft y none = .ok w := by
    rw [← h1]
    unfold irfft
    simp only [Option.getD_none, Option.getD_some, hl]
  refine ⟨w, hw, h2, fun x hx t0 ht0 => ?_⟩
  have h0 : 0 ≤ t0.getD 0 := by
    cases t0 with
    | none => simp
    | some v => exact ht0 v rfl
  have hd : 0 < x.stop - x.start := by linarith
  set dt := 1 / (2 * (x.stop - x.start)) with hdt
  have hdp : 0 < dt := by positivity
  set a := t0.getD 0 with ha
  set t : Axis ℝ := ⟨a, a + ((w.length : ℝ) - 1) * dt, dt⟩ with ht
  have hw1 : 1 ≤ w.length := by omega
  have hta := array_whole t (w.length - 1) hdp (by
    simp only [ht]
    rw [Nat.cast_sub hw1]
    push_cast
    ring)
  have hts : t.size = .ok w.length := by
    rw [Axis.size_of_array hta]
    simp
    omega
  have hro : reorderByTime t w = .ok w := by
    rw [reorder_sorted t _ w hta (by simp; omega)]
    · have : (((List.range (w.length - 1 + 1)).map fun i : ℕ => t.start + (i : ℝ) * t.sample).countP
          fun v => decide (v < 0)) = 0 := by
        rw [List.countP_eq_zero]
        intro v hv
        obtain ⟨i, -, rfl⟩ := List.mem_map.1 hv
        simp only [ht, decide_eq_true_eq, not_lt]
        positivity
      rw [this, List.rotate_zero]
    · simp only [ht]
      have : (1 : ℝ) ≤ w.length := by exact_mod_cast hw1
      have : 0 ≤ ((w.length : ℝ) - 1) * dt := mul_nonneg (by linarith) hdp.le
      linarith
  refine ⟨⟨t, w⟩, ?_, rfl, rfl, rfl, ?_, hts⟩
  · unfold Rel.getSignal spectrum2signal
    simp only [SizeArg.size, except_pure, except_bind_ok, hw]
    rw [if_neg hd.ne']
    rw [← hdt, ← ha, ← ht, hro]
    simp only [except_bind_ok]
    exact make_ok hts
  · simp only [ht]
    rw [h2, Nat.cast_sub (by omega : 1 ≤ 2 * (m - 1))]
    simp

/-- **C78.** `get_signal()` of a spectrum of `m ≥ 2` values on an increasing axis, starting at a time that is not negative:
`2 (m - 1)` samples, the first at the start time, the step `1 / (2 (f_last - f_first))`. The samples depend on the values
alone. -/
theorem C78_shape (m : ℕ) (hm : 2 ≤ m) (y : List ℂ) (hy : y.length = m) :
    ∃ w : List ℝ, w.length = 2 * (m - 1) ∧
      ∀ (x : Axis ℝ) (_ : x.start < x.stop) (t0 : Option ℝ) (_ : ∀ v ∈ t0, 0 ≤ v),
      ∃ q, Rel.getSignal ⟨x, y⟩ .none t0 = .ok q ∧ q.y = w ∧ q.x.start = t0.getD 0 ∧
        q.x.sample = 1 / (2 * (x.stop - x.start)) ∧ q.x.stop = q.x.start + (2 * (m - 1) - 1 : ℕ) * q.x.sample ∧ Balanced q := by
  obtain ⟨w, -, h⟩ := getSignal_none m hm y hy
  exact ⟨w, h⟩

/-- **C78.** Moving a spectrum to other frequencies does not change its signal: the first frequency is never used on its own. -/
theorem C78_frequencies_forgotten (x : Axis ℝ) (hx : x.start < x.stop) (y : List ℂ) (hy : 2 ≤ y.length) (c : ℝ) :
    ∃ q, Rel.getSignal ⟨x, y⟩ = .ok q ∧
      Rel.getSignal ⟨⟨x.start + c, x.stop + c, x.sample⟩, y⟩ = .ok q := by
  obtain ⟨w, -, h⟩ := C78_shape y.length hy y rfl
  obtain ⟨q, q1, q2, q3, q4, q5, -⟩ := h x hx none (by simp)
  obtain ⟨p, p1, p2, p3, p4, p5, -⟩ := h ⟨x.start + c, x.stop + c, x.sample⟩ (by simpa using hx) none (by simp)
  have e4 : p.x.sample = q.x.sample := by rw [p4, q4]; congr 2; simp
  have e3 : p.x.start = q.x.start := by rw [p3, q3]
  refine ⟨q, q1, ?_⟩
  rw [p1]
  congr 1
  obtain ⟨⟨p1, p2, p3⟩, py⟩ := p
  obtain ⟨⟨q1, q2, q3⟩, qy⟩ := q
  simp_all

/-- **C78.** One value, or an axis whose ends agree, has no signal: `ValueError` and `ZeroDivisionError`. -/
theorem C78_degenerate (x : Axis ℝ) (y : List ℂ) (t0 : Option ℝ) :
    (y.length ≤ 1 → Rel.getSignal ⟨x, y⟩ .none t0 = .error .value) ∧
    (2 ≤ y.length → x.start = x.stop → Rel.getSignal ⟨x, y⟩ .none t0 = .error .zeroDivision) := by
  constructor
  · intro h
    have : irfft y none = .error .value := by
      unfold irfft
      simp only [Option.getD_none]
      rw [if_pos (by omega)]
    simp [Rel.getSignal, spectrum2signal, SizeArg.size, this, except_pure, except_bind_ok]
  · intro h he
    obtain ⟨w, h1, h2⟩ := irfft_length y (2 * (y.length - 1)) (by omega)
    have hl : (2 * ((y.length : ℤ) - 1)) = ((2 * (y.length - 1) : ℕ) : ℤ) := by omega
    have hw : irfft y none = .ok w := by
      rw [← h1]
      unfold irfft
      simp only [Option.getD_none, Option.getD_some, hl]
    simp [Rel.getSignal, spectrum2signal, SizeArg.size, hw, except_pure, except_bind_ok, he]

/-- a spectrum on the frequencies 5, 6, 7 has the signal of the same values on 0, 1, 2: four samples, a quarter second apart -/
example : ∃ q, Rel.getSignal ⟨⟨5, 7, 1⟩, [1, 2, 3]⟩ = .ok q ∧ Rel.getSignal ⟨⟨0, 2, 1⟩, [1, 2, 3]⟩ = .ok q ∧ q.y.length = 4 ∧
    q.x.sample = 1 / 4 := by
  obtain ⟨w, hw, h⟩ := C78_shape 3 (by norm_num) [1, 2, 3] rfl
  obtain ⟨q, q1, q2, q3, q4, -⟩ := h ⟨5, 7, 1⟩ (by norm_num) none (by simp)
  obtain ⟨p, p1, p2⟩ := C78_frequencies_forgotten ⟨5, 7, 1⟩ (by norm_num) [1, 2, 3] (by simp) (-5)
  rw [q1] at p1
  obtain rfl : q = p := by simpa using p1
  refine ⟨q, q1, ?_, by rw [q2, hw], by rw [q4]; norm_num⟩
  rw [← p2]
  norm_num

end SweepDesign
