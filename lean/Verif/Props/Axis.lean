import Verif.Lemmas.Axis
import Verif.Model.Relation
import Mathlib.Algebra.Order.Ring.Rat
import Mathlib.Data.Rat.Floor

/-!
# C02–C06: axes

Every theorem holds for an arbitrary linearly ordered field with floor (ℚ, ℝ, ...). The examples are at `K = ℚ`.
-/

set_option linter.unusedSectionVars false

namespace SweepDesign
open Spec

variable {K : Type} [Field K] [LinearOrder K] [IsStrictOrderedRing K] [FloorRing K]

/-- **C02.** Shape of an axis with a non-zero sample. -/
theorem C02_array_shape (a : Axis K) (hs : a.sample ≠ 0) :
    ∃ (l : List K) (n : ℤ) (d : K), a.array = .ok l ∧ a.size = .ok l.length ∧
      NearestEven |(a.stop - a.start) / a.sample| n ∧ (l.length : ℤ) = n + 1 ∧
      l.head? = some a.start ∧ (2 ≤ l.length → l.getLast? = some a.stop) ∧
      EvenlySpaced l a.start d l.length ∧
      (a.start < a.stop → l.Pairwise (· < ·)) ∧ (a.stop < a.start → l.Pairwise (· > ·)) := by
  have ha := a.array_eq hs
  have hsp := Axis.array_spaced ha
  refine ⟨_, (a.steps : ℤ), a.step, ha, Axis.size_of_array ha, ?_, ?_, hsp.head (by omega), ?_, ?_, ?_, ?_⟩
  · exact (a.steps_eq_iff _).1 rfl
  · rw [linspace_length]; push_cast; ring
  · intro h2
    rw [hsp.last (by omega)]
    rw [linspace_length] at h2
    have : (a.steps : K) ≠ 0 := by exact_mod_cast (by omega : a.steps ≠ 0)
    congr 1
    unfold Axis.step
    push_cast
    field_simp
    ring
  · rw [linspace_length]; exact hsp
  · intro h
    rcases Nat.eq_zero_or_pos a.steps with h0 | h0
    · rw [h0]; simp [linspace_one]
    · have : (0 : K) < a.steps := by exact_mod_cast h0
      exact hsp.pairwise_lt (div_pos (by linarith) this)
  · intro h
    rcases Nat.eq_zero_or_pos a.steps with h0 | h0
    · rw [h0]; simp [linspace_one]
    · have : (0 : K) < a.steps := by exact_mod_cast h0
      exact hsp.pairwise_gt (div_neg_of_neg_of_pos (by linarith) this)

/-- **C02.** The only way for reading the array to raise is a zero sample; then it always raises. -/
theorem C02_zero_sample (a : Axis K) :
    (∃ e, a.array = .error e) ↔ a.sample = 0 := by
  by_cases h : a.sample = 0
  · simp [a.array_zero h, h]
  · simp [a.array_eq h, h]

example : (⟨0, 1, 1/4⟩ : Axis ℚ).array = .ok [0, 1/4, 1/2, 3/4, 1] := by decide +kernel
/-- half-even rounding: 2.5 gaps become 2, 3.5 gaps become 4 -/
example : (⟨0, 5, 2⟩ : Axis ℚ).array = .ok [0, 5/2, 5] ∧ (⟨0, 7, 2⟩ : Axis ℚ).size = .ok 5 := by decide +kernel
example : (⟨3, 1, 1⟩ : Axis ℚ).array = .ok [3, 2, 1] := by decide +kernel
example : (⟨3, 1, 0⟩ : Axis ℚ).array = .error .zeroDivision := by decide +kernel

/-- **C03.** If the range is a whole multiple of the sample, the spacing is exactly `|sample|`. -/
theorem C03_exact_spacing (a : Axis K) (hs : a.sample ≠ 0) (k : ℤ) (hk : a.stop - a.start = k * a.sample) :
    ∃ l, a.array = .ok l ∧
      (∀ i (h : i + 1 < l.length), |l[i + 1] - l[i]| = |a.sample|) ∧
      (a.start < a.stop → a.actualSample = .ok |a.sample|) := by
  have ha := a.array_eq hs
  have hsp := Axis.array_spaced ha
  have hq : |(a.stop - a.start) / a.sample| = ((|k| : ℤ) : K) := by
    rw [hk, mul_div_assoc, div_self hs, mul_one, Int.cast_abs]
  have hst : (a.steps : ℤ) = |k| := by
    rw [a.steps_cast, hq, pyRound_intCast]
  have hstK : (a.steps : K) = |(k : K)| := by
    have := congrArg (Int.cast (R := K)) hst
    simpa using this
  have hstep : k ≠ 0 → |a.step| = |a.sample| := by
    intro h0
    have hk0 : |(k : K)| ≠ 0 := abs_ne_zero.2 (by exact_mod_cast h0)
    unfold Axis.step
    rw [hstK, hk, abs_div, abs_mul, abs_abs]
    field_simp
  refine ⟨_, ha, ?_, ?_⟩
  · intro i h
    have h' := h
    rw [linspace_length] at h'
    have h0 : k ≠ 0 := by
      rintro rfl
      simp at hst
      omega
    rw [hsp.2 _ h, hsp.2 i (by omega), ← hstep h0]
    congr 1
    push_cast
    ring
  · intro hlt
    have h0 : k ≠ 0 := by
      rintro rfl
      simp at hk
      linarith
    have h1 : 1 ≤ a.steps := by
      have := abs_pos.2 h0
      omega
    have hpos : 0 < a.step := div_pos (by linarith) (by exact_mod_cast h1)
    rw [Axis.actualSample, ha]
    simp only [Except.bind]
    rw [hsp.actualSample (by omega), ← hstep h0, abs_of_pos hpos]

/-- **C03.** In general the spacing differs from `|sample|` by at most `|sample| / (2 (n - 1))` for `n` points. -/
theorem C03_spacing_bound (a : Axis K) (l : List K) (ha : a.array = .ok l) (i : ℕ) (h : i + 1 < l.length) :
    |(|l[i + 1] - l[i]| - |a.sample|)| ≤ |a.sample| / (2 * ((l.length : K) - 1)) := by
  have hsp := Axis.array_spaced ha
  obtain ⟨hs, -⟩ := (a.array_ok_iff l).1 ha
  have hn : 0 < a.steps := by rw [hsp.1] at h; omega
  have hnK : (0 : K) < a.steps := by exact_mod_cast hn
  have hsP : 0 < |a.sample| := abs_pos.2 hs
  have hgap : l[i + 1] - l[i] = a.step := by
    rw [hsp.2 _ h, hsp.2 i (by omega)]
    push_cast
    ring
  have hr := abs_sub_pyRound_le |(a.stop - a.start) / a.sample|
  have hc : ((pyRound |(a.stop - a.start) / a.sample| : ℤ) : K) = a.steps := by
    have := congrArg (Int.cast (R := K)) a.steps_cast
    simpa using this.symm
  rw [hc, abs_div] at hr
  have key : |a.step| - |a.sample| = (|a.sample| / a.steps) * (|a.stop - a.start| / |a.sample| - a.steps) := by
    unfold Axis.step
    rw [abs_div, Nat.abs_cast]
    field_simp
  rw [hgap, key, abs_mul, abs_of_pos (div_pos hsP hnK), hsp.1]
  have : |a.sample| / (2 * (((a.steps + 1 : ℕ) : K) - 1)) = (|a.sample| / a.steps) * (1 / 2) := by
    push_cast
    rw [add_sub_cancel_right]
    field_simp
  rw [this]
  exact mul_le_mul_of_nonneg_left hr (div_pos hsP hnK).le

example : (⟨0, 6, 2⟩ : Axis ℚ).actualSample = .ok 2 ∧ (6 : ℚ) - 0 = (3 : ℤ) * 2 := by decide +kernel
/-- the bound is attained: 2.5 gaps of size 2 become 2 gaps of size 2.5 -/
example : (⟨0, 5, 2⟩ : Axis ℚ).actualSample = .ok (5/2) ∧ (5/2 - 2 : ℚ) = 2 / (2 * (3 - 1)) := by decide +kernel

/-- **C04.** Without rounding of the step an evenly spaced increasing array is reproduced exactly. -/
theorem C04_unrounded_lossless (x : List K) (isFloat : Bool) (a d : K) (n : ℕ) (hx : EvenlySpaced x a d n)
    (hn : 2 ≤ n) (hd : d ≠ 0) :
    ∃ ax, axisFromArray x isFloat false = .ok ax ∧ ax.array = .ok x ∧ ax.sample = d := by
  refine ⟨⟨a, a + ((n : K) - 1) * d, d⟩, ?_, ?_, rfl⟩
  · simp [axisFromArray, hx.actualSample hn, bind, Except.bind, hx.head (by omega), hx.last (by omega), pure,
      Except.pure]
  · apply spaced_array_of_steps hx (by omega) hd
    have : Axis.steps (⟨a, a + ((n : K) - 1) * d, d⟩ : Axis K) = n - 1 := by
      rw [Axis.steps_eq_iff]
      have h1 : (a + ((n : K) - 1) * d - a) / d = ((n - 1 : ℕ) : K) := by
        rw [Nat.cast_sub (by omega)]
        field_simp
        push_cast
        ring
      simp only [h1]
      rw [Nat.abs_cast, ← pyRound_eq_iff, pyRound_natCast]
    omega

/-- **C04.** Arrays with fewer than two entries raise, with and without rounding. -/
theorem C04_short_arrays_raise (x : List K) (isFloat roundDx : Bool) (h : x.length < 2) :
    ∃ e, axisFromArray x isFloat roundDx = .error e := by
  match x, h with
  | [], _ => exact ⟨.value, rfl⟩
  | [a], _ => exact ⟨.value, rfl⟩

example : axisFromArray ([1, 17/10, 24/10] : List ℚ) true false = .ok ⟨1, 24/10, 7/10⟩ ∧
    (⟨1, 24/10, 7/10⟩ : Axis ℚ).array = .ok [1, 17/10, 24/10] := by decide +kernel
example : EvenlySpaced ([1, 17/10, 24/10] : List ℚ) 1 (7/10) 3 := by
  refine ⟨rfl, ?_⟩
  intro i h
  match i, h with
  | 0, _ => norm_num
  | 1, _ => norm_num
  | 2, _ => norm_num

/-- **C05.** A relation built from an evenly spaced increasing float array is accepted exactly when the rounded step
`s` reproduces the point count; then its x positions are the given array; otherwise `NotEqualError` is raised. -/
theorem C05_rounded_acceptance {V : Type} (x : List K) (y : List V) (a d s : K) (n : ℕ)
    (hx : EvenlySpaced x a d n) (hy : y.length = n) (hn : 2 ≤ n) (hd : 0 < d) (hs : RoundedStep d s) :
    (NearestEven (((n : K) - 1) * d / s) ((n : ℤ) - 1) →
      ∃ r, Rel.init (.array x true) (some y) = .ok r ∧ r.x.array = .ok x ∧ r.y = y ∧ r.x.sample = s) ∧
    (¬ NearestEven (((n : K) - 1) * d / s) ((n : ℤ) - 1) →
      ∃ m, m ≠ n ∧ Rel.init (.array x true) (some y) = .error (.notEqual m n)) := by
  obtain ⟨t, ht, htp, htr⟩ := roundStep_ok hd
  obtain rfl := RoundedStep.unique hs htr
  have hax : axisFromArray x true true = .ok ⟨a, a + ((n : K) - 1) * d, s⟩ := by
    simp [axisFromArray, hx.actualSample hn, bind, Except.bind, hx.head (by omega), hx.last (by omega), pure,
      Except.pure, ht]
  have hn1 : (1 : K) ≤ n := by exact_mod_cast (by omega : 1 ≤ n)
  have habs : |(a + ((n : K) - 1) * d - a) / s| = ((n : K) - 1) * d / s := by
    rw [add_sub_cancel_left, abs_of_nonneg]
    have : (0 : K) ≤ (n : K) - 1 := by linarith
    positivity
  have hst : Axis.steps (⟨a, a + ((n : K) - 1) * d, s⟩ : Axis K) + 1 = n ↔
      NearestEven (((n : K) - 1) * d / s) ((n : ℤ) - 1) := by
    have h1 := Axis.steps_eq_iff (⟨a, a + ((n : K) - 1) * d, s⟩ : Axis K) (n - 1)
    simp only [habs] at h1
    rw [show ((n - 1 : ℕ) : ℤ) = (n : ℤ) - 1 by omega] at h1
    rw [← h1]
    omega
  have hsz := Axis.size_eq (⟨a, a + ((n : K) - 1) * d, s⟩ : Axis K) htp.ne'
  constructor
  · intro h
    refine ⟨⟨⟨a, a + ((n : K) - 1) * d, s⟩, y⟩, ?_, ?_, rfl, rfl⟩
    · simp [Rel.init, hax, bind, Except.bind, Rel.make, hsz, hst.2 h, hy, pure, Except.pure]
    · exact spaced_array_of_steps hx (by omega) htp.ne' (hst.2 h)
  · intro h
    refine ⟨_, fun e => h (hst.1 e), ?_⟩
    simp only [Rel.init, hax, bind, Except.bind, Rel.make, hsz, hy]
    rw [if_pos (fun e => h (hst.1 e))]

/-- **C05.** The array is always accepted when the step is a positive whole number or the reciprocal of one. -/
theorem C05_whole_or_reciprocal {V : Type} (x : List K) (y : List V) (a : K) (k n : ℕ) (d : K)
    (hk : 0 < k) (hdk : d = k ∨ d = 1 / k) (hx : EvenlySpaced x a d n) (hy : y.length = n) (hn : 2 ≤ n) :
    ∃ r, Rel.init (.array x true) (some y) = .ok r ∧ r.x.array = .ok x ∧ r.y = y ∧ r.x.sample = d := by
  have hkK : (0 : K) < k := by exact_mod_cast hk
  have hk1 : (1 : K) ≤ k := by exact_mod_cast hk
  have hd : 0 < d := by rcases hdk with rfl | rfl <;> positivity
  have hnear : ∀ m : ℤ, NearestEven (m : K) m := fun m => (pyRound_eq_iff _ _).1 (pyRound_intCast m)
  have hr : RoundedStep d d := by
    rcases hdk with rfl | rfl
    · exact Or.inr ⟨hk1, k, by simpa using hnear k, by simp⟩
    · rcases eq_or_lt_of_le hk1 with h | h
      · refine Or.inr ⟨by rw [← h]; simp, 1, ?_, ?_⟩
        · rw [← h]; simpa using hnear 1
        · rw [← h]; simp
      · exact Or.inl ⟨by rw [div_lt_one hkK]; exact h, k, by simpa using hnear k, by simp⟩
  apply (C05_rounded_acceptance x y a d d n hx hy hn hd hr).1
  rw [mul_div_assoc, div_self hd.ne', mul_one]
  have := hnear ((n : ℤ) - 1)
  push_cast at this
  exact this

/-- **C05.** Integer arrays, increasing or decreasing, are not rounded and always accepted. -/
theorem C05_integer_arrays {V : Type} (x : List K) (y : List V) (a d : K) (n : ℕ)
    (hx : EvenlySpaced x a d n) (hy : y.length = n) (hn : 2 ≤ n) (hd : d ≠ 0) :
    ∃ r, Rel.init (.array x false) (some y) = .ok r ∧ r.x.array = .ok x ∧ r.y = y ∧ r.x.sample = d := by
  obtain ⟨ax, h1, h2, h3⟩ := C04_unrounded_lossless x false a d n hx hn hd
  have h4 : axisFromArray x false true = .ok ax := by
    rw [← h1]; simp [axisFromArray]
  refine ⟨⟨ax, y⟩, ?_, h2, rfl, h3⟩
  simp [Rel.init, h4, bind, Except.bind, Rel.make, Axis.size_of_array h2, hx.1, hy, pure, Except.pure]

/-- a decreasing integer array; as floats its step would be rounded to an error -/
example : Rel.init (.array [4, 2, 0] false) (some [1, 2, 3]) = .ok (⟨⟨4, 0, -2⟩, [1, 2, 3]⟩ : Rel ℚ ℚ) ∧
    axisFromArray [(4 : ℚ), 2, 0] true true = .error .zeroDivision := by
  refine ⟨?_, ?_⟩ <;> decide +kernel

/-- **C05.** An evenly spaced float array with step 0.7 is rejected; with two points only it is accepted. -/
theorem C05_rejected_witness :
    EvenlySpaced ([0, 7/10, 14/10] : List ℚ) 0 (7/10) 3 ∧
    Rel.init (.array ([0, 7/10, 14/10] : List ℚ) true) (some ([1, 2, 3] : List ℚ)) = .error (.notEqual 2 3) ∧
    Rel.init (.array ([0, 7/10] : List ℚ) true) (some ([1, 2] : List ℚ)) = .ok ⟨⟨0, 7/10, 1⟩, [1, 2]⟩ := by
  refine ⟨⟨rfl, ?_⟩, by decide +kernel, by decide +kernel⟩
  intro i h
  match i, h with
  | 0, _ => norm_num
  | 1, _ => norm_num
  | 2, _ => norm_num

example : Rel.init (.array ([0, 1/4, 1/2] : List ℚ) true) (some ([1, 2, 3] : List ℚ)) =
    .ok ⟨⟨0, 1/2, 1/4⟩, [1, 2, 3]⟩ := by decide +kernel
example : RoundedStep (7/10 : ℚ) 1 :=
  Or.inl ⟨by norm_num, 1, by rw [← pyRound_eq_iff]; decide +kernel, by norm_num⟩

/-- **C06.** The common axis: extreme ends, smaller sample; ranges of both inputs are contained. -/
theorem C06_common_axis (x y : Axis K) :
    (commonX x y).start = min x.start y.start ∧ (commonX x y).stop = max x.stop y.stop ∧
    (commonX x y).sample = min x.sample y.sample ∧
    (∀ t, (x.start ≤ t ∧ t ≤ x.stop) ∨ (y.start ≤ t ∧ t ≤ y.stop) →
      (commonX x y).start ≤ t ∧ t ≤ (commonX x y).stop) := by
  have h1 : (commonX x y).start = min x.start y.start := by simp [commonX, min_def]
  have h2 : (commonX x y).stop = max x.stop y.stop := by
    simp only [commonX, max_def]
    split_ifs <;> first | rfl | exact le_antisymm ‹_› ‹_› | (exfalso; linarith)
  refine ⟨h1, h2, by simp [commonX, min_def], ?_⟩
  intro t ht
  rw [h1, h2, min_le_iff, le_max_iff]
  rcases ht with ⟨a, b⟩ | ⟨a, b⟩
  · exact ⟨Or.inl a, Or.inl b⟩
  · exact ⟨Or.inr a, Or.inr b⟩

/-- **C06.** Commutative, associative, idempotent. -/
theorem C06_semilattice (x y z : Axis K) :
    commonX x y = commonX y x ∧ commonX (commonX x y) z = commonX x (commonX y z) ∧ commonX x x = x := by
  obtain ⟨a1, a2, a3, -⟩ := C06_common_axis x y
  obtain ⟨b1, b2, b3, -⟩ := C06_common_axis y x
  obtain ⟨c1, c2, c3, -⟩ := C06_common_axis y z
  obtain ⟨d1, d2, d3, -⟩ := C06_common_axis (commonX x y) z
  obtain ⟨e1, e2, e3, -⟩ := C06_common_axis x (commonX y z)
  obtain ⟨f1, f2, f3, -⟩ := C06_common_axis x x
  refine ⟨?_, ?_, ?_⟩ <;> apply Axis.ext'
  · rw [a1, b1, min_comm]
  · rw [a2, b2, max_comm]
  · rw [a3, b3, min_comm]
  · rw [d1, e1, a1, c1, min_assoc]
  · rw [d2, e2, a2, c2, max_assoc]
  · rw [d3, e3, a3, c3, min_assoc]
  · rw [f1, min_self]
  · rw [f2, max_self]
  · rw [f3, min_self]

example : commonX (⟨0, 2, 1⟩ : Axis ℚ) ⟨1, 5, 1/2⟩ = ⟨0, 5, 1/2⟩ := by decide +kernel

end SweepDesign
