import Verif.Py.Basic
import Verif.Spec.Basic
import Mathlib.Tactic.Linarith
import Mathlib.Tactic.Ring
import Mathlib.Tactic.NormNum
import Mathlib.Tactic.FieldSimp
import Mathlib.Tactic.Positivity
import Mathlib.Algebra.Order.Round

/-! # Facts about `pyRound` -/

set_option linter.unusedSectionVars false
set_option linter.unnecessarySeqFocus false

namespace SweepDesign
open Spec

variable {K : Type} [Field K] [LinearOrder K] [IsStrictOrderedRing K] [FloorRing K]

theorem pyRound_spec (q : K) : NearestEven q (pyRound q) := by
  have h1 := Int.floor_le q
  have h2 := Int.lt_floor_add_one q
  unfold pyRound NearestEven
  dsimp only
  split_ifs with h3 h4 h5
  · rw [abs_of_nonneg (by linarith)]
    exact ⟨h3.le, fun h => by linarith⟩
  · push_cast
    rw [abs_of_nonpos (by linarith)]
    exact ⟨by linarith, fun h => by linarith⟩
  · rw [abs_of_nonneg (by linarith)]
    exact ⟨by linarith, fun h => Int.even_iff.2 h5⟩
  · push_cast
    rw [abs_of_nonpos (by linarith)]
    exact ⟨by linarith, fun h => Int.even_iff.2 (by omega)⟩

theorem nearestEven_unique {q : K} {m n : ℤ} (hm : NearestEven q m) (hn : NearestEven q n) : m = n := by
  rcases hm with ⟨hm1, hm2⟩
  rcases hn with ⟨hn1, hn2⟩
  have hm3 := abs_le.1 hm1
  have hn3 := abs_le.1 hn1
  by_contra hne
  rcases lt_or_gt_of_ne hne with h | h
  · have h1 : (m : K) + 1 ≤ n := by exact_mod_cast h
    have e1 : q - m = 1 / 2 := by linarith
    have e2 : q - n = -(1 / 2) := by linarith
    have e3 : (n : K) = m + 1 := by linarith
    have e4 : n = m + 1 := by exact_mod_cast e3
    have a := hm2 (by rw [e1, abs_of_pos]; norm_num)
    have b := hn2 (by rw [e2, abs_neg, abs_of_pos]; norm_num)
    rw [Int.even_iff] at a b
    omega
  · have h1 : (n : K) + 1 ≤ m := by exact_mod_cast h
    have e1 : q - n = 1 / 2 := by linarith
    have e2 : q - m = -(1 / 2) := by linarith
    have e3 : (m : K) = n + 1 := by linarith
    have e4 : m = n + 1 := by exact_mod_cast e3
    have a := hn2 (by rw [e1, abs_of_pos]; norm_num)
    have b := hm2 (by rw [e2, abs_neg, abs_of_pos]; norm_num)
    rw [Int.even_iff] at a b
    omega

theorem pyRound_eq_iff (q : K) (n : ℤ) : pyRound q = n ↔ NearestEven q n :=
  ⟨fun h => h ▸ pyRound_spec q, fun h => nearestEven_unique (pyRound_spec q) h⟩

theorem pyRound_of_lt {q : K} {n : ℤ} (h : |q - n| < 1 / 2) : pyRound q = n :=
  (pyRound_eq_iff q n).2 ⟨h.le, fun e => by linarith⟩

theorem pyRound_intCast (n : ℤ) : pyRound (n : K) = n :=
  pyRound_of_lt (by rw [sub_self, abs_zero]; norm_num)

theorem pyRound_natCast (n : ℕ) : pyRound (n : K) = n := by
  have := pyRound_intCast (K := K) (n : ℤ)
  simpa using this

theorem pyRound_nonneg {q : K} (h : 0 ≤ q) : 0 ≤ pyRound q := by
  have := abs_le.1 (pyRound_spec q).1
  have h1 : (-1 : K) < pyRound q := by linarith
  have : (-1 : ℤ) < pyRound q := by exact_mod_cast h1
  omega

theorem abs_sub_pyRound_le (q : K) : |q - pyRound q| ≤ 1 / 2 := (pyRound_spec q).1

theorem pyRound_half (n : ℤ) : pyRound ((n : K) + 1 / 2) = if Even n then n else n + 1 := by
  rw [pyRound_eq_iff]
  split_ifs with h
  · refine ⟨?_, fun _ => h⟩
    rw [add_sub_cancel_left, abs_of_pos] <;> norm_num
  · refine ⟨?_, fun _ => ?_⟩
    · push_cast
      rw [show (n : K) + 1 / 2 - (n + 1) = -(1 / 2) by ring, abs_neg, abs_of_pos] <;> norm_num
    · rw [Int.even_iff] at *
      omega

theorem abs_sub_pyRound_lt {q : K} (h : ¬ HalfInteger q) : |q - pyRound q| < 1 / 2 := by
  refine lt_of_le_of_ne (abs_sub_pyRound_le q) fun e => h ?_
  rcases abs_choice (q - pyRound q) with h1 | h1
  · exact ⟨pyRound q, by rw [h1] at e; linarith⟩
  · exact ⟨pyRound q - 1, by rw [h1] at e; push_cast; linarith⟩

theorem pyRound_add_int {q : K} (h : ¬ HalfInteger q) (n : ℤ) : pyRound (q + n) = pyRound q + n := by
  apply pyRound_of_lt
  push_cast
  rw [show q + n - (pyRound q + n) = q - pyRound q by ring]
  exact abs_sub_pyRound_lt h

/-- subtracting one commutes with rounding exactly off the half-integers -/
theorem pyRound_sub_one_iff (q : K) : pyRound (q - 1) = pyRound q - 1 ↔ ¬ HalfInteger q := by
  constructor
  · rintro h ⟨n, rfl⟩
    rw [show (n : K) + 1 / 2 - 1 = ((n - 1 : ℤ) : K) + 1 / 2 by push_cast; ring, pyRound_half, pyRound_half] at h
    simp only [Int.even_iff] at h
    split_ifs at h <;> omega
  · intro h
    have := pyRound_add_int h (-1)
    push_cast at this
    rw [sub_eq_add_neg, this]
    ring

theorem pyRound_mono_nat {q : K} {n : ℕ} (h : pyRound q = n) : |q - n| ≤ 1 / 2 := by
  have := abs_sub_pyRound_le q
  rw [h] at this
  simpa using this

theorem pyRound_toNat_cast {q : K} (h : 0 ≤ q) : ((pyRound q).toNat : K) = (pyRound q : K) := by
  have := Int.toNat_of_nonneg (pyRound_nonneg h)
  exact_mod_cast congrArg (Int.cast (R := K)) this

end SweepDesign
