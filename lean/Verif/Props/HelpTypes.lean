import Verif.Model.HelpTypes

/-!
# C165: importing the package with different versions of numpy
-/

namespace SweepDesign
open Versions

theorem key_three (a b c : ℕ) : key [a, b, c] = if c ≠ 0 then [a, b, c] else if b ≠ 0 then [a, b] else if a ≠ 0 then [a] else [] := by
  rcases c with _ | c
  · rcases b with _ | b
    · rcases a with _ | a <;> simp [key]
    · simp [key]
  · simp [key]

theorem newer_19 (a b c : ℕ) : newer [a, b, c] [1, 19] = true ↔ 1 < a ∨ a = 1 ∧ (19 < b ∨ b = 19 ∧ 0 < c) := by
  have k : key [1, 19] = [1, 19] := by decide
  rw [newer, k, key_three]
  split_ifs with h1 h2 h3 <;> simp only [tupleGt] <;> (try split_ifs) <;> simp only [decide_eq_true_eq, Bool.false_eq_true, false_iff, true_iff] <;> omega

theorem typing_20 (a b c : ℕ) : typingSince [a, b, c] = true ↔ 1 < a ∨ a = 1 ∧ 20 ≤ b := by
  have k : key [1, 20] = [1, 20] := by decide
  rw [typingSince, newer, k, key_three]
  split_ifs with h1 h2 h3 <;> simp only [tupleGt] <;> (try split_ifs) <;>
    simp only [decide_false, Bool.or_false, Bool.or_self, false_iff, true_iff, Bool.or_eq_true, decide_eq_true_eq, List.cons.injEq, reduceCtorEq, and_true, and_false, Bool.false_eq_true,
      false_or] <;> omega

/-- **C165.** The release `a.b.c` of numpy: the type of numpy is used from 1.20 on, no type up to 1.19.0; with 1.19.1 and the later ones of 1.19
the package cannot be imported. -/
theorem C165_choice (a b c : ℕ) :
    (getType [a, b, c] (typingSince [a, b, c]) = .numpyType ↔ 1 < a ∨ a = 1 ∧ 20 ≤ b) ∧
    (getType [a, b, c] (typingSince [a, b, c]) = .any ↔ a = 0 ∨ a = 1 ∧ (b < 19 ∨ b = 19 ∧ c = 0)) ∧
    (getType [a, b, c] (typingSince [a, b, c]) = .importFails ↔ a = 1 ∧ b = 19 ∧ 0 < c) := by
  have h1 := newer_19 a b c
  have h2 := typing_20 a b c
  unfold getType
  rcases Bool.eq_false_or_eq_true (newer [a, b, c] [1, 19]) with e | e <;>
    rcases Bool.eq_false_or_eq_true (typingSince [a, b, c]) with f | f <;> rw [e] at h1 ⊢ <;> rw [f] at h2 ⊢ <;>
    simp only [true_iff, Bool.false_eq_true, false_iff, if_true, if_false, reduceCtorEq] at h1 h2 ⊢ <;> omega

/-- **C165.** What `pyproject.toml` allows: with Python below 3.8 the import never fails, from 3.8 on it fails for the allowed 1.19.1 and later
ones of 1.19, and for no other allowed release. -/
theorem C165_allowed (minor a b c : ℕ) (h : allowed minor [a, b, c] = true) :
    (getType [a, b, c] (typingSince [a, b, c]) = .importFails ↔ 8 ≤ minor ∧ a = 1 ∧ b = 19) ∧
    (8 ≤ minor ↔ getType [a, b, c] (typingSince [a, b, c]) ≠ .any) := by
  have h1 := newer_19 a b c
  obtain ⟨-, h3, h4⟩ := C165_choice a b c
  rw [h4, Ne, h3]
  unfold allowed at h
  split_ifs at h with hm
  · rw [Bool.not_eq_true', ← Bool.not_eq_true, h1] at h
    omega
  · rw [h1] at h
    omega

-- the locked versions work, a version that `pyproject.toml` allows does not
example : getType [1, 23, 4] (typingSince [1, 23, 4]) = .numpyType ∧ getType [1, 19, 0] (typingSince [1, 19, 0]) = .any ∧
    allowed 8 [1, 19, 5] = true ∧ getType [1, 19, 5] (typingSince [1, 19, 5]) = .importFails := by decide

end SweepDesign
