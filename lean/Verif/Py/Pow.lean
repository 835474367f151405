import Verif.Model.Relation
import Mathlib.Algebra.Order.Ring.Rat
import Mathlib.Data.Rat.Floor
import Mathlib.Analysis.SpecialFunctions.Pow.Real

/-!
# Instances of `PyPow`

`a ** b` on numpy scalars. Only what is finite and of the same type is modelled; everything else is `none`
(`Err.nonFinite` after `finite`).
-/

namespace SweepDesign

/-- exact powers with integer exponent; other exponents are not representable in ℚ -/
instance : PyPow ℚ where
  ppow a b := if b.den = 1 then (if a = 0 ∧ b.num < 0 then none else some (a ^ b.num)) else none
  ppow_two a := by
    simp [zpow_ofNat, pow_two]

/-- float64 `**`: nan for a negative base with a non-integer exponent, inf/nan for `0 ** negative` -/
noncomputable instance : PyPow ℝ where
  ppow a b :=
    open Classical in
    if (a = 0 ∧ b < 0) ∨ (a < 0 ∧ ¬ ∃ k : ℤ, (k : ℝ) = b) then none else some (a ^ b)
  ppow_two a := by
    have h1 : ¬ ((2 : ℝ) < 0) := by norm_num
    have h2 : ∃ k : ℤ, (k : ℝ) = 2 := ⟨2, by norm_num⟩
    simp [h1, h2, pow_two]

/-- complex128 `**` -/
noncomputable instance : PyPow ℂ where
  ppow a b :=
    open Classical in
    if a = 0 ∧ b ≠ 0 ∧ b.re ≤ 0 then none else some (a ^ b)
  ppow_two a := by
    have h1 : ¬ ((2 : ℂ).re ≤ 0) := by norm_num
    simp only [h1, and_false, if_false]
    rw [show (2 : ℂ) = ((2 : ℕ) : ℂ) by norm_num, Complex.cpow_natCast, pow_two]

end SweepDesign
