import Verif.Py.Num
import Mathlib.Data.Rat.Floor

/-!
# Double precision numbers

A double is modelled by the rational number it stands for, an operation on doubles by the exact operation followed by
`fl64`. Overflow and subnormal numbers are not modelled: the exponent is unbounded.
-/

namespace SweepDesign

/-- the exponent `e` with `2^e ≤ |q| < 2^(e+1)`, for `q ≠ 0` -/
def binExp (q : ℚ) : ℤ :=
  let e : ℤ := (Nat.log2 q.num.natAbs : ℤ) - (Nat.log2 q.den : ℤ)
  if |q| < (2 : ℚ) ^ e then e - 1 else e

/-- the double nearest to `q`, ties to even: 53 significant binary digits -/
def fl64 (q : ℚ) : ℚ :=
  if q = 0 then 0
  else (pyRound (q / (2 : ℚ) ^ (binExp q - 52)) : ℚ) * (2 : ℚ) ^ (binExp q - 52)

end SweepDesign
