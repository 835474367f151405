import Mathlib.Algebra.Order.Floor.Ring
import Mathlib.Algebra.Order.Field.Basic

/-!
# Python-level basics: exceptions as values, `round`

Everything here models behaviour of the Python runtime that `/repo/sweep_design` relies on.
-/

namespace SweepDesign

/-- Exceptions raised by the modelled code.

* `notEqual`, `badInput`, `converting`, `typeFunc`: `/repo/sweep_design/exc.py:1-21`.
* `segmentSmaller`: `/repo/sweep_design/prepared_sweeps/pseudorandom_shuffle.py:13-14`.
* `zeroDivision`: Python's `ZeroDivisionError` (or the `OverflowError`/`ValueError` that `round(inf)`/`round(nan)`
  raise when the operands are numpy scalars); in every case the call raises.
* `index`, `value`, `typeError`: the built-in `IndexError`, `ValueError`, `TypeError`.
* `nonFinite`: **not** an exception of the code. numpy would return an array containing `inf`/`nan` (with a warning);
  exact arithmetic has no such numbers, so the model stops here. -/
inductive Err
  | notEqual (xSize ySize : Nat)
  | badInput
  | converting
  | typeFunc
  | segmentSmaller
  | zeroDivision
  | index
  | value
  | typeError
  | nonFinite
  deriving DecidableEq, Repr

section
variable {K : Type} [Field K] [LinearOrder K] [IsStrictOrderedRing K] [FloorRing K]

/-- Python 3 built-in `round(q)` with no digits: nearest integer, ties to the even integer.
Used in `/repo/sweep_design/axis.py:43` and `/repo/sweep_design/axis.py:134`. -/
def pyRound (q : K) : ℤ :=
  let f := ⌊q⌋
  if q - f < 1 / 2 then f
  else if 1 / 2 < q - f then f + 1
  else if f % 2 = 0 then f
  else f + 1

end

end SweepDesign
