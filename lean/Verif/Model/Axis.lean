import Verif.Py.Num

/-!
# Model of `/repo/sweep_design/axis.py` (value layer)

The lazily filled caches `_array` and `_actual_sample` are not part of the value layer: here an axis is just the
triple (start, end, sample) and every read recomputes. That this is what the caching code observably does for every
history of reads, assignments and copies is proved in the heap layer (C01).
-/

namespace SweepDesign

/-- `ArrayAxis` as a value (`axis.py:9-27`). `stop` is the Python attribute `end` (a Lean keyword). -/
structure Axis (K : Type) where
  start : K
  stop : K
  sample : K
  deriving DecidableEq, Repr

section
variable {K : Type} [Field K] [LinearOrder K] [IsStrictOrderedRing K] [FloorRing K]

/-- `ArrayAxis.array` (`axis.py:33-46`): `np.linspace(start, end, round(abs((end - start) / sample)) + 1)`;
a zero sample raises. -/
def Axis.array (a : Axis K) : Except Err (List K) :=
  if a.sample = 0 then .error .zeroDivision
  else .ok (linspace a.start a.stop ((pyRound |(a.stop - a.start) / a.sample|).toNat + 1))

/-- `ArrayAxis.size` (`axis.py:81-83`). -/
def Axis.size (a : Axis K) : Except Err Nat := a.array.map List.length

/-- `get_actual_sample` (`axis.py:103-116`). `diff` is already the scalar minimum, so `np.unique` returns it with
count 1 and it is the result. -/
def getActualSample (x : List K) : Except Err K := npMin (npDiff x)

/-- `ArrayAxis.actual_sample` (`axis.py:66-70`). -/
def Axis.actualSample (a : Axis K) : Except Err K := a.array.bind getActualSample

/-- The rounding of the step in `get_array_axis_from_array` (`axis.py:133-134`):
`dx = 1 / round(1 / dx) if dx < 1 else round(dx)`. `1 / 0` or `1 / round(..)` with a zero divisor raises. -/
def roundStep (dx : K) : Except Err K :=
  if dx < 1 then
    if dx = 0 then .error .zeroDivision
    else if pyRound (1 / dx) = 0 then .error .zeroDivision
    else .ok (1 / (pyRound (1 / dx) : K))
  else .ok (pyRound dx : K)

/-- `get_array_axis_from_array` (`axis.py:119-136`). `isFloat` tells whether `np.array(x)` has a float dtype: the
test `isinstance(dx, (int, float))` holds for `np.float64` but not for `np.int64`, so integer arrays are never
rounded. -/
def axisFromArray (x : List K) (isFloat : Bool) (roundDx : Bool) : Except Err (Axis K) := do
  let dx ← getActualSample x
  let dx ← if roundDx && isFloat then roundStep dx else pure dx
  match x.head?, x.getLast? with
  | some s, some e => pure { start := s, stop := e, sample := dx }
  | _, _ => .error .index

/-- `get_common_x` (`defaults/methods.py:161-181`). -/
def commonX (x1 x2 : Axis K) : Axis K :=
  { start := if x1.start ≤ x2.start then x1.start else x2.start
    stop := if x1.stop ≥ x2.stop then x1.stop else x2.stop
    sample := if x1.sample ≤ x2.sample then x1.sample else x2.sample }

end

end SweepDesign
