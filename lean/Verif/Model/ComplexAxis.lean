import Verif.Model.Relation
import Verif.Py.Pow
import Mathlib.Analysis.Complex.Norm

/-!
# Axes of complex numbers

`ArrayAxis` and `Relation` accept complex numbers as `start`, `end` and `sample` and complex arrays as `x`
(`/repo/tests/test_axis.py:45-50`, `/repo/sweep_design/relation.py:66-70`). Here are the same functions as in `Model/Axis` and
`Model/Relation` on such axes: `abs` is the modulus, and numpy compares complex numbers by the real part and then by the
imaginary part.
-/

namespace SweepDesign

/-- numpy's `<=` on complex numbers: first the real parts count, then the imaginary ones -/
def lexLe (a b : ℂ) : Prop := a.re < b.re ∨ (a.re = b.re ∧ a.im ≤ b.im)

noncomputable instance (a b : ℂ) : Decidable (lexLe a b) := inferInstanceAs (Decidable (_ ∨ _))

/-- `np.min` of a complex array: the least entry in the order of `lexLe`; raises `ValueError` on an empty array -/
noncomputable def npMinC : List ℂ → Except Err ℂ
  | [] => .error .value
  | a :: l => .ok (l.foldl (fun m t => if lexLe m t then m else t) a)

/-- `ArrayAxis.array` (`axis.py:33-46`): `np.linspace(start, end, round(abs((end - start) / sample)) + 1)` -/
noncomputable def Axis.arrayC (a : Axis ℂ) : Except Err (List ℂ) :=
  if a.sample = 0 then .error .zeroDivision
  else .ok (linspace a.start a.stop ((pyRound ‖(a.stop - a.start) / a.sample‖).toNat + 1))

/-- `ArrayAxis.size` (`axis.py:81-83`) -/
noncomputable def Axis.sizeC (a : Axis ℂ) : Except Err Nat := a.arrayC.map List.length

/-- `get_actual_sample` (`axis.py:103-116`) -/
noncomputable def getActualSampleC (x : List ℂ) : Except Err ℂ := npMinC (npDiff x)

/-- `ArrayAxis.actual_sample` (`axis.py:66-70`) -/
noncomputable def Axis.actualSampleC (a : Axis ℂ) : Except Err ℂ := a.arrayC.bind getActualSampleC

/-- `get_array_axis_from_array` (`axis.py:119-136`) on a complex array: `isinstance(dx, (int, float))` is false, so the step
is never rounded -/
noncomputable def axisFromArrayC (x : List ℂ) : Except Err (Axis ℂ) := do
  let dx ← getActualSampleC x
  match x.head?, x.getLast? with
  | some s, some e => pure { start := s, stop := e, sample := dx }
  | _, _ => .error .index

/-- the constructor applied to an axis and an array (`relation.py:99-107`) -/
noncomputable def Rel.makeC (x : Axis ℂ) (y : List ℂ) : Except Err (Rel ℂ ℂ) := do
  let n ← x.sizeC
  if n ≠ y.length then .error (.notEqual n y.length) else pure { x := x, y := y }

/-- the constructor applied to a complex array (`relation.py:99-107`) -/
noncomputable def Rel.fromArrayC (x y : List ℂ) : Except Err (Rel ℂ ℂ) := do
  let a ← axisFromArrayC x
  Rel.makeC a y

/-- `Relation.get_data` (`relation.py:208-223`) -/
noncomputable def Rel.getDataC (r : Rel ℂ ℂ) : Except Err (List ℂ × List ℂ) := do
  let n ← r.x.sizeC
  if n ≠ r.y.length then .error (.notEqual n r.y.length)
  else do
    let a ← r.x.arrayC
    pure (a, r.y)

/-- `Relation.select_data` (`relation.py:253-282`); `np.greater_equal` and `np.less_equal` compare as `lexLe` -/
noncomputable def Rel.selectDataC (r : Rel ℂ ℂ) (start stop : Option ℂ) : Except Err (Rel ℂ ℂ) := do
  let a := start.getD r.x.start
  let b := stop.getD r.x.stop
  let array ← r.x.arrayC
  let isSelected := array.map fun t => decide (lexLe a t) && decide (lexLe t b)
  let selectedX ← maskSelect isSelected array
  match selectedX.head?, selectedX.getLast? with
  | some s, some e => do
    let newX : Axis ℂ := { start := s, stop := e, sample := r.x.sample }
    let y ← maskSelect isSelected r.y
    Rel.makeC newX y
  | _, _ => .error .index

/-- `Relation.exp` (`relation.py:284-293`) -/
noncomputable def Rel.expC (r : Rel ℂ ℂ) : Except Err (Rel ℂ ℂ) := Rel.makeC r.x (r.y.map Complex.exp)

/-- `integrate` and `Relation.integrate` (`defaults/methods.py:89-105`, `relation.py:307-317`) -/
noncomputable def Rel.integrateC (r : Rel ℂ ℂ) : Except Err (Rel ℂ ℂ) :=
  Rel.makeC { r.x with start := r.x.start + r.x.sample } ((cumTrapz r.y).map fun v => r.x.sample * v)

/-- `differentiate` and `Relation.diff` (`defaults/methods.py:108-124`, `relation.py:295-305`) -/
noncomputable def Rel.diffC (r : Rel ℂ ℂ) : Except Err (Rel ℂ ℂ) :=
  Rel.makeC { r.x with start := r.x.start + r.x.sample / 2, stop := r.x.stop - r.x.sample / 2 }
    ((npDiff r.y).map fun v => v / r.x.sample)

/-- `one_integrate` (`defaults/methods.py:73-86`) -/
noncomputable def Rel.oneIntegrateC (r : Rel ℂ ℂ) : Except Err ℂ := do
  let (x, y) ← r.getDataC
  pure (trapz y x)

/-- `Relation.shift` (`relation.py:342-356`) -/
noncomputable def Rel.shiftC (r : Rel ℂ ℂ) (d : ℂ) : Except Err (Rel ℂ ℂ) :=
  Rel.makeC { r.x with start := r.x.start + d, stop := r.x.stop + d } r.y

/-- Linear interpolation at one point, as `interpAt` with numpy's order of complex numbers: scipy 1.9 `interp1d._call_linear` with
`bounds_error=False, fill_value=0.0`, for at least two sorted, different positions -/
noncomputable def interpAtC (x y : List ℂ) (xn : ℂ) : ℂ :=
  match x.head?, x.getLast? with
  | some x0, some xl =>
    if ¬ lexLe x0 xn then 0
    else if ¬ lexLe xn xl then 0
    else
      let j := x.countP (fun t => decide (lexLe t xn)) - 1
      if j + 1 = x.length then at0 y j
      else
        let slope := (at0 y (j + 1) - at0 y j) / (at0 x (j + 1) - at0 x j)
        slope * (xn - at0 x j) + at0 y j
  | _, _ => 0

/-- `interp1d(x, y, bounds_error=False, fill_value=0.0)` and the call on `xs` (`defaults/methods.py:151-156`) for a complex array `x`:
it is sorted by numpy's order. A single sample gives nan (`nonFinite`). -/
noncomputable def interp1dC (x y xs : List ℂ) : Except Err (List ℂ) :=
  if x.length ≠ y.length then .error .value
  else if x.length = 0 then .error .value
  else if x.length = 1 then .error .nonFinite
  else
    let sorted := (x.zip y).insertionSort (fun p q => lexLe p.1 q.1)
    .ok (xs.map (interpAtC (sorted.map Prod.fst) (sorted.map Prod.snd)))

/-- `Relation.interpolate_extrapolate` with an axis (`relation.py:319-340`, `defaults/methods.py:127-158`) -/
noncomputable def Rel.interpAxisC (r : Rel ℂ ℂ) (newX : Axis ℂ) : Except Err (Rel ℂ ℂ) := do
  let x ← r.x.arrayC
  let xs ← newX.arrayC
  let newY ← interp1dC x r.y xs
  Rel.makeC newX newY

/-- `get_common_x` (`defaults/methods.py:161-181`). `ordered` tells whether each of the three comparisons involves a number of
numpy's complex type (as in an axis made from an array): those are compared as by `lexLe`, two Python complex numbers raise
`TypeError`. -/
noncomputable def commonXC (ordered : Bool) (x1 x2 : Axis ℂ) : Except Err (Axis ℂ) :=
  if ordered then .ok
    { start := if lexLe x1.start x2.start then x1.start else x2.start
      stop := if lexLe x2.stop x1.stop then x1.stop else x2.stop
      sample := if lexLe x1.sample x2.sample then x1.sample else x2.sample }
  else .error .typeError

/-- `Relation.equalize` (`relation.py:358-378`) -/
noncomputable def Rel.equalizeC (ordered same : Bool) (r1 r2 : Rel ℂ ℂ) : Except Err (Rel ℂ ℂ × Rel ℂ ℂ) :=
  if same then .ok (r1, r2)
  else do
    let newX ← commonXC ordered r1.x r2.x
    let q1 ← r1.interpAxisC newX
    let q2 ← r2.interpAxisC newX
    pure (q1, q2)

/-- `Relation._operation` followed by `type(self)(...)` (`relation.py:425-480`) -/
noncomputable def Rel.operationC (ordered : Bool) (a : Rel ℂ ℂ) (b : Operand ℂ ℂ) (op : MathOp) : Except Err (Rel ℂ ℂ) :=
  match b with
  | .rel same b => do
    let (r1, r2) ← Rel.equalizeC ordered same a b
    let y ← mathOperation r1.y (.arr r2.y) op
    Rel.makeC r1.x y
  | .other o => do
    let y ← mathOperation a.y o op
    Rel.makeC a.x y

/-- the part of `correlate` and `convolve` before the numpy call (`defaults/methods.py:199-202`, `221-224`) -/
noncomputable def Rel.alignForConvC (ordered : Bool) (r1 r2 : Rel ℂ ℂ) : Except Err (Rel ℂ ℂ × Rel ℂ ℂ × Axis ℂ) := do
  let r1 ← r1.shiftC (-r1.x.start)
  let r2 ← r2.shiftC (-r2.x.start)
  let (r1, r2) ← Rel.equalizeC ordered false r1 r2
  pure (r1, r2, { start := -r1.x.stop, stop := r1.x.stop, sample := r1.x.sample })

/-- `Relation.convolve` (`relation.py:403-423`, `defaults/methods.py:206-225`) -/
noncomputable def Rel.convolveC (ordered : Bool) (r1 r2 : Rel ℂ ℂ) : Except Err (Rel ℂ ℂ) := do
  let (r1, r2, ax) ← Rel.alignForConvC ordered r1 r2
  Rel.makeC ax (npConvolve r1.y r2.y)

/-- `Relation.correlate` (`relation.py:380-401`, `defaults/methods.py:184-203`) -/
noncomputable def Rel.correlateC (ordered : Bool) (r1 r2 : Rel ℂ ℂ) : Except Err (Rel ℂ ℂ) := do
  let (r1, r2, ax) ← Rel.alignForConvC ordered r1 r2
  Rel.makeC ax (npCorrelate r1.y r2.y)

/-- `Relation.get_norm` (`relation.py:241-251`) -/
noncomputable def Rel.getNormC (r : Rel ℂ ℂ) : Except Err ℂ := do
  let sq ← r.operationC true (.other (.num 2)) .pow
  let i ← sq.oneIntegrateC
  pure (i / r.x.sample)

/-- `Relation.__getitem__` with a number (`relation.py:519-522`) -/
noncomputable def Rel.getItemC (r : Rel ℂ ℂ) (v : ℂ) : Except Err (ℂ × ℂ) := do
  let array ← r.x.arrayC
  let idx ← argmin (array.map fun t => ‖t - v‖)
  match array[idx]?, r.y[idx]? with
  | some t, some w => pure (t, w)
  | _, _ => .error .index

end SweepDesign
