import Verif.Model.Axis

/-!
# Model of `/repo/sweep_design/relation.py` and of the relation part of `/repo/sweep_design/defaults/methods.py`
(value layer, class `Relation` with the default `Config`)

A relation is its axis and its y array. Aliasing, captured Config methods and caches are in the heap layer.
-/

namespace SweepDesign

/-- `Relation` as a value (`relation.py:20-107`). Nothing in this type forces `y` to have as many entries as the axis:
the constructor checks it (`Rel.make`), but a later assignment to `start`, `end` or `sample` can break it. -/
structure Rel (K V : Type) where
  x : Axis K
  y : List V
  deriving DecidableEq, Repr

/-- What can be passed as `x` to the constructor (`relation.py:57-107`). -/
inductive XArg (K V : Type)
  | rel (r : Rel K V)
  | axis (a : Axis K)
  | array (l : List K) (isFloat : Bool)

/-- `MathOperation` (`core.py:35-52`). -/
inductive MathOp
  | add | radd | sub | rsub | mul | rmul | truediv | rtruediv | pow | rpow
  deriving DecidableEq, Repr

/-- Exponentiation of numpy scalars, `a ** b`; `none` when the result is not a finite number of type `V`.
The only law assumed is that squaring works (used by `get_norm`). -/
class PyPow (V : Type) [Field V] where
  ppow : V → V → Option V
  ppow_two : ∀ a : V, ppow a 2 = some (a * a)

section
variable {V : Type} [Field V] [DecidableEq V] [PyPow V]

/-- The ndarray method named by the operation, on one pair of entries (`defaults/methods.py:64`):
`y1.__add__(y2)` is `y1 + y2`, `y1.__rsub__(y2)` is `y2 - y1`, and so on. -/
def MathOp.fn : MathOp → V → V → Option V
  | .add, a, b => some (a + b)
  | .radd, a, b => some (b + a)
  | .sub, a, b => some (a - b)
  | .rsub, a, b => some (b - a)
  | .mul, a, b => some (a * b)
  | .rmul, a, b => some (b * a)
  | .truediv, a, b => if b = 0 then none else some (a / b)
  | .rtruediv, a, b => if a = 0 then none else some (b / a)
  | .pow, a, b => PyPow.ppow a b
  | .rpow, a, b => PyPow.ppow b a

/-- `none` entries are non-finite numbers: outside the model. -/
def finite (l : List (Option V)) : Except Err (List V) :=
  match l.mapM id with
  | some l => .ok l
  | none => .error .nonFinite

/-- The right operand handed to `math_operation` (`relation.py:434-438`). `bad` is an object numpy cannot combine (string, None, ...). -/
inductive NpOperand (V : Type)
  | num (c : V)
  | arr (l : List V)
  | bad

/-- `math_operation` (`defaults/methods.py:42-70`): elementwise with numpy broadcasting of one-dimensional arrays;
any exception becomes `TypeFuncError`. -/
def mathOperation (y1 : List V) (y2 : NpOperand V) (op : MathOp) : Except Err (List V) :=
  match y2 with
  | .num c => finite (y1.map fun a => op.fn a c)
  | .arr l =>
    if y1.length = l.length then finite (List.zipWith op.fn y1 l)
    else match y1, l with
      | _, [c] => finite (y1.map fun a => op.fn a c)
      | [c], _ => finite (l.map fun b => op.fn c b)
      | _, _ => .error .typeFunc
  | .bad => .error .typeFunc

end

section
variable {K : Type} [Field K] [LinearOrder K] [IsStrictOrderedRing K] [FloorRing K]
variable {V : Type} [Field V] [Algebra K V]

omit [Field V] [Algebra K V] in
/-- The constructor applied to an axis and an array (`relation.py:99-107`). -/
def Rel.make (x : Axis K) (y : List V) : Except Err (Rel K V) := do
  let n ← x.size
  if n ≠ y.length then .error (.notEqual n y.length) else pure { x := x, y := y }

omit [Field V] [Algebra K V] in
/-- `Relation.__init__` (`relation.py:57-107`). -/
def Rel.init (x : XArg K V) (y : Option (List V)) : Except Err (Rel K V) :=
  match x with
  | .rel r => .ok { x := r.x, y := r.y }
  | .axis a =>
    match y with
    | none => .error .badInput
    | some y => Rel.make a y
  | .array l isFloat =>
    match y with
    | none => .error .badInput
    | some y => do
      let a ← axisFromArray l isFloat true
      Rel.make a y

omit [Field V] [Algebra K V] in
/-- `Relation.get_data` (`relation.py:208-223`). -/
def Rel.getData (r : Rel K V) : Except Err (List K × List V) := do
  let n ← r.x.size
  if n ≠ r.y.length then .error (.notEqual n r.y.length)
  else do
    let a ← r.x.array
    pure (a, r.y)

omit [Field V] [Algebra K V] in
/-- `Relation.select_data` (`relation.py:253-282`). `selected_x[0]` on an empty selection raises `IndexError`. -/
def Rel.selectData (r : Rel K V) (start stop : Option K) : Except Err (Rel K V) := do
  let a := start.getD r.x.start
  let b := stop.getD r.x.stop
  let array ← r.x.array
  let isSelected := array.map fun t => decide (a ≤ t) && decide (t ≤ b)
  let selectedX ← maskSelect isSelected array
  match selectedX.head?, selectedX.getLast? with
  | some s, some e => do
    let newX : Axis K := { start := s, stop := e, sample := r.x.sample }
    let y ← maskSelect isSelected r.y
    Rel.make newX y
  | _, _ => .error .index

/-- `Relation.exp` (`relation.py:284-293`); `e` is numpy's exponential on entries. -/
def Rel.exp (e : V → V) (r : Rel K V) : Except Err (Rel K V) := Rel.make r.x (r.y.map e)

/-- `integrate` and `Relation.integrate` (`defaults/methods.py:89-105`, `relation.py:307-317`). -/
def Rel.integrate (r : Rel K V) : Except Err (Rel K V) :=
  let dx := r.x.sample
  Rel.make { r.x with start := r.x.start + r.x.sample } ((cumTrapz r.y).map fun v => dx • v)

/-- `differentiate` and `Relation.diff` (`defaults/methods.py:108-124`, `relation.py:295-305`). Division of an
array by a zero `dx` never gets past the constructor, which raises on a zero sample. -/
def Rel.diff (r : Rel K V) : Except Err (Rel K V) :=
  let dx := r.x.sample
  Rel.make { r.x with start := r.x.start + r.x.sample / 2, stop := r.x.stop - r.x.sample / 2 }
    ((npDiff r.y).map fun v => dx⁻¹ • v)

/-- `one_integrate` (`defaults/methods.py:73-86`). -/
def Rel.oneIntegrate (r : Rel K V) : Except Err V := do
  let (x, y) ← r.getData
  pure (trapz y x)

/-- `Relation.interpolate_extrapolate` with an axis (`relation.py:319-340`, `defaults/methods.py:127-158`). -/
def Rel.interpAxis (r : Rel K V) (newX : Axis K) : Except Err (Rel K V) := do
  let x ← r.x.array
  let xs ← newX.array
  let newY ← interp1d x r.y xs
  Rel.make newX newY

/-- `Relation.interpolate_extrapolate` (`relation.py:319-340`): a relation gives its axis, an array-like is converted
without rounding of the step. -/
def Rel.interpolateExtrapolate (r : Rel K V) (newX : XArg K V) : Except Err (Rel K V) :=
  match newX with
  | .rel q => r.interpAxis q.x
  | .axis a => r.interpAxis a
  | .array l isFloat => do
    let a ← axisFromArray l isFloat false
    r.interpAxis a

omit [Field V] [Algebra K V] in
/-- `Relation.shift` (`relation.py:342-356`). -/
def Rel.shift (r : Rel K V) (d : K) : Except Err (Rel K V) :=
  Rel.make { r.x with start := r.x.start + d, stop := r.x.stop + d } r.y

/-- `Relation.equalize` (`relation.py:358-378`). `same` is the outcome of `r1.x == r2.x`; `ArrayAxis` defines no
`__eq__`, so this is object identity. If it is true the two axes are the same object, hence equal as values. -/
def Rel.equalize (same : Bool) (r1 r2 : Rel K V) : Except Err (Rel K V × Rel K V) :=
  if same then .ok (r1, r2)
  else do
    let newX := commonX r1.x r2.x
    let q1 ← r1.interpAxis newX
    let q2 ← r2.interpAxis newX
    pure (q1, q2)

/-- The right operand of an arithmetic operator on a relation (`relation.py:432-438`). -/
inductive Operand (K V : Type)
  | rel (same : Bool) (r : Rel K V)
  | other (o : NpOperand V)

/-- `Relation._operation` followed by `type(self)(...)` (`relation.py:425-480`). -/
def Rel.operation [DecidableEq V] [PyPow V] (a : Rel K V) (b : Operand K V) (op : MathOp) : Except Err (Rel K V) :=
  match b with
  | .rel same b => do
    let (r1, r2) ← Rel.equalize same a b
    let y ← mathOperation r1.y (.arr r2.y) op
    Rel.make r1.x y
  | .other o => do
    let y ← mathOperation a.y o op
    Rel.make a.x y

/-! The operator methods (`relation.py:440-495`). In Python `c - r` calls `r.__rsub__(c)` when `c` is a plain number,
and `r /= c` calls `r.__truediv__(c)` because `__itruediv__` is not defined (`__idiv__` is unused in Python 3). -/

section Operators
variable [DecidableEq V] [PyPow V]

/-- `__add__` (`relation.py:440-442`) -/
def Rel.add (r : Rel K V) (o : Operand K V) : Except Err (Rel K V) := r.operation o .add
/-- `__radd__` (`relation.py:444-446`) -/
def Rel.radd (r : Rel K V) (o : Operand K V) : Except Err (Rel K V) := r.operation o .radd
/-- `__sub__` (`relation.py:448-450`) -/
def Rel.sub (r : Rel K V) (o : Operand K V) : Except Err (Rel K V) := r.operation o .sub
/-- `__rsub__` (`relation.py:452-454`) -/
def Rel.rsub (r : Rel K V) (o : Operand K V) : Except Err (Rel K V) := r.operation o .rsub
/-- `__mul__` (`relation.py:456-458`) -/
def Rel.mul (r : Rel K V) (o : Operand K V) : Except Err (Rel K V) := r.operation o .mul
/-- `__rmul__` (`relation.py:460-462`) -/
def Rel.rmul (r : Rel K V) (o : Operand K V) : Except Err (Rel K V) := r.operation o .rmul
/-- `__truediv__` (`relation.py:464-467`) -/
def Rel.truediv (r : Rel K V) (o : Operand K V) : Except Err (Rel K V) := r.operation o .truediv
/-- `__rtruediv__` (`relation.py:469-472`) -/
def Rel.rtruediv (r : Rel K V) (o : Operand K V) : Except Err (Rel K V) := r.operation o .rtruediv
/-- `__pow__` (`relation.py:474-476`) -/
def Rel.pow (r : Rel K V) (o : Operand K V) : Except Err (Rel K V) := r.operation o .pow
/-- `__rpow__` (`relation.py:478-480`) -/
def Rel.rpow (r : Rel K V) (o : Operand K V) : Except Err (Rel K V) := r.operation o .rpow

end Operators

/-- `Relation.get_norm` (`relation.py:241-251`). -/
def Rel.getNorm [DecidableEq V] [PyPow V] (r : Rel K V) : Except Err V := do
  let sq ← r.pow (.other (.num 2))
  let i ← sq.oneIntegrate
  pure (r.x.sample⁻¹ • i)

/-- The part of `correlate`/`convolve` before the numpy call (`defaults/methods.py:199-202`, `221-224`), for class
`Relation`. `shift` makes new axis objects, so `equalize` always takes the interpolation path. -/
def Rel.alignForConv (r1 r2 : Rel K V) : Except Err (Rel K V × Rel K V × Axis K) := do
  let r1 ← r1.shift (-r1.x.start)
  let r2 ← r2.shift (-r2.x.start)
  let (r1, r2) ← Rel.equalize false r1 r2
  pure (r1, r2, { start := -r1.x.stop, stop := r1.x.stop, sample := r1.x.sample })

/-- `Relation.convolve` (`relation.py:403-423`, `defaults/methods.py:206-225`). -/
def Rel.convolve (r1 r2 : Rel K V) : Except Err (Rel K V) := do
  let (r1, r2, ax) ← Rel.alignForConv r1 r2
  Rel.make ax (npConvolve r1.y r2.y)

/-- `Relation.correlate` (`relation.py:380-401`, `defaults/methods.py:184-203`). -/
def Rel.correlate [Star V] (r1 r2 : Rel K V) : Except Err (Rel K V) := do
  let (r1, r2, ax) ← Rel.alignForConv r1 r2
  Rel.make ax (npCorrelate r1.y r2.y)

omit [Field V] [Algebra K V] in
/-- `Relation.__getitem__` with a real number (`relation.py:519-522`). -/
def Rel.getItem (r : Rel K V) (v : K) : Except Err (K × V) := do
  let array ← r.x.array
  let idx ← argmin (array.map fun t => |t - v|)
  match array[idx]?, r.y[idx]? with
  | some t, some w => pure (t, w)
  | _, _ => .error .index

omit [Field V] [Algebra K V] in
/-- `Relation.__getitem__` with a slice (`relation.py:524-525`); the slice step is ignored. -/
def Rel.getSlice (r : Rel K V) (start stop : Option K) : Except Err (Rel K V) := r.selectData start stop

omit [Field V] [Algebra K V] in
/-- `Relation.__len__` (`relation.py:497-498`). -/
def Rel.len (r : Rel K V) : Except Err Nat := r.x.size

omit [Field V] [Algebra K V] in
/-- `Relation.max` (`relation.py:225-231`) for real values. -/
def Rel.max [LinearOrder V] (r : Rel K V) : Except Err V := npMax r.y

omit [Field V] [Algebra K V] in
/-- `Relation.min` (`relation.py:233-239`) for real values. -/
def Rel.min [LinearOrder V] (r : Rel K V) : Except Err V := npMin r.y

end

end SweepDesign
