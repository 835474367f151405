import Verif.Model.Relation

/-!
# Relations whose samples are machine integers or booleans

`Relation.__init__` keeps the type of the array it is given (`relation.py:99`: `np.array(y)`), so a list of Python ints becomes an `int64`
array, a maximum length sequence (`scipy.signal.max_len_seq`) an `int8` array and the result of a comparison an array of booleans. This file
repeats the operations of `Model/Relation` on samples that are integers of a fixed width, booleans or floats.

Taken from numpy (1.23, and 2 where it differs: `IntRule`) and scipy:
* `+`, `-`, `*`, `**` of integer arrays are calculated modulo `2 ** bits` in the smallest type that holds the numbers of both types; where
  there is none (`uint64` with a signed type) both are converted to floats;
* `**` refuses negative exponents (`ValueError`, hence `TypeFuncError`), `/` gives floats;
* of boolean arrays `+` is "or", `*` is "and", `-` is refused, `**` gives `int8`; with integers they are the integers 0 and 1;
* with a float operand integers and booleans are converted to floats first;
* `np.diff` and the sum of neighbours in `trapezoid` and `cumulative_trapezoid` are calculated in the integer type; for booleans `np.diff`
  is "differs" and the sum is "or";
* `interp1d` converts integers and booleans to floats first.

Floats are exact numbers of `K` here, so an `int64` sample above `2 ** 53` is converted without rounding. The reduced precision of `np.exp`
on `int8` and `int16` arrays is not modelled, nor are Python ints outside `-2 ** 63` to `2 ** 64 - 1` (numpy 1 makes an array of objects)
and Python booleans as operands.
-/

namespace SweepDesign

/-- the integer types of numpy -/
inductive IntType
  | i8 | i16 | i32 | i64 | u8 | u16 | u32 | u64
  deriving DecidableEq, Repr

/-- the number of bits without the sign -/
def IntType.low : IntType → Nat
  | .i8 => 7
  | .i16 => 15
  | .i32 => 31
  | .i64 => 63
  | .u8 => 8
  | .u16 => 16
  | .u32 => 32
  | .u64 => 64

/-- whether there is a sign -/
def IntType.signed : IntType → Bool
  | .i8 => true
  | .i16 => true
  | .i32 => true
  | .i64 => true
  | _ => false

/-- the smallest number -/
def IntType.least (t : IntType) : ℤ := if t.signed then -2 ^ t.low else 0

/-- what is stored when the exact result is `v` -/
def IntType.wrap (t : IntType) (v : ℤ) : ℤ := (v - t.least) % (2 ^ t.low - t.least) + t.least

/-- whether `v` can be stored -/
def IntType.holds (t : IntType) (v : ℤ) : Bool := decide (t.least ≤ v) && decide (v < 2 ^ t.low)

/-- `np.can_cast(t, u)` -/
def IntType.into (t u : IntType) : Bool := (u.signed || !t.signed) && decide (t.low ≤ u.low)

/-- `np.promote_types`; `none` is `float64` -/
def IntType.join (t u : IntType) : Option IntType :=
  [IntType.i8, .u8, .i16, .u16, .i32, .u32, .i64, .u64].find? fun w => t.into w && u.into w

/-- What numpy does with a Python int too large for the type of the array: numpy 1 takes a wider type, numpy 2 raises `OverflowError`. -/
inductive IntRule
  | widen | refuse
  deriving DecidableEq, Repr

/-- in what an array and a Python int are combined -/
inductive Combined
  | ints (t : IntType) | floats | refused
  deriving DecidableEq, Repr

/-- An array of type `t` and the Python int `c` (`np.result_type`). A number outside `-2 ** 63` to `2 ** 64 - 1` counts as refused here. -/
def IntType.withInt (rule : IntRule) (t : IntType) (c : ℤ) : Combined :=
  if t.holds c then .ints t
  else match rule with
    | .refuse => .refused
    | .widen =>
      let wider := if !t.signed && decide (0 ≤ c) then [IntType.u16, .u32, .u64] else [IntType.i16, .i32, .i64]
      match wider.find? fun u => t.into u && u.holds c with
      | some u => .ints u
      | none => if IntType.i64.holds c || IntType.u64.holds c then .floats else .refused

/-- the samples of a relation -/
inductive Samples (K : Type)
  | ints (t : IntType) (l : List ℤ)
  | bools (l : List Bool)
  | floats (l : List K)
  deriving DecidableEq, Repr

/-- a relation with its samples -/
structure NumRel (K : Type) where
  x : Axis K
  y : Samples K
  deriving DecidableEq, Repr

/-- The integer loop of the ndarray method named by the operation (`defaults/methods.py:64`); `none` is refused. Division has no integer
loop. -/
def MathOp.intFn (t : IntType) : MathOp → ℤ → ℤ → Option ℤ
  | .add, a, b => some (t.wrap (a + b))
  | .radd, a, b => some (t.wrap (b + a))
  | .sub, a, b => some (t.wrap (a - b))
  | .rsub, a, b => some (t.wrap (b - a))
  | .mul, a, b => some (t.wrap (a * b))
  | .rmul, a, b => some (t.wrap (b * a))
  | .pow, a, b => if b < 0 then none else some (t.wrap (a ^ b.toNat))
  | .rpow, a, b => if a < 0 then none else some (t.wrap (b ^ a.toNat))
  | .truediv, _, _ => none
  | .rtruediv, _, _ => none

/-- whether the operation is one of the two divisions -/
def MathOp.divides : MathOp → Bool
  | .truediv => true
  | .rtruediv => true
  | _ => false

/-- `int(b)` -/
def asInt (b : Bool) : ℤ := if b then 1 else 0

/-- `True` where the number is not zero -/
def asBool (v : ℤ) : Bool := decide (v ≠ 0)

/-- one refused entry refuses the whole array -/
def allOrTypeFunc (l : List (Option ℤ)) : Except Err (List ℤ) :=
  match l.mapM id with
  | some l => .ok l
  | none => .error .typeFunc

section
variable {K : Type} [Field K] [LinearOrder K] [IsStrictOrderedRing K] [FloorRing K]

/-- the number of samples -/
def Samples.length : Samples K → Nat
  | .ints _ l => l.length
  | .bools l => l.length
  | .floats l => l.length

/-- `y.astype(float)` -/
def Samples.toFloats : Samples K → List K
  | .ints _ l => l.map fun (v : ℤ) => (v : K)
  | .bools l => l.map fun b => if b then 1 else 0
  | .floats l => l

/-- the relation with its samples read as numbers -/
def NumRel.real (r : NumRel K) : Rel K K := ⟨r.x, r.y.toFloats⟩

/-- the constructor applied to an axis and an array (`relation.py:99-107`) -/
def NumRel.make (x : Axis K) (y : Samples K) : Except Err (NumRel K) := do
  let n ← x.size
  if n ≠ y.length then .error (.notEqual n y.length) else pure ⟨x, y⟩

/-- `math_operation` on two integer arrays (`defaults/methods.py:42-70`) -/
def intArrays (t : IntType) (y1 y2 : List ℤ) (op : MathOp) : Except Err (List ℤ) :=
  if y1.length = y2.length then allOrTypeFunc (List.zipWith (op.intFn t) y1 y2)
  else match y1, y2 with
    | _, [c] => allOrTypeFunc (y1.map fun a => op.intFn t a c)
    | [c], _ => allOrTypeFunc (y2.map fun b => op.intFn t c b)
    | _, _ => .error .typeFunc

/-- the right operand handed to `math_operation` (`relation.py:434-438`) -/
inductive NumOperand (K : Type)
  | int (c : ℤ)
  | float (c : K)
  | arr (y : Samples K)

/-- the operand read as numbers -/
def NumOperand.real : NumOperand K → NpOperand K
  | .int c => .num (c : K)
  | .float c => .num c
  | .arr y => .arr y.toFloats

/-- `math_operation` on two boolean arrays (`defaults/methods.py:42-70`) -/
def boolArrays (y1 y2 : List Bool) (op : MathOp) : Except Err (Samples K) :=
  let result := intArrays .i8 (y1.map asInt) (y2.map asInt) op
  match op with
  | .add | .radd | .mul | .rmul => result.map fun v => .bools (v.map asBool)
  | .pow | .rpow => result.map (.ints .i8)
  | _ => .error .typeFunc

/-- `math_operation` on two integer arrays of the types `t` and `u` (`defaults/methods.py:42-70`) -/
def typedArrays [PyPow K] (t u : IntType) (l m : List ℤ) (op : MathOp) : Except Err (Samples K) :=
  let asFloats := (mathOperation (l.map fun (v : ℤ) => (v : K)) (.arr (m.map fun (v : ℤ) => (v : K))) op).map .floats
  if op.divides then asFloats
  else match t.join u with
    | some w => (intArrays w l m op).map (.ints w)
    | none => asFloats

/-- `math_operation` on an integer array and a Python int, combined as `how` (`defaults/methods.py:42-70`) -/
def arrayInt [PyPow K] (how : Combined) (l : List ℤ) (c : ℤ) (op : MathOp) : Except Err (Samples K) :=
  let asFloats := (mathOperation (l.map fun (v : ℤ) => (v : K)) (.num (c : K)) op).map .floats
  match how with
  | .refused => .error .typeFunc
  | .floats => asFloats
  | .ints u => if op.divides then asFloats else (allOrTypeFunc (l.map fun a => op.intFn u a c)).map (.ints u)

/-- in what a boolean array and a Python int are combined: `int64`, but `** 2` is `np.square`, which makes `int8` of booleans -/
def boolsInt (c : ℤ) (op : MathOp) : Combined :=
  if c = 2 ∧ op = .pow then .ints .i8 else IntType.i64.withInt .refuse c

/-- `math_operation` (`defaults/methods.py:42-70`) -/
def numOperation [PyPow K] (rule : IntRule) (y1 : Samples K) (y2 : NumOperand K) (op : MathOp) : Except Err (Samples K) :=
  match y1, y2 with
  | .ints t l, .int c => arrayInt (t.withInt rule c) l c op
  | .bools l, .int c => arrayInt (boolsInt c op) (l.map asInt) c op
  | .ints t l, .arr (.ints u m) => typedArrays t u l m op
  | .ints t l, .arr (.bools m) => typedArrays t t l (m.map asInt) op
  | .bools l, .arr (.ints u m) => typedArrays u u (l.map asInt) m op
  | .bools l, .arr (.bools m) =>
    if op.divides then (mathOperation (l.map fun b => if b then 1 else 0) (.arr (m.map fun b => if b then 1 else 0)) op).map .floats
    else boolArrays l m op
  | y1, y2 => (mathOperation y1.toFloats y2.real op).map .floats

/-- `Relation.select_data` (`relation.py:253-282`) -/
def NumRel.selectData (r : NumRel K) (start stop : Option K) : Except Err (NumRel K) := do
  let a := start.getD r.x.start
  let b := stop.getD r.x.stop
  let array ← r.x.array
  let isSelected := array.map fun t => decide (a ≤ t) && decide (t ≤ b)
  let selectedX ← maskSelect isSelected array
  match selectedX.head?, selectedX.getLast? with
  | some s, some e => do
    let y ← match r.y with
      | .ints t l => (maskSelect isSelected l).map (.ints t)
      | .bools l => (maskSelect isSelected l).map .bools
      | .floats l => (maskSelect isSelected l).map .floats
    NumRel.make { start := s, stop := e, sample := r.x.sample } y
  | _, _ => .error .index

/-- the sums of neighbours `y[1:] + y[:-1]` of scipy's trapezoid rules, as floats -/
def Samples.neighbours : Samples K → List K
  | .ints t l => List.zipWith (fun a b => ((t.wrap (b + a) : ℤ) : K)) l l.tail
  | .bools l => List.zipWith (fun a b => if b || a then 1 else 0) l l.tail
  | .floats l => List.zipWith (fun a b => b + a) l l.tail

/-- `np.diff(y)`, as floats -/
def Samples.steps : Samples K → List K
  | .ints t l => List.zipWith (fun a b => ((t.wrap (b - a) : ℤ) : K)) l l.tail
  | .bools l => List.zipWith (fun a b => if b != a then 1 else 0) l l.tail
  | .floats l => npDiff l

/-- `Relation.integrate` (`defaults/methods.py:89-105`, `relation.py:307-317`) -/
def NumRel.integrate (r : NumRel K) : Except Err (NumRel K) :=
  let dx := r.x.sample
  NumRel.make { r.x with start := r.x.start + r.x.sample } (.floats ((cumsum (r.y.neighbours.map fun s => s / 2)).map fun v => v * dx))

/-- `Relation.diff` (`defaults/methods.py:108-124`, `relation.py:295-305`) -/
def NumRel.diff (r : NumRel K) : Except Err (NumRel K) :=
  let dx := r.x.sample
  NumRel.make { r.x with start := r.x.start + r.x.sample / 2, stop := r.x.stop - r.x.sample / 2 }
    (.floats (r.y.steps.map fun v => v / dx))

/-- `one_integrate` (`defaults/methods.py:73-86`); `get_data` checks the sizes (`relation.py:208-223`) -/
def NumRel.oneIntegrate (r : NumRel K) : Except Err K := do
  let n ← r.x.size
  if n ≠ r.y.length then .error (.notEqual n r.y.length)
  else do
    let x ← r.x.array
    pure ((List.zipWith (fun d s => d * s / 2) (npDiff x) r.y.neighbours).sum)

/-- `Relation.get_norm` (`relation.py:241-251`) -/
def NumRel.getNorm [PyPow K] (rule : IntRule) (r : NumRel K) : Except Err K := do
  let y ← numOperation rule r.y (.int 2) .pow
  let sq ← NumRel.make r.x y
  let i ← sq.oneIntegrate
  pure (i / r.x.sample)

/-- `Relation.interpolate_extrapolate` with an axis (`relation.py:319-340`, `defaults/methods.py:127-158`) -/
def NumRel.interpAxis (r : NumRel K) (newX : Axis K) : Except Err (NumRel K) := do
  let x ← r.x.array
  let xs ← newX.array
  let newY ← interp1d x r.y.toFloats xs
  NumRel.make newX (.floats newY)

/-- `Relation.shift` (`relation.py:342-356`) -/
def NumRel.shift (r : NumRel K) (d : K) : Except Err (NumRel K) :=
  NumRel.make { r.x with start := r.x.start + d, stop := r.x.stop + d } r.y

/-- `Relation.equalize` (`relation.py:358-378`); `same`: the two relations have the same axis object -/
def NumRel.equalize (same : Bool) (r1 r2 : NumRel K) : Except Err (NumRel K × NumRel K) :=
  if same then .ok (r1, r2)
  else do
    let newX := commonX r1.x r2.x
    let q1 ← r1.interpAxis newX
    let q2 ← r2.interpAxis newX
    pure (q1, q2)

/-- `Relation._operation` with another relation (`relation.py:425-480`) -/
def NumRel.withRel [PyPow K] (rule : IntRule) (same : Bool) (a b : NumRel K) (op : MathOp) : Except Err (NumRel K) := do
  let (r1, r2) ← NumRel.equalize same a b
  let y ← numOperation rule r1.y (.arr r2.y) op
  NumRel.make r1.x y

/-- `Relation._operation` with a number or an array (`relation.py:425-480`) -/
def NumRel.withOther [PyPow K] (rule : IntRule) (a : NumRel K) (o : NumOperand K) (op : MathOp) : Except Err (NumRel K) := do
  let y ← numOperation rule a.y o op
  NumRel.make a.x y

/-- the part of `correlate` and `convolve` before the numpy call (`defaults/methods.py:199-202`, `221-224`) -/
def NumRel.alignForConv (r1 r2 : NumRel K) : Except Err (NumRel K × NumRel K × Axis K) := do
  let r1 ← r1.shift (-r1.x.start)
  let r2 ← r2.shift (-r2.x.start)
  let (r1, r2) ← NumRel.equalize false r1 r2
  pure (r1, r2, { start := -r1.x.stop, stop := r1.x.stop, sample := r1.x.sample })

/-- `Relation.convolve` (`relation.py:403-423`, `defaults/methods.py:206-225`): both arrays are floats after `equalize` -/
def NumRel.convolve (r1 r2 : NumRel K) : Except Err (NumRel K) := do
  let (r1, r2, ax) ← NumRel.alignForConv r1 r2
  NumRel.make ax (.floats (npConvolve r1.y.toFloats r2.y.toFloats))

/-- `Relation.correlate` (`relation.py:380-401`, `defaults/methods.py:184-203`) -/
def NumRel.correlate [Star K] (r1 r2 : NumRel K) : Except Err (NumRel K) := do
  let (r1, r2, ax) ← NumRel.alignForConv r1 r2
  NumRel.make ax (.floats (npCorrelate r1.y.toFloats r2.y.toFloats))

/-- `Relation.max` (`relation.py:225-231`), the number it stands for -/
def NumRel.max (r : NumRel K) : Except Err K :=
  match r.y with
  | .ints _ l => (npMax l).map fun (v : ℤ) => (v : K)
  | .bools l => if l.isEmpty then .error .value else .ok (if l.any id then 1 else 0)
  | .floats l => npMax l

/-- `Relation.min` (`relation.py:233-239`), the number it stands for -/
def NumRel.min (r : NumRel K) : Except Err K :=
  match r.y with
  | .ints _ l => (npMin l).map fun (v : ℤ) => (v : K)
  | .bools l => if l.isEmpty then .error .value else .ok (if l.all id then 1 else 0)
  | .floats l => npMin l

/-- `Relation.__getitem__` with a real number (`relation.py:519-522`), the numbers it stands for -/
def NumRel.getItem (r : NumRel K) (v : K) : Except Err (K × K) := do
  let array ← r.x.array
  let idx ← argmin (array.map fun t => |t - v|)
  match array[idx]?, r.y.toFloats[idx]? with
  | some t, some w => pure (t, w)
  | _, _ => .error .index

end

end SweepDesign
