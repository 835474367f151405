import Verif.Model.Spectral

/-!
# Relations whose samples are a table

The constructor of `Relation` compares `y.size` with the size of the axis (`/repo/sweep_design/relation.py:104`), and `size` counts all entries
of an ndarray, so it also accepts arrays of two dimensions: a row of shape `(1, n)`, a column of shape `(n, 1)`, a table of shape `(m, n)`.
Here are the methods of class `Relation` and the transform of class `Signal` on such samples. What numpy and scipy do with two dimensions is
written down from numpy 1.23 and scipy 1.9: `np.diff`, `cumulative_trapezoid`, `trapezoid` and `interp1d` work along the last axis, a mask or
an index picks rows, arithmetic broadcasts, `np.convolve`, `np.correlate` reject tables, `np.append` flattens.
-/

namespace SweepDesign

/-- an ndarray of one dimension, or of two: `mat n rows` has the shape `(rows.length, n)`, so all `rows` have length `n` -/
inductive Nd (V : Type)
  | vec (l : List V)
  | mat (n : ℕ) (rows : List (List V))
  deriving DecidableEq, Repr

section
variable {V W : Type}

/-- `y.size` -/
def Nd.size : Nd V → ℕ
  | .vec l => l.length
  | .mat n rows => rows.length * n

/-- the entries row by row (`np.append`, `y.max`) -/
def Nd.flat : Nd V → List V
  | .vec l => l
  | .mat _ rows => rows.flatten

/-- a function applied to every entry -/
def Nd.map (f : V → W) : Nd V → Nd W
  | .vec l => .vec (l.map f)
  | .mat n rows => .mat n (rows.map (List.map f))

/-- `y[mask]`: the mask selects entries of a vector and rows of a table (`relation.py:282`) -/
def Nd.select (mask : List Bool) : Nd V → Except Err (Nd V)
  | .vec l => (maskSelect mask l).map .vec
  | .mat n rows => (maskSelect mask rows).map (.mat n)

/-- numpy broadcasting along one dimension -/
def bcast {A B C : Type} (g : A → B → C) (a : List A) (b : List B) : Option (List C) :=
  if a.length = b.length then some (List.zipWith g a b)
  else match a, b with
    | _, [c] => some (a.map fun x => g x c)
    | [c], _ => some (b.map fun x => g c x)
    | _, _ => none

end

section
variable {V : Type} [Field V] [DecidableEq V] [PyPow V]

/-- The right operand of `math_operation` (`relation.py:434-438`) -/
inductive NdOperand (V : Type)
  | num (c : V)
  | arr (a : Nd V)
  | bad

/-- `op` on two rows of tables of widths that can be broadcast -/
def rowOp (op : MathOp) (a b : List V) : Except Err (List V) :=
  match bcast op.fn a b with
  | some l => finite l
  | none => .error .typeFunc

/-- `op` on two tables with the given widths (`defaults/methods.py:64`): both dimensions are broadcast -/
def tableOp (op : MathOp) (n1 : ℕ) (a : List (List V)) (n2 : ℕ) (b : List (List V)) : Except Err (Nd V) :=
  if n1 = n2 ∨ n1 = 1 ∨ n2 = 1 then
    match bcast (rowOp op) a b with
    | some rows => do
      let rows ← rows.mapM id
      pure (.mat (if n1 = 1 then n2 else n1) rows)
    | none => .error .typeFunc
  else .error .typeFunc

/-- `math_operation` (`defaults/methods.py:42-70`); a vector broadcasts like a row -/
def mathOperationNd (y1 : Nd V) (y2 : NdOperand V) (op : MathOp) : Except Err (Nd V) :=
  match y1, y2 with
  | _, .bad => .error .typeFunc
  | .vec l, .num c => (mathOperation l (.num c) op).map .vec
  | .vec l, .arr (.vec l') => (mathOperation l (.arr l') op).map .vec
  | .vec l, .arr (.mat n rows) => tableOp op l.length [l] n rows
  | .mat n rows, .num c => do
    let rows ← rows.mapM fun r => finite (r.map fun a => op.fn a c)
    pure (.mat n rows)
  | .mat n rows, .arr (.vec l) => tableOp op n rows l.length [l]
  | .mat n rows, .arr (.mat n' rows') => tableOp op n rows n' rows'

end

/-- `Relation` with samples of one or two dimensions (`relation.py:20-107`) -/
structure NRel (K V : Type) where
  x : Axis K
  y : Nd V
  deriving DecidableEq, Repr

/-- a number, or an array of numbers -/
inductive NumOrArr (V : Type)
  | num (v : V)
  | arr (l : List V)
  deriving DecidableEq, Repr

section
variable {K : Type} [Field K] [LinearOrder K] [IsStrictOrderedRing K] [FloorRing K]
variable {V : Type} [Field V] [Algebra K V]

omit [Field V] [Algebra K V] in
/-- the constructor applied to an axis and an array (`relation.py:99-107`) -/
def NRel.make (x : Axis K) (y : Nd V) : Except Err (NRel K V) := do
  let n ← x.size
  if n ≠ y.size then .error (.notEqual n y.size) else pure { x := x, y := y }

omit [Field V] [Algebra K V] in
/-- `get_data` (`relation.py:208-223`) -/
def NRel.getData (r : NRel K V) : Except Err (List K × Nd V) := do
  let n ← r.x.size
  if n ≠ r.y.size then .error (.notEqual n r.y.size)
  else do
    let a ← r.x.array
    pure (a, r.y)

omit [Field V] [Algebra K V] in
/-- `select_data` (`relation.py:253-282`) -/
def NRel.selectData (r : NRel K V) (start stop : Option K) : Except Err (NRel K V) := do
  let a := start.getD r.x.start
  let b := stop.getD r.x.stop
  let array ← r.x.array
  let isSelected := array.map fun t => decide (a ≤ t) && decide (t ≤ b)
  let selectedX ← maskSelect isSelected array
  match selectedX.head?, selectedX.getLast? with
  | some s, some e => do
    let newX : Axis K := { start := s, stop := e, sample := r.x.sample }
    let y ← r.y.select isSelected
    NRel.make newX y
  | _, _ => .error .index

/-- `exp` (`relation.py:284-293`) -/
def NRel.exp (e : V → V) (r : NRel K V) : Except Err (NRel K V) := NRel.make r.x (r.y.map e)

/-- `cumulative_trapezoid(y) * dx`, along the last axis (`defaults/methods.py:105`) -/
def Nd.cumTrapz (dx : K) : Nd V → Nd V
  | .vec l => .vec ((SweepDesign.cumTrapz l).map fun v => dx • v)
  | .mat n rows => .mat (n - 1) (rows.map fun r => (SweepDesign.cumTrapz r).map fun v => dx • v)

/-- `np.diff(y) / dx`, along the last axis (`defaults/methods.py:124`) -/
def Nd.diff (dx : K) : Nd V → Nd V
  | .vec l => .vec ((npDiff l).map fun v => dx⁻¹ • v)
  | .mat n rows => .mat (n - 1) (rows.map fun r => (npDiff r).map fun v => dx⁻¹ • v)

/-- `integrate` (`defaults/methods.py:89-105`, `relation.py:307-317`) -/
def NRel.integrate (r : NRel K V) : Except Err (NRel K V) :=
  NRel.make { r.x with start := r.x.start + r.x.sample } (r.y.cumTrapz r.x.sample)

/-- `diff` (`defaults/methods.py:108-124`, `relation.py:295-305`) -/
def NRel.diff (r : NRel K V) : Except Err (NRel K V) :=
  NRel.make { r.x with start := r.x.start + r.x.sample / 2, stop := r.x.stop - r.x.sample / 2 } (r.y.diff r.x.sample)

/-- `trapezoid(y, x)` (`defaults/methods.py:86`): the differences of `x` are broadcast against the averages in each row -/
def trapzNd (x : List K) : Nd V → Except Err (NumOrArr V)
  | .vec l => .ok (.num (trapz l x))
  | .mat _ rows => do
    let v ← rows.mapM fun r =>
      match bcast (fun (d : K) (v : V) => d • v) (npDiff x) (List.zipWith (fun a b => (b + a) / 2) r r.tail) with
      | some l => .ok l.sum
      | none => .error Err.value
    pure (.arr v)

/-- `one_integrate` (`defaults/methods.py:73-86`) -/
def NRel.oneIntegrate (r : NRel K V) : Except Err (NumOrArr V) := do
  let (x, y) ← r.getData
  trapzNd x y

/-- `interp1d(x, y, bounds_error=False, fill_value=0.0)(xs)` (`defaults/methods.py:151-156`): for a table every row is interpolated, and one
position gives nan instead of the sample -/
def interp1dNd (x : List K) (y : Nd V) (xs : List K) : Except Err (Nd V) :=
  match y with
  | .vec l => (interp1d x l xs).map .vec
  | .mat n rows =>
    if x.length ≠ n then .error .value
    else if x.length < 2 then .error .nonFinite
    else do
      let rows ← rows.mapM fun r => interp1d x r xs
      pure (.mat xs.length rows)

/-- `interpolate_extrapolate` with an axis (`relation.py:319-340`) -/
def NRel.interpAxis (r : NRel K V) (newX : Axis K) : Except Err (NRel K V) := do
  let x ← r.x.array
  let xs ← newX.array
  let newY ← interp1dNd x r.y xs
  NRel.make newX newY

omit [Field V] [Algebra K V] in
/-- `Relation.shift` (`relation.py:342-356`) -/
def NRel.shift (r : NRel K V) (d : K) : Except Err (NRel K V) :=
  NRel.make { r.x with start := r.x.start + d, stop := r.x.stop + d } r.y

/-- `equalize` (`relation.py:358-378`); `same`: the axes are one object -/
def NRel.equalize (same : Bool) (r1 r2 : NRel K V) : Except Err (NRel K V × NRel K V) :=
  if same then .ok (r1, r2)
  else do
    let newX := commonX r1.x r2.x
    let q1 ← r1.interpAxis newX
    let q2 ← r2.interpAxis newX
    pure (q1, q2)

/-- the right operand of an operator (`relation.py:432-438`) -/
inductive NOperand (K V : Type)
  | rel (same : Bool) (r : NRel K V)
  | num (c : V)
  | bad

/-- `_operation` followed by `type(self)(...)` (`relation.py:425-480`) -/
def NRel.operation [DecidableEq V] [PyPow V] (a : NRel K V) (b : NOperand K V) (op : MathOp) : Except Err (NRel K V) :=
  match b with
  | .rel same b => do
    let (r1, r2) ← NRel.equalize same a b
    let y ← mathOperationNd r1.y (.arr r2.y) op
    NRel.make r1.x y
  | .num c => do
    let y ← mathOperationNd a.y (.num c) op
    NRel.make a.x y
  | .bad => do
    let y ← mathOperationNd a.y .bad op
    NRel.make a.x y

/-- division of the integral by the sample (`relation.py:251`) -/
def NumOrArr.over (s : K) : NumOrArr V → NumOrArr V
  | .num v => .num (s⁻¹ • v)
  | .arr l => .arr (l.map fun v => s⁻¹ • v)

/-- `get_norm` (`relation.py:241-251`) -/
def NRel.getNorm [DecidableEq V] [PyPow V] (r : NRel K V) : Except Err (NumOrArr V) := do
  let sq ← r.operation (.num 2) .pow
  let i ← sq.oneIntegrate
  pure (i.over r.x.sample)

/-- `np.convolve(a, v, "full")` or `np.correlate(a, v, "full")`: tables raise `ValueError` (`defaults/methods.py:203, 225`) -/
def npConvNd (f : List V → List V → List V) : Nd V → Nd V → Except Err (Nd V)
  | .vec a, .vec b => .ok (.vec (f a b))
  | _, _ => .error .value

/-- `convolve` (`f` is `np.convolve`) and `correlate` (`f` is `np.correlate`) (`relation.py:380-423`, `defaults/methods.py:184-225`) -/
def NRel.convolveBy (f : List V → List V → List V) (r1 r2 : NRel K V) : Except Err (NRel K V) := do
  let r1 ← r1.shift (-r1.x.start)
  let r2 ← r2.shift (-r2.x.start)
  let (r1, r2) ← NRel.equalize false r1 r2
  let ax : Axis K := { start := -r1.x.stop, stop := r1.x.stop, sample := r1.x.sample }
  let y ← npConvNd f r1.y r2.y
  NRel.make ax y

omit [Field V] [Algebra K V] in
/-- `y[idx]`: an entry of a vector, a row of a table -/
def Nd.item (i : ℕ) : Nd V → Option (NumOrArr V)
  | .vec l => l[i]?.map .num
  | .mat _ rows => rows[i]?.map .arr

omit [Field V] [Algebra K V] in
/-- `__getitem__` with a number (`relation.py:519-522`) -/
def NRel.getItem (r : NRel K V) (v : K) : Except Err (K × NumOrArr V) := do
  let array ← r.x.array
  let idx ← argmin (array.map fun t => |t - v|)
  match array[idx]?, r.y.item idx with
  | some t, some w => pure (t, w)
  | _, _ => .error .index

omit [Field V] [Algebra K V] in
/-- `max` (`relation.py:225-231`): of all entries -/
def NRel.max [LinearOrder V] (r : NRel K V) : Except Err V := npMax r.y.flat

omit [Field V] [Algebra K V] in
/-- `min` (`relation.py:233-239`) -/
def NRel.min [LinearOrder V] (r : NRel K V) : Except Err V := npMin r.y.flat

end

noncomputable section

/-- `np.append(amplitude[time.array >= 0.0], amplitude[time.array < 0.0])` (`defaults/methods.py:240-241`): masks pick rows, `np.append`
flattens -/
def reorderByTimeNd (time : Axis ℝ) (amplitude : Nd ℝ) : Except Err (List ℝ) := do
  let t ← time.array
  let a ← amplitude.select (t.map fun v => decide (0 ≤ v))
  let b ← amplitude.select (t.map fun v => decide (v < 0))
  pure (a.flat ++ b.flat)

/-- `_calculate_spectrum` (`defaults/methods.py:230-250`) -/
def calculateSpectrumNd (time : Axis ℝ) (amplitude : Nd ℝ) (frequency : SizeArg) : Except Err (Axis ℝ × List ℂ) := do
  let size ← frequency.size
  let amplitude ← reorderByTimeNd time amplitude
  let spectrum ← rfft amplitude size
  match frequency with
  | .axis a => pure (a, spectrum)
  | _ => do
    let f ← axisFromArray (rfftfreq amplitude.length time.sample) true false
    pure (f, spectrum)

/-- `signal2spectrum` (`defaults/methods.py:253-293`): appending zeros flattens the samples -/
def signal2spectrumNd (r : NRel ℝ ℝ) (frequency : SizeArg) (isStartZero : Bool) : Except Err (Axis ℝ × List ℂ) :=
  if isStartZero then calculateSpectrumNd r.x r.y frequency
  else if 0 < r.x.start then do
    let newTime := { r.x with start := 0 }
    let n : ℕ ← newTime.size
    let z ← npZeros ((n : ℤ) - r.y.size)
    calculateSpectrumNd newTime (.vec (z ++ r.y.flat)) frequency
  else if r.x.stop < 0 then do
    let newTime := { r.x with stop := 0 }
    let n : ℕ ← newTime.size
    let z ← npZeros ((n : ℤ) - r.y.size)
    calculateSpectrumNd newTime (.vec (r.y.flat ++ z)) frequency
  else calculateSpectrumNd r.x r.y frequency

/-- `Signal.get_spectrum` on a signal without cached spectrum (`signal.py:83-107`) -/
def NRel.getSpectrum (r : NRel ℝ ℝ) (frequency : SizeArg := .none) (isStartZero : Bool := false) : Except Err (Rel ℝ ℂ) := do
  let (f, a) ← signal2spectrumNd r frequency isStartZero
  Rel.make f a

end

end SweepDesign
