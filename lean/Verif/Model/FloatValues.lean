import Verif.Model.FloatAxis
import Verif.Model.Relation

/-!
# Sample values of relations with a rounding after every operation

The operations of `Model/Relation` on real samples once more, for an arbitrary rounding `fl` (see `Model/FloatAxis`). Products and sums
are rounded separately (no fused multiply-add) except where a contract allows it.
-/

namespace SweepDesign

section
variable {K : Type} [Field K] [LinearOrder K] [FloorRing K]

/-- the constructor (`relation.py:99-107`) -/
def flRel (fl : K → K) (x : Axis K) (y : List K) : Except Err (Rel K K) := (flMake fl x y).map fun p => ⟨p.1, p.2⟩

/-- `np.interp` at one point of increasing samples, as called by `interp1d` with `bounds_error=False, fill_value=0.0` (see
`interpAt`): a sample is handed out as it is, between two samples `slope * (t - x[j]) + y[j]` with
`slope = (y[j+1] - y[j]) / (x[j+1] - x[j])`. -/
def flInterpAt (fl : K → K) (x y : List K) (t : K) : K :=
  match x.head?, x.getLast? with
  | some x0, some xl =>
    if t < x0 then 0
    else if xl < t then 0
    else
      let j := x.countP (fun s => decide (s ≤ t)) - 1
      if j + 1 = x.length then at0 y j
      else if at0 x j = t then at0 y j
      else
        let slope := fl (fl (at0 y (j + 1) - at0 y j) / fl (at0 x (j + 1) - at0 x j))
        fl (fl (slope * fl (t - at0 x j)) + at0 y j)
  | _, _ => 0

/-- `interp1d(x, y, bounds_error=False, fill_value=0.0)` called on `xs` (`defaults/methods.py:151-156`) -/
def flInterp1d (fl : K → K) (x y xs : List K) : Except Err (List K) :=
  if x.length ≠ y.length then .error .value
  else if x.length = 0 then .error .value
  else
    let sorted := (x.zip y).insertionSort (fun p q => p.1 ≤ q.1)
    .ok (xs.map (flInterpAt fl (sorted.map Prod.fst) (sorted.map Prod.snd)))

/-- `Relation.interpolate_extrapolate` with an axis (`relation.py:319-340`) -/
def Rel.flInterpAxis (fl : K → K) (r : Rel K K) (newX : Axis K) : Except Err (Rel K K) := do
  let x ← r.x.flArray fl
  let xs ← newX.flArray fl
  let y ← flInterp1d fl x r.y xs
  flRel fl newX y

/-- `Relation.equalize` (`relation.py:358-378`); `get_common_x` only compares -/
def Rel.flEqualize (fl : K → K) (same : Bool) (r1 r2 : Rel K K) : Except Err (Rel K K × Rel K K) :=
  if same then .ok (r1, r2)
  else do
    let newX := commonX r1.x r2.x
    let q1 ← r1.flInterpAxis fl newX
    let q2 ← r2.flInterpAxis fl newX
    pure (q1, q2)

/-- the four basic operations, the result rounded (`defaults/methods.py:42-70`) -/
inductive FlOp
  | add | sub | mul | truediv
  deriving DecidableEq, Repr

/-- one entry; `none` for a division by zero, whose result is not finite -/
def FlOp.fn (fl : K → K) : FlOp → K → K → Option K
  | .add, a, b => some (fl (a + b))
  | .sub, a, b => some (fl (a - b))
  | .mul, a, b => some (fl (a * b))
  | .truediv, a, b => if b = 0 then none else some (fl (a / b))

/-- `r1 + r2`, `r1 - r2`, `r1 * r2`, `r1 / r2` (`relation.py:425-467`); both arrays have the length of the common axis -/
def Rel.flOperation (fl : K → K) (same : Bool) (r1 r2 : Rel K K) (op : FlOp) : Except Err (Rel K K) := do
  let (q1, q2) ← Rel.flEqualize fl same r1 r2
  let y ← finite (List.zipWith (op.fn fl) q1.y q2.y)
  flRel fl q1.x y

/-- running sums `np.cumsum`, the first entry as it is -/
def flCumsum (fl : K → K) : List K → List K
  | [] => []
  | a :: l => a :: go a l
where
  go (acc : K) : List K → List K
    | [] => []
    | a :: l => fl (acc + a) :: go (fl (acc + a)) l

/-- `Relation.integrate` (`relation.py:307-317`, `defaults/methods.py:89-105`):
`cumsum(1.0 * (y[1:] + y[:-1]) / 2.0) * dx` -/
def Rel.flIntegrate (fl : K → K) (r : Rel K K) : Except Err (Rel K K) :=
  flRel fl (r.x.flIntegrate fl)
    ((flCumsum fl (List.zipWith (fun a b => fl (fl (b + a) / 2)) r.y r.y.tail)).map fun v => fl (v * r.x.sample))

/-- `Relation.diff` (`relation.py:295-305`, `defaults/methods.py:108-124`) -/
def Rel.flDiff (fl : K → K) (r : Rel K K) : Except Err (Rel K K) :=
  flRel fl (r.x.flDiff fl) (List.zipWith (fun a b => fl (fl (b - a) / r.x.sample)) r.y r.y.tail)

/-- `Relation.get_norm` (`relation.py:241-251`, `defaults/methods.py:73-86`): the terms of
`(diff(x) * (y2[1:] + y2[:-1]) / 2.0).sum() / sample` with `y2 = y ** 2`. numpy does not promise the order of the summation: `sum` is an
argument. -/
def Rel.flNorm (fl : K → K) (sum : List K → K) (r : Rel K K) : Except Err K := do
  let x ← r.x.flArray fl
  if x.length ≠ r.y.length then .error (.notEqual x.length r.y.length)
  else
    let y2 := r.y.map fun a => fl (a * a)
    let terms := List.zipWith (fun d s => fl (fl (d * s) / 2)) ((npDiff x).map fl) (List.zipWith (fun a b => fl (b + a)) y2 y2.tail)
    pure (fl (sum terms / r.x.sample))

/-- `Relation.shift` (`relation.py:342-356`) -/
def Rel.flShift (fl : K → K) (r : Rel K K) (h : K) : Except Err (Rel K K) := flRel fl (r.x.flShift fl h) r.y

/-- `Relation.convolve` and `Relation.correlate` (`relation.py:380-423`, `defaults/methods.py:184-225`); `np` is the numpy function, whose
order of summation is not promised -/
def Rel.flConv (fl : K → K) (np : List K → List K → List K) (r1 r2 : Rel K K) : Except Err (Rel K K) := do
  let r1 ← r1.flShift fl (-r1.x.start)
  let r2 ← r2.flShift fl (-r2.x.start)
  let (r1, r2) ← Rel.flEqualize fl false r1 r2
  flRel fl r1.x.flMirror (np r1.y r2.y)

/-- `Relation.__getitem__` with a real number (`relation.py:519-522`) -/
def Rel.flGetItem (fl : K → K) (r : Rel K K) (v : K) : Except Err (K × K) := do
  let array ← r.x.flArray fl
  let idx ← argmin (array.map fun t => |fl (t - v)|)
  match array[idx]?, r.y[idx]? with
  | some t, some w => pure (t, w)
  | _, _ => .error .index

end

end SweepDesign
