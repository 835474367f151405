import Verif.Model.Relation

/-!
# Samples with inf and nan

numpy does not raise when a division by zero or an operation on such results has no finite value: the array holds `inf`, `-inf` or `nan` at
that place (with a `RuntimeWarning`). The models of the other files stop there with `Err.nonFinite`. This file goes on: samples are the
numbers of IEEE 754 with their special values and the sign of zero, but without rounding and overflow.

The operations of `Model/Relation` are repeated on such samples. Axes stay finite. Powers are in
`Model/SpecialPow`, except the square of `get_norm`.
-/

namespace SweepDesign

/-- a floating point number without rounding: `negZero` is `-0.0`, `fin 0` is `0.0` -/
inductive Ieee (K : Type)
  | fin (v : K)
  | negZero
  | inf (neg : Bool)
  | nan
  deriving DecidableEq, Repr

section
variable {K : Type} [Field K] [LinearOrder K]

/-- the finite value -/
def Ieee.val : Ieee K → Option K
  | .fin v => some v
  | .negZero => some 0
  | _ => none

/-- the sign bit -/
def Ieee.neg? : Ieee K → Bool
  | .fin v => decide (v < 0)
  | .negZero => true
  | .inf s => s
  | .nan => false

/-- a zero with a sign bit -/
def Ieee.zero (s : Bool) : Ieee K := if s then .negZero else .fin 0

/-- a finite result, whose sign bit counts if it is zero -/
def Ieee.ofVal (v : K) (s : Bool) : Ieee K := if v = 0 then Ieee.zero s else .fin v

/-- `a + b` -/
def Ieee.add : Ieee K → Ieee K → Ieee K
  | .nan, _ => .nan
  | _, .nan => .nan
  | .inf s, .inf t => if s = t then .inf s else .nan
  | .inf s, _ => .inf s
  | _, .inf t => .inf t
  | .negZero, .negZero => .negZero
  | .negZero, .fin b => .fin b
  | .fin a, .negZero => .fin a
  | .fin a, .fin b => .fin (a + b)

/-- `-a` -/
def Ieee.opp : Ieee K → Ieee K
  | .fin v => if v = 0 then .negZero else .fin (-v)
  | .negZero => .fin 0
  | .inf s => .inf (!s)
  | .nan => .nan

/-- `a - b` -/
def Ieee.sub (a b : Ieee K) : Ieee K := a.add b.opp

/-- `a * b` -/
def Ieee.mul (a b : Ieee K) : Ieee K :=
  match a, b with
  | .nan, _ => .nan
  | _, .nan => .nan
  | a, b =>
    let s := a.neg? != b.neg?
    match a.val, b.val with
    | some v, some w => Ieee.ofVal (v * w) s
    | some v, none => if v = 0 then .nan else .inf s
    | none, some w => if w = 0 then .nan else .inf s
    | none, none => .inf s

/-- `a / b` -/
def Ieee.div (a b : Ieee K) : Ieee K :=
  match a, b with
  | .nan, _ => .nan
  | _, .nan => .nan
  | a, b =>
    let s := a.neg? != b.neg?
    match a.val, b.val with
    | some v, some w => if w = 0 then (if v = 0 then .nan else .inf s) else Ieee.ofVal (v / w) s
    | some _, none => Ieee.zero s
    | none, some _ => .inf s
    | none, none => .nan

/-- the four basic operations and their reflected forms on one pair of samples (`defaults/methods.py:64`); powers are left out (`none`) -/
def MathOp.ieee : MathOp → Ieee K → Ieee K → Option (Ieee K)
  | .add, a, b => some (a.add b)
  | .radd, a, b => some (b.add a)
  | .sub, a, b => some (a.sub b)
  | .rsub, a, b => some (b.sub a)
  | .mul, a, b => some (a.mul b)
  | .rmul, a, b => some (b.mul a)
  | .truediv, a, b => some (a.div b)
  | .rtruediv, a, b => some (b.div a)
  | .pow, _, _ => none
  | .rpow, _, _ => none

/-- a relation with such samples -/
structure ERel (K : Type) where
  x : Axis K
  y : List (Ieee K)
  deriving DecidableEq, Repr

end

section
variable {K : Type} [Field K] [LinearOrder K] [IsStrictOrderedRing K] [FloorRing K]

/-- the constructor applied to an axis and an array (`relation.py:99-107`) -/
def ERel.make (x : Axis K) (y : List (Ieee K)) : Except Err (ERel K) := do
  let n ← x.size
  if n ≠ y.length then .error (.notEqual n y.length) else pure ⟨x, y⟩

/-- `math_operation` (`defaults/methods.py:42-70`) on two arrays; nothing is raised for special values -/
def ieeeArrays (y1 y2 : List (Ieee K)) (op : MathOp) : Except Err (List (Ieee K)) :=
  if y1.length = y2.length then finite' (List.zipWith op.ieee y1 y2)
  else match y1, y2 with
    | _, [c] => finite' (y1.map fun a => op.ieee a c)
    | [c], _ => finite' (y2.map fun b => op.ieee c b)
    | _, _ => .error .typeFunc
where
  /-- powers are not in the model -/
  finite' (l : List (Option (Ieee K))) : Except Err (List (Ieee K)) :=
    match l.mapM id with
    | some l => .ok l
    | none => .error .nonFinite

/-- One interval of `np.interp`: `slope * (t - x0) + y0`; if that is nan, `slope * (t - x1) + y1`; if that is nan as well and the two
samples are equal, the sample. -/
def ieeeBetween (x0 x1 : K) (y0 y1 : Ieee K) (t : K) : Ieee K :=
  let slope := (y1.sub y0).div (.fin (x1 - x0))
  let left := (slope.mul (.fin (t - x0))).add y0
  let right := (slope.mul (.fin (t - x1))).add y1
  if left ≠ .nan then left
  else if right ≠ .nan then right
  else if y0 = y1 ∧ y0 ≠ .nan then y0
  else .nan

/-- the sample at an index; those out of range do not occur -/
def ieeeAt (y : List (Ieee K)) (i : Nat) : Ieee K := y.getD i (.fin 0)

/-- `np.interp` at one point as called by `interp1d` with `bounds_error=False, fill_value=0.0` (see `interpAt`); on a sample position the
sample is handed out as it is -/
def ieeeInterpAt (x : List K) (y : List (Ieee K)) (t : K) : Ieee K :=
  match x.head?, x.getLast? with
  | some x0, some xl =>
    if t < x0 then .fin 0
    else if xl < t then .fin 0
    else
      let j := x.countP (fun s => decide (s ≤ t)) - 1
      if j + 1 = x.length then ieeeAt y j
      else if at0 x j = t then ieeeAt y j
      else ieeeBetween (at0 x j) (at0 x (j + 1)) (ieeeAt y j) (ieeeAt y (j + 1)) t
  | _, _ => .fin 0

/-- `interp1d(x, y, bounds_error=False, fill_value=0.0)` called on `xs` (`defaults/methods.py:151-156`) -/
def ieeeInterp1d (x : List K) (y : List (Ieee K)) (xs : List K) : Except Err (List (Ieee K)) :=
  if x.length ≠ y.length then .error .value
  else if x.length = 0 then .error .value
  else
    let sorted := (x.zip y).insertionSort (fun p q => p.1 ≤ q.1)
    .ok (xs.map (ieeeInterpAt (sorted.map Prod.fst) (sorted.map Prod.snd)))

/-- `Relation.interpolate_extrapolate` with an axis (`relation.py:319-340`) -/
def ERel.interpAxis (r : ERel K) (newX : Axis K) : Except Err (ERel K) := do
  let x ← r.x.array
  let xs ← newX.array
  let newY ← ieeeInterp1d x r.y xs
  ERel.make newX newY

/-- `Relation.equalize` (`relation.py:358-378`) -/
def ERel.equalize (same : Bool) (r1 r2 : ERel K) : Except Err (ERel K × ERel K) :=
  if same then .ok (r1, r2)
  else do
    let newX := commonX r1.x r2.x
    let q1 ← r1.interpAxis newX
    let q2 ← r2.interpAxis newX
    pure (q1, q2)

/-- `Relation._operation` with another relation (`relation.py:425-480`) -/
def ERel.withRel (same : Bool) (a b : ERel K) (op : MathOp) : Except Err (ERel K) := do
  let (r1, r2) ← ERel.equalize same a b
  let y ← ieeeArrays r1.y r2.y op
  ERel.make r1.x y

/-- `Relation._operation` with a number (`relation.py:425-480`) -/
def ERel.withNum (a : ERel K) (c : Ieee K) (op : MathOp) : Except Err (ERel K) := do
  let y ← ieeeArrays.finite' (a.y.map fun v => op.ieee v c)
  ERel.make a.x y

/-- `Relation.shift` (`relation.py:342-356`) -/
def ERel.shift (r : ERel K) (d : K) : Except Err (ERel K) :=
  ERel.make { r.x with start := r.x.start + d, stop := r.x.stop + d } r.y

/-- `Relation.diff` (`defaults/methods.py:108-124`, `relation.py:295-305`) -/
def ERel.diff (r : ERel K) : Except Err (ERel K) :=
  ERel.make { r.x with start := r.x.start + r.x.sample / 2, stop := r.x.stop - r.x.sample / 2 }
    (List.zipWith (fun a b => (b.sub a).div (.fin r.x.sample)) r.y r.y.tail)

/-- running sums -/
def ieeeCumsum : List (Ieee K) → List (Ieee K)
  | [] => []
  | a :: l => a :: go a l
where
  go (acc : Ieee K) : List (Ieee K) → List (Ieee K)
    | [] => []
    | a :: l => acc.add a :: go (acc.add a) l

/-- `Relation.integrate` (`defaults/methods.py:89-105`, `relation.py:307-317`) -/
def ERel.integrate (r : ERel K) : Except Err (ERel K) :=
  ERel.make { r.x with start := r.x.start + r.x.sample }
    ((ieeeCumsum (List.zipWith (fun a b => (b.add a).div (.fin 2)) r.y r.y.tail)).map fun v => v.mul (.fin r.x.sample))

/-- the sum of an array; in which order does not matter (`C136_sum_order`) -/
def ieeeSum (l : List (Ieee K)) : Ieee K := l.foldl Ieee.add (.fin 0)

/-- `Relation.get_norm` (`relation.py:241-251`) with `one_integrate` (`defaults/methods.py:73-86`); `y ** 2` is `y * y` -/
def ERel.getNorm (r : ERel K) : Except Err (Ieee K) := do
  let n ← r.x.size
  if n ≠ r.y.length then .error (.notEqual n r.y.length)
  else do
    let x ← r.x.array
    let sq := r.y.map fun a => a.mul a
    let terms := List.zipWith (fun d s => (((.fin d : Ieee K).mul s).div (.fin 2))) (npDiff x)
      (List.zipWith (fun a b => b.add a) sq sq.tail)
    pure ((ieeeSum terms).div (.fin r.x.sample))

/-- `np.convolve(a, v, "full")`: only the products of existing samples are added -/
def ieeeConvolve (a v : List (Ieee K)) : List (Ieee K) :=
  (List.range (a.length + v.length - 1)).map fun k =>
    ieeeSum (((List.range (k + 1)).filter fun i => decide (i < a.length) && decide (k - i < v.length)).map fun i =>
      (ieeeAt a i).mul (ieeeAt v (k - i)))

/-- `Relation.convolve` (`relation.py:403-423`, `defaults/methods.py:206-225`) and `Relation.correlate` (`relation.py:380-401`,
`defaults/methods.py:184-203`), which reverses the second array -/
def ERel.conv (reversed : Bool) (r1 r2 : ERel K) : Except Err (ERel K) := do
  let r1 ← r1.shift (-r1.x.start)
  let r2 ← r2.shift (-r2.x.start)
  let (r1, r2) ← ERel.equalize false r1 r2
  ERel.make { start := -r1.x.stop, stop := r1.x.stop, sample := r1.x.sample }
    (ieeeConvolve r1.y (if reversed then r2.y.reverse else r2.y))

/-- `a <= b` in numpy: false if one of them is nan -/
def Ieee.le : Ieee K → Ieee K → Bool
  | .nan, _ => false
  | _, .nan => false
  | .inf s, b => s || (match b with | .inf t => !t | _ => false)
  | _, .inf t => !t
  | .fin a, .fin b => decide (a ≤ b)
  | .fin a, .negZero => decide (a ≤ 0)
  | .negZero, .fin b => decide (0 ≤ b)
  | .negZero, .negZero => true

/-- `y.max()`: nan if there is one (`relation.py:225-231`) -/
def ieeeMax : List (Ieee K) → Except Err (Ieee K)
  | [] => .error .value
  | a :: l => .ok (l.foldl (fun m b => if m = .nan ∨ b = .nan then .nan else if m.le b then b else m) a)

/-- `y.min()` (`relation.py:233-239`) -/
def ieeeMin : List (Ieee K) → Except Err (Ieee K)
  | [] => .error .value
  | a :: l => .ok (l.foldl (fun m b => if m = .nan ∨ b = .nan then .nan else if b.le m then b else m) a)

end

end SweepDesign
