import Verif.Heap.Calls

/-!
# Spec vocabulary for the heap layer: objects without caches
-/

namespace SweepDesign.Spec

open Mem

variable {K V : Type}

/-- the three fields of an axis object -/
def fields (a : AxisObj K) : Axis K := { start := a.start, stop := a.stop, sample := a.sample }

/-- What a brand-new axis with these fields returns. -/
structure Fresh (K : Type) where
  array : Axis K → Except Err (List K)
  size : Axis K → Except Err ℕ
  actualSample : Axis K → Except Err K

/-- a new `ArrayAxis` computes the array from its fields, the size from the array and the actual sample from the array -/
def freshAxis (P : Prims K V) : Fresh K where
  array a := P.mkArr a.start a.stop a.sample
  size a := (P.mkArr a.start a.stop a.sample).map List.length
  actualSample a := (P.mkArr a.start a.stop a.sample).bind P.minDiff

def reply {α : Type} (st : List (Axis K)) (l : Loc) (get : Axis K → Except Err α) (f : α → AxisReply K) : AxisReply K :=
  match st[l]? with
  | none => .raised .typeError
  | some a => AxisReply.of f (get a)

def assign (st : List (Axis K)) (l : Loc) (f : Axis K → Axis K) : AxisReply K × List (Axis K) :=
  match st[l]? with
  | none => (.raised .typeError, st)
  | some a => (.none, st.set l (f a))

/-- The reference machine: every axis is just its three numbers, every read is computed anew, an assignment changes one
axis, a copy is a new axis. -/
def axisStep (F : Fresh K) : AxisCall K → List (Axis K) → AxisReply K × List (Axis K)
  | .new s e d, st => (.object st.length, st ++ [{ start := s, stop := e, sample := d }])
  | .array l, st => (reply st l F.array .array, st)
  | .size l, st => (reply st l F.size .size, st)
  | .actualSample l, st => (reply st l F.actualSample .number, st)
  | .setStart l v, st => assign st l fun a => { a with start := v }
  | .setStop l v, st => assign st l fun a => { a with stop := v }
  | .setSample l v, st => assign st l fun a => { a with sample := v }
  | .copy l, st =>
    match st[l]? with
    | none => (.raised .typeError, st)
    | some a => (.object st.length, st ++ [a])

def axisRun (F : Fresh K) : List (AxisCall K) → List (Axis K) → List (AxisReply K)
  | [], _ => []
  | c :: cs, st => (axisStep F c st).1 :: axisRun F cs (axisStep F c st).2

/-- the three fields of axis object `l` -/
def fieldsAt (h : Heap K V) (l : Loc) : Option (Axis K) := (h.axes[l]?).map fields

/-- what reading `array` of axis object `l` returns -/
def arrayAt (P : Prims K V) (h : Heap K V) (l : Loc) : Except Err (List K) := (axisValues P l h).1

/-- class, axis object and y array object of relation `r` -/
def partsAt (h : Heap K V) (r : Loc) : Option (Cls × Loc × Loc) := (h.rels[r]?).map fun o => (o.cls, o.x, o.y)

/-- the y values of relation `r` -/
def yAt (h : Heap K V) (r : Loc) : Option (List V) := (h.rels[r]?).bind fun o => h.yarrs[o.y]?

/-- what `get_data` gives: the two arrays, or the exception -/
def dataAt (P : Prims K V) (h : Heap K V) (r : Loc) : Except Err (Option (List K) × Option (List V)) :=
  match relGetData P r h with
  | (.ok (lx, ly), h') => .ok (h'.xarrs[lx]?, h'.yarrs[ly]?)
  | (.error e, _) => .error e

/-- `r` is a relation object with an axis object and a y array -/
structure IsRel (h : Heap K V) (r : Loc) (o : RelObj) (a : AxisObj K) (y : List V) : Prop where
  rel : h.rels[r]? = some o
  axis : h.axes[o.x]? = some a
  ys : h.yarrs[o.y]? = some y

/-- In `h'`, relation `l` is a new object with an axis object and a y array that did not exist in `h`. -/
structure OwnsParts (h h' : Heap K V) (l : Loc) (o : RelObj) : Prop where
  rel : h'.rels[l]? = some o
  isNew : h.rels.length ≤ l
  axis : h.axes.length ≤ o.x
  ys : h.yarrs.length ≤ o.y
  axis_lt : o.x < h'.axes.length
  ys_lt : o.y < h'.yarrs.length

/-- The edits in the history only assign to the axes in `A` and write only into the y arrays in `Y` and the x arrays in
`X`; anything may be called, Config may be reassigned. -/
def within (A Y X : Set Loc) : Step K V → Prop
  | .call _ => True
  | .edit (.setStart l _) => l ∈ A
  | .edit (.setStop l _) => l ∈ A
  | .edit (.setSample l _) => l ∈ A
  | .edit (.pokeY l _) => l ∈ Y
  | .edit (.pokeX l _) => l ∈ X
  | .edit (.setConfig _) => True

end SweepDesign.Spec
