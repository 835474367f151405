import Verif.Model.Relation

/-!
# Indexing a relation with anything, and iterating over it

`/repo/sweep_design/relation.py:500-525`. `Relation` defines `__len__` and `__getitem__` but neither `__iter__` nor
`__reversed__`, so Python falls back on the sequence protocol.
-/

namespace SweepDesign

variable {K : Type} [Field K] [LinearOrder K] [IsStrictOrderedRing K] [FloorRing K] {V : Type}

/-- what `r[..]` is called with: an `int`, `float` (or real `complex`), a slice, or an object of another type (a numpy integer,
a string, a tuple, ..) -/
inductive PyIndex (K : Type)
  | number (v : K)
  | slice (start stop : Option K)
  | other

/-- what it returns -/
inductive PyItem (K V : Type)
  | pair (x : K) (y : V)
  | rel (r : Rel K V)
  | none

/-- `Relation.__getitem__` (`relation.py:500-525`): without a branch that applies the function ends without a result -/
def Rel.pyGetItem (r : Rel K V) : PyIndex K → Except Err (PyItem K V)
  | .number v => do
    let (x, y) ← r.getItem v
    pure (.pair x y)
  | .slice a b => do
    let q ← r.getSlice a b
    pure (.rel q)
  | .other => pure .none

/-- how far an iteration has come -/
inductive IterState
  | running
  | stopped
  | raised (e : Err)
  deriving DecidableEq

/-- Python's iterator over an object with `__getitem__` only, asked `n` times, beginning with item `i`: an `IndexError` ends the
iteration -/
def seqIter {α : Type} (get : ℕ → Except Err α) : ℕ → ℕ → List α × IterState
  | 0, _ => ([], .running)
  | n + 1, i =>
    match get i with
    | .ok a => let p := seqIter get n (i + 1); (a :: p.1, p.2)
    | .error .index => ([], .stopped)
    | .error e => ([], .raised e)

/-- `iter(r)` asked `n` times -/
def Rel.iter (r : Rel K V) (n : ℕ) : List (K × V) × IterState := seqIter (fun i => r.getItem (i : K)) n 0

/-- `reversed(r)`: items `len(r) - 1`, .., `1`, `0` -/
def Rel.reversed (r : Rel K V) : Except Err (List (K × V)) := do
  let n ← r.len
  (List.range n).reverse.mapM fun i : ℕ => r.getItem (i : K)

/-- `a_1, .., a_k = r`: one item more than wanted raises `ValueError`, as do too few -/
def Rel.unpack (r : Rel K V) (k : ℕ) : Except Err (List (K × V)) :=
  match r.iter (k + 1) with
  | (l, .stopped) => if l.length = k then .ok l else .error .value
  | (_, .raised e) => .error e
  | (_, .running) => .error .value

/-- `list(r)`, `tuple(r)` and the conversion of `r` by numpy (`np.array(r)`, `np.float64(2) * r`), watched while `n` items are asked for:
`none` if there is no result yet -/
def Rel.listed (r : Rel K V) (n : ℕ) : Option (Except Err (List (K × V))) :=
  match r.iter n with
  | (l, .stopped) => some (.ok l)
  | (_, .raised e) => some (.error e)
  | (_, .running) => none

/-- `p in r`, watched while `n` items are asked for: without `__contains__` Python compares the items one after the other -/
def Rel.contains [DecidableEq V] (r : Rel K V) (p : K × V) (n : ℕ) : Option (Except Err Bool) :=
  if p ∈ (r.iter n).1 then some (.ok true)
  else match (r.iter n).2 with
    | .stopped => some (.ok false)
    | .raised e => some (.error e)
    | .running => none

end SweepDesign
