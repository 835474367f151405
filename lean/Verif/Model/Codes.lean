import Verif.Model.Prepared
import Verif.Model.Spectral
import Mathlib.Data.Nat.Log

/-!
# Model of the code sequences and of the sweeps built from codes:
`/repo/sweep_design/prepared_sweeps/code_zinger.py`, `code_m_sequence.py`, `sweep_from_code.py`
-/

namespace SweepDesign

/-- `list * n` (`code_zinger.py:24`) -/
def pyRepeat {α : Type} (l : List α) (n : ℤ) : List α := (List.replicate n.toNat l).flatten

/-- `get_code_zinger` (`code_zinger.py:8-24`). -/
def getCodeZinger {α : Type} (first : List α) (periods : ℤ) : List α := pyRepeat first periods

section
variable {K : Type} [Field K] [LinearOrder K] [IsStrictOrderedRing K] [FloorRing K]
variable {V : Type} [Field V] [Algebra K V] [DecidableEq V] [PyPow V]

/-- `get_code_zinger_relation` (`code_zinger.py:27-46`) for an instance of `Relation` itself. `shift` makes a new axis
object, so `equalize` interpolates. -/
def getCodeZingerRelation (start : Rel K V) (periods : ℤ) : Except Err (Rel K V) :=
  if 1 < periods then
    (List.range periods.toNat).foldlM (fun sequence (k : ℕ) => do
      let shifted ← start.shift (start.x.stop * k)
      sequence.add (.rel false shifted)) start
  else .ok start

/-- the loop of `get_code_sweep_segments` (`sweep_from_code.py:66-71`) for an instance of `Relation` itself; `cnt` is the
counter of the next entry of the code -/
def codeSegmentsLoop (base : Rel K V) : ℕ → List V → Rel K V → Except Err (Rel K V)
  | _, [], acc => .ok acc
  | cnt, v :: code, acc => do
    let shifted ← base.shift (cnt * base.x.stop + base.x.sample)
    let part ← shifted.mul (.other (.num v))
    let acc ← acc.add (.rel false part)
    codeSegmentsLoop base (cnt + 1) code acc

/-- `new_sweep` of `get_code_sweep_segments` (`sweep_from_code.py:64-71`) for an instance of `Relation` itself.
`code[0]` of an empty code raises. -/
def codeSegments (code : List V) (base : Rel K V) : Except Err (Rel K V) :=
  match code with
  | [] => .error .index
  | c :: rest => do
    let acc ← base.mul (.other (.num c))
    codeSegmentsLoop base 1 rest acc

end

section
variable {K : Type} [Field K] [LinearOrder K] [IsStrictOrderedRing K] [FloorRing K] [PyPow K]

/-- `get_code_sweep_segments` (`sweep_from_code.py:50-72`) for an instance of `Relation` itself. -/
def getCodeSweepSegments (P : SweepPrims K) (code : List K) (base : Rel K K) : Except Err (Sweep K) := do
  let r ← codeSegments code base
  Sweep.init P (.rel r) none none none none

end

noncomputable section

/-- `get_code_zinger_relation` (`code_zinger.py:27-46`) for a `Signal`: `shift` is `Signal.shift` -/
def getCodeZingerSignal (start : Rel ℝ ℝ) (periods : ℤ) : Except Err (Rel ℝ ℝ) :=
  if 1 < periods then
    (List.range periods.toNat).foldlM (fun sequence (k : ℕ) => do
      let shifted ← start.signalShift (start.x.stop * k)
      sequence.add (.rel false shifted)) start
  else .ok start

/-- the loop of `get_code_sweep_segments` (`sweep_from_code.py:66-70`) for a `Signal`: `shift` is `Signal.shift` -/
def codeSegmentsSignalLoop (base : Rel ℝ ℝ) : ℕ → List ℝ → Rel ℝ ℝ → Except Err (Rel ℝ ℝ)
  | _, [], acc => .ok acc
  | cnt, v :: code, acc => do
    let shifted ← base.signalShift (cnt * base.x.stop + base.x.sample)
    let part ← shifted.mul (.other (.num v))
    let acc ← acc.add (.rel false part)
    codeSegmentsSignalLoop base (cnt + 1) code acc

/-- `get_code_sweep_segments` (`sweep_from_code.py:50-72`) for a `Signal`. -/
def getCodeSweepSegmentsSignal (P : SweepPrims ℝ) (code : List ℝ) (base : Rel ℝ ℝ) : Except Err (Sweep ℝ) :=
  match code with
  | [] => .error .index
  | c :: rest => do
    let acc ← base.mul (.other (.num c))
    let r ← codeSegmentsSignalLoop base 1 rest acc
    Sweep.init P (.rel r) none none none none

/-- `Signal.shift` on a sweep (`signal.py:150-156`): `type(self)(...)` derives the description again. -/
def Sweep.shift (P : SweepPrims ℝ) (s : Sweep ℝ) (d : ℝ) : Except Err (Sweep ℝ) := do
  let r ← s.rel.signalShift d
  Sweep.init P (.rel r) none none none none

/-- the loop of `get_code_sweep_segments` (`sweep_from_code.py:66-70`) for a `Sweep` -/
def codeSegmentsSweepLoop (P : SweepPrims ℝ) (base : Sweep ℝ) : ℕ → List ℝ → Sweep ℝ → Except Err (Sweep ℝ)
  | _, [], acc => .ok acc
  | cnt, v :: code, acc => do
    let shifted ← base.shift P (cnt * base.rel.x.stop + base.rel.x.sample)
    let part ← shifted.operation P (.other (.num v)) .mul
    let acc ← acc.operation P (.rel false part.rel) .add
    codeSegmentsSweepLoop P base (cnt + 1) code acc

/-- `get_code_sweep_segments` (`sweep_from_code.py:50-72`) for a `Sweep`. -/
def getCodeSweepSegmentsSweep (P : SweepPrims ℝ) (code : List ℝ) (base : Sweep ℝ) : Except Err (Sweep ℝ) :=
  match code with
  | [] => .error .index
  | c :: rest => do
    let acc ← base.operation P (.other (.num c)) .mul
    let r ← codeSegmentsSweepLoop P base 1 rest acc
    Sweep.init P (.rel r.rel) none none none none

/-- the code of `get_convolution_sweep_and_code`: a relation, or a list placed on the samples of the base
(`sweep_from_code.py:30-36`) -/
inductive CodeArg
  | rel (r : Rel ℝ ℝ)
  | list (l : List ℝ)

/-- a code that is not a relation is put on an axis (`sweep_from_code.py:30-36`) -/
def CodeArg.toRel (code : CodeArg) (sample : ℝ) : Except Err (Rel ℝ ℝ) :=
  match code with
  | .rel r => .ok r
  | .list l => Rel.make ⟨0, ((l.length : ℝ) - 1) * sample, sample⟩ l

/-- `get_convolution_sweep_and_code` (`sweep_from_code.py:13-47`). `Sweep.convolve` converts both operands to `Signal`
and makes a `Sweep` of the result, as does the slice. -/
def getConvolutionSweepAndCode (P : SweepPrims ℝ) (code : CodeArg) (base : Rel ℝ ℝ) : Except Err (Sweep ℝ) := do
  let code ← code.toRel base.x.sample
  let r ← Rel.signalConvolve code base
  let s ← Sweep.init P (.rel r) none none none none
  let n ← code.x.size
  let q ← s.rel.getSlice none (some (n * base.x.sample))
  let s ← Sweep.init P (.rel q) none none none none
  s.shift P base.x.stop

end

/-! ## m-sequences -/

/-- `math.ceil(math.log(n, 2))` in exact arithmetic (`code_m_sequence.py:26`, `61`). In floats `math.log(2**29, 2)` is
slightly more than 29: see `Model/FloatCodes` and C117. -/
def ceilLog2 (n : ℤ) : Except Err ℕ := if n ≤ 0 then .error .value else .ok (Nat.clog 2 n.toNat)

/-- `if np.all(s == 0): s[0] = 1` (`code_m_sequence.py:30-31`, `67-68`) -/
def fixStart : List ℤ → Except Err (List ℤ)
  | [] => .error .index
  | a :: l => .ok (if ∀ v ∈ a :: l, v = 0 then 1 :: l else a :: l)

/-- the checks of `scipy.signal.max_len_seq(nbits, state)`; `mls` is the sequence it computes -/
def maxLenSeq {V : Type} (mls : ℕ → List ℤ → List V) (nbits : ℕ) (state : List ℤ) : Except Err (List V) :=
  if nbits < 2 ∨ 32 < nbits then .error .value
  else if state.length ≠ nbits then .error .value
  else if ∀ v ∈ state, v = 0 then .error .value
  else .ok (mls nbits state)

/-- `get_m_sequence_code` (`code_m_sequence.py:12-38`); `rand i` is the `i`-th random number. -/
def getMSequenceCode {V : Type} (mls : ℕ → List ℤ → List V) (rand : ℕ → ℤ) (lengthCode : ℤ) (isFull : Bool) :
    Except Err (List V) := do
  let k ← ceilLog2 (lengthCode - 1)
  let start ← fixStart ((List.range k).map rand)
  let m ← maxLenSeq mls k start
  if isFull then pure m else pure (m.take (lengthCode - 1).toNat)

section
variable {K : Type} [Field K] [LinearOrder K] [IsStrictOrderedRing K] [FloorRing K]

/-- The part of `get_relation_m_sequence` after the start sequence is known (`code_m_sequence.py:70-79`). -/
def relationOfMSequence {V : Type} (mls : ℕ → List ℤ → List V) (time : Axis K) (start : List ℤ) (isFull : Bool) :
    Except Err (Rel K V) := do
  let m ← maxLenSeq mls start.length start
  if isFull then Rel.make ⟨0, time.sample * ((m.length : K) - 1), time.sample⟩ m
  else do
    let n ← time.size
    Rel.make time (m.take n)

/-- `get_relation_m_sequence` (`code_m_sequence.py:41-79`) without a start sequence. -/
def getRelationMSequence {V : Type} (mls : ℕ → List ℤ → List V) (rand : ℕ → ℤ) (time : Axis K) (isFull : Bool) :
    Except Err (Rel K V) := do
  let n ← time.size
  let k ← ceilLog2 ((n : ℤ) - 1)
  let start ← fixStart ((List.range k).map rand)
  relationOfMSequence mls time start isFull

/-- `get_relation_m_sequence` with a start sequence: the result and the caller's array after the call. -/
def getRelationMSequenceFrom {V : Type} (mls : ℕ → List ℤ → List V) (time : Axis K) (start : List ℤ) (isFull : Bool) :
    Except Err (Rel K V) × List ℤ :=
  match (do let n ← time.size; ceilLog2 ((n : ℤ) - 1) : Except Err ℕ) with
  | .error e => (.error e, start)
  | .ok _ =>
    match fixStart start with
    | .error e => (.error e, start)
    | .ok start' => (relationOfMSequence mls time start' isFull, start')

end

end SweepDesign
