import Verif.Model.Relation

/-!
# Model of `/repo/sweep_design/sweep.py`, `/repo/sweep_design/uncalculated_sweep.py` (class `UncalculatedSweep`) and of
`/repo/sweep_design/defaults/sweep_methods.py` (value layer)

Coordinates and values are in one field `K`. The parts of numpy and scipy that cannot be computed in a field, and the
methods of `SweepConfig`, are a parameter `SweepPrims`.
-/

namespace SweepDesign

/-- What a spectrogram method returns: times, frequencies, image as a list of rows (`sweep_methods.py:263-283`). -/
structure SpectroData (K : Type) where
  time : List K
  frequency : List K
  image : List (List K)
  deriving DecidableEq, Repr

/-- `Spectrogram` (`spectrogram.py:9-16`). -/
structure Spectrogram (K : Type) where
  time : Axis K
  frequency : Axis K
  image : List (List K)
  deriving DecidableEq, Repr

/-- `np.sin`, `np.pi`, `scipy.integrate.quad(f, a, b)[0]`, and the methods `get_f_t`, `get_a_t`, `spectrogram_method` of
`SweepConfig` (`config/sweep_config.py:75-81`). -/
structure SweepPrims (K : Type) where
  sin : K → K
  pi : K
  quad : (K → K) → K → K → K
  getFT : Rel K K → Except Err (Rel K K)
  getAT : Rel K K → Except Err (Rel K K)
  spectrogram : Rel K K → Except Err (SpectroData K)

/-- `Sweep` as a value (`sweep.py:69-86`). -/
structure Sweep (K : Type) where
  rel : Rel K K
  frequencyTime : Rel K K
  amplitudeTime : Rel K K
  spectrogram : Spectrogram K
  aPriorSignal : Option (Rel K K)
  deriving DecidableEq, Repr

/-- `InterpolateArray` (`sweep_methods.py:47-83`). -/
structure InterpArr (K : Type) where
  x : List K
  y : List K
  deriving DecidableEq, Repr

/-- A description of frequency or amplitude as passed by the user (`uncalculated_sweep.py:36-41`). A callable is given by
what it does on an array (used for `frequency_time`, `amplitude_time`) and on a number (used by `quad`). -/
inductive Ftat (K : Type)
  | absent
  | func (onArray : List K → Except Err (List K)) (onNumber : K → K)
  | interp (f : InterpArr K)
  | rel (r : Rel K K)
  | array (l : List K)

/-- The stored description (`sweep_methods.py:223-257`). -/
inductive Descr (K : Type)
  | func (onArray : List K → Except Err (List K)) (onNumber : K → K)
  | interp (f : InterpArr K)

/-- The `time` argument: `None`, an `ArrayAxis`, or an array-like. -/
inductive TimeArg (K : Type)
  | none
  | axis (a : Axis K)
  | array (l : List K) (isFloat : Bool)

/-- `UncalculatedSweep` (`uncalculated_sweep.py:65-96`). -/
structure UncalculatedSweep (K : Type) where
  time : Option (Axis K)
  frequencyTime : Descr K
  amplitudeTime : Descr K

section
variable {K : Type} [Field K] [LinearOrder K] [IsStrictOrderedRing K] [FloorRing K]

/-- Padding of a one-entry axis (`sweep.py:91-94`, `103-105`); `spectrogram[i][0]` on an empty array raises. -/
def padAxis (l : List K) : Except Err (List K) :=
  if l.length < 2 then
    match l with
    | [] => .error .index
    | t :: _ => .ok [t, t + 1]
  else .ok l

/-- `_get_spectrogram` (`sweep.py:89-119`). The padded image is computed but the unpadded one is returned. -/
def getSpectrogram (d : SpectroData K) : Except Err (Spectrogram K) := do
  let time ← padAxis d.time
  let frequency ← padAxis d.frequency
  let t ← axisFromArray time true true
  let f ← axisFromArray frequency true true
  pure { time := t, frequency := f, image := d.image }

/-- an optional argument, or the result of a method on the sweep itself (`sweep.py:71-80`) -/
def orDerive (given : Option (Rel K K)) (method : Rel K K → Except Err (Rel K K)) (r : Rel K K) : Except Err (Rel K K) :=
  match given with
  | some q => .ok q
  | none => method r

/-- `Sweep.__init__` (`sweep.py:37-86`). -/
def Sweep.init (P : SweepPrims K) (x : XArg K K) (y : Option (List K)) (frequencyTime amplitudeTime : Option (Rel K K))
    (aPriorSignal : Option (Rel K K)) : Except Err (Sweep K) := do
  let r ← Rel.init x y
  let ft ← orDerive frequencyTime P.getFT r
  let at' ← orDerive amplitudeTime P.getAT r
  let d ← P.spectrogram r
  let s ← getSpectrogram d
  pure { rel := r, frequencyTime := ft, amplitudeTime := at', spectrogram := s, aPriorSignal := aPriorSignal }

/-- An arithmetic operator on a sweep: `Relation._operation` then `type(self)(x, y)` (`relation.py:425-480`). `Rel.operation`
already contains the size check the constructor makes. -/
def Sweep.operation [PyPow K] (P : SweepPrims K) (s : Sweep K) (o : Operand K K) (op : MathOp) : Except Err (Sweep K) := do
  let r ← s.rel.operation o op
  Sweep.init P (.axis r.x) (some r.y) none none none

/-- `get_norm` on a sweep (`relation.py:241-251`): `self**2` is a new sweep. -/
def Sweep.getNorm [PyPow K] (P : SweepPrims K) (s : Sweep K) : Except Err K := do
  let sq ← s.operation P (.other (.num 2)) .pow
  let i ← sq.rel.oneIntegrate
  pure (i / s.rel.x.sample)

omit [IsStrictOrderedRing K] in
/-- `InterpolateArray(relation)` (`sweep_methods.py:70-73`). -/
def InterpArr.ofRel (r : Rel K K) : Except Err (InterpArr K) := do
  let x ← r.x.array
  pure { x := x, y := r.y }

omit [IsStrictOrderedRing K] in
/-- `InterpolateArray(axis, y)` (`sweep_methods.py:75-83`). -/
def InterpArr.ofAxis (t : Axis K) (y : List K) : Except Err (InterpArr K) := do
  let x ← t.array
  pure { x := x, y := y }

/-- the stretched old positions (`sweep_methods.py:95-97`); a zero last entry gives non-finite positions -/
def InterpArr.stretch (f : InterpArr K) (newX : Axis K) : Except Err (List K) :=
  match f.x.head?, f.x.getLast? with
  | some x0, some xl =>
    if xl = 0 then .error .nonFinite
    else .ok (f.x.map fun v => v * ((newX.stop - newX.start) / xl) - x0 + newX.start)
  | _, _ => .error .index

/-- `InterpolateArray.__call__` (`sweep_methods.py:85-102`), with the default interpolation. -/
def InterpArr.call (f : InterpArr K) (newX : Axis K) : Except Err (List K) := do
  let s ← f.stretch newX
  let xs ← newX.array
  interp1d s f.y xs

/-- An array with another number of entries than the time axis (`sweep_methods.py:245-251`): its values are placed evenly
over the axis and interpolated. The sample of the auxiliary axis is negative, which does not matter for its array. One
entry divides by zero: `ZeroDivisionError` for Python numbers (numpy floats would give an infinite sample, hence one point; not modelled). -/
def resample (t : Axis K) (l : List K) : Except Err (List K) :=
  if l.length = 1 then .error .zeroDivision
  else do
    let calcT : Axis K := { start := t.start, stop := t.stop, sample := (t.start - t.stop) / ((l.length : K) - 1) }
    let x ← calcT.array
    let xs ← t.array
    interp1d x l xs

/-- `_extract_x_t` (`sweep_methods.py:223-257`). An `InterpolateArray` is callable, so it is kept. -/
def extract (t : Option (Axis K)) (x : Ftat K) (default : Descr K) : Except Err (Descr K) :=
  match x with
  | .absent => .ok default
  | .func a n => .ok (.func a n)
  | .interp f => .ok (.interp f)
  | .rel r => do
    let f ← InterpArr.ofRel r
    pure (.interp f)
  | .array l =>
    match t with
    | none => .error .badInput
    | some t => do
      let n ← t.size
      let y ← (if n ≠ l.length then resample t l else .ok l : Except Err (List K))
      let f ← InterpArr.ofAxis t y
      pure (.interp f)

/-- an array-like `time` is converted with rounding of the step (`uncalculated_sweep.py:68-69`, `130-134`) -/
def TimeArg.toAxis : TimeArg K → Except Err (Option (Axis K))
  | .none => .ok Option.none
  | .axis a => .ok (some a)
  | .array l isFloat => do
    let a ← axisFromArray l isFloat true
    pure (some a)

/-- `linear_time` (`sweep_methods.py:194-195`) -/
def linearTime : Descr K := .func (fun l => .ok l) id

/-- `const_one` (`sweep_methods.py:203-204`) -/
def constOne : Descr K := .func (fun l => .ok (List.replicate l.length 1)) fun _ => 1

/-- `UncalculatedSweep.__init__` with `get_info_from_ftat` (`uncalculated_sweep.py:36-96`, `sweep_methods.py:173-220`).
Because `_extract_x_t` returns the `t` it was given, the branch that takes the time from the descriptions
(`sweep_methods.py:212-218`) never finds one. -/
def UncalculatedSweep.init (time : TimeArg K) (frequencyTime amplitudeTime : Ftat K) :
    Except Err (UncalculatedSweep K) := do
  let t ← time.toAxis
  let f ← extract t frequencyTime linearTime
  let a ← extract t amplitudeTime constOne
  pure { time := t, frequencyTime := f, amplitudeTime := a }

/-- the axis of a call (`uncalculated_sweep.py:127-136`) -/
def UncalculatedSweep.calcTime (u : UncalculatedSweep K) (time : TimeArg K) : Except Err (Axis K) := do
  let t ← time.toAxis
  match t, u.time with
  | some a, _ => pure a
  | none, some a => pure a
  | none, none => .error .badInput

/-- the values of a description on an axis (`uncalculated_sweep.py:138-151`) -/
def Descr.values (d : Descr K) (t : Axis K) : Except Err (List K) :=
  match d with
  | .interp f => f.call t
  | .func onArray _ => do
    let l ← t.array
    onArray l

/-- `_array_tht` (`uncalculated_sweep.py:177-188`) -/
def arrayTht (P : SweepPrims K) (frequency : List K) (time : Axis K) : Except Err (Rel K K) := do
  let r ← Rel.make time frequency
  let i ← r.integrate
  Rel.make time (0 :: i.y.map fun v => 2 * P.pi * v)

/-- `_func_tht` and `integrate_function` (`uncalculated_sweep.py:167-175`, `defaults/methods.py:346-372`) -/
def funcTht (P : SweepPrims K) (f : K → K) (time : Axis K) : Except Err (Rel K K) := do
  let x ← time.array
  Rel.make time (0 :: x.tail.map fun t => 2 * P.pi * P.quad f time.start t)

/-- the phase used by a call (`uncalculated_sweep.py:138-146`, `154`); `frequency` are the values of the description -/
def Descr.tht (P : SweepPrims K) (d : Descr K) (frequency : List K) (time : Axis K) : Except Err (Rel K K) :=
  match d with
  | .interp _ => arrayTht P frequency time
  | .func _ onNumber => funcTht P onNumber time

/-- `a * b` on one-dimensional numpy arrays: broadcasting of one-entry arrays, otherwise `ValueError` for different
lengths. -/
def npMul (a b : List K) : Except Err (List K) :=
  if a.length = b.length then .ok (List.zipWith (· * ·) a b)
  else match a, b with
    | [c], _ => .ok (b.map fun v => c * v)
    | _, [c] => .ok (a.map fun v => v * c)
    | _, _ => .error .value

/-- `UncalculatedSweep.__call__` (`uncalculated_sweep.py:98-165`). -/
def UncalculatedSweep.call (P : SweepPrims K) (u : UncalculatedSweep K) (time : TimeArg K) (tht0 : K) :
    Except Err (Sweep K) := do
  let calcTime ← u.calcTime time
  let f ← u.frequencyTime.values calcTime
  let frequencyTime ← Rel.make calcTime f
  let amplitude ← u.amplitudeTime.values calcTime
  let tht ← u.frequencyTime.tht P f calcTime
  let sweep ← npMul amplitude (tht.y.map fun v => P.sin (v + tht0))
  let amplitudeTime ← Rel.make calcTime amplitude
  Sweep.init P (.axis calcTime) (some sweep) (some frequencyTime) (some amplitudeTime) none

end

end SweepDesign
