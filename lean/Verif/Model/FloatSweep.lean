import Verif.Model.FloatValues
import Verif.Model.Sweep

/-!
# Sweeps from array descriptions with a rounding after every operation

`UncalculatedSweep` on a time axis with arrays as descriptions, and the frequencies of `get_linear_sweep`, for an arbitrary rounding `fl`
(see `Model/FloatAxis`). The spectrogram that the constructor of `Sweep` computes is left out.
-/

namespace SweepDesign

section
variable {K : Type} [Field K] [LinearOrder K] [FloorRing K]

/-- `InterpolateArray.__call__` (`defaults/sweep_methods.py:85-102`):
`x * ((end - start) / x[-1]) - x[0] + start`, then `interp1d` -/
def InterpArr.flCall (fl : K → K) (f : InterpArr K) (newX : Axis K) : Except Err (List K) :=
  match f.x.head?, f.x.getLast? with
  | some x0, some xl =>
    if xl = 0 then .error .nonFinite
    else do
      let c := fl (fl (newX.stop - newX.start) / xl)
      let xs ← newX.flArray fl
      flInterp1d fl (f.x.map fun v => fl (fl (fl (v * c) - x0) + newX.start)) f.y xs
  | _, _ => .error .index

/-- an array with another number of entries than the axis (`defaults/sweep_methods.py:245-251`); see `resample` -/
def flResample (fl : K → K) (t : Axis K) (l : List K) : Except Err (List K) :=
  if l.length = 1 then .error .zeroDivision
  else do
    let calcT : Axis K := { start := t.start, stop := t.stop, sample := fl (fl (t.start - t.stop) / ((l.length : K) - 1)) }
    let x ← calcT.flArray fl
    let xs ← t.flArray fl
    flInterp1d fl x l xs

/-- `_extract_x_t` of an array on an axis (`defaults/sweep_methods.py:244-252`) -/
def flExtract (fl : K → K) (t : Axis K) (l : List K) : Except Err (InterpArr K) := do
  let x ← t.flArray fl
  let y ← (if x.length ≠ l.length then flResample fl t l else pure l)
  pure ⟨x, y⟩

/-- `np.sin` and `2 * np.pi` in floating point -/
structure FlTrig (K : Type) where
  sin : K → K
  twoPi : K

/-- a sweep without its spectrogram -/
structure FlSweep (K : Type) where
  rel : Rel K K
  frequencyTime : Rel K K
  amplitudeTime : Rel K K

/-- `UncalculatedSweep(time, f, a)(tht0=tht0)` for an axis and two arrays (`uncalculated_sweep.py:98-188`). All arrays have the length of
the axis when they are multiplied. -/
def flArraySweep (fl : K → K) (T : FlTrig K) (time : Axis K) (f a : List K) (tht0 : K) : Except Err (FlSweep K) := do
  let fd ← flExtract fl time f
  let ad ← flExtract fl time a
  let fv ← fd.flCall fl time
  let frequencyTime ← flRel fl time fv
  let av ← ad.flCall fl time
  let i ← frequencyTime.flIntegrate fl
  let tht ← flRel fl time (0 :: i.y.map fun v => fl (T.twoPi * v))
  let amplitudeTime ← flRel fl time av
  let sweep ← flRel fl time (List.zipWith (fun c v => fl (c * T.sin (fl (v + tht0)))) av tht.y)
  pure ⟨sweep, frequencyTime, amplitudeTime⟩

/-- `f_t_linear_array` (`utility_functions/f_t.py:25-39`): `time * (f_end - f_start) / (time[-1] - time[0]) + f_start` -/
def flLinearArray (fl : K → K) (time : List K) (fStart fEnd : K) : Except Err (List K) :=
  match time.head?, time.getLast? with
  | some a, some b =>
    if fl (b - a) = 0 then .error .nonFinite
    else .ok (time.map fun t => fl (fl (fl (t * fl (fEnd - fStart)) / fl (b - a)) + fStart))
  | _, _ => .error .index

/-- `get_linear_sweep(time, f_start, f_end)` for an axis, without a taper (`prepared_sweeps/linear_sweep.py:11-24`;
`utility_functions/a_t.py:33-34` is `np.ones(time.size)`) -/
def flLinearSweep (fl : K → K) (T : FlTrig K) (time : Axis K) (fStart fEnd : K) : Except Err (FlSweep K) := do
  let t ← time.flArray fl
  let f ← flLinearArray fl t fStart fEnd
  flArraySweep fl T time f (List.replicate t.length 1) 0

end

end SweepDesign
