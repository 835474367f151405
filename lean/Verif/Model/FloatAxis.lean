import Verif.Model.Axis
import Verif.Py.Float

/-!
# `/repo/sweep_design/axis.py` with a rounding after every operation

The functions of `Model/Axis` once more, for an arbitrary rounding `fl`. With `fl = fl64` this is what the code computes with
doubles, with `fl = id` the exact model.
-/

namespace SweepDesign

section
variable {K : Type} [Field K] [LinearOrder K] [FloorRing K]

/-- `np.linspace(start, stop, num)` for `num ≥ 1` (numpy `core/function_base.py`), with a rounding after every operation:
`y = arange(num)`; `y * step`, or `y / div * delta` if the step is zero; `+ start`; the last element is `stop`. -/
def flLinspace (fl : K → K) (start stop : K) (num : ℕ) : List K :=
  let delta := fl (stop - start)
  let step := fl (delta / ((num : K) - 1))
  if num ≤ 1 then List.replicate num start
  else (List.range num).map fun i : ℕ =>
    if i + 1 = num then stop
    else if step = 0 then fl (fl (fl ((i : K) / ((num : K) - 1)) * delta) + start)
    else fl (fl ((i : K) * step) + start)

/-- `ArrayAxis.array` (`axis.py:33-46`) -/
def Axis.flArray (fl : K → K) (a : Axis K) : Except Err (List K) :=
  if a.sample = 0 then .error .zeroDivision
  else .ok (flLinspace fl a.start a.stop ((pyRound |fl (fl (a.stop - a.start) / a.sample)|).toNat + 1))

/-- `get_actual_sample` (`axis.py:103-116`) -/
def flActualSample (fl : K → K) (x : List K) : Except Err K := npMin ((npDiff x).map fl)

/-- the rounding of the step (`axis.py:133-134`); `round` gives a Python integer, and `1 / integer` is rounded once -/
def flRoundStep (fl : K → K) (dx : K) : Except Err K :=
  if dx < 1 then
    if dx = 0 then .error .zeroDivision
    else if pyRound (fl (1 / dx)) = 0 then .error .zeroDivision
    else .ok (fl (1 / (pyRound (fl (1 / dx)) : K)))
  else .ok (pyRound dx : K)

/-- `get_array_axis_from_array` (`axis.py:119-136`) for a float array -/
def flAxisFromArray (fl : K → K) (x : List K) : Except Err (Axis K) := do
  let dx ← flActualSample fl x
  let dx ← flRoundStep fl dx
  match x.head?, x.getLast? with
  | some s, some e => pure { start := s, stop := e, sample := dx }
  | _, _ => .error .index

/-- `np.append(amplitude[time.array >= 0.0], amplitude[time.array < 0.0])` (`defaults/methods.py:240-241`) -/
def flReorderByTime {V : Type} (fl : K → K) (time : Axis K) (amplitude : List V) : Except Err (List V) := do
  let t ← time.flArray fl
  let a ← maskSelect (t.map fun v => decide (0 ≤ v)) amplitude
  let b ← maskSelect (t.map fun v => decide (v < 0)) amplitude
  pure (a ++ b)

/-- the constructor of a relation applied to an axis and an array (`relation.py:99-107`) -/
def flMake {V : Type} (fl : K → K) (x : Axis K) (y : List V) : Except Err (Axis K × List V) := do
  let a ← x.flArray fl
  if a.length ≠ y.length then .error (.notEqual a.length y.length) else pure (x, y)

/-- `Relation.select_data` (`relation.py:253-282`) of the relation with axis `x` and values `y` -/
def flSelectData {V : Type} (fl : K → K) (x : Axis K) (y : List V) (start stop : Option K) :
    Except Err (Axis K × List V) := do
  let a := start.getD x.start
  let b := stop.getD x.stop
  let array ← x.flArray fl
  let isSelected := array.map fun t => decide (a ≤ t) && decide (t ≤ b)
  let selectedX ← maskSelect isSelected array
  match selectedX.head?, selectedX.getLast? with
  | some s, some e => do
    let y ← maskSelect isSelected y
    flMake fl { start := s, stop := e, sample := x.sample } y
  | _, _ => .error .index

/-- the axis of `integrate` (`defaults/methods.py:102-104`) -/
def Axis.flIntegrate (fl : K → K) (x : Axis K) : Axis K := { x with start := fl (x.start + x.sample) }

/-- the axis of `differentiate` (`defaults/methods.py:120-123`) -/
def Axis.flDiff (fl : K → K) (x : Axis K) : Axis K :=
  { x with start := fl (x.start + fl (x.sample / 2)), stop := fl (x.stop - fl (x.sample / 2)) }

/-- the axis of `Relation.shift` (`relation.py:353-355`) -/
def Axis.flShift (fl : K → K) (x : Axis K) (h : K) : Axis K := { x with start := fl (x.start + h), stop := fl (x.stop + h) }

/-- the axis of `correlate` and `convolve` for the common axis `x` of the shifted relations
(`defaults/methods.py:202`, `defaults/methods.py:224`) -/
def Axis.flMirror (x : Axis K) : Axis K := { x with start := -x.stop }

/-- the time axis of `spectrum2signal` (`defaults/methods.py:331-338`) for `size` amplitudes -/
def flSignalTime (fl : K → K) (frequency : Axis K) (timeStart : Option K) (size : ℕ) : Except Err (Axis K) :=
  let width := fl (2 * fl (frequency.stop - frequency.start))
  if width = 0 then .error .zeroDivision
  else
    let dt := fl (1 / width)
    let length := fl (((size : K) - 1) * dt)
    match timeStart with
    | none => .ok ⟨0, length, dt⟩
    | some t => .ok ⟨t, fl (t + length), dt⟩

end

end SweepDesign
