import Verif.Model.Aprior
import Verif.Model.Prepared

/-!
# Model of `/repo/sweep_design/prepared_sweeps/dwell_sweep.py`
-/

namespace SweepDesign

noncomputable section

/-- `time if isinstance(time, ArrayAxis) else get_array_axis_from_array(time)` (`dwell_sweep.py:26-27`); `None` has no
differences. -/
def TimeArg.asAxis : TimeArg ℝ → Except Err (Axis ℝ)
  | .none => .error .value
  | .axis a => .ok a
  | .array l isFloat => axisFromArray l isFloat true

/-- `get_dwell_sweep` (`dwell_sweep.py:13-34`). The window is on the time given, the normalised sweep on an axis of its own,
so `equalize` never sees one shared axis object. -/
def getDwellSweep (P : SweepPrims ℝ) (time : TimeArg ℝ) (fStart fCentral fEnd timeTapper : Option ℝ) (data : AprData) :
    Except Err (Sweep ℝ) := do
  let t ← time.asAxis
  let u ← AprSweep.init (.axis t) data (dwell fStart fEnd fCentral)
  let l ← t.array
  let w ← tukeyAT l timeTapper .both
  let window ← Rel.make t w
  let s ← u.call P .none 0 true
  s.operation P (.rel false window) .mul

end

end SweepDesign
