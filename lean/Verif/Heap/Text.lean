import Verif.Heap.Basic
import Verif.Model.Relation
import Mathlib.Analysis.Complex.Norm

/-!
# `__str__` of axes and relations, and looking up a complex number

The text itself is not modelled: `str` here gives the numbers that are formatted, in the order of the text.
-/

namespace SweepDesign.Mem
open HM

variable {K V : Type} (P : Prims K V)

/-- the numbers in the text of an axis -/
structure AxisText (K : Type) where
  start : K
  stop : K
  sample : K
  size : ℕ
  calculated : K
deriving DecidableEq

/-- `ArrayAxis.__str__` (`axis.py:93-100`): the three fields, then `size`, then `actual_sample`; both fill caches -/
def axisStr (l : Loc) : HM K V (AxisText K) := do
  let a ← getAxis l
  let n ← axisSize P l
  let d ← axisActual P l
  pure ⟨a.start, a.stop, a.sample, n, d⟩

/-- `Relation.__str__` (`relation.py:527-528`): the samples, then the text of the axis -/
def relStr (r : Loc) : HM K V (List V × AxisText K) := do
  let o ← getRel r
  let y ← getY o.y
  let t ← axisStr P o.x
  pure (y, t)

end SweepDesign.Mem

namespace SweepDesign

/-- `Relation.__getitem__` with a complex number (`relation.py:519-522`): `np.abs(array - z)` are the distances in the plane. -/
noncomputable def Rel.getItemComplex {V : Type} (r : Rel ℝ V) (z : ℂ) : Except Err (ℝ × V) := do
  let array ← r.x.array
  let idx ← argmin (array.map fun t : ℝ => ‖(t : ℂ) - z‖)
  match array[idx]?, r.y[idx]? with
  | some t, some w => pure (t, w)
  | _, _ => .error .index

end SweepDesign
