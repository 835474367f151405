import Verif.Spec.Basic
import Verif.Model.Relation

/-!
# Specification vocabulary for relations

These definitions mention only observable attributes (`x`, `y`, `size`, `get_data`), not the model's helpers.
-/

namespace SweepDesign.Spec

variable {K : Type} [Field K] [LinearOrder K] [IsStrictOrderedRing K] [FloorRing K] {V : Type}

/-- as many y values as axis points -/
def Balanced (r : Rel K V) : Prop := r.x.size = .ok r.y.length

end SweepDesign.Spec

namespace SweepDesign.Spec

variable {K : Type} [Field K] [LinearOrder K] {V : Type} [AddCommGroup V] [Module K V]

/-- `t` lies between the smallest and the largest entry of `lx`. -/
def InRange (lx : List K) (t : K) : Prop := ∃ a ∈ lx, ∃ b ∈ lx, a ≤ t ∧ t ≤ b

/-- `v` is the value at `t` of the piecewise linear function through the points `(lx[i], ly[i])`, extended by zero.
For neighbouring samples (in whichever direction the samples run) the value lies on the straight line between them. -/
structure IsInterpolant (lx : List K) (ly : List V) (t : K) (v : V) : Prop where
  outside : ¬ InRange lx t → v = 0
  sample : ∀ i (h : i < lx.length) (h' : i < ly.length), lx[i] = t → v = ly[i]
  between : ∀ i (h : i + 1 < lx.length) (h' : i + 1 < ly.length),
    min lx[i] lx[i + 1] ≤ t → t ≤ max lx[i] lx[i + 1] →
    v = ly[i] + ((t - lx[i]) / (lx[i + 1] - lx[i])) • (ly[i + 1] - ly[i])

end SweepDesign.Spec

namespace SweepDesign.Spec

variable {V : Type} [Field V] [PyPow V]

/-- `v` is the result of the arithmetic operation on two numbers, operands in the written order: for the reflected
operations (`c + r`, `c - r`, ...) the first argument here is the relation's value and the second the left operand. -/
def OpResult : MathOp → V → V → V → Prop
  | .add, a, b, v => v = a + b
  | .radd, a, b, v => v = b + a
  | .sub, a, b, v => v = a - b
  | .rsub, a, b, v => v = b - a
  | .mul, a, b, v => v = a * b
  | .rmul, a, b, v => v = b * a
  | .truediv, a, b, v => b ≠ 0 ∧ v * b = a
  | .rtruediv, a, b, v => a ≠ 0 ∧ v * a = b
  | .pow, a, b, v => PyPow.ppow a b = some v
  | .rpow, a, b, v => PyPow.ppow b a = some v

end SweepDesign.Spec

namespace SweepDesign.Spec

variable {V : Type} [Zero V]

/-- the entries of a list extended by zero to all integer positions -/
def zext (l : List V) (i : ℤ) : V := if 0 ≤ i then l.getD i.toNat 0 else 0

end SweepDesign.Spec
