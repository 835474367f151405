import Mathlib.Algebra.Order.Field.Basic
import Mathlib.Algebra.Order.Floor.Ring
import Mathlib.Algebra.Group.Even
import Mathlib.Data.List.Basic

/-!
# Specification vocabulary

Small definitions used in theorem statements. They do not mention the model: a reader can check them on their own.
-/

namespace SweepDesign.Spec

variable {K : Type} [Field K] [LinearOrder K]

/-- `n` is the integer nearest to `q`, ties going to the even integer. -/
def NearestEven (q : K) (n : ℤ) : Prop :=
  |q - n| ≤ 1 / 2 ∧ (|q - n| = 1 / 2 → Even n)

/-- `q` lies exactly half way between two integers. -/
def HalfInteger (q : K) : Prop := ∃ n : ℤ, q = n + 1 / 2

/-- `l` consists of the `n` points `a, a + d, a + 2d, ...` -/
def EvenlySpaced (l : List K) (a d : K) (n : ℕ) : Prop :=
  l.length = n ∧ ∀ i (h : i < l.length), l[i] = a + i * d

/-- The step the constructor uses for a positive step `d` (specification): a step below one becomes the reciprocal of
the integer nearest to `1/d`, another step the nearest integer. -/
def RoundedStep (d s : K) : Prop :=
  (d < 1 ∧ ∃ k : ℤ, NearestEven (1 / d) k ∧ s = 1 / k) ∨ (1 ≤ d ∧ ∃ k : ℤ, NearestEven d k ∧ s = k)

end SweepDesign.Spec
