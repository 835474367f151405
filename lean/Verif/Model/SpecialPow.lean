import Verif.Model.Special
import Mathlib.Analysis.SpecialFunctions.Pow.Real
import Mathlib.Analysis.SpecialFunctions.Sqrt

/-!
# Powers and the exponential of samples with inf and nan

`**` and `np.exp` on float64 arrays, without rounding, overflow and underflow: the function `pow` of the C library (C99, annex F), which
numpy calls for every pair of samples, and the short cuts that numpy takes if the exponent is one of the numbers 1, -1, 0, 1/2 and 2
(`fast_scalar_power` in numpy's `number.c`).
-/

namespace SweepDesign

noncomputable section
open Classical

/-- an odd whole number -/
def OddWhole (w : ℝ) : Prop := ∃ k : ℤ, w = 2 * k + 1

/-- `pow(a, b)` of the C library -/
def Ieee.pow (a b : Ieee ℝ) : Ieee ℝ :=
  if b.val = some 0 ∨ a.val = some 1 then .fin 1
  else if a = .nan ∨ b = .nan then .nan
  else match b.val with
    | none =>
      -- b is infinite
      match a.val with
      | none => if b.neg? then .fin 0 else .inf false
      | some v => if |v| = 1 then .fin 1 else if (1 < |v|) = (b.neg? = true) then .fin 0 else .inf false
    | some w =>
      let s := a.neg? && decide (OddWhole w)
      match a.val with
      | none => if 0 < w then .inf s else Ieee.zero s
      | some v =>
        if v = 0 then (if 0 < w then Ieee.zero s else .inf s)
        else if v < 0 ∧ ¬ ∃ k : ℤ, w = k then .nan
        else .fin (v ^ w)

/-- `np.sqrt` -/
def Ieee.sqrt : Ieee ℝ → Ieee ℝ
  | .fin v => if v < 0 then .nan else .fin (Real.sqrt v)
  | .negZero => .negZero
  | .inf s => if s then .nan else .inf false
  | .nan => .nan

/-- an array raised to the number `c`: `array_power` of numpy with its short cuts -/
def Ieee.powNum (a c : Ieee ℝ) : Ieee ℝ :=
  if c = .fin 1 then a
  else if c = .fin (-1) then (Ieee.fin 1).div a
  else if c.val = some 0 then .fin 1
  else if c = .fin (1 / 2) then a.sqrt
  else if c = .fin 2 then a.mul a
  else a.pow c

/-- `np.exp` -/
def Ieee.exp : Ieee ℝ → Ieee ℝ
  | .fin v => .fin (Real.exp v)
  | .negZero => .fin 1
  | .inf s => if s then .fin 0 else .inf false
  | .nan => .nan

/-- `math_operation` (`defaults/methods.py:42-70`) for the two powers of arrays -/
def ieeePowers (reflected : Bool) (y1 y2 : List (Ieee ℝ)) : Except Err (List (Ieee ℝ)) :=
  let f : Ieee ℝ → Ieee ℝ → Ieee ℝ := fun a b => if reflected then b.pow a else a.pow b
  if y1.length = y2.length then .ok (List.zipWith f y1 y2)
  else match y1, y2 with
    | _, [c] => .ok (y1.map fun a => f a c)
    | [c], _ => .ok (y2.map fun b => f c b)
    | _, _ => .error .typeFunc

/-- `__pow__` and `__rpow__` with a relation (`relation.py:425-438`, `474-480`) -/
def ERel.powRel (reflected same : Bool) (a b : ERel ℝ) : Except Err (ERel ℝ) := do
  let (r1, r2) ← ERel.equalize same a b
  let y ← ieeePowers reflected r1.y r2.y
  ERel.make r1.x y

/-- `__pow__` with a number (`relation.py:425-438`, `474-476`) -/
def ERel.powNum (a : ERel ℝ) (c : Ieee ℝ) : Except Err (ERel ℝ) := ERel.make a.x (a.y.map fun v => v.powNum c)

/-- `__rpow__` with a number (`relation.py:425-438`, `478-480`) -/
def ERel.rpowNum (a : ERel ℝ) (c : Ieee ℝ) : Except Err (ERel ℝ) := ERel.make a.x (a.y.map fun v => c.pow v)

/-- `Relation.exp` (`relation.py:284-293`) -/
def ERel.exp (a : ERel ℝ) : Except Err (ERel ℝ) := ERel.make a.x (a.y.map Ieee.exp)

end

end SweepDesign
