import Verif.Heap.Basic

/-!
# Words of the statements about operators and cached spectra

Written without the definitions the model computes with, so that an error there does not change what is claimed.
-/

namespace SweepDesign

open Mem

/-- the operator methods `Signal` and `Spectrum` override: `+ - * / **` with the object on the left -/
def Spec.Forward (op : MathOp) : Prop := op = .add ∨ op = .sub ∨ op = .mul ∨ op = .truediv ∨ op = .pow

/-- a frequency (time) is given: neither `None` nor the number 0 -/
def Spec.Given (f : HSize) : Prop := f ≠ .none ∧ f ≠ .int 0

/-- the classes `Signal` and its subclass `Sweep` -/
def Spec.SignalClass (c : Cls) : Prop := c = .signal ∨ c = .sweep

theorem isSignal_iff {c : Cls} : c.isSignal = true ↔ Spec.SignalClass c := by
  cases c <;> simp [Cls.isSignal, Spec.SignalClass]

theorem not_isSignal_iff {c : Cls} : c.isSignal = false ↔ ¬ Spec.SignalClass c := by
  rw [← isSignal_iff, Bool.not_eq_true]

theorem forward_iff {op : MathOp} : MathOp.isForward op = true ↔ Spec.Forward op := by
  cases op <;> simp [MathOp.isForward, Spec.Forward]

theorem not_forward_iff {op : MathOp} : MathOp.isForward op = false ↔ ¬ Spec.Forward op := by
  rw [← forward_iff, Bool.not_eq_true]

theorem given_iff {f : HSize} : f.truthy = true ↔ Spec.Given f := by
  cases f <;> simp [HSize.truthy, Spec.Given]

end SweepDesign
