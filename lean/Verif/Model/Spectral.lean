import Verif.Model.Relation
import Verif.Py.Fft
import Verif.Py.Pow
import Mathlib.Analysis.SpecialFunctions.Complex.Log

/-!
# Model of `/repo/sweep_design/signal.py`, `/repo/sweep_design/spectrum.py` and of the Fourier part of
`/repo/sweep_design/defaults/methods.py` (value layer)

Times and frequencies are real, signal values real, spectrum values complex. A signal or spectrum is modelled here as
one that has not cached its counterpart; the caches `_spectrum`, `_signal` are in the heap layer (C44).
-/

namespace SweepDesign

noncomputable section

/-- The optional `frequency`/`time` argument of the transforms: `None`, an `int`, or an `ArrayAxis`. -/
inductive SizeArg
  | none
  | int (k : ℤ)
  | axis (a : Axis ℝ)

/-- The `size` computed from it (`defaults/methods.py:233-238`, `320-325`). -/
def SizeArg.size : SizeArg → Except Err (Option ℤ)
  | .none => pure Option.none
  | .int k => pure (some k)
  | .axis a => do
    let n : ℕ ← a.size
    pure (some (n : ℤ))

/-- `np.append(amplitude[time.array >= 0.0], amplitude[time.array < 0.0])` (`defaults/methods.py:240-241`,
`340-341`). -/
def reorderByTime (time : Axis ℝ) (amplitude : List ℝ) : Except Err (List ℝ) := do
  let t ← time.array
  let a ← maskSelect (t.map fun v => decide (0 ≤ v)) amplitude
  let b ← maskSelect (t.map fun v => decide (v < 0)) amplitude
  pure (a ++ b)

/-- `_calculate_spectrum` (`defaults/methods.py:230-250`). -/
def calculateSpectrum (time : Axis ℝ) (amplitude : List ℝ) (frequency : SizeArg) :
    Except Err (Axis ℝ × List ℂ) := do
  let size ← frequency.size
  let amplitude ← reorderByTime time amplitude
  let spectrum ← rfft amplitude size
  match frequency with
  | .axis a => pure (a, spectrum)
  | _ => do
    let f ← axisFromArray (rfftfreq amplitude.length time.sample) true false
    pure (f, spectrum)

/-- `np.zeros(n)`: a negative `n` raises `ValueError`. -/
def npZeros (n : ℤ) : Except Err (List ℝ) :=
  if n < 0 then .error .value else .ok (List.replicate n.toNat 0)

/-- `signal2spectrum` (`defaults/methods.py:253-293`). -/
def signal2spectrum (r : Rel ℝ ℝ) (frequency : SizeArg) (isStartZero : Bool) : Except Err (Axis ℝ × List ℂ) :=
  if isStartZero then calculateSpectrum r.x r.y frequency
  else if 0 < r.x.start then do
    let newTime := { r.x with start := 0 }
    let n : ℕ ← newTime.size
    let z ← npZeros ((n : ℤ) - r.y.length)
    calculateSpectrum newTime (z ++ r.y) frequency
  else if r.x.stop < 0 then do
    let newTime := { r.x with stop := 0 }
    let n : ℕ ← newTime.size
    let z ← npZeros ((n : ℤ) - r.y.length)
    calculateSpectrum newTime (r.y ++ z) frequency
  else calculateSpectrum r.x r.y frequency

/-- `spectrum2signal` (`defaults/methods.py:296-343`). -/
def spectrum2signal (r : Rel ℝ ℂ) (time : SizeArg) (timeStart : Option ℝ) : Except Err (Axis ℝ × List ℝ) := do
  let size ← time.size
  let amplitude ← irfft r.y size
  let time ← match time with
    | .axis a => pure a
    | _ =>
      if r.x.stop - r.x.start = 0 then .error .zeroDivision
      else
        let dt := 1 / (2 * (r.x.stop - r.x.start))
        let t0 := timeStart.getD 0
        pure { start := t0, stop := t0 + ((amplitude.length : ℝ) - 1) * dt, sample := dt : Axis ℝ }
  let amplitude ← reorderByTime time amplitude
  pure (time, amplitude)

/-- `Signal.get_spectrum` on a signal without cached spectrum (`signal.py:83-107`). -/
def Rel.getSpectrum (r : Rel ℝ ℝ) (frequency : SizeArg := .none) (isStartZero : Bool := false) :
    Except Err (Rel ℝ ℂ) := do
  let (f, a) ← signal2spectrum r frequency isStartZero
  Rel.make f a

/-- `Spectrum.get_signal` on a spectrum without cached signal (`spectrum.py:84-111`). -/
def Rel.getSignal (r : Rel ℝ ℂ) (time : SizeArg := .none) (startTime : Option ℝ := Option.none) :
    Except Err (Rel ℝ ℝ) := do
  let (t, a) ← spectrum2signal r time startTime
  Rel.make t a

/-- The change of dtype float64 → complex128 numpy makes when a real array meets complex numbers. -/
def Rel.toComplex (r : Rel ℝ ℝ) : Rel ℝ ℂ := { x := r.x, y := r.y.map fun v : ℝ => (v : ℂ) }

/-- `Spectrum.get_amp_spectrum` (`spectrum.py:113-125`). -/
def Rel.getAmpSpectrum (r : Rel ℝ ℂ) : Except Err (Rel ℝ ℝ) := Rel.make r.x (r.y.map fun z => ‖z‖)

/-- `Spectrum.get_phase_spectrum` (`spectrum.py:127-137`). -/
def Rel.getPhaseSpectrum (r : Rel ℝ ℂ) : Except Err (Rel ℝ ℝ) := Rel.make r.x (unwrap (r.y.map npAngle))

/-- `Spectrum.get_spectrum_from_amp_phase` (`spectrum.py:218-237`): `cls(amp * ((1.0j * phase).exp()))`. The product
with `1.0j` has an axis of its own, so `equalize` never sees one shared axis object. -/
def Rel.fromAmpPhase (amp phase : Rel ℝ ℝ) : Except Err (Rel ℝ ℂ) := do
  let p ← phase.toComplex.rmul (.other (.num Complex.I))
  let e ← p.exp Complex.exp
  let m ← amp.toComplex.mul (.rel false e)
  Rel.init (.rel m) none

/-- `Spectrum.add_phase` with a spectrum (`spectrum.py:179-197`); `get_phase_spectrum` copies the axes. -/
def Rel.addPhase (r other : Rel ℝ ℂ) : Except Err (Rel ℝ ℂ) := do
  let amp ← r.getAmpSpectrum
  let p1 ← r.getPhaseSpectrum
  let p2 ← other.getPhaseSpectrum
  let p ← p1.add (.rel false p2)
  Rel.fromAmpPhase amp p

/-- `Spectrum.sub_phase` with a spectrum (`spectrum.py:199-216`). -/
def Rel.subPhase (r other : Rel ℝ ℂ) : Except Err (Rel ℝ ℂ) := do
  let amp ← r.getAmpSpectrum
  let p1 ← r.getPhaseSpectrum
  let p2 ← other.getPhaseSpectrum
  let p ← p1.sub (.rel false p2)
  Rel.fromAmpPhase amp p

/-- `Spectrum.get_reverse_filter` (`spectrum.py:139-177`). -/
def Rel.getReverseFilter (r : Rel ℝ ℂ) (percent : ℝ) (subtractPhase : Bool) (fStart fEnd : Option ℝ) :
    Except Err (Rel ℝ ℂ) := do
  let spectrum ← r.selectData fStart fEnd
  let absSpectrum ← spectrum.getAmpSpectrum
  let m ← absSpectrum.max
  let absSpectrum ← absSpectrum.add (.other (.num (m * percent / 100)))
  let reversedAbs ← absSpectrum.rtruediv (.other (.num 1))
  let phase ← spectrum.getPhaseSpectrum
  let phase ← phase.rmul (.other (.num (if subtractPhase then -1 else 1)))
  Rel.fromAmpPhase reversedAbs phase

/-- `Signal.add_phase` with a spectrum (`signal.py:199-212`). -/
def Rel.signalAddPhase (r : Rel ℝ ℝ) (other : Rel ℝ ℂ) : Except Err (Rel ℝ ℝ) := do
  let sp ← r.getSpectrum
  let sp ← sp.addPhase other
  let s ← sp.getSignal (.axis r.x)
  Rel.init (.rel s) none

/-- `Signal.sub_phase` with a spectrum (`signal.py:214-227`). -/
def Rel.signalSubPhase (r : Rel ℝ ℝ) (other : Rel ℝ ℂ) : Except Err (Rel ℝ ℝ) := do
  let sp ← r.getSpectrum
  let sp ← sp.subPhase other
  let s ← sp.getSignal (.axis r.x)
  Rel.init (.rel s) none

/-- `Signal.shift` (`signal.py:150-156`). -/
def Rel.signalShift (r : Rel ℝ ℝ) (d : ℝ) : Except Err (Rel ℝ ℝ) := do
  let sp ← r.getSpectrum
  let f ← sp.x.array
  let shift ← Rel.make sp.x (f.map fun v : ℝ => Complex.exp (-Complex.I * v * 2 * Real.pi * d))
  r.signalAddPhase shift

/-- `Signal.get_reverse_signal` (`signal.py:158-197`). -/
def Rel.getReverseSignal (r : Rel ℝ ℝ) (percent : ℝ) (subtractPhase : Bool) (fStart fEnd : Option ℝ) :
    Except Err (Rel ℝ ℝ) := do
  let sp ← r.getSpectrum
  let sp ← sp.getReverseFilter percent subtractPhase fStart fEnd
  let s ← sp.getSignal (.axis r.x)
  Rel.init (.rel s) none

/-- `convolve`/`correlate` of `defaults/methods.py:184-225` on two signals: like `Rel.alignForConv`, but `r.shift` is
`Signal.shift`. -/
def Rel.signalAlign (r1 r2 : Rel ℝ ℝ) : Except Err (Rel ℝ ℝ × Rel ℝ ℝ × Axis ℝ) := do
  let r1 ← r1.signalShift (-r1.x.start)
  let r2 ← r2.signalShift (-r2.x.start)
  let (r1, r2) ← Rel.equalize false r1 r2
  pure (r1, r2, { start := -r1.x.stop, stop := r1.x.stop, sample := r1.x.sample })

/-- `Signal.convolve` of two signals (`signal.py:229-244`). -/
def Rel.signalConvolve (r1 r2 : Rel ℝ ℝ) : Except Err (Rel ℝ ℝ) := do
  let (r1, r2, ax) ← Rel.signalAlign r1 r2
  let r ← Rel.make ax (npConvolve r1.y r2.y)
  Rel.init (.rel r) none

/-- `Signal.correlate` of two signals (`signal.py:246-261`). -/
def Rel.signalCorrelate (r1 r2 : Rel ℝ ℝ) : Except Err (Rel ℝ ℝ) := do
  let (r1, r2, ax) ← Rel.signalAlign r1 r2
  let r ← Rel.make ax (npCorrelate r1.y r2.y)
  Rel.init (.rel r) none

end

end SweepDesign
