import Verif.Model.SignalSpectra
import Verif.Model.Spectro

/-!
# Signals and sweeps with complex samples

`Signal` and `Sweep` accept complex samples (`/repo/sweep_design/signal.py:53-54`, `/repo/sweep_design/sweep.py:49-50`). Here are the functions
of `Model/Spectral`, `Model/Hilbert` and `Model/Spectro` on such samples, with what numpy and scipy do with a complex array:
`np.fft.rfft` discards the imaginary parts, `scipy.signal.hilbert` raises `ValueError`, and `scipy.signal.spectrogram` switches to
a two-sided result.
-/

namespace SweepDesign

noncomputable section

/-- `np.fft.rfft(a, n)` of a complex array: numpy 1.23 casts it to real numbers, dropping the imaginary parts. Used in
`/repo/sweep_design/defaults/methods.py:242`. -/
def rfftC (a : List ℂ) (size : Option ℤ) : Except Err (List ℂ) := rfft (a.map fun z => z.re) size

/-- `np.append(amplitude[time.array >= 0.0], amplitude[time.array < 0.0])` (`defaults/methods.py:240-241`) -/
def reorderByTimeC (time : Axis ℝ) (amplitude : List ℂ) : Except Err (List ℂ) := do
  let t ← time.array
  let a ← maskSelect (t.map fun v => decide (0 ≤ v)) amplitude
  let b ← maskSelect (t.map fun v => decide (v < 0)) amplitude
  pure (a ++ b)

/-- `_calculate_spectrum` (`defaults/methods.py:230-250`) -/
def calculateSpectrumC (time : Axis ℝ) (amplitude : List ℂ) (frequency : SizeArg) : Except Err (Axis ℝ × List ℂ) := do
  let size ← frequency.size
  let amplitude ← reorderByTimeC time amplitude
  let spectrum ← rfftC amplitude size
  match frequency with
  | .axis a => pure (a, spectrum)
  | _ => do
    let f ← axisFromArray (rfftfreq amplitude.length time.sample) true false
    pure (f, spectrum)

/-- `signal2spectrum` (`defaults/methods.py:253-293`); `np.append` makes the zeros complex -/
def signal2spectrumC (r : Rel ℝ ℂ) (frequency : SizeArg) (isStartZero : Bool) : Except Err (Axis ℝ × List ℂ) :=
  if isStartZero then calculateSpectrumC r.x r.y frequency
  else if 0 < r.x.start then do
    let newTime := { r.x with start := 0 }
    let n : ℕ ← newTime.size
    let z ← npZeros ((n : ℤ) - r.y.length)
    calculateSpectrumC newTime ((z.map fun v : ℝ => (v : ℂ)) ++ r.y) frequency
  else if r.x.stop < 0 then do
    let newTime := { r.x with stop := 0 }
    let n : ℕ ← newTime.size
    let z ← npZeros ((n : ℤ) - r.y.length)
    calculateSpectrumC newTime (r.y ++ z.map fun v : ℝ => (v : ℂ)) frequency
  else calculateSpectrumC r.x r.y frequency

/-- `Signal.get_spectrum` on a signal without cached spectrum (`signal.py:83-107`) -/
def Rel.getSpectrumC (r : Rel ℝ ℂ) (frequency : SizeArg := .none) (isStartZero : Bool := false) : Except Err (Rel ℝ ℂ) := do
  let (f, a) ← signal2spectrumC r frequency isStartZero
  Rel.make f a

/-- `Signal.add_phase` with a spectrum (`signal.py:199-212`) -/
def Rel.signalAddPhaseC (r : Rel ℝ ℂ) (other : Rel ℝ ℂ) : Except Err (Rel ℝ ℝ) := do
  let sp ← r.getSpectrumC
  let sp ← sp.addPhase other
  let s ← sp.getSignal (.axis r.x)
  Rel.init (.rel s) none

/-- `Signal.sub_phase` with a spectrum (`signal.py:214-227`) -/
def Rel.signalSubPhaseC (r : Rel ℝ ℂ) (other : Rel ℝ ℂ) : Except Err (Rel ℝ ℝ) := do
  let sp ← r.getSpectrumC
  let sp ← sp.subPhase other
  let s ← sp.getSignal (.axis r.x)
  Rel.init (.rel s) none

/-- `Signal.shift` (`signal.py:150-156`) -/
def Rel.signalShiftC (r : Rel ℝ ℂ) (d : ℝ) : Except Err (Rel ℝ ℝ) := do
  let sp ← r.getSpectrumC
  let f ← sp.x.array
  let shift ← Rel.make sp.x (f.map fun v : ℝ => Complex.exp (-Complex.I * v * 2 * Real.pi * d))
  r.signalAddPhaseC shift

/-- `Signal.get_reverse_signal` (`signal.py:158-197`) -/
def Rel.getReverseSignalC (r : Rel ℝ ℂ) (percent : ℝ) (subtractPhase : Bool) (fStart fEnd : Option ℝ) :
    Except Err (Rel ℝ ℝ) := do
  let sp ← r.getSpectrumC
  let sp ← sp.getReverseFilter percent subtractPhase fStart fEnd
  let s ← sp.getSignal (.axis r.x)
  Rel.init (.rel s) none

/-- the part of `correlate` and `convolve` before the numpy call on two signals (`defaults/methods.py:199-202`, `221-224`), where
`r.shift` is `Signal.shift` -/
def Rel.signalAlignC (r1 r2 : Rel ℝ ℂ) : Except Err (Rel ℝ ℝ × Rel ℝ ℝ × Axis ℝ) := do
  let r1 ← r1.signalShiftC (-r1.x.start)
  let r2 ← r2.signalShiftC (-r2.x.start)
  let (r1, r2) ← Rel.equalize false r1 r2
  pure (r1, r2, { start := -r1.x.stop, stop := r1.x.stop, sample := r1.x.sample })

/-- `Signal.convolve` of two signals (`signal.py:229-244`) -/
def Rel.signalConvolveC (r1 r2 : Rel ℝ ℂ) : Except Err (Rel ℝ ℝ) := do
  let (r1, r2, ax) ← Rel.signalAlignC r1 r2
  let r ← Rel.make ax (npConvolve r1.y r2.y)
  Rel.init (.rel r) none

/-- `Signal.correlate` of two signals (`signal.py:246-261`) -/
def Rel.signalCorrelateC (r1 r2 : Rel ℝ ℂ) : Except Err (Rel ℝ ℝ) := do
  let (r1, r2, ax) ← Rel.signalAlignC r1 r2
  let r ← Rel.make ax (npCorrelate r1.y r2.y)
  Rel.init (.rel r) none

/-- `spectrum op signal` (`spectrum.py:274-310`): the signal is replaced by its spectrum, which has an axis of its own -/
def Rel.spectrumOpSignalC (s : Rel ℝ ℂ) (r : Rel ℝ ℂ) (op : MathOp) : Except Err (Rel ℝ ℂ) := do
  let q ← r.getSpectrumC
  s.operation (.rel false q) op

/-- `scipy.signal.hilbert` of a complex array (scipy 1.9): `if np.iscomplexobj(x): raise ValueError("x must be real.")`. Used in
`/repo/sweep_design/defaults/sweep_methods.py:299` and `321`. -/
def hilbertC (_ : List ℂ) : Except Err (List ℂ) := .error .value

/-- `get_f_t` (`sweep_methods.py:286-306`) -/
def getFTC (r : Rel ℝ ℂ) : Except Err (Rel ℝ ℝ) := do
  let z ← hilbertC r.y
  Rel.make r.x (0 :: (npDiff (unwrap (z.map npAngle))).map fun d => d / (2 * Real.pi) / r.x.sample)

/-- `get_a_t` (`sweep_methods.py:309-322`) -/
def getATC (r : Rel ℝ ℂ) : Except Err (Rel ℝ ℝ) := do
  let z ← hilbertC r.y
  Rel.make r.x (z.map fun v => ‖v‖)

/-- `np.fft.fftfreq(n, d)`: `[0, 1, .., (n-1)//2, -(n//2), .., -1] * (1 / (n d))` -/
def fftfreq (n : ℕ) (d : ℝ) : List ℝ :=
  (List.range n).map fun k : ℕ => (if k < (n + 1) / 2 then (k : ℝ) else (k : ℝ) - (n : ℝ)) * (1 / ((n : ℝ) * d))

/-- segment `j`, with its mean subtracted (`detrend='constant'`) -/
def detrendedC (y : List ℂ) (nperseg j : ℕ) : List ℂ :=
  let seg := (y.drop (j * nStep nperseg)).take nperseg
  seg.map fun v => v - seg.sum / (seg.length : ℂ)

open Complex in
/-- `np.fft.fft` of the windowed segment at frequency number `k` -/
def segmentFftC (y : List ℂ) (nperseg j k : ℕ) : ℂ :=
  ∑ i ∈ Finset.range nperseg,
    ((at0 (tukeyPeriodic nperseg (1 / 4)) i : ℝ) : ℂ) * at0 (detrendedC y nperseg j) i *
      exp (-(2 * Real.pi * I * (i * k : ℕ) / (nperseg : ℂ)))

/-- `get_spectrogram` (`sweep_methods.py:263-283`) on complex samples: scipy 1.9 `_spectral_helper` switches to
`return_onesided=False`, i.e. `fftfreq` instead of `rfftfreq` and no doubling of the values -/
def defaultSpectrogramC (r : Rel ℝ ℂ) : Except Err (SpectroData ℝ) :=
  let n := r.y.length
  let nperseg := nPerSeg n
  if n = 0 then .error .value
  else if r.x.sample = 0 then .error .zeroDivision
  else
    .ok
      { time := (List.range (nSegs n nperseg)).map fun j : ℕ =>
          ((nperseg : ℝ) / 2 + (j : ℝ) * (nStep nperseg : ℝ)) / (1 / r.x.sample)
        frequency := fftfreq nperseg (1 / (1 / r.x.sample))
        image := ((List.range nperseg).map fun k =>
          (List.range (nSegs n nperseg)).map fun j => ‖segmentFftC r.y nperseg j k‖ ^ 2 * psdScale nperseg r.x.sample).reverse }

/-- `Sweep` with complex samples (`sweep.py:69-86`) -/
structure SweepC where
  rel : Rel ℝ ℂ
  frequencyTime : Rel ℝ ℝ
  amplitudeTime : Rel ℝ ℝ
  spectrogram : Spectrogram ℝ
  aPriorSignal : Option (Rel ℝ ℝ)

/-- `Sweep.__init__` (`sweep.py:37-86`) with the default `SweepConfig` -/
def SweepC.init (x : XArg ℝ ℂ) (y : Option (List ℂ)) (frequencyTime amplitudeTime : Option (Rel ℝ ℝ))
    (aPriorSignal : Option (Rel ℝ ℝ)) : Except Err SweepC := do
  let r ← Rel.init x y
  let ft ← match frequencyTime with
    | some q => .ok q
    | none => getFTC r
  let at' ← match amplitudeTime with
    | some q => .ok q
    | none => getATC r
  let d ← defaultSpectrogramC r
  let s ← getSpectrogram d
  pure { rel := r, frequencyTime := ft, amplitudeTime := at', spectrogram := s, aPriorSignal := aPriorSignal }

/-- An arithmetic operator on a real sweep with a complex operand: `Relation._operation` then `type(self)(x, y)`
(`relation.py:425-480`). -/
def Sweep.operationC (s : Sweep ℝ) (o : Operand ℝ ℂ) (op : MathOp) : Except Err SweepC := do
  let r ← s.rel.toComplex.operation o op
  SweepC.init (.axis r.x) (some r.y) none none none

end

end SweepDesign
