import Verif.Model.FloatAxis
import Verif.Model.Spectral

/-!
# Spectra of signals and signals of spectra with a rounding after every operation

The transforms of `Model/Spectral` without a size argument, and back onto a time axis. The axes are computed with an arbitrary rounding
`fl` (see `Model/FloatAxis`); `np.fft.rfft` and `np.fft.irfft` are arguments. Samples are real and complex numbers: apart from the
two transforms nothing is computed with them.
-/

namespace SweepDesign

section
variable {K : Type} [Field K] [LinearOrder K] [FloorRing K]

/-- `np.fft.rfft(a)` and `np.fft.irfft(s, n)` in floating point -/
structure FlFft where
  rfft : List ℝ → List ℂ
  irfft : List ℂ → ℕ → List ℝ

/-- `np.fft.rfftfreq(n, d)`: `arange(0, n // 2 + 1) * (1.0 / (n * d))` -/
def flRfftfreq (fl : K → K) (n : ℕ) (d : K) : List K :=
  (List.range (n / 2 + 1)).map fun k : ℕ => fl (k * fl (1 / fl (n * d)))

/-- `get_array_axis_from_array(x, round_dx=False)` (`axis.py:119-136`) -/
def flAxisOfArray (fl : K → K) (x : List K) : Except Err (Axis K) := do
  let dx ← flActualSample fl x
  match x.head?, x.getLast? with
  | some s, some e => pure { start := s, stop := e, sample := dx }
  | _, _ => .error .index

/-- `_calculate_spectrum(time, amplitude)` (`defaults/methods.py:230-250`) -/
def flCalculateSpectrum (fl : K → K) (F : FlFft) (time : Axis K) (amplitude : List ℝ) : Except Err (Axis K × List ℂ) := do
  let amplitude ← flReorderByTime fl time amplitude
  if amplitude.length = 0 then .error .value
  else if fl ((amplitude.length : K) * time.sample) = 0 then .error .zeroDivision
  else
    let f ← flAxisOfArray fl (flRfftfreq fl amplitude.length time.sample)
    pure (f, F.rfft amplitude)

/-- `signal2spectrum(relation)` (`defaults/methods.py:253-293`) -/
def flSignal2spectrum (fl : K → K) (F : FlFft) (x : Axis K) (y : List ℝ) : Except Err (Axis K × List ℂ) :=
  if 0 < x.start then do
    let newTime := { x with start := 0 }
    let t ← newTime.flArray fl
    let z ← npZeros ((t.length : ℤ) - y.length)
    flCalculateSpectrum fl F newTime (z ++ y)
  else if x.stop < 0 then do
    let newTime := { x with stop := 0 }
    let t ← newTime.flArray fl
    let z ← npZeros ((t.length : ℤ) - y.length)
    flCalculateSpectrum fl F newTime (y ++ z)
  else flCalculateSpectrum fl F x y

/-- `Signal.get_spectrum()` without a cached spectrum (`signal.py:83-107`) -/
def flGetSpectrum (fl : K → K) (F : FlFft) (x : Axis K) (y : List ℝ) : Except Err (Axis K × List ℂ) := do
  let (f, s) ← flSignal2spectrum fl F x y
  flMake fl f s

/-- `Spectrum.get_signal(time)` with a time axis (`spectrum.py:84-111`, `defaults/methods.py:296-343`) -/
def flGetSignalOn (fl : K → K) (F : FlFft) (s : List ℂ) (time : Axis K) : Except Err (Axis K × List ℝ) := do
  let t ← time.flArray fl
  let a ← flReorderByTime fl time (F.irfft s t.length)
  flMake fl time a

/-- `Spectrum.get_signal()` (`spectrum.py:84-111`, `defaults/methods.py:296-343`): `irfft` without a size returns `2 * (len(s) - 1)`
samples, and raises `ValueError` if there are none -/
def flGetSignal (fl : K → K) (F : FlFft) (f : Axis K) (s : List ℂ) : Except Err (Axis K × List ℝ) :=
  if s.length ≤ 1 then .error .value
  else do
    let a := F.irfft s (2 * (s.length - 1))
    let time ← flSignalTime fl f none a.length
    let a ← flReorderByTime fl time a
    flMake fl time a

end

end SweepDesign
