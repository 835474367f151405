import Verif.Model.Spectral

/-!
# Model of the amplitude and phase spectrum of a signal in `/repo/sweep_design/signal.py` (value layer)

In the heap layer these are `Mem.sgAmp` and `Mem.sgPhase`, with the cached spectrum.
-/

namespace SweepDesign

noncomputable section

/-- `Signal.get_amplitude_spectrum` (`signal.py:109-128`) on a signal without cached spectrum. -/
def Rel.signalAmplitude (r : Rel ℝ ℝ) (frequency : SizeArg := .none) (isStartZero : Bool := false) : Except Err (Rel ℝ ℝ) := do
  let s ← r.getSpectrum frequency isStartZero
  s.getAmpSpectrum

/-- `Signal.get_phase_spectrum` (`signal.py:130-148`) on a signal without cached spectrum. -/
def Rel.signalPhase (r : Rel ℝ ℝ) (frequency : SizeArg := .none) (isStartZero : Bool := false) : Except Err (Rel ℝ ℝ) := do
  let s ← r.getSpectrum frequency isStartZero
  s.getPhaseSpectrum

end

end SweepDesign
