import Verif.Model.Prepared
import Verif.Model.Hilbert
import Mathlib.MeasureTheory.Integral.IntervalIntegral.Basic

/-!
# Model of `get_spectrogram` of `/repo/sweep_design/defaults/sweep_methods.py` and the default configuration of sweeps

`scipy.signal.spectrogram(y, fs, nperseg=nperseg)` with its default window `('tukey', .25)`, overlap `nperseg // 8`,
constant detrending, density scaling and one-sided output, in exact arithmetic, for real `y`.
-/

namespace SweepDesign

noncomputable section

/-- `scipy.signal.get_window(('tukey', alpha), M)` for `0 < alpha < 1`: the periodic window, i.e. the symmetric one of
`M + 1` points without the last. -/
def tukeyPeriodic (m : ℕ) (alpha : ℝ) : List ℝ :=
  if m ≤ 1 then List.replicate m 1 else (tukey (m + 1) alpha).take m

/-- the length of a segment (`sweep_methods.py:276-279`) -/
def nPerSeg (n : ℕ) : ℕ := if n < 256 then n else 256

/-- `noverlap = nperseg // 8` (scipy `spectrogram`) -/
def nOverlap (nperseg : ℕ) : ℕ := nperseg / 8

/-- the distance of two segments -/
def nStep (nperseg : ℕ) : ℕ := nperseg - nOverlap nperseg

/-- the number of segments (scipy `_fft_helper`) -/
def nSegs (n nperseg : ℕ) : ℕ := (n - nOverlap nperseg) / nStep nperseg

/-- segment `j`, with its mean subtracted (`detrend='constant'`) -/
def detrended (y : List ℝ) (nperseg j : ℕ) : List ℝ :=
  let seg := (y.drop (j * nStep nperseg)).take nperseg
  seg.map fun v => v - seg.sum / (seg.length : ℝ)

open Complex in
/-- `np.fft.rfft` of the windowed segment at frequency number `k` -/
def segmentFft (y : List ℝ) (nperseg j k : ℕ) : ℂ :=
  ∑ i ∈ Finset.range nperseg,
    ((at0 (tukeyPeriodic nperseg (1 / 4)) i * at0 (detrended y nperseg j) i : ℝ) : ℂ) *
      exp (-(2 * Real.pi * I * (i * k : ℕ) / (nperseg : ℂ)))

/-- `result[..., 1:] *= 2` for odd, `result[..., 1:-1] *= 2` for even `nfft` -/
def oneSided (nperseg k : ℕ) : ℝ := if k = 0 ∨ 2 * k = nperseg then 1 else 2

/-- `1 / (fs * (win * win).sum())` with `fs = 1 / sample` -/
def psdScale (nperseg : ℕ) (sample : ℝ) : ℝ :=
  1 / (1 / sample * ((tukeyPeriodic nperseg (1 / 4)).map fun w => w * w).sum)

/-- the power spectral density of segment `j` at frequency number `k` -/
def psd (y : List ℝ) (nperseg : ℕ) (sample : ℝ) (j k : ℕ) : ℝ :=
  oneSided nperseg k * (‖segmentFft y nperseg j k‖ ^ 2 * psdScale nperseg sample)

/-- `get_spectrogram` (`sweep_methods.py:263-283`): the times `np.arange(nperseg / 2, n - nperseg / 2 + 1, step) / fs`, the
frequencies `np.fft.rfftfreq(nperseg, 1 / fs)`, and the image with its rows reversed (`spectrogram_[::-1, ::]`). No relation
has an empty `y`, so the empty result scipy returns then is not modelled. -/
def defaultSpectrogram (r : Rel ℝ ℝ) : Except Err (SpectroData ℝ) :=
  let n := r.y.length
  let nperseg := nPerSeg n
  if n = 0 then .error .value
  else if r.x.sample = 0 then .error .zeroDivision
  else
    .ok
      { time := (List.range (nSegs n nperseg)).map fun j : ℕ =>
          ((nperseg : ℝ) / 2 + (j : ℝ) * (nStep nperseg : ℝ)) / (1 / r.x.sample)
        frequency := rfftfreq nperseg (1 / (1 / r.x.sample))
        image := ((List.range (nperseg / 2 + 1)).map fun k =>
          (List.range (nSegs n nperseg)).map fun j => psd r.y nperseg r.x.sample j k).reverse }

/-- The default configuration (`config/sweep_config.py:75-81`, `config/base_config.py`): exact sine, π and integral; the
methods `get_f_t`, `get_a_t` and `get_spectrogram`. -/
def defaultPrims : SweepPrims ℝ where
  sin := Real.sin
  pi := Real.pi
  quad f a b := ∫ t in a..b, f t
  getFT := getFT
  getAT := getAT
  spectrogram := defaultSpectrogram

end

end SweepDesign
