import Verif.Py.Fft
import Verif.Model.Sweep

/-!
# Model of `get_f_t` and `get_a_t` of `/repo/sweep_design/defaults/sweep_methods.py`

The analytic signal is computed with the exact discrete Fourier transform.
-/

namespace SweepDesign

/-- the weights `h` of `scipy.signal.hilbert` for `n` samples: 1 at the constant and (for even `n`) the Nyquist entry, 2 at
the positive and 0 at the negative frequencies -/
noncomputable def hilbertWeight (n k : ℕ) : ℝ := if k = 0 ∨ 2 * k = n then 1 else if 2 * k < n then 2 else 0

open Complex in
/-- `scipy.signal.hilbert(y)`: `ifft(fft(y) * h)`; an empty array raises `ValueError`. Used in
`/repo/sweep_design/defaults/sweep_methods.py:299` and `321`. -/
noncomputable def hilbert (y : List ℝ) : Except Err (List ℂ) :=
  if y = [] then .error .value
  else .ok ((List.range y.length).map fun j =>
    (∑ k ∈ Finset.range y.length,
      (hilbertWeight y.length k : ℂ) *
        (∑ l ∈ Finset.range y.length, ((at0 y l : ℝ) : ℂ) * exp (-(2 * Real.pi * I * (l * k : ℕ) / (y.length : ℂ)))) *
        exp (2 * Real.pi * I * (j * k : ℕ) / (y.length : ℂ))) / (y.length : ℂ))

/-- `get_f_t` (`sweep_methods.py:286-306`). A zero sample, where numpy would divide by zero, cannot occur: a sweep with such
an axis cannot be constructed. -/
noncomputable def getFT (r : Rel ℝ ℝ) : Except Err (Rel ℝ ℝ) := do
  let z ← hilbert r.y
  Rel.make r.x (0 :: (npDiff (unwrap (z.map npAngle))).map fun d => d / (2 * Real.pi) / r.x.sample)

/-- `get_a_t` (`sweep_methods.py:309-322`). -/
noncomputable def getAT (r : Rel ℝ ℝ) : Except Err (Rel ℝ ℝ) := do
  let z ← hilbert r.y
  Rel.make r.x (z.map fun v => ‖v‖)

end SweepDesign
