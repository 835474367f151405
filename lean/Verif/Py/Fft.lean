import Verif.Py.Num
import Mathlib.Analysis.SpecialFunctions.Complex.Arg
import Mathlib.Algebra.BigOperators.Group.Finset.Basic

/-!
# numpy FFT and phase primitives, in exact arithmetic over ℝ and ℂ
-/

namespace SweepDesign

open Complex in
/-- `np.fft.rfft(a, n)` of a real array: `a` cropped or zero-padded to `n` entries, output
`out[k] = Σ_{j<n} a[j] e^{-2πi jk/n}` for `k = 0 .. n//2`; `n < 1` raises `ValueError`.
Used in `/repo/sweep_design/defaults/methods.py:242`. -/
noncomputable def rfft (a : List ℝ) (size : Option ℤ) : Except Err (List ℂ) :=
  let n : ℤ := size.getD a.length
  if n < 1 then .error .value
  else .ok ((List.range (n.toNat / 2 + 1)).map fun k =>
    ∑ j ∈ Finset.range n.toNat, ((at0 a j : ℝ) : ℂ) * exp (-(2 * Real.pi * I * (j * k : ℕ) / (n.toNat : ℂ))))

/-- The two-sided spectrum `np.fft.irfft` stands for: entry `k ≤ n/2` is `s[k]` (zero if `s` is shorter), the others are
the conjugates of the mirrored entries. -/
noncomputable def hermitianExt (s : List ℂ) (n k : ℕ) : ℂ :=
  if 2 * k ≤ n then at0 s k else (starRingEnd ℂ) (at0 s (n - k))

open Complex in
/-- `np.fft.irfft(s, n)`: `n` defaults to `2 * (len(s) - 1)`, `n < 1` raises `ValueError`;
`out[j] = 1/n Σ_{k<n} H[k] e^{2πi jk/n}` with the Hermitian extension `H` of `s`, where the imaginary parts of the
constant and (for even `n`) the Nyquist entry are ignored (taking the real part of each summand does exactly that; the
other summands come in conjugate pairs). Used in `/repo/sweep_design/defaults/methods.py:327`. -/
noncomputable def irfft (s : List ℂ) (size : Option ℤ) : Except Err (List ℝ) :=
  let n : ℤ := size.getD (2 * ((s.length : ℤ) - 1))
  if n < 1 then .error .value
  else .ok ((List.range n.toNat).map fun j =>
    (∑ k ∈ Finset.range n.toNat,
      (hermitianExt s n.toNat k * exp (2 * Real.pi * I * (j * k : ℕ) / (n.toNat : ℂ))).re) / (n.toNat : ℝ))

/-- `np.fft.rfftfreq(n, d)`: `arange(0, n//2 + 1) * (1 / (n d))`. The callers have `n ≥ 1` and `d ≠ 0`.
Used in `/repo/sweep_design/defaults/methods.py:245-247`. -/
noncomputable def rfftfreq (n : ℕ) (d : ℝ) : List ℝ :=
  (List.range (n / 2 + 1)).map fun k : ℕ => (k : ℝ) * (1 / ((n : ℝ) * d))

/-- `np.angle(z)`: the argument in `(-π, π]`, `0` at `0` (signed zeros are not distinguished).
Used in `/repo/sweep_design/spectrum.py:137`. -/
noncomputable def npAngle (z : ℂ) : ℝ := z.arg

/-- `np.mod(a, b)` for positive `b`. -/
noncomputable def npMod (a b : ℝ) : ℝ := a - b * ⌊a / b⌋

/-- The correction `np.unwrap` adds from one jump `d = p[i+1] - p[i]` (numpy 1.23 `lib/function_base.py`, default
`discont`, `period = 2π`). -/
noncomputable def unwrapCorrect (d : ℝ) : ℝ :=
  let ddmod := npMod (d + Real.pi) (2 * Real.pi) - Real.pi
  let ddmod := if ddmod = -Real.pi ∧ 0 < d then Real.pi else ddmod
  if |d| < Real.pi then 0 else ddmod - d

/-- `np.unwrap(p)`: `up[0] = p[0]`, `up[1:] = p[1:] + cumsum(corrections)`.
Used in `/repo/sweep_design/spectrum.py:137`. -/
noncomputable def unwrap (p : List ℝ) : List ℝ :=
  p.take 1 ++ List.zipWith (· + ·) p.tail (cumsum ((npDiff p).map unwrapCorrect))

end SweepDesign
