import Verif.Model.Sweep
import Verif.Model.Spectral
import Verif.Py.Pow

/-!
# Model of the a-priori part of `/repo/sweep_design/defaults/sweep_methods.py`, of
`/repo/sweep_design/utility_functions/ftat_functions.py` and of `ApriorUncalculatedSweep`
(`/repo/sweep_design/uncalculated_sweep.py:190-271`)

The array computations are over any field; what starts from a complex spectrum is over ℝ and ℂ.
-/

namespace SweepDesign

section
variable {K : Type} [Field K] [LinearOrder K]

/-- `a / b` entrywise on arrays, as in `ftat_functions.py:23`; a zero divisor is not finite. -/
def npDiv (a b : List K) : Except Err (List K) :=
  if 0 ∈ b then .error .nonFinite else .ok (List.zipWith (· / ·) a b)

/-- `np.append([0.0], ((n[1:] + n[:-1]) / (f[1:] - f[:-1])).cumsum())` (`sweep_methods.py:38-41`,
`ftat_functions.py:22-23`); `f` and `n` have the same length. -/
def freqToTime (f n : List K) : Except Err (List K) := do
  let d ← npDiv (List.zipWith (· + ·) n.tail n) (npDiff f)
  pure (0 :: cumsum d)

/-- the entries of `a` at the places where `f` satisfies `p`: `a[p(f)]`, as in `ftat_functions.py:49-57` -/
def maskBy (p : K → Bool) (f a : List K) : List K := ((f.zip a).filter fun q => p q.1).map Prod.snd

/-- `freq[1:] / freq[:-1]`, with 1 where the divisor is zero (`ftat_functions.py:51-53`) -/
def freqRatio (freq : List K) : List K :=
  List.zipWith (fun b a => if a ≠ 0 then b / a else 1) freq.tail freq

/-- the cutoff `fc if fc else f[0]` (`ftat_functions.py:47`) -/
def cutoff (fc : Option K) (f : List K) : Except Err K :=
  match fc with
  | some c => if c ≠ 0 then .ok c else f.head?.elim (.error .index) .ok
  | none => f.head?.elim (.error .index) .ok

/-- `freq2time` of `dwell` on the selected frequencies and amplitudes (`ftat_functions.py:47-63`). -/
def dwellArrays (fc : Option K) (f a : List K) : Except Err (List K × List K × List K) := do
  let c ← cutoff fc f
  let freq := f.filter fun v => v ≤ c
  let ratio := freqRatio freq
  let inv ← npDiv (List.replicate ratio.length 1) (ratio.map fun r => r ^ 4)
  let dur := cumprod inv
  let energy := (maskBy (fun v => v ≤ c) f a).dropLast.map fun v => v ^ 2
  let nT := cumsum (0 :: List.zipWith (· * ·) dur energy)
  match dur.getLast?, nT.getLast? with
  | some d, some l =>
    let nT2 := cumsum (l :: (maskBy (fun v => decide (c < v)) f a).map fun v => d * v ^ 2)
    let at' := cumprod (1 :: ratio.map fun r => r ^ 2)
    pure (nT ++ nT2.tail, f, at' ++ List.replicate (a.length - at'.length) (at'.getLastD 1))
  | _, _ => .error .index

end

noncomputable section

/-- `math.sqrt`, called in `ftat_functions.py:25` and `uncalculated_sweep.py:266` -/
def mathSqrt (v : ℝ) : Except Err ℝ := if v < 0 then .error .value else .ok (Real.sqrt v)

/-- `simple_freq2time` (`sweep_methods.py:21-44`). -/
def simpleFreq2time (s : Rel ℝ ℂ) : Except Err (List ℝ × List ℝ × List ℝ) := do
  let amp ← s.getAmpSpectrum
  let f ← amp.x.array
  let t ← freqToTime f (amp.y.map fun v => v ^ 2)
  let c ← amp.getNorm
  pure (t, f, List.replicate t.length c)

/-- `proportional_freq2time` (`ftat_functions.py:11-26`). -/
def proportionalFreq2time (s : Rel ℝ ℂ) : Except Err (List ℝ × List ℝ × List ℝ) := do
  let amp ← s.getAmpSpectrum
  let (f, a) ← amp.getData
  let n := a.map fun v => v ^ 2
  let t ← freqToTime f n
  let c ← mathSqrt (trapz n f * 2)
  pure (t, f, List.replicate t.length c)

/-- the function returned by `dwell` (`ftat_functions.py:29-65`). -/
def dwell (fStart fEnd fc : Option ℝ) (s : Rel ℝ ℂ) : Except Err (List ℝ × List ℝ × List ℝ) := do
  let sel ← s.selectData fStart fEnd
  let amp ← sel.getAmpSpectrum
  let (f, a) ← amp.getData
  dwellArrays fc f a

/-- a-priori data: a `Spectrum`, a `Signal`, a `Relation` of neither class, an array, or nothing
(`sweep_methods.py:155-166`) -/
inductive AprData
  | spectrum (s : Rel ℝ ℂ)
  | signal (s : Rel ℝ ℝ)
  | relation (r : Rel ℝ ℂ)
  | array (l : List ℝ)
  | none

/-- `get_info_from_a_prior_data` (`sweep_methods.py:130-170`) with `convert_freq2time` (`105-127`) for a `time` that is
no relation: a relation passed as `time` cannot be converted to an axis by the constructor afterwards (`np.array` of a
relation asks for its items `0, 1, 2, …` and never ends). -/
def aprInfo (time : TimeArg ℝ) (data : AprData) (method : Rel ℝ ℂ → Except Err (List ℝ × List ℝ × List ℝ)) :
    Except Err (InterpArr ℝ × InterpArr ℝ × Rel ℝ ℝ) := do
  let (sig, spec) ← (match data with
    | .spectrum s => do
      let sig ← s.getSignal
      pure (sig, s)
    | .signal s => do
      let spec ← s.getSpectrum
      pure (s, spec)
    | .relation r => do
      let sig ← r.getSignal
      pure (sig, r)
    | .array l => do
      let sig ← (match time with
        | .none => .error .value
        | .axis a => Rel.init (.axis a) (some l)
        | .array x isFloat => Rel.init (.array x isFloat) (some l) : Except Err (Rel ℝ ℝ))
      let spec ← sig.getSpectrum
      pure (sig, spec)
    | .none => .error .badInput : Except Err (Rel ℝ ℝ × Rel ℝ ℂ))
  let (t, f, a) ← method spec
  pure (⟨t, f⟩, ⟨t, a⟩, sig)

/-- `ApriorUncalculatedSweep` (`uncalculated_sweep.py:191`) -/
structure AprSweep where
  base : UncalculatedSweep ℝ
  aPrior : Rel ℝ ℝ

/-- `ApriorUncalculatedSweep.__init__` (`uncalculated_sweep.py:207-237`). -/
def AprSweep.init (time : TimeArg ℝ) (data : AprData) (method : Rel ℝ ℂ → Except Err (List ℝ × List ℝ × List ℝ)) :
    Except Err AprSweep := do
  let (f, a, sig) ← aprInfo time data method
  let base ← UncalculatedSweep.init time (.interp f) (.interp a)
  pure ⟨base, sig⟩

/-- `ApriorUncalculatedSweep.__call__` (`uncalculated_sweep.py:239-271`). The scaled `amplitude_time` is computed and lost:
`sweep *= norm` makes a new sweep. -/
def AprSweep.call (P : SweepPrims ℝ) (u : AprSweep) (time : TimeArg ℝ) (tht0 : ℝ) (isNormalize : Bool) :
    Except Err (Sweep ℝ) := do
  let sweep ← u.base.call P time tht0
  if isNormalize then
    let normSweep ← sweep.getNorm P
    let normAPrior ← u.aPrior.getNorm
    let a ← mathSqrt normAPrior
    let b ← mathSqrt normSweep
    if b = 0 then .error .zeroDivision
    else
      let norm := a / b
      let _ ← sweep.amplitudeTime.mul (.other (.num norm))
      let sweep' ← sweep.operation P (.other (.num norm)) .mul
      pure { sweep' with aPriorSignal := some u.aPrior }
  else pure { sweep with aPriorSignal := some u.aPrior }

end

end SweepDesign
