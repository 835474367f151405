import Verif.Model.Sweep
import Mathlib.Analysis.SpecialFunctions.Trigonometric.Basic

/-!
# Model of `/repo/sweep_design/utility_functions/{f_t,a_t}.py` and of the sweeps prepared in
`/repo/sweep_design/prepared_sweeps/{linear_sweep,pseudorandom_shuffle}.py`

What uses `np.cos` is stated over the real numbers.
-/

namespace SweepDesign

section
variable {K : Type} [Field K] [LinearOrder K] [IsStrictOrderedRing K] [FloorRing K]

/-- The function returned by `f_t_linear_function` on a number (`f_t.py:6-22`). -/
def ftLinear (timeStart timeEnd fStart fEnd t : K) : Except Err K :=
  if timeEnd - timeStart = 0 then .error .zeroDivision
  else .ok (t * (fEnd - fStart) / (timeEnd - timeStart) + fStart)

/-- `f_t_linear_array` (`f_t.py:25-39`); numpy division by zero is not finite. -/
def ftLinearArray (time : List K) (fStart fEnd : K) : Except Err (List K) :=
  match time.head?, time.getLast? with
  | some a, some b =>
    if b - a = 0 then .error .nonFinite
    else .ok (time.map fun t => t * (fEnd - fStart) / (b - a) + fStart)
  | _, _ => .error .index

end

noncomputable section

/-- `location` of `tukey_a_t` (`a_t.py:7`); any other string is `other`. -/
inductive Location
  | left
  | right
  | both
  | other
  deriving DecidableEq, Repr

/-- `scipy.signal.windows.hann(M)`: `0.5 + 0.5 * cos(linspace(-pi, pi, M))`, ones for `M <= 1`. -/
def hann (m : ℕ) : List ℝ :=
  if m ≤ 1 then List.replicate m 1
  else (linspace (-Real.pi) Real.pi m).map fun v => 1 / 2 + 1 / 2 * Real.cos v

/-- `scipy.signal.windows.tukey(M, alpha)`. -/
def tukey (m : ℕ) (alpha : ℝ) : List ℝ :=
  if m ≤ 1 then List.replicate m 1
  else if alpha ≤ 0 then List.replicate m 1
  else if 1 ≤ alpha then hann m
  else
    let width : ℕ := ⌊alpha * ((m : ℝ) - 1) / 2⌋₊
    ((List.range m).take (width + 1)).map
        (fun n : ℕ => 1 / 2 * (1 + Real.cos (Real.pi * (-1 + 2 * (n : ℝ) / alpha / ((m : ℝ) - 1))))) ++
      ((((List.range m).take (m - width - 1)).drop (width + 1)).map fun _ => 1) ++
      ((List.range m).drop (m - width - 1)).map
        (fun n : ℕ => 1 / 2 * (1 + Real.cos (Real.pi * (-2 / alpha + 1 + 2 * (n : ℝ) / alpha / ((m : ℝ) - 1)))))

/-- the fraction of tapered samples (`a_t.py:36-39`); the middle sample of an empty array raises -/
def tapper (time : List ℝ) (timeTapper : ℝ) : Except Err ℝ :=
  match time[time.length / 2]? with
  | none => .error .index
  | some v =>
    if timeTapper ≤ v then .ok (((time.filter fun t => t ≤ timeTapper).length : ℝ) * 2 / (time.length : ℝ))
    else .ok 1

/-- `tukey_a_t` (`a_t.py:10-56`). -/
def tukeyAT (time : List ℝ) (timeTapper : Option ℝ) (location : Location) : Except Err (List ℝ) :=
  match timeTapper with
  | none => .ok (List.replicate time.length 1)
  | some tt => do
    let alpha ← tapper time tt
    let result := tukey time.length alpha
    let half := result.take (time.length / 2) ++ List.replicate (time.length - time.length / 2) 1
    pure (match location with
      | .both => result
      | .left => half
      | .right => half.reverse
      | .other => List.replicate time.length 1)

/-- `time if isinstance(time, np.ndarray) else time.array` (`linear_sweep.py:18`); `None` has no `array` (an
`AttributeError`, here `typeError`). -/
def TimeArg.timeArray : TimeArg ℝ → Except Err (List ℝ)
  | .none => .error .typeError
  | .axis a => a.array
  | .array l _ => .ok l

/-- `get_linear_sweep` (`linear_sweep.py:11-24`). -/
def getLinearSweep (P : SweepPrims ℝ) (time : TimeArg ℝ) (fStart fEnd : ℝ) (timeTapper : Option ℝ) :
    Except Err (Sweep ℝ) := do
  let timeArray ← time.timeArray
  let ft ← ftLinearArray timeArray fStart fEnd
  let at' ← tukeyAT timeArray timeTapper .both
  let u ← UncalculatedSweep.init time (.array ft) (.array at')
  u.call P .none 0

/-- `np.round(x, decimals)` in exact arithmetic: half to even at the given decimal. -/
def npRound (decimals : ℤ) (x : ℝ) : ℝ := (pyRound (x * (10 : ℝ) ^ decimals) : ℝ) / (10 : ℝ) ^ decimals

/-- `math.ceil(time.end / length)` (`pseudorandom_shuffle.py:39`) -/
def nSegments (stop length : ℝ) : Except Err ℤ :=
  if length = 0 then .error .zeroDivision else .ok ⌈stop / length⌉

/-- the segment frequencies (`pseudorandom_shuffle.py:39-48`); `round_number_frequency = 0` counts as absent; a negative
number of points raises -/
def segmentFrequencies (stop fStart fEnd length : ℝ) (roundNumber : Option ℤ)
    (shuffle : List ℝ → List ℝ) : Except Err (List ℝ) := do
  let n ← nSegments stop length
  if n + 1 < 0 then .error .value
  else
    let f := linspace fStart fEnd (n + 1).toNat
    pure (shuffle (match roundNumber with
      | none => f
      | some 0 => f
      | some k => f.map (npRound k)))

/-- the rising half-cosine of one segment (`pseudorandom_shuffle.py:50-55`) -/
def risingCos (length sample : ℝ) : Except Err (List ℝ) :=
  if sample = 0 then .error .zeroDivision
  else
    let n := ⌈length / sample⌉ + 1
    if n < 0 then .error .value
    else .ok ((linspace 0 length n.toNat).map fun x => Real.cos (x * Real.pi / length - Real.pi) / 2 + 1 / 2)

/-- the frequencies from segment to segment (`pseudorandom_shuffle.py:56-58`) -/
def joinSegments (myCos : List ℝ) : List ℝ → List ℝ
  | f1 :: f2 :: l => (myCos.map fun c => c * (f2 - f1) + f1).drop 1 ++ joinSegments myCos (f2 :: l)
  | _ => []

/-- `get_shuffle` after the conversion of `time` to an axis (`pseudorandom_shuffle.py:32-58`): the frequency
description. `random.shuffle` is the parameter `shuffle`. -/
def shuffleFrequency (time : Axis ℝ) (fStart fEnd length : ℝ) (roundNumber : Option ℤ)
    (shuffle : List ℝ → List ℝ) : Except Err (List ℝ) :=
  if time.sample ≥ length then .error .segmentSmaller
  else do
    let f ← segmentFrequencies time.stop fStart fEnd length roundNumber shuffle
    let myCos ← risingCos length time.sample
    let ft := joinSegments myCos f
    pure (ft.take (ft.length - 2))

/-- `get_shuffle` (`pseudorandom_shuffle.py:17-63`). -/
def getShuffle (P : SweepPrims ℝ) (time : TimeArg ℝ) (fStart fEnd length : ℝ) (roundNumber : Option ℤ)
    (timeTapper : Option ℝ) (shuffle : List ℝ → List ℝ) : Except Err (Sweep ℝ) := do
  let t ← time.toAxis
  match t with
  | none => .error .value
  | some t => do
    let ft ← shuffleFrequency t fStart fEnd length roundNumber shuffle
    let l ← t.array
    let at' ← tukeyAT l timeTapper .both
    let u ← UncalculatedSweep.init (.axis t) (.array ft) (.array at')
    u.call P .none 0

end

end SweepDesign
