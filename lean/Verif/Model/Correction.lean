import Verif.Model.Prepared
import Verif.Py.Pow

/-!
# Model of `/repo/sweep_design/utility_functions/source_sweep_correction.py`, `sweep_correction.py` and of
`get_IMFs_emd` (`emd_analyze.py:85-104`)

The decomposition `EMD()` is a parameter `emd`: an array of values to a list of arrays (or an exception). `signal` is of
class `Signal`.
-/

namespace SweepDesign

noncomputable section

/-- `factor ** coefficient * value` (`source_sweep_correction.py:27`, `33-34`), not finite if the power is not -/
def softScale (factor coefficient : ℝ) (d : ℝ × ℝ) : Except Err (ℝ × ℝ) :=
  match PyPow.ppow factor coefficient with
  | some f => .ok (d.1, f * d.2)
  | none => .error .nonFinite

/-- `select_choice` inside `soft_clip` (`source_sweep_correction.py:18-34`). -/
def softClipRow (limits percent coefficient : ℝ) (d : ℝ × ℝ) : Except Err (ℝ × ℝ) :=
  let hardLimit := limits
  let linearLimit := limits * percent
  let amplitude := |d.1|
  if amplitude ≤ linearLimit then .ok (d.1, d.2)
  else if hardLimit ≤ amplitude then
    if amplitude = 0 then .error .nonFinite
    else softScale (hardLimit / amplitude) coefficient d
  else
    let scale := hardLimit - linearLimit
    let compression := scale * Real.sin (Real.pi / 2 * (amplitude - linearLimit) / scale)
    if amplitude = 0 then .error .nonFinite
    else softScale ((linearLimit + compression) / amplitude) coefficient d

/-- `soft_clip` (`source_sweep_correction.py:11-36`) on the rows of a two-column array; `np.apply_along_axis` raises
`ValueError` if there is no row. -/
def softClip (data : List (ℝ × ℝ)) (limits percent coefficient : ℝ) : Except Err (List (ℝ × ℝ)) :=
  if data = [] then .error .value else data.mapM (softClipRow limits percent coefficient)

/-- `soft_clip` applied `n` times (`source_sweep_correction.py:106-111`) -/
def softClipTimes (limits percent coefficient : ℝ) : ℕ → List (ℝ × ℝ) → Except Err (List (ℝ × ℝ))
  | 0, data => .ok data
  | n + 1, data => do
    let data ← softClip data limits percent coefficient
    softClipTimes limits percent coefficient n data

/-- the decomposition of an array into arrays (`emd_analyze.py:80`, `102`) -/
abbrev Emd := List ℝ → Except Err (List (List ℝ))

/-- `get_IMFs_emd` (`emd_analyze.py:85-104`); every IMF gets a copy of the axis. -/
def getIMFsEmd (emd : Emd) (data : Rel ℝ ℝ) : Except Err (List (Rel ℝ ℝ)) := do
  let imfs ← emd data.y
  imfs.mapM fun k => Rel.make data.x k

/-- `get_IMFs_emd(data)[0]` (`source_sweep_correction.py:95-96`, `115-117`) -/
def firstIMF (emd : Emd) (data : Rel ℝ ℝ) : Except Err (Rel ℝ ℝ) := do
  let imfs ← getIMFsEmd emd data
  match imfs with
  | [] => .error .index
  | r :: _ => .ok r

/-- `force.integrate().integrate() / reaction_mass` (`source_sweep_correction.py:92`, `114`) -/
def displacementOf (force : Rel ℝ ℝ) (reactionMass : ℝ) : Except Err (Rel ℝ ℝ) := do
  let a ← force.integrate
  let b ← a.integrate
  b.truediv (.other (.num reactionMass))

/-- The arguments of `get_correction_for_source` but the signal (`source_sweep_correction.py:41-46`). -/
structure CorrArgs where
  reactionMass : ℝ
  limits : Option ℝ
  limitsPercent : ℝ
  limitIteration : Option ℤ
  windowPercent : ℝ
  coefficientFunction : ℕ → ℝ

/-- One pass of the loop (`source_sweep_correction.py:104-117`): the windowed displacement after pass number `cnt`. The IMF
has an axis of its own, so `equalize` never sees one shared axis object. -/
def correctionPass (emd : Emd) (c : CorrArgs) (limits : ℝ) (newTime : Axis ℝ) (window : Rel ℝ ℝ) (dArray : List (ℝ × ℝ))
    (cnt : ℕ) : Except Err (Rel ℝ ℝ) := do
  let result ← softClipTimes limits c.limitsPercent (c.coefficientFunction cnt) cnt dArray
  let force ← Rel.make newTime (result.map Prod.snd)
  let newDisplacement ← displacementOf force c.reactionMass
  let imf ← firstIMF emd newDisplacement
  imf.mul (.rel false window)

/-- The loop (`source_sweep_correction.py:102-123`) with a bound `fuel` on the number of passes made here: `none` if the
loop is still running after that many passes; otherwise the number of the last pass and its displacement. -/
def correctionLoop (pass : ℕ → Except Err (Rel ℝ ℝ)) (limits : ℝ) (limitIteration : Option ℤ) :
    (fuel cnt : ℕ) → Except Err (Option (ℕ × Rel ℝ ℝ))
  | 0, _ => .ok none
  | fuel + 1, cnt => do
    let d ← pass (cnt + 1)
    if ∀ v ∈ d.y, |v| < limits then pure (some (cnt + 1, d))
    else if (∃ k, limitIteration = some k ∧ (cnt : ℤ) + 1 + 1 > k) then pure (some (cnt + 1, d))
    else correctionLoop pass limits limitIteration fuel (cnt + 1)

/-- `displacement.diff().diff() * reaction_mass` (`source_sweep_correction.py:127`) -/
def forceOf (displacement : Rel ℝ ℝ) (reactionMass : ℝ) : Except Err (Rel ℝ ℝ) := do
  let a ← displacement.diff
  let b ← a.diff
  b.mul (.other (.num reactionMass))

/-- `get_correction_for_source` (`source_sweep_correction.py:39-127`): the number of passes of the loop and the result;
`none` if the loop is not finished after `fuel` passes. `np.vstack` raises `ValueError` for arrays of different lengths. In
`new_displacement or imfs[0]` a relation is false only if its axis has no points, which no axis has (C02); so the right
operand is taken only if the loop is not entered. -/
def getCorrectionForSource (emd : Emd) (signal : Rel ℝ ℝ) (c : CorrArgs) (fuel : ℕ) :
    Except Err (Option (ℕ × Rel ℝ ℝ)) := do
  let newTime := { signal.x with start := signal.x.start + 2 * signal.x.sample }
  let t ← newTime.array
  let w ← tukeyAT t (some (newTime.stop * c.windowPercent)) .left
  let window ← Rel.make newTime w
  let displacement ← displacementOf signal c.reactionMass
  let imf ← firstIMF emd displacement
  let imf0 ← imf.mul (.rel false window)
  let inner := signal.y.tail.dropLast
  if imf0.y.length ≠ inner.length then .error .value
  else
    let dArray := imf0.y.zip inner
    match c.limits with
    | none => do
      let f ← forceOf imf0 c.reactionMass
      pure (some (0, f))
    | some limits => do
      let out ← correctionLoop (correctionPass emd c limits newTime window dArray) limits c.limitIteration fuel 0
      match out with
      | none => pure none
      | some (p, d) => do
        let f ← forceOf d c.reactionMass
        pure (some (p, f))

/-- `correct_sweep` (`sweep_correction.py:6-37`). -/
def correctSweep (emd : Emd) (signal : Rel ℝ ℝ) (startWindow : Option ℝ) : Except Err (Rel ℝ ℝ) := do
  let a ← signal.integrate
  let displacement ← a.integrate
  let x ← displacement.x.array
  let imf ← firstIMF emd displacement
  let newDisplacement ← (match startWindow with
    | some tt => do
      let w ← tukeyAT x (some tt) .left
      let ws ← Rel.init (.array x true) (some w)
      imf.mul (.rel false ws)
    | none => pure imf : Except Err (Rel ℝ ℝ))
  let b ← newDisplacement.diff
  b.diff

end

end SweepDesign
