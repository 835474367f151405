import Verif.Heap.RefineLibrary
import Verif.Props.HeapGenerator
import Verif.Props.HeapPrepared

/-!
# C119: prepared sweeps, codes and corrections on objects compute what the functions on values compute

C118 says what `get_linear_sweep`, `get_shuffle`, `get_code_zinger_relation`, `get_code_sweep_segments`, `get_relation_m_sequence`,
`get_correction_for_source` and `correct_sweep` change and share. Here: what they return. Whatever happened to the objects before, the
result has the class, axis and values (or the exception) that the value-layer function of `Model/{Prepared,Codes,Correction}` computes
from the current values of the arguments, so C59–C68, C74, C113 and C117 speak about objects.
-/

set_option linter.unusedSectionVars false

namespace SweepDesign

namespace Spec

open Mem

variable {K V : Type}

/-- the entries of a code: the y values of a relation object, the entries of an array object, or a list -/
def codeAt (h : Heap K V) : HCode V → Option (List V)
  | .rel l _ => (valueAt h l).map fun p => p.2.y
  | .arr l _ => h.yarrs[l]?
  | .list y => some y

/-- an array of integers as stored -/
def stored (l : List ℤ) : List ℝ := l.map fun v : ℤ => (v : ℝ)

/-- what a call that returns an object or nothing returned: class, axis fields, y values -/
def outcomeOption (m : HM K V (Option Loc)) (h : Heap K V) : Except Err (Option (Option (Cls × Rel K V))) :=
  (m h).1.map fun l => l.map (valueAt (m h).2)

end Spec

open Mem Spec HM

section
variable {K V : Type} [Field K] [LinearOrder K] [IsStrictOrderedRing K] [FloorRing K]
variable [Field V] [Algebra K V] [Star V] [DecidableEq V] [PyPow V]
variable {T : Transcendental K V} {h : Heap K V} {L : LibPrims K V}

/-- **C119** `get_code_zinger_relation` of a `Relation` or `Spectrum` object -/
theorem C119_zinger (hL : ∀ n x, L.times n x = n * x) (hc : Coh (exactPrims T) h) (r : Loc) (c : Cls) (v : Rel K V)
    (hv : valueAt h r = some (c, v)) (hcl : ¬ SignalClass c) (n : ℤ) :
    outcome (zingerRelation (exactPrims T) L (defaultMethods (exactPrims T)) r n) h = asObject c (getCodeZingerRelation v n) :=
  outcome_of_sim (sim_zingerRelation hL hc (relIs_of_valueAt hv) (by cases c <;> simp_all [SignalClass, Cls.isSignal]) n)

end

section
variable {K : Type} [Field K] [LinearOrder K] [IsStrictOrderedRing K] [FloorRing K] [Star K] [PyPow K]
variable {T : Transcendental K K} {N : SweepNumbers K} {h : Heap K K} {L : LibPrims K K}

local notation "Pm" => exactPrims (SweepNumbers.over N T)
local notation "Dm" => defaultMethods (exactPrims (SweepNumbers.over N T))
local notation "Fm" => formulas T N

theorem codeIs_of {V : Type} {h : Heap K V} {code : HCode V} {y : List V} (hy : codeAt h code = some y) : CodeIs h code y := by
  cases code with
  | rel l f =>
    rw [codeAt, Option.map_eq_some_iff] at hy
    obtain ⟨⟨c, v⟩, hv, e⟩ := hy
    exact ⟨c, v, relIs_of_valueAt hv, e⟩
  | arr l f => exact hy
  | list y' => exact Option.some.inj hy

/-- **C119** `get_code_sweep_segments` of a code (a relation object, an array object or a list) and a plain `Relation` object -/
theorem C119_segments (hL : ∀ n x, L.times n x = n * x) (hc : Coh Pm h) (code : HCode K) (y : List K) (hy : codeAt h code = some y)
    (base : Loc) (v : Rel K K) (hv : valueAt h base = some (.relation, v)) :
    resultOf sweepAt (codeSweepSegments Pm L Dm code base) h = asSweep (getCodeSweepSegments Fm y v) :=
  result_of_sim (sim_codeSweepSegments hL hc (codeIs_of hy) (relIs_of_valueAt hv) rfl (by decide))

end

section
variable {T : Transcendental ℝ ℝ} {N : SweepNumbers ℝ} {h : Heap ℝ ℝ} {q : LibArgs}

local notation "Tm" => SweepNumbers.over N T
local notation "Pm" => exactPrims (SweepNumbers.over N T)
local notation "Dm" => defaultMethods (exactPrims (SweepNumbers.over N T))
local notation "Gm" => exactGen (exactPrims (SweepNumbers.over N T)) N
local notation "Fm" => formulas T N

/-- **C119** `get_linear_sweep` -/
theorem C119_linear (hc : Coh Pm h) (t : HTime ℝ) (a : TimeArg ℝ) (ht : timeAt h t = some a) (fStart fEnd : ℝ) (tapper : Option ℝ) :
    resultOf sweepAt (linearSweep Pm Gm (exactLib q) Dm linearFun onesFun t fStart fEnd tapper) h =
      asSweep (getLinearSweep Fm a fStart fEnd tapper) :=
  result_of_sim (sim_linearSweep hc (timeIs_of ht) fStart fEnd tapper)

/-- **C119** `get_shuffle` -/
theorem C119_shuffle (hc : Coh Pm h) (t : HTime ℝ) (a : TimeArg ℝ) (ht : timeAt h t = some a) (tapper : Option ℝ) :
    resultOf sweepAt (shuffleSweep Pm Gm (exactLib q) Dm linearFun onesFun t tapper) h =
      asSweep (getShuffle Fm a q.fStart q.fEnd q.length q.roundNumber tapper q.shuffle) :=
  result_of_sim (sim_shuffleSweep hc (timeIs_of ht) tapper)

/-- **C119** `get_relation_m_sequence` without a start sequence; an array given as time is converted first -/
theorem C119_m_sequence (hc : Coh Pm h) (t : HTime ℝ) (a : TimeArg ℝ) (ht : timeAt h t = some a) (isFull : Bool) :
    outcome (mSequenceRelation Pm (exactLib q) Dm t none isFull) h =
      asObject .relation (do
        let x ← a.asAxis
        getRelationMSequence q.mls q.rand x isFull) :=
  outcome_of_sim (sim_mSequenceRelation hc (timeIs_of ht) isFull)

/-- **C119** `get_relation_m_sequence` with a start sequence: the relation returned, and the caller's array afterwards -/
theorem C119_m_sequence_from (hc : Coh Pm h) (t : HTime ℝ) (a : TimeArg ℝ) (ht : timeAt h t = some a) (isFull : Bool) (s : Loc)
    (l : List ℤ) (hs : h.yarrs[s]? = some (stored l)) :
    (∀ e, a.asAxis = .error e → outcome (mSequenceRelation Pm (exactLib q) Dm t (some s) isFull) h = .error e ∧
      (mSequenceRelation Pm (exactLib q) Dm t (some s) isFull h).2.yarrs[s]? = some (stored l)) ∧
    (∀ x, a.asAxis = .ok x →
      outcome (mSequenceRelation Pm (exactLib q) Dm t (some s) isFull) h =
        asObject .relation (getRelationMSequenceFrom q.mls x l isFull).1 ∧
      (mSequenceRelation Pm (exactLib q) Dm t (some s) isFull h).2.yarrs[s]? =
        some (stored (getRelationMSequenceFrom q.mls x l isFull).2)) := by
  refine ⟨fun e he => ?_, fun x hx => ?_⟩
  · have k := sim_axisGiven hc (timeIs_of ht)
    rw [he] at k
    have ag := k.agree
    rcases hm : axisGiven Pm t h with ⟨e' | l', h1⟩
    · rw [hm] at ag
      have w := k.le
      rw [hm] at w
      have e1 : mSequenceRelation Pm (exactLib q) Dm t (some s) isFull h = (.error e', h1) := by
        unfold mSequenceRelation
        rw [bind_of_error hm]
      unfold outcome
      rw [e1]
      have : e' = e := ag
      subst this
      exact ⟨rfl, yIs_le w hs⟩
    · rw [hm] at ag; exact ag.elim
  · obtain ⟨k1, k2⟩ := runs_mSequenceFrom (q := q) hc (timeIs_of ht) isFull hs hx
    refine ⟨?_, k2⟩
    unfold outcome asObject
    revert k1
    rcases (mSequenceRelation Pm (exactLib q) Dm t (some s) isFull h).1 with e | m <;>
      rcases (getRelationMSequenceFrom q.mls x l isFull).1 with e' | v <;> intro k1
    · have : e = e' := k1
      subst this; rfl
    · exact k1.elim
    · exact k1.elim
    · obtain ⟨o, ho⟩ := k1
      simp [Except.map, valueAt_of_relIs ho]

/-- **C119** `get_correction_for_source`: the number of passes allowed is `fuel`; nothing is returned if the loop is not finished by
then. The corrected force is of class `Signal`. -/
theorem C119_correction (hc : Coh Pm h) (emd : Emd) (r : Loc) (c : Cls) (v : Rel ℝ ℝ) (hv : valueAt h r = some (c, v))
    (hs : c = .sweep → Derives Tm) (fuel : ℕ) :
    outcomeOption (sourceCorrection Pm (exactLib q) Dm emd r q.corr.reactionMass q.corr.limits.isSome q.corr.limitIteration
        q.corr.windowPercent fuel) h =
      (getCorrectionForSource emd v q.corr fuel).map fun d => d.map fun d => some (Cls.signal, d.2) := by
  have ag := (sim_sourceCorrection (q := q) emd hc (relIs_of_valueAt hv) (fine_of_derives hs) fuel).agree
  unfold outcomeOption
  revert ag
  generalize sourceCorrection Pm (exactLib q) Dm emd r q.corr.reactionMass q.corr.limits.isSome q.corr.limitIteration
    q.corr.windowPercent fuel h = res
  rcases res with ⟨e | l, h'⟩ <;> rcases getCorrectionForSource emd v q.corr fuel with e' | d <;> intro ag
  · have : e = e' := ag
    subst this; rfl
  · exact ag.elim
  · exact ag.elim
  · rcases l with _ | l <;> rcases d with _ | d
    · rfl
    · exact absurd ag id
    · exact absurd ag id
    · obtain ⟨o, ho⟩ := ag
      simp [Except.map, valueAt_of_relIs ho]

/-- **C119** `correct_sweep` -/
theorem C119_correct_sweep (hc : Coh Pm h) (emd : Emd) (r : Loc) (c : Cls) (v : Rel ℝ ℝ) (hv : valueAt h r = some (c, v))
    (hs : c = .sweep → Derives Tm) (startWindow : Option ℝ) :
    outcome (sweepCorrection Pm (exactLib q) Dm emd r startWindow) h = asObject .signal (correctSweep emd v startWindow) :=
  outcome_of_sim (sim_sweepCorrection emd hc (relIs_of_valueAt hv) (fine_of_derives hs) startWindow)

end

/-! ## examples

`heap89` holds one relation, `[1, 2, 3, 4]` at the times 0 to 3. -/

/-- a zinger code of two periods -/
example : outcome (zingerRelation P89 ratLib (defaultMethods P89) 0 2) heap89 =
      .ok (some (.relation, ⟨⟨0, 6, 1⟩, [2, 4, 6, 9, 2, 3, 4]⟩)) ∧
    asObject .relation (getCodeZingerRelation (⟨⟨0, 3, 1⟩, [1, 2, 3, 4]⟩ : Rel ℚ ℚ) 2) =
      .ok (some (.relation, ⟨⟨0, 6, 1⟩, [2, 4, 6, 9, 2, 3, 4]⟩)) := by
  refine ⟨?_, ?_⟩ <;> decide +kernel

/-- a code of two segments, given as a list, as the entries of an array object and as a relation object -/
example : codeAt heap89 (.list [1, -1]) = some [1, -1] ∧ codeAt heap89 (.arr 0 false) = some [1, 2, 3, 4] ∧
    codeAt heap89 (.rel 0 false) = some [1, 2, 3, 4] ∧ valueAt heap89 0 = some (.relation, ⟨⟨0, 3, 1⟩, [1, 2, 3, 4]⟩) ∧
    resultOf sweepAt (codeSweepSegments P89 ratLib (defaultMethods P89) (.list [1, -1]) 0) heap89 =
      .ok (some ⟨⟨⟨0, 7, 1⟩, [1, 2, 3, 4, -1, -2, -3, -4]⟩, ⟨⟨0, 7, 1⟩, [1, 1, 1, 1, 1, 1, 1, 1]⟩,
        ⟨⟨0, 7, 1⟩, [1, 2, 3, 4, 1, 2, 3, 4]⟩, none⟩) := by
  refine ⟨?_, ?_, ?_, ?_, ?_⟩ <;> decide +kernel

/-- the hypotheses over ℝ: a signal object, its axis as the time, an array as the time, and a start sequence -/
example (T : Transcendental ℝ ℝ) :
    let h : Heap ℝ ℝ := ⟨[⟨0, 3, 1, none, none⟩], [], [[1, 2, 3, 4], stored [0, 1]], [mkRelObj .signal noConfig 0 0 none], noConfig⟩
    Coh (exactPrims (realN.over T)) h ∧ valueAt h 0 = some (.signal, ⟨⟨0, 3, 1⟩, [1, 2, 3, 4]⟩) ∧
    timeAt h (.axis 0) = some (.axis ⟨0, 3, 1⟩) ∧ timeAt h (.array [0, 1, 2] false) = some (.array [0, 1, 2] false) ∧
    h.yarrs[1]? = some (stored [0, 1]) := by
  refine ⟨?_, rfl, rfl, rfl, rfl⟩
  intro i a ha
  rcases i with _ | i
  · simp only [List.getElem?_cons_zero, Option.some.injEq] at ha
    subst ha
    exact ⟨fun j hj => by simp at hj, fun d hd => by simp at hd⟩
  · simp at ha

end SweepDesign
