import Verif.Props.HeapSession
import Verif.Props.HeapPrepared

/-!
# C134: counterparts through whole sessions
-/

set_option linter.unusedSectionVars false

namespace SweepDesign.Mem

open HM Spec

variable {K V : Type} {P : Prims K V} {G : GenPrims K V} {L : LibPrims K V} {M : Methods K V} {A B : Set Loc}

/-! ## Machinery: the generators -/

theorem hm_bind_assoc {α β γ : Type} (m : HM K V α) (f : α → HM K V β) (g : β → HM K V γ) :
    (m >>= f) >>= g = m >>= fun a => f a >>= g := funext fun h => bind_assoc_run m f g h

theorem pairs_interpOfRel (r : Loc) : Pairs A B (interpOfRel P r) :=
  (pairs_getRel _).bind fun _ => (pairs_axisValues _).bind fun _ => (pairs_getY _).bind fun _ => (pairs_newY _).bind fun _ => pairs_pure _

theorem pairs_interpOfAxis (t y : Loc) : Pairs A B (interpOfAxis P t y) :=
  (pairs_getY _).bind fun _ => (pairs_newY _).bind fun _ => (pairs_axisValues _).bind fun _ => pairs_pure _

theorem pairs_axisGiven (time : HTime K) : Pairs A B (axisGiven P time) := by
  cases time
  · exact pairs_raise _
  · exact pairs_pure _
  · exact pairs_axisFromArray _ _ _

theorem pairs_timeValues (time : HTime K) : Pairs A B (timeValues P time) := by
  cases time
  · exact pairs_raise _
  · exact pairs_axisValues _
  · exact pairs_pure _

theorem pairs_valuesOf (r : Loc) : Pairs A B (valuesOf r : HM K V (List V)) :=
  ((pairs_getRel _).bind fun _ => pairs_pure _).bind fun _ => pairs_getY _

/-- the contract for `Config.integrate_function_method` -/
def PairGen (G : GenPrims K V) : Prop := ∀ n f t, Pairs ∅ ∅ (G.intFun n f t)

section
variable (hK : PairMethods M)
include hK

theorem pairs_extractDesc (t : Option Loc) (d : PyFun K V) (a : DescArg K V) : Pairs A B (extractDesc P G M t d a) := by
  cases a with
  | absent => exact pairs_pure _
  | given d => exact pairs_pure _
  | rel r => exact pairs_interpOfRel _
  | arr l =>
    cases t with
    | none => exact pairs_raise _
    | some t =>
      refine (pairs_axisSize _).bind fun _ => (pairs_getY _).bind fun _ => ?_
      split
      · exact (pairs_getAxis _).bind fun _ => (pairs_lift _).bind fun _ => (pairs_axisNew _ _ _).bind fun _ =>
          (pairs_axisArray _).bind fun _ => pairs_config.bind fun _ => (hK.interp _ _ _ _).of_empty.bind fun _ => pairs_interpOfAxis _ _
      · exact pairs_interpOfAxis _ _

theorem pairs_genTime (g : ConfigIds) (time : HTime K) : Pairs A B (genTime M g time : HM K V _) := by
  cases time
  · exact pairs_pure _
  · exact pairs_pure _
  · exact (hK.fromArray _ _ _ _).of_empty.bind fun _ => pairs_pure _

theorem pairs_genInit (linear ones : PyFun K V) (time : HTime K) (f a : DescArg K V) : Pairs A B (genInit P G M linear ones time f a) :=
  pairs_config.bind fun _ => (pairs_genTime hK _ _).bind fun _ => (pairs_extractDesc hK _ _ _).bind fun _ =>
    (pairs_extractDesc hK _ _ _).bind fun _ => pairs_pure _

theorem pairs_descOn (d : Desc K V) (t : Loc) : Pairs A B (descOn P G M d t) := by
  unfold descOn
  split
  · exact (pairs_getAxis _).bind fun _ => (pairs_lift _).bind fun _ => (pairs_newX _).bind fun _ => pairs_config.bind fun _ =>
      (hK.interp _ _ _ _).of_empty
  · exact (pairs_axisValues _).bind fun _ => (pairs_lift _).bind fun _ => pairs_newY _

theorem pairs_firstFreq (gen : Gen K V) (t : Loc) : Pairs A B (firstFreq P G M gen t) := by
  unfold firstFreq
  split
  · exact (pairs_descOn hK _ _).bind fun _ => pairs_pure _
  · exact pairs_pure _

theorem pairs_thtOn (hG : PairGen G) (gen : Gen K V) (v : Option Loc) (t : Loc) : Pairs A B (thtOn P G M gen v t) := by
  unfold thtOn
  split
  · exact (hG _ _ _).of_empty.bind fun _ => (pairs_relInit hK _ _ (opposite_none _)).bind fun _ => (pairs_getRel _).bind fun _ =>
      pairs_getY _
  · exact (pairs_relInit hK _ _ (opposite_none _)).bind fun _ => (pairs_relIntegrate hK _).bind fun _ => (pairs_getRel _).bind fun _ =>
      (pairs_getY _).bind fun _ => (pairs_relInit hK _ _ (opposite_none _)).bind fun _ => (pairs_getRel _).bind fun _ => pairs_getY _
  · exact pairs_raise _

theorem pairs_calcTime (gen : Gen K V) (time : HTime K) : Pairs A B (calcTime M gen time) := by
  unfold calcTime
  split
  · exact pairs_pure _
  · exact (hK.fromArray _ _ _ _).of_empty
  · split
    · exact pairs_raise _
    · exact pairs_pure _

theorem pairs_genCall (hG : PairGen G) (gen : Gen K V) (time : HTime K) (c : V) : Pairs A B (genCall P G M gen time c) := by
  refine (pairs_calcTime hK _ _).bind fun t => ?_
  unfold calculate
  exact (pairs_firstFreq hK _ _).bind fun _ => (pairs_descOn hK _ _).bind fun _ => (pairs_relInit hK _ _ (opposite_none _)).bind fun _ =>
    (pairs_descOn hK _ _).bind fun _ => (pairs_getY _).bind fun _ => (pairs_thtOn hK hG _ _ _).bind fun _ =>
    (pairs_lift _).bind fun _ => (pairs_relInit hK _ _ (opposite_none _)).bind fun _ =>
    (pairs_relInit hK _ _ (opposite_none _)).bind fun _ => pairs_sweepInit hK _ _ _ _

theorem pairs_normalise (s ap : Loc) : Pairs A B (normalise P G M s ap) := by
  unfold normalise
  refine (pairs_getNorm hK _).bind fun _ => (pairs_getNorm hK _).bind fun _ => (pairs_lift _).bind fun _ => (pairs_getRel _).bind fun o => ?_
  split
  · exact pairs_raise _
  · exact (pairs_operator hK _ _ _).bind fun a => pairs_update (f := fun o => { o with ampTime := some a }) (fun _ => rfl)
      (fun _ => .inl rfl) (pairs_operator hK _ _ _)

theorem pairs_aprioriCall (hG : PairGen G) (gen : Gen K V) (ap : Loc) (time : HTime K) (c : V) (b : Bool) :
    Pairs A B (aprioriCall P G M gen ap time c b) := by
  unfold aprioriCall
  refine (pairs_genCall hK hG _ _ _).bind fun s => Pairs.bind ?_ fun s' => ?_
  · split
    · exact pairs_normalise hK _ _
    · exact pairs_pure _
  · unfold setAprior
    rw [hm_bind_assoc]
    exact pairs_update (f := fun o => { o with aPrior := some ap }) (fun _ => rfl) (fun _ => .inl rfl) (pairs_pure _)

theorem pairs_aprSignal (y : HYArg V) (time : HTime K) : Pairs A B (aprSignal P M y time) := by
  cases time
  · exact (pairs_npArray _).bind fun _ => pairs_raise _
  · exact pairs_construct hK _ _ _
  · exact pairs_construct hK _ _ _

theorem yields_aprSignal (y : HYArg V) (time : HTime K) : Yields .signal (aprSignal P M y time) := by
  cases time
  · refine Yields.bind fun _ => ?_
    intro h l h' hh
    simp [raise] at hh
  · exact yields_construct (by decide) _ _ _
  · exact yields_construct (by decide) _ _ _

theorem pairs_aprObjects (time : HTime K) (d : AprArg V) : Pairs A B (aprObjects P M time d) := by
  cases d with
  | obj l =>
    refine Pairs.read fun o => ?_
    split
    · rename_i h
      exact (pairs_getSignal hK (.inr ⟨rfl, h⟩) _ _).bind fun _ => pairs_pure _
    split
    · rename_i h
      exact (pairs_getSpectrum hK (.inr ⟨rfl, isSignal_iff.1 h⟩) _ _).bind fun _ => pairs_pure _
    · exact (pairs_construct hK _ _ _).bindSpectrum (yields_construct (by decide) _ _ _) fun _ =>
        (pairs_getSignal hK (Set.mem_insert _ _) _ _).bind fun _ => pairs_pure _
  | other y =>
    exact (pairs_aprSignal hK _ _).bindSignal (yields_aprSignal hK _ _) fun _ =>
      (pairs_getSpectrum hK (Set.mem_insert _ _) _ _).bind fun _ => pairs_pure _

theorem pairs_aprioriInit (linear ones : PyFun K V) {Q : ℕ → Convert K V} (hQ : ∀ n s, Pairs ∅ ∅ (Q n s))
    (time : HTime K) (data : AprArg V) {method : Option (Convert K V)} (hm : ∀ q ∈ method, ∀ s, Pairs ∅ ∅ (q s)) :
    Pairs A B (aprioriInit P G M linear ones Q time data method) := by
  refine pairs_config.bind fun g => (pairs_aprObjects hK _ _).bind fun p => ?_
  have h : Pairs A B (method.getD (Q g.freq2time) p.2) := by
    cases method with
    | none => exact (hQ _ _).of_empty
    | some q => exact (hm q rfl _).of_empty
  exact h.bind fun _ => (pairs_newY _).bind fun _ => (pairs_newY _).bind fun _ => (pairs_genInit hK _ _ _ _ _).bind fun _ => pairs_pure _

/-! ## Machinery: the library functions -/

theorem pairs_sweepOf (hG : PairGen G) (linear ones : PyFun K V) (time : HTime K) (f a : List V) :
    Pairs A B (sweepOf P G L M linear ones time f a) :=
  (pairs_newY _).bind fun _ => (pairs_newY _).bind fun _ => (pairs_genInit hK _ _ _ _ _).bind fun _ => pairs_genCall hK hG _ _ _

theorem pairs_linearSweep (hG : PairGen G) (linear ones : PyFun K V) (time : HTime K) (fs fe : K) (tp : Option K) :
    Pairs A B (linearSweep P G L M linear ones time fs fe tp) :=
  (pairs_timeValues _).bind fun _ => (pairs_lift _).bind fun _ => (pairs_lift _).bind fun _ => pairs_sweepOf hK hG _ _ _ _ _

theorem pairs_shuffleSweep (hG : PairGen G) (linear ones : PyFun K V) (time : HTime K) (tp : Option K) :
    Pairs A B (shuffleSweep P G L M linear ones time tp) :=
  (pairs_axisGiven _).bind fun _ => (pairs_getAxis _).bind fun _ => (pairs_lift _).bind fun _ => (pairs_axisValues _).bind fun _ =>
    (pairs_lift _).bind fun _ => pairs_sweepOf hK hG _ _ _ _ _

theorem pairs_dwellSweep (hG : PairGen G) (linear ones : PyFun K V) {method : Convert K V} (hm : ∀ s, Pairs ∅ ∅ (method s))
    (time : HTime K) (data : AprArg V) (tp : Option K) : Pairs A B (dwellSweep P G L M linear ones method time data tp) := by
  refine (pairs_axisGiven _).bind fun _ => (pairs_aprioriInit hK _ _ (fun _ => hm) _ _ ?_).bind fun _ => (pairs_axisValues _).bind fun _ =>
    (pairs_lift _).bind fun _ => (pairs_construct hK _ _ _).bind fun _ => (pairs_aprioriCall hK hG _ _ _ _ _).bind fun _ =>
    pairs_operator hK _ _ _
  rintro q ⟨⟩
  exact hm

theorem pairs_zingerLoop (r : Loc) (ks : List ℕ) (acc : Loc) : Pairs A B (zingerLoop P L M r ks acc) := by
  induction ks generalizing acc with
  | nil => exact pairs_pure _
  | cons k ks ih =>
    exact (pairs_getRel _).bind fun _ => (pairs_getAxis _).bind fun _ => (pairs_shift hK _ _).bind fun _ =>
      (pairs_operator hK _ _ _).bind fun _ => ih _

theorem pairs_zingerRelation (r : Loc) (n : ℤ) : Pairs A B (zingerRelation P L M r n) := by
  unfold zingerRelation
  split
  · exact pairs_zingerLoop hK _ _ _
  · exact pairs_pure _

theorem pairs_codeEntries (c : HCode V) : Pairs A B (codeEntries c : HM K V (List (PyOperand V))) := by
  cases c
  · exact ((pairs_getRel _).bind fun _ => pairs_pure _).bind fun _ => (pairs_getY _).bind fun _ => pairs_pure _
  · exact (pairs_getY _).bind fun _ => pairs_pure _
  · exact pairs_pure _

theorem pairs_segmentsLoop (base : Loc) (vs : List (PyOperand V)) (n : ℕ) (acc : Loc) : Pairs A B (segmentsLoop P L M base n vs acc) := by
  induction vs generalizing n acc with
  | nil => exact pairs_pure _
  | cons v vs ih =>
    exact (pairs_getRel _).bind fun _ => (pairs_getAxis _).bind fun _ => (pairs_shift hK _ _).bind fun _ =>
      (pairs_operator hK _ _ _).bind fun _ => (pairs_operator hK _ _ _).bind fun _ => ih _ _

theorem pairs_codeSweepSegments (c : HCode V) (base : Loc) : Pairs A B (codeSweepSegments P L M c base) := by
  refine (pairs_codeEntries hK _).bind fun es => ?_
  cases es with
  | nil => exact pairs_raise _
  | cons e es =>
    exact (pairs_operator hK _ _ _).bind fun _ => (pairs_segmentsLoop hK _ _ _ _).bind fun _ => pairs_construct hK _ _ _

theorem pairs_codeRelation (c : HCode V) (base : Loc) : Pairs A B (codeRelation P L M c base) := by
  cases c
  · exact pairs_pure _
  · exact (pairs_getRel _).bind fun _ => (pairs_getAxis _).bind fun _ => (pairs_getY _).bind fun _ => (pairs_axisNew _ _ _).bind fun _ =>
      pairs_construct hK _ _ _
  · exact (pairs_getRel _).bind fun _ => (pairs_getAxis _).bind fun _ => (pairs_axisNew _ _ _).bind fun _ => pairs_construct hK _ _ _

theorem pairs_convolutionSweep {D : ConvCall K V} (hD : ∀ g c r1 r2, Pairs ∅ ∅ (D g c r1 r2)) (c : HCode V) (base : Loc) :
    Pairs A B (convolutionSweep P L M D c base) :=
  (pairs_codeRelation hK _ _).bind fun _ => (pairs_clsConv hK hD _ _ _).bind fun _ =>
    ((pairs_getRel _).bind fun _ => pairs_axisSize _).bind fun _ => (pairs_getRel _).bind fun _ => (pairs_getAxis _).bind fun _ =>
    (pairs_relSelect hK _ _ _).bind fun _ => (pairs_getAxis _).bind fun _ => pairs_shift hK _ _

theorem pairs_fixStartArray (s : Loc) : Pairs A B (fixStartArray L s : HM K V Unit) := by
  refine (pairs_getY _).bind fun y => ?_
  split
  · split
    · exact pairs_raise _
    · exact pairs_of_rels fun h => by unfold pokeY; rfl
  · exact pairs_pure _

theorem pairs_mSequenceRelation (time : HTime K) (s : Option Loc) (b : Bool) : Pairs A B (mSequenceRelation P L M time s b) := by
  refine (pairs_axisGiven _).bind fun _ => (pairs_axisSize _).bind fun _ => (pairs_lift _).bind fun _ =>
    (pairs_givenOr hK _ (pairs_newY _)).bind fun _ => (pairs_fixStartArray hK _).bind fun _ => (pairs_getY _).bind fun _ =>
    (pairs_lift _).bind fun _ => ?_
  split
  · exact (pairs_getAxis _).bind fun _ => (pairs_axisNew _ _ _).bind fun _ => pairs_construct hK _ _ _
  · exact pairs_construct hK _ _ _

theorem pairs_displacement (r : Loc) (m : V) : Pairs A B (displacement P M r m) :=
  (pairs_relIntegrate hK _).bind fun _ => (pairs_relIntegrate hK _).bind fun _ => pairs_operator hK _ _ _

theorem pairs_forceFrom (r : Loc) (m : V) : Pairs A B (forceFrom P M r m) :=
  (pairs_relDiff hK _).bind fun _ => (pairs_relDiff hK _).bind fun _ => pairs_operator hK _ _ _

theorem pairs_allIMFs (r : Loc) (ks : List (List V)) : Pairs A B (allIMFs P M r ks) := by
  induction ks with
  | nil => exact pairs_pure _
  | cons k ks ih =>
    exact (((pairs_getRel _).bind fun _ => pairs_pure _).bind fun _ => (pairs_axisCopy _).bind fun _ => pairs_construct hK _ _ _).bind
      fun _ => ih.bind fun _ => pairs_pure _

theorem pairs_getIMFs (E : List V → Except Err (List (List V))) (r : Loc) : Pairs A B (getIMFs P M E r) :=
  ((pairs_getRel _).bind fun _ => pairs_pure _).bind fun _ => (pairs_getY _).bind fun _ => (pairs_lift _).bind fun _ =>
    pairs_allIMFs hK _ _

theorem pairs_firstOfIMFs (E : List V → Except Err (List (List V))) (r : Loc) : Pairs A B (firstOfIMFs P M E r) := by
  refine (pairs_getIMFs hK _ _).bind fun ls => ?_
  cases ls
  · exact pairs_raise _
  · exact pairs_pure _

theorem pairs_correctionRun (E : List V → Except Err (List (List V))) (c : Cls) (m : V) (lim : Option ℤ) (nt win : Loc)
    (rows : List (V × V)) (fuel cnt : ℕ) : Pairs A B (correctionRun P L M E c m lim nt win rows fuel cnt) := by
  induction fuel generalizing cnt with
  | zero => exact pairs_pure _
  | succ fuel ih =>
    have hs : Pairs A B (correctionStep P L M E c m nt win rows (cnt + 1)) :=
      (pairs_lift _).bind fun _ => (pairs_construct hK _ _ _).bind fun _ => (pairs_displacement hK _ _).bind fun _ =>
        (pairs_firstOfIMFs hK _ _).bind fun _ => (pairs_operator hK _ _ _).bind fun _ => pairs_pure _
    refine hs.bind fun _ => (pairs_valuesOf _).bind fun _ => ?_
    split
    · exact pairs_pure _
    split
    · exact pairs_pure _
    · exact ih _

theorem pairs_nonEmptyOr (p : Loc × Loc) : Pairs A B (nonEmptyOr P p : HM K V Loc) := by
  refine ((pairs_getRel _).bind fun _ => pairs_axisSize _).bind fun _ => ?_
  split <;> exact pairs_pure _

theorem pairs_sourceCorrection (E : List V → Except Err (List (List V))) (r : Loc) (m : V) (b : Bool) (lim : Option ℤ) (pc : K)
    (fuel : ℕ) : Pairs A B (sourceCorrection P L M E r m b lim pc fuel) := by
  refine (pairs_getRel _).bind fun _ => (pairs_axisCopy _).bind fun _ => (pairs_getAxis _).bind fun _ => (pairs_axisSetStart _ _).bind fun _ =>
    (pairs_axisValues _).bind fun _ => (pairs_getAxis _).bind fun _ => (pairs_lift _).bind fun _ => (pairs_construct hK _ _ _).bind fun _ =>
    (pairs_displacement hK _ _).bind fun _ => (pairs_firstOfIMFs hK _ _).bind fun _ => (pairs_operator hK _ _ _).bind fun _ =>
    (pairs_valuesOf _).bind fun _ => (pairs_valuesOf _).bind fun _ => (pairs_lift _).bind fun _ => ?_
  split
  · refine (pairs_correctionRun hK _ _ _ _ _ _ _ _ _).bind fun o => ?_
    cases o
    · exact pairs_pure _
    · exact (pairs_nonEmptyOr hK _).bind fun _ => (pairs_forceFrom hK _ _).bind fun _ => pairs_pure _
  · exact (pairs_forceFrom hK _ _).bind fun _ => pairs_pure _

theorem pairs_windowed (imf : Loc) (xs : List K) (t : Option K) : Pairs A B (windowed P L M imf xs t) := by
  cases t
  · exact pairs_pure _
  · exact (pairs_lift _).bind fun _ => (pairs_construct hK _ _ _).bind fun _ => pairs_operator hK _ _ _

theorem pairs_sweepCorrection (E : List V → Except Err (List (List V))) (r : Loc) (t : Option K) :
    Pairs A B (sweepCorrection P L M E r t) :=
  (pairs_relIntegrate hK _).bind fun _ => (pairs_relIntegrate hK _).bind fun _ => (pairs_getRel _).bind fun _ =>
    (pairs_axisValues _).bind fun _ => (pairs_firstOfIMFs hK _ _).bind fun _ => (pairs_windowed hK _ _ _).bind fun _ =>
    (pairs_relDiff hK _).bind fun _ => pairs_relDiff hK _

end

/-- the contract for everything that can be plugged in -/
structure PairPackage (S : Package K V) : Prop where
  methods : PairMethods S.methods
  conv : PairConvMethods S.conv
  gen : PairGen S.gen
  freq2time : ∀ n s, Pairs ∅ ∅ (S.freq2time n s)

/-- the methods handed over in an action keep it -/
def Act.PairGood : Act K V → Prop
  | .lib (.dwell q _ _ _) => ∀ s, Pairs ∅ ∅ (q s)
  | .newApr _ _ (some q) => ∀ s, Pairs ∅ ∅ (q s)
  | _ => True

theorem pairs_libCall {S : Package K V} (hS : PairPackage S) (c : LibCall K V) (hc : (Act.lib c).PairGood) :
    Pairs A B (c.exec S.prims S.gen S.lib S.methods S.conv S.linear S.ones) := by
  cases c with
  | linear => exact (pairs_linearSweep hS.methods hS.gen _ _ _ _ _ _).bind fun _ => pairs_pure _
  | shuffle => exact (pairs_shuffleSweep hS.methods hS.gen _ _ _ _).bind fun _ => pairs_pure _
  | dwell => exact (pairs_dwellSweep hS.methods hS.gen _ _ hc _ _ _).bind fun _ => pairs_pure _
  | zinger => exact (pairs_zingerRelation hS.methods _ _).bind fun _ => pairs_pure _
  | segments => exact (pairs_codeSweepSegments hS.methods _ _).bind fun _ => pairs_pure _
  | convolution => exact (pairs_convolutionSweep hS.methods hS.conv.convolve _ _).bind fun _ => pairs_pure _
  | mSequence => exact (pairs_mSequenceRelation hS.methods _ _ _).bind fun _ => pairs_pure _
  | correction => exact pairs_sourceCorrection hS.methods _ _ _ _ _ _ _
  | correctSweep => exact (pairs_sweepCorrection hS.methods _ _ _).bind fun _ => pairs_pure _

end SweepDesign.Mem

namespace SweepDesign

open Mem Mem.HM Spec

variable {K V : Type} {S : Package K V}

/-- methods of `Signal` are called on signals and methods of `Spectrum` on spectra, whenever in the session a method is called -/
def Spec.OwnSession (S : Package K V) : List (Act K V) → World K V → Prop
  | [], _ => True
  | a :: as, w => (∀ c, a = .step (.call c) → OwnClass w.heap c) ∧ OwnSession S as (a.run S w)

theorem act_paired (hS : PairPackage S) {a : Act K V} (hg : a.PairGood) {w : World K V} (ho : ∀ c, a = .step (.call c) → OwnClass w.heap c)
    (hp : Paired w.heap) : Paired (a.run S w).heap := by
  have E : ∀ {α : Type} {m : HM K V α}, Pairs ∅ ∅ m → Paired (m w.heap).2 := fun hm =>
    hm.pairs _ hp (fun _ k => k.elim) (fun _ k => k.elim)
  cases a with
  | step s =>
    cases s with
    | call c => exact C87_call hS.methods hS.conv c hp (ho c rfl)
    | edit e => exact (pairs_of_rels (A := ∅) (B := ∅) (edit_rels e)).pairs _ hp (fun _ k => k.elim) (fun _ k => k.elim)
  | lib c => exact E (pairs_libCall hS c hg)
  | decompose => exact E (pairs_getIMFs hS.methods _ _)
  | newGen => exact E (pairs_genInit hS.methods _ _ _ _ _)
  | callGen i t c =>
    unfold Act.run
    dsimp only
    split
    · exact hp
    · exact E (pairs_genCall hS.methods hS.gen _ _ _)
  | newApr t d q =>
    refine E (pairs_aprioriInit hS.methods _ _ hS.freq2time _ _ ?_)
    rintro q ⟨⟩
    exact hg
  | callApr i t c b =>
    unfold Act.run
    dsimp only
    split
    · exact hp
    · exact E (pairs_aprioriCall hS.methods hS.gen _ _ _ _ _)

/-- **C134** Counterparts are of the other kind in every session, so that `get_spectrum` always gives a spectrum and `get_signal` a signal. -/
theorem C134_kinds (hS : GoodPackage S) (hP : PairPackage S) (as : List (Act K V)) (hg : ∀ a ∈ as, a.PairGood) (w : World K V)
    (ho : OwnSession S as w) (hp : Paired w.heap) :
    let h := (runSession S as w).heap
    Paired h ∧
    (∀ s f z k h', SignalAt h s → getSpectrum S.prims S.methods s f z h = (.ok k, h') → SpectrumAt h' k) ∧
    ∀ s f z k h', SpectrumAt h s → getSignal S.prims S.methods s f z h = (.ok k, h') → SignalAt h' k := by
  have key : Paired (runSession S as w).heap := by
    induction as generalizing w with
    | nil => exact hp
    | cons a as ih =>
      exact ih (fun b hb => hg b (List.mem_cons_of_mem _ hb)) _ ho.2 (act_paired hP (hg a List.mem_cons_self) ho.1 hp)
  exact ⟨key, fun s f z k h' hs hr => (C87_returns hS.methods key).1 f z hs hr,
    fun s f z k h' hs hr => (C87_returns hS.methods key).2 f z hs hr⟩

/-- the package as it comes meets the contract -/
theorem pair_asShipped {K : Type} [Field K] [LinearOrder K] [IsStrictOrderedRing K] [FloorRing K] [Star K] [PyPow K]
    {T : Transcendental K K} {N : SweepNumbers K} {L : LibPrims K K} {Q : ℕ → Convert K K} (hQ : ∀ n s, Pairs ∅ ∅ (Q n s)) :
    PairPackage (asShipped T N L Q) where
  methods := pairs_defaultMethods
  conv := (C87_defaults (M := defaultMethods (exactPrims (SweepNumbers.over N T))) pairs_defaultMethods).2
  gen _ _ _ := (pairs_axisValues _).bind fun _ => (pairs_getAxis _).bind fun _ => (pairs_newY _).bind fun _ => pairs_pure _
  freq2time := hQ

/-! ## a session over ℚ -/

/-- the package with the stand-ins over ℚ -/
def package134 : Package ℚ ℚ := asShipped ratT ratN ratLib fun _ => convert118

theorem good_package134 : GoodPackage package134 := good_asShipped fun _ _ =>
  (safe_getRel _).bind fun _ => (safe_axisValues _).bind fun _ => (safe_getY _).bind fun _ => safe_pure _

theorem pair_package134 : PairPackage package134 := pair_asShipped fun _ _ =>
  (pairs_getRel _).bind fun _ => (pairs_axisValues _).bind fun _ => (pairs_getY _).bind fun _ => pairs_pure _

/-- A signal of six samples on axis 0; a generator on a second axis 1 with the y array of the signal as envelope; its first sweep;
the spectrum of the signal. -/
def start134 : List (Act ℚ ℚ) :=
  [.step (.call (.axisNew 0 5 1)), .step (.call (.construct .signal (.axis 0) (.list [1, 4, 2, 0, 3, 5]))),
   .step (.call (.axisNew 0 5 1)), .newGen (.axis 1) .absent (.arr 0), .callGen 0 .none 0, .step (.call (.getSpectrum 0 .none false))]

/-- then: a correction of the signal, a linear sweep, an a-priori generator made from the signal and called, a code of the signal, a
decomposition, the end of axis 0 moved, the y array of the signal overwritten, other methods in Config, and the first generator called
again -/
def rest134 : List (Act ℚ ℚ) :=
  [.lib (.correctSweep halves 0 (some 1)), .lib (.linear (.axis 0) 1 5 none), .newApr (.axis 1) (.obj 0) none, .callApr 0 .none 0 true,
   .lib (.zinger 0 2), .decompose halves 0, .step (.edit (.setStop 0 9)), .step (.edit (.pokeY 0 fun y => y.map fun _ => 7)),
   .step (.edit (.setConfig ⟨1, 1, 1, 1, 1, 1, 1, 1, 1, 1, 1, 1, 1, 1, 1, 1⟩)), .callGen 0 .none 0]

def world134 : World ℚ ℚ := runSession package134 start134 (newWorld ℚ ℚ)
def after134 : World ℚ ℚ := runSession package134 rest134 world134

/-- the session meets the hypotheses above: it assigns to axis 0 and writes into array 0 only, and asks for no other frequency -/
theorem hyps134 : (∀ a ∈ rest134, a.Good package134.prims) ∧ (∀ a ∈ rest134, a.PairGood) ∧ (∀ a ∈ rest134, NoXWrites a) ∧
    (∀ a ∈ rest134, Confined {0} {0} ∅ a) ∧ (∀ s, ∀ a ∈ rest134, KeepsCache s a) ∧ OwnSession package134 rest134 world134 := by
  refine ⟨?_, ?_, ?_, ?_, ?_, ?_⟩
  · simp [rest134, Act.Good, LibCall.Good]
  · simp [rest134, Act.PairGood]
  · simp [rest134, NoXWrites]
  · simp [rest134, Confined, within]
  · simp [rest134, KeepsCache, leavesCache]
  · simp [rest134, OwnSession]

/-- Before: signal 0 with its spectrum 5, the sweep 4 on axis 1. After it, 72 objects more: signal and spectrum still have each
other, the sweep has its data, and the last sweep (77) has the same data although array 0 is overwritten; the signal itself, whose axis
was moved by hand, is broken; Config is the one assigned. -/
example :
    world134.heap.rels.length = 6 ∧ after134.heap.rels.length = 78 ∧ after134.gens.length = 1 ∧ after134.aprs.length = 1 ∧
    [0, 5].map (counterpartAt after134.heap) = [some 5, some 0] ∧
    dataAt package134.prims after134.heap 5 = dataAt package134.prims world134.heap 5 ∧
    (dataAt package134.prims after134.heap 5).toOption.isSome = true := by
  decide +kernel

example :
    dataAt package134.prims world134.heap 4 = .ok (some [0, 1, 2, 3, 4, 5], some [0, 2, 4, 0, 24, 125 / 2]) ∧
    dataAt package134.prims after134.heap 4 = dataAt package134.prims world134.heap 4 ∧
    dataAt package134.prims after134.heap 77 = dataAt package134.prims world134.heap 4 ∧
    (partsAt after134.heap 77).map Prod.fst = some .sweep ∧
    after134.heap.yarrs[0]? = some [7, 7, 7, 7, 7, 7] ∧
    dataAt package134.prims after134.heap 0 = .error (.notEqual 10 6) ∧
    after134.heap.config.interp = 1 := by
  decide +kernel

end SweepDesign
