import Verif.Heap.Own

/-!
# Heap layer: which relation objects a call may touch

`Only S m` ("touches only `S`"): running `m` leaves every existing relation object outside `S` exactly as it is, including its cached
counterpart.
-/

set_option linter.unusedSectionVars false

namespace SweepDesign.Mem

open HM

variable {K V : Type} {P : Prims K V} {M : Methods K V} {C : ConvMethods K V} {S : Set Loc} {α β : Type}

/-- existing relation objects outside `S` stay as they are -/
def Only (S : Set Loc) (m : HM K V α) : Prop := ∀ h l o, h.rels[l]? = some o → l ∉ S → (m h).2.rels[l]? = some o

theorem Only.mono {S' : Set Loc} {m : HM K V α} (hm : Only S m) (hs : S ⊆ S') : Only S' m :=
  fun h l o ho hl => hm h l o ho fun k => hl (hs k)

theorem Only.of_empty {m : HM K V α} (hm : Only ∅ m) : Only S m := hm.mono (Set.empty_subset _)

theorem Only.bind {m : HM K V α} {f : α → HM K V β} (hm : Only S m) (hf : ∀ a, Only S (f a)) : Only S (m >>= f) := by
  intro h l o ho hl
  have k := hm h l o ho hl
  rcases hr : m h with ⟨e | a, h1⟩
  · rw [bind_of_error hr]; rw [hr] at k; exact k
  · rw [bind_of_ok hr]; rw [hr] at k; exact hf a h1 l o k hl

/-- bind on a new relation, which the continuation may modify -/
theorem Only.bindR {m : HM K V Loc} {f : Loc → HM K V β} (hm : Only S m) (hr : FreshR m)
    (hf : ∀ a, Only (insert a S) (f a)) : Only S (m >>= f) := by
  intro h l o ho hl
  have k := hm h l o ho hl
  rcases hk : m h with ⟨e | a, h1⟩
  · rw [bind_of_error hk]; rw [hk] at k; exact k
  · rw [bind_of_ok hk]; rw [hk] at k
    refine hf a h1 l o k ?_
    rintro (rfl | h2)
    · exact absurd (List.getElem?_eq_some_iff.1 ho).1 (Nat.not_lt.2 (hr h l h1 hk))
    · exact hl h2

theorem OwnM.freshR {m : HM K V Loc} (hm : OwnM m) : FreshR m := by
  intro h l h' hh
  obtain ⟨o, ho⟩ := hm h l h' hh
  exact ho.isNew

/-- the relations are not touched at all -/
theorem only_of_rels {m : HM K V α} (hm : ∀ h, (m h).2.rels = h.rels) : Only S m := by
  intro h l o ho _
  rw [hm]; exact ho

theorem only_pure (a : α) : Only S (pure a : HM K V α) := only_of_rels fun _ => rfl

theorem only_raise (e : Err) : Only S (raise e : HM K V α) := only_of_rels fun _ => rfl

theorem only_lift (x : Except Err α) : Only S (lift x : HM K V α) := only_of_rels fun _ => rfl

theorem only_config : Only S (config : HM K V ConfigIds) := only_of_rels fun _ => rfl

theorem only_getAxis (l : Loc) : Only S (getAxis l : HM K V (AxisObj K)) :=
  only_of_rels fun h => by unfold getAxis; split <;> rfl

theorem only_getX (l : Loc) : Only S (getX l : HM K V (List K)) := only_of_rels fun h => by unfold getX; split <;> rfl

theorem only_getY (l : Loc) : Only S (getY l : HM K V (List V)) := only_of_rels fun h => by unfold getY; split <;> rfl

theorem only_getRel (l : Loc) : Only S (getRel l : HM K V RelObj) := only_of_rels fun h => by unfold getRel; split <;> rfl

theorem only_newX (x : List K) : Only S (newX x : HM K V Loc) := only_of_rels fun _ => rfl

theorem only_newY (y : List V) : Only S (newY y : HM K V Loc) := only_of_rels fun _ => rfl

theorem only_newAxis (a : AxisObj K) : Only S (newAxis a : HM K V Loc) := only_of_rels fun _ => rfl

theorem only_putAxis (l : Loc) (a : AxisObj K) : Only S (putAxis l a : HM K V Unit) := only_of_rels fun _ => rfl

theorem only_newRel (r : RelObj) : Only S (newRel r : HM K V Loc) := fun _ _ _ ho _ => getElem?_append_some ho

theorem only_putRel {l : Loc} (hl : l ∈ S) (r : RelObj) : Only S (putRel l r : HM K V Unit) := by
  intro h i o ho hi
  show (h.rels.set l r)[i]? = _
  have hne : l ≠ i := fun e => hi (e ▸ hl)
  rw [List.getElem?_set_ne hne]
  exact ho

theorem only_deepcopy (r : Loc) : Only S (deepcopy r : HM K V Loc) := by
  intro h l o ho _
  unfold deepcopy
  split
  · exact ho
  · exact getElem?_append_some ho

/-- one step of a proof of `Only` -/
macro "only_steps" : tactic => `(tactic| repeat (with_reducible first
  | exact only_pure _
  | exact only_raise _
  | exact only_lift _
  | exact only_config
  | exact only_getAxis _
  | exact only_getX _
  | exact only_getY _
  | exact only_getRel _
  | exact only_newX _
  | exact only_newY _
  | exact only_newAxis _
  | exact only_putAxis _ _
  | exact only_newRel _
  | exact only_deepcopy _
  | assumption
  | refine Only.bind ?_ (fun _ => ?_)
  | split))

theorem only_axisNew (s e d : K) : Only S (axisNew s e d : HM K V Loc) := only_newAxis _

theorem only_axisArray (l : Loc) : Only S (axisArray P l) := by unfold axisArray; only_steps

theorem only_axisValues (l : Loc) : Only S (axisValues P l) := (only_axisArray l).bind fun _ => only_getX _

theorem only_axisSize (l : Loc) : Only S (axisSize P l) := (only_axisValues l).bind fun _ => only_pure _

theorem only_axisActual (l : Loc) : Only S (axisActual P l) := by
  have := @only_axisValues K V P S l
  unfold axisActual; only_steps

theorem only_axisCopy (l : Loc) : Only S (axisCopy l : HM K V Loc) := (only_getAxis _).bind fun _ => only_newAxis _

theorem only_axisSetStart (l : Loc) (v : K) : Only S (axisSetStart l v : HM K V Unit) :=
  (only_getAxis _).bind fun _ => only_putAxis _ _

theorem only_axisSetStop (l : Loc) (v : K) : Only S (axisSetStop l v : HM K V Unit) :=
  (only_getAxis _).bind fun _ => only_putAxis _ _

theorem only_axisFromArray (x : List K) (f r : Bool) : Only S (axisFromArray P x f r : HM K V Loc) :=
  (only_lift _).bind fun _ => only_axisNew _ _ _

theorem only_npArray (y : HYArg V) : Only S (npArray y : HM K V Loc) := by unfold npArray; only_steps

theorem only_initAxis (c : Cls) (g : ConfigIds) (ax ly : Loc) (cp : Option Loc) : Only S (initAxis P c g ax ly cp) := by
  have := @only_axisSize K V P S ax
  unfold initAxis; only_steps

/-- the objects among the operand -/
def PyOperand.objects : PyOperand V → Set Loc
  | .obj l => {l}
  | _ => ∅

theorem objects_insert (e : Loc) : (PyOperand.obj e : PyOperand V).objects ⊆ insert e S := fun _ hl => Or.inl hl

/-- The methods leave the relation objects they are given alone. -/
structure OnlyMethods (M : Methods K V) : Prop where
  fromArray : ∀ n x f r, Only ∅ (M.fromArray n x f r)
  mathOp : ∀ n l w op, Only ∅ (M.mathOp n l w op)
  interp : ∀ n a b c, Only ∅ (M.interp n a b c)
  integrateOne : ∀ n r, Only ∅ (M.integrateOne n r)
  integrate : ∀ n r, Only ∅ (M.integrate n r)
  differentiate : ∀ n r, Only ∅ (M.differentiate n r)
  commonX : ∀ n a b, Only ∅ (M.commonX n a b)
  signal2spectrum : ∀ n r f z, Only ∅ (M.signal2spectrum n r f z)
  spectrum2signal : ∀ n r f z, Only ∅ (M.spectrum2signal n r f z)
  getFt : ∀ n r, Only ∅ (M.getFt n r)
  getAt : ∀ n r, Only ∅ (M.getAt n r)
  spectrogram : ∀ n r, Only ∅ (M.spectrogram n r)

section
variable (hM : GoodMethods P M) (hK : OnlyMethods M)
include hK

theorem only_relInit (c : Cls) (x : HXArg K) (y : HYArg V) (cp : Option Loc) : Only S (relInit P M c x y cp) := by
  unfold relInit
  refine only_config.bind fun g => ?_
  split
  · exact (only_getRel _).bind fun _ => (only_axisCopy _).bind fun _ => (only_getY _).bind fun _ =>
      (only_newY _).bind fun _ => only_newRel _
  · exact (only_npArray _).bind fun _ => only_initAxis _ _ _ _ _
  · exact (only_npArray _).bind fun _ => (hK.fromArray _ _ _ _).of_empty.bind fun _ => only_initAxis _ _ _ _ _

theorem only_givenOr (o : Option Loc) {m : HM K V Loc} (hm : Only S m) : Only S (givenOr o m) := by
  unfold givenOr; only_steps

theorem only_sweepInit {l : Loc} (hl : l ∈ S) (ft at' ap : Option Loc) : Only S (sweepInit M l ft at' ap) := by
  unfold sweepInit
  exact only_config.bind fun g => (only_givenOr hK _ (hK.getFt _ _).of_empty).bind fun f => (only_getRel _).bind fun _ =>
    (only_putRel hl _).bind fun _ => (only_givenOr hK _ (hK.getAt _ _).of_empty).bind fun f => (only_getRel _).bind fun _ =>
    (only_putRel hl _).bind fun _ => (hK.spectrogram _ _).of_empty.bind fun _ => (only_getRel _).bind fun _ =>
    (only_putRel hl _).bind fun _ => only_pure _

include hM

theorem only_construct (c : Cls) (x : HXArg K) (y : HYArg V) (cp : Option Loc) : Only S (construct P M c x y cp) := by
  unfold construct
  refine (only_relInit hK _ _ _ _).bindR (fresh_relInit hM _ _ _ _) fun l => ?_
  split
  · exact only_sweepInit hK (Set.mem_insert _ _) _ _ _
  · exact only_pure _

theorem only_relSelect (r : Loc) (s e : Option K) : Only S (relSelect P M r s e) := by
  unfold relSelect
  exact (only_getRel _).bind fun _ => (only_getAxis _).bind fun _ => (only_axisValues _).bind fun _ =>
    (only_getY _).bind fun _ => (only_lift _).bind fun _ => (only_axisNew _ _ _).bind fun _ => only_construct hM hK _ _ _ _

theorem only_relExp (r : Loc) : Only S (relExp P M r) := by
  unfold relExp
  exact (only_getRel _).bind fun _ => (only_axisCopy _).bind fun _ => (only_getY _).bind fun _ => only_construct hM hK _ _ _ _

theorem only_relDiff (r : Loc) : Only S (relDiff P M r) := by
  unfold relDiff
  exact (only_getRel _).bind fun _ => (hK.differentiate _ _).of_empty.bind fun _ => only_construct hM hK _ _ _ _

theorem only_relIntegrate (r : Loc) : Only S (relIntegrate P M r) := by
  unfold relIntegrate
  exact (only_getRel _).bind fun _ => (hK.integrate _ _).of_empty.bind fun _ => only_construct hM hK _ _ _ _

theorem only_relInterp (r : Loc) (x : HXArg K) : Only S (relInterp P M r x) := by
  unfold relInterp
  refine (only_getRel _).bind fun _ => Only.bind ?_ fun _ => (only_axisValues _).bind fun _ => (only_newX _).bind fun _ =>
    (only_getY _).bind fun _ => (only_newY _).bind fun _ => (hK.interp _ _ _ _).of_empty.bind fun _ =>
    only_construct hM hK _ _ _ _
  unfold interpAxisOf
  split
  · exact (only_getRel _).bind fun _ => only_axisCopy _
  · exact only_axisCopy _
  · exact (hK.fromArray _ _ _ _).of_empty

theorem only_relShift (r : Loc) (d : K) : Only S (relShift P M r d) := by
  unfold relShift
  exact (only_getRel _).bind fun _ => (only_axisCopy _).bind fun _ => (only_getAxis _).bind fun _ =>
    (only_axisSetStart _ _).bind fun _ => (only_getAxis _).bind fun _ => (only_axisSetStop _ _).bind fun _ =>
    only_construct hM hK _ _ _ _

theorem only_relEqualize (r1 r2 : Loc) : Only S (relEqualize P M r1 r2) := by
  unfold relEqualize
  refine (only_getRel _).bind fun _ => (only_getRel _).bind fun _ => ?_
  split
  · exact (only_deepcopy _).bind fun _ => (only_deepcopy _).bind fun _ => only_pure _
  · exact only_config.bind fun _ => (hK.commonX _ _ _).of_empty.bind fun _ => (only_relInterp hM hK _ _).bind fun _ =>
      (only_relInterp hM hK _ _).bind fun _ => only_pure _

theorem only_relOperation (a : Loc) (b : HArg V) (op : MathOp) : Only S (relOperation P M a b op) := by
  unfold relOperation
  refine (only_getRel _).bind fun _ => ?_
  split
  · exact (only_relEqualize hM hK _ _).bind fun _ => (only_getRel _).bind fun _ => (only_getRel _).bind fun _ =>
      (only_axisCopy _).bind fun _ => (only_getY _).bind fun _ => (only_newY _).bind fun _ => (only_getY _).bind fun _ =>
      (only_newY _).bind fun _ => (hK.mathOp _ _ _ _).of_empty.bind fun _ => only_construct hM hK _ _ _ _
  · exact (only_axisCopy _).bind fun _ => (only_getY _).bind fun _ => (only_newY _).bind fun _ =>
      (hK.mathOp _ _ _ _).of_empty.bind fun _ => only_construct hM hK _ _ _ _

theorem only_getSpectrum {s : Loc} (hs : s ∈ S) (f : HSize) (z : Bool) : Only S (getSpectrum P M s f z) := by
  unfold getSpectrum
  refine (only_getRel _).bind fun _ => ?_
  split
  · exact only_pure _
  · exact (hK.signal2spectrum _ _ _ _).of_empty.bind fun _ => (only_construct hM hK _ _ _ _).bind fun _ =>
      (only_getRel _).bind fun _ => (only_putRel hs _).bind fun _ => only_pure _

theorem only_getSignal {s : Loc} (hs : s ∈ S) (f : HSize) (z : Option K) : Only S (getSignal P M s f z) := by
  unfold getSignal
  refine (only_getRel _).bind fun _ => ?_
  split
  · exact only_pure _
  · exact (hK.spectrum2signal _ _ _ _).of_empty.bind fun _ => (only_construct hM hK _ _ _ _).bind fun _ =>
      (only_getRel _).bind fun _ => (only_putRel hs _).bind fun _ => only_pure _

theorem only_getAmp (s : Loc) : Only S (getAmp P M s) := by
  unfold getAmp
  exact (only_getRel _).bind fun _ => (only_axisCopy _).bind fun _ => (only_getY _).bind fun _ => only_construct hM hK _ _ _ _

theorem only_getPhase (s : Loc) : Only S (getPhase P M s) := by
  unfold getPhase
  exact (only_getRel _).bind fun _ => (only_axisCopy _).bind fun _ => (only_getY _).bind fun _ => only_construct hM hK _ _ _ _

theorem only_convertOperand (c : Cls) (b : PyOperand V) (op : MathOp) (hb : b.objects ⊆ S) :
    Only S (convertOperand P M c b op) := by
  unfold convertOperand
  have h1 : Only S (inp2signalOperation P M b) := by
    unfold inp2signalOperation
    split
    · rename_i l
      refine (only_getRel _).bind fun _ => ?_
      split
      · exact (only_getSignal hM hK (hb rfl) _ _).bind fun _ => only_pure _
      · exact only_pure _
    · exact only_pure _
  have h2 : Only S (input2spectrumOperation P M b) := by
    unfold input2spectrumOperation
    split
    · rename_i l
      refine (only_getRel _).bind fun _ => ?_
      split
      · exact (only_getSpectrum hM hK (hb rfl) _ _).bind fun _ => only_pure _
      · exact only_pure _
    · exact only_pure _
    · exact only_raise _
  only_steps

theorem only_operator (a : Loc) (b : PyOperand V) (op : MathOp) (hb : b.objects ⊆ S) : Only S (operator P M a b op) := by
  unfold operator
  exact (only_getRel _).bind fun _ => (only_convertOperand hM hK _ _ _ hb).bind fun _ => only_relOperation hM hK _ _ _

/-- an operator of an object of class `Relation`, or a reflected one, converts nothing -/
theorem only_operator_number (a : Loc) (c : V) (op : MathOp) : Only S (operator P M a (.number c) op) :=
  only_operator hM hK _ _ _ (Set.empty_subset _)

theorem only_getNorm (r : Loc) : Only S (getNorm P M r) := by
  unfold getNorm relNorm
  exact (only_getRel _).bind fun _ => (only_operator_number hM hK _ _ _).bind fun _ =>
    (hK.integrateOne _ _).of_empty.bind fun _ => (only_getAxis _).bind fun _ => only_lift _

theorem only_inp2signal (a : PyOperand V) (hb : a.objects ⊆ S) : Only S (inp2signal P M a) := by
  unfold inp2signal
  split
  · refine (only_getRel _).bind fun _ => ?_
    split
    · exact only_getSignal hM hK (hb rfl) _ _
    · split
      · exact only_pure _
      · exact only_construct hM hK _ _ _ _
  · exact only_raise _

theorem only_input2spectrum (a : PyOperand V) (hb : a.objects ⊆ S) : Only S (input2spectrum P M a) := by
  unfold input2spectrum
  split
  · refine (only_getRel _).bind fun _ => ?_
    split
    · exact only_getSpectrum hM hK (hb rfl) _ _
    · split
      · exact only_pure _
      · exact only_construct hM hK _ _ _ _
  · exact only_raise _

theorem only_fromAmpPhase (a p : Loc) : Only S (fromAmpPhase P M a p) := by
  unfold fromAmpPhase
  refine (only_operator_number hM hK _ _ _).bind fun q => ?_
  refine (only_relExp hM hK _).bindR (ownM_relExp hM _).freshR fun e => ?_
  exact (only_operator hM hK _ _ _ (objects_insert _)).bind fun _ => only_construct hM hK _ _ _ _

theorem only_spAddPhase (s : Loc) (b : PyOperand V) (op : MathOp) (hb : b.objects ⊆ S) : Only S (spAddPhase P M s b op) := by
  unfold spAddPhase
  refine (only_input2spectrum hM hK _ hb).bind fun so => (only_getAmp hM hK _).bind fun amp =>
    (only_getPhase hM hK _).bind fun p1 => ?_
  refine (only_getPhase hM hK _).bindR (ownM_getPhase hM _).freshR fun p2 => ?_
  exact (only_operator hM hK _ _ _ (objects_insert _)).bind fun _ => only_fromAmpPhase hM hK _ _

/-- the way back to a signal works on a new spectrum -/
theorem only_back {m : HM K V Loc} (hm : Only S m) (hf : FreshR m) (f : HSize) (c : Cls) :
    Only S (m >>= fun q => getSignal P M q f >>= fun g => construct P M c (.rel g) .absent) :=
  hm.bindR hf fun _ => (only_getSignal hM hK (Set.mem_insert _ _) _ _).bind fun _ => only_construct hM hK _ _ _ _

theorem only_sgAddPhase {s : Loc} (hs : s ∈ S) (b : PyOperand V) (op : MathOp) (hb : b.objects ⊆ S) :
    Only S (sgAddPhase P M s b op) := by
  unfold sgAddPhase
  exact (only_getRel _).bind fun _ => (only_getSpectrum hM hK hs _ _).bind fun _ =>
    only_back hM hK (only_spAddPhase hM hK _ _ _ hb) (ownM_spAddPhase hM _ _ _).freshR _ _

theorem only_reverseFilter (s : Loc) (p : K) (b : Bool) (fs fe : Option K) : Only S (reverseFilter P M s p b fs fe) := by
  unfold reverseFilter relMax
  exact (only_relSelect hM hK _ _ _).bind fun _ => (only_getAmp hM hK _).bind fun _ =>
    ((only_getRel _).bind fun _ => (only_getY _).bind fun _ => only_lift _).bind fun _ =>
    (only_operator_number hM hK _ _ _).bind fun _ => (only_operator_number hM hK _ _ _).bind fun _ =>
    (only_getPhase hM hK _).bind fun _ => (only_operator_number hM hK _ _ _).bind fun _ => only_fromAmpPhase hM hK _ _

theorem only_reverseSignal {s : Loc} (hs : s ∈ S) (p : K) (b : Bool) (fs fe : Option K) :
    Only S (reverseSignal P M s p b fs fe) := by
  unfold reverseSignal
  exact (only_getRel _).bind fun _ => (only_getSpectrum hM hK hs _ _).bind fun _ =>
    only_back hM hK (only_reverseFilter hM hK _ _ _ _ _) (ownM_reverseFilter hM _ _ _ _ _).freshR _ _

theorem only_sgShift {s : Loc} (hs : s ∈ S) (d : K) : Only S (sgShift P M s d) := by
  unfold sgShift
  refine (only_getSpectrum hM hK hs _ _).bind fun sp => (only_getRel _).bind fun o => (only_axisValues _).bind fun f => ?_
  exact (only_construct hM hK _ _ _ _).bindR (fresh_construct hM _ _ _ _) fun sh =>
    only_sgAddPhase hM hK (Set.mem_insert_of_mem _ hs) _ _ (objects_insert _)

theorem only_shift {r : Loc} (hr : r ∈ S) (d : K) : Only S (shift P M r d) := by
  unfold shift
  refine (only_getRel _).bind fun _ => ?_
  split
  · exact only_sgShift hM hK hr d
  · exact only_relShift hM hK _ _

theorem only_relConv {C : ConvCall K V} {r1 r2 : Loc} (hC : ∀ g c, Only S (C g c r1 r2)) (c : Cls) :
    Only S (relConv P M C c r1 r2) := by
  unfold relConv
  exact only_config.bind fun _ => (hC _ _).bind fun _ => only_construct hM hK _ _ _ _

theorem only_defConv {r1 r2 : Loc} (h1 : r1 ∈ S) (h2 : r2 ∈ S) (np : List V → List V → List V) :
    Only S (defConv P M np r1 r2) := by
  unfold defConv
  exact (only_getRel _).bind fun _ => (only_getAxis _).bind fun _ => (only_shift hM hK h1 _).bind fun _ =>
    (only_getRel _).bind fun _ => (only_getAxis _).bind fun _ => (only_shift hM hK h2 _).bind fun _ =>
    (only_relEqualize hM hK _ _).bind fun _ => (only_getRel _).bind fun _ => (only_getAxis _).bind fun _ =>
    (only_axisNew _ _ _).bind fun _ => (only_getY _).bind fun _ => (only_getRel _).bind fun _ => (only_getY _).bind fun _ =>
    (only_newY _).bind fun _ => only_pure _

end

theorem only_relGetData (r : Loc) : Only S (relGetData P r) := by
  have h1 := fun l => @only_axisSize K V P S l
  have h2 := fun l => @only_axisValues K V P S l
  unfold relGetData
  refine (only_getRel _).bind fun _ => (h1 _).bind fun _ => (only_getY _).bind fun _ => ?_
  split
  · exact only_raise _
  · exact (h2 _).bind fun _ => (only_newX _).bind fun _ => (only_newY _).bind fun _ => only_pure _

theorem only_defaultMethods : OnlyMethods (defaultMethods P) where
  fromArray n x f r := only_axisFromArray _ _ _
  mathOp n l w op := by
    show Only _ (defMathOp P l w op)
    unfold defMathOp npOperand
    only_steps
  interp n a b c := by
    have := @only_axisValues K V P ∅ c
    show Only _ (defInterp P a b c)
    unfold defInterp
    only_steps
  integrateOne n r := (only_relGetData r).bind fun _ => (only_getX _).bind fun _ => (only_getY _).bind fun _ => only_pure _
  integrate n r := (only_getRel _).bind fun _ => (only_axisCopy _).bind fun _ => (only_getAxis _).bind fun _ =>
    (only_axisSetStart _ _).bind fun _ => (only_getY _).bind fun _ => (only_newY _).bind fun _ => only_pure _
  differentiate n r := (only_getRel _).bind fun _ => (only_axisCopy _).bind fun _ => (only_getAxis _).bind fun _ =>
    (only_axisSetStart _ _).bind fun _ => (only_axisSetStop _ _).bind fun _ =>
    (only_getY _).bind fun _ => (only_newY _).bind fun _ => only_pure _
  commonX n a b := (only_getAxis _).bind fun _ => (only_getAxis _).bind fun _ => only_axisNew _ _ _
  signal2spectrum n r f z := by
    have hs : Only ∅ (sizeOf P f : HM K V (Option ℤ)) := by
      unfold sizeOf
      split
      · exact only_pure _
      · exact only_pure _
      · exact (only_axisSize _).bind fun _ => only_pure _
    have hf : ∀ t n, Only ∅ (freqAxis P t n f : HM K V Loc) := by
      intro t n
      unfold freqAxis
      split
      · exact only_pure _
      · exact (only_getAxis _).bind fun _ => (only_lift _).bind fun _ => only_axisFromArray _ _ _
    have hc : ∀ t a, Only ∅ (calculateSpectrum P t a f) := fun t a =>
      hs.bind fun _ => (only_axisValues _).bind fun _ => (only_lift _).bind fun _ => (only_lift _).bind fun _ =>
        (hf _ _).bind fun _ => (only_newY _).bind fun _ => only_pure _
    show Only _ (defSignal2Spectrum P r f z)
    unfold defSignal2Spectrum
    refine (only_getRel _).bind fun _ => (only_axisCopy _).bind fun _ => (only_getY _).bind fun _ =>
      (only_getAxis _).bind fun _ => ?_
    split
    · exact hc _ _
    · split
      · exact (only_axisSetStart _ _).bind fun _ => (only_axisSize _).bind fun _ => (only_lift _).bind fun _ => hc _ _
      · split
        · exact (only_axisSetStop _ _).bind fun _ => (only_axisSize _).bind fun _ => (only_lift _).bind fun _ => hc _ _
        · exact hc _ _
  spectrum2signal n r f z := by
    have hs : Only ∅ (sizeOf P f : HM K V (Option ℤ)) := by
      unfold sizeOf
      split
      · exact only_pure _
      · exact only_pure _
      · exact (only_axisSize _).bind fun _ => only_pure _
    have hf : ∀ t n, Only ∅ (timeAxis P t n f z : HM K V Loc) := by
      intro t n
      unfold timeAxis
      split
      · exact only_pure _
      · exact (only_getAxis _).bind fun _ => (only_lift _).bind fun _ => only_axisNew _ _ _
    exact (only_getRel _).bind fun _ => (only_getY _).bind fun _ => (only_axisCopy _).bind fun _ => hs.bind fun _ =>
      (only_lift _).bind fun _ => (hf _ _).bind fun _ => (only_axisValues _).bind fun _ => (only_lift _).bind fun _ =>
      (only_newY _).bind fun _ => only_pure _
  getFt n r := (only_getRel _).bind fun _ => (only_getY _).bind fun _ => (only_getAxis _).bind fun _ =>
    (only_lift _).bind fun _ => only_config.bind fun _ => (only_newY _).bind fun _ => only_initAxis _ _ _ _ _
  getAt n r := (only_getRel _).bind fun _ => (only_getY _).bind fun _ =>
    (only_lift _).bind fun _ => only_config.bind fun _ => (only_newY _).bind fun _ => only_initAxis _ _ _ _ _
  spectrogram n r := (only_getRel _).bind fun _ => (only_getY _).bind fun _ => (only_getAxis _).bind fun _ => only_lift _

end SweepDesign.Mem
