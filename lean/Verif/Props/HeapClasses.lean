import Verif.Props.HeapPairs

/-!
# C98: the class of what a method returns
-/

set_option linter.unusedSectionVars false

namespace SweepDesign.Mem

open HM Spec

variable {K V : Type} {P : Prims K V} {M : Methods K V} {C : ConvMethods K V} {α β : Type}

/-! ## Specification -/

/-- the class of object `r` -/
def _root_.SweepDesign.Spec.classAt (h : Heap K V) (r : Loc) : Set Cls := {c | ∃ o, h.rels[r]? = some o ∧ o.cls = c}

/-- the class, or classes, of the objects a call returns: `Signal` stands for `Signal` or `Sweep` where a stored object is
returned -/
def _root_.SweepDesign.Spec.resultClasses (h : Heap K V) : Call K V → List (Set Cls)
  | .construct c _ _ | .convolve c _ _ | .correlate c _ _ => [{c}]
  | .select r _ _ | .exp r | .diff r | .integrate r | .interp r _ | .shift r _ | .operator r _ _ | .sgAddPhase r _ _
  | .reverseSignal r _ _ _ _ => [classAt h r]
  | .equalize r1 r2 => [classAt h r1, classAt h r2]
  | .getSpectrum _ _ _ | .spAddPhase _ _ _ | .reverseFilter _ _ _ _ _ | .fromAmpPhase _ _ => [{.spectrum}]
  | .getSignal _ _ _ => [{c | SignalClass c}]
  | .getAmp _ | .getPhase _ | .sgAmp _ _ _ | .sgPhase _ _ _ => [{.relation}]
  | .axisNew _ _ _ | .axisArray _ | .axisActual _ | .axisCopy _ | .getData _ | .max _ | .min _ | .norm _ | .len _ | .item _ _ => []

/-- the objects `ls` exist in `h` and are of the classes `cs` -/
def _root_.SweepDesign.Spec.OfClasses (h : Heap K V) (ls : List Loc) (cs : List (Set Cls)) : Prop :=
  List.Forall₂ (fun l S => ∃ o, h.rels[l]? = some o ∧ o.cls ∈ S) ls cs

/-! ## Machinery -/

theorem keeps_class {X : Ex} {m : HM K V α} (hm : Safe P X m) {h h' : Heap K V} {a : Except Err α} (hr : m h = (a, h'))
    {l : Loc} {o : RelObj} (ho : h.rels[l]? = some o) : ∃ o', h'.rels[l]? = some o' ∧ o'.cls = o.cls := by
  have w := (hm h).1
  rw [hr] at w
  obtain ⟨o', ho', e, -⟩ := w.rels l o ho
  exact ⟨o', ho', e.cls⟩

/-- the constructor of every class -/
theorem yields_class (hM : GoodMethods P M) (c : Cls) (x : HXArg K) (y : HYArg V) (cp : Option Loc) :
    Yields c (construct P M c x y cp) := by
  by_cases hc : c = .sweep
  · subst hc
    intro h l h' hr
    unfold construct at hr
    obtain ⟨l0, h1, e, hr⟩ := bind_ok.1 hr
    simp only [if_true] at hr
    have hl := sweepInit_ret hr
    subst hl
    obtain ⟨o, ho, ec⟩ := yields_relInit _ _ _ _ _ _ _ e
    obtain ⟨o', ho', ec'⟩ := keeps_class (safe_sweepInit (X := (∅ : Ex).addR l) hM (Set.mem_insert l _) none none none) hr ho
    exact ⟨o', ho', ec'.trans ec⟩
  · exact yields_construct hc x y cp

/-- a method that reads its object and ends in `type(self)(...)` -/
theorem yields_read {r : Loc} {f : RelObj → HM K V Loc} (hf : ∀ o, Yields o.cls (f o)) {h h' : Heap K V} {l : Loc}
    (hr : (getRel r >>= f) h = (.ok l, h')) : ∃ o, h'.rels[l]? = some o ∧ o.cls ∈ classAt h r := by
  obtain ⟨o, h1, e, hr1⟩ := bind_ok.1 hr
  obtain ⟨ho, rfl⟩ := getRel_ok.1 e
  obtain ⟨q, hq, ec⟩ := hf o _ _ _ hr1
  exact ⟨q, hq, o, ho, ec.symm⟩

variable (hM : GoodMethods P M)
include hM

theorem yields_relSelect {r : Loc} {s e : Option K} {h h' : Heap K V} {l : Loc} (hr : relSelect P M r s e h = (.ok l, h')) :
    ∃ o, h'.rels[l]? = some o ∧ o.cls ∈ classAt h r := by
  unfold relSelect at hr
  refine yields_read (fun o => ?_) hr
  exact Yields.bind fun _ => Yields.bind fun _ => Yields.bind fun _ => Yields.bind fun _ => Yields.bind fun _ => yields_class hM _ _ _ _

theorem yields_relExp {r : Loc} {h h' : Heap K V} {l : Loc} (hr : relExp P M r h = (.ok l, h')) :
    ∃ o, h'.rels[l]? = some o ∧ o.cls ∈ classAt h r := by
  unfold relExp at hr
  refine yields_read (fun o => ?_) hr
  exact Yields.bind fun _ => Yields.bind fun _ => yields_class hM _ _ _ _

theorem yields_relDiff {r : Loc} {h h' : Heap K V} {l : Loc} (hr : relDiff P M r h = (.ok l, h')) :
    ∃ o, h'.rels[l]? = some o ∧ o.cls ∈ classAt h r := by
  unfold relDiff at hr
  refine yields_read (fun o => ?_) hr
  exact Yields.bind fun _ => yields_class hM _ _ _ _

theorem yields_relIntegrate {r : Loc} {h h' : Heap K V} {l : Loc} (hr : relIntegrate P M r h = (.ok l, h')) :
    ∃ o, h'.rels[l]? = some o ∧ o.cls ∈ classAt h r := by
  unfold relIntegrate at hr
  refine yields_read (fun o => ?_) hr
  exact Yields.bind fun _ => yields_class hM _ _ _ _

theorem yields_relInterp {r : Loc} {x : HXArg K} {h h' : Heap K V} {l : Loc} (hr : relInterp P M r x h = (.ok l, h')) :
    ∃ o, h'.rels[l]? = some o ∧ o.cls ∈ classAt h r := by
  unfold relInterp at hr
  refine yields_read (fun o => ?_) hr
  exact Yields.bind fun _ => Yields.bind fun _ => Yields.bind fun _ => Yields.bind fun _ => Yields.bind fun _ => Yields.bind fun _ =>
    yields_class hM _ _ _ _

theorem yields_relShift {r : Loc} {d : K} {h h' : Heap K V} {l : Loc} (hr : relShift P M r d h = (.ok l, h')) :
    ∃ o, h'.rels[l]? = some o ∧ o.cls ∈ classAt h r := by
  unfold relShift at hr
  refine yields_read (fun o => ?_) hr
  exact Yields.bind fun _ => Yields.bind fun _ => Yields.bind fun _ => Yields.bind fun _ => Yields.bind fun _ => yields_class hM _ _ _ _

theorem yields_relOperation {r : Loc} {b : HArg V} {op : MathOp} {h h' : Heap K V} {l : Loc}
    (hr : relOperation P M r b op h = (.ok l, h')) : ∃ o, h'.rels[l]? = some o ∧ o.cls ∈ classAt h r := by
  unfold relOperation at hr
  refine yields_read (fun o => ?_) hr
  split
  · exact Yields.bind fun _ => Yields.bind fun _ => Yields.bind fun _ => Yields.bind fun _ => Yields.bind fun _ => Yields.bind fun _ =>
      Yields.bind fun _ => Yields.bind fun _ => Yields.bind fun _ => yields_class hM _ _ _ _
  · exact Yields.bind fun _ => Yields.bind fun _ => Yields.bind fun _ => Yields.bind fun _ => yields_class hM _ _ _ _

/-- the class of an object does not depend on when it is asked for -/
theorem classAt_later {X : Ex} {m : HM K V α} (hm : Safe P X m) {h h' : Heap K V} {a : Except Err α} (hr : m h = (a, h'))
    {r : Loc} {o : RelObj} (ho : h.rels[r]? = some o) {c : Cls} (hc : c ∈ classAt h' r) : c ∈ classAt h r := by
  obtain ⟨o', ho', e⟩ := keeps_class hm hr ho
  obtain ⟨q, hq, e'⟩ := hc
  rw [ho'] at hq
  simp only [Option.some.injEq] at hq
  subst hq
  exact ⟨o, ho, e.symm.trans e'⟩

theorem yields_operator {r : Loc} {b : PyOperand V} {op : MathOp} {h h' : Heap K V} {l : Loc}
    (hr : operator P M r b op h = (.ok l, h')) : ∃ o, h'.rels[l]? = some o ∧ o.cls ∈ classAt h r := by
  unfold operator at hr
  obtain ⟨o, h1, e, hr1⟩ := bind_ok.1 hr
  obtain ⟨ho, rfl⟩ := getRel_ok.1 e
  obtain ⟨b', h2, e2, hr2⟩ := bind_ok.1 hr1
  obtain ⟨q, hq, hc⟩ := yields_relOperation hM hr2
  exact ⟨q, hq, classAt_later hM (safe_convertOperand (X := ∅) hM _ _ _) e2 ho hc⟩

theorem yields_sgAddPhase {r : Loc} {b : PyOperand V} {op : MathOp} {h h' : Heap K V} {l : Loc}
    (hr : sgAddPhase P M r b op h = (.ok l, h')) : ∃ o, h'.rels[l]? = some o ∧ o.cls ∈ classAt h r := by
  unfold sgAddPhase at hr
  refine yields_read (fun o => ?_) hr
  exact Yields.bind fun _ => Yields.bind fun _ => Yields.bind fun _ => yields_class hM _ _ _ _

theorem yields_reverseSignal {r : Loc} {p : K} {b : Bool} {fs fe : Option K} {h h' : Heap K V} {l : Loc}
    (hr : reverseSignal P M r p b fs fe h = (.ok l, h')) : ∃ o, h'.rels[l]? = some o ∧ o.cls ∈ classAt h r := by
  unfold reverseSignal at hr
  refine yields_read (fun o => ?_) hr
  exact Yields.bind fun _ => Yields.bind fun _ => Yields.bind fun _ => yields_class hM _ _ _ _

theorem yields_shift {r : Loc} {d : K} {h h' : Heap K V} {l : Loc} (hr : shift P M r d h = (.ok l, h')) :
    ∃ o, h'.rels[l]? = some o ∧ o.cls ∈ classAt h r := by
  unfold shift at hr
  obtain ⟨o, h1, e, hr1⟩ := bind_ok.1 hr
  obtain ⟨ho, rfl⟩ := getRel_ok.1 e
  split at hr1
  · unfold sgShift at hr1
    obtain ⟨sp, h2, e2, hr2⟩ := bind_ok.1 hr1
    obtain ⟨so, h3, e3, hr3⟩ := bind_ok.1 hr2
    obtain ⟨hso, rfl⟩ := getRel_ok.1 e3
    obtain ⟨f, h4, e4, hr4⟩ := bind_ok.1 hr3
    obtain ⟨sh, h5, e5, hr5⟩ := bind_ok.1 hr4
    obtain ⟨o2, ho2, c2⟩ := keeps_class (safe_getSpectrum (X := ∅) hM _ _ (fun h => by simp [HSize.truthy] at h)) e2 ho
    obtain ⟨o4, ho4, c4⟩ := keeps_class (safe_axisValues (P := P) (X := ∅) _) e4 ho2
    obtain ⟨q, hq, hc⟩ := yields_sgAddPhase hM hr5
    refine ⟨q, hq, ?_⟩
    exact classAt_later hM (safe_getSpectrum (X := ∅) hM _ _ (fun h => by simp [HSize.truthy] at h)) e2 ho
      (classAt_later hM (safe_axisValues (P := P) (X := ∅) _) e4 ho2
        (classAt_later hM (safe_construct (X := ∅) hM _ _ _ _) e5 ho4 hc))
  · exact yields_relShift hM hr1

theorem yields_relEqualize {r1 r2 : Loc} {h h' : Heap K V} {l1 l2 : Loc} (hr : relEqualize P M r1 r2 h = (.ok (l1, l2), h')) :
    (∃ o, h'.rels[l1]? = some o ∧ o.cls ∈ classAt h r1) ∧ ∃ o, h'.rels[l2]? = some o ∧ o.cls ∈ classAt h r2 := by
  have hcopy : ∀ {r : Loc} {h h' : Heap K V} {l : Loc}, deepcopy r h = (.ok l, h') →
      ∃ o, h'.rels[l]? = some o ∧ o.cls ∈ classAt h r := by
    intro r h h' l hr
    unfold deepcopy at hr
    split at hr
    · simp at hr
    · next o ho =>
      simp only [Prod.mk.injEq, Except.ok.injEq] at hr
      obtain ⟨rfl, rfl⟩ := hr
      refine ⟨RelObj.offset h.axes.length h.yarrs.length h.rels.length o, ?_, o, ho, rfl⟩
      simp only
      rw [List.getElem?_append_right (Nat.le_add_right _ _), Nat.add_sub_cancel_left, List.getElem?_map, ho]
      rfl
  have glue : ∀ {X : Ex} {f g : Loc → HM K V Loc}, (∀ r, Safe P X (f r)) → (∀ r, Safe P X (g r)) →
      (∀ {r : Loc} {h h' : Heap K V} {l : Loc}, f r h = (.ok l, h') → ∃ o, h'.rels[l]? = some o ∧ o.cls ∈ classAt h r) →
      (∀ {r : Loc} {h h' : Heap K V} {l : Loc}, g r h = (.ok l, h') → ∃ o, h'.rels[l]? = some o ∧ o.cls ∈ classAt h r) →
      ∀ {h : Heap K V} {o1 o2 : RelObj}, h.rels[r1]? = some o1 → h.rels[r2]? = some o2 →
      (f r1 >>= fun q1 => g r2 >>= fun q2 => pure (q1, q2)) h = (.ok (l1, l2), h') →
      (∃ o, h'.rels[l1]? = some o ∧ o.cls ∈ classAt h r1) ∧ ∃ o, h'.rels[l2]? = some o ∧ o.cls ∈ classAt h r2 := by
    intro X f g sf sg yf yg h o1 o2 ho1 ho2 hr
    obtain ⟨q1, h1, e1, hr⟩ := bind_ok.1 hr
    obtain ⟨q2, h2, e2, hr⟩ := bind_ok.1 hr
    simp only [pure_run, Prod.mk.injEq, Except.ok.injEq] at hr
    obtain ⟨⟨rfl, rfl⟩, rfl⟩ := hr
    obtain ⟨p1, hp1, hc1⟩ := yf e1
    obtain ⟨p2, hp2, hc2⟩ := yg e2
    obtain ⟨p1', hp1', ec⟩ := keeps_class (sg r2) e2 hp1
    exact ⟨⟨p1', hp1', by rw [ec]; exact hc1⟩, p2, hp2, classAt_later hM (sf r1) e1 ho2 hc2⟩
  unfold relEqualize at hr
  obtain ⟨o1, h1, e1, hr1⟩ := bind_ok.1 hr
  obtain ⟨ho1, rfl⟩ := getRel_ok.1 e1
  obtain ⟨o2, h1, e2, hr2⟩ := bind_ok.1 hr1
  obtain ⟨ho2, rfl⟩ := getRel_ok.1 e2
  split at hr2
  · exact glue (X := ∅) (fun r => safe_deepcopy r) (fun r => safe_deepcopy r) hcopy hcopy ho1 ho2 hr2
  · obtain ⟨g, h2, e3, hr3⟩ := bind_ok.1 hr2
    simp only [config, Prod.mk.injEq, Except.ok.injEq] at e3
    obtain ⟨rfl, rfl⟩ := e3
    obtain ⟨nx, h3, e4, hr4⟩ := bind_ok.1 hr3
    obtain ⟨o1', ho1', c1⟩ := keeps_class (hM.commonX _ _ _) e4 ho1
    obtain ⟨o2', ho2', c2⟩ := keeps_class (hM.commonX _ _ _) e4 ho2
    obtain ⟨⟨p1, hp1, k1⟩, p2, hp2, k2⟩ := glue (X := ∅) (fun r => safe_relInterp hM r _) (fun r => safe_relInterp hM r _)
      (fun e => yields_relInterp hM e) (fun e => yields_relInterp hM e) ho1' ho2' hr4
    exact ⟨⟨p1, hp1, classAt_later hM (hM.commonX _ _ _) e4 ho1 k1⟩, p2, hp2, classAt_later hM (hM.commonX _ _ _) e4 ho2 k2⟩

theorem yields_clsConv {D : ConvCall K V} (c : Cls) (a b : PyOperand V) : Yields c (clsConv P M D c a b) := by
  have conv : ∀ c r1 r2, Yields c (relConv P M D c r1 r2) := fun c r1 r2 => by
    unfold relConv
    exact Yields.bind fun _ => Yields.bind fun _ => yields_class hM _ _ _ _
  unfold clsConv
  cases c with
  | relation =>
    simp only
    split
    · exact conv _ _ _
    · intro h l h' hr; simp [raise] at hr
  | spectrum => exact Yields.bind fun _ => Yields.bind fun _ => conv _ _ _
  | signal => exact Yields.bind fun _ => Yields.bind fun _ => Yields.bind fun _ => yields_class hM _ _ _ _
  | sweep => exact Yields.bind fun _ => Yields.bind fun _ => Yields.bind fun _ => yields_class hM _ _ _ _

theorem yields_getAmp (s : Loc) : Yields .relation (getAmp P M s) := by
  unfold getAmp
  exact Yields.bind fun _ => Yields.bind fun _ => Yields.bind fun _ => yields_class hM _ _ _ _

theorem yields_getPhase (s : Loc) : Yields .relation (getPhase P M s) := by
  unfold getPhase
  exact Yields.bind fun _ => Yields.bind fun _ => Yields.bind fun _ => yields_class hM _ _ _ _

theorem yields_amp_phase (a p : Loc) : Yields .spectrum (fromAmpPhase P M a p) := by
  unfold fromAmpPhase
  exact Yields.bind fun _ => Yields.bind fun _ => Yields.bind fun _ => yields_class hM _ _ _ _

omit hM in
theorem ofClasses_one {m : HM K V Loc} {S : Set Cls} {h h' : Heap K V} {ls : List Loc}
    (hm : ∀ l h', m h = (.ok l, h') → ∃ o : RelObj, h'.rels[l]? = some o ∧ o.cls ∈ S)
    (hr : one m (fun l => [l]) h = (.ok ls, h')) : OfClasses h' ls [S] := by
  unfold one at hr
  obtain ⟨l, h1, e, hr⟩ := bind_ok.1 hr
  simp only [pure_run, Prod.mk.injEq, Except.ok.injEq] at hr
  obtain ⟨rfl, rfl⟩ := hr
  exact List.Forall₂.cons (hm l _ e) List.Forall₂.nil

omit hM in
theorem ofClasses_none {m : HM K V α} {h h' : Heap K V} {ls : List Loc} (hr : one m (fun _ => []) h = (.ok ls, h')) :
    OfClasses h' ls [] := by
  unfold one at hr
  obtain ⟨l, h1, e, hr⟩ := bind_ok.1 hr
  simp only [pure_run, Prod.mk.injEq, Except.ok.injEq] at hr
  obtain ⟨rfl, rfl⟩ := hr
  exact List.Forall₂.nil

omit hM

end SweepDesign.Mem

namespace SweepDesign

open Mem HM Spec

variable {K V : Type} {P : Prims K V} {M : Methods K V} {C : ConvMethods K V}

/-! ## C98 -/

/-- What a call returns is of the class of the object the method belongs to, or of the class the method is about. -/
theorem C98_call (hM : GoodMethods P M) (c : Call K V) {h h' : Heap K V} (hp : Paired h) (hc : OwnClass h c) {ls : List Loc}
    (hr : c.exec P M C h = (.ok ls, h')) : OfClasses h' ls (resultClasses h c) := by
  cases c with
  | axisNew | axisArray | axisActual | axisCopy | getData | max | min | norm | len | item => exact ofClasses_none hr
  | construct c x y => exact ofClasses_one (fun l h' e => yields_class hM c x y none _ _ _ e) hr
  | select r s e => exact ofClasses_one (fun l h' e => yields_relSelect hM e) hr
  | exp r => exact ofClasses_one (fun l h' e => yields_relExp hM e) hr
  | diff r => exact ofClasses_one (fun l h' e => yields_relDiff hM e) hr
  | integrate r => exact ofClasses_one (fun l h' e => yields_relIntegrate hM e) hr
  | interp r x => exact ofClasses_one (fun l h' e => yields_relInterp hM e) hr
  | shift r d => exact ofClasses_one (fun l h' e => yields_shift hM e) hr
  | equalize r1 r2 =>
    simp only [Call.exec, one] at hr
    obtain ⟨⟨l1, l2⟩, h1, e, hr⟩ := bind_ok.1 hr
    simp only [pure_run, Prod.mk.injEq, Except.ok.injEq] at hr
    obtain ⟨rfl, rfl⟩ := hr
    obtain ⟨k1, k2⟩ := yields_relEqualize hM e
    exact List.Forall₂.cons k1 (List.Forall₂.cons k2 List.Forall₂.nil)
  | operator r b op => exact ofClasses_one (fun l h' e => yields_operator hM e) hr
  | getSpectrum r f z => exact ofClasses_one (fun l h' e => (C87_returns hM hp).1 f z hc e) hr
  | getSignal r f z => exact ofClasses_one (fun l h' e => (C87_returns hM hp).2 f z hc e) hr
  | getAmp r => exact ofClasses_one (fun l h' e => yields_getAmp hM r _ _ _ e) hr
  | getPhase r => exact ofClasses_one (fun l h' e => yields_getPhase hM r _ _ _ e) hr
  | sgAmp r f z => exact ofClasses_one (fun l h' e => (Yields.bind fun _ => yields_getAmp hM _) _ _ _ e) hr
  | sgPhase r f z => exact ofClasses_one (fun l h' e => (Yields.bind fun _ => yields_getPhase hM _) _ _ _ e) hr
  | spAddPhase r b op => exact ofClasses_one (fun l h' e => (Yields.bind fun _ => Yields.bind fun _ => Yields.bind fun _ => Yields.bind fun _ =>
      Yields.bind fun _ => yields_amp_phase hM _ _) _ _ _ e) hr
  | sgAddPhase r b op => exact ofClasses_one (fun l h' e => yields_sgAddPhase hM e) hr
  | reverseFilter r p b fs fe => exact ofClasses_one (fun l h' e => (Yields.bind fun _ => Yields.bind fun _ => Yields.bind fun _ =>
      Yields.bind fun _ => Yields.bind fun _ => Yields.bind fun _ => Yields.bind fun _ => yields_amp_phase hM _ _) _ _ _ e) hr
  | reverseSignal r p b fs fe => exact ofClasses_one (fun l h' e => yields_reverseSignal hM e) hr
  | fromAmpPhase a p => exact ofClasses_one (fun l h' e => yields_amp_phase hM a p _ _ _ e) hr
  | convolve c a b => exact ofClasses_one (fun l h' e => yields_clsConv hM c a b _ _ _ e) hr
  | correlate c a b => exact ofClasses_one (fun l h' e => yields_clsConv hM c a b _ _ _ e) hr

/-- The class of an object never changes, whatever is called or assigned afterwards. -/
theorem C98_permanent (hM : GoodMethods P M) (hC : GoodConvMethods P C) (ss : List (Step K V)) {h : Heap K V} {r : Loc} {o : RelObj}
    (ho : h.rels[r]? = some o) : ∃ o', (runSteps P M C ss h).rels[r]? = some o' ∧ o'.cls = o.cls := by
  induction ss generalizing h o with
  | nil => exact ⟨o, ho, rfl⟩
  | cons s ss ih =>
    cases s with
    | call c =>
      obtain ⟨o1, ho1, e1⟩ := keeps_class (safe_call hM hC c) (Prod.mk.eta (p := c.exec P M C h)).symm ho
      obtain ⟨o2, ho2, e2⟩ := ih ho1
      exact ⟨o2, ho2, e2.trans e1⟩
    | edit e =>
      have ho1 : (e.exec h).2.rels[r]? = some o := by rw [edit_rels e]; exact ho
      exact ih ho1

/-- In any session that starts with nothing: the classes of what a call returns, then and ever after. -/
theorem C98_session (hM : GoodMethods P M) (hC : GoodConvMethods P C) (hK : PairMethods M) (hD : PairConvMethods C)
    (before after : List (Step K V)) (c : Call K V) (hs : OwnClasses P M C before (emptyHeap K V))
    (hc : OwnClass (runSteps P M C before (emptyHeap K V)) c) {ls : List Loc} {h' : Heap K V}
    (hr : c.exec P M C (runSteps P M C before (emptyHeap K V)) = (.ok ls, h')) :
    OfClasses (runSteps P M C after h') ls (resultClasses (runSteps P M C before (emptyHeap K V)) c) := by
  refine (C98_call hM c (C87_history hK hD before C87_start hs) hc hr).imp ?_
  rintro l S ⟨o, ho, e⟩
  obtain ⟨o', ho', e'⟩ := C98_permanent hM hC after ho
  exact ⟨o', ho', e' ▸ e⟩

/-- a sweep (object 0), its descriptions (1, 2), a spectrum (3) and a relation (4) -/
def sweepAndOthers : Heap ℚ ℚ :=
  runSteps ratPrims (defaultMethods ratPrims) (defaultConvMethods ratPrims (defaultMethods ratPrims))
    [.call (.axisNew 0 3 1), .call (.construct .sweep (.axis 0) (.list [1, 2, 3, 4])),
     .call (.axisNew 0 2 1), .call (.construct .spectrum (.axis 1) (.list [5, 6, 7])),
     .call (.axisNew 0 3 1), .call (.construct .relation (.axis 2) (.list [1, 1, 1, 1]))] (emptyHeap ℚ ℚ)

/-- `sweep.diff()`, `sweep.shift(1)`, `relation.shift(1)`, `spectrum + 1`, `2 - sweep`, `relation * sweep` and `sweep.get_spectrum()` -/
example :
    let M := defaultMethods ratPrims
    let C := defaultConvMethods ratPrims M
    let classes : Call ℚ ℚ → List (Option Cls) := fun c =>
      match c.exec ratPrims M C sweepAndOthers with
      | (.ok ls, h) => ls.map fun l => (h.rels[l]?).map RelObj.cls
      | (.error _, _) => []
    sweepAndOthers.rels.map RelObj.cls = [.sweep, .relation, .relation, .spectrum, .relation] ∧
    classes (.diff 0) = [some .sweep] ∧ classes (.shift 0 1) = [some .sweep] ∧ classes (.shift 4 1) = [some .relation] ∧
    classes (.operator 3 (.number 1) .add) = [some .spectrum] ∧ classes (.operator 0 (.number 2) .rsub) = [some .sweep] ∧
    classes (.operator 4 (.obj 0) .mul) = [some .relation] ∧ classes (.equalize 4 0) = [some .relation, some .sweep] ∧
    classes (.getSpectrum 0 .none false) = [some .spectrum] := by
  refine ⟨?_, ?_, ?_, ?_, ?_, ?_, ?_, ?_, ?_⟩ <;> decide +kernel

/-- `sweep.get_spectrum().get_signal()` is the sweep itself -/
example :
    let M := defaultMethods ratPrims
    let C := defaultConvMethods ratPrims M
    let p := (Call.getSpectrum 0 .none false : Call ℚ ℚ).exec ratPrims M C sweepAndOthers
    p.1 = .ok [5] ∧ ((Call.getSignal 5 .none none : Call ℚ ℚ).exec ratPrims M C p.2).1 = .ok [0] := by
  refine ⟨?_, ?_⟩ <;> decide +kernel

end SweepDesign
