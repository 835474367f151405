import Verif.Heap.History

/-!
# Heap layer: results have their own axis object and y array
-/

set_option linter.unusedSectionVars false

namespace SweepDesign.Mem

open HM Spec

variable {K V : Type} {P : Prims K V} {M : Methods K V} {C : ConvMethods K V} {α : Type}

/-- the returned relation is new and has a new axis and a new y array -/
def OwnM (m : HM K V Loc) : Prop := ∀ h l h', m h = (.ok l, h') → ∃ o, OwnsParts h h' l o

/-- the returned relation is new, is on the axis `ax` and has a new y array -/
def OwnX (ax : Loc) (m : HM K V Loc) : Prop := ∀ h l h', m h = (.ok l, h') → ∃ o, h'.rels[l]? = some o ∧
  h.rels.length ≤ l ∧ o.x = ax ∧ h.yarrs.length ≤ o.y ∧ ax < h'.axes.length ∧ o.y < h'.yarrs.length

/-- the returned relation is new, is on the axis `ax` and has the y array `ly` -/
def OwnXY (ax ly : Loc) (m : HM K V Loc) : Prop := ∀ h l h', m h = (.ok l, h') → ∃ o, h'.rels[l]? = some o ∧
  h.rels.length ≤ l ∧ o.x = ax ∧ o.y = ly ∧ ax < h'.axes.length ∧ ly < h'.yarrs.length

theorem OwnXY.bind {X : Ex} {ax ly : Loc} {m : HM K V α} {f : α → HM K V Loc} (hm : Safe P X m)
    (hf : ∀ a, OwnXY ax ly (f a)) : OwnXY ax ly (m >>= f) := by
  intro h l h' hh
  rw [bind_ok] at hh
  obtain ⟨a, h1, h2, h3⟩ := hh
  have w := (hm h).1
  rw [h2] at w
  obtain ⟨o, p1, p2, p3⟩ := hf a _ _ _ h3
  exact ⟨o, p1, w.rels_len.trans p2, p3⟩

theorem OwnX.bind {X : Ex} {ax : Loc} {m : HM K V α} {f : α → HM K V Loc} (hm : Safe P X m)
    (hf : ∀ a, OwnX ax (f a)) : OwnX ax (m >>= f) := by
  intro h l h' hh
  rw [bind_ok] at hh
  obtain ⟨a, h1, h2, h3⟩ := hh
  have w := (hm h).1
  rw [h2] at w
  obtain ⟨o, p1, p2, p3, p4, p5⟩ := hf a _ _ _ h3
  exact ⟨o, p1, w.rels_len.trans p2, p3, w.yarrs_len.trans p4, p5⟩

theorem OwnX.bindY {X : Ex} {ax : Loc} {m : HM K V Loc} {f : Loc → HM K V Loc} (hm : Safe P X m) (hy : FreshY m)
    (hf : ∀ ly, OwnXY ax ly (f ly)) : OwnX ax (m >>= f) := by
  intro h l h' hh
  rw [bind_ok] at hh
  obtain ⟨a, h1, h2, h3⟩ := hh
  have w := (hm h).1
  have w' := hy _ _ _ h2
  rw [h2] at w
  obtain ⟨o, p1, p2, p3, p4, p5, p6⟩ := hf a _ _ _ h3
  exact ⟨o, p1, w.rels_len.trans p2, p3, by rw [p4]; exact w', p5, by rw [p4]; exact p6⟩

theorem OwnM.bind {X : Ex} {m : HM K V α} {f : α → HM K V Loc} (hm : Safe P X m) (hf : ∀ a, OwnM (f a)) :
    OwnM (m >>= f) := by
  intro h l h' hh
  rw [bind_ok] at hh
  obtain ⟨a, h1, h2, h3⟩ := hh
  have w := (hm h).1
  rw [h2] at w
  obtain ⟨o, p⟩ := hf a _ _ _ h3
  exact ⟨o, p.rel, w.rels_len.trans p.isNew, w.axes_len.trans p.axis, w.yarrs_len.trans p.ys, p.axis_lt, p.ys_lt⟩

/-- the first component of the result is a new axis -/
def FreshA1 (m : HM K V (Loc × Loc)) : Prop := ∀ h p h', m h = (.ok p, h') → h.axes.length ≤ p.1

theorem OwnM.bindA {X : Ex} {m : HM K V Loc} {f : Loc → HM K V Loc} (hm : Safe P X m) (ha : FreshA m)
    (hf : ∀ a, OwnX a (f a)) : OwnM (m >>= f) := by
  intro h l h' hh
  rw [bind_ok] at hh
  obtain ⟨a, h1, h2, h3⟩ := hh
  have w := (hm h).1
  have w' := ha _ _ _ h2
  rw [h2] at w
  obtain ⟨o, p1, p2, p3, p4, p5, p6⟩ := hf a _ _ _ h3
  exact ⟨o, p1, w.rels_len.trans p2, by rw [p3]; exact w', w.yarrs_len.trans p4, by rw [p3]; exact p5, p6⟩

theorem OwnM.bindA1 {X : Ex} {m : HM K V (Loc × Loc)} {f : Loc × Loc → HM K V Loc} (hm : Safe P X m) (ha : FreshA1 m)
    (hf : ∀ a, OwnX a.1 (f a)) : OwnM (m >>= f) := by
  intro h l h' hh
  rw [bind_ok] at hh
  obtain ⟨a, h1, h2, h3⟩ := hh
  have w := (hm h).1
  have w' := ha _ _ _ h2
  rw [h2] at w
  obtain ⟨o, p1, p2, p3, p4, p5, p6⟩ := hf a _ _ _ h3
  exact ⟨o, p1, w.rels_len.trans p2, by rw [p3]; exact w', w.yarrs_len.trans p4, by rw [p3]; exact p5, p6⟩

theorem ownX_raise (ax : Loc) (e : Err) : OwnX ax (raise e : HM K V Loc) := by
  intro h l h' hh; simp [raise] at hh

theorem ownXY_initAxis (c : Cls) (g : ConfigIds) (ax ly : Loc) (cp : Option Loc) :
    OwnXY ax ly (initAxis P c g ax ly cp) := by
  intro h l h' hh
  unfold initAxis at hh
  rw [bind_ok] at hh
  obtain ⟨n, h1, hn, hh⟩ := hh
  rw [bind_ok] at hh
  obtain ⟨v, h2, hv, hh⟩ := hh
  obtain ⟨hv, rfl⟩ := getY_ok.1 hv
  have w := (safe_axisSize (P := P) (X := ∅) ax h).1
  rw [hn] at w
  split at hh
  · simp [raise] at hh
  · simp only [newRel, Prod.mk.injEq, Except.ok.injEq] at hh
    obtain ⟨rfl, rfl⟩ := hh
    refine ⟨mkRelObj c g ax ly cp, by simp, w.rels_len, rfl, rfl, ?_, (List.getElem?_eq_some_iff.1 hv).1⟩
    obtain ⟨v', h3, hv', -⟩ := bind_ok.1 hn
    obtain ⟨a, ha, -⟩ := axisValues_ok hv'
    exact (List.getElem?_eq_some_iff.1 ha).1.trans_le w.axes_len

theorem fresh_npArray (y : HYArg V) : FreshY (npArray y : HM K V Loc) := by
  intro h l h' hh
  unfold npArray at hh
  split at hh
  · simp [raise] at hh
  · rw [bind_ok] at hh
    obtain ⟨v, h1, hv, hh⟩ := hh
    obtain ⟨-, rfl⟩ := getY_ok.1 hv
    exact fresh_newY _ _ _ _ hh
  · exact fresh_newY _ _ _ _ hh

theorem ownX_relInit_axis (c : Cls) (ax : Loc) (y : HYArg V) (cp : Option Loc) :
    OwnX ax (relInit P M c (.axis ax) y cp) := by
  unfold relInit
  exact OwnX.bind (P := P) (X := ∅) safe_config fun g =>
    OwnX.bindY (P := P) (X := ∅) (safe_npArray _) (fresh_npArray _) fun ly => ownXY_initAxis _ _ _ _ _

theorem ownM_relInit_rel (c : Cls) (r : Loc) (y : HYArg V) (cp : Option Loc) :
    OwnM (relInit P M c (.rel r) y cp) := by
  unfold relInit
  refine OwnM.bind (P := P) (X := ∅) safe_config fun g => OwnM.bind (P := P) (X := ∅) (safe_getRel _) fun o => ?_
  intro h l h' hh
  rw [bind_ok] at hh
  obtain ⟨ax, h1, hax, hh⟩ := hh
  rw [bind_ok] at hh
  obtain ⟨v, h2, hv, hh⟩ := hh
  obtain ⟨hv, rfl⟩ := getY_ok.1 hv
  have w := (safe_axisCopy (P := P) (X := ∅) o.x h).1
  have w' := fresh_axisCopy _ _ _ _ hax
  rw [hax] at w
  have hlt : ax < h2.axes.length := by
    obtain ⟨a, h3, ha, hn⟩ := bind_ok.1 hax
    obtain ⟨-, rfl⟩ := getAxis_ok.1 ha
    simp only [newAxis, Prod.mk.injEq, Except.ok.injEq] at hn
    obtain ⟨rfl, rfl⟩ := hn
    simp
  simp only [newY, newRel, bind_run, Prod.mk.injEq, Except.ok.injEq] at hh
  obtain ⟨rfl, rfl⟩ := hh
  exact ⟨_, by simp only []; simp; rfl, w.rels_len, w', w.yarrs_len, hlt, by simp [mkRelObj]⟩

/-- finishing a sweep keeps axis and y -/
theorem ownX_sweepInit (hM : GoodMethods P M) {ax : Loc} {m : HM K V Loc} (hm : OwnX ax m) (c : Cls) (ft at' ap : Option Loc) :
    OwnX ax (m >>= fun l => if c = .sweep then sweepInit M l ft at' ap else pure l) := by
  intro h l h' hh
  rw [bind_ok] at hh
  obtain ⟨l0, h1, hl0, hh⟩ := hh
  obtain ⟨o, p1, p2, p3, p4, p5, p6⟩ := hm _ _ _ hl0
  split at hh
  · have hl := sweepInit_ret hh
    subst hl
    have w := (safe_sweepInit (X := (∅ : Ex).addR l) hM (Set.mem_insert _ _) ft at' ap h1).1
    rw [hh] at w
    obtain ⟨o', ho', e, -⟩ := w.rels l o p1
    exact ⟨o', ho', p2, e.x.trans p3, by rw [e.y]; exact p4, p5.trans_le w.axes_len,
      by rw [e.y]; exact p6.trans_le w.yarrs_len⟩
  · simp only [pure_run, Prod.mk.injEq, Except.ok.injEq] at hh
    obtain ⟨rfl, rfl⟩ := hh
    exact ⟨o, p1, p2, p3, p4, p5, p6⟩

theorem ownM_sweepInit (hM : GoodMethods P M) {m : HM K V Loc} (hm : OwnM m) (c : Cls) (ft at' ap : Option Loc) :
    OwnM (m >>= fun l => if c = .sweep then sweepInit M l ft at' ap else pure l) := by
  intro h l h' hh
  rw [bind_ok] at hh
  obtain ⟨l0, h1, hl0, hh⟩ := hh
  obtain ⟨o, p⟩ := hm _ _ _ hl0
  split at hh
  · have hl := sweepInit_ret hh
    subst hl
    have w := (safe_sweepInit (X := (∅ : Ex).addR l) hM (Set.mem_insert _ _) ft at' ap h1).1
    rw [hh] at w
    obtain ⟨o', ho', e, -⟩ := w.rels l o p.rel
    exact ⟨o', ho', p.isNew, by rw [e.x]; exact p.axis, by rw [e.y]; exact p.ys,
      by rw [e.x]; exact p.axis_lt.trans_le w.axes_len, by rw [e.y]; exact p.ys_lt.trans_le w.yarrs_len⟩
  · simp only [pure_run, Prod.mk.injEq, Except.ok.injEq] at hh
    obtain ⟨rfl, rfl⟩ := hh
    exact ⟨o, p⟩

theorem ownX_construct (hM : GoodMethods P M) (c : Cls) (ax : Loc) (y : HYArg V) (cp : Option Loc) :
    OwnX ax (construct P M c (.axis ax) y cp) :=
  ownX_sweepInit hM (ownX_relInit_axis c ax y cp) c none none none

theorem ownM_construct_rel (hM : GoodMethods P M) (c : Cls) (r : Loc) (y : HYArg V) (cp : Option Loc) :
    OwnM (construct P M c (.rel r) y cp) :=
  ownM_sweepInit hM (ownM_relInit_rel c r y cp) c none none none

/-- Contract: methods that make an axis make a new one. -/
structure FreshMethods (M : Methods K V) : Prop where
  fromArray : ∀ n x f r, FreshA (M.fromArray n x f r)
  integrate : ∀ n r, FreshA1 (M.integrate n r)
  differentiate : ∀ n r, FreshA1 (M.differentiate n r)

structure FreshConvMethods (C : ConvMethods K V) : Prop where
  convolve : ∀ n c r1 r2, FreshA1 (C.convolve n c r1 r2)
  correlate : ∀ n c r1 r2, FreshA1 (C.correlate n c r1 r2)

theorem ownM_construct_array (hM : GoodMethods P M) (hF : FreshMethods M) (c : Cls) (x : List K) (f : Bool) (y : HYArg V)
    (cp : Option Loc) : OwnM (construct P M c (.array x f) y cp) := by
  refine ownM_sweepInit hM ?_ c none none none
  unfold relInit
  refine OwnM.bind (P := P) (X := ∅) safe_config fun g => ?_
  intro h l h' hh
  rw [bind_ok] at hh
  obtain ⟨ly, h1, hly, hh⟩ := hh
  rw [bind_ok] at hh
  obtain ⟨ax, h2, hax, hh⟩ := hh
  have w1 := (safe_npArray (P := P) (X := ∅) y h).1
  rw [hly] at w1
  have w2 := (hM.fromArray g.fromArray x f true h1).1
  rw [hax] at w2
  obtain ⟨o, p1, p2, p3, p4, p5, p6⟩ := ownXY_initAxis _ _ _ _ _ _ _ _ hh
  exact ⟨o, p1, (w1.rels_len.trans w2.rels_len).trans p2,
    by rw [p3]; exact w1.axes_len.trans (hF.fromArray _ _ _ _ _ _ _ hax),
    by rw [p4]; exact fresh_npArray _ _ _ _ hly, by rw [p3]; exact p5, by rw [p4]; exact p6⟩

theorem ownM_relSelect (hM : GoodMethods P M) (r : Loc) (s e : Option K) : OwnM (relSelect P M r s e) := by
  unfold relSelect
  exact OwnM.bind (P := P) (X := ∅) (safe_getRel _) fun _ => OwnM.bind (P := P) (X := ∅) (safe_getAxis _) fun _ =>
    OwnM.bind (P := P) (X := ∅) (safe_axisValues _) fun _ => OwnM.bind (P := P) (X := ∅) (safe_getY _) fun _ =>
    OwnM.bind (P := P) (X := ∅) (safe_lift _) fun _ =>
    OwnM.bindA (P := P) (X := ∅) (safe_axisNew _ _ _) (fresh_axisNew _ _ _) fun _ => ownX_construct hM _ _ _ _

theorem ownM_copyList (hM : GoodMethods P M) (c : Cls) (ax ly : Loc) (f : List V → List V) :
    OwnM (axisCopy ax >>= fun nx => getY ly >>= fun y => construct P M c (.axis nx) (.list (f y)) none) :=
  OwnM.bindA (P := P) (X := ∅) (safe_axisCopy _) (fresh_axisCopy _) fun _ =>
    OwnX.bind (P := P) (X := ∅) (safe_getY _) fun _ => ownX_construct hM _ _ _ _

theorem ownM_relExp (hM : GoodMethods P M) (r : Loc) : OwnM (relExp P M r) :=
  OwnM.bind (P := P) (X := ∅) (safe_getRel _) fun _ => ownM_copyList hM _ _ _ _

theorem ownM_getAmp (hM : GoodMethods P M) (r : Loc) : OwnM (getAmp P M r) :=
  OwnM.bind (P := P) (X := ∅) (safe_getRel _) fun _ => ownM_copyList hM _ _ _ _

theorem ownM_getPhase (hM : GoodMethods P M) (r : Loc) : OwnM (getPhase P M r) :=
  OwnM.bind (P := P) (X := ∅) (safe_getRel _) fun _ => ownM_copyList hM _ _ _ _

theorem ownM_relDiff (hM : GoodMethods P M) (hF : FreshMethods M) (r : Loc) : OwnM (relDiff P M r) :=
  OwnM.bind (P := P) (X := ∅) (safe_getRel _) fun _ =>
    OwnM.bindA1 (P := P) (hM.differentiate _ _) (hF.differentiate _ _) fun _ => ownX_construct hM _ _ _ _

theorem ownM_relIntegrate (hM : GoodMethods P M) (hF : FreshMethods M) (r : Loc) : OwnM (relIntegrate P M r) :=
  OwnM.bind (P := P) (X := ∅) (safe_getRel _) fun _ =>
    OwnM.bindA1 (P := P) (hM.integrate _ _) (hF.integrate _ _) fun _ => ownX_construct hM _ _ _ _

theorem safe_interpAxisOf (hM : GoodMethods P M) (caps : Captured) (x : HXArg K) : Safe P ∅ (interpAxisOf M caps x) := by
  unfold interpAxisOf
  split
  · safe_steps
  · safe_steps
  · exact hM.fromArray _ _ _ _

theorem fresh_interpAxisOf (hF : FreshMethods M) (caps : Captured) (x : HXArg K) :
    FreshA (interpAxisOf M caps x) := by
  unfold interpAxisOf
  split
  · intro h l h' hh
    rw [bind_ok] at hh
    obtain ⟨o, h1, ho, hh⟩ := hh
    obtain ⟨-, rfl⟩ := getRel_ok.1 ho
    exact fresh_axisCopy _ _ _ _ hh
  · exact fresh_axisCopy _
  · exact hF.fromArray _ _ _ _

theorem ownM_relInterp (hM : GoodMethods P M) (hF : FreshMethods M) (r : Loc) (x : HXArg K) :
    OwnM (relInterp P M r x) := by
  unfold relInterp
  refine OwnM.bind (P := P) (X := ∅) (safe_getRel _) fun _ =>
    OwnM.bindA (P := P) (X := ∅) (safe_interpAxisOf hM _ _) (fresh_interpAxisOf hF _ _) fun _ => ?_
  exact OwnX.bind (P := P) (X := ∅) (safe_axisValues _) fun _ => OwnX.bind (P := P) (X := ∅) (safe_newX _) fun _ =>
    OwnX.bind (P := P) (X := ∅) (safe_getY _) fun _ => OwnX.bind (P := P) (X := ∅) (safe_newY _) fun _ =>
    OwnX.bind (P := P) (hM.interp _ _ _ _) fun _ => ownX_construct hM _ _ _ _

theorem ownM_relShift (hM : GoodMethods P M) (r : Loc) (d : K) : OwnM (relShift P M r d) := by
  unfold relShift
  refine OwnM.bind (P := P) (X := ∅) (safe_getRel _) fun _ =>
    OwnM.bindA (P := P) (X := ∅) (safe_axisCopy _) (fresh_axisCopy _) fun nx => ?_
  exact OwnX.bind (P := P) (X := ∅) (safe_getAxis _) fun _ =>
    OwnX.bind (P := P) (X := ⟨{nx}, ∅, ∅⟩) (safe_axisSetStart _ rfl) fun _ =>
    OwnX.bind (P := P) (X := ∅) (safe_getAxis _) fun _ =>
    OwnX.bind (P := P) (X := ⟨{nx}, ∅, ∅⟩) (safe_axisSetStop _ rfl) fun _ => ownX_construct hM _ _ _ _

theorem ownM_relOperation (hM : GoodMethods P M) (a : Loc) (b : HArg V) (op : MathOp) :
    OwnM (relOperation P M a b op) := by
  unfold relOperation
  refine OwnM.bind (P := P) (X := ∅) (safe_getRel _) fun _ => ?_
  split
  · exact OwnM.bind (P := P) (X := ∅) (safe_relEqualize hM _ _) fun _ => OwnM.bind (P := P) (X := ∅) (safe_getRel _) fun _ =>
      OwnM.bind (P := P) (X := ∅) (safe_getRel _) fun _ =>
      OwnM.bindA (P := P) (X := ∅) (safe_axisCopy _) (fresh_axisCopy _) fun _ =>
      OwnX.bind (P := P) (X := ∅) (safe_getY _) fun _ => OwnX.bind (P := P) (X := ∅) (safe_newY _) fun _ =>
      OwnX.bind (P := P) (X := ∅) (safe_getY _) fun _ => OwnX.bind (P := P) (X := ∅) (safe_newY _) fun _ =>
      OwnX.bind (P := P) (hM.mathOp _ _ _ _) fun _ => ownX_construct hM _ _ _ _
  · exact OwnM.bindA (P := P) (X := ∅) (safe_axisCopy _) (fresh_axisCopy _) fun _ =>
      OwnX.bind (P := P) (X := ∅) (safe_getY _) fun _ => OwnX.bind (P := P) (X := ∅) (safe_newY _) fun _ =>
      OwnX.bind (P := P) (hM.mathOp _ _ _ _) fun _ => ownX_construct hM _ _ _ _

theorem safe_convertOperand (hM : GoodMethods P M) {X : Ex} (c : Cls) (b : PyOperand V) (op : MathOp) :
    Safe P X (convertOperand P M c b op) := by
  unfold convertOperand
  split
  · split
    · exact safe_inp2signalOperation hM _
    · split
      · exact safe_input2spectrumOperation hM _
      · exact safe_pure _
  · exact safe_pure _

theorem ownM_operator (hM : GoodMethods P M) (a : Loc) (b : PyOperand V) (op : MathOp) : OwnM (operator P M a b op) :=
  OwnM.bind (P := P) (X := ∅) (safe_getRel _) fun _ => OwnM.bind (P := P) (X := ∅) (safe_convertOperand hM _ _ _) fun _ =>
    ownM_relOperation hM _ _ _

theorem ownM_fromAmpPhase (hM : GoodMethods P M) (a p : Loc) : OwnM (fromAmpPhase P M a p) :=
  OwnM.bind (P := P) (X := ∅) (safe_operator hM _ _ _) fun _ => OwnM.bind (P := P) (X := ∅) (safe_relExp hM _) fun _ =>
    OwnM.bind (P := P) (X := ∅) (safe_operator hM _ _ _) fun _ => ownM_construct_rel hM _ _ _ _

theorem ownM_spAddPhase (hM : GoodMethods P M) (s : Loc) (o : PyOperand V) (op : MathOp) :
    OwnM (spAddPhase P M s o op) :=
  OwnM.bind (P := P) (X := ∅) (safe_input2spectrum hM _) fun _ => OwnM.bind (P := P) (X := ∅) (safe_getAmp hM _) fun _ =>
    OwnM.bind (P := P) (X := ∅) (safe_getPhase hM _) fun _ => OwnM.bind (P := P) (X := ∅) (safe_getPhase hM _) fun _ =>
    OwnM.bind (P := P) (X := ∅) (safe_operator hM _ _ _) fun _ => ownM_fromAmpPhase hM _ _

theorem ownM_reverseFilter (hM : GoodMethods P M) (s : Loc) (p : K) (b : Bool) (fs fe : Option K) :
    OwnM (reverseFilter P M s p b fs fe) :=
  OwnM.bind (P := P) (X := ∅) (safe_relSelect hM _ _ _) fun _ => OwnM.bind (P := P) (X := ∅) (safe_getAmp hM _) fun _ =>
    OwnM.bind (P := P) (X := ∅) (safe_relMax _) fun _ => OwnM.bind (P := P) (X := ∅) (safe_operator hM _ _ _) fun _ =>
    OwnM.bind (P := P) (X := ∅) (safe_operator hM _ _ _) fun _ => OwnM.bind (P := P) (X := ∅) (safe_getPhase hM _) fun _ =>
    OwnM.bind (P := P) (X := ∅) (safe_operator hM _ _ _) fun _ => ownM_fromAmpPhase hM _ _

theorem ownM_sgAddPhase (hM : GoodMethods P M) (s : Loc) (o : PyOperand V) (op : MathOp) :
    OwnM (sgAddPhase P M s o op) :=
  OwnM.bind (P := P) (X := ∅) (safe_getRel _) fun _ => OwnM.bind (P := P) (X := ∅) (safe_getSpectrum0 hM _) fun _ =>
    OwnM.bind (P := P) (X := ∅) (safe_spAddPhase hM _ _ _) fun q =>
    OwnM.bind (P := P) (X := ⟨∅, {q}, ∅⟩) (safe_getSignal hM _ _ fun _ => rfl) fun _ => ownM_construct_rel hM _ _ _ _

theorem ownM_reverseSignal (hM : GoodMethods P M) (s : Loc) (p : K) (b : Bool) (fs fe : Option K) :
    OwnM (reverseSignal P M s p b fs fe) :=
  OwnM.bind (P := P) (X := ∅) (safe_getRel _) fun _ => OwnM.bind (P := P) (X := ∅) (safe_getSpectrum0 hM _) fun _ =>
    OwnM.bind (P := P) (X := ∅) (safe_reverseFilter hM _ _ _ _ _) fun q =>
    OwnM.bind (P := P) (X := ⟨∅, {q}, ∅⟩) (safe_getSignal hM _ _ fun _ => rfl) fun _ => ownM_construct_rel hM _ _ _ _

theorem ownM_shift (hM : GoodMethods P M) (r : Loc) (d : K) : OwnM (shift P M r d) := by
  unfold shift
  refine OwnM.bind (P := P) (X := ∅) (safe_getRel _) fun _ => ?_
  split
  · unfold sgShift
    exact OwnM.bind (P := P) (X := ∅) (safe_getSpectrum0 hM _) fun _ => OwnM.bind (P := P) (X := ∅) (safe_getRel _) fun _ =>
      OwnM.bind (P := P) (X := ∅) (safe_axisValues _) fun _ =>
      OwnM.bind (P := P) (X := ∅) (safe_construct hM _ _ _ _) fun _ => ownM_sgAddPhase hM _ _ _
  · exact ownM_relShift hM _ _

theorem ownM_relConv (hM : GoodMethods P M) {C : ConvCall K V} (hC : GoodConv P C)
    (hF : ∀ g c r1 r2, FreshA1 (C g c r1 r2)) (c : Cls) (r1 r2 : Loc) : OwnM (relConv P M C c r1 r2) :=
  OwnM.bind (P := P) (X := ∅) safe_config fun _ =>
    OwnM.bindA1 (P := P) (hC _ _ _ _) (hF _ _ _ _) fun _ => ownX_construct hM _ _ _ _

theorem ownM_clsConv (hM : GoodMethods P M) {C : ConvCall K V} (hC : GoodConv P C)
    (hF : ∀ g c r1 r2, FreshA1 (C g c r1 r2)) (c : Cls) (a b : PyOperand V) : OwnM (clsConv P M C c a b) := by
  unfold clsConv
  split
  · split
    · exact ownM_relConv hM hC hF _ _ _
    · intro h l h' hh; simp [raise] at hh
  · exact OwnM.bind (P := P) (X := ∅) (safe_input2spectrum hM _) fun _ =>
      OwnM.bind (P := P) (X := ∅) (safe_input2spectrum hM _) fun _ => ownM_relConv hM hC hF _ _ _
  · exact OwnM.bind (P := P) (X := ∅) (safe_inp2signal hM _) fun _ =>
      OwnM.bind (P := P) (X := ∅) (safe_inp2signal hM _) fun _ =>
      OwnM.bind (P := P) (X := ∅) (safe_relConv hM hC _ _ _) fun _ => ownM_construct_rel hM _ _ _ _

theorem own_deepcopy {r : Loc} {h h' : Heap K V} {l : Loc} {o : RelObj} (ho : h.rels[r]? = some o)
    (hx : o.x < h.axes.length) (hy : o.y < h.yarrs.length) (hh : deepcopy r h = (.ok l, h')) :
    ∃ o', OwnsParts h h' l o' := by
  unfold deepcopy at hh
  rw [ho] at hh
  simp only [Prod.mk.injEq, Except.ok.injEq] at hh
  obtain ⟨rfl, rfl⟩ := hh
  refine ⟨o.offset h.axes.length h.yarrs.length h.rels.length, ?_, Nat.le_add_right _ _, Nat.le_add_left _ _,
    Nat.le_add_left _ _, ?_, ?_⟩
  · simp only []
    rw [List.getElem?_append_right (by omega), List.getElem?_map]
    simp [ho]
  · simp [RelObj.offset]; exact hx
  · simp [RelObj.offset]; exact hy

/-- The results of `equalize` have their own parts, and differ from each other. -/
theorem own_equalize (hM : GoodMethods P M) (hF : FreshMethods M) {r1 r2 : Loc} {h h' : Heap K V} {q : Loc × Loc}
    (w1 : ∀ o, h.rels[r1]? = some o → o.x < h.axes.length ∧ o.y < h.yarrs.length)
    (w2 : ∀ o, h.rels[r2]? = some o → o.x < h.axes.length ∧ o.y < h.yarrs.length)
    (hh : relEqualize P M r1 r2 h = (.ok q, h')) :
    ∃ o1 o2, OwnsParts h h' q.1 o1 ∧ OwnsParts h h' q.2 o2 ∧ o1.x ≠ o2.x ∧ o1.y ≠ o2.y ∧ q.1 ≠ q.2 := by
  have fin : ∀ {h1 : Heap K V} {q1 q2 : Loc} {p1 p2 : RelObj}, OwnsParts h h1 q1 p1 → OwnsParts h1 h' q2 p2 →
      Le ∅ h h1 → Le ∅ h1 h' → ∃ o1 o2, OwnsParts h h' q1 o1 ∧ OwnsParts h h' q2 o2 ∧ o1.x ≠ o2.x ∧ o1.y ≠ o2.y ∧
        q1 ≠ q2 := by
    intro h1 q1 q2 p1 p2 a b l1 l2
    obtain ⟨p1', hp, e, -⟩ := l2.rels q1 p1 a.rel
    have hq1 := (List.getElem?_eq_some_iff.1 a.rel).1
    refine ⟨p1', p2, ⟨hp, a.isNew, by rw [e.x]; exact a.axis, by rw [e.y]; exact a.ys,
      by rw [e.x]; exact a.axis_lt.trans_le l2.axes_len, by rw [e.y]; exact a.ys_lt.trans_le l2.yarrs_len⟩,
      ⟨b.rel, l1.rels_len.trans b.isNew, l1.axes_len.trans b.axis, l1.yarrs_len.trans b.ys, b.axis_lt, b.ys_lt⟩,
      by rw [e.x]; exact (a.axis_lt.trans_le b.axis).ne, by rw [e.y]; exact (a.ys_lt.trans_le b.ys).ne,
      (hq1.trans_le b.isNew).ne⟩
  unfold relEqualize at hh
  rw [bind_ok] at hh
  obtain ⟨o1, h1, ho1, hh⟩ := hh
  obtain ⟨ho1, rfl⟩ := getRel_ok.1 ho1
  rw [bind_ok] at hh
  obtain ⟨o2, h2, ho2, hh⟩ := hh
  obtain ⟨ho2, rfl⟩ := getRel_ok.1 ho2
  split at hh
  · rw [bind_ok] at hh
    obtain ⟨q1, h3, hq1, hh⟩ := hh
    rw [bind_ok] at hh
    obtain ⟨q2, h4, hq2, hh⟩ := hh
    simp only [pure_run, Prod.mk.injEq, Except.ok.injEq] at hh
    obtain ⟨rfl, rfl⟩ := hh
    obtain ⟨p1, hp1⟩ := own_deepcopy ho1 (w1 _ ho1).1 (w1 _ ho1).2 hq1
    have l1 := (safe_deepcopy (P := P) (X := ∅) r1 h2).1
    rw [hq1] at l1
    obtain ⟨o2', ho2', e2, -⟩ := l1.rels r2 o2 ho2
    obtain ⟨p2, hp2⟩ := own_deepcopy ho2' (by rw [e2.x]; exact (w2 _ ho2).1.trans_le l1.axes_len)
      (by rw [e2.y]; exact (w2 _ ho2).2.trans_le l1.yarrs_len) hq2
    have l2 := (safe_deepcopy (P := P) (X := ∅) r2 h3).1
    rw [hq2] at l2
    exact fin hp1 hp2 l1 l2
  · rw [bind_ok] at hh
    obtain ⟨g, h3, hg, hh⟩ := hh
    rw [bind_ok] at hh
    obtain ⟨nx, h4, hnx, hh⟩ := hh
    rw [bind_ok] at hh
    obtain ⟨q1, h5, hq1, hh⟩ := hh
    rw [bind_ok] at hh
    obtain ⟨q2, h6, hq2, hh⟩ := hh
    simp only [pure_run, Prod.mk.injEq, Except.ok.injEq] at hh
    obtain ⟨rfl, rfl⟩ := hh
    have l0 : Le ∅ h2 h4 := by
      simp only [config, Prod.mk.injEq] at hg
      obtain ⟨-, rfl⟩ := hg
      have := (hM.commonX g.commonX o1.x o2.x h2).1
      rw [hnx] at this; exact this
    obtain ⟨p1, hp1⟩ := ownM_relInterp hM hF _ _ _ _ _ hq1
    obtain ⟨p2, hp2⟩ := ownM_relInterp hM hF _ _ _ _ _ hq2
    have l1 := (safe_relInterp (X := ∅) hM r1 (.axis nx) h4).1
    rw [hq1] at l1
    have l2 := (safe_relInterp (X := ∅) hM r2 (.axis nx) h5).1
    rw [hq2] at l2
    exact fin ⟨hp1.rel, l0.rels_len.trans hp1.isNew, l0.axes_len.trans hp1.axis, l0.yarrs_len.trans hp1.ys, hp1.axis_lt,
      hp1.ys_lt⟩ hp2 (l0.trans l1) l2

/-! ## the default methods make new axes -/

theorem fresh_defaultMethods : FreshMethods (defaultMethods P) where
  fromArray _ x f r := fresh_axisFromArray x f r
  integrate _ r := by
    intro h p h' hh
    change defIntegrate P r h = _ at hh
    unfold defIntegrate at hh
    rw [bind_ok] at hh
    obtain ⟨o, h1, ho, hh⟩ := hh
    obtain ⟨-, rfl⟩ := getRel_ok.1 ho
    rw [bind_ok] at hh
    obtain ⟨nx, h2, hnx, hh⟩ := hh
    rw [bind_ok] at hh
    obtain ⟨_, _, _, hh⟩ := hh
    rw [bind_ok] at hh
    obtain ⟨_, _, _, hh⟩ := hh
    rw [bind_ok] at hh
    obtain ⟨_, _, _, hh⟩ := hh
    rw [bind_ok] at hh
    obtain ⟨_, _, _, hh⟩ := hh
    simp only [pure_run, Prod.mk.injEq, Except.ok.injEq] at hh
    rw [← hh.1]
    exact fresh_axisCopy _ _ _ _ hnx
  differentiate _ r := by
    intro h p h' hh
    change defDifferentiate P r h = _ at hh
    unfold defDifferentiate at hh
    rw [bind_ok] at hh
    obtain ⟨o, h1, ho, hh⟩ := hh
    obtain ⟨-, rfl⟩ := getRel_ok.1 ho
    rw [bind_ok] at hh
    obtain ⟨nx, h2, hnx, hh⟩ := hh
    rw [bind_ok] at hh
    obtain ⟨_, _, _, hh⟩ := hh
    rw [bind_ok] at hh
    obtain ⟨_, _, _, hh⟩ := hh
    rw [bind_ok] at hh
    obtain ⟨_, _, _, hh⟩ := hh
    rw [bind_ok] at hh
    obtain ⟨_, _, _, hh⟩ := hh
    rw [bind_ok] at hh
    obtain ⟨_, _, _, hh⟩ := hh
    simp only [pure_run, Prod.mk.injEq, Except.ok.injEq] at hh
    rw [← hh.1]
    exact fresh_axisCopy _ _ _ _ hnx

theorem FreshA1.bind {X : Ex} {m : HM K V α} {f : α → HM K V (Loc × Loc)} (hm : Safe P X m) (hf : ∀ a, FreshA1 (f a)) :
    FreshA1 (m >>= f) := by
  intro h l h' hh
  rw [bind_ok] at hh
  obtain ⟨a, h1, h2, h3⟩ := hh
  have w := (hm h).1
  rw [h2] at w
  exact w.axes_len.trans (hf a _ _ _ h3)

theorem fresh_defConv (hM : GoodMethods P M) (np : List V → List V → List V) (r1 r2 : Loc) :
    FreshA1 (defConv P M np r1 r2) := by
  unfold defConv
  refine FreshA1.bind (P := P) (X := ∅) (safe_getRel _) fun _ => FreshA1.bind (P := P) (X := ∅) (safe_getAxis _) fun _ =>
    FreshA1.bind (P := P) (X := ∅) (safe_shift hM _ _) fun _ => FreshA1.bind (P := P) (X := ∅) (safe_getRel _) fun _ =>
    FreshA1.bind (P := P) (X := ∅) (safe_getAxis _) fun _ => FreshA1.bind (P := P) (X := ∅) (safe_shift hM _ _) fun _ =>
    FreshA1.bind (P := P) (X := ∅) (safe_relEqualize hM _ _) fun _ =>
    FreshA1.bind (P := P) (X := ∅) (safe_getRel _) fun _ => FreshA1.bind (P := P) (X := ∅) (safe_getAxis _) fun _ => ?_
  intro h p h' hh
  rw [bind_ok] at hh
  obtain ⟨nx, h1, hnx, hh⟩ := hh
  rw [bind_ok] at hh
  obtain ⟨_, _, _, hh⟩ := hh
  rw [bind_ok] at hh
  obtain ⟨_, _, _, hh⟩ := hh
  rw [bind_ok] at hh
  obtain ⟨_, _, _, hh⟩ := hh
  rw [bind_ok] at hh
  obtain ⟨_, _, _, hh⟩ := hh
  simp only [pure_run, Prod.mk.injEq, Except.ok.injEq] at hh
  rw [← hh.1]
  exact fresh_axisNew _ _ _ _ _ _ hnx

theorem fresh_defaultConvMethods (hM : GoodMethods P M) : FreshConvMethods (defaultConvMethods P M) :=
  ⟨fun _ _ _ _ => fresh_defConv hM _ _ _, fun _ _ _ _ => fresh_defConv hM _ _ _⟩

end SweepDesign.Mem
