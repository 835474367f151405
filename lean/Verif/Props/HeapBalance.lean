import Verif.Props.HeapSessionKinds

/-!
# C141: in a session every relation has as many samples as its axis has points
-/

set_option linter.unusedSectionVars false

namespace SweepDesign.Mem

open HM Spec

variable {K V : Type} {P : Prims K V} {G : GenPrims K V} {L : LibPrims K V} {M : Methods K V} {C : ConvMethods K V} {α β : Type} {F : Set Loc}

/-! ## Specification -/

/-- no relation stands on the axis -/
def _root_.SweepDesign.Spec.Unused (h : Heap K V) (l : Loc) : Prop := ∀ (r : Loc) (o : RelObj), h.rels[r]? = some o → o.x ≠ l

/-- every relation has an axis and a y array, and the axis has as many points as the y array has samples -/
def _root_.SweepDesign.Spec.AllFit (P : Prims K V) (h : Heap K V) : Prop := ∀ (r : Loc) (o : RelObj), h.rels[r]? = some o →
  ∃ (a : AxisObj K) (v : List K) (y : List V), h.axes[o.x]? = some a ∧ P.mkArr a.start a.stop a.sample = .ok v ∧
    h.yarrs[o.y]? = some y ∧ v.length = y.length

/-! ## Machinery -/

/-- `m` keeps the relations in order, provided no relation stands on the axes in `F` -/
def Bals (P : Prims K V) (F : Set Loc) (m : HM K V α) : Prop := ∀ h, Coh P h → AllFit P h → (∀ l ∈ F, Unused h l) →
  Coh P (m h).2 ∧ AllFit P (m h).2

/-- `m` makes no relation and changes none -/
def Quiet (m : HM K V α) : Prop := ∀ h, (m h).2.rels = h.rels

theorem Bals.mono {F' : Set Loc} {m : HM K V α} (hm : Bals P F m) (hF : F ⊆ F') : Bals P F' m :=
  fun h c a u => hm h c a fun l hl => u l (hF hl)

theorem Bals.of_empty {m : HM K V α} (hm : Bals P ∅ m) : Bals P F m := hm.mono (Set.empty_subset _)

theorem Bals.bind {m : HM K V α} {f : α → HM K V β} (hm : Bals P F m) (hf : ∀ a, Bals P ∅ (f a)) : Bals P F (m >>= f) := by
  intro h c a u
  have k := hm h c a u
  rcases hk : m h with ⟨e | b, h1⟩
  · rw [bind_of_error hk]; rw [hk] at k; exact k
  · rw [bind_of_ok hk]; rw [hk] at k
    exact hf b h1 k.1 k.2 fun l hl => hl.elim

theorem Bals.quiet {m : HM K V α} {f : α → HM K V β} (hm : Bals P F m) (hq : Quiet m) (hf : ∀ a, Bals P F (f a)) :
    Bals P F (m >>= f) := by
  intro h c a u
  have k := hm h c a u
  have q := hq h
  rcases hk : m h with ⟨e | b, h1⟩
  · rw [bind_of_error hk]; rw [hk] at k; exact k
  · rw [bind_of_ok hk]; rw [hk] at k q
    refine hf b h1 k.1 k.2 fun l hl r o ho => u l hl r o ?_
    simp only at q
    rwa [← q]

/-- what only adds objects and fills caches, and leaves the relations, is harmless -/
theorem bals_of_safe {m : HM K V α} {R : Set Loc} (hm : Safe P ⟨∅, R, ∅⟩ m) (hq : Quiet m) : Bals P F m := by
  intro h c hb _
  refine ⟨(hm h).2 c, fun r o ho => ?_⟩
  rw [hq h] at ho
  obtain ⟨a, v, y, ha, hv, hy, e⟩ := hb r o ho
  obtain ⟨a', ha', l⟩ := (hm h).1.axes _ a ha
  obtain ⟨y', hy', l'⟩ := (hm h).1.yarrs _ y hy
  obtain ⟨e1, e2, e3, -, -⟩ := l (fun h => h.elim)
  obtain rfl := l' (fun h => h.elim)
  exact ⟨a', v, y', ha', by rw [e1, e2, e3]; exact hv, hy', e⟩

theorem Quiet.bind {m : HM K V α} {f : α → HM K V β} (hm : Quiet m) (hf : ∀ a, Quiet (f a)) : Quiet (m >>= f) := by
  intro h
  have k := hm h
  rcases hk : m h with ⟨e | b, h1⟩
  · rw [bind_of_error hk]; rw [hk] at k; exact k
  · rw [bind_of_ok hk]; rw [hk] at k; exact (hf b h1).trans k

theorem quiet_pure (a : α) : Quiet (pure a : HM K V α) := fun _ => rfl
theorem quiet_raise (e : Err) : Quiet (raise e : HM K V α) := fun _ => rfl
theorem quiet_lift (x : Except Err α) : Quiet (lift x : HM K V α) := fun _ => rfl
theorem quiet_config : Quiet (config : HM K V ConfigIds) := fun _ => rfl
theorem quiet_getAxis (l : Loc) : Quiet (getAxis l : HM K V (AxisObj K)) := fun h => by unfold getAxis; split <;> rfl
theorem quiet_getX (l : Loc) : Quiet (getX l : HM K V (List K)) := fun h => by unfold getX; split <;> rfl
theorem quiet_getY (l : Loc) : Quiet (getY l : HM K V (List V)) := fun h => by unfold getY; split <;> rfl
theorem quiet_getRel (l : Loc) : Quiet (getRel l : HM K V RelObj) := fun h => by unfold getRel; split <;> rfl
theorem quiet_newX (x : List K) : Quiet (newX x : HM K V Loc) := fun _ => rfl
theorem quiet_newY (y : List V) : Quiet (newY y : HM K V Loc) := fun _ => rfl
theorem quiet_newAxis (a : AxisObj K) : Quiet (newAxis a : HM K V Loc) := fun _ => rfl
theorem quiet_putAxis (l : Loc) (a : AxisObj K) : Quiet (putAxis l a : HM K V Unit) := fun _ => rfl

theorem bals_pure (a : α) : Bals P F (pure a : HM K V α) := bals_of_safe (R := ∅) (safe_pure _) (quiet_pure _)

theorem bals_raise (e : Err) : Bals P F (raise e : HM K V α) := bals_of_safe (R := ∅) (safe_raise _) (quiet_raise _)

theorem bals_lift (x : Except Err α) : Bals P F (lift x : HM K V α) := bals_of_safe (R := ∅) (safe_lift _) (quiet_lift _)

theorem bals_config : Bals P F (config : HM K V ConfigIds) := bals_of_safe (R := ∅) safe_config quiet_config

theorem bals_getAxis (l : Loc) : Bals P F (getAxis l : HM K V (AxisObj K)) :=
  bals_of_safe (R := ∅) (safe_getAxis _) (quiet_getAxis _)

theorem bals_getX (l : Loc) : Bals P F (getX l : HM K V (List K)) := bals_of_safe (R := ∅) (safe_getX _) (quiet_getX _)

theorem bals_getY (l : Loc) : Bals P F (getY l : HM K V (List V)) := bals_of_safe (R := ∅) (safe_getY _) (quiet_getY _)

theorem bals_getRel (l : Loc) : Bals P F (getRel l : HM K V RelObj) := bals_of_safe (R := ∅) (safe_getRel _) (quiet_getRel _)

theorem bals_newX (x : List K) : Bals P F (newX x : HM K V Loc) := bals_of_safe (R := ∅) (safe_newX _) (quiet_newX _)

theorem bals_newY (y : List V) : Bals P F (newY y : HM K V Loc) := bals_of_safe (R := ∅) (safe_newY _) (quiet_newY _)

theorem bals_axisNew (s e d : K) : Bals P F (axisNew s e d : HM K V Loc) := bals_of_safe (R := ∅) (safe_axisNew _ _ _) (quiet_newAxis _)

theorem quiet_axisArray (l : Loc) : Quiet (axisArray P l) := by
  refine (quiet_getAxis _).bind fun a => ?_
  split
  · exact quiet_pure _
  · exact (quiet_lift _).bind fun _ => (quiet_newX _).bind fun _ => (quiet_putAxis _ _).bind fun _ => quiet_pure _

theorem quiet_axisValues (l : Loc) : Quiet (axisValues P l) := (quiet_axisArray l).bind fun _ => quiet_getX _

theorem quiet_axisSize (l : Loc) : Quiet (axisSize P l) := (quiet_axisValues l).bind fun _ => quiet_pure _

theorem quiet_axisActual (l : Loc) : Quiet (axisActual P l) := by
  refine (quiet_getAxis _).bind fun a => ?_
  split
  · exact quiet_pure _
  · exact (quiet_axisValues _).bind fun _ => (quiet_lift _).bind fun _ => (quiet_getAxis _).bind fun _ =>
      (quiet_putAxis _ _).bind fun _ => quiet_pure _

theorem quiet_axisCopy (l : Loc) : Quiet (axisCopy l : HM K V Loc) := (quiet_getAxis _).bind fun _ => quiet_newAxis _

theorem bals_axisArray (l : Loc) : Bals P F (axisArray P l) := bals_of_safe (R := ∅) (safe_axisArray _) (quiet_axisArray _)

theorem bals_axisValues (l : Loc) : Bals P F (axisValues P l) := bals_of_safe (R := ∅) (safe_axisValues _) (quiet_axisValues _)

theorem bals_axisSize (l : Loc) : Bals P F (axisSize P l) := bals_of_safe (R := ∅) (safe_axisSize _) (quiet_axisSize _)

theorem bals_axisActual (l : Loc) : Bals P F (axisActual P l) := bals_of_safe (R := ∅) (safe_axisActual _) (quiet_axisActual _)

theorem bals_axisCopy (l : Loc) : Bals P F (axisCopy l : HM K V Loc) := bals_of_safe (R := ∅) (safe_axisCopy _) (quiet_axisCopy _)

/-- no relation stands on a new axis -/
theorem Bals.copy {l : Loc} {f : Loc → HM K V β} (hf : ∀ n, Bals P {n} (f n)) : Bals P F (axisCopy l >>= f) := by
  intro h c hb u
  rcases ha : h.axes[l]? with _ | a
  · have : axisCopy l h = (.error .typeError, h) := by unfold axisCopy; rw [bind_of_error (getAxis_none ha)]
    rw [bind_of_error this]; exact ⟨c, hb⟩
  · have k := @bals_axisCopy K V P F l h c hb u
    rw [bind_of_ok (axisCopy_run ha)]
    rw [axisCopy_run ha] at k
    refine hf _ _ k.1 k.2 ?_
    rintro n rfl r o ho
    obtain ⟨a', -, -, ha', -⟩ := hb r o ho
    exact ne_of_lt (List.getElem?_eq_some_iff.1 ha').1

/-- assignments to an axis without relations are harmless -/
theorem bals_set {l : Loc} {a : AxisObj K} {h : Heap K V} (hb : AllFit P h) (hl : Unused h l) :
    AllFit P { h with axes := h.axes.set l a } := by
  intro r o ho
  obtain ⟨a', v, y, ha', hv⟩ := hb r o ho
  exact ⟨a', v, y, by rw [set_getElem?_of_ne fun e => hl r o ho e.symm]; exact ha', hv⟩

theorem bals_setter {l : Loc} (f : AxisObj K → AxisObj K) (hs : Safe P ⟨{l}, ∅, ∅⟩ (getAxis l >>= fun a => putAxis l (f a) : HM K V Unit))
    (hl : l ∈ F) : Bals P F (getAxis l >>= fun a => putAxis l (f a) : HM K V Unit) := by
  intro h c hb u
  refine ⟨(hs h).2 c, ?_⟩
  rcases ha : h.axes[l]? with _ | a
  · rw [bind_of_error (getAxis_none ha)]; exact hb
  · rw [bind_of_ok (getAxis_run ha)]
    exact bals_set hb (u l hl)

theorem bals_axisSetStart {l : Loc} (v : K) (hl : l ∈ F) : Bals P F (axisSetStart l v : HM K V Unit) :=
  bals_setter (fun a => { a with start := v, arr := none, actual := none }) (safe_axisSetStart v rfl) hl

theorem bals_axisSetStop {l : Loc} (v : K) (hl : l ∈ F) : Bals P F (axisSetStop l v : HM K V Unit) :=
  bals_setter (fun a => { a with stop := v, arr := none, actual := none }) (safe_axisSetStop v rfl) hl

theorem quiet_axisSetStart (l : Loc) (v : K) : Quiet (axisSetStart l v : HM K V Unit) := (quiet_getAxis _).bind fun _ => quiet_putAxis _ _

theorem quiet_axisSetStop (l : Loc) (v : K) : Quiet (axisSetStop l v : HM K V Unit) := (quiet_getAxis _).bind fun _ => quiet_putAxis _ _

theorem bals_axisFromArray (x : List K) (f r : Bool) : Bals P F (axisFromArray P x f r : HM K V Loc) :=
  (bals_lift _).bind fun _ => bals_axisNew _ _ _

theorem bals_npArray (y : HYArg V) : Bals P F (npArray y : HM K V Loc) := by
  cases y
  · exact bals_raise _
  · exact (bals_getY _).bind fun _ => bals_newY _
  · exact bals_newY _

/-- a new relation whose axis and y array are there and fit -/
theorem fit_newRel {h : Heap K V} (hb : AllFit P h) {q : RelObj} {a : AxisObj K} {v : List K} {y : List V}
    (ha : h.axes[q.x]? = some a) (hv : P.mkArr a.start a.stop a.sample = .ok v) (hy : h.yarrs[q.y]? = some y)
    (e : v.length = y.length) : AllFit P { h with rels := h.rels ++ [q] } := by
  intro r o ho
  rcases getElem?_append_singleton ho with ho | ⟨-, rfl⟩
  · exact hb r o ho
  · exact ⟨a, v, y, ha, hv, hy, e⟩

theorem coh_rels {h : Heap K V} (c : Coh P h) (q : List RelObj) : Coh P { h with rels := q } := c

/-- writing into a y array, keeping its length -/
theorem fit_modify {h : Heap K V} (hb : AllFit P h) {l : Loc} {f : List V → List V}
    (hf : ∀ y, h.yarrs[l]? = some y → (f y).length = y.length) : AllFit P { h with yarrs := h.yarrs.modify l f } := by
  intro r o ho
  obtain ⟨a, v, y, ha, hv, hy, e⟩ := hb r o ho
  by_cases hl : l = o.y
  · subst hl
    exact ⟨a, v, f y, ha, hv, by simp [hy], by rw [hf y hy, e]⟩
  · exact ⟨a, v, y, ha, hv, by simp [List.getElem?_modify, hl, hy], e⟩

/-- the check in the constructor -/
theorem bals_initAxis (k : Cls) (g : ConfigIds) (ax ly : Loc) (cp : Option Loc) : Bals P F (initAxis P k g ax ly cp) := by
  intro h c hb u
  unfold initAxis
  have w := safe_axisSize (P := P) (X := ∅) ax h
  have kk := @bals_axisSize K V P F ax h c hb u
  rcases ha : h.axes[ax]? with _ | a
  · have : axisSize P ax h = (.error .typeError, h) := by
      unfold axisSize axisValues axisArray
      rw [bind_assoc_run, bind_assoc_run, bind_of_error (getAxis_none ha)]
    rw [bind_of_error this]; exact ⟨c, hb⟩
  have hn := axisSize_run c ha
  rcases hs : axisSize P ax h with ⟨e | n, h1⟩
  · rw [bind_of_error hs]; rw [hs] at kk; exact kk
  rw [bind_of_ok hs]
  rw [hs] at w kk hn
  obtain ⟨a', ha', l⟩ := w.1.axes _ a ha
  obtain ⟨e1, e2, e3, -, -⟩ := l (fun h => h.elim)
  rcases hy : h1.yarrs[ly]? with _ | y
  · have : (getY ly : HM K V (List V)) h1 = (.error .typeError, h1) := by simp [getY, hy]
    rw [bind_of_error this]; exact kk
  rw [bind_of_ok (getY_run hy)]
  rcases hm : P.mkArr a.start a.stop a.sample with e | v
  · rw [hm] at hn; cases hn
  · rw [hm] at hn
    simp only [Except.map, Except.ok.injEq] at hn
    split
    · exact kk
    · rename_i hne
      rw [not_not] at hne
      refine ⟨coh_rels kk.1 _, fit_newRel (q := mkRelObj k g ax ly cp) kk.2 ha' (by rw [e1, e2, e3]; exact hm) hy ?_⟩
      rw [← hn]; exact hne

/-- the copy of a relation -/
theorem bals_copyRel (k : Cls) (g : ConfigIds) (r : Loc) (cp : Option Loc) : Bals P F (getRel r >>= fun o => axisCopy o.x >>= fun ax =>
    getY o.y >>= fun v => newY v >>= fun ly => newRel (mkRelObj k g ax ly cp) : HM K V Loc) := by
  intro h c hb u
  rcases ho : h.rels[r]? with _ | o
  · rw [bind_of_error (getRel_none ho)]; exact ⟨c, hb⟩
  obtain ⟨a, v, y, ha, hv, hy, e⟩ := hb r o ho
  rw [bind_of_ok (getRel_run ho), bind_of_ok (axisCopy_run ha)]
  have k1 := @bals_axisCopy K V P F o.x h c hb u
  rw [axisCopy_run ha] at k1
  have hy1 : ({ h with axes := h.axes ++ [a] } : Heap K V).yarrs[o.y]? = some y := hy
  rw [bind_of_ok (getY_run hy1)]
  have k2 := @bals_newY K V P ∅ y _ k1.1 k1.2 (fun _ h => h.elim)
  refine ⟨coh_rels k2.1 _, fit_newRel (q := mkRelObj k g h.axes.length h.yarrs.length cp) (a := a) (v := v) (y := y) k2.2 ?_ hv ?_ e⟩
  · show (h.axes ++ [a])[h.axes.length]? = some a
    simp
  · show (h.yarrs ++ [y])[h.yarrs.length]? = some y
    simp

theorem bals_deepcopy (r : Loc) : Bals P F (deepcopy r : HM K V Loc) := by
  intro h c hb _
  refine ⟨(safe_deepcopy (P := P) (X := ∅) r h).2 c, ?_⟩
  unfold deepcopy
  split
  · exact hb
  · intro s o ho
    simp only at ho
    by_cases hs : s < h.rels.length
    · rw [List.getElem?_append_left hs] at ho
      obtain ⟨a, v, y, ha, hv, hy, e⟩ := hb s o ho
      exact ⟨a, v, y, getElem?_append_some ha, hv, getElem?_append_some hy, e⟩
    · rw [List.getElem?_append_right (Nat.not_lt.1 hs), List.getElem?_map, Option.map_eq_some_iff] at ho
      obtain ⟨p, hp, rfl⟩ := ho
      obtain ⟨a, v, y, ha, hv, hy, e⟩ := hb _ p hp
      refine ⟨a.offset h.xarrs.length, v, y, ?_, hv, ?_, e⟩
      · show (h.axes ++ h.axes.map (AxisObj.offset h.xarrs.length))[p.x + h.axes.length]? = _
        rw [List.getElem?_append_right (Nat.le_add_left _ _), List.getElem?_map, Nat.add_sub_cancel, ha]
        rfl
      · show (h.yarrs ++ h.yarrs)[p.y + h.yarrs.length]? = _
        rw [List.getElem?_append_right (Nat.le_add_left _ _), Nat.add_sub_cancel, hy]

/-- overwriting attributes of an object other than the axis and the y array -/
theorem bals_update {l : Loc} {f : RelObj → RelObj} (h1 : ∀ o, (f o).x = o.x) (h2 : ∀ o, (f o).y = o.y)
    {g : HM K V β} (hg : Bals P ∅ g) : Bals P F (getRel l >>= fun o => putRel l (f o) >>= fun _ => g) := by
  intro h c hb _
  rcases ho : h.rels[l]? with _ | o
  · rw [bind_of_error (getRel_none ho)]; exact ⟨c, hb⟩
  · rw [bind_of_ok (getRel_run ho)]
    refine hg { h with rels := h.rels.set l (f o) } c ?_ (fun _ k => k.elim)
    intro s q hq
    rcases set_getElem?_cases hq with ⟨rfl, rfl, -⟩ | ⟨-, hq⟩
    · obtain ⟨a, v, y, k⟩ := hb l o ho
      exact ⟨a, v, y, by rw [h1, h2]; exact k⟩
    · exact hb s q hq

macro "bals_steps" : tactic => `(tactic| repeat (with_reducible first
  | exact bals_pure _
  | exact bals_raise _
  | exact bals_lift _
  | exact bals_config
  | exact bals_getAxis _
  | exact bals_getX _
  | exact bals_getY _
  | exact bals_getRel _
  | exact bals_newX _
  | exact bals_newY _
  | exact bals_deepcopy _
  | assumption
  | refine Bals.bind ?_ (fun _ => ?_)
  | split))

/-- The methods keep the relations in order. -/
structure BalMethods (P : Prims K V) (M : Methods K V) : Prop where
  fromArray : ∀ n x f r, Bals P ∅ (M.fromArray n x f r)
  mathOp : ∀ n l w op, Bals P ∅ (M.mathOp n l w op)
  interp : ∀ n a b c, Bals P ∅ (M.interp n a b c)
  integrateOne : ∀ n r, Bals P ∅ (M.integrateOne n r)
  integrate : ∀ n r, Bals P ∅ (M.integrate n r)
  differentiate : ∀ n r, Bals P ∅ (M.differentiate n r)
  commonX : ∀ n a b, Bals P ∅ (M.commonX n a b)
  signal2spectrum : ∀ n r f z, Bals P ∅ (M.signal2spectrum n r f z)
  spectrum2signal : ∀ n r f z, Bals P ∅ (M.spectrum2signal n r f z)
  getFt : ∀ n r, Bals P ∅ (M.getFt n r)
  getAt : ∀ n r, Bals P ∅ (M.getAt n r)
  spectrogram : ∀ n r, Bals P ∅ (M.spectrogram n r)

section
variable (hK : BalMethods P M)
include hK

theorem bals_relInit {c : Cls} (x : HXArg K) (y : HYArg V) (cp : Option Loc) :
    Bals P F (relInit P M c x y cp) := by
  unfold relInit
  refine bals_config.bind fun g => ?_
  split
  · exact bals_copyRel _ _ _ _
  · exact (bals_npArray _).bind fun _ => bals_initAxis _ _ _ _ _
  · exact (bals_npArray _).bind fun _ => (hK.fromArray _ _ _ _).of_empty.bind fun _ => bals_initAxis _ _ _ _ _

theorem bals_givenOr (o : Option Loc) {m : HM K V Loc} (hm : Bals P F m) : Bals P F (givenOr o m) := by
  unfold givenOr; bals_steps

theorem bals_sweepInit (l : Loc) (ft at' ap : Option Loc) : Bals P F (sweepInit M l ft at' ap) := by
  unfold sweepInit
  exact bals_config.bind fun g => (bals_givenOr hK _ (hK.getFt _ _).of_empty).bind fun f =>
    bals_update (f := fun o => { o with freqTime := some f }) (fun _ => rfl) (fun _ => rfl)
    ((bals_givenOr hK _ (hK.getAt _ _).of_empty).bind fun a =>
    bals_update (f := fun o => { o with ampTime := some a }) (fun _ => rfl) (fun _ => rfl)
    ((hK.spectrogram _ _).of_empty.bind fun _ =>
    bals_update (f := fun o => { o with aPrior := ap }) (fun _ => rfl) (fun _ => rfl) (bals_pure _)))

theorem bals_constructCp {c : Cls} (x : HXArg K) (y : HYArg V) (cp : Option Loc) :
    Bals P F (construct P M c x y cp) := by
  unfold construct
  refine (bals_relInit hK _ _ _).bind fun l => ?_
  split
  · exact bals_sweepInit hK _ _ _ _
  · exact bals_pure _

theorem bals_construct (c : Cls) (x : HXArg K) (y : HYArg V) : Bals P F (construct P M c x y) :=
  bals_constructCp hK _ _ _

theorem bals_relSelect (r : Loc) (s e : Option K) : Bals P F (relSelect P M r s e) := by
  unfold relSelect
  exact (bals_getRel _).bind fun _ => (bals_getAxis _).bind fun _ => (bals_axisValues _).bind fun _ =>
    (bals_getY _).bind fun _ => (bals_lift _).bind fun _ => (bals_axisNew _ _ _).bind fun _ => bals_construct hK _ _ _

theorem bals_relExp (r : Loc) : Bals P F (relExp P M r) := by
  unfold relExp
  exact (bals_getRel _).bind fun _ => (bals_axisCopy _).bind fun _ => (bals_getY _).bind fun _ => bals_construct hK _ _ _

theorem bals_relDiff (r : Loc) : Bals P F (relDiff P M r) := by
  unfold relDiff
  exact (bals_getRel _).bind fun _ => (hK.differentiate _ _).of_empty.bind fun _ => bals_construct hK _ _ _

theorem bals_relIntegrate (r : Loc) : Bals P F (relIntegrate P M r) := by
  unfold relIntegrate
  exact (bals_getRel _).bind fun _ => (hK.integrate _ _).of_empty.bind fun _ => bals_construct hK _ _ _

theorem bals_relInterp (r : Loc) (x : HXArg K) : Bals P F (relInterp P M r x) := by
  unfold relInterp
  refine (bals_getRel _).bind fun _ => Bals.bind ?_ fun _ => (bals_axisValues _).bind fun _ => (bals_newX _).bind fun _ =>
    (bals_getY _).bind fun _ => (bals_newY _).bind fun _ => (hK.interp _ _ _ _).of_empty.bind fun _ =>
    bals_construct hK _ _ _
  unfold interpAxisOf
  split
  · exact (bals_getRel _).bind fun _ => bals_axisCopy _
  · exact bals_axisCopy _
  · exact (hK.fromArray _ _ _ _).of_empty

theorem bals_relShift (r : Loc) (d : K) : Bals P F (relShift P M r d) := by
  unfold relShift
  exact (bals_getRel _).bind fun _ => Bals.copy fun _ => (bals_getAxis _).quiet (quiet_getAxis _) fun _ =>
    (bals_axisSetStart _ (Set.mem_singleton _)).quiet (quiet_axisSetStart _ _) fun _ => (bals_getAxis _).quiet (quiet_getAxis _) fun _ =>
    (bals_axisSetStop _ (Set.mem_singleton _)).bind fun _ => bals_construct hK _ _ _

theorem bals_relEqualize (r1 r2 : Loc) : Bals P F (relEqualize P M r1 r2) := by
  unfold relEqualize
  refine (bals_getRel _).bind fun _ => (bals_getRel _).bind fun _ => ?_
  split
  · exact (bals_deepcopy _).bind fun _ => (bals_deepcopy _).bind fun _ => bals_pure _
  · exact bals_config.bind fun _ => (hK.commonX _ _ _).of_empty.bind fun _ => (bals_relInterp hK _ _).bind fun _ =>
      (bals_relInterp hK _ _).bind fun _ => bals_pure _

theorem bals_relOperation (a : Loc) (b : HArg V) (op : MathOp) : Bals P F (relOperation P M a b op) := by
  unfold relOperation
  refine (bals_getRel _).bind fun _ => ?_
  split
  · exact (bals_relEqualize hK _ _).bind fun _ => (bals_getRel _).bind fun _ => (bals_getRel _).bind fun _ =>
      (bals_axisCopy _).bind fun _ => (bals_getY _).bind fun _ => (bals_newY _).bind fun _ => (bals_getY _).bind fun _ =>
      (bals_newY _).bind fun _ => (hK.mathOp _ _ _ _).of_empty.bind fun _ => bals_construct hK _ _ _
  · exact (bals_axisCopy _).bind fun _ => (bals_getY _).bind fun _ => (bals_newY _).bind fun _ =>
      (hK.mathOp _ _ _ _).of_empty.bind fun _ => bals_construct hK _ _ _

theorem bals_getSpectrum (s : Loc) (f : HSize) (z : Bool) : Bals P F (getSpectrum P M s f z) := by
  unfold getSpectrum
  refine (bals_getRel _).bind fun _ => ?_
  split
  · exact bals_pure _
  · refine (hK.signal2spectrum _ _ _ _).of_empty.bind fun p => ?_
    exact (bals_constructCp hK _ _ _).bind fun sp =>
      bals_update (f := fun o => { o with counterpart := some sp }) (fun _ => rfl) (fun _ => rfl) (bals_pure _)

theorem bals_getSignal (s : Loc) (f : HSize) (z : Option K) : Bals P F (getSignal P M s f z) := by
  unfold getSignal
  refine (bals_getRel _).bind fun _ => ?_
  split
  · exact bals_pure _
  · refine (hK.spectrum2signal _ _ _ _).of_empty.bind fun p => ?_
    exact (bals_constructCp hK _ _ _).bind fun sp =>
      bals_update (f := fun o => { o with counterpart := some sp }) (fun _ => rfl) (fun _ => rfl) (bals_pure _)

theorem bals_getAmp (s : Loc) : Bals P F (getAmp P M s) := by
  unfold getAmp
  exact (bals_getRel _).bind fun _ => (bals_axisCopy _).bind fun _ => (bals_getY _).bind fun _ => bals_construct hK _ _ _

theorem bals_getPhase (s : Loc) : Bals P F (getPhase P M s) := by
  unfold getPhase
  exact (bals_getRel _).bind fun _ => (bals_axisCopy _).bind fun _ => (bals_getY _).bind fun _ => bals_construct hK _ _ _

theorem bals_inp2signalOperation (b : PyOperand V) : Bals P F (inp2signalOperation P M b) := by
  unfold inp2signalOperation
  split
  · refine (bals_getRel _).bind fun o => ?_
    split
    · rename_i h
      exact (bals_getSignal hK _ _ _).bind fun _ => bals_pure _
    · exact bals_pure _
  · exact bals_pure _

theorem bals_input2spectrumOperation (b : PyOperand V) : Bals P F (input2spectrumOperation P M b) := by
  unfold input2spectrumOperation
  split
  · refine (bals_getRel _).bind fun o => ?_
    split
    · rename_i h
      exact (bals_getSpectrum hK _ _ _).bind fun _ => bals_pure _
    · exact bals_pure _
  · exact bals_pure _
  · exact bals_raise _

theorem bals_operator (a : Loc) (b : PyOperand V) (op : MathOp) : Bals P F (operator P M a b op) := by
  unfold operator
  refine (bals_getRel _).bind fun _ => Bals.bind ?_ fun _ => bals_relOperation hK _ _ _
  have h1 := @bals_inp2signalOperation K V P M ∅ hK b
  have h2 := @bals_input2spectrumOperation K V P M ∅ hK b
  unfold convertOperand
  bals_steps

theorem bals_getNorm (r : Loc) : Bals P F (getNorm P M r) := by
  unfold getNorm relNorm
  exact (bals_getRel _).bind fun _ => (bals_operator hK _ _ _).bind fun _ =>
    (hK.integrateOne _ _).of_empty.bind fun _ => (bals_getAxis _).bind fun _ => bals_lift _

theorem bals_inp2signal (a : PyOperand V) : Bals P F (inp2signal P M a) := by
  unfold inp2signal
  split
  · refine (bals_getRel _).bind fun o => ?_
    split
    · rename_i h
      exact bals_getSignal hK _ _ _
    · split
      · exact bals_pure _
      · exact bals_construct hK _ _ _
  · exact bals_raise _

theorem bals_input2spectrum (a : PyOperand V) : Bals P F (input2spectrum P M a) := by
  unfold input2spectrum
  split
  · refine (bals_getRel _).bind fun o => ?_
    split
    · rename_i h
      exact bals_getSpectrum hK _ _ _
    · split
      · exact bals_pure _
      · exact bals_construct hK _ _ _
  · exact bals_raise _

theorem bals_fromAmpPhase (a p : Loc) : Bals P F (fromAmpPhase P M a p) := by
  unfold fromAmpPhase
  exact (bals_operator hK _ _ _).bind fun q => (bals_relExp hK _).bind fun e =>
    (bals_operator hK _ _ _).bind fun _ => bals_construct hK _ _ _

theorem bals_spAddPhase (s : Loc) (b : PyOperand V) (op : MathOp) : Bals P F (spAddPhase P M s b op) := by
  unfold spAddPhase
  exact (bals_input2spectrum hK _).bind fun so => (bals_getAmp hK _).bind fun amp =>
    (bals_getPhase hK _).bind fun p1 => (bals_getPhase hK _).bind fun p2 =>
    (bals_operator hK _ _ _).bind fun _ => bals_fromAmpPhase hK _ _

theorem bals_back {m : HM K V Loc} (hm : Bals P F m) (f : HSize) (c : Cls) :
    Bals P F (m >>= fun q => getSignal P M q f >>= fun g => construct P M c (.rel g) .absent) :=
  hm.bind fun _ => (bals_getSignal hK _ _ _).bind fun _ => bals_construct hK _ _ _

theorem bals_sgAddPhase (s : Loc) (b : PyOperand V) (op : MathOp) : Bals P F (sgAddPhase P M s b op) := by
  unfold sgAddPhase
  exact (bals_getRel _).bind fun _ => (bals_getSpectrum hK _ _ _).bind fun _ =>
    bals_back hK (bals_spAddPhase hK _ _ _) _ _

theorem bals_reverseFilter (s : Loc) (p : K) (b : Bool) (fs fe : Option K) : Bals P F (reverseFilter P M s p b fs fe) := by
  unfold reverseFilter relMax
  exact (bals_relSelect hK _ _ _).bind fun _ => (bals_getAmp hK _).bind fun _ =>
    ((bals_getRel _).bind fun _ => (bals_getY _).bind fun _ => bals_lift _).bind fun _ =>
    (bals_operator hK _ _ _).bind fun _ => (bals_operator hK _ _ _).bind fun _ =>
    (bals_getPhase hK _).bind fun _ => (bals_operator hK _ _ _).bind fun _ => bals_fromAmpPhase hK _ _

theorem bals_reverseSignal (s : Loc) (p : K) (b : Bool) (fs fe : Option K) :
    Bals P F (reverseSignal P M s p b fs fe) := by
  unfold reverseSignal
  exact (bals_getRel _).bind fun _ => (bals_getSpectrum hK _ _ _).bind fun _ =>
    bals_back hK (bals_reverseFilter hK _ _ _ _ _) _ _

theorem bals_sgShift (s : Loc) (d : K) : Bals P F (sgShift P M s d) := by
  unfold sgShift
  exact (bals_getSpectrum hK _ _ _).bind fun sp => (bals_getRel _).bind fun o => (bals_axisValues _).bind fun f =>
    (bals_construct hK _ _ _).bind fun sh => bals_sgAddPhase hK _ _ _

theorem bals_shift (r : Loc) (d : K) : Bals P F (shift P M r d) := by
  unfold shift
  refine (bals_getRel _).bind fun o => ?_
  split
  · rename_i h
    exact bals_sgShift hK _ d
  · exact bals_relShift hK _ _

theorem bals_relConv {D : ConvCall K V} (hD : ∀ g c r1 r2, Bals P ∅ (D g c r1 r2)) (c : Cls) (r1 r2 : Loc) :
    Bals P F (relConv P M D c r1 r2) := by
  unfold relConv
  exact bals_config.bind fun _ => (hD _ _ _ _).of_empty.bind fun _ => bals_construct hK _ _ _

theorem bals_clsConv {D : ConvCall K V} (hD : ∀ g c r1 r2, Bals P ∅ (D g c r1 r2)) (c : Cls) (a b : PyOperand V) :
    Bals P F (clsConv P M D c a b) := by
  have sig : Bals P F (inp2signal P M a >>= fun r1 => inp2signal P M b >>= fun r2 => relConv P M D c r1 r2 >>= fun q =>
      construct P M c (.rel q) .absent) :=
    (bals_inp2signal hK _).bind fun _ => (bals_inp2signal hK _).bind fun _ => (bals_relConv hK hD _ _ _).bind fun _ =>
      bals_construct hK _ _ _
  cases c with
  | relation =>
    unfold clsConv
    simp only []
    split
    · exact bals_relConv hK hD _ _ _
    · exact bals_raise _
  | spectrum => exact (bals_input2spectrum hK _).bind fun _ => (bals_input2spectrum hK _).bind fun _ => bals_relConv hK hD _ _ _
  | signal => exact sig
  | sweep => exact sig

theorem bals_defConv (np : List V → List V → List V) (r1 r2 : Loc) : Bals P F (defConv P M np r1 r2) := by
  unfold defConv
  exact (bals_getRel _).bind fun _ => (bals_getAxis _).bind fun _ => (bals_shift hK _ _).bind fun _ =>
    (bals_getRel _).bind fun _ => (bals_getAxis _).bind fun _ => (bals_shift hK _ _).bind fun _ =>
    (bals_relEqualize hK _ _).bind fun _ => (bals_getRel _).bind fun _ => (bals_getAxis _).bind fun _ =>
    (bals_axisNew _ _ _).bind fun _ => (bals_getY _).bind fun _ => (bals_getRel _).bind fun _ => (bals_getY _).bind fun _ =>
    (bals_newY _).bind fun _ => bals_pure _

end

theorem bals_relGetData (r : Loc) : Bals P F (relGetData P r) := by
  unfold relGetData
  refine (bals_getRel _).bind fun _ => (bals_axisSize _).bind fun _ => (bals_getY _).bind fun _ => ?_
  split
  · exact bals_raise _
  · exact (bals_axisValues _).bind fun _ => (bals_newX _).bind fun _ => (bals_newY _).bind fun _ => bals_pure _

theorem bals_defaultMethods : BalMethods P (defaultMethods P) where
  fromArray n x f r := bals_axisFromArray _ _ _
  mathOp n l w op := by
    show Bals _ _ (defMathOp P l w op)
    unfold defMathOp npOperand
    bals_steps
  interp n a b c := by
    have := @bals_axisValues K V P ∅ c
    show Bals _ _ (defInterp P a b c)
    unfold defInterp
    bals_steps
  integrateOne n r := (bals_relGetData r).bind fun _ => (bals_getX _).bind fun _ => (bals_getY _).bind fun _ => bals_pure _
  integrate n r := (bals_getRel _).bind fun _ => Bals.copy fun _ => (bals_getAxis _).quiet (quiet_getAxis _) fun _ =>
    (bals_axisSetStart _ (Set.mem_singleton _)).bind fun _ => (bals_getY _).bind fun _ => (bals_newY _).bind fun _ => bals_pure _
  differentiate n r := (bals_getRel _).bind fun _ => Bals.copy fun _ => (bals_getAxis _).quiet (quiet_getAxis _) fun _ =>
    (bals_axisSetStart _ (Set.mem_singleton _)).quiet (quiet_axisSetStart _ _) fun _ => (bals_axisSetStop _ (Set.mem_singleton _)).bind fun _ =>
    (bals_getY _).bind fun _ => (bals_newY _).bind fun _ => bals_pure _
  commonX n a b := (bals_getAxis _).bind fun _ => (bals_getAxis _).bind fun _ => bals_axisNew _ _ _
  signal2spectrum n r f z := by
    have hs : Bals P ∅ (sizeOf P f : HM K V (Option ℤ)) := by
      unfold sizeOf
      split
      · exact bals_pure _
      · exact bals_pure _
      · exact (bals_axisSize _).bind fun _ => bals_pure _
    have hf : ∀ t n, Bals P ∅ (freqAxis P t n f : HM K V Loc) := by
      intro t n
      unfold freqAxis
      split
      · exact bals_pure _
      · exact (bals_getAxis _).bind fun _ => (bals_lift _).bind fun _ => bals_axisFromArray _ _ _
    have hc : ∀ t a, Bals P ∅ (calculateSpectrum P t a f) := fun t a =>
      hs.bind fun _ => (bals_axisValues _).bind fun _ => (bals_lift _).bind fun _ => (bals_lift _).bind fun _ =>
        (hf _ _).bind fun _ => (bals_newY _).bind fun _ => bals_pure _
    show Bals _ _ (defSignal2Spectrum P r f z)
    unfold defSignal2Spectrum
    refine (bals_getRel _).bind fun _ => Bals.copy fun _ => (bals_getY _).quiet (quiet_getY _) fun _ =>
      (bals_getAxis _).quiet (quiet_getAxis _) fun _ => ?_
    split
    · exact (hc _ _).of_empty
    · split
      · exact (bals_axisSetStart _ (Set.mem_singleton _)).bind fun _ => (bals_axisSize _).bind fun _ => (bals_lift _).bind fun _ => hc _ _
      · split
        · exact (bals_axisSetStop _ (Set.mem_singleton _)).bind fun _ => (bals_axisSize _).bind fun _ => (bals_lift _).bind fun _ => hc _ _
        · exact (hc _ _).of_empty
  spectrum2signal n r f z := by
    have hs : Bals P ∅ (sizeOf P f : HM K V (Option ℤ)) := by
      unfold sizeOf
      split
      · exact bals_pure _
      · exact bals_pure _
      · exact (bals_axisSize _).bind fun _ => bals_pure _
    have hf : ∀ t n, Bals P ∅ (timeAxis P t n f z : HM K V Loc) := by
      intro t n
      unfold timeAxis
      split
      · exact bals_pure _
      · exact (bals_getAxis _).bind fun _ => (bals_lift _).bind fun _ => bals_axisNew _ _ _
    exact (bals_getRel _).bind fun _ => (bals_getY _).bind fun _ => (bals_axisCopy _).bind fun _ => hs.bind fun _ =>
      (bals_lift _).bind fun _ => (hf _ _).bind fun _ => (bals_axisValues _).bind fun _ => (bals_lift _).bind fun _ =>
      (bals_newY _).bind fun _ => bals_pure _
  getFt n r := (bals_getRel _).bind fun _ => (bals_getY _).bind fun _ => (bals_getAxis _).bind fun _ =>
    (bals_lift _).bind fun _ => bals_config.bind fun _ => (bals_newY _).bind fun _ => bals_initAxis _ _ _ _ _
  getAt n r := (bals_getRel _).bind fun _ => (bals_getY _).bind fun _ =>
    (bals_lift _).bind fun _ => bals_config.bind fun _ => (bals_newY _).bind fun _ => bals_initAxis _ _ _ _ _
  spectrogram n r := (bals_getRel _).bind fun _ => (bals_getY _).bind fun _ => (bals_getAxis _).bind fun _ => bals_lift _

/-- the same contract for the convolution methods -/
structure BalConvMethods (P : Prims K V) (C : ConvMethods K V) : Prop where
  convolve : ∀ g c r1 r2, Bals P ∅ (C.convolveCall g c r1 r2)
  correlate : ∀ g c r1 r2, Bals P ∅ (C.correlateCall g c r1 r2)

theorem bals_one {m : HM K V α} (f : α → List Loc) (hm : Bals P F m) : Bals P F (one m f) := hm.bind fun _ => bals_pure _

/-! ## Machinery: generators and library functions -/

theorem bals_interpOfRel (r : Loc) : Bals P F (interpOfRel P r) :=
  (bals_getRel _).bind fun _ => (bals_axisValues _).bind fun _ => (bals_getY _).bind fun _ => (bals_newY _).bind fun _ => bals_pure _

theorem bals_interpOfAxis (t y : Loc) : Bals P F (interpOfAxis P t y) :=
  (bals_getY _).bind fun _ => (bals_newY _).bind fun _ => (bals_axisValues _).bind fun _ => bals_pure _

theorem bals_axisGiven (time : HTime K) : Bals P F (axisGiven P time) := by
  cases time
  · exact bals_raise _
  · exact bals_pure _
  · exact bals_axisFromArray _ _ _

theorem bals_timeValues (time : HTime K) : Bals P F (timeValues P time) := by
  cases time
  · exact bals_raise _
  · exact bals_axisValues _
  · exact bals_pure _

theorem bals_valuesOf (r : Loc) : Bals P F (valuesOf r : HM K V (List V)) :=
  ((bals_getRel _).bind fun _ => bals_pure _).bind fun _ => bals_getY _

/-- the contract for `Config.integrate_function_method` -/
def BalGen (P : Prims K V) (G : GenPrims K V) : Prop := ∀ n f t, Bals P ∅ (G.intFun n f t)

section
variable (hK : BalMethods P M)
include hK

theorem bals_extractDesc (t : Option Loc) (d : PyFun K V) (a : DescArg K V) : Bals P F (extractDesc P G M t d a) := by
  cases a with
  | absent => exact bals_pure _
  | given d => exact bals_pure _
  | rel r => exact bals_interpOfRel _
  | arr l =>
    cases t with
    | none => exact bals_raise _
    | some t =>
      refine (bals_axisSize _).bind fun _ => (bals_getY _).bind fun _ => ?_
      split
      · exact (bals_getAxis _).bind fun _ => (bals_lift _).bind fun _ => (bals_axisNew _ _ _).bind fun _ =>
          (bals_axisArray _).bind fun _ => bals_config.bind fun _ => (hK.interp _ _ _ _).of_empty.bind fun _ => bals_interpOfAxis _ _
      · exact bals_interpOfAxis _ _

theorem bals_genTime (g : ConfigIds) (time : HTime K) : Bals P F (genTime M g time : HM K V _) := by
  cases time
  · exact bals_pure _
  · exact bals_pure _
  · exact (hK.fromArray _ _ _ _).of_empty.bind fun _ => bals_pure _

theorem bals_genInit (linear ones : PyFun K V) (time : HTime K) (f a : DescArg K V) : Bals P F (genInit P G M linear ones time f a) :=
  bals_config.bind fun _ => (bals_genTime hK _ _).bind fun _ => (bals_extractDesc hK _ _ _).bind fun _ =>
    (bals_extractDesc hK _ _ _).bind fun _ => bals_pure _

theorem bals_descOn (d : Desc K V) (t : Loc) : Bals P F (descOn P G M d t) := by
  unfold descOn
  split
  · exact (bals_getAxis _).bind fun _ => (bals_lift _).bind fun _ => (bals_newX _).bind fun _ => bals_config.bind fun _ =>
      (hK.interp _ _ _ _).of_empty
  · exact (bals_axisValues _).bind fun _ => (bals_lift _).bind fun _ => bals_newY _

theorem bals_firstFreq (gen : Gen K V) (t : Loc) : Bals P F (firstFreq P G M gen t) := by
  unfold firstFreq
  split
  · exact (bals_descOn hK _ _).bind fun _ => bals_pure _
  · exact bals_pure _

theorem bals_thtOn (hG : BalGen P G) (gen : Gen K V) (v : Option Loc) (t : Loc) : Bals P F (thtOn P G M gen v t) := by
  unfold thtOn
  split
  · exact (hG _ _ _).of_empty.bind fun _ => (bals_relInit hK _ _ _).bind fun _ => (bals_getRel _).bind fun _ =>
      bals_getY _
  · exact (bals_relInit hK _ _ _).bind fun _ => (bals_relIntegrate hK _).bind fun _ => (bals_getRel _).bind fun _ =>
      (bals_getY _).bind fun _ => (bals_relInit hK _ _ _).bind fun _ => (bals_getRel _).bind fun _ => bals_getY _
  · exact bals_raise _

theorem bals_calcTime (gen : Gen K V) (time : HTime K) : Bals P F (calcTime M gen time) := by
  unfold calcTime
  split
  · exact bals_pure _
  · exact (hK.fromArray _ _ _ _).of_empty
  · split
    · exact bals_raise _
    · exact bals_pure _

theorem bals_genCall (hG : BalGen P G) (gen : Gen K V) (time : HTime K) (c : V) : Bals P F (genCall P G M gen time c) := by
  refine (bals_calcTime hK _ _).bind fun t => ?_
  unfold calculate
  exact (bals_firstFreq hK _ _).bind fun _ => (bals_descOn hK _ _).bind fun _ => (bals_relInit hK _ _ _).bind fun _ =>
    (bals_descOn hK _ _).bind fun _ => (bals_getY _).bind fun _ => (bals_thtOn hK hG _ _ _).bind fun _ =>
    (bals_lift _).bind fun _ => (bals_relInit hK _ _ _).bind fun _ =>
    (bals_relInit hK _ _ _).bind fun _ => bals_sweepInit hK _ _ _ _

theorem bals_normalise (s ap : Loc) : Bals P F (normalise P G M s ap) := by
  unfold normalise
  refine (bals_getNorm hK _).bind fun _ => (bals_getNorm hK _).bind fun _ => (bals_lift _).bind fun _ => (bals_getRel _).bind fun o => ?_
  split
  · exact bals_raise _
  · exact (bals_operator hK _ _ _).bind fun a => bals_update (f := fun o => { o with ampTime := some a }) (fun _ => rfl)
      (fun _ => rfl) (bals_operator hK _ _ _)

theorem bals_aprioriCall (hG : BalGen P G) (gen : Gen K V) (ap : Loc) (time : HTime K) (c : V) (b : Bool) :
    Bals P F (aprioriCall P G M gen ap time c b) := by
  unfold aprioriCall
  refine (bals_genCall hK hG _ _ _).bind fun s => Bals.bind ?_ fun s' => ?_
  · split
    · exact bals_normalise hK _ _
    · exact bals_pure _
  · unfold setAprior
    rw [hm_bind_assoc]
    exact bals_update (f := fun o => { o with aPrior := some ap }) (fun _ => rfl) (fun _ => rfl) (bals_pure _)

theorem bals_aprSignal (y : HYArg V) (time : HTime K) : Bals P F (aprSignal P M y time) := by
  cases time
  · exact (bals_npArray _).bind fun _ => bals_raise _
  · exact bals_construct hK _ _ _
  · exact bals_construct hK _ _ _

theorem bals_aprObjects (time : HTime K) (d : AprArg V) : Bals P F (aprObjects P M time d) := by
  cases d with
  | obj l =>
    refine (bals_getRel _).bind fun o => ?_
    split
    · rename_i h
      exact (bals_getSignal hK _ _ _).bind fun _ => bals_pure _
    split
    · rename_i h
      exact (bals_getSpectrum hK _ _ _).bind fun _ => bals_pure _
    · exact (bals_construct hK _ _ _).bind fun _ =>
        (bals_getSignal hK _ _ _).bind fun _ => bals_pure _
  | other y =>
    exact (bals_aprSignal hK _ _).bind fun _ =>
      (bals_getSpectrum hK _ _ _).bind fun _ => bals_pure _

theorem bals_aprioriInit (linear ones : PyFun K V) {Q : ℕ → Convert K V} (hQ : ∀ n s, Bals P ∅ (Q n s))
    (time : HTime K) (data : AprArg V) {method : Option (Convert K V)} (hm : ∀ q ∈ method, ∀ s, Bals P ∅ (q s)) :
    Bals P F (aprioriInit P G M linear ones Q time data method) := by
  refine bals_config.bind fun g => (bals_aprObjects hK _ _).bind fun p => ?_
  have h : Bals P ∅ (method.getD (Q g.freq2time) p.2) := by
    cases method with
    | none => exact (hQ _ _).of_empty
    | some q => exact (hm q rfl _).of_empty
  exact h.bind fun _ => (bals_newY _).bind fun _ => (bals_newY _).bind fun _ => (bals_genInit hK _ _ _ _ _).bind fun _ => bals_pure _

/-! ## Machinery: the library functions -/

theorem bals_sweepOf (hG : BalGen P G) (linear ones : PyFun K V) (time : HTime K) (f a : List V) :
    Bals P F (sweepOf P G L M linear ones time f a) :=
  (bals_newY _).bind fun _ => (bals_newY _).bind fun _ => (bals_genInit hK _ _ _ _ _).bind fun _ => bals_genCall hK hG _ _ _

theorem bals_linearSweep (hG : BalGen P G) (linear ones : PyFun K V) (time : HTime K) (fs fe : K) (tp : Option K) :
    Bals P F (linearSweep P G L M linear ones time fs fe tp) :=
  (bals_timeValues _).bind fun _ => (bals_lift _).bind fun _ => (bals_lift _).bind fun _ => bals_sweepOf hK hG _ _ _ _ _

theorem bals_shuffleSweep (hG : BalGen P G) (linear ones : PyFun K V) (time : HTime K) (tp : Option K) :
    Bals P F (shuffleSweep P G L M linear ones time tp) :=
  (bals_axisGiven _).bind fun _ => (bals_getAxis _).bind fun _ => (bals_lift _).bind fun _ => (bals_axisValues _).bind fun _ =>
    (bals_lift _).bind fun _ => bals_sweepOf hK hG _ _ _ _ _

theorem bals_dwellSweep (hG : BalGen P G) (linear ones : PyFun K V) {method : Convert K V} (hm : ∀ s, Bals P ∅ (method s))
    (time : HTime K) (data : AprArg V) (tp : Option K) : Bals P F (dwellSweep P G L M linear ones method time data tp) := by
  refine (bals_axisGiven _).bind fun _ => (bals_aprioriInit hK _ _ (fun _ => hm) _ _ ?_).bind fun _ => (bals_axisValues _).bind fun _ =>
    (bals_lift _).bind fun _ => (bals_construct hK _ _ _).bind fun _ => (bals_aprioriCall hK hG _ _ _ _ _).bind fun _ =>
    bals_operator hK _ _ _
  rintro q ⟨⟩
  exact hm

theorem bals_zingerLoop (r : Loc) (ks : List ℕ) (acc : Loc) : Bals P F (zingerLoop P L M r ks acc) := by
  induction ks generalizing acc F with
  | nil => exact bals_pure _
  | cons k ks ih =>
    exact (bals_getRel _).bind fun _ => (bals_getAxis _).bind fun _ => (bals_shift hK _ _).bind fun _ =>
      (bals_operator hK _ _ _).bind fun _ => ih _

theorem bals_zingerRelation (r : Loc) (n : ℤ) : Bals P F (zingerRelation P L M r n) := by
  unfold zingerRelation
  split
  · exact bals_zingerLoop hK _ _ _
  · exact bals_pure _

theorem bals_codeEntries (c : HCode V) : Bals P F (codeEntries c : HM K V (List (PyOperand V))) := by
  cases c
  · exact ((bals_getRel _).bind fun _ => bals_pure _).bind fun _ => (bals_getY _).bind fun _ => bals_pure _
  · exact (bals_getY _).bind fun _ => bals_pure _
  · exact bals_pure _

theorem bals_segmentsLoop (base : Loc) (vs : List (PyOperand V)) (n : ℕ) (acc : Loc) : Bals P F (segmentsLoop P L M base n vs acc) := by
  induction vs generalizing n acc F with
  | nil => exact bals_pure _
  | cons v vs ih =>
    exact (bals_getRel _).bind fun _ => (bals_getAxis _).bind fun _ => (bals_shift hK _ _).bind fun _ =>
      (bals_operator hK _ _ _).bind fun _ => (bals_operator hK _ _ _).bind fun _ => ih _ _

theorem bals_codeSweepSegments (c : HCode V) (base : Loc) : Bals P F (codeSweepSegments P L M c base) := by
  refine (bals_codeEntries hK _).bind fun es => ?_
  cases es with
  | nil => exact bals_raise _
  | cons e es =>
    exact (bals_operator hK _ _ _).bind fun _ => (bals_segmentsLoop hK _ _ _ _).bind fun _ => bals_construct hK _ _ _

theorem bals_codeRelation (c : HCode V) (base : Loc) : Bals P F (codeRelation P L M c base) := by
  cases c
  · exact bals_pure _
  · exact (bals_getRel _).bind fun _ => (bals_getAxis _).bind fun _ => (bals_getY _).bind fun _ => (bals_axisNew _ _ _).bind fun _ =>
      bals_construct hK _ _ _
  · exact (bals_getRel _).bind fun _ => (bals_getAxis _).bind fun _ => (bals_axisNew _ _ _).bind fun _ => bals_construct hK _ _ _

theorem bals_convolutionSweep {D : ConvCall K V} (hD : ∀ g c r1 r2, Bals P ∅ (D g c r1 r2)) (c : HCode V) (base : Loc) :
    Bals P F (convolutionSweep P L M D c base) :=
  (bals_codeRelation hK _ _).bind fun _ => (bals_clsConv hK hD _ _ _).bind fun _ =>
    ((bals_getRel _).bind fun _ => bals_axisSize _).bind fun _ => (bals_getRel _).bind fun _ => (bals_getAxis _).bind fun _ =>
    (bals_relSelect hK _ _ _).bind fun _ => (bals_getAxis _).bind fun _ => bals_shift hK _ _

theorem bals_fixStartArray (s : Loc) : Bals P F (fixStartArray L s : HM K V Unit) := by
  intro h c hb u
  rcases hy : h.yarrs[s]? with _ | y
  · have : (getY s : HM K V (List V)) h = (.error .typeError, h) := by simp [getY, hy]
    unfold fixStartArray
    rw [bind_of_error this]; exact ⟨c, hb⟩
  unfold fixStartArray
  rw [bind_of_ok (getY_run hy)]
  split
  · split
    · exact ⟨c, hb⟩
    · rename_i b y
      refine ⟨c, fit_modify hb fun z hz => ?_⟩
      rw [hy] at hz
      cases hz
      simp
  · exact ⟨c, hb⟩

theorem bals_mSequenceRelation (time : HTime K) (s : Option Loc) (b : Bool) : Bals P F (mSequenceRelation P L M time s b) := by
  refine (bals_axisGiven _).bind fun _ => (bals_axisSize _).bind fun _ => (bals_lift _).bind fun _ =>
    (bals_givenOr hK _ (bals_newY _)).bind fun _ => (bals_fixStartArray hK _).bind fun _ => (bals_getY _).bind fun _ =>
    (bals_lift _).bind fun _ => ?_
  split
  · exact (bals_getAxis _).bind fun _ => (bals_axisNew _ _ _).bind fun _ => bals_construct hK _ _ _
  · exact bals_construct hK _ _ _

theorem bals_displacement (r : Loc) (m : V) : Bals P F (displacement P M r m) :=
  (bals_relIntegrate hK _).bind fun _ => (bals_relIntegrate hK _).bind fun _ => bals_operator hK _ _ _

theorem bals_forceFrom (r : Loc) (m : V) : Bals P F (forceFrom P M r m) :=
  (bals_relDiff hK _).bind fun _ => (bals_relDiff hK _).bind fun _ => bals_operator hK _ _ _

theorem bals_allIMFs (r : Loc) (ks : List (List V)) : Bals P F (allIMFs P M r ks) := by
  induction ks generalizing F with
  | nil => exact bals_pure _
  | cons k ks ih =>
    exact (((bals_getRel _).bind fun _ => bals_pure _).bind fun _ => (bals_axisCopy _).bind fun _ => bals_construct hK _ _ _).bind
      fun _ => ih.bind fun _ => bals_pure _

theorem bals_getIMFs (E : List V → Except Err (List (List V))) (r : Loc) : Bals P F (getIMFs P M E r) :=
  ((bals_getRel _).bind fun _ => bals_pure _).bind fun _ => (bals_getY _).bind fun _ => (bals_lift _).bind fun _ =>
    bals_allIMFs hK _ _

theorem bals_firstOfIMFs (E : List V → Except Err (List (List V))) (r : Loc) : Bals P F (firstOfIMFs P M E r) := by
  refine (bals_getIMFs hK _ _).bind fun ls => ?_
  cases ls
  · exact bals_raise _
  · exact bals_pure _

theorem bals_correctionRun (E : List V → Except Err (List (List V))) (c : Cls) (m : V) (lim : Option ℤ) (nt win : Loc)
    (rows : List (V × V)) (fuel cnt : ℕ) : Bals P F (correctionRun P L M E c m lim nt win rows fuel cnt) := by
  induction fuel generalizing cnt F with
  | zero => exact bals_pure _
  | succ fuel ih =>
    have hs : Bals P F (correctionStep P L M E c m nt win rows (cnt + 1)) :=
      (bals_lift _).bind fun _ => (bals_construct hK _ _ _).bind fun _ => (bals_displacement hK _ _).bind fun _ =>
        (bals_firstOfIMFs hK _ _).bind fun _ => (bals_operator hK _ _ _).bind fun _ => bals_pure _
    refine hs.bind fun _ => (bals_valuesOf _).bind fun _ => ?_
    split
    · exact bals_pure _
    split
    · exact bals_pure _
    · exact ih _

theorem bals_nonEmptyOr (p : Loc × Loc) : Bals P F (nonEmptyOr P p : HM K V Loc) := by
  refine ((bals_getRel _).bind fun _ => bals_axisSize _).bind fun _ => ?_
  split <;> exact bals_pure _

theorem bals_sourceCorrection (E : List V → Except Err (List (List V))) (r : Loc) (m : V) (b : Bool) (lim : Option ℤ) (pc : K)
    (fuel : ℕ) : Bals P F (sourceCorrection P L M E r m b lim pc fuel) := by
  refine (bals_getRel _).bind fun _ => Bals.copy fun _ => (bals_getAxis _).quiet (quiet_getAxis _) fun _ =>
    (bals_axisSetStart _ (Set.mem_singleton _)).bind fun _ =>
    (bals_axisValues _).bind fun _ => (bals_getAxis _).bind fun _ => (bals_lift _).bind fun _ => (bals_construct hK _ _ _).bind fun _ =>
    (bals_displacement hK _ _).bind fun _ => (bals_firstOfIMFs hK _ _).bind fun _ => (bals_operator hK _ _ _).bind fun _ =>
    (bals_valuesOf _).bind fun _ => (bals_valuesOf _).bind fun _ => (bals_lift _).bind fun _ => ?_
  split
  · refine (bals_correctionRun hK _ _ _ _ _ _ _ _ _).bind fun o => ?_
    cases o
    · exact bals_pure _
    · exact (bals_nonEmptyOr hK _).bind fun _ => (bals_forceFrom hK _ _).bind fun _ => bals_pure _
  · exact (bals_forceFrom hK _ _).bind fun _ => bals_pure _

theorem bals_windowed (imf : Loc) (xs : List K) (t : Option K) : Bals P F (windowed P L M imf xs t) := by
  cases t
  · exact bals_pure _
  · exact (bals_lift _).bind fun _ => (bals_construct hK _ _ _).bind fun _ => bals_operator hK _ _ _

theorem bals_sweepCorrection (E : List V → Except Err (List (List V))) (r : Loc) (t : Option K) :
    Bals P F (sweepCorrection P L M E r t) :=
  (bals_relIntegrate hK _).bind fun _ => (bals_relIntegrate hK _).bind fun _ => (bals_getRel _).bind fun _ =>
    (bals_axisValues _).bind fun _ => (bals_firstOfIMFs hK _ _).bind fun _ => (bals_windowed hK _ _ _).bind fun _ =>
    (bals_relDiff hK _).bind fun _ => bals_relDiff hK _

end

/-- the contract for everything that can be plugged in -/
structure BalPackage (S : Package K V) : Prop where
  methods : BalMethods S.prims S.methods
  conv : BalConvMethods S.prims S.conv
  gen : BalGen S.prims S.gen
  freq2time : ∀ n s, Bals S.prims ∅ (S.freq2time n s)

/-- the methods handed over in an action keep it -/
def Act.BalGood (P : Prims K V) : Act K V → Prop
  | .lib (.dwell q _ _ _) => ∀ s, Bals P ∅ (q s)
  | .newApr _ _ (some q) => ∀ s, Bals P ∅ (q s)
  | _ => True

theorem bals_libCall {S : Package K V} (hS : BalPackage S) (c : LibCall K V) (hc : (Act.lib c).BalGood S.prims) :
    Bals S.prims F (c.exec S.prims S.gen S.lib S.methods S.conv S.linear S.ones) := by
  cases c with
  | linear => exact (bals_linearSweep hS.methods hS.gen _ _ _ _ _ _).bind fun _ => bals_pure _
  | shuffle => exact (bals_shuffleSweep hS.methods hS.gen _ _ _ _).bind fun _ => bals_pure _
  | dwell => exact (bals_dwellSweep hS.methods hS.gen _ _ hc _ _ _).bind fun _ => bals_pure _
  | zinger => exact (bals_zingerRelation hS.methods _ _).bind fun _ => bals_pure _
  | segments => exact (bals_codeSweepSegments hS.methods _ _).bind fun _ => bals_pure _
  | convolution => exact (bals_convolutionSweep hS.methods hS.conv.convolve _ _).bind fun _ => bals_pure _
  | mSequence => exact (bals_mSequenceRelation hS.methods _ _ _).bind fun _ => bals_pure _
  | correction => exact bals_sourceCorrection hS.methods _ _ _ _ _ _ _
  | correctSweep => exact (bals_sweepCorrection hS.methods _ _ _).bind fun _ => bals_pure _


end SweepDesign.Mem

namespace SweepDesign

open Mem Mem.HM Spec

variable {K V : Type} {S : Package K V}

/-! ## C141 -/

/-- what the user does by hand: assignments only to axes on which no relation stands, writes into y arrays that keep the number of
samples (as in-place writes into an ndarray do), no writes into the arrays of axes -/
def Spec.TidyEdit (h : Heap K V) : Edit K V → Prop
  | .setStart l _ | .setStop l _ | .setSample l _ => Unused h l
  | .pokeX _ _ => False
  | .pokeY _ f => ∀ y, (f y).length = y.length
  | .setConfig _ => True

def Spec.TidySession (S : Package K V) : List (Act K V) → World K V → Prop
  | [], _ => True
  | a :: as, w => (∀ e, a = .step (.edit e) → TidyEdit w.heap e) ∧ TidySession S as (a.run S w)

/-- A call keeps the relations in order. -/
theorem bals_call {P : Prims K V} {M : Methods K V} {C : ConvMethods K V} {F : Set Loc} (hK : BalMethods P M) (hC : BalConvMethods P C)
    (c : Call K V) : Bals P F (c.exec P M C) := by
  cases c with
  | axisNew => exact bals_one _ (bals_axisNew _ _ _)
  | axisArray => exact bals_one _ (bals_axisArray _)
  | axisActual => exact bals_one _ (bals_axisActual _)
  | axisCopy => exact bals_one _ (bals_axisCopy _)
  | construct => exact bals_one _ (bals_construct hK _ _ _)
  | getData => exact bals_one _ (bals_relGetData _)
  | max => exact bals_one _ ((bals_getRel _).bind fun _ => (bals_getY _).bind fun _ => bals_lift _)
  | min => exact bals_one _ ((bals_getRel _).bind fun _ => (bals_getY _).bind fun _ => bals_lift _)
  | norm => exact bals_one _ (bals_getNorm hK _)
  | select => exact bals_one _ (bals_relSelect hK _ _ _)
  | exp => exact bals_one _ (bals_relExp hK _)
  | diff => exact bals_one _ (bals_relDiff hK _)
  | integrate => exact bals_one _ (bals_relIntegrate hK _)
  | interp => exact bals_one _ (bals_relInterp hK _ _)
  | shift => exact bals_one _ (bals_shift hK _ _)
  | equalize => exact bals_one _ (bals_relEqualize hK _ _)
  | operator => exact bals_one _ (bals_operator hK _ _ _)
  | len => exact bals_one _ ((bals_getRel _).bind fun _ => bals_axisSize _)
  | item => exact bals_one _ ((bals_getRel _).bind fun _ => (bals_axisValues _).bind fun _ => (bals_getY _).bind fun _ => bals_lift _)
  | getSpectrum => exact bals_one _ (bals_getSpectrum hK _ _ _)
  | getSignal => exact bals_one _ (bals_getSignal hK _ _ _)
  | getAmp => exact bals_one _ (bals_getAmp hK _)
  | getPhase => exact bals_one _ (bals_getPhase hK _)
  | sgAmp => exact bals_one _ ((bals_getSpectrum hK _ _ _).bind fun _ => bals_getAmp hK _)
  | sgPhase => exact bals_one _ ((bals_getSpectrum hK _ _ _).bind fun _ => bals_getPhase hK _)
  | spAddPhase => exact bals_one _ (bals_spAddPhase hK _ _ _)
  | sgAddPhase => exact bals_one _ (bals_sgAddPhase hK _ _ _)
  | reverseFilter => exact bals_one _ (bals_reverseFilter hK _ _ _ _ _)
  | reverseSignal => exact bals_one _ (bals_reverseSignal hK _ _ _ _ _)
  | fromAmpPhase => exact bals_one _ (bals_fromAmpPhase hK _ _)
  | convolve => exact bals_one _ (bals_clsConv hK hC.convolve _ _ _)
  | correlate => exact bals_one _ (bals_clsConv hK hC.correlate _ _ _)

theorem bals_edit {P : Prims K V} (e : Edit K V) {h : Heap K V} (hc : Coh P h) (hb : AllFit P h) (he : TidyEdit h e) :
    Coh P (e.exec h).2 ∧ AllFit P (e.exec h).2 := by
  cases e with
  | setStart l v => exact bals_axisSetStart (F := {l}) v rfl h hc hb (by rintro _ rfl; exact he)
  | setStop l v => exact bals_axisSetStop (F := {l}) v rfl h hc hb (by rintro _ rfl; exact he)
  | setSample l v =>
    exact bals_setter (F := {l}) (fun a => { a with sample := v, arr := none, actual := none }) (safe_axisSetSample v rfl) rfl h hc hb
      (by rintro _ rfl; exact he)
  | pokeX => exact he.elim
  | pokeY l f => exact ⟨hc, fit_modify hb fun y _ => he y⟩
  | setConfig g => exact ⟨hc, hb⟩

theorem bals_act (hS : BalPackage S) {a : Act K V} (hg : a.BalGood S.prims) {w : World K V}
    (he : ∀ e, a = .step (.edit e) → TidyEdit w.heap e) (hc : Coh S.prims w.heap) (hb : AllFit S.prims w.heap) :
    Coh S.prims (a.run S w).heap ∧ AllFit S.prims (a.run S w).heap := by
  have E : ∀ {α : Type} {m : HM K V α}, Bals S.prims ∅ m → Coh S.prims (m w.heap).2 ∧ AllFit S.prims (m w.heap).2 := fun hm =>
    hm _ hc hb (fun _ k => k.elim)
  cases a with
  | step s =>
    cases s with
    | call c => exact E (bals_call hS.methods hS.conv c)
    | edit e => exact bals_edit e hc hb (he e rfl)
  | lib c => exact E (bals_libCall hS c hg)
  | decompose => exact E (bals_getIMFs hS.methods _ _)
  | newGen => exact E (bals_genInit hS.methods _ _ _ _ _)
  | callGen i t c =>
    unfold Act.run
    dsimp only
    split
    · exact ⟨hc, hb⟩
    · exact E (bals_genCall hS.methods hS.gen _ _ _)
  | newApr t d q =>
    refine E (bals_aprioriInit hS.methods _ _ hS.freq2time _ _ ?_)
    rintro q ⟨⟩
    exact hg
  | callApr i t c b =>
    unfold Act.run
    dsimp only
    split
    · exact ⟨hc, hb⟩
    · exact E (bals_aprioriCall hS.methods hS.gen _ _ _ _ _)

/-- **C141** A session keeps it that every relation has as many samples as its axis has points. -/
theorem C141_session (hS : BalPackage S) (as : List (Act K V)) (hg : ∀ a ∈ as, a.BalGood S.prims) (w : World K V)
    (ht : TidySession S as w) (hc : Coh S.prims w.heap) (hb : AllFit S.prims w.heap) :
    Coh S.prims (runSession S as w).heap ∧ AllFit S.prims (runSession S as w).heap := by
  induction as generalizing w with
  | nil => exact ⟨hc, hb⟩
  | cons a as ih =>
    obtain ⟨hc', hb'⟩ := bals_act hS (hg a List.mem_cons_self) ht.1 hc hb
    exact ih (fun b k => hg b (List.mem_cons_of_mem _ k)) _ ht.2 hc' hb'

/-- what that means for a relation: `get_data` gives two arrays of the same length, and `len` is that length -/
theorem fit_reads {P : Prims K V} {h : Heap K V} (hc : Coh P h) (hb : AllFit P h) {r : Loc} {o : RelObj} (ho : h.rels[r]? = some o) :
    ∃ x y, dataAt P h r = .ok (some x, some y) ∧ x.length = y.length ∧ (relLen P r h).1 = .ok y.length := by
  obtain ⟨a, v, y, ha, hv, hy, e⟩ := hb r o ho
  refine ⟨v, y, ?_, e, ?_⟩
  · rw [dataAt_run hc ho ha hy, hv]
    simp [e]
  · unfold relLen
    rw [bind_of_ok (getRel_run ho)]
    have := axisSize_run hc ha
    rw [hv] at this
    rw [← e]
    exact this

/-- In a session begun from nothing every object can be read at the end: `get_data` never raises `NotEqualError` (nor anything else). -/
theorem C141_readable (hS : BalPackage S) (as : List (Act K V)) (hg : ∀ a ∈ as, a.BalGood S.prims)
    (ht : TidySession S as (newWorld K V)) (r : Loc) :
    let h := (runSession S as (newWorld K V)).heap
    r < h.rels.length → ∃ x y, dataAt S.prims h r = .ok (some x, some y) ∧ x.length = y.length ∧ (relLen S.prims r h).1 = .ok y.length := by
  intro h hr
  obtain ⟨hc, hb⟩ := C141_session hS as hg (newWorld K V) ht (coh_empty S.prims) (by
    intro r o ho
    simp [newWorld, emptyHeap] at ho)
  exact fit_reads hc hb (List.getElem?_eq_getElem hr)

/-- **C141.** The package as it comes meets the contract that `C141_session` and `C141_readable` ask for. -/
theorem C141_as_shipped {K : Type} [Field K] [LinearOrder K] [IsStrictOrderedRing K] [FloorRing K] [Star K] [PyPow K]
    {T : Transcendental K K} {N : SweepNumbers K} {L : LibPrims K K} {Q : ℕ → Convert K K}
    (hQ : ∀ n s, Bals (exactPrims (SweepNumbers.over N T)) ∅ (Q n s)) : BalPackage (asShipped T N L Q) where
  methods := bals_defaultMethods
  conv := ⟨fun _ _ _ _ => bals_defConv bals_defaultMethods _ _ _, fun _ _ _ _ => bals_defConv bals_defaultMethods _ _ _⟩
  gen _ _ _ := (bals_axisValues _).bind fun _ => (bals_getAxis _).bind fun _ => (bals_newY _).bind fun _ => bals_pure _
  freq2time := hQ

/-! ## a session over ℚ -/

theorem bal_package134 : BalPackage package134 := C141_as_shipped fun _ _ =>
  (bals_getRel _).bind fun _ => (bals_axisValues _).bind fun _ => (bals_getY _).bind fun _ => bals_pure _

/-- An axis is made and corrected before use; a signal on it; a generator on another axis and a sweep of it; spectrum, difference,
integral, sum of the signal and its spectrum; then other samples are written into the signal's array, the axis is copied and the copy
reduced, the signal interpolated onto it; and a relation with too few samples is refused. -/
def session141 : List (Act ℚ ℚ) :=
  [.step (.call (.axisNew 0 9 1)), .step (.edit (.setStop 0 5)), .step (.call (.construct .signal (.axis 0) (.list [1, 4, 2, 0, 3, 5]))),
   .step (.call (.axisNew 0 5 1)), .newGen (.axis 1) .absent (.arr 0), .callGen 0 .none 0, .step (.call (.getSpectrum 0 .none false)),
   .step (.call (.diff 0)), .step (.call (.integrate 0)), .step (.call (.operator 0 (.obj 5) .add)),
   .step (.edit (.pokeY 0 fun y => y.map fun v => v + 7)), .step (.call (.axisCopy 0)), .step (.edit (.setStop 25 3)),
   .step (.call (.interp 0 (.axis 25))), .step (.call (.construct .relation (.axis 0) (.list [1, 2])))]

theorem unused_of {h : Heap K V} {l : Loc} (hl : l ∉ h.rels.map RelObj.x) : Unused h l :=
  fun _ o ho e => hl (List.mem_map.2 ⟨o, List.mem_of_getElem? ho, e⟩)

/-- the session meets the hypotheses above: the only assignments are to axes on which nothing stands yet -/
theorem tidy141 : (∀ a ∈ session141, a.BalGood package134.prims) ∧ TidySession package134 session141 (newWorld ℚ ℚ) := by
  refine ⟨by simp [session141, Act.BalGood], ?_, ?_, ?_, ?_, ?_, ?_, ?_, ?_, ?_, ?_, ?_, ?_, ?_, ?_, ?_, trivial⟩ <;>
    (intro e he; cases he)
  · exact unused_of (by decide +kernel)
  · intro y; simp
  · exact unused_of (by decide +kernel)

/-- 34 objects; the signal with the new samples, and interpolated onto the shorter axis; its spectrum, difference and integral as they
were; all with arrays of the same length. -/
example :
    let h := (runSession package134 session141 (newWorld ℚ ℚ)).heap
    h.rels.length = 34 ∧
    dataAt package134.prims h 0 = .ok (some [0, 1, 2, 3, 4, 5], some [8, 11, 9, 7, 10, 12]) ∧
    dataAt package134.prims h 6 = .ok (some [1 / 2, 3 / 2, 5 / 2, 7 / 2, 9 / 2], some [3, -2, -2, 3, 2]) ∧
    dataAt package134.prims h 33 = .ok (some [0, 1, 2, 3], some [8, 11, 9, 7]) ∧
    ∀ r < 34, (dataAt package134.prims h r).toOption.isSome = true := by
  decide +kernel

/-- One assignment more, to the axis of the signal, and the signal cannot be read. -/
theorem C141_assignment_breaks :
    let w := runSession package134 (session141 ++ [.step (.edit (.setStop 0 4))]) (newWorld ℚ ℚ)
    dataAt package134.prims w.heap 0 = .error (.notEqual 5 6) := by
  decide +kernel

end SweepDesign
