import Verif.Heap.Read

/-!
# Heap layer: what a history of calls and edits leaves alone
-/

set_option linter.unusedSectionVars false

namespace SweepDesign.Mem

open HM Spec

variable {K V : Type} {P : Prims K V} {M : Methods K V} {C : ConvMethods K V}

/-- everything but the axes in `A` and the y arrays in `Y` is as before -/
structure Keep (A Y : Set Loc) (h h' : Heap K V) : Prop where
  axes : ∀ (i : ℕ) a, h.axes[i]? = some a → i ∉ A → ∃ a', h'.axes[i]? = some a' ∧ fields a' = fields a
  yarrs : ∀ (i : ℕ) v, h.yarrs[i]? = some v → i ∉ Y → h'.yarrs[i]? = some v
  rels : ∀ (i : ℕ) r, h.rels[i]? = some r → ∃ r', h'.rels[i]? = some r' ∧ RelFix r r'

theorem Keep.refl (A Y : Set Loc) (h : Heap K V) : Keep A Y h h :=
  ⟨fun _ a ha _ => ⟨a, ha, rfl⟩, fun _ _ hv _ => hv, fun _ r hr => ⟨r, hr, RelFix.refl r⟩⟩

theorem Keep.trans {A Y : Set Loc} {h h1 h2 : Heap K V} (w1 : Keep A Y h h1) (w2 : Keep A Y h1 h2) : Keep A Y h h2 := by
  refine ⟨fun i a ha hi => ?_, fun i v hv hi => w2.yarrs i v (w1.yarrs i v hv hi) hi, fun i r hr => ?_⟩
  · obtain ⟨a', ha', e⟩ := w1.axes i a ha hi
    obtain ⟨a'', ha'', e'⟩ := w2.axes i a' ha' hi
    exact ⟨a'', ha'', e'.trans e⟩
  · obtain ⟨r', hr', e⟩ := w1.rels i r hr
    obtain ⟨r'', hr'', e'⟩ := w2.rels i r' hr'
    exact ⟨r'', hr'', e.trans e'⟩

theorem Le.keep {X : Ex} {h h' : Heap K V} (w : Le X h h') : Keep X.axes X.ys h h' := by
  refine ⟨fun i a ha hi => ?_, fun i v hv hi => ?_, fun i r hr => ?_⟩
  · obtain ⟨a', ha', e⟩ := w.axes i a ha
    have e := e hi
    exact ⟨a', ha', by simp [fields, e.start, e.stop, e.sample]⟩
  · obtain ⟨v', hv', e⟩ := w.yarrs i v hv
    rw [hv', e hi]
  · obtain ⟨r', hr', e, -⟩ := w.rels i r hr
    exact ⟨r', hr', e⟩

theorem Keep.mono {A Y A' Y' : Set Loc} {h h' : Heap K V} (hA : A ⊆ A') (hY : Y ⊆ Y') (w : Keep A Y h h') :
    Keep A' Y' h h' :=
  ⟨fun i a ha hi => w.axes i a ha fun h => hi (hA h), fun i v hv hi => w.yarrs i v hv fun h => hi (hY h), w.rels⟩

/-- data of a relation whose axis and y array are left alone -/
theorem data_keep {A Y : Set Loc} {h h' : Heap K V} (c : Coh P h) (c' : Coh P h') (w : Keep A Y h h') {r : Loc}
    {o : RelObj} {a : AxisObj K} {y : List V} (hr : IsRel h r o a y) (hA : o.x ∉ A) (hY : o.y ∉ Y) :
    dataAt P h' r = dataAt P h r := by
  obtain ⟨o', ho', e⟩ := w.rels r o hr.rel
  obtain ⟨a', ha', ea⟩ := w.axes _ a hr.axis hA
  have hy' := w.yarrs _ y hr.ys hY
  rw [dataAt_run c hr.rel hr.axis hr.ys, dataAt_run c' ho' (by rw [e.x]; exact ha') (by rw [e.y]; exact hy')]
  have h1 : a'.start = a.start := congrArg Axis.start ea
  have h2 : a'.stop = a.stop := congrArg Axis.stop ea
  have h3 : a'.sample = a.sample := congrArg Axis.sample ea
  rw [h1, h2, h3]

theorem modify_getElem? {α : Type} {l : List α} {i j : ℕ} {f : α → α} (h : i ≠ j) : (l.modify i f)[j]? = l[j]? := by
  rw [List.getElem?_modify]
  simp [h]

/-- one step of a history -/
theorem step_keep (hM : GoodMethods P M) (hC : GoodConvMethods P C) {A Y X : Set Loc} {s : Step K V}
    (hs : within A Y X s) {h : Heap K V} (hX : ∀ j ∈ X, j < h.xarrs.length ∧ ¬ Cached h j) (c : Coh P h) :
    Keep A Y h (s.run P M C h) ∧ Coh P (s.run P M C h) ∧
    ∀ j ∈ X, j < (s.run P M C h).xarrs.length ∧ ¬ Cached (s.run P M C h) j := by
  have ofLe : ∀ {Z : Ex} {h' : Heap K V}, Le Z h h' → (∀ j ∈ X, j < h'.xarrs.length ∧ ¬ Cached h' j) := by
    intro Z h' w j hj
    refine ⟨(hX j hj).1.trans_le w.xarrs_len, fun hcj => ?_⟩
    rcases w.cached j hcj with h1 | h1
    · exact (hX j hj).2 h1
    · exact absurd (hX j hj).1 (not_lt.2 h1)
  cases s with
  | call k =>
    have w := safe_call hM hC k h
    exact ⟨w.1.keep.mono (Set.empty_subset _) (Set.empty_subset _), w.2 c, ofLe w.1⟩
  | edit e =>
    cases e with
    | setStart l v =>
      have w := safe_axisSetStart (P := P) (X := ⟨A, ∅, Y⟩) v hs h
      exact ⟨w.1.keep, w.2 c, ofLe w.1⟩
    | setStop l v =>
      have w := safe_axisSetStop (P := P) (X := ⟨A, ∅, Y⟩) v hs h
      exact ⟨w.1.keep, w.2 c, ofLe w.1⟩
    | setSample l v =>
      have w := safe_axisSetSample (P := P) (X := ⟨A, ∅, Y⟩) v hs h
      exact ⟨w.1.keep, w.2 c, ofLe w.1⟩
    | pokeX l f =>
      refine ⟨⟨fun _ a ha _ => ⟨a, ha, rfl⟩, fun _ _ hv _ => hv, fun _ r hr => ⟨r, hr, RelFix.refl r⟩⟩, ?_, ?_⟩
      · intro i a ha
        refine ⟨fun j hj => ?_, (c i a ha).2⟩
        obtain ⟨v, hv, h2⟩ := (c i a ha).1 j hj
        refine ⟨v, ?_, h2⟩
        show (h.xarrs.modify l f)[j]? = some v
        rw [modify_getElem?]
        · exact hv
        · rintro rfl
          exact (hX l hs).2 ⟨i, a, ha, hj⟩
      · intro j hj
        refine ⟨?_, (hX j hj).2⟩
        show j < (h.xarrs.modify l f).length
        rw [List.length_modify]; exact (hX j hj).1
    | pokeY l f =>
      refine ⟨⟨fun _ a ha _ => ⟨a, ha, rfl⟩, fun i v hv hi => ?_, fun _ r hr => ⟨r, hr, RelFix.refl r⟩⟩, c, hX⟩
      show (h.yarrs.modify l f)[i]? = some v
      rw [modify_getElem?]
      · exact hv
      · rintro rfl; exact hi hs
    | setConfig g =>
      exact ⟨⟨fun _ a ha _ => ⟨a, ha, rfl⟩, fun _ _ hv _ => hv, fun _ r hr => ⟨r, hr, RelFix.refl r⟩⟩, c, hX⟩

theorem steps_keep (hM : GoodMethods P M) (hC : GoodConvMethods P C) {A Y X : Set Loc} (ss : List (Step K V))
    (hs : ∀ s ∈ ss, within A Y X s) (h : Heap K V) (hX : ∀ j ∈ X, j < h.xarrs.length ∧ ¬ Cached h j) (c : Coh P h) :
    Keep A Y h (runSteps P M C ss h) ∧ Coh P (runSteps P M C ss h) := by
  induction ss generalizing h with
  | nil => exact ⟨Keep.refl _ _ _, c⟩
  | cons s ss ih =>
    obtain ⟨h1, h2, h3⟩ := step_keep hM hC (hs s List.mem_cons_self) hX c
    obtain ⟨h4, h5⟩ := ih (fun s hs' => hs s (List.mem_cons_of_mem _ hs')) _ h3 h2
    exact ⟨h1.trans h4, h5⟩

end SweepDesign.Mem
