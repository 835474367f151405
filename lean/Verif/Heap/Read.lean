import Verif.Spec.Heap

/-!
# Heap layer: what reads return
-/

set_option linter.unusedSectionVars false

namespace SweepDesign.Mem

open HM Spec

variable {K V : Type} {P : Prims K V}

theorem map_set_same {α β : Type} (f : α → β) {l : List α} {i : ℕ} {a a' : α} (h : l[i]? = some a) (hf : f a' = f a) :
    (l.set i a').map f = l.map f := by
  apply List.ext_getElem? 
  intro j
  rw [List.getElem?_map, List.getElem?_map, List.getElem?_set]
  split
  · subst_vars
    rw [if_pos (List.getElem?_eq_some_iff.1 h).1, h]; simp [hf]
  · rfl

theorem axisArray_fields (l : Loc) (h : Heap K V) :
    ((axisArray P l h).2).axes.map fields = h.axes.map fields := by
  unfold axisArray
  rcases ha : h.axes[l]? with _ | a
  · rw [bind_of_error (getAxis_none ha)]
  rw [bind_of_ok (getAxis_run ha)]
  rcases hj : a.arr with _ | j
  · simp only []
    rcases hv : P.mkArr a.start a.stop a.sample with e | v
    · rw [bind_of_error (lift_run _ _)]
    · rw [bind_of_ok (lift_run _ _)]
      exact map_set_same fields ha rfl
  · rfl

theorem axisValues_fields (l : Loc) (h : Heap K V) :
    ((axisValues P l h).2).axes.map fields = h.axes.map fields := by
  unfold axisValues
  have := axisArray_fields (P := P) l h
  rcases hm : axisArray P l h with ⟨e | j, h1⟩
  · rw [bind_of_error hm]; rw [hm] at this; exact this
  · rw [bind_of_ok hm]; rw [hm] at this
    unfold getX; split <;> exact this

/-- On a coherent heap a read of `array` returns what is computed from the current fields. -/
theorem axisValues_run {h : Heap K V} (c : Coh P h) {l : Loc} {a : AxisObj K} (ha : h.axes[l]? = some a) :
    (axisValues P l h).1 = P.mkArr a.start a.stop a.sample := by
  rcases hv : axisValues P l h with ⟨e | v, h1⟩
  · show Except.error e = _
    unfold axisValues at hv
    unfold axisArray at hv
    rw [bind_assoc_run, bind_of_ok (getAxis_run ha)] at hv
    rcases hj : a.arr with _ | j
    · rw [hj] at hv
      simp only [] at hv
      rw [bind_assoc_run] at hv
      rcases hm : P.mkArr a.start a.stop a.sample with e' | v
      · rw [hm] at hv
        rw [bind_of_error (lift_run _ _)] at hv
        simp only [Prod.mk.injEq, Except.error.injEq] at hv
        rw [hv.1]
      · rw [hm] at hv
        rw [bind_of_ok (lift_run _ _)] at hv
        simp [newX, bind_run, putAxis, pure_run, getX] at hv
    · rw [hj] at hv
      obtain ⟨v, hv1, -⟩ := (c l a ha).1 j hj
      rw [bind_of_ok (pure_run _ _), getX_run hv1] at hv
      simp at hv
  · obtain ⟨a', ha', hm⟩ := axisValues_ok hv
    rw [ha] at ha'
    simp only [Option.some.injEq] at ha'; subst ha'
    exact (hm c).symm

theorem axisValues_dangling {h : Heap K V} {l : Loc} (ha : h.axes[l]? = none) :
    axisValues P l h = (.error .typeError, h) := by
  unfold axisValues axisArray
  rw [bind_assoc_run, bind_of_error (getAxis_none ha)]

theorem axisSize_run {h : Heap K V} (c : Coh P h) {l : Loc} {a : AxisObj K} (ha : h.axes[l]? = some a) :
    (axisSize P l h).1 = (P.mkArr a.start a.stop a.sample).map List.length := by
  have := axisValues_run c ha
  unfold axisSize
  rcases hv : axisValues P l h with ⟨e | v, h1⟩
  · rw [bind_of_error hv]; rw [hv] at this; rw [← this]; rfl
  · rw [bind_of_ok hv]; rw [hv] at this; rw [← this]; rfl

theorem axisSize_state (l : Loc) (h : Heap K V) : (axisSize P l h).2 = (axisValues P l h).2 := by
  unfold axisSize
  rcases hv : axisValues P l h with ⟨e | v, h1⟩
  · rw [bind_of_error hv]
  · rw [bind_of_ok hv]; rfl

theorem axisActual_run {h : Heap K V} (c : Coh P h) {l : Loc} {a : AxisObj K} (ha : h.axes[l]? = some a) :
    (axisActual P l h).1 = (P.mkArr a.start a.stop a.sample).bind P.minDiff := by
  have hval := axisValues_run c ha
  unfold axisActual
  rw [bind_of_ok (getAxis_run ha)]
  rcases hj : a.actual with _ | d
  · simp only []
    have w := (safe_axisValues (P := P) (X := ∅) l h).1
    rcases hv : axisValues P l h with ⟨e | v, h1⟩
    · rw [bind_of_error hv]; rw [hv] at hval; rw [← hval]; rfl
    rw [bind_of_ok hv]; rw [hv] at hval w
    rw [← hval]
    obtain ⟨a', ha', -⟩ := w.axes l a ha
    show _ = P.minDiff v
    rcases hd : P.minDiff v with e | d
    · rw [bind_of_error (lift_run _ _)]
    · rw [bind_of_ok (lift_run _ _), bind_of_ok (getAxis_run ha')]; rfl
  · obtain ⟨v, h1, h2⟩ := (c l a ha).2 d hj
    rw [h1]
    exact h2.symm

theorem axisActual_fields (l : Loc) (h : Heap K V) :
    ((axisActual P l h).2).axes.map fields = h.axes.map fields := by
  unfold axisActual
  rcases ha : h.axes[l]? with _ | a
  · rw [bind_of_error (getAxis_none ha)]
  rw [bind_of_ok (getAxis_run ha)]
  rcases hj : a.actual with _ | d
  · simp only []
    have := axisValues_fields (P := P) l h
    rcases hv : axisValues P l h with ⟨e | v, h1⟩
    · rw [bind_of_error hv]; rw [hv] at this; exact this
    rw [bind_of_ok hv]; rw [hv] at this
    rcases hd : P.minDiff v with e | d
    · rw [bind_of_error (lift_run _ _)]; exact this
    rw [bind_of_ok (lift_run _ _)]
    rcases ha' : h1.axes[l]? with _ | a'
    · rw [bind_of_error (getAxis_none ha')]; exact this
    rw [bind_of_ok (getAxis_run ha')]
    rw [← this]
    exact map_set_same fields ha' rfl
  · rfl

theorem map_set_of {α β : Type} (f : α → β) (l : List α) (i : ℕ) (a : α) : (l.set i a).map f = (l.map f).set i (f a) := by
  rw [List.map_set]

theorem dataAt_run {h : Heap K V} (hc : Coh P h) {r : Loc} {o : RelObj} (ho : h.rels[r]? = some o) {a : AxisObj K}
    (ha : h.axes[o.x]? = some a) {y : List V} (hy : h.yarrs[o.y]? = some y) :
    dataAt P h r = match P.mkArr a.start a.stop a.sample with
      | .error e => .error e
      | .ok v => if v.length = y.length then .ok (some v, some y) else .error (.notEqual v.length y.length) := by
  unfold dataAt relGetData
  rw [bind_of_ok (getRel_run ho)]
  have hsz := axisSize_run hc ha
  have w := safe_axisSize (P := P) (X := ∅) o.x h
  rcases hs : axisSize P o.x h with ⟨e | n, h1⟩
  · rw [bind_of_error hs]
    rw [hs] at hsz
    rcases hm : P.mkArr a.start a.stop a.sample with e' | v
    · rw [hm] at hsz; simp only [Except.map, Except.error.injEq] at hsz; simp [hsz]
    · rw [hm] at hsz; simp [Except.map] at hsz
  · rw [bind_of_ok hs]
    rw [hs] at hsz w
    rcases hm : P.mkArr a.start a.stop a.sample with e' | v
    · rw [hm] at hsz; simp [Except.map] at hsz
    rw [hm] at hsz
    simp only [Except.map, Except.ok.injEq] at hsz
    obtain ⟨y', hy', hyy⟩ := w.1.yarrs _ _ hy
    rw [hyy (Set.notMem_empty _)] at hy'
    obtain ⟨a', ha', hl⟩ := w.1.axes _ _ ha
    have hl := hl (Set.notMem_empty _)
    rw [bind_of_ok (getY_run hy')]
    by_cases hn : n = y.length
    · rw [if_neg (by simpa using hn)]
      have hval := axisValues_run (w.2 hc) ha'
      rw [hl.start, hl.stop, hl.sample, hm] at hval
      rcases hv : axisValues P o.x h1 with ⟨e | v', h2⟩
      · rw [hv] at hval; simp at hval
      · rw [hv] at hval
        simp only [Except.ok.injEq] at hval
        subst hval
        rw [bind_of_ok hv]
        simp only [bind_run, newX, newY, pure_run]
        rw [if_pos (hsz ▸ hn)]
        simp
    · rw [if_pos (by simpa using hn)]
      have hn' : ¬ v.length = y.length := hsz ▸ hn
      simp only [hn', if_false]
      simp [raise_run, hsz]

end SweepDesign.Mem
