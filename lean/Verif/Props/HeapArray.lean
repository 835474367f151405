import Verif.Props.HeapSharing
import Verif.Props.HeapAxis

/-!
# C83: the array of an axis is shared with its copies
-/

set_option linter.unusedSectionVars false

namespace SweepDesign.Mem

open HM Spec

variable {K V : Type} {P : Prims K V} {M : Methods K V} {C : ConvMethods K V}

theorem axisArray_cached {h : Heap K V} {l : Loc} {a : AxisObj K} {j : Loc} (ha : h.axes[l]? = some a) (hj : a.arr = some j) :
    axisArray P l h = (.ok j, h) := by
  unfold axisArray
  rw [bind_of_ok (getAxis_run ha), hj]
  rfl

theorem arrayAt_cached {h : Heap K V} {l : Loc} {a : AxisObj K} {j : Loc} {v : List K} (ha : h.axes[l]? = some a)
    (hj : a.arr = some j) (hv : h.xarrs[j]? = some v) : arrayAt P h l = .ok v := by
  unfold arrayAt axisValues
  rw [bind_of_ok (axisArray_cached ha hj), getX_run hv]

/-- **C83.** Once `array` of an axis has been read, a copy of the axis hands out the same ndarray object: what is written into it in
place is seen through both. -/
theorem C83_copy_shares (h : Heap K V) (l j : Loc) (a : AxisObj K) (v : List K) (ha : h.axes[l]? = some a) (hj : a.arr = some j)
    (hv : h.xarrs[j]? = some v) (f : List K → List K) :
    ∃ c h', axisCopy l h = (.ok c, h') ∧ c ≠ l ∧ (axisArray P l h').1 = .ok j ∧ (axisArray P c h').1 = .ok j ∧
      arrayAt P (Step.run P M C (.edit (.pokeX j f)) h') l = .ok (f v) ∧
      arrayAt P (Step.run P M C (.edit (.pokeX j f)) h') c = .ok (f v) := by
  have hl := (List.getElem?_eq_some_iff.1 ha).1
  have e1 : axisCopy l h = (.ok h.axes.length, { h with axes := h.axes ++ [a] }) := by
    unfold axisCopy
    rw [bind_of_ok (getAxis_run ha)]; rfl
  have hA : ∀ h2 : Heap K V, h2.axes = h.axes ++ [a] → h2.axes[l]? = some a ∧ h2.axes[h.axes.length]? = some a := by
    intro h2 e
    rw [e]
    exact ⟨getElem?_append_some ha, by simp⟩
  have hx : (h.xarrs.modify j f)[j]? = some (f v) := by simp [hv]
  refine ⟨_, _, e1, Nat.ne_of_gt hl, ?_, ?_, ?_, ?_⟩
  · rw [axisArray_cached (hA _ rfl).1 hj]
  · rw [axisArray_cached (hA _ rfl).2 hj]
  · exact arrayAt_cached (hA _ rfl).1 hj hx
  · exact arrayAt_cached (hA _ rfl).2 hj hx

/-- **C83.** A copy made before `array` was read gets an ndarray of its own. -/
theorem C83_unread_copy (h : Heap K V) (l : Loc) (a : AxisObj K) (v : List K) (ha : h.axes[l]? = some a) (hj : a.arr = none)
    (hm : P.mkArr a.start a.stop a.sample = .ok v) :
    ∃ c h' i j h1 h2, axisCopy l h = (.ok c, h') ∧ axisArray P l h' = (.ok i, h1) ∧ axisArray P c h1 = (.ok j, h2) ∧ i ≠ j := by
  have hl := (List.getElem?_eq_some_iff.1 ha).1
  have e1 : axisCopy l h = (.ok h.axes.length, { h with axes := h.axes ++ [a] }) := by
    unfold axisCopy
    rw [bind_of_ok (getAxis_run ha)]; rfl
  have fill : ∀ {h : Heap K V} {l : Loc}, h.axes[l]? = some a → axisArray P l h =
      (.ok h.xarrs.length, { h with xarrs := h.xarrs ++ [v], axes := h.axes.set l { a with arr := some h.xarrs.length } }) := by
    intro h l ha
    unfold axisArray
    rw [bind_of_ok (getAxis_run ha), hj]
    simp only []
    rw [hm, bind_of_ok (lift_run _ _)]
    rfl
  refine ⟨_, _, _, _, _, _, e1, fill (by simpa using getElem?_append_some ha), fill ?_, ?_⟩
  · show ((h.axes ++ [a]).set l _)[h.axes.length]? = some a
    rw [List.getElem?_set_ne (Nat.ne_of_lt hl)]
    simp
  · simp

/-- **C83.** Assigning start, end or sample of one of the axes ends the sharing for it: its array is computed anew from its
fields and is another ndarray. -/
theorem C83_assignment_ends_sharing (h : Heap K V) (l j : Loc) (a : AxisObj K) (ha : h.axes[l]? = some a)
    (hj : j < h.xarrs.length) (s : RelSet K) (r : Loc) (o : RelObj) (ho : h.rels[r]? = some o) (hx : o.x = l) (v : List K)
    (hm : P.mkArr (s.apply (fields a)).start (s.apply (fields a)).stop (s.apply (fields a)).sample = .ok v) :
    ∃ i h', axisArray P l (s.run r h) = (.ok i, h') ∧ i ≠ j ∧ h'.xarrs[i]? = some v := by
  subst hx
  have key : ∀ b : AxisObj K, b.arr = none → P.mkArr b.start b.stop b.sample = .ok v →
      ∃ i h', axisArray P o.x ({ h with axes := h.axes.set o.x b } : Heap K V) = (.ok i, h') ∧ i ≠ j ∧ h'.xarrs[i]? = some v := by
    intro b hb hm
    have hb' : ({ h with axes := h.axes.set o.x b } : Heap K V).axes[o.x]? = some b := by
      show (h.axes.set o.x b)[o.x]? = some b
      rw [List.getElem?_set_self (List.getElem?_eq_some_iff.1 ha).1]
    refine ⟨h.xarrs.length, { h with xarrs := h.xarrs ++ [v], axes := (h.axes.set o.x b).set o.x { b with arr := some h.xarrs.length } },
      ?_, Nat.ne_of_gt hj, ?_⟩
    · unfold axisArray
      rw [bind_of_ok (getAxis_run hb'), hb]
      simp only []
      rw [hm, bind_of_ok (lift_run _ _)]
      rfl
    · simp
  cases s with
  | start v' =>
    have e : RelSet.run r (.start v' : RelSet K) h = ({ h with axes := h.axes.set o.x { a with start := v', arr := none, actual := none } } : Heap K V) := by
      simp only [RelSet.run, relSetStart]
      rw [bind_of_ok (getRel_run ho)]
      unfold axisSetStart
      rw [bind_of_ok (getAxis_run ha)]
      rfl
    rw [e]
    exact key _ rfl hm
  | stop v' =>
    have e : RelSet.run r (.stop v' : RelSet K) h = ({ h with axes := h.axes.set o.x { a with stop := v', arr := none, actual := none } } : Heap K V) := by
      simp only [RelSet.run, relSetStop]
      rw [bind_of_ok (getRel_run ho)]
      unfold axisSetStop
      rw [bind_of_ok (getAxis_run ha)]
      rfl
    rw [e]
    exact key _ rfl hm
  | sample v' =>
    have e : RelSet.run r (.sample v' : RelSet K) h = ({ h with axes := h.axes.set o.x { a with sample := v', arr := none, actual := none } } : Heap K V) := by
      simp only [RelSet.run, relSetSample]
      rw [bind_of_ok (getRel_run ho)]
      unfold axisSetSample
      rw [bind_of_ok (getAxis_run ha)]
      rfl
    rw [e]
    exact key _ rfl hm

theorem dataAt_cached {h : Heap K V} {r : Loc} {o : RelObj} {a : AxisObj K} {y : List V} (hr : IsRel h r o a y) {j : Loc}
    {v : List K} (hj : a.arr = some j) (hv : h.xarrs[j]? = some v) (hl : v.length = y.length) :
    dataAt P h r = .ok (some v, some y) := by
  have e1 : axisValues P o.x h = (.ok v, h) := by
    unfold axisValues
    rw [bind_of_ok (axisArray_cached hr.axis hj), getX_run hv]
  have e2 : axisSize P o.x h = (.ok v.length, h) := by
    unfold axisSize
    rw [bind_of_ok e1]; rfl
  unfold dataAt relGetData
  rw [bind_of_ok (getRel_run hr.rel), bind_of_ok e2, bind_of_ok (getY_run hr.ys)]
  simp only [hl, ne_eq, not_true_eq_false, if_false]
  rw [bind_of_ok e1]
  simp [newX, newY, bind_run, pure_run]

/-- **C83.** So a relation made from another one is changed with it when the `array` of either is written into. -/
theorem C83_relation_from_relation (h : Heap K V) (r : Loc) (o : RelObj) (a : AxisObj K) (y : List V) (hr : IsRel h r o a y) (j : Loc)
    (v : List K) (hj : a.arr = some j) (hv : h.xarrs[j]? = some v) (f : List K → List K) (hf : (f v).length = y.length) (c : Cls)
    (hc : c ≠ .sweep) :
    ∃ l h', construct P M c (.rel r) .absent none h = (.ok l, h') ∧ l ≠ r ∧
      dataAt P (Step.run P M C (.edit (.pokeX j f)) h') r = .ok (some (f v), some y) ∧
      dataAt P (Step.run P M C (.edit (.pokeX j f)) h') l = .ok (some (f v), some y) := by
  have hlt := (List.getElem?_eq_some_iff.1 hr.rel).1
  have hx : (h.xarrs.modify j f)[j]? = some (f v) := by simp [hv]
  have e : construct P M c (.rel r) .absent none h = (.ok h.rels.length, { h with
      axes := h.axes ++ [a], yarrs := h.yarrs ++ [y],
      rels := h.rels ++ [mkRelObj c h.config h.axes.length h.yarrs.length none] }) := by
    unfold construct relInit
    simp only [hc, if_false]
    have e1 : axisCopy o.x h = (.ok h.axes.length, { h with axes := h.axes ++ [a] }) := by
      unfold axisCopy
      rw [bind_of_ok (getAxis_run hr.axis)]; rfl
    have e2 : (getRel r >>= fun o => axisCopy o.x >>= fun ax => getY o.y >>= fun v => newY v >>= fun ly =>
        newRel (mkRelObj c h.config ax ly none) : HM K V Loc) h = (.ok h.rels.length, { h with
      axes := h.axes ++ [a], yarrs := h.yarrs ++ [y],
      rels := h.rels ++ [mkRelObj c h.config h.axes.length h.yarrs.length none] }) := by
      rw [bind_of_ok (getRel_run hr.rel), bind_of_ok e1, bind_of_ok (getY_run (by exact hr.ys))]
      rfl
    show ((getRel r >>= fun o => axisCopy o.x >>= fun ax => getY o.y >>= fun v => newY v >>= fun ly =>
        newRel (mkRelObj c h.config ax ly none) : HM K V Loc) >>= fun l => pure l) h = _
    rw [bind_of_ok e2]
    rfl
  refine ⟨_, _, e, Nat.ne_of_gt hlt, ?_, ?_⟩
  · exact dataAt_cached ⟨getElem?_append_some hr.rel, getElem?_append_some hr.axis, getElem?_append_some hr.ys⟩ hj hx hf
  · refine dataAt_cached (o := mkRelObj c h.config h.axes.length h.yarrs.length none) (a := a) ⟨?_, ?_, ?_⟩ hj hx hf
    · show (h.rels ++ [_])[h.rels.length]? = _
      simp
    · show (h.axes ++ [_])[h.axes.length]? = _
      simp
    · show (h.yarrs ++ [_])[h.yarrs.length]? = _
      simp

/-- after `s = r + 1` -/
def afterSum : Heap ℚ ℚ :=
  runSteps ratPrims (defaultMethods ratPrims) defaultC [.call (.operator 0 (.number 1) .add)] oneRelation

/-- after `s = r + 1; s.x.array[:] = [5, 6, 7]` -/
def afterWrite : Heap ℚ ℚ :=
  runSteps ratPrims (defaultMethods ratPrims) defaultC [.edit (.pokeX 0 fun _ => [5, 6, 7])] afterSum

/-- after `s = r + 1; s.x.end = 2; r.x.array[:] = [5, 6, 7]` -/
def afterAssignment : Heap ℚ ℚ :=
  runSteps ratPrims (defaultMethods ratPrims) defaultC [.edit (.setStop 1 2), .edit (.pokeX 0 fun _ => [5, 6, 7])] afterSum

/-- the result of `r + 1`: writing into its `array` moves `r`, until the end of one of them is assigned -/
theorem C83_witness :
    dataAt ratPrims afterSum 0 = .ok (some [0, 1, 2], some [1, 2, 3]) ∧
    dataAt ratPrims afterSum 1 = .ok (some [0, 1, 2], some [2, 3, 4]) ∧
    dataAt ratPrims afterWrite 0 = .ok (some [5, 6, 7], some [1, 2, 3]) ∧
    dataAt ratPrims afterWrite 1 = .ok (some [5, 6, 7], some [2, 3, 4]) ∧
    dataAt ratPrims afterAssignment 0 = .ok (some [5, 6, 7], some [1, 2, 3]) ∧
    dataAt ratPrims afterAssignment 1 = .ok (some [0, 1, 2], some [2, 3, 4]) := by
  refine ⟨?_, ?_, ?_, ?_, ?_, ?_⟩ <;> decide +kernel

/-- the axis of the relation there has been read, so the theorems about sharing apply to it -/
example : (oneRelation.axes[0]?.bind (·.arr)) = some 0 ∧ oneRelation.xarrs[0]? = some [0, 1, 2] ∧
    ((axisCopy 0 >>= fun c => axisArray ratPrims c) oneRelation).1 = .ok 0 := by decide +kernel

end SweepDesign.Mem
