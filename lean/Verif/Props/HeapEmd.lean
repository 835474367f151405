import Verif.Heap.Emd
import Verif.Props.HeapSharing
import Verif.Props.Correction
import Verif.Lemmas.Phase

/-!
# C82: the signals of an empirical mode decomposition
-/

set_option linter.unusedSectionVars false

namespace SweepDesign.Mem

open HM Spec

variable {K V : Type} {P : Prims K V} {M : Methods K V} {C : ConvMethods K V}

/-- two relations that share neither axis object nor y array -/
def _root_.SweepDesign.Spec.Apart (h : Heap K V) (l m : Loc) : Prop :=
  ∀ p q, h.rels[l]? = some p → h.rels[m]? = some q → l ≠ m ∧ p.x ≠ q.x ∧ p.y ≠ q.y

theorem isRel_later {h h' : Heap K V} (w : Le ∅ h h') {r : Loc} {o : RelObj} {a : AxisObj K} {y : List V} (hr : IsRel h r o a y) :
    ∃ o' a', IsRel h' r o' a' y ∧ o'.cls = o.cls ∧ o'.x = o.x ∧ o'.y = o.y ∧ fields a' = fields a := by
  obtain ⟨o', h1, e, -⟩ := w.rels _ _ hr.rel
  obtain ⟨a', h2, ea⟩ := w.axes _ _ hr.axis
  obtain ⟨y', h3, ey⟩ := w.yarrs _ _ hr.ys
  have ea := ea (Set.notMem_empty _)
  rw [ey (Set.notMem_empty _)] at h3
  exact ⟨o', a', ⟨h1, by rw [e.x]; exact h2, by rw [e.y]; exact h3⟩, e.cls, e.x, e.y, by
    simp only [fields, ea.start, ea.stop, ea.sample]⟩

theorem data_isRel {h : Heap K V} (hc : Coh P h) {r : Loc} {o : RelObj} {a : AxisObj K} {y : List V} (hr : IsRel h r o a y)
    {v : List K} (hv : P.mkArr a.start a.stop a.sample = .ok v) (hl : v.length = y.length) :
    dataAt P h r = .ok (some v, some y) := by
  rw [dataAt_run hc hr.rel hr.axis hr.ys, hv]
  simp [hl]

theorem allIMFs_run (hM : GoodMethods P M) {r : Loc} {v : List K} (ks : List (List V)) :
    ∀ {h : Heap K V} {o : RelObj} {a : AxisObj K} {y : List V}, Coh P h → IsRel h r o a y →
      P.mkArr a.start a.stop a.sample = .ok v → (∀ k ∈ ks, v.length = k.length) →
      ∃ ls h', allIMFs P M r ks h = (.ok ls, h') ∧
        List.Forall₂ (fun l k => ∃ p, OwnsParts h h' l p ∧ p.cls = .signal ∧ dataAt P h' l = .ok (some v, some k)) ls ks ∧
        ls.Pairwise (Apart h') := by
  induction ks with
  | nil => intro h o a y _ _ _ _; exact ⟨[], h, rfl, .nil, .nil⟩
  | cons k ks ih =>
    intro h o a y hc hr hv hks
    obtain ⟨l, h1, p, e1, p1, p2, ⟨a1, p3, p4⟩, p5⟩ := (oneIMF_run (M := M) hc hr hv k).1 (hks k (by simp))
    have w1 := safe_oneIMF hM (X := ∅) r k h
    rw [e1] at w1
    have c1 := w1.2 hc
    obtain ⟨o', a', hr', -, -, -, ea⟩ := isRel_later w1.1 hr
    have hv' : ∀ b : AxisObj K, fields b = fields a → P.mkArr b.start b.stop b.sample = .ok v := by
      intro b hb
      rw [← hv]
      have h1 : b.start = a.start := congrArg Axis.start hb
      have h2 : b.stop = a.stop := congrArg Axis.stop hb
      have h3 : b.sample = a.sample := congrArg Axis.sample hb
      rw [h1, h2, h3]
    obtain ⟨ls, h2, e2, f2, q2⟩ := ih c1 hr' (hv' _ ea) fun k hk => hks k (List.mem_cons_of_mem _ hk)
    have w2 := safe_allIMFs hM (X := ∅) r ks h1
    rw [e2] at w2
    obtain ⟨p', a2, s1, s2, s3, s4, s5⟩ := isRel_later w2.1 (⟨p1.rel, p3, p5⟩ : IsRel h1 l p a1 k)
    refine ⟨l :: ls, h2, ?_, .cons ⟨p', ⟨s1.rel, p1.isNew, by rw [s3]; exact p1.axis, by rw [s4]; exact p1.ys, ?_, ?_⟩,
      s2.trans p2, data_isRel (w2.2 c1) s1 (hv' _ (s5.trans p4)) (hks k (by simp))⟩ ?_, .cons ?_ q2⟩
    · show (oneIMF P M r k >>= fun l => allIMFs P M r ks >>= fun ls => pure (l :: ls)) h = _
      rw [bind_of_ok e1, bind_of_ok e2]; rfl
    · exact (List.getElem?_eq_some_iff.1 s1.axis).1
    · exact (List.getElem?_eq_some_iff.1 s1.ys).1
    · refine f2.imp fun m k' ⟨q, q1, q3⟩ => ⟨q, ⟨q1.rel, w1.1.rels_len.trans q1.isNew, w1.1.axes_len.trans q1.axis,
        w1.1.yarrs_len.trans q1.ys, q1.axis_lt, q1.ys_lt⟩, q3⟩
    · intro m hm x z hx hz
      rw [s1.rel, Option.some.injEq] at hx
      subst hx
      obtain ⟨i, hi, rfl⟩ := List.mem_iff_getElem.1 hm
      obtain ⟨q, q1, -⟩ := (List.forall₂_iff_get.1 f2).2 i hi (by rw [← f2.length_eq]; exact hi)
      simp only [List.get_eq_getElem] at q1
      rw [q1.rel, Option.some.injEq] at hz
      subst hz
      have n1 := (List.getElem?_eq_some_iff.1 p1.rel).1
      have n2 := q1.isNew
      have n3 := p1.axis_lt
      have n4 := q1.axis
      have n5 := p1.ys_lt
      have n6 := q1.ys
      rw [s3, s4]
      exact ⟨Nat.ne_of_lt (n1.trans_le n2), Nat.ne_of_lt (n3.trans_le n4), Nat.ne_of_lt (n5.trans_le n6)⟩

theorem getIMFs_eq {E : List V → Except Err (List (List V))} {h : Heap K V} {r : Loc} {o : RelObj} {a : AxisObj K} {y : List V}
    (hr : IsRel h r o a y) {ks : List (List V)} (hE : E y = .ok ks) : getIMFs P M E r h = allIMFs P M r ks h := by
  unfold getIMFs relY
  rw [bind_of_ok (show (getRel r >>= fun o => pure o.y) h = (.ok o.y, h) by rw [bind_of_ok (getRel_run hr.rel)]; rfl),
    bind_of_ok (getY_run hr.ys), hE, bind_of_ok (lift_run _ _)]

/-- **C82.** If the decomposition returns arrays as long as the data, the result is one signal per array, in order, each on the
positions of the data with the values of its array; no two of them, and none of them and an older relation, share an axis object
or y array. -/
theorem C82_signals (hM : GoodMethods P M) (E : List V → Except Err (List (List V))) (h : Heap K V) (hc : Coh P h) (r : Loc)
    (o : RelObj) (a : AxisObj K) (y : List V) (hr : IsRel h r o a y) (v : List K) (hv : P.mkArr a.start a.stop a.sample = .ok v)
    (ks : List (List V)) (hE : E y = .ok ks) (hk : ∀ k ∈ ks, k.length = v.length) :
    ∃ ls h', getIMFs P M E r h = (.ok ls, h') ∧
      List.Forall₂ (fun l k => ∃ p, OwnsParts h h' l p ∧ p.cls = .signal ∧ dataAt P h' l = .ok (some v, some k)) ls ks ∧
      ls.Pairwise (Apart h') := by
  rw [getIMFs_eq hr hE]
  exact allIMFs_run hM ks hc hr hv fun k hk' => (hk k hk').symm

/-- **C82.** The first array of another length raises `NotEqualError` with both sizes. -/
theorem C82_wrong_length (hM : GoodMethods P M) (E : List V → Except Err (List (List V))) (h : Heap K V) (hc : Coh P h) (r : Loc)
    (o : RelObj) (a : AxisObj K) (y : List V) (hr : IsRel h r o a y) (v : List K) (hv : P.mkArr a.start a.stop a.sample = .ok v)
    (ks ls : List (List V)) (k : List V) (hE : E y = .ok (ks ++ k :: ls)) (hks : ∀ k ∈ ks, k.length = v.length)
    (hk : k.length ≠ v.length) : (getIMFs P M E r h).1 = .error (.notEqual v.length k.length) := by
  rw [getIMFs_eq hr hE]
  clear hE
  induction ks generalizing h o a with
  | nil =>
    have e := (oneIMF_run (M := M) hc hr hv k).2 (Ne.symm hk)
    show ((oneIMF P M r k >>= fun l => allIMFs P M r ls >>= fun ls => pure (l :: ls)) h).1 = _
    rcases hm : oneIMF P M r k h with ⟨e' | l, h'⟩
    · rw [bind_of_error hm]; rw [hm] at e; simpa using e
    · rw [hm] at e; simp at e
  | cons k1 ks ih =>
    obtain ⟨l, h1, p, e1, -⟩ := (oneIMF_run (M := M) hc hr hv k1).1 (hks k1 (by simp)).symm
    have w1 := safe_oneIMF hM (X := ∅) r k1 h
    rw [e1] at w1
    obtain ⟨o', a', hr', -, -, -, ea⟩ := isRel_later w1.1 hr
    have hv' : P.mkArr a'.start a'.stop a'.sample = .ok v := by
      rw [← hv]
      have h1 : a'.start = a.start := congrArg Axis.start ea
      have h2 : a'.stop = a.stop := congrArg Axis.stop ea
      have h3 : a'.sample = a.sample := congrArg Axis.sample ea
      rw [h1, h2, h3]
    have e := ih h1 (w1.2 hc) o' a' hr' hv' fun k hk => hks k (List.mem_cons_of_mem _ hk)
    show ((oneIMF P M r k1 >>= fun l => allIMFs P M r (ks ++ k :: ls) >>= fun ls => pure (l :: ls)) h).1 = _
    rw [bind_of_ok e1]
    rcases hm : allIMFs P M r (ks ++ k :: ls) h1 with ⟨e' | l', h'⟩
    · rw [bind_of_error hm]; rw [hm] at e; exact e
    · rw [hm] at e; simp at e

/-- **C82.** The decomposition changes no relation, whether it returns or raises. -/
theorem C82_changes_nothing (hM : GoodMethods P M) (E : List V → Except Err (List (List V))) (h : Heap K V) (hc : Coh P h)
    (r s : Loc) (o : RelObj) (a : AxisObj K) (y : List V) (hs : IsRel h s o a y) :
    dataAt P (getIMFs P M E r h).2 s = dataAt P h s := by
  have w := safe_getIMFs hM (X := ∅) E r h
  exact data_keep hc (w.2 hc) w.1.keep hs (Set.notMem_empty _) (Set.notMem_empty _)

/-- **C82.** Whatever is assigned to start, end and sample of one of the signals or written into its y, and whatever is called in
between: the data and the other signals keep their values. -/
theorem C82_editing_one (hM : GoodMethods P M) (hC : GoodConvMethods P C) (E : List V → Except Err (List (List V))) (h : Heap K V)
    (hc : Coh P h) (r : Loc) (o : RelObj) (a : AxisObj K) (y : List V) (hr : IsRel h r o a y) (v : List K)
    (hv : P.mkArr a.start a.stop a.sample = .ok v) (ks : List (List V)) (hE : E y = .ok ks) (hk : ∀ k ∈ ks, k.length = v.length)
    (ls : List Loc) (h' : Heap K V) (hh : getIMFs P M E r h = (.ok ls, h')) (i : ℕ) (hi : i < ls.length) (p : RelObj)
    (hp : h'.rels[ls[i]]? = some p) (ss : List (Step K V)) (hs : ∀ s ∈ ss, within {p.x} {p.y} ∅ s) :
    dataAt P (runSteps P M C ss h') r = dataAt P h r ∧
      ∀ j (hj : j < ls.length) (hj' : j < ks.length), j ≠ i → dataAt P (runSteps P M C ss h') ls[j] = .ok (some v, some ks[j]) := by
  have w := safe_getIMFs hM (X := ∅) E r h
  rw [hh] at w
  have c' := w.2 hc
  obtain ⟨ls', h'', e1, f, g⟩ := C82_signals hM E h hc r o a y hr v hv ks hE hk
  rw [hh] at e1
  simp only [Prod.mk.injEq, Except.ok.injEq] at e1
  obtain ⟨rfl, rfl⟩ := e1
  obtain ⟨kk, c''⟩ := steps_keep hM hC ss hs h' (fun j hj => absurd hj (Set.notMem_empty _)) c'
  have at' : ∀ j (hj : j < ls.length) (hj' : j < ks.length), ∃ q, OwnsParts h h' ls[j] q ∧ dataAt P h' ls[j] =
      .ok (some v, some ks[j]) := fun j hj hj' => by
    obtain ⟨q, q1, -, q2⟩ := (List.forall₂_iff_get.1 f).2 j hj hj'
    exact ⟨q, q1, q2⟩
  have hl := f.length_eq
  obtain ⟨p', p1, -⟩ := at' i hi (by omega)
  rw [p1.rel, Option.some.injEq] at hp
  subst hp
  constructor
  · have k1 : Keep {p'.x} {p'.y} h h' := w.1.keep.mono (Set.empty_subset _) (Set.empty_subset _)
    have a1 := (List.getElem?_eq_some_iff.1 hr.axis).1
    have a2 := (List.getElem?_eq_some_iff.1 hr.ys).1
    have a3 := p1.axis
    have a4 := p1.ys
    have n1 : o.x ≠ p'.x := Nat.ne_of_lt (a1.trans_le a3)
    have n2 : o.y ≠ p'.y := Nat.ne_of_lt (a2.trans_le a4)
    refine data_keep hc c'' (k1.trans kk) hr ?_ ?_
    · rw [Set.mem_singleton_iff]; exact n1
    · rw [Set.mem_singleton_iff]; exact n2
  · intro j hj hj' hne
    obtain ⟨q, q1, q2⟩ := at' j hj hj'
    rw [← q2]
    have ap : p'.x ≠ q.x ∧ p'.y ≠ q.y := by
      rcases Nat.lt_or_gt_of_ne hne with h1 | h1
      · have := List.pairwise_iff_getElem.1 g j i hj hi h1 q p' q1.rel p1.rel
        exact ⟨this.2.1.symm, this.2.2.symm⟩
      · exact (List.pairwise_iff_getElem.1 g i j hi hj h1 p' q p1.rel q1.rel).2
    have hx := List.getElem?_eq_getElem q1.axis_lt
    have hy := List.getElem?_eq_getElem q1.ys_lt
    exact data_keep c' c'' kk ⟨q1.rel, hx, hy⟩ (by rw [Set.mem_singleton_iff]; exact ap.1.symm)
      (by rw [Set.mem_singleton_iff]; exact ap.2.symm)

/-- a decomposition into halves -/
def halves (y : List ℚ) : Except Err (List (List ℚ)) := .ok [y.map (· / 2), y.map (· / 2)]

/-- two signals; moving the end of the second one and overwriting its values leaves the others alone -/
example :
    (getIMFs ratPrims (defaultMethods ratPrims) halves 0 oneRelation).1 = .ok [1, 2] ∧
    dataAt ratPrims (getIMFs ratPrims (defaultMethods ratPrims) halves 0 oneRelation).2 1 = .ok (some [0, 1, 2], some [1/2, 1, 3/2]) ∧
    (let h := runSteps ratPrims (defaultMethods ratPrims) defaultC [.edit (.setStop 2 4), .edit (.pokeY 2 fun _ => [7])]
      (getIMFs ratPrims (defaultMethods ratPrims) halves 0 oneRelation).2
    dataAt ratPrims h 0 = .ok (some [0, 1, 2], some [1, 2, 3]) ∧
    dataAt ratPrims h 1 = .ok (some [0, 1, 2], some [1/2, 1, 3/2]) ∧ dataAt ratPrims h 2 = .error (.notEqual 5 1)) := by
  decide +kernel

end SweepDesign.Mem

namespace SweepDesign
open Spec

/-- `imfs[0] + imfs[1] + …` -/
noncomputable def Spec.addUp (first : Rel ℝ ℝ) : List (Rel ℝ ℝ) → Except Err (Rel ℝ ℝ)
  | [] => .ok first
  | r :: rs => do
    let s ← first.add (.rel false r)
    addUp s rs

theorem sum_same_axis (x : Axis ℝ) (a b : List ℝ) (ha : Balanced (⟨x, a⟩ : Rel ℝ ℝ)) (hb : Balanced (⟨x, b⟩ : Rel ℝ ℝ)) :
    (⟨x, a⟩ : Rel ℝ ℝ).add (.rel false ⟨x, b⟩) = .ok ⟨x, List.zipWith (· + ·) a b⟩ := by
  have hl : a.length = b.length := balanced_length_eq ha hb rfl
  refine ((C24_equal_axes false _ _ ha hb rfl .add).1 _).2 ⟨rfl, by simp [hl], fun i h1 h2 h3 => ?_⟩
  simp only [List.getElem_zipWith]
  rfl

theorem addUp_eq (x : Axis ℝ) (ks : List (List ℝ)) (a : List ℝ) (ha : Balanced (⟨x, a⟩ : Rel ℝ ℝ))
    (hk : ∀ k ∈ ks, k.length = a.length) :
    ∃ s, addUp ⟨x, a⟩ (ks.map fun k => ⟨x, k⟩) = .ok ⟨x, s⟩ ∧ s.length = a.length ∧
      ∀ i, s.getD i 0 = a.getD i 0 + (ks.map fun k => k.getD i 0).sum := by
  induction ks generalizing a with
  | nil => exact ⟨a, rfl, rfl, by simp⟩
  | cons k ks ih =>
    have hl : k.length = a.length := hk k (by simp)
    have hb : Balanced (⟨x, k⟩ : Rel ℝ ℝ) := balanced_of_length ha _ (by simp [hl])
    obtain ⟨s, s1, s2, s3⟩ := ih (List.zipWith (· + ·) a k) (balanced_of_length ha _ (by simp [hl]))
      fun k' hk' => by simp [hl, hk k' (List.mem_cons_of_mem _ hk')]
    refine ⟨s, ?_, by simpa [hl] using s2, fun i => ?_⟩
    · simp only [List.map_cons, addUp, sum_same_axis x a k ha hb, except_bind_ok, s1]
    · rw [s3, List.map_cons, List.sum_cons, ← add_assoc]
      congr 1
      rcases Nat.lt_or_ge i a.length with h | h
      · rw [getD_lt _ _ _ h, getD_lt _ _ _ (by omega : i < k.length), getD_lt _ _ _ (by simp; omega), List.getElem_zipWith]
      · rw [getD_ge _ _ _ h, getD_ge _ _ _ (by omega : k.length ≤ i), getD_ge _ _ _ (by simp; omega), add_zero]

/-- **C82.** If the arrays of the decomposition add up to the data, so do the signals: `imfs[0] + imfs[1] + …` is the data. -/
theorem C82_add_up (emd : Emd) (r : Rel ℝ ℝ) (hb : Balanced r) (k : List ℝ) (ks : List (List ℝ)) (he : emd r.y = .ok (k :: ks))
    (hl : ∀ l ∈ k :: ks, l.length = r.y.length)
    (hsum : ∀ i, i < r.y.length → ((k :: ks).map fun l => l.getD i 0).sum = r.y.getD i 0) :
    ∃ q qs, getIMFsEmd emd r = .ok (q :: qs) ∧ addUp q qs = .ok r := by
  have hbal : ∀ l ∈ k :: ks, Balanced (⟨r.x, l⟩ : Rel ℝ ℝ) := fun l h => balanced_of_length hb _ (hl l h)
  obtain ⟨s, s1, s2, s3⟩ := addUp_eq r.x ks k (hbal k (by simp)) fun l h => by
    rw [hl l (List.mem_cons_of_mem _ h), hl k (by simp)]
  refine ⟨⟨r.x, k⟩, ks.map fun l => ⟨r.x, l⟩, ?_, ?_⟩
  · simp only [getIMFsEmd, he, except_bind_ok]
    rw [mapM_make _ _ hbal]
    rfl
  · rw [s1]
    congr 1
    have hk := hl k (by simp)
    refine Rel.ext' rfl (List.ext_getElem (by simp only; omega) fun i h1 h2 => ?_)
    have e := s3 i
    have e' := hsum i h2
    rw [List.map_cons, List.sum_cons, ← e, getD_lt _ _ _ h1, getD_lt _ _ _ h2] at e'
    exact e'

/-- two arrays that add up to the data -/
example : ∃ q qs, getIMFsEmd (fun _ => .ok [[1, 0, 5], [2, -1, -3]]) ⟨⟨0, 1, 1 / 2⟩, [3, -1, 2]⟩ = .ok (q :: qs) ∧
    addUp q qs = .ok ⟨⟨0, 1, 1 / 2⟩, [3, -1, 2]⟩ := by
  refine C82_add_up _ ⟨⟨0, 1, 1 / 2⟩, [3, -1, 2]⟩ (balanced_whole _ 2 (by norm_num) (by norm_num) rfl) [1, 0, 5] [[2, -1, -3]] rfl
    (by simp) fun i hi => ?_
  simp only [List.length_cons, List.length_nil] at hi
  interval_cases i <;> norm_num

end SweepDesign
