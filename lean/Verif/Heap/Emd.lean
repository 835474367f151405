import Verif.Heap.Own

/-!
# Heap layer: the lists of signals made by `get_IMFs_emd` and `get_IMFs_ceemdan`

The decomposition (`EMD()` or `CEEMDAN(...)` of PyEMD, called with `data.y`) is a parameter: any function of the values to a list of
arrays, or an exception. It is taken not to write into the array it is given. A random decomposition is another function each time.
-/

set_option linter.unusedSectionVars false

namespace SweepDesign.Mem

open HM Spec

section Model
variable {K V : Type} (P : Prims K V) (M : Methods K V)

/-- `Signal(data.x.copy(), k)` (`emd_analyze.py:81`, `emd_analyze.py:103`) -/
def oneIMF (r : Loc) (k : List V) : HM K V Loc := do
  let x ← relX r
  let c ← axisCopy x
  construct P M .signal (.axis c) (.list k)

/-- the list comprehension over the arrays (`emd_analyze.py:81`, `emd_analyze.py:103`) -/
def allIMFs (r : Loc) : List (List V) → HM K V (List Loc)
  | [] => pure []
  | k :: ks => do
    let l ← oneIMF P M r k
    let ls ← allIMFs r ks
    pure (l :: ls)

/-- `get_IMFs_emd` (`emd_analyze.py:85-104`) and, with another decomposition, `get_IMFs_ceemdan` (`emd_analyze.py:7-82`) -/
def getIMFs (E : List V → Except Err (List (List V))) (r : Loc) : HM K V (List Loc) := do
  let j ← relY r
  let y ← getY j
  let ks ← lift (E y)
  allIMFs P M r ks

end Model

variable {K V : Type} {P : Prims K V} {M : Methods K V}

theorem safe_oneIMF (hM : GoodMethods P M) {X : Ex} (r : Loc) (k : List V) : Safe P X (oneIMF P M r k) := by
  unfold oneIMF relX
  exact ((safe_getRel _).bind fun _ => safe_pure _).bind fun _ => (safe_axisCopy _).bind fun _ => safe_construct hM _ _ _ _

theorem safe_allIMFs (hM : GoodMethods P M) {X : Ex} (r : Loc) (ks : List (List V)) : Safe P X (allIMFs P M r ks) := by
  induction ks with
  | nil => exact safe_pure _
  | cons k ks ih => exact (safe_oneIMF hM r k).bind fun _ => ih.bind fun _ => safe_pure _

theorem safe_getIMFs (hM : GoodMethods P M) {X : Ex} (E : List V → Except Err (List (List V))) (r : Loc) :
    Safe P X (getIMFs P M E r) := by
  unfold getIMFs relY
  exact ((safe_getRel _).bind fun _ => safe_pure _).bind fun _ => (safe_getY _).bind fun _ => (safe_lift _).bind fun _ =>
    safe_allIMFs hM _ _

/-- one signal: class, parts, data; or the exception -/
theorem oneIMF_run {h : Heap K V} (hc : Coh P h) {r : Loc} {o : RelObj} {a : AxisObj K} {y : List V} (hr : IsRel h r o a y)
    {v : List K} (hv : P.mkArr a.start a.stop a.sample = .ok v) (k : List V) :
    (v.length = k.length → ∃ l h' p, oneIMF P M r k h = (.ok l, h') ∧ OwnsParts h h' l p ∧ p.cls = .signal ∧
      (∃ a', h'.axes[p.x]? = some a' ∧ fields a' = fields a) ∧ h'.yarrs[p.y]? = some k) ∧
    (v.length ≠ k.length → (oneIMF P M r k h).1 = .error (.notEqual v.length k.length)) := by
  have e0 : relX r h = (.ok o.x, h) := by
    unfold relX
    rw [bind_of_ok (getRel_run hr.rel)]; rfl
  have e1 : axisCopy o.x h = (.ok h.axes.length, { h with axes := h.axes ++ [a] }) := by
    unfold axisCopy
    rw [bind_of_ok (getAxis_run hr.axis)]; rfl
  set h1 : Heap K V := { h with axes := h.axes ++ [a] } with hh1
  have c1 : Coh P h1 := by
    have := (safe_axisCopy (P := P) (X := ∅) o.x h).2 hc
    rw [e1] at this
    exact this
  set h2 : Heap K V := { h1 with yarrs := h1.yarrs ++ [k] } with hh2
  have c2 : Coh P h2 := c1
  have ha2 : h2.axes[h.axes.length]? = some a := by simp [hh2, hh1]
  have hy2 : h2.yarrs[h.yarrs.length]? = some k := by simp [hh2, hh1]
  have e2 : oneIMF P M r k h = (initAxis P .signal h1.config h.axes.length h.yarrs.length none >>= fun l => pure l) h2 := by
    unfold oneIMF
    rw [bind_of_ok e0, bind_of_ok e1]
    rfl
  have hsz := axisSize_run c2 ha2
  have w := (safe_axisSize (P := P) (X := ∅) h.axes.length h2).1
  rw [hv] at hsz
  rcases hs : axisSize P h.axes.length h2 with ⟨e | n, h3⟩
  · rw [hs] at hsz; simp [Except.map] at hsz
  rw [hs] at hsz w
  simp only [Except.map, Except.ok.injEq] at hsz
  subst hsz
  obtain ⟨k', hy3, hk⟩ := w.yarrs _ _ hy2
  rw [hk (Set.notMem_empty _)] at hy3
  obtain ⟨a3, ha3, hl⟩ := w.axes _ _ ha2
  have hl := hl (Set.notMem_empty _)
  constructor
  · intro hlen
    refine ⟨h3.rels.length, { h3 with rels := h3.rels ++ [mkRelObj .signal h1.config h.axes.length h.yarrs.length none] },
      mkRelObj .signal h1.config h.axes.length h.yarrs.length none, ?_, ⟨?_, ?_, ?_, ?_, ?_, ?_⟩, rfl, ⟨a3, ha3, ?_⟩, hy3⟩
    · rw [e2]
      unfold initAxis
      rw [bind_run, bind_of_ok hs, bind_of_ok (getY_run hy3)]
      simp only [ne_eq, hlen, not_true_eq_false, if_false]
      rfl
    · simp
    · exact w.rels_len
    · exact le_refl _
    · exact le_refl _
    · exact (List.getElem?_eq_some_iff.1 ha3).1
    · exact (List.getElem?_eq_some_iff.1 hy3).1
    · simp only [fields, hl.start, hl.stop, hl.sample]
  · intro hlen
    rw [e2]
    unfold initAxis
    rw [bind_run, bind_of_ok hs, bind_of_ok (getY_run hy3)]
    simp only [ne_eq, hlen, not_false_eq_true, if_true]
    rfl

end SweepDesign.Mem
