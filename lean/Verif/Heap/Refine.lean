import Verif.Heap.Own
import Verif.Heap.Exact
import Verif.Lemmas.Relation

/-!
# Heap layer: calls on objects compute the value-layer functions

`Sim h m x R`: run on `h`, the heap program `m` returns or raises as the value-layer computation `x` does, with results
related by `R`; it changes nothing that existed and keeps the caches coherent.
-/

set_option linter.unusedSectionVars false

namespace SweepDesign.Mem

open HM Spec

variable {K V : Type}

/-- the axis object `l` has the fields `a` -/
def AxIs (h : Heap K V) (l : Loc) (a : Axis K) : Prop := ∃ o, h.axes[l]? = some o ∧ fields o = a

/-- `r` is an object of class `c` with axis fields and y values `v` -/
structure RelIs (h : Heap K V) (r : Loc) (c : Cls) (v : Rel K V) (o : RelObj) : Prop where
  rel : h.rels[r]? = some o
  cls : o.cls = c
  x : AxIs h o.x v.x
  y : h.yarrs[o.y]? = some v.y

/-- agreement of two outcomes -/
def Agree {α β : Type} (R : α → β → Prop) : Except Err α → Except Err β → Prop
  | .ok a, .ok b => R a b
  | .error e, .error e' => e = e'
  | _, _ => False

structure Sim {α β : Type} (P : Prims K V) (h : Heap K V) (m : HM K V α) (x : Except Err β) (R : Heap K V → α → β → Prop) :
    Prop where
  le : Le ∅ h (m h).2
  coh : Coh P (m h).2
  agree : Agree (R (m h).2) (m h).1 x

theorem AxIs.le {h h' : Heap K V} {l : Loc} {a : Axis K} (w : Le ∅ h h') (ha : AxIs h l a) : AxIs h' l a := by
  obtain ⟨o, ho, e⟩ := ha
  obtain ⟨o', ho', e'⟩ := w.axes l o ho
  have e' := e' (Set.notMem_empty _)
  exact ⟨o', ho', by rw [← e]; simp [fields, e'.start, e'.stop, e'.sample]⟩

theorem yIs_le {h h' : Heap K V} {l : Loc} {y : List V} (w : Le ∅ h h') (hy : h.yarrs[l]? = some y) :
    h'.yarrs[l]? = some y := by
  obtain ⟨v', hv', e⟩ := w.yarrs l y hy
  rw [hv', e (Set.notMem_empty _)]

theorem RelIs.le {h h' : Heap K V} {r : Loc} {c : Cls} {v : Rel K V} {o : RelObj} (w : Le ∅ h h') (hr : RelIs h r c v o) :
    ∃ o', RelIs h' r c v o' ∧ o'.x = o.x := by
  obtain ⟨o', ho', e, -⟩ := w.rels r o hr.rel
  exact ⟨o', ⟨ho', by rw [e.cls]; exact hr.cls, by rw [e.x]; exact hr.x.le w, by rw [e.y]; exact yIs_le w hr.y⟩, e.x⟩

section
variable {P : Prims K V} {α β γ δ : Type} {h : Heap K V}

theorem Sim.bind {m : HM K V α} {x : Except Err β} {R : Heap K V → α → β → Prop} {f : α → HM K V γ} {g : β → Except Err δ}
    {R' : Heap K V → γ → δ → Prop} (h1 : Sim P h m x R)
    (h2 : ∀ a b h', Le ∅ h h' → Coh P h' → R h' a b → Sim P h' (f a) (g b) R') : Sim P h (m >>= f) (x >>= g) R' := by
  have w := h1.le; have c := h1.coh; have ag := h1.agree
  rcases hm : m h with ⟨e | a, h'⟩
  · rw [hm] at w c ag
    rcases x with e' | b
    · refine ⟨by rw [bind_of_error hm]; exact w, by rw [bind_of_error hm]; exact c, ?_⟩
      rw [bind_of_error hm]; exact ag
    · exact absurd ag id
  · rw [hm] at w c ag
    rcases x with e' | b
    · exact absurd ag id
    · have k := h2 a b h' w c ag
      refine ⟨by rw [bind_of_ok hm]; exact w.trans k.le, by rw [bind_of_ok hm]; exact k.coh, ?_⟩
      rw [bind_of_ok hm]; exact k.agree

/-- a step without counterpart in the value layer -/
theorem Sim.step {m : HM K V α} {b : β} {R : Heap K V → α → β → Prop} {f : α → HM K V γ} {x : Except Err δ}
    {R' : Heap K V → γ → δ → Prop} (h1 : Sim P h m (.ok b) R)
    (h2 : ∀ a h', Le ∅ h h' → Coh P h' → R h' a b → Sim P h' (f a) x R') : Sim P h (m >>= f) x R' :=
  Sim.bind (x := .ok b) (g := fun _ => x) (R := fun h' a b' => R h' a b) ⟨h1.le, h1.coh, by
    have := h1.agree
    revert this
    rcases (m h).1 with e | a <;> exact id⟩ fun a _ h' w c r => h2 a h' w c r

/-- a step that only reads -/
theorem Sim.read {m : HM K V α} {a : α} {f : α → HM K V γ} {x : Except Err δ}
    {R' : Heap K V → γ → δ → Prop} (h1 : m h = (.ok a, h)) (h2 : Sim P h (f a) x R') : Sim P h (m >>= f) x R' := by
  refine ⟨?_, ?_, ?_⟩ <;> rw [bind_of_ok h1]
  · exact h2.le
  · exact h2.coh
  · exact h2.agree

theorem Sim.mono {m : HM K V α} {x : Except Err β} {R R' : Heap K V → α → β → Prop} (h1 : Sim P h m x R)
    (hR : ∀ h' a b, R h' a b → R' h' a b) : Sim P h m x R' := by
  refine ⟨h1.le, h1.coh, ?_⟩
  have := h1.agree
  revert this
  rcases (m h).1 with e | a <;> rcases x with e' | b <;> simp only [Agree] <;> intro hh
  · exact hh
  · exact hh
  · exact hh
  · exact hR _ _ _ hh

theorem sim_pure (c : Coh P h) {a : α} {b : β} {R : Heap K V → α → β → Prop} (hr : R h a b) :
    Sim P h (pure a) (pure b) R := ⟨Le.refl _ _, c, hr⟩

theorem sim_raise (c : Coh P h) (e : Err) {R : Heap K V → α → β → Prop} :
    Sim P h (raise e) (.error e) R := ⟨Le.refl _ _, c, rfl⟩

theorem sim_lift (c : Coh P h) (x : Except Err α) : Sim P h (lift x) x (fun _ a b => a = b) := by
  refine ⟨Le.refl _ _, c, ?_⟩
  show Agree _ x x
  rcases x with e | a <;> rfl

/-- a safe program that returns -/
theorem sim_ok {m : HM K V α} (hm : Safe P ∅ m) (c : Coh P h) {a : α} {h' : Heap K V} (hr : m h = (.ok a, h'))
    {b : β} {R : Heap K V → α → β → Prop} (hR : R h' a b) : Sim P h m (.ok b) R := by
  refine ⟨(hm h).1, (hm h).2 c, ?_⟩
  rw [hr]; exact hR

theorem sim_newY (c : Coh P h) (y : List V) : Sim P h (newY y) (.ok ()) (fun h' l _ => h'.yarrs[l]? = some y) :=
  sim_ok (safe_newY _) c rfl (by simp)

theorem sim_newX (c : Coh P h) (x : List K) : Sim P h (newX x) (.ok ()) (fun h' l _ => h'.xarrs[l]? = some x) :=
  sim_ok (safe_newX _) c rfl (by simp)

theorem sim_axisNew (c : Coh P h) (s e d : K) :
    Sim P h (axisNew s e d) (.ok ()) (fun h' l _ => AxIs h' l ⟨s, e, d⟩) :=
  sim_ok (safe_axisNew _ _ _) c rfl ⟨⟨s, e, d, none, none⟩, by simp, rfl⟩

theorem axisCopy_run {l : Loc} {o : AxisObj K} (ho : h.axes[l]? = some o) :
    axisCopy l h = (.ok h.axes.length, { h with axes := h.axes ++ [o] }) := by
  unfold axisCopy
  rw [bind_of_ok (getAxis_run ho)]; rfl

theorem sim_axisCopy (c : Coh P h) {l : Loc} {a : Axis K} (ha : AxIs h l a) :
    Sim P h (axisCopy l) (.ok ()) (fun h' l _ => AxIs h' l a) := by
  obtain ⟨o, ho, e⟩ := ha
  exact sim_ok (safe_axisCopy _) c (axisCopy_run ho) ⟨o, by simp, e⟩

end

section
variable [Field K] [LinearOrder K] [IsStrictOrderedRing K] [FloorRing K]
variable [Field V] [Algebra K V] [Star V] [DecidableEq V] [PyPow V]
variable {T : Transcendental K V} {h : Heap K V}

theorem sim_axisValues (c : Coh (exactPrims T) h) {l : Loc} {a : Axis K} (ha : AxIs h l a) :
    Sim (exactPrims T) h (axisValues (exactPrims T) l) a.array (fun _ x y => x = y) := by
  obtain ⟨o, ho, e⟩ := ha
  have w := safe_axisValues (P := exactPrims T) (X := ∅) l h
  refine ⟨w.1, w.2 c, ?_⟩
  have : (axisValues (exactPrims T) l h).1 = a.array := by
    rw [axisValues_run c ho, ← e]; rfl
  rw [this]
  rcases a.array with e | a <;> rfl

theorem sim_axisSize (c : Coh (exactPrims T) h) {l : Loc} {a : Axis K} (ha : AxIs h l a) :
    Sim (exactPrims T) h (axisSize (exactPrims T) l) a.size (fun _ x y => x = y) := by
  obtain ⟨o, ho, e⟩ := ha
  have w := safe_axisSize (P := exactPrims T) (X := ∅) l h
  refine ⟨w.1, w.2 c, ?_⟩
  have : (axisSize (exactPrims T) l h).1 = a.size := by
    rw [axisSize_run c ho, ← e]; rfl
  rw [this]
  rcases a.size with e | a <;> rfl

/-- a new object of class `c` -/
def IsNew (c : Cls) (h : Heap K V) (l : Loc) (v : Rel K V) : Prop := ∃ o, RelIs h l c v o

theorem sim_initAxis (hc : Coh (exactPrims T) h) (c : Cls) (g : ConfigIds) {ax ly : Loc} {a : Axis K} {y : List V}
    (ha : AxIs h ax a) (hy : h.yarrs[ly]? = some y) (cp : Option Loc) :
    Sim (exactPrims T) h (initAxis (exactPrims T) c g ax ly cp) (Rel.make a y) (IsNew c) := by
  unfold initAxis Rel.make
  refine (sim_axisSize hc ha).bind fun n n' h1 w1 c1 e => ?_
  subst e
  have hy1 := yIs_le w1 hy
  refine Sim.read (getY_run hy1) ?_
  split
  · exact sim_raise c1 _
  · obtain ⟨o, ho, e⟩ := ha.le w1
    exact sim_ok (safe_newRel _) c1 rfl ⟨mkRelObj c g ax ly cp, by simp, rfl, ⟨o, ho, e⟩, hy1⟩

theorem sim_relInit_axis (hc : Coh (exactPrims T) h) (M : Methods K V) (c : Cls) {ax : Loc} {a : Axis K} {ly : Loc} {y : List V}
    (ha : AxIs h ax a) (hy : h.yarrs[ly]? = some y) (cp : Option Loc) :
    Sim (exactPrims T) h (relInit (exactPrims T) M c (.axis ax) (.arr ly) cp) (Rel.make a y) (IsNew c) := by
  unfold relInit npArray
  refine Sim.read rfl ?_
  simp only []
  refine Sim.step (b := ()) (R := fun h' l _ => h'.yarrs[l]? = some y) (Sim.read (getY_run hy) (sim_newY hc y))
    fun l h1 w1 c1 r => sim_initAxis c1 c _ (ha.le w1) r cp

theorem sim_relInit_axis_list (hc : Coh (exactPrims T) h) (M : Methods K V) (c : Cls) {ax : Loc} {a : Axis K} (y : List V)
    (ha : AxIs h ax a) (cp : Option Loc) :
    Sim (exactPrims T) h (relInit (exactPrims T) M c (.axis ax) (.list y) cp) (Rel.make a y) (IsNew c) := by
  unfold relInit npArray
  refine Sim.read rfl ?_
  exact Sim.step (b := ()) (sim_newY hc y) fun l h1 w1 c1 r => sim_initAxis c1 c _ (ha.le w1) r cp

/-! Sweeps: the constructor also derives descriptions -/

/-- `get_f_t` of a sweep with the values `v` -/
def derivedFt (T : Transcendental K V) (v : Rel K V) : Except Err (Rel K V) := do
  let f ← T.instFreq v.y v.x.sample
  Rel.make v.x f

/-- `get_a_t` of a sweep with the values `v` -/
def derivedAt (T : Transcendental K V) (v : Rel K V) : Except Err (Rel K V) := do
  let f ← T.envelope v.y
  Rel.make v.x f

/-- the descriptions of a new sweep with the values `v`, or the exception of its constructor -/
def sweepParts (T : Transcendental K V) (v : Rel K V) (f a : Option (Rel K V)) : Except Err (Rel K V × Rel K V) := do
  let f ← f.elim (derivedFt T v) .ok
  let a ← a.elim (derivedAt T v) .ok
  T.spectrogram v.y v.x.sample
  pure (f, a)

/-- an optional object and its value -/
def GivenIs (h : Heap K V) : Option Loc → Option (Rel K V) → Prop
  | none, none => True
  | some l, some v => IsNew .relation h l v
  | _, _ => False

/-- `l` is a sweep object with values `v` and descriptions `f`, `a` -/
def SweepOf (h : Heap K V) (l : Loc) (v f a : Rel K V) (ap : Option Loc) : Prop :=
  ∃ o lf la, RelIs h l .sweep v o ∧ o.freqTime = some lf ∧ o.ampTime = some la ∧ IsNew .relation h lf f ∧
    IsNew .relation h la a ∧ o.aPrior = ap

theorem RelIs.setSelf {l : Loc} {c : Cls} {v : Rel K V} {o p : RelObj} (hr : RelIs h l c v o) (hf : RelFix o p) :
    RelIs { h with rels := h.rels.set l p } l c v p :=
  ⟨set_getElem?_self hr.rel, hf.cls.trans hr.cls, by rw [hf.x]; exact hr.x, by rw [hf.y]; exact hr.y⟩

theorem IsNew.set {l q : Loc} {c : Cls} {v : Rel K V} {p p' : RelObj} (hr : IsNew c h q v) (hp : h.rels[l]? = some p)
    (hf : RelFix p p') : IsNew c { h with rels := h.rels.set l p' } q v := by
  obtain ⟨o, hr⟩ := hr
  by_cases e : q = l
  · subst e
    obtain rfl : o = p := Option.some.inj (hr.rel.symm.trans hp)
    exact ⟨p', hr.setSelf hf⟩
  · exact ⟨o, ⟨by simp [List.getElem?_set_ne (Ne.symm e), hr.rel], hr.cls, hr.x, hr.y⟩⟩

theorem sim_defGetFt (hc : Coh (exactPrims T) h) {l : Loc} {c : Cls} {v : Rel K V} {o : RelObj} (hr : RelIs h l c v o) :
    Sim (exactPrims T) h (defGetFt (exactPrims T) l) (derivedFt T v) (IsNew .relation) := by
  unfold defGetFt derivedFt
  refine Sim.read (getRel_run hr.rel) (Sim.read (getY_run hr.y) ?_)
  obtain ⟨a, ha, ea⟩ := hr.x
  refine Sim.read (getAxis_run ha) ?_
  have e3 : a.sample = v.x.sample := congrArg Axis.sample ea
  rw [e3]
  refine (sim_lift hc (T.instFreq v.y v.x.sample)).bind fun f f' h1 w1 c1 e => ?_
  subst e
  refine Sim.read rfl ?_
  exact Sim.step (sim_newY c1 f) fun ly h2 w2 c2 ry => sim_initAxis c2 _ _ (hr.x.le (w1.trans w2)) ry none

theorem sim_defGetAt (hc : Coh (exactPrims T) h) {l : Loc} {c : Cls} {v : Rel K V} {o : RelObj} (hr : RelIs h l c v o) :
    Sim (exactPrims T) h (defGetAt (exactPrims T) l) (derivedAt T v) (IsNew .relation) := by
  unfold defGetAt derivedAt
  refine Sim.read (getRel_run hr.rel) (Sim.read (getY_run hr.y) ?_)
  refine (sim_lift hc (T.envelope v.y)).bind fun f f' h1 w1 c1 e => ?_
  subst e
  refine Sim.read rfl ?_
  exact Sim.step (sim_newY c1 f) fun ly h2 w2 c2 ry => sim_initAxis c2 _ _ (hr.x.le (w1.trans w2)) ry none

theorem sim_defSpectrogram (hc : Coh (exactPrims T) h) {l : Loc} {c : Cls} {v : Rel K V} {o : RelObj}
    (hr : RelIs h l c v o) :
    Sim (exactPrims T) h (defSpectrogram (exactPrims T) l) (T.spectrogram v.y v.x.sample) (fun h' _ _ => h' = h) := by
  unfold defSpectrogram
  refine Sim.read (getRel_run hr.rel) (Sim.read (getY_run hr.y) ?_)
  obtain ⟨a, ha, ea⟩ := hr.x
  refine Sim.read (getAxis_run ha) ?_
  have e3 : a.sample = v.x.sample := congrArg Axis.sample ea
  rw [e3]
  refine ⟨Le.refl _ _, hc, ?_⟩
  show Agree _ (T.spectrogram v.y v.x.sample) (T.spectrogram v.y v.x.sample)
  rcases T.spectrogram v.y v.x.sample with e | a <;> rfl

/-- `Sim` without the claim that existing objects stay as they are -/
structure Runs {α β : Type} (P : Prims K V) (h : Heap K V) (m : HM K V α) (x : Except Err β) (R : Heap K V → α → β → Prop) :
    Prop where
  coh : Coh P (m h).2
  agree : Agree (R (m h).2) (m h).1 x

theorem Runs.bind {P : Prims K V} {α β γ δ : Type} {m : HM K V α} {x : Except Err β} {R : Heap K V → α → β → Prop}
    {f : α → HM K V γ} {g : β → Except Err δ} {R' : Heap K V → γ → δ → Prop} (h1 : Sim P h m x R)
    (h2 : ∀ a b h', Le ∅ h h' → Coh P h' → R h' a b → Runs P h' (f a) (g b) R') : Runs P h (m >>= f) (x >>= g) R' := by
  have w := h1.le; have c := h1.coh; have ag := h1.agree
  rcases hm : m h with ⟨e | a, h'⟩
  · rw [hm] at w c ag
    rcases x with e' | b
    · refine ⟨by rw [bind_of_error hm]; exact c, ?_⟩
      rw [bind_of_error hm]; exact ag
    · exact absurd ag id
  · rw [hm] at w c ag
    rcases x with e' | b
    · exact absurd ag id
    · have k := h2 a b h' w c ag
      refine ⟨by rw [bind_of_ok hm]; exact k.coh, ?_⟩
      rw [bind_of_ok hm]; exact k.agree

theorem Runs.step {P : Prims K V} {α γ δ : Type} {m : HM K V α} {a : α} {h' : Heap K V} {f : α → HM K V γ}
    {x : Except Err δ} {R' : Heap K V → γ → δ → Prop} (h1 : m h = (.ok a, h')) (h2 : Runs P h' (f a) x R') :
    Runs P h (m >>= f) x R' := by
  refine ⟨?_, ?_⟩ <;> rw [bind_of_ok h1]
  · exact h2.coh
  · exact h2.agree

theorem runs_sweepInit (hc : Coh (exactPrims T) h) {l : Loc} {v : Rel K V} {o : RelObj} (hr : RelIs h l .sweep v o)
    {ft at' : Option Loc} {fv av : Option (Rel K V)} (hf : GivenIs h ft fv) (ha : GivenIs h at' av) (ap : Option Loc) :
    Runs (exactPrims T) h (sweepInit (defaultMethods (exactPrims T)) l ft at' ap) (sweepParts T v fv av)
      (fun h' q p => q = l ∧ SweepOf h' l v p.1 p.2 ap) := by
  unfold sweepInit sweepParts
  refine Runs.step (h' := h) rfl ?_
  have s1 : Sim (exactPrims T) h (givenOr ft ((defaultMethods (exactPrims T)).getFt h.config.getFt l))
      (fv.elim (derivedFt T v) .ok) (IsNew .relation) := by
    rcases ft with _ | f <;> rcases fv with _ | fv
    · exact sim_defGetFt hc hr
    · exact absurd hf id
    · exact absurd hf id
    · exact sim_pure hc hf
  refine Runs.bind s1 fun lf f h1 w1 c1 n1 => ?_
  obtain ⟨o1, hr1, -⟩ := hr.le w1
  have ha1 : GivenIs h1 at' av := by
    rcases at' with _ | f <;> rcases av with _ | fv
    · exact ha
    · exact absurd ha id
    · exact absurd ha id
    · obtain ⟨u, hu⟩ := ha
      obtain ⟨u', hu', -⟩ := hu.le w1
      exact ⟨u', hu'⟩
  refine Runs.step (getRel_run hr1.rel) (Runs.step putRel_run ?_)
  have fx1 : RelFix o1 { o1 with freqTime := some lf } := ⟨rfl, rfl, rfl, rfl⟩
  have hr2 := hr1.setSelf fx1
  have n2 := n1.set hr1.rel fx1
  have c2 : Coh (exactPrims T) { h1 with rels := h1.rels.set l { o1 with freqTime := some lf } } := c1
  have ha2 : GivenIs { h1 with rels := h1.rels.set l { o1 with freqTime := some lf } } at' av := by
    rcases at' with _ | f <;> rcases av with _ | fv
    · exact ha
    · exact absurd ha id
    · exact absurd ha id
    · exact IsNew.set ha1 hr1.rel fx1
  have s2 : Sim (exactPrims T) { h1 with rels := h1.rels.set l { o1 with freqTime := some lf } }
      (givenOr at' ((defaultMethods (exactPrims T)).getAt h.config.getAt l))
      (av.elim (derivedAt T v) .ok) (IsNew .relation) := by
    rcases at' with _ | f <;> rcases av with _ | fv
    · exact sim_defGetAt c2 hr2
    · exact absurd ha id
    · exact absurd ha id
    · exact sim_pure c2 ha2
  refine Runs.bind s2 fun la a h3 w3 c3 n3 => ?_
  obtain ⟨o3, ho3, e3, m3⟩ := w3.rels l _ hr2.rel
  have hr3 : RelIs h3 l .sweep v o3 :=
    ⟨ho3, e3.cls.trans hr2.cls, by rw [e3.x]; exact hr2.x.le w3, by rw [e3.y]; exact yIs_le w3 hr2.y⟩
  have f3 : o3.freqTime = some lf := (m3 (Set.notMem_empty _)).freqTime _ rfl
  have n2' : IsNew .relation h3 lf f := by
    obtain ⟨u, hu⟩ := n2
    obtain ⟨u', hu', -⟩ := hu.le w3
    exact ⟨u', hu'⟩
  refine Runs.step (getRel_run hr3.rel) (Runs.step putRel_run ?_)
  have fx3 : RelFix o3 { o3 with ampTime := some la } := ⟨rfl, rfl, rfl, rfl⟩
  have hr4 := hr3.setSelf fx3
  have n4 := n3.set hr3.rel fx3
  have n4' := n2'.set hr3.rel fx3
  have c4 : Coh (exactPrims T) { h3 with rels := h3.rels.set l { o3 with ampTime := some la } } := c3
  refine Runs.bind (sim_defSpectrogram c4 hr4) fun _ _ h5 w5 c5 e5 => ?_
  subst e5
  refine Runs.step (getRel_run hr4.rel) (Runs.step putRel_run ?_)
  have fx5 : RelFix { o3 with ampTime := some la } { o3 with ampTime := some la, aPrior := ap } := ⟨rfl, rfl, rfl, rfl⟩
  exact ⟨c5, rfl, _, lf, la, hr4.setSelf fx5, f3, rfl, n4'.set hr4.rel fx5, n4.set hr4.rel fx5, rfl⟩

/-- the default methods describe every sweep whose samples fit its axis -/
def Describes (T : Transcendental K V) : Prop := ∀ v : Rel K V, Balanced v → ∃ p, sweepParts T v none none = .ok p

/-- objects of class `c` are constructed without further exceptions -/
def Fine (T : Transcendental K V) (M : Methods K V) (c : Cls) : Prop :=
  c = .sweep → M = defaultMethods (exactPrims T) ∧ Describes T

theorem Fine.of_ne {M : Methods K V} {c : Cls} (hn : c ≠ .sweep) : Fine T M c := fun e => absurd e hn

theorem sim_construct {M : Methods K V} {c : Cls} (hn : Fine T M c) {x : HXArg K} {y : HYArg V} {cp : Option Loc}
    {v : Except Err (Rel K V)} (hs : Sim (exactPrims T) h (relInit (exactPrims T) M c x y cp) v (IsNew c))
    (hb : ∀ w, v = .ok w → c = .sweep → Balanced w) :
    Sim (exactPrims T) h (construct (exactPrims T) M c x y cp) v (IsNew c) := by
  by_cases e : c = .sweep
  · subst e
    obtain ⟨rfl, hd⟩ := hn rfl
    have gM := good_defaultMethods (P := exactPrims T)
    have hx : v = v >>= fun w => .ok w := by rcases v with e | v <;> rfl
    have k : Runs (exactPrims T) h (construct (exactPrims T) (defaultMethods (exactPrims T)) .sweep x y cp) v
        (IsNew .sweep) := by
      unfold construct
      have hx : v = v >>= fun w => sweepParts T w none none >>= fun _ => .ok w := by
        rcases v with e | v
        · rfl
        · obtain ⟨p, hp⟩ := hd v (hb v rfl rfl)
          show _ = sweepParts T v none none >>= fun _ => .ok v
          rw [hp]; rfl
      rw [hx]
      refine Runs.bind hs fun l w h1 _ c1 r => ?_
      obtain ⟨o, ho⟩ := r
      rw [if_pos rfl]
      have q := runs_sweepInit c1 ho (ft := none) (at' := none) (fv := none) (av := none) trivial trivial none
      refine ⟨q.coh, ?_⟩
      have ag := q.agree
      revert ag
      rcases sweepInit (defaultMethods (exactPrims T)) l none none none h1 with ⟨e | a, h2⟩ <;>
        rcases sweepParts T w none none with e' | p <;> intro ag
      · exact ag
      · exact ag
      · exact ag
      · obtain ⟨rfl, o', _, _, hr, -⟩ := ag
        exact ⟨o', hr⟩
    exact ⟨(safe_construct gM _ _ _ _ h).1, k.coh, k.agree⟩
  · unfold construct
    have : v = v >>= pure := by rcases v with e | v <;> rfl
    rw [this]
    refine hs.bind fun l w h1 _ c1 r => ?_
    rw [if_neg e]
    exact sim_pure c1 r

theorem balanced_of_make {x : Axis K} {y : List V} {w : Rel K V} (h : Rel.make x y = .ok w) : Balanced w := by
  obtain ⟨h1, rfl⟩ := (make_ok_iff x y w).1 h
  exact h1

theorem sim_construct_axis (hc : Coh (exactPrims T) h) (M : Methods K V) {c : Cls} (hn : Fine T M c) {ax : Loc} {a : Axis K}
    {ly : Loc} {y : List V} (ha : AxIs h ax a) (hy : h.yarrs[ly]? = some y) (cp : Option Loc) :
    Sim (exactPrims T) h (construct (exactPrims T) M c (.axis ax) (.arr ly) cp) (Rel.make a y) (IsNew c) :=
  sim_construct hn (sim_relInit_axis hc M c ha hy cp) fun _ e _ => balanced_of_make e

theorem sim_construct_list (hc : Coh (exactPrims T) h) (M : Methods K V) {c : Cls} (hn : Fine T M c) {ax : Loc} {a : Axis K}
    (y : List V) (ha : AxIs h ax a) (cp : Option Loc) :
    Sim (exactPrims T) h (construct (exactPrims T) M c (.axis ax) (.list y) cp) (Rel.make a y) (IsNew c) :=
  sim_construct hn (sim_relInit_axis_list hc M c y ha cp) fun _ e _ => balanced_of_make e

theorem except_bind_pure_id {ε α : Type} (x : Except ε α) : x = x >>= pure := by rcases x with e | v <;> rfl

theorem sim_axisFromArray (hc : Coh (exactPrims T) h) (x : List K) (f r : Bool) :
    Sim (exactPrims T) h (axisFromArray (exactPrims T) x f r) (SweepDesign.axisFromArray x f r) AxIs := by
  unfold axisFromArray
  show Sim _ h (lift ((SweepDesign.axisFromArray x f r).map fun a => (a.start, a.stop, a.sample)) >>= _) _ _
  rcases SweepDesign.axisFromArray x f r with e | a
  · exact ⟨Le.refl _ _, hc, rfl⟩
  · exact Sim.read rfl (sim_ok (safe_axisNew _ _ _) hc rfl ⟨⟨a.start, a.stop, a.sample, none, none⟩, by simp, rfl⟩)

theorem sim_construct_array (hc : Coh (exactPrims T) h) {c : Cls} (hn : Fine T (defaultMethods (exactPrims T)) c) (x : List K) (f : Bool)
    (y : List V) (cp : Option Loc) :
    Sim (exactPrims T) h (construct (exactPrims T) (defaultMethods (exactPrims T)) c (.array x f) (.list y) cp)
      (Rel.init (.array x f) (some y)) (IsNew c) := by
  refine sim_construct hn ?_ fun w e _ => ?_
  swap
  · obtain ⟨a, -, e⟩ := except_bind_eq_ok.1 e
    exact balanced_of_make e
  unfold relInit npArray
  refine Sim.read rfl ?_
  refine Sim.step (b := ()) (sim_newY hc y) fun l h1 w1 c1 r => ?_
  exact (sim_axisFromArray c1 x f true).bind fun ax a h2 w2 c2 ra => sim_initAxis c2 c _ ra (yIs_le w2 r) cp

theorem sim_construct_rel (hc : Coh (exactPrims T) h) (M : Methods K V) {c : Cls} (hn : Fine T M c) {r : Loc} {c' : Cls}
    {v : Rel K V} {o : RelObj} (hr : RelIs h r c' v o) (hb : c = .sweep → Balanced v) (y : HYArg V) (cp : Option Loc) :
    Sim (exactPrims T) h (construct (exactPrims T) M c (.rel r) y cp) (.ok v) (IsNew c) := by
  refine sim_construct hn ?_ fun w e h => by cases e; exact hb h
  unfold relInit
  refine Sim.read rfl ?_
  refine Sim.read (getRel_run hr.rel) ?_
  refine Sim.step (sim_axisCopy hc hr.x) fun ax h1 w1 c1 ra => ?_
  refine Sim.read (getY_run (yIs_le w1 hr.y)) ?_
  refine Sim.step (sim_newY c1 v.y) fun ly h2 w2 c2 ry => ?_
  obtain ⟨a, ha, e⟩ := ra.le w2
  exact sim_ok (safe_newRel _) c2 rfl ⟨mkRelObj c h.config ax ly cp, by simp, rfl, ⟨a, ha, e⟩, ry⟩

section
variable {r : Loc} {c : Cls} {v : Rel K V} {o : RelObj} {M : Methods K V}

theorem sim_relGetData (hc : Coh (exactPrims T) h) (hr : RelIs h r c v o) :
    Sim (exactPrims T) h (relGetData (exactPrims T) r) v.getData
      (fun h' p d => h'.xarrs[p.1]? = some d.1 ∧ h'.yarrs[p.2]? = some d.2) := by
  unfold relGetData Rel.getData
  refine Sim.read (getRel_run hr.rel) ?_
  refine (sim_axisSize hc hr.x).bind fun n n' h1 w1 c1 e => ?_
  subst e
  have hy1 := yIs_le w1 hr.y
  refine Sim.read (getY_run hy1) ?_
  split
  · exact sim_raise c1 _
  · refine (sim_axisValues c1 (hr.x.le w1)).bind fun x x' h2 w2 c2 e => ?_
    subst e
    refine Sim.step (sim_newX c2 x) fun lx h3 w3 c3 rx => ?_
    refine Sim.step (sim_newY c3 v.y) fun ly h4 w4 c4 ry => ?_
    exact sim_pure c4 ⟨w4.xarrs _ _ rx, ry⟩

theorem sim_relSelect (hc : Coh (exactPrims T) h) (hr : RelIs h r c v o) (hn : Fine T M c) (s e : Option K) :
    Sim (exactPrims T) h (relSelect (exactPrims T) M r s e) (v.selectData s e) (IsNew c) := by
  unfold relSelect Rel.selectData
  refine Sim.read (getRel_run hr.rel) ?_
  obtain ⟨a, ha, ea⟩ := hr.x
  refine Sim.read (getAxis_run ha) ?_
  refine (sim_axisValues hc hr.x).bind fun x x' h1 w1 c1 ex => ?_
  subst ex
  refine Sim.read (getY_run (yIs_le w1 hr.y)) ?_
  have e1 : a.start = v.x.start := congrArg Axis.start ea
  have e2 : a.stop = v.x.stop := congrArg Axis.stop ea
  have e3 : a.sample = v.x.sample := congrArg Axis.sample ea
  simp only [e1, e2, e3, hr.cls]
  simp only [exactPrims]
  rcases maskSelect _ x with er | sx
  · exact sim_raise c1 er
  · simp only [except_bind_ok]
    rcases sx.head? with _ | s'
    · exact sim_raise c1 _
    · rcases sx.getLast? with _ | e'
      · exact sim_raise c1 _
      · simp only []
        rcases maskSelect _ v.y with er | y'
        · exact sim_raise c1 er
        · refine Sim.read rfl ?_
          refine Sim.step (sim_axisNew c1 _ _ _) fun nx h2 w2 c2 rx => ?_
          exact sim_construct_list c2 M hn y' rx none

theorem sim_relExp (hc : Coh (exactPrims T) h) (hr : RelIs h r c v o) (hn : Fine T M c) :
    Sim (exactPrims T) h (relExp (exactPrims T) M r) (v.exp T.exp) (IsNew c) := by
  unfold relExp Rel.exp
  refine Sim.read (getRel_run hr.rel) ?_
  refine Sim.step (sim_axisCopy hc hr.x) fun nx h1 w1 c1 ra => ?_
  refine Sim.read (getY_run (yIs_le w1 hr.y)) ?_
  rw [hr.cls]
  exact sim_construct_list c1 M hn _ ra none

theorem getAxis_append (hh : Heap K V) (a : AxisObj K) :
    getAxis hh.axes.length { hh with axes := hh.axes ++ [a] } = (.ok a, { hh with axes := hh.axes ++ [a] }) := by
  simp [getAxis]

theorem setStart_append (hh : Heap K V) (a : AxisObj K) (x : K) :
    axisSetStart hh.axes.length x { hh with axes := hh.axes ++ [a] } =
      (.ok (), { hh with axes := hh.axes ++ [⟨x, a.stop, a.sample, none, none⟩] }) := by
  unfold axisSetStart
  rw [bind_of_ok (getAxis_append hh a)]
  simp [putAxis]

theorem setStop_append (hh : Heap K V) (a : AxisObj K) (x : K) :
    axisSetStop hh.axes.length x { hh with axes := hh.axes ++ [a] } =
      (.ok (), { hh with axes := hh.axes ++ [⟨a.start, x, a.sample, none, none⟩] }) := by
  unfold axisSetStop
  rw [bind_of_ok (getAxis_append hh a)]
  simp [putAxis]

theorem sim_defIntegrate (hc : Coh (exactPrims T) h) (hr : RelIs h r c v o) (n : ℕ) :
    Sim (exactPrims T) h ((defaultMethods (exactPrims T)).integrate n r) (.ok ())
      (fun h' p _ => AxIs h' p.1 { v.x with start := v.x.start + v.x.sample } ∧
        h'.yarrs[p.2]? = some ((cumTrapz v.y).map fun w => v.x.sample • w)) := by
  obtain ⟨a, ha, ea⟩ := hr.x
  have e1 : a.start = v.x.start := congrArg Axis.start ea
  have e2 : a.stop = v.x.stop := congrArg Axis.stop ea
  have e3 : a.sample = v.x.sample := congrArg Axis.sample ea
  refine sim_ok (good_defaultMethods.integrate n r) hc (a := (h.axes.length, h.yarrs.length))
    (h' := { h with
      axes := h.axes ++ [⟨a.start + a.sample, a.stop, a.sample, none, none⟩]
      yarrs := h.yarrs ++ [(cumTrapz v.y).map fun w => a.sample • w] }) ?_ ?_
  · have hy : ∀ ax, getY o.y { h with axes := ax } = (.ok v.y, { h with axes := ax }) := fun ax => getY_run hr.y
    show defIntegrate _ r h = _
    unfold defIntegrate
    rw [bind_of_ok (getRel_run hr.rel), bind_of_ok (axisCopy_run ha), bind_of_ok (getAxis_append h a),
      bind_of_ok (setStart_append h a _), bind_of_ok (hy _)]
    rfl
  · exact ⟨⟨⟨a.start + a.sample, a.stop, a.sample, none, none⟩, by simp, by simp [fields, e1, e2, e3]⟩, by simp [e3]⟩

theorem sim_defDifferentiate (hc : Coh (exactPrims T) h) (hr : RelIs h r c v o) (n : ℕ) :
    Sim (exactPrims T) h ((defaultMethods (exactPrims T)).differentiate n r) (.ok ())
      (fun h' p _ => AxIs h' p.1 { v.x with start := v.x.start + v.x.sample / 2, stop := v.x.stop - v.x.sample / 2 } ∧
        h'.yarrs[p.2]? = some ((npDiff v.y).map fun w => v.x.sample⁻¹ • w)) := by
  obtain ⟨a, ha, ea⟩ := hr.x
  have e1 : a.start = v.x.start := congrArg Axis.start ea
  have e2 : a.stop = v.x.stop := congrArg Axis.stop ea
  have e3 : a.sample = v.x.sample := congrArg Axis.sample ea
  refine sim_ok (good_defaultMethods.differentiate n r) hc (a := (h.axes.length, h.yarrs.length))
    (h' := { h with
      axes := h.axes ++ [⟨a.start + a.sample / 2, a.stop - a.sample / 2, a.sample, none, none⟩]
      yarrs := h.yarrs ++ [(npDiff v.y).map fun w => a.sample⁻¹ • w] }) ?_ ?_
  · have hy : ∀ ax, getY o.y { h with axes := ax } = (.ok v.y, { h with axes := ax }) := fun ax => getY_run hr.y
    show defDifferentiate _ r h = _
    unfold defDifferentiate
    rw [bind_of_ok (getRel_run hr.rel), bind_of_ok (axisCopy_run ha), bind_of_ok (getAxis_append h a),
      bind_of_ok (setStart_append h a _), bind_of_ok (setStop_append h _ _),
      bind_of_ok (hy _)]
    rfl
  · exact ⟨⟨⟨a.start + a.sample / 2, a.stop - a.sample / 2, a.sample, none, none⟩, by simp,
      by simp [fields, e1, e2, e3]⟩, by simp [e3]⟩

theorem sim_relIntegrate (hc : Coh (exactPrims T) h) (hr : RelIs h r c v o) (hn : Fine T (defaultMethods (exactPrims T)) c) :
    Sim (exactPrims T) h (relIntegrate (exactPrims T) (defaultMethods (exactPrims T)) r) v.integrate (IsNew c) := by
  unfold relIntegrate Rel.integrate
  refine Sim.read (getRel_run hr.rel) ?_
  rw [hr.cls]
  exact Sim.step (sim_defIntegrate hc hr _) fun p h1 w1 c1 hp => sim_construct_axis c1 _ hn hp.1 hp.2 none

theorem sim_relDiff (hc : Coh (exactPrims T) h) (hr : RelIs h r c v o) (hn : Fine T (defaultMethods (exactPrims T)) c) :
    Sim (exactPrims T) h (relDiff (exactPrims T) (defaultMethods (exactPrims T)) r) v.diff (IsNew c) := by
  unfold relDiff Rel.diff
  refine Sim.read (getRel_run hr.rel) ?_
  rw [hr.cls]
  exact Sim.step (sim_defDifferentiate hc hr _) fun p h1 w1 c1 hp => sim_construct_axis c1 _ hn hp.1 hp.2 none

/-- the shifted copy of an axis -/
theorem sim_shiftedAxis (hc : Coh (exactPrims T) h) {l : Loc} {ax : Axis K} (hl : AxIs h l ax) (d : K) :
    Sim (exactPrims T) h (do
      let nx ← axisCopy l
      let a ← getAxis nx
      axisSetStart nx ((exactPrims T).add a.start d)
      let a ← getAxis nx
      axisSetStop nx ((exactPrims T).add a.stop d)
      pure nx) (.ok ()) (fun h' p _ => AxIs h' p { ax with start := ax.start + d, stop := ax.stop + d }) := by
  obtain ⟨a, ha, ea⟩ := hl
  have e1 : a.start = ax.start := congrArg Axis.start ea
  have e2 : a.stop = ax.stop := congrArg Axis.stop ea
  have e3 : a.sample = ax.sample := congrArg Axis.sample ea
  refine sim_ok ?_ hc (a := h.axes.length)
    (h' := { h with axes := h.axes ++ [⟨a.start + d, a.stop + d, a.sample, none, none⟩] }) ?_ ?_
  · refine (safe_axisCopy _).bindA (fresh_axisCopy _) fun nx => ?_
    exact (safe_getAxis _).bind fun _ => (safe_axisSetStart _ (by simp)).bind fun _ => (safe_getAxis _).bind fun _ =>
      (safe_axisSetStop _ (by simp)).bind fun _ => safe_pure _
  · rw [bind_of_ok (axisCopy_run ha), bind_of_ok (getAxis_append h a),
      bind_of_ok (setStart_append h a _), bind_of_ok (getAxis_append h _), bind_of_ok (setStop_append h _ _)]
    rfl
  · exact ⟨⟨a.start + d, a.stop + d, a.sample, none, none⟩, by simp, by simp [fields, e1, e2, e3]⟩

theorem hm_assoc {α β γ : Type} (m : HM K V α) (f : α → HM K V β) (g : β → HM K V γ) :
    (m >>= f) >>= g = m >>= fun a => f a >>= g := funext fun h => bind_assoc_run m f g h

theorem sim_relShift (hc : Coh (exactPrims T) h) (hr : RelIs h r c v o) (hn : Fine T M c) (d : K) :
    Sim (exactPrims T) h (relShift (exactPrims T) M r d) (v.shift d) (IsNew c) := by
  unfold relShift Rel.shift
  refine Sim.read (getRel_run hr.rel) ?_
  rw [hr.cls]
  have k : Sim (exactPrims T) h ((do
      let nx ← axisCopy o.x
      let a ← getAxis nx
      axisSetStart nx ((exactPrims T).add a.start d)
      let a ← getAxis nx
      axisSetStop nx ((exactPrims T).add a.stop d)
      pure nx) >>= fun nx => construct (exactPrims T) M c (.axis nx) (.arr o.y))
      (Rel.make { v.x with start := v.x.start + d, stop := v.x.stop + d } v.y) (IsNew c) :=
    Sim.step (sim_shiftedAxis hc hr.x d) fun nx h1 w1 c1 ha =>
      sim_construct_axis c1 M hn ha (yIs_le w1 hr.y) none
  rw [hm_assoc] at k
  simp only [hm_assoc] at k
  exact k

theorem sim_defInterp (hc : Coh (exactPrims T) h) {lx ly nx : Loc} {x : List K} {y : List V} {a : Axis K}
    (hx : h.xarrs[lx]? = some x) (hy : h.yarrs[ly]? = some y) (ha : AxIs h nx a) (n : ℕ) :
    Sim (exactPrims T) h ((defaultMethods (exactPrims T)).interp n lx ly nx)
      (do let xs ← a.array; interp1d x y xs) (fun h' l w => h'.yarrs[l]? = some w) := by
  show Sim _ h (defInterp _ lx ly nx) _ _
  unfold defInterp
  refine Sim.read (getX_run hx) (Sim.read (getY_run hy) ?_)
  refine (sim_axisValues hc ha).bind fun xs xs' h1 w1 c1 e => ?_
  subst e
  rw [except_bind_pure_id (interp1d x y xs)]
  refine (sim_lift c1 _).bind fun w w' h2 w2 c2 e => ?_
  subst e
  exact sim_ok (safe_newY _) c2 rfl (by simp)

/-- interpolation to an axis object that already exists in the heap -/
theorem sim_relInterp_to (hc : Coh (exactPrims T) h) (hcl : o.cls = c) (hx : AxIs h o.x v.x) (hy : h.yarrs[o.y]? = some v.y)
    (hn : Fine T (defaultMethods (exactPrims T)) c) {nx : Loc} {a : Axis K} (ha : AxIs h nx a) :
    Sim (exactPrims T) h (do
      let x ← axisValues (exactPrims T) o.x
      let lx ← newX x
      let y ← getY o.y
      let ly ← newY y
      let ny ← (defaultMethods (exactPrims T)).interp o.caps.interp lx ly nx
      construct (exactPrims T) (defaultMethods (exactPrims T)) o.cls (.axis nx) (.arr ny)) (v.interpAxis a) (IsNew c) := by
  unfold Rel.interpAxis
  refine (sim_axisValues hc hx).bind fun x x' h1 w1 c1 e => ?_
  subst e
  refine Sim.step (sim_newX c1 x) fun lx h2 w2 c2 rx => ?_
  refine Sim.read (getY_run (yIs_le (w1.trans w2) hy)) ?_
  refine Sim.step (sim_newY c2 v.y) fun ly h3 w3 c3 ry => ?_
  have w := (w1.trans w2).trans w3
  have k := (sim_defInterp c3 (w3.xarrs _ _ rx) ry (ha.le w) o.caps.interp).bind
    (f := fun ny => construct (exactPrims T) (defaultMethods (exactPrims T)) o.cls (.axis nx) (.arr ny))
    (g := fun y => Rel.make a y) (R' := IsNew c) fun ny y h4 w4 c4 hy4 => by
      rw [hcl]
      exact sim_construct_axis c4 _ hn ((ha.le w).le w4) hy4 none
  rw [bind_assoc] at k
  exact k

theorem sim_relInterp_of (hr : RelIs h r c v o) (hn : Fine T (defaultMethods (exactPrims T)) c) {x : HXArg K}
    {ax : Except Err (Axis K)}
    (hx : Sim (exactPrims T) h (interpAxisOf (defaultMethods (exactPrims T)) o.caps x) ax AxIs) :
    Sim (exactPrims T) h (relInterp (exactPrims T) (defaultMethods (exactPrims T)) r x) (ax >>= fun a => v.interpAxis a)
      (IsNew c) := by
  unfold relInterp
  refine Sim.read (getRel_run hr.rel) ?_
  exact hx.bind fun l a h1 w1 c1 rl => sim_relInterp_to c1 hr.cls (hr.x.le w1) (yIs_le w1 hr.y) hn rl

theorem sim_axisCopy' (c : Coh (exactPrims T) h) {l : Loc} {a : Axis K} (ha : AxIs h l a) :
    Sim (exactPrims T) h (axisCopy l) (.ok a) AxIs := by
  obtain ⟨o, ho, e⟩ := ha
  exact sim_ok (safe_axisCopy _) c (axisCopy_run ho) ⟨o, by simp, e⟩

theorem sim_relInterp_axis (hc : Coh (exactPrims T) h) (hr : RelIs h r c v o) (hn : Fine T (defaultMethods (exactPrims T)) c) {nx : Loc} {a : Axis K}
    (ha : AxIs h nx a) :
    Sim (exactPrims T) h (relInterp (exactPrims T) (defaultMethods (exactPrims T)) r (.axis nx)) (v.interpAxis a)
      (IsNew c) :=
  sim_relInterp_of (x := .axis nx) hr hn (sim_axisCopy' hc ha)

theorem sim_relInterp_rel (hc : Coh (exactPrims T) h) (hr : RelIs h r c v o) (hn : Fine T (defaultMethods (exactPrims T)) c) {r2 : Loc} {c2 : Cls}
    {v2 : Rel K V} {o2 : RelObj} (hr2 : RelIs h r2 c2 v2 o2) :
    Sim (exactPrims T) h (relInterp (exactPrims T) (defaultMethods (exactPrims T)) r (.rel r2))
      (v.interpolateExtrapolate (.rel v2)) (IsNew c) :=
  sim_relInterp_of (x := .rel r2) (ax := .ok v2.x) hr hn (Sim.read (getRel_run hr2.rel) (sim_axisCopy' hc hr2.x))

theorem sim_relInterp_array (hc : Coh (exactPrims T) h) (hr : RelIs h r c v o) (hn : Fine T (defaultMethods (exactPrims T)) c) (x : List K) (f : Bool) :
    Sim (exactPrims T) h (relInterp (exactPrims T) (defaultMethods (exactPrims T)) r (.array x f))
      (v.interpolateExtrapolate (.array x f)) (IsNew c) :=
  sim_relInterp_of (x := .array x f) hr hn (sim_axisFromArray hc x f false)

theorem sim_deepcopy (hc : Coh (exactPrims T) h) (hr : RelIs h r c v o) :
    Sim (exactPrims T) h (deepcopy r) (.ok v) (IsNew c) := by
  obtain ⟨a, ha, ea⟩ := hr.x
  have hrun : deepcopy r h = (.ok (h.rels.length + r),
    { h with
      axes := h.axes ++ h.axes.map (AxisObj.offset h.xarrs.length)
      xarrs := h.xarrs ++ h.xarrs
      yarrs := h.yarrs ++ h.yarrs
      rels := h.rels ++ h.rels.map (RelObj.offset h.axes.length h.yarrs.length h.rels.length) }) := by
    simp [deepcopy, hr.rel]
  refine sim_ok (safe_deepcopy r) hc hrun ⟨o.offset h.axes.length h.yarrs.length h.rels.length, ?_, hr.cls, ?_, ?_⟩
  · rw [List.getElem?_append_right (Nat.le_add_right _ _)]; simp [hr.rel]
  · refine ⟨a.offset h.xarrs.length, ?_, ?_⟩
    · show (h.axes ++ _)[o.x + h.axes.length]? = _
      rw [List.getElem?_append_right (Nat.le_add_left _ _)]; simp [ha]
    · rw [← ea]; rfl
  · show (h.yarrs ++ h.yarrs)[o.y + h.yarrs.length]? = _
    rw [List.getElem?_append_right (Nat.le_add_left _ _)]; simp [hr.y]

theorem sim_defCommonX (hc : Coh (exactPrims T) h) {l1 l2 : Loc} {a1 a2 : Axis K} (h1 : AxIs h l1 a1) (h2 : AxIs h l2 a2)
    (n : ℕ) : Sim (exactPrims T) h ((defaultMethods (exactPrims T)).commonX n l1 l2) (.ok ())
      (fun h' l _ => AxIs h' l (commonX a1 a2)) := by
  show Sim _ h (defCommonX _ l1 l2) _ _
  unfold defCommonX
  obtain ⟨b1, hb1, e1⟩ := h1
  obtain ⟨b2, hb2, e2⟩ := h2
  refine Sim.read (getAxis_run hb1) (Sim.read (getAxis_run hb2) ?_)
  refine (sim_axisNew hc _ _ _).mono fun h' l _ hl => ?_
  subst e1 e2
  refine (congrArg (AxIs h' l) ?_).mp hl
  simp only [commonX, exactPrims, fields, decide_eq_true_eq, ge_iff_le]
  congr

theorem sim_relEqualize (hc : Coh (exactPrims T) h) {r1 r2 : Loc} {c1 c2 : Cls} {v1 v2 : Rel K V} {o1 o2 : RelObj}
    (hr1 : RelIs h r1 c1 v1 o1) (hr2 : RelIs h r2 c2 v2 o2) (hn1 : Fine T (defaultMethods (exactPrims T)) c1) (hn2 : Fine T (defaultMethods (exactPrims T)) c2) :
    Sim (exactPrims T) h (relEqualize (exactPrims T) (defaultMethods (exactPrims T)) r1 r2)
      (Rel.equalize (decide (o1.x = o2.x)) v1 v2) (fun h' p q => IsNew c1 h' p.1 q.1 ∧ IsNew c2 h' p.2 q.2) := by
  unfold relEqualize Rel.equalize
  refine Sim.read (getRel_run hr1.rel) (Sim.read (getRel_run hr2.rel) ?_)
  by_cases he : o1.x = o2.x
  · simp only [he, if_true, decide_true]
    refine Sim.step (sim_deepcopy hc hr1) fun q1 h1 w1 k1 n1 => ?_
    obtain ⟨o2', hr2', -⟩ := hr2.le w1
    refine Sim.step (sim_deepcopy k1 hr2') fun q2 h2 w2 k2 n2 => ?_
    refine sim_pure k2 ⟨?_, n2⟩
    obtain ⟨p, hp⟩ := n1
    obtain ⟨p', hp', -⟩ := hp.le w2
    exact ⟨p', hp'⟩
  · simp only [he, if_false, decide_false, Bool.false_eq_true]
    refine Sim.read rfl ?_
    refine Sim.step (sim_defCommonX hc hr1.x hr2.x _) fun nx h1 w1 k1 hx => ?_
    obtain ⟨o1', hr1', -⟩ := hr1.le w1
    refine (sim_relInterp_axis k1 hr1' hn1 hx).bind fun q1 u1 h2 w2 k2 n1 => ?_
    obtain ⟨o2', hr2', -⟩ := hr2.le (w1.trans w2)
    refine (sim_relInterp_axis k2 hr2' hn2 (hx.le w2)).bind fun q2 u2 h3 w3 k3 n2 => ?_
    refine sim_pure k3 ⟨?_, n2⟩
    obtain ⟨p, hp⟩ := n1
    obtain ⟨p', hp', -⟩ := hp.le w3
    exact ⟨p', hp'⟩

/-- an operand of `math_operation` and its value -/
def OperandIs (h : Heap K V) : HOperand V → NpOperand V → Prop
  | .arr l, .arr y => h.yarrs[l]? = some y
  | .num a, .num b => a = b
  | .bad, .bad => True
  | _, _ => False

theorem OperandIs.le {h h' : Heap K V} (w : Le ∅ h h') {a : HOperand V} {b : NpOperand V} (hab : OperandIs h a b) :
    OperandIs h' a b := by
  cases a <;> cases b <;> simp only [OperandIs] at hab ⊢
  · exact yIs_le w hab
  · exact hab

theorem sim_defMathOp (hc : Coh (exactPrims T) h) {l : Loc} {y : List V} {w : HOperand V} {b : NpOperand V}
    (hy : h.yarrs[l]? = some y) (hw : OperandIs h w b) (op : MathOp) (n : ℕ) :
    Sim (exactPrims T) h ((defaultMethods (exactPrims T)).mathOp n l w op) (mathOperation y b op)
      (fun h' l z => h'.yarrs[l]? = some z) := by
  show Sim _ h (defMathOp _ l w op) _ _
  unfold defMathOp
  refine Sim.read (getY_run hy) ?_
  have hb : (npOperand w : HM K V (NpOperand V)) h = (.ok b, h) := by
    cases w <;> cases b <;> simp only [OperandIs] at hw
    · exact bind_of_ok (getY_run hw)
    · subst hw; rfl
    · rfl
  refine Sim.read hb ?_
  show Sim _ h (lift (mathOperation y b op) >>= _) _ _
  rcases mathOperation y b op with e | u
  · exact ⟨Le.refl _ _, hc, rfl⟩
  · exact Sim.read rfl (sim_ok (safe_newY _) hc rfl (by simp))

theorem sim_relOperation_other (hc : Coh (exactPrims T) h) (hr : RelIs h r c v o) (hn : Fine T (defaultMethods (exactPrims T)) c) {w : HOperand V}
    {b : NpOperand V} (hw : OperandIs h w b) (op : MathOp) :
    Sim (exactPrims T) h (relOperation (exactPrims T) (defaultMethods (exactPrims T)) r (.other w) op)
      (v.operation (.other b) op) (IsNew c) := by
  unfold relOperation Rel.operation
  refine Sim.read (getRel_run hr.rel) ?_
  refine Sim.step (sim_axisCopy hc hr.x) fun nx h1 w1 c1 ra => ?_
  refine Sim.read (getY_run (yIs_le w1 hr.y)) ?_
  refine Sim.step (sim_newY c1 v.y) fun l1 h2 w2 c2 ry => ?_
  refine (sim_defMathOp c2 ry (hw.le (w1.trans w2)) op _).bind fun ny y h3 w3 c3 hy => ?_
  rw [hr.cls]
  exact sim_construct_axis c3 _ hn ((ra.le w2).le w3) hy none

theorem sim_relOperation_rel (hc : Coh (exactPrims T) h) {r1 r2 : Loc} {c1 c2 : Cls} {v1 v2 : Rel K V} {o1 o2 : RelObj}
    (hr1 : RelIs h r1 c1 v1 o1) (hr2 : RelIs h r2 c2 v2 o2) (hn1 : Fine T (defaultMethods (exactPrims T)) c1) (hn2 : Fine T (defaultMethods (exactPrims T)) c2) (op : MathOp) :
    Sim (exactPrims T) h (relOperation (exactPrims T) (defaultMethods (exactPrims T)) r1 (.rel r2) op)
      (v1.operation (.rel (decide (o1.x = o2.x)) v2) op) (IsNew c1) := by
  unfold relOperation Rel.operation
  refine Sim.read (getRel_run hr1.rel) ?_
  refine (sim_relEqualize hc hr1 hr2 hn1 hn2).bind fun p q h1 w1 k1 hpq => ?_
  obtain ⟨p1, p2⟩ := p
  obtain ⟨q1, q2⟩ := q
  obtain ⟨⟨u1, hu1⟩, ⟨u2, hu2⟩⟩ := hpq
  simp only [] at hu1 hu2 ⊢
  refine Sim.read (getRel_run hu1.rel) (Sim.read (getRel_run hu2.rel) ?_)
  refine Sim.step (sim_axisCopy k1 hu1.x) fun nx h2 w2 k2 ra => ?_
  refine Sim.read (getY_run (yIs_le w2 hu1.y)) ?_
  refine Sim.step (sim_newY k2 q1.y) fun l1 h3 w3 k3 ry1 => ?_
  refine Sim.read (getY_run (yIs_le (w2.trans w3) hu2.y)) ?_
  refine Sim.step (sim_newY k3 q2.y) fun l2 h4 w4 k4 ry2 => ?_
  refine (sim_defMathOp k4 (yIs_le w4 ry1) (w := .arr l2) (b := .arr q2.y) ry2 op _).bind fun ny y h5 w5 k5 hy => ?_
  rw [hr1.cls]
  exact sim_construct_axis k5 _ hn1 (ra.le ((w3.trans w4).trans w5)) hy none

theorem sim_relNorm (hc : Coh (exactPrims T) h) (hr : RelIs h r c v o) (hn : Fine T (defaultMethods (exactPrims T)) c) :
    Sim (exactPrims T) h (getNorm (exactPrims T) (defaultMethods (exactPrims T)) r) v.getNorm (fun _ a b => a = b) := by
  have hop : Sim (exactPrims T) h (operator (exactPrims T) (defaultMethods (exactPrims T)) r (.number (exactPrims T).two) .pow)
      (v.pow (.other (.num 2))) (IsNew c) := by
    unfold operator
    refine Sim.read (getRel_run hr.rel) ?_
    have : convertOperand (exactPrims T) (defaultMethods (exactPrims T)) o.cls (.number (exactPrims T).two) .pow h =
        (.ok (.other (.num 2)), h) := by
      rcases o.cls <;> rfl
    exact Sim.read this (sim_relOperation_other hc hr hn (w := .num 2) (b := .num 2) rfl .pow)
  unfold getNorm relNorm Rel.getNorm
  refine Sim.read (getRel_run hr.rel) ?_
  refine hop.bind fun sq w h1 w1 c1 hsq => ?_
  obtain ⟨u, hu⟩ := hsq
  have hint : Sim (exactPrims T) h1 ((defaultMethods (exactPrims T)).integrateOne o.caps.integrateOne sq) w.oneIntegrate
      (fun _ a b => a = b) := by
    show Sim _ h1 (defIntegrateOne _ sq) _ _
    unfold defIntegrateOne Rel.oneIntegrate
    refine (sim_relGetData c1 hu).bind fun p d h2 w2 c2 hp => ?_
    obtain ⟨p1, p2⟩ := p
    obtain ⟨d1, d2⟩ := d
    exact Sim.read (getX_run hp.1) (Sim.read (getY_run hp.2) (sim_pure c2 rfl))
  refine hint.bind fun i i' h2 w2 c2 e => ?_
  subst e
  obtain ⟨a, ha, ea⟩ := hr.x.le (w1.trans w2)
  refine Sim.read (getAxis_run ha) ?_
  have e3 : a.sample = v.x.sample := congrArg Axis.sample ea
  rw [e3]
  exact sim_lift c2 (.ok (v.x.sample⁻¹ • i))

theorem sim_relLen (hc : Coh (exactPrims T) h) (hr : RelIs h r c v o) :
    Sim (exactPrims T) h (relLen (exactPrims T) r) v.len (fun _ a b => a = b) := by
  unfold relLen Rel.len
  exact Sim.read (getRel_run hr.rel) (sim_axisSize hc hr.x)

theorem sim_relItem (hc : Coh (exactPrims T) h) (hr : RelIs h r c v o) (t : K) :
    Sim (exactPrims T) h (relItem (exactPrims T) r t) (v.getItem t) (fun _ a b => a = b) := by
  unfold relItem Rel.getItem
  refine Sim.read (getRel_run hr.rel) ?_
  refine (sim_axisValues hc hr.x).bind fun x x' h1 w1 c1 e => ?_
  subst e
  exact Sim.read (getY_run (yIs_le w1 hr.y)) (sim_lift c1 _)

theorem sim_shift (hc : Coh (exactPrims T) h) (hr : RelIs h r c v o) (hn : c.isSignal = false) (d : K) :
    Sim (exactPrims T) h (shift (exactPrims T) M r d) (v.shift d) (IsNew c) := by
  unfold shift
  refine Sim.read (getRel_run hr.rel) ?_
  rw [hr.cls, hn]
  exact sim_relShift hc hr (.of_ne (by rintro rfl; simp [Cls.isSignal] at hn)) d

theorem Sim.own {m : HM K V Loc} {x : Except Err (Rel K V)} (hs : Sim (exactPrims T) h m x (IsNew c)) (ho : OwnM m) :
    Sim (exactPrims T) h m x (fun h' l v => ∃ o, RelIs h' l c v o ∧ h.axes.length ≤ o.x ∧ o.x < h'.axes.length) := by
  refine ⟨hs.le, hs.coh, ?_⟩
  have ag := hs.agree
  rcases hm : m h with ⟨e | l, h'⟩
  · rw [hm] at ag
    rcases x with e' | w <;> exact ag
  · rw [hm] at ag
    rcases x with e' | w
    · exact ag
    · obtain ⟨o, hr⟩ := ag
      obtain ⟨o', ho'⟩ := ho h l h' hm
      have : o' = o := Option.some.inj (ho'.rel.symm.trans hr.rel)
      subst this
      exact ⟨o', hr, ho'.axis, ho'.axis_lt⟩

/-- The new axes made by `shift` are different objects: `equalize` inside `convolve` and `correlate` always interpolates. -/
theorem sim_defConv (hc : Coh (exactPrims T) h) {r1 r2 : Loc} {c1 c2 : Cls} {v1 v2 : Rel K V} {o1 o2 : RelObj}
    (hr1 : RelIs h r1 c1 v1 o1) (hr2 : RelIs h r2 c2 v2 o2) (hn1 : c1.isSignal = false) (hn2 : c2.isSignal = false)
    (np : List V → List V → List V) :
    Sim (exactPrims T) h (defConv (exactPrims T) (defaultMethods (exactPrims T)) np r1 r2)
      (do let p ← Rel.alignForConv v1 v2; pure (p.2.2, np p.1.y p.2.1.y))
      (fun h' p q => AxIs h' p.1 q.1 ∧ h'.yarrs[p.2]? = some q.2) := by
  have hs1 : c1 ≠ .sweep := by rintro rfl; simp [Cls.isSignal] at hn1
  have hs2 : c2 ≠ .sweep := by rintro rfl; simp [Cls.isSignal] at hn2
  unfold defConv Rel.alignForConv
  simp only [bind_assoc]
  refine Sim.read (getRel_run hr1.rel) ?_
  obtain ⟨a1, ha1, ea1⟩ := hr1.x
  refine Sim.read (getAxis_run ha1) ?_
  have e1 : a1.start = v1.x.start := congrArg Axis.start ea1
  rw [e1]
  refine ((sim_shift hc hr1 hn1 _).own (ownM_shift good_defaultMethods _ _)).bind fun q1 u1 h1 w1 k1 n1 => ?_
  obtain ⟨p1, hp1, -, hlt⟩ := n1
  obtain ⟨o2', hr2', -⟩ := hr2.le w1
  refine Sim.read (getRel_run hr2'.rel) ?_
  obtain ⟨a2, ha2, ea2⟩ := hr2'.x
  refine Sim.read (getAxis_run ha2) ?_
  have e2 : a2.start = v2.x.start := congrArg Axis.start ea2
  rw [e2]
  refine ((sim_shift k1 hr2' hn2 _).own (ownM_shift good_defaultMethods _ _)).bind fun q2 u2 h2 w2 k2 n2 => ?_
  obtain ⟨p2, hp2, hle, -⟩ := n2
  obtain ⟨p1', hp1', ex⟩ := hp1.le w2
  have hne : p1'.x ≠ p2.x := by rw [ex]; exact (hlt.trans_le hle).ne
  have keq := sim_relEqualize k2 hp1' hp2 (.of_ne hs1) (.of_ne hs2)
  rw [decide_eq_false hne] at keq
  refine keq.bind fun p q h3 w3 k3 hpq => ?_
  obtain ⟨p1, p2⟩ := p
  obtain ⟨q1, q2⟩ := q
  obtain ⟨⟨u1, hu1⟩, ⟨u2, hu2⟩⟩ := hpq
  simp only [] at hu1 hu2 ⊢
  refine Sim.read (getRel_run hu1.rel) ?_
  obtain ⟨a, ha, ea⟩ := hu1.x
  refine Sim.read (getAxis_run ha) ?_
  refine Sim.step (sim_axisNew k3 _ _ _) fun nx h4 w4 k4 hx => ?_
  refine Sim.read (getY_run (yIs_le w4 hu1.y)) ?_
  obtain ⟨u2', hu2', -⟩ := hu2.le w4
  refine Sim.read (getRel_run hu2'.rel) (Sim.read (getY_run hu2'.y) ?_)
  refine Sim.step (sim_newY k4 (np q1.y q2.y)) fun ny h5 w5 k5 hy => ?_
  refine sim_pure k5 ⟨?_, hy⟩
  have f2 : a.stop = q1.x.stop := congrArg Axis.stop ea
  have f3 : a.sample = q1.x.sample := congrArg Axis.sample ea
  rw [← f2, ← f3]
  exact hx.le w5

theorem sim_clsConv_relation (hc : Coh (exactPrims T) h) {r1 r2 : Loc} {c1 c2 : Cls} {v1 v2 : Rel K V} {o1 o2 : RelObj}
    (hr1 : RelIs h r1 c1 v1 o1) (hr2 : RelIs h r2 c2 v2 o2) (hn1 : c1.isSignal = false) (hn2 : c2.isSignal = false) {C : ConvCall K V}
    {np : List V → List V → List V}
    (hC : ∀ g c, C g c r1 r2 = defConv (exactPrims T) (defaultMethods (exactPrims T)) np r1 r2) :
    Sim (exactPrims T) h (clsConv (exactPrims T) (defaultMethods (exactPrims T)) C .relation (.obj r1) (.obj r2))
      (do let p ← Rel.alignForConv v1 v2; Rel.make p.2.2 (np p.1.y p.2.1.y)) (IsNew .relation) := by
  show Sim _ h (relConv _ _ C .relation r1 r2) _ _
  unfold relConv
  refine Sim.read rfl ?_
  rw [hC]
  have k := (sim_defConv hc hr1 hr2 hn1 hn2 np).bind
    (f := fun p => construct (exactPrims T) (defaultMethods (exactPrims T)) .relation (.axis p.1) (.arr p.2))
    (g := fun p => Rel.make p.1 p.2) (R' := IsNew .relation) fun p q h1 w1 k1 hp =>
      sim_construct_axis k1 _ (.of_ne (by decide)) hp.1 hp.2 none
  rw [bind_assoc] at k
  exact k

/-- the operand is handed to `_operation` as it is -/
theorem sim_operator_rel (hc : Coh (exactPrims T) h) {r1 r2 : Loc} {c1 c2 : Cls} {v1 v2 : Rel K V} {o1 o2 : RelObj}
    (hr1 : RelIs h r1 c1 v1 o1) (hr2 : RelIs h r2 c2 v2 o2) (hn1 : Fine T (defaultMethods (exactPrims T)) c1) (hn2 : Fine T (defaultMethods (exactPrims T)) c2) (op : MathOp)
    (hcc : MathOp.isForward op = true → (c1.isSignal = true → c2 ≠ .spectrum) ∧ (c1 = .spectrum → c2.isSignal = false)) :
    Sim (exactPrims T) h (operator (exactPrims T) (defaultMethods (exactPrims T)) r1 (.obj r2) op)
      (v1.operation (.rel (decide (o1.x = o2.x)) v2) op) (IsNew c1) := by
  unfold operator
  refine Sim.read (getRel_run hr1.rel) ?_
  have : convertOperand (exactPrims T) (defaultMethods (exactPrims T)) o1.cls (.obj r2) op h = (.ok (.rel r2), h) := by
    unfold convertOperand
    rw [hr1.cls]
    split
    · rename_i hf
      obtain ⟨f1, f2⟩ := hcc hf
      rcases c1
      · rfl
      · show inp2signalOperation _ _ (.obj r2) h = _
        refine (bind_of_ok (getRel_run hr2.rel)).trans ?_
        rw [hr2.cls, if_neg (f1 rfl)]; rfl
      · show input2spectrumOperation _ _ (.obj r2) h = _
        refine (bind_of_ok (getRel_run hr2.rel)).trans ?_
        rw [hr2.cls]
        have f3 := f2 rfl
        rcases c2
        · rfl
        · exact absurd f3 (by decide)
        · rfl
        · exact absurd f3 (by decide)
      · show inp2signalOperation _ _ (.obj r2) h = _
        refine (bind_of_ok (getRel_run hr2.rel)).trans ?_
        rw [hr2.cls, if_neg (f1 rfl)]; rfl
    · rfl
  exact Sim.read this (sim_relOperation_rel hc hr1 hr2 hn1 hn2 op)

theorem sim_operator_number (hc : Coh (exactPrims T) h) (hr : RelIs h r c v o) (hn : Fine T (defaultMethods (exactPrims T)) c) (a : V) (op : MathOp) :
    Sim (exactPrims T) h (operator (exactPrims T) (defaultMethods (exactPrims T)) r (.number a) op)
      (v.operation (.other (.num a)) op) (IsNew c) := by
  unfold operator
  refine Sim.read (getRel_run hr.rel) ?_
  have : convertOperand (exactPrims T) (defaultMethods (exactPrims T)) o.cls (.number a) op h =
      (.ok (.other (.num a)), h) := by
    rcases o.cls <;> rcases op <;> rfl
  exact Sim.read this (sim_relOperation_other hc hr hn (w := .num a) (b := .num a) rfl op)

/-- a spectrum refuses anything that is not a number or a relation -/
theorem sim_operator_other (hc : Coh (exactPrims T) h) (hr : RelIs h r c v o) (hn : Fine T (defaultMethods (exactPrims T)) c) {w : HOperand V}
    {b : NpOperand V} (hw : OperandIs h w b) (op : MathOp) (hcc : MathOp.isForward op = true → c ≠ .spectrum) :
    Sim (exactPrims T) h (operator (exactPrims T) (defaultMethods (exactPrims T)) r (.other w) op)
      (v.operation (.other b) op) (IsNew c) := by
  unfold operator
  refine Sim.read (getRel_run hr.rel) ?_
  have : convertOperand (exactPrims T) (defaultMethods (exactPrims T)) o.cls (.other w) op h =
      (.ok (.other w), h) := by
    rw [hr.cls]
    unfold convertOperand
    split
    · rename_i hf
      rcases c
      · rfl
      · rfl
      · exact absurd rfl (hcc hf)
      · rfl
    · rfl
  exact Sim.read this (sim_relOperation_other hc hr hn hw op)

end

end

end SweepDesign.Mem
