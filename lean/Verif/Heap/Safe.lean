import Verif.Heap.Defaults
import Mathlib.Data.Set.Insert

/-!
# Heap layer: what calls may change

`Le X h h'`: going from `h` to `h'` changes nothing but: new objects, caches of axes that were empty and are now
filled (with a new ndarray, or one that already was a cache), counterpart references that were empty and are now filled.
Exempt are the axes, the mutable
attributes of the relations and the y arrays in `X` (needed while an object under construction is being set up).

`Coh`: every filled cache agrees with the fields of its axis.
-/

set_option linter.unusedSectionVars false

namespace SweepDesign.Mem

open HM

variable {K V : Type}

structure AxisLe (a a' : AxisObj K) : Prop where
  start : a'.start = a.start
  stop : a'.stop = a.stop
  sample : a'.sample = a.sample
  arr : ∀ j, a.arr = some j → a'.arr = some j
  actual : ∀ v, a.actual = some v → a'.actual = some v

structure RelFix (r r' : RelObj) : Prop where
  cls : r'.cls = r.cls
  x : r'.x = r.x
  y : r'.y = r.y
  caps : r'.caps = r.caps

structure RelMono (r r' : RelObj) : Prop where
  counterpart : ∀ c, r.counterpart = some c → r'.counterpart = some c
  freqTime : ∀ c, r.freqTime = some c → r'.freqTime = some c
  ampTime : ∀ c, r.ampTime = some c → r'.ampTime = some c
  aPrior : ∀ c, r.aPrior = some c → r'.aPrior = some c

/-- exemptions: axes, relations (their mutable attributes) and y arrays that may be changed -/
structure Ex where
  axes : Set Loc
  rels : Set Loc
  ys : Set Loc

instance : EmptyCollection Ex := ⟨⟨∅, ∅, ∅⟩⟩

@[reducible] def Ex.addA (X : Ex) (l : Loc) : Ex := ⟨insert l X.axes, X.rels, X.ys⟩
@[reducible] def Ex.addR (X : Ex) (l : Loc) : Ex := ⟨X.axes, insert l X.rels, X.ys⟩
@[reducible] def Ex.addY (X : Ex) (l : Loc) : Ex := ⟨X.axes, X.rels, insert l X.ys⟩

/-- the ndarray `j` is in the cache of some axis -/
def Cached (h : Heap K V) (j : Loc) : Prop := ∃ (i : ℕ) (a : AxisObj K), h.axes[i]? = some a ∧ a.arr = some j

structure Le (X : Ex) (h h' : Heap K V) : Prop where
  axes : ∀ (i : ℕ) a, h.axes[i]? = some a → ∃ a', h'.axes[i]? = some a' ∧ (i ∉ X.axes → AxisLe a a')
  xarrs : ∀ (i : ℕ) v, h.xarrs[i]? = some v → h'.xarrs[i]? = some v
  yarrs : ∀ (i : ℕ) v, h.yarrs[i]? = some v → ∃ v', h'.yarrs[i]? = some v' ∧ (i ∉ X.ys → v' = v)
  rels : ∀ (i : ℕ) r, h.rels[i]? = some r → ∃ r', h'.rels[i]? = some r' ∧ RelFix r r' ∧ (i ∉ X.rels → RelMono r r')
  config : h'.config = h.config
  /-- an existing ndarray does not become the cache of an axis unless it was one -/
  cached : ∀ j, Cached h' j → Cached h j ∨ h.xarrs.length ≤ j

/-- Every filled cache holds what a fresh computation from the current fields gives. -/
def Coh (P : Prims K V) (h : Heap K V) : Prop :=
  ∀ (i : ℕ) a, h.axes[i]? = some a →
    (∀ j, a.arr = some j → ∃ v, h.xarrs[j]? = some v ∧ P.mkArr a.start a.stop a.sample = .ok v) ∧
    (∀ d, a.actual = some d → ∃ v, P.mkArr a.start a.stop a.sample = .ok v ∧ P.minDiff v = .ok d)

theorem AxisLe.refl (a : AxisObj K) : AxisLe a a := ⟨rfl, rfl, rfl, fun _ h => h, fun _ h => h⟩

theorem AxisLe.trans {a b c : AxisObj K} (h1 : AxisLe a b) (h2 : AxisLe b c) : AxisLe a c :=
  ⟨h2.1.trans h1.1, h2.2.trans h1.2, h2.3.trans h1.3, fun j h => h2.4 j (h1.4 j h), fun j h => h2.5 j (h1.5 j h)⟩

theorem RelFix.refl (a : RelObj) : RelFix a a := ⟨rfl, rfl, rfl, rfl⟩

theorem RelFix.trans {a b c : RelObj} (h1 : RelFix a b) (h2 : RelFix b c) : RelFix a c :=
  ⟨h2.1.trans h1.1, h2.2.trans h1.2, h2.3.trans h1.3, h2.4.trans h1.4⟩

theorem RelMono.refl (a : RelObj) : RelMono a a := ⟨fun _ h => h, fun _ h => h, fun _ h => h, fun _ h => h⟩

theorem RelMono.trans {a b c : RelObj} (h1 : RelMono a b) (h2 : RelMono b c) : RelMono a c :=
  ⟨fun j h => h2.1 j (h1.1 j h), fun j h => h2.2 j (h1.2 j h), fun j h => h2.3 j (h1.3 j h), fun j h => h2.4 j (h1.4 j h)⟩

theorem Le.refl (X : Ex) (h : Heap K V) : Le X h h :=
  ⟨fun _ a ha => ⟨a, ha, fun _ => AxisLe.refl a⟩, fun _ _ h => h, fun _ v h => ⟨v, h, fun _ => rfl⟩,
    fun _ r hr => ⟨r, hr, RelFix.refl r, fun _ => RelMono.refl r⟩, rfl, fun _ => .inl⟩

theorem length_le_of_get {α : Type} {l l' : List α} (h : ∀ (i : ℕ) a, l[i]? = some a → ∃ a', l'[i]? = some a') :
    l.length ≤ l'.length := by
  by_contra hc
  obtain ⟨a', ha'⟩ := h l'.length _ (List.getElem?_eq_getElem (by omega))
  have := (List.getElem?_eq_some_iff.1 ha').1
  omega

theorem Le.xarrs_len {X : Ex} {h h' : Heap K V} (w : Le X h h') : h.xarrs.length ≤ h'.xarrs.length :=
  length_le_of_get fun i a ha => ⟨a, w.xarrs i a ha⟩

/-- composition; the second step may touch objects that did not exist at the beginning -/
theorem Le.trans_fresh {X X' : Ex} {h h1 h2 : Heap K V} (w1 : Le X h h1) (w2 : Le X' h1 h2)
    (hA : ∀ i ∈ X'.axes, i ∉ X.axes → h.axes.length ≤ i) (hE : ∀ i ∈ X'.rels, i ∉ X.rels → h.rels.length ≤ i)
    (hY : ∀ i ∈ X'.ys, i ∉ X.ys → h.yarrs.length ≤ i) : Le X h h2 := by
  refine ⟨fun i a ha => ?_, fun i v hv => w2.xarrs i v (w1.xarrs i v hv),
    fun i v hv => ?_, fun i r hr => ?_, w2.config.trans w1.config,
    fun j hj => ((w2.cached j hj).imp_left (w1.cached j)).elim id fun hj => .inr (w1.xarrs_len.trans hj)⟩
  · obtain ⟨a', h1', h2'⟩ := w1.axes i a ha
    obtain ⟨a'', h1'', h2''⟩ := w2.axes i a' h1'
    refine ⟨a'', h1'', fun hi => (h2' hi).trans (h2'' fun hi' => ?_)⟩
    have h3 := (List.getElem?_eq_some_iff.1 ha).1
    have := hA i hi' hi
    omega
  · obtain ⟨a', h1', h2'⟩ := w1.yarrs i v hv
    obtain ⟨a'', h1'', h2''⟩ := w2.yarrs i a' h1'
    refine ⟨a'', h1'', fun hi => (h2'' fun hi' => ?_).trans (h2' hi)⟩
    have h3 := (List.getElem?_eq_some_iff.1 hv).1
    have := hY i hi' hi
    omega
  · obtain ⟨a', h1', h2', h3'⟩ := w1.rels i r hr
    obtain ⟨a'', h1'', h2'', h3''⟩ := w2.rels i a' h1'
    refine ⟨a'', h1'', h2'.trans h2'', fun hi => (h3' hi).trans (h3'' fun hi' => ?_)⟩
    have h3 := (List.getElem?_eq_some_iff.1 hr).1
    have := hE i hi' hi
    omega

theorem Le.mono {X X' : Ex} {h h' : Heap K V} (hA : X.axes ⊆ X'.axes) (hE : X.rels ⊆ X'.rels) (hY : X.ys ⊆ X'.ys)
    (w : Le X h h') : Le X' h h' :=
  (Le.refl X' h).trans_fresh w (fun _ h1 h2 => absurd (hA h1) h2) (fun _ h1 h2 => absurd (hE h1) h2)
    (fun _ h1 h2 => absurd (hY h1) h2)

theorem Le.trans {X : Ex} {h h1 h2 : Heap K V} (w1 : Le X h h1) (w2 : Le X h1 h2) : Le X h h2 :=
  w1.trans_fresh w2 (fun _ h1 h2 => absurd h1 h2) (fun _ h1 h2 => absurd h1 h2) (fun _ h1 h2 => absurd h1 h2)

theorem Le.axes_len {X : Ex} {h h' : Heap K V} (w : Le X h h') : h.axes.length ≤ h'.axes.length :=
  length_le_of_get fun i a ha => (w.axes i a ha).imp fun _ h => h.1

theorem Le.rels_len {X : Ex} {h h' : Heap K V} (w : Le X h h') : h.rels.length ≤ h'.rels.length :=
  length_le_of_get fun i a ha => (w.rels i a ha).imp fun _ h => h.1

theorem Le.yarrs_len {X : Ex} {h h' : Heap K V} (w : Le X h h') : h.yarrs.length ≤ h'.yarrs.length :=
  length_le_of_get fun i a ha => (w.yarrs i a ha).imp fun _ h => h.1

/-! ## monad plumbing -/

section Monad
variable {α β : Type}

theorem bind_run (m : HM K V α) (f : α → HM K V β) (h : Heap K V) :
    (m >>= f) h = match m h with | (.ok a, h') => f a h' | (.error e, h') => (.error e, h') := rfl

theorem pure_run (a : α) (h : Heap K V) : (pure a : HM K V α) h = (.ok a, h) := rfl

theorem raise_run (e : Err) (h : Heap K V) : (raise e : HM K V α) h = (.error e, h) := rfl

theorem lift_run (x : Except Err α) (h : Heap K V) : (lift x : HM K V α) h = (x, h) := rfl

theorem bind_of_ok {m : HM K V α} {f : α → HM K V β} {h h' : Heap K V} {a : α} (hm : m h = (.ok a, h')) :
    (m >>= f) h = f a h' := by rw [bind_run, hm]

theorem bind_of_error {m : HM K V α} {f : α → HM K V β} {h h' : Heap K V} {e : Err} (hm : m h = (.error e, h')) :
    (m >>= f) h = (.error e, h') := by rw [bind_run, hm]

theorem bind_ok {m : HM K V α} {f : α → HM K V β} {h h'' : Heap K V} {b : β} :
    (m >>= f) h = (.ok b, h'') ↔ ∃ a h', m h = (.ok a, h') ∧ f a h' = (.ok b, h'') := by
  rw [bind_run]
  rcases hm : m h with ⟨a | a, h'⟩
  · simp
  · simp only []
    constructor
    · intro hh; exact ⟨a, h', rfl, hh⟩
    · rintro ⟨a', h1, h2, h3⟩
      simp only [Prod.mk.injEq, Except.ok.injEq] at h2
      obtain ⟨rfl, rfl⟩ := h2
      exact h3

end Monad

/-! ## safe computations -/

section Safe
variable (P : Prims K V) {α β : Type}

/-- `m` only does what `Le X` allows and keeps the caches coherent, whether it returns or raises. -/
def Safe (X : Ex) (m : HM K V α) : Prop := ∀ h, Le X h (m h).2 ∧ (Coh P h → Coh P (m h).2)

/-- the returned relation location is new -/
def FreshR (m : HM K V Loc) : Prop := ∀ h l h', m h = (.ok l, h') → h.rels.length ≤ l

/-- the returned axis location is new -/
def FreshA (m : HM K V Loc) : Prop := ∀ h l h', m h = (.ok l, h') → h.axes.length ≤ l

/-- the returned y array location is new -/
def FreshY (m : HM K V Loc) : Prop := ∀ h l h', m h = (.ok l, h') → h.yarrs.length ≤ l

variable {P} {X : Ex}

theorem Safe.mono {X' : Ex} {m : HM K V α} (w : Safe P X m) (hA : X.axes ⊆ X'.axes) (hE : X.rels ⊆ X'.rels)
    (hY : X.ys ⊆ X'.ys) : Safe P X' m := fun h => ⟨(w h).1.mono hA hE hY, (w h).2⟩

theorem Safe.of_empty {m : HM K V α} (w : Safe P ∅ m) : Safe P X m :=
  w.mono (Set.empty_subset _) (Set.empty_subset _) (Set.empty_subset _)

theorem safe_pure (a : α) : Safe P X (pure a : HM K V α) := fun _ => ⟨Le.refl _ _, fun c => c⟩

theorem safe_raise (e : Err) : Safe P X (raise e : HM K V α) := fun _ => ⟨Le.refl _ _, fun c => c⟩

theorem safe_lift (x : Except Err α) : Safe P X (lift x : HM K V α) := fun _ => ⟨Le.refl _ _, fun c => c⟩

theorem safe_config : Safe P X (config : HM K V ConfigIds) := fun _ => ⟨Le.refl _ _, fun c => c⟩

theorem safe_getAxis (l : Loc) : Safe P X (getAxis l : HM K V (AxisObj K)) := by
  intro h; unfold getAxis; split <;> exact ⟨Le.refl _ _, fun c => c⟩

theorem safe_getX (l : Loc) : Safe P X (getX l : HM K V (List K)) := by
  intro h; unfold getX; split <;> exact ⟨Le.refl _ _, fun c => c⟩

theorem safe_getY (l : Loc) : Safe P X (getY l : HM K V (List V)) := by
  intro h; unfold getY; split <;> exact ⟨Le.refl _ _, fun c => c⟩

theorem safe_getRel (l : Loc) : Safe P X (getRel l : HM K V RelObj) := by
  intro h; unfold getRel; split <;> exact ⟨Le.refl _ _, fun c => c⟩

theorem Safe.bind_fresh {X' : α → Ex} {m : HM K V α} {f : α → HM K V β} (h1 : Safe P X m)
    (h2 : ∀ a, Safe P (X' a) (f a))
    (hA : ∀ h a h', m h = (.ok a, h') → ∀ i ∈ (X' a).axes, i ∉ X.axes → h.axes.length ≤ i)
    (hE : ∀ h a h', m h = (.ok a, h') → ∀ i ∈ (X' a).rels, i ∉ X.rels → h.rels.length ≤ i)
    (hY : ∀ h a h', m h = (.ok a, h') → ∀ i ∈ (X' a).ys, i ∉ X.ys → h.yarrs.length ≤ i) : Safe P X (m >>= f) := by
  intro h
  have w1 := h1 h
  rcases hm : m h with ⟨e | a, h'⟩
  · rw [bind_of_error hm]; rw [hm] at w1; exact w1
  · rw [bind_of_ok hm]; rw [hm] at w1
    have w2 := h2 a h'
    exact ⟨w1.1.trans_fresh w2.1 (hA h a h' hm) (hE h a h' hm) (hY h a h' hm), fun c => w2.2 (w1.2 c)⟩

theorem Safe.bind {m : HM K V α} {f : α → HM K V β} (h1 : Safe P X m) (h2 : ∀ a, Safe P X (f a)) :
    Safe P X (m >>= f) :=
  Safe.bind_fresh (X' := fun _ => X) h1 h2 (fun _ _ _ _ _ h1 h2 => absurd h1 h2)
    (fun _ _ _ _ _ h1 h2 => absurd h1 h2) (fun _ _ _ _ _ h1 h2 => absurd h1 h2)

/-- bind on a new axis, which the continuation may modify -/
theorem Safe.bindA {m : HM K V Loc} {f : Loc → HM K V β} (h1 : Safe P X m) (hf : FreshA m)
    (h2 : ∀ a, Safe P (X.addA a) (f a)) : Safe P X (m >>= f) := by
  refine Safe.bind_fresh (X' := fun a => X.addA a) h1 h2 ?_ (fun _ _ _ _ _ h1 h2 => absurd h1 h2)
    (fun _ _ _ _ _ h1 h2 => absurd h1 h2)
  intro h a h' hm i hi hi'
  rcases hi with rfl | hi
  · exact hf h i h' hm
  · exact absurd hi hi'

/-- bind on a new relation, whose attributes the continuation may modify -/
theorem Safe.bindR {m : HM K V Loc} {f : Loc → HM K V β} (h1 : Safe P X m) (hf : FreshR m)
    (h2 : ∀ a, Safe P (X.addR a) (f a)) : Safe P X (m >>= f) := by
  refine Safe.bind_fresh (X' := fun a => X.addR a) h1 h2 (fun _ _ _ _ _ h1 h2 => absurd h1 h2) ?_
    (fun _ _ _ _ _ h1 h2 => absurd h1 h2)
  intro h a h' hm i hi hi'
  rcases hi with rfl | hi
  · exact hf h i h' hm
  · exact absurd hi hi'

/-- bind on a new y array, which the continuation may write into -/
theorem Safe.bindY {m : HM K V Loc} {f : Loc → HM K V β} (h1 : Safe P X m) (hf : FreshY m)
    (h2 : ∀ a, Safe P (X.addY a) (f a)) : Safe P X (m >>= f) := by
  refine Safe.bind_fresh (X' := fun a => X.addY a) h1 h2 (fun _ _ _ _ _ h1 h2 => absurd h1 h2)
    (fun _ _ _ _ _ h1 h2 => absurd h1 h2) ?_
  intro h a h' hm i hi hi'
  rcases hi with rfl | hi
  · exact hf h i h' hm
  · exact absurd hi hi'

theorem FreshR.bind {m : HM K V α} {f : α → HM K V Loc} (h1 : Safe P X m) (h2 : ∀ a, FreshR (f a)) :
    FreshR (m >>= f) := by
  intro h l h' hh
  obtain ⟨a, h1', hm, hf⟩ := bind_ok.1 hh
  have := (h1 h).1.rels_len
  rw [hm] at this
  exact this.trans (h2 a _ _ _ hf)

theorem FreshA.bind {m : HM K V α} {f : α → HM K V Loc} (h1 : Safe P X m) (h2 : ∀ a, FreshA (f a)) :
    FreshA (m >>= f) := by
  intro h l h' hh
  obtain ⟨a, h1', hm, hf⟩ := bind_ok.1 hh
  have := (h1 h).1.axes_len
  rw [hm] at this
  exact this.trans (h2 a _ _ _ hf)

theorem fresh_newAxis (a : AxisObj K) : FreshA (newAxis a : HM K V Loc) := by
  intro h l h' hh
  simp only [newAxis, Prod.mk.injEq, Except.ok.injEq] at hh
  exact hh.1.le

theorem fresh_newY (a : List V) : FreshY (newY a : HM K V Loc) := by
  intro h l h' hh
  simp only [newY, Prod.mk.injEq, Except.ok.injEq] at hh
  exact hh.1.le

theorem fresh_newRel (a : RelObj) : FreshR (newRel a : HM K V Loc) := by
  intro h l h' hh
  simp only [newRel, Prod.mk.injEq, Except.ok.injEq] at hh
  exact hh.1.le

theorem fresh_raiseR (e : Err) : FreshR (raise e : HM K V Loc) := by
  intro h l h' hh; simp [raise] at hh

theorem getElem?_append_some {α : Type} {l m : List α} {i : ℕ} {a : α} (h : l[i]? = some a) :
    (l ++ m)[i]? = some a := by
  rw [List.getElem?_append_left (List.getElem?_eq_some_iff.1 h).1]; exact h

theorem getElem?_append_singleton {α : Type} {l : List α} {b : α} {i : ℕ} {a : α} (h : (l ++ [b])[i]? = some a) :
    l[i]? = some a ∨ (i = l.length ∧ a = b) := by
  rcases lt_trichotomy i l.length with hi | hi | hi
  · rw [List.getElem?_append_left hi] at h; exact .inl h
  · subst hi; simp at h; exact .inr ⟨rfl, h.symm⟩
  · rw [List.getElem?_eq_none (by simp; omega)] at h; simp at h

theorem cached_append {h : Heap K V} {b : AxisObj K} {j : Loc} (hj : Cached { h with axes := h.axes ++ [b] } j) :
    Cached h j ∨ b.arr = some j := by
  obtain ⟨i, a, ha, hj⟩ := hj
  rcases getElem?_append_singleton ha with ha | ⟨-, rfl⟩
  · exact .inl ⟨i, a, ha, hj⟩
  · exact .inr hj

/-- a new axis without caches -/
theorem safe_axisNew (s e d : K) : Safe P X (axisNew s e d : HM K V Loc) := by
  intro h
  refine ⟨⟨fun i a ha => ⟨a, getElem?_append_some ha, fun _ => AxisLe.refl _⟩, fun _ _ h => h, fun _ v h => ⟨v, h, fun _ => rfl⟩,
    fun _ r hr => ⟨r, hr, RelFix.refl r, fun _ => RelMono.refl r⟩, rfl,
    fun j hj => (cached_append hj).imp_right fun h => by simp at h⟩, ?_⟩
  intro c i a ha
  rcases getElem?_append_singleton ha with ha | ⟨-, rfl⟩
  · exact c i a ha
  · simp

theorem fresh_axisNew (s e d : K) : FreshA (axisNew s e d : HM K V Loc) := fresh_newAxis _

theorem safe_newX (v : List K) : Safe P X (newX v : HM K V Loc) := by
  intro h
  refine ⟨⟨fun i a ha => ⟨a, ha, fun _ => AxisLe.refl _⟩, fun i v hv => getElem?_append_some hv, fun _ v h => ⟨v, h, fun _ => rfl⟩,
    fun _ r hr => ⟨r, hr, RelFix.refl r, fun _ => RelMono.refl r⟩, rfl, fun _ hj => .inl hj⟩, ?_⟩
  intro c i a ha
  refine ⟨fun j hj => ?_, (c i a ha).2⟩
  obtain ⟨v, hv, h2⟩ := (c i a ha).1 j hj
  exact ⟨v, getElem?_append_some hv, h2⟩

theorem safe_newY (v : List V) : Safe P X (newY v : HM K V Loc) := by
  intro h
  exact ⟨⟨fun i a ha => ⟨a, ha, fun _ => AxisLe.refl _⟩, fun i v hv => hv,
    fun _ v h => ⟨v, getElem?_append_some h, fun _ => rfl⟩,
    fun _ r hr => ⟨r, hr, RelFix.refl r, fun _ => RelMono.refl r⟩, rfl, fun _ hj => .inl hj⟩, fun c => c⟩

theorem safe_newRel (r : RelObj) : Safe P X (newRel r : HM K V Loc) := by
  intro h
  exact ⟨⟨fun i a ha => ⟨a, ha, fun _ => AxisLe.refl _⟩, fun i v hv => hv, fun _ v h => ⟨v, h, fun _ => rfl⟩,
    fun _ r hr => ⟨r, getElem?_append_some hr, RelFix.refl r, fun _ => RelMono.refl r⟩, rfl, fun _ hj => .inl hj⟩, fun c => c⟩

theorem set_getElem?_cases {α : Type} {l : List α} {i j : ℕ} {b a : α} (h : (l.set i b)[j]? = some a) :
    (i = j ∧ a = b ∧ i < l.length) ∨ (i ≠ j ∧ l[j]? = some a) := by
  rw [List.getElem?_set] at h
  split at h
  · subst_vars
    split at h
    · simp only [Option.some.injEq] at h; exact .inl ⟨rfl, h.symm, by assumption⟩
    · simp at h
  · exact .inr ⟨by assumption, h⟩

theorem set_getElem?_of_ne {α : Type} {l : List α} {i j : ℕ} {b : α} (h : i ≠ j) : (l.set i b)[j]? = l[j]? := by
  rw [List.getElem?_set, if_neg h]

theorem set_getElem?_self {α : Type} {l : List α} {i : ℕ} {a b : α} (h : l[i]? = some a) :
    (l.set i b)[i]? = some b := by
  rw [List.getElem?_set, if_pos rfl, if_pos (List.getElem?_eq_some_iff.1 h).1]

theorem getAxis_run {l : Loc} {h : Heap K V} {a : AxisObj K} (ha : h.axes[l]? = some a) :
    getAxis l h = (.ok a, h) := by simp [getAxis, ha]

theorem getAxis_ok {l : Loc} {h h' : Heap K V} {a : AxisObj K} :
    getAxis l h = (.ok a, h') ↔ h.axes[l]? = some a ∧ h' = h := by
  unfold getAxis
  split
  · rename_i b hb; rw [hb]; simp; grind
  · rename_i hb; rw [hb]; simp

theorem getRel_run {l : Loc} {h : Heap K V} {a : RelObj} (ha : h.rels[l]? = some a) :
    getRel l h = (.ok a, h) := by simp [getRel, ha]

theorem getRel_ok {l : Loc} {h h' : Heap K V} {a : RelObj} :
    getRel l h = (.ok a, h') ↔ h.rels[l]? = some a ∧ h' = h := by
  unfold getRel
  split
  · rename_i b hb; rw [hb]; simp; grind
  · rename_i hb; rw [hb]; simp

theorem getX_run {l : Loc} {h : Heap K V} {a : List K} (ha : h.xarrs[l]? = some a) :
    getX l h = (.ok a, h) := by simp [getX, ha]

theorem getX_ok {l : Loc} {h h' : Heap K V} {a : List K} :
    getX l h = (.ok a, h') ↔ h.xarrs[l]? = some a ∧ h' = h := by
  unfold getX
  split
  · rename_i b hb; rw [hb]; simp; grind
  · rename_i hb; rw [hb]; simp

theorem getY_run {l : Loc} {h : Heap K V} {a : List V} (ha : h.yarrs[l]? = some a) :
    getY l h = (.ok a, h) := by simp [getY, ha]

theorem getY_ok {l : Loc} {h h' : Heap K V} {a : List V} :
    getY l h = (.ok a, h') ↔ h.yarrs[l]? = some a ∧ h' = h := by
  unfold getY
  split
  · rename_i b hb; rw [hb]; simp; grind
  · rename_i hb; rw [hb]; simp

theorem getAxis_none {l : Loc} {h : Heap K V} (ha : h.axes[l]? = none) : getAxis l h = (.error .typeError, h) := by
  simp [getAxis, ha]

theorem getRel_none {l : Loc} {h : Heap K V} (ha : h.rels[l]? = none) : getRel l h = (.error .typeError, h) := by
  simp [getRel, ha]

/-- changing an axis to one with the same fields and more caches filled -/
theorem le_setAxis {h : Heap K V} {l : Loc} {a a' : AxisObj K} (ha : h.axes[l]? = some a)
    (hl : l ∉ X.axes → AxisLe a a') (hj : ∀ j, a'.arr = some j → Cached h j ∨ h.xarrs.length ≤ j) :
    Le X h { h with axes := h.axes.set l a' } := by
  refine ⟨fun i b hb => ?_, fun _ _ h => h, fun _ v h => ⟨v, h, fun _ => rfl⟩,
    fun _ r hr => ⟨r, hr, RelFix.refl r, fun _ => RelMono.refl r⟩, rfl, ?_⟩
  · by_cases hi : l = i
    · subst hi
      rw [ha] at hb; simp only [Option.some.injEq] at hb; subst hb
      exact ⟨a', set_getElem?_self ha, hl⟩
    · exact ⟨b, by rw [set_getElem?_of_ne hi]; exact hb, fun _ => AxisLe.refl _⟩
  · rintro j ⟨i, b, hb, hbj⟩
    rcases set_getElem?_cases hb with ⟨rfl, rfl, -⟩ | ⟨-, hb⟩
    · exact hj j hbj
    · exact .inl ⟨i, b, hb, hbj⟩

theorem safe_axisArray (l : Loc) : Safe P X (axisArray P l) := by
  intro h
  unfold axisArray
  rcases ha : h.axes[l]? with _ | a
  · rw [bind_of_error (getAxis_none ha)]; exact ⟨Le.refl _ _, fun c => c⟩
  rw [bind_of_ok (getAxis_run ha)]
  rcases hj : a.arr with _ | j
  · simp only []
    rcases hv : P.mkArr a.start a.stop a.sample with e | v
    · rw [bind_of_error (lift_run _ _)]; exact ⟨Le.refl _ _, fun c => c⟩
    · rw [bind_of_ok (lift_run _ _), bind_run]
      simp only [newX, bind_run, putAxis, pure_run]
      have w1 : Le X h { h with axes := h.axes.set l { a with arr := some h.xarrs.length } } :=
        le_setAxis ha (fun _ => ⟨rfl, rfl, rfl, by simp [hj], fun v hv => hv⟩)
          (fun j hj => .inr (by simp only [Option.some.injEq] at hj; exact hj.le))
      refine ⟨w1.trans (safe_newX (P := P) v _).1, fun c => ?_⟩
      · intro i b hb
        rcases set_getElem?_cases hb with ⟨rfl, rfl, -⟩ | ⟨-, hb⟩
        · refine ⟨fun j hj => ?_, (c l a ha).2⟩
          simp only [Option.some.injEq] at hj
          subst hj
          exact ⟨v, by simp, hv⟩
        · refine ⟨fun j hj => ?_, (c i b hb).2⟩
          obtain ⟨w, hw, h2⟩ := (c i b hb).1 j hj
          exact ⟨w, getElem?_append_some hw, h2⟩
  · exact ⟨Le.refl _ _, fun c => c⟩

theorem safe_axisValues (l : Loc) : Safe P X (axisValues P l) :=
  (safe_axisArray l).bind fun _ => safe_getX _

theorem safe_axisSize (l : Loc) : Safe P X (axisSize P l) :=
  (safe_axisValues l).bind fun _ => safe_pure _

/-- what `array` returns when it returns: on a coherent heap the values are those computed from the fields -/
theorem axisValues_ok {l : Loc} {h h' : Heap K V} {v : List K} (hh : axisValues P l h = (.ok v, h')) :
    ∃ a, h.axes[l]? = some a ∧ (Coh P h → P.mkArr a.start a.stop a.sample = .ok v) := by
  obtain ⟨j, h1, hj0, hx⟩ := bind_ok.1 hh
  obtain ⟨a, h2, ha, hj⟩ := bind_ok.1 hj0
  clear hj0
  obtain ⟨ha, rfl⟩ := getAxis_ok.1 ha
  refine ⟨a, ha, fun c => ?_⟩
  obtain ⟨hx, rfl⟩ := getX_ok.1 hx
  rcases hja : a.arr with _ | j'
  · rw [hja] at hj
    simp only [] at hj
    obtain ⟨w, h3, hw, hj⟩ := bind_ok.1 hj
    rw [lift_run] at hw
    simp only [Prod.mk.injEq] at hw
    obtain ⟨hw, rfl⟩ := hw
    simp only [newX, bind_run, putAxis, pure_run, Prod.mk.injEq, Except.ok.injEq] at hj
    obtain ⟨rfl, rfl⟩ := hj
    simp only [List.length_append, List.length_singleton, lt_add_iff_pos_right, zero_lt_one,
      List.getElem?_eq_getElem, le_refl, List.getElem_append_right, Nat.sub_self, List.getElem_singleton,
      Option.some.injEq] at hx
    rw [hw, hx]
  · rw [hja] at hj
    simp only [pure_run, Prod.mk.injEq, Except.ok.injEq] at hj
    obtain ⟨rfl, rfl⟩ := hj
    obtain ⟨w, hw, h2⟩ := (c l a ha).1 _ hja
    rw [hx] at hw
    simp only [Option.some.injEq] at hw
    rw [hw]; exact h2

theorem safe_axisActual (l : Loc) : Safe P X (axisActual P l) := by
  intro h
  unfold axisActual
  rcases ha : h.axes[l]? with _ | a
  · rw [bind_of_error (getAxis_none ha)]; exact ⟨Le.refl _ _, fun c => c⟩
  rw [bind_of_ok (getAxis_run ha)]
  rcases hj : a.actual with _ | j
  · simp only []
    have w1 := safe_axisValues (P := P) (X := X) l h
    rcases hv : axisValues P l h with ⟨e | v, h1⟩
    · rw [bind_of_error hv]; rw [hv] at w1; exact w1
    rw [bind_of_ok hv]; rw [hv] at w1
    rcases hd : P.minDiff v with e | d
    · rw [bind_of_error (lift_run _ _)]; exact w1
    rw [bind_of_ok (lift_run _ _)]
    obtain ⟨a', ha', -⟩ := w1.1.axes l a ha
    have w0 := (safe_axisValues (P := P) (X := ∅) l h).1
    rw [hv] at w0
    obtain ⟨a'', ha'', hl⟩ := w0.axes l a ha
    rw [ha'] at ha''; simp only [Option.some.injEq] at ha''; subst ha''
    have hl := hl (Set.notMem_empty _)
    rw [bind_of_ok (getAxis_run ha')]
    simp only [bind_run, putAxis, pure_run]
    obtain ⟨b, hb, hval⟩ := axisValues_ok hv
    rw [ha] at hb; simp only [Option.some.injEq] at hb; subst hb
    constructor
    · by_cases hact : a'.actual = none
      · exact w1.1.trans (le_setAxis ha' (fun _ => ⟨rfl, rfl, rfl, fun _ h => h, by simp [hact]⟩)
          fun j hj => .inl ⟨l, a', ha', hj⟩)
      · -- the cache cannot have been filled by computing the values
        exfalso
        apply hact
        obtain ⟨j, h2, hj', hx⟩ := bind_ok.1 hv
        obtain ⟨hx, rfl⟩ := getX_ok.1 hx
        obtain ⟨a2, h2', ha2, hj'⟩ := bind_ok.1 hj'
        obtain ⟨ha2, rfl⟩ := getAxis_ok.1 ha2
        rw [ha] at ha2; simp only [Option.some.injEq] at ha2; subst ha2
        rcases harr : a.arr with _ | j0
        · rw [harr] at hj'
          simp only [] at hj'
          obtain ⟨w, h3, hw, hj'⟩ := bind_ok.1 hj'
          rw [lift_run] at hw
          simp only [Prod.mk.injEq] at hw
          obtain ⟨hw, rfl⟩ := hw
          simp only [newX, bind_run, putAxis, pure_run, Prod.mk.injEq, Except.ok.injEq] at hj'
          obtain ⟨rfl, rfl⟩ := hj'
          simp only at ha'
          rw [set_getElem?_self ha] at ha'
          simp only [Option.some.injEq] at ha'
          rw [← ha']; exact hj
        · rw [harr] at hj'
          simp only [pure_run, Prod.mk.injEq, Except.ok.injEq] at hj'
          obtain ⟨rfl, rfl⟩ := hj'
          rw [ha] at ha'; simp only [Option.some.injEq] at ha'
          rw [← ha']; exact hj
    · intro c
      have c1 := w1.2 c
      intro i b hb
      rcases set_getElem?_cases hb with ⟨rfl, rfl, -⟩ | ⟨-, hb⟩
      · refine ⟨(c1 l a' ha').1, fun d' hd' => ?_⟩
        simp only [Option.some.injEq] at hd'; subst hd'
        refine ⟨v, ?_, hd⟩
        simp only [hl.start, hl.stop, hl.sample]
        exact hval c
      · exact c1 i b hb
  · exact ⟨Le.refl _ _, fun c => c⟩

theorem coh_reset {h : Heap K V} (c : Coh P h) (l : Loc) (a : AxisObj K) :
    Coh P { h with axes := h.axes.set l { a with arr := none, actual := none } } := by
  intro i b hb
  rcases set_getElem?_cases hb with ⟨rfl, rfl, -⟩ | ⟨-, hb⟩
  · simp
  · exact c i b hb

theorem safe_setter (l : Loc) (f : AxisObj K → AxisObj K) (hf : ∀ a, f a = { f a with arr := none, actual := none })
    (hl : l ∈ X.axes) : Safe P X (getAxis l >>= fun a => putAxis l (f a) : HM K V Unit) := by
  intro h
  rcases ha : h.axes[l]? with _ | a
  · rw [bind_of_error (getAxis_none ha)]; exact ⟨Le.refl _ _, fun c => c⟩
  rw [bind_of_ok (getAxis_run ha)]
  refine ⟨le_setAxis ha (fun hl' => absurd hl hl') (fun j hj => by rw [hf] at hj; simp at hj), fun c => ?_⟩
  simp only [putAxis]
  rw [hf]
  exact coh_reset c l _

theorem safe_axisSetStart {l : Loc} (v : K) (hl : l ∈ X.axes) : Safe P X (axisSetStart l v : HM K V Unit) :=
  safe_setter l (fun a => { a with start := v, arr := none, actual := none }) (fun _ => rfl) hl

theorem safe_axisSetStop {l : Loc} (v : K) (hl : l ∈ X.axes) : Safe P X (axisSetStop l v : HM K V Unit) :=
  safe_setter l (fun a => { a with stop := v, arr := none, actual := none }) (fun _ => rfl) hl

theorem safe_axisSetSample {l : Loc} (v : K) (hl : l ∈ X.axes) : Safe P X (axisSetSample l v : HM K V Unit) :=
  safe_setter l (fun a => { a with sample := v, arr := none, actual := none }) (fun _ => rfl) hl

theorem safe_axisCopy (l : Loc) : Safe P X (axisCopy l : HM K V Loc) := by
  intro h
  unfold axisCopy
  rcases ha : h.axes[l]? with _ | a
  · rw [bind_of_error (getAxis_none ha)]; exact ⟨Le.refl _ _, fun c => c⟩
  rw [bind_of_ok (getAxis_run ha)]
  refine ⟨⟨fun i a ha => ⟨a, getElem?_append_some ha, fun _ => AxisLe.refl _⟩, fun _ _ h => h, fun _ v h => ⟨v, h, fun _ => rfl⟩,
    fun _ r hr => ⟨r, hr, RelFix.refl r, fun _ => RelMono.refl r⟩, rfl,
    fun j hj => (cached_append hj).elim .inl fun h => .inl ⟨l, a, ha, h⟩⟩, ?_⟩
  intro c i b hb
  rcases getElem?_append_singleton hb with hb | ⟨-, rfl⟩
  · exact c i b hb
  · exact c l b ha

theorem fresh_axisCopy (l : Loc) : FreshA (axisCopy l : HM K V Loc) := by
  intro h l' h' hh
  obtain ⟨a, h1, ha, hn⟩ := bind_ok.1 hh
  obtain ⟨-, rfl⟩ := getAxis_ok.1 ha
  exact fresh_newAxis a _ _ _ hn

theorem putRel_run {l : Loc} {r : RelObj} {h : Heap K V} : putRel l r h = (.ok (), { h with rels := h.rels.set l r }) := rfl

theorem safe_putRel_new {l : Loc} (f : RelObj → RelObj) (hf : ∀ r, RelFix r (f r)) (hl : l ∈ X.rels) :
    Safe P X (getRel l >>= fun r => putRel l (f r) : HM K V Unit) := by
  intro h
  rcases hr : h.rels[l]? with _ | r
  · rw [bind_of_error (getRel_none hr)]; exact ⟨Le.refl _ _, fun c => c⟩
  rw [bind_of_ok (getRel_run hr)]
  refine ⟨⟨fun i a ha => ⟨a, ha, fun _ => AxisLe.refl _⟩, fun _ _ h => h, fun _ v h => ⟨v, h, fun _ => rfl⟩, fun i q hq => ?_, rfl,
    fun _ hj => .inl hj⟩,
    fun c => c⟩
  by_cases hi : l = i
  · subst hi
    rw [hr] at hq; simp only [Option.some.injEq] at hq; subst hq
    exact ⟨f r, set_getElem?_self hr, hf r, fun hl' => absurd hl hl'⟩
  · exact ⟨q, by simp only [putRel]; rw [set_getElem?_of_ne hi]; exact hq, RelFix.refl _, fun _ => RelMono.refl _⟩

theorem safe_axisFromArray (x : List K) (f r : Bool) : Safe P X (axisFromArray P x f r) :=
  (safe_lift _).bind fun _ => safe_axisNew _ _ _

theorem fresh_axisFromArray (x : List K) (f r : Bool) : FreshA (axisFromArray P x f r) :=
  FreshA.bind (P := P) (X := ∅) (safe_lift _) fun _ => fresh_axisNew _ _ _

theorem safe_deepcopy (r : Loc) : Safe P X (deepcopy r : HM K V Loc) := by
  intro h
  unfold deepcopy
  split
  · exact ⟨Le.refl _ _, fun c => c⟩
  refine ⟨⟨fun i a ha => ⟨a, getElem?_append_some ha, fun _ => AxisLe.refl _⟩, fun _ _ h => getElem?_append_some h,
    fun _ v h => ⟨v, getElem?_append_some h, fun _ => rfl⟩,
    fun _ r hr => ⟨r, getElem?_append_some hr, RelFix.refl r, fun _ => RelMono.refl r⟩, rfl, ?_⟩, ?_⟩
  · rintro j ⟨i, a, ha, hj⟩
    simp only at ha
    by_cases hi : i < h.axes.length
    · rw [List.getElem?_append_left hi] at ha
      exact .inl ⟨i, a, ha, hj⟩
    · rw [List.getElem?_append_right (by omega), List.getElem?_map] at ha
      obtain ⟨b, -, rfl⟩ := Option.map_eq_some_iff.1 ha
      simp only [AxisObj.offset, Option.map_eq_some_iff] at hj
      obtain ⟨j0, -, rfl⟩ := hj
      exact .inr (Nat.le_add_left _ _)
  intro c i a ha
  simp only at ha
  by_cases hi : i < h.axes.length
  · rw [List.getElem?_append_left hi] at ha
    refine ⟨fun j hj => ?_, (c i a ha).2⟩
    obtain ⟨v, hv, h2⟩ := (c i a ha).1 j hj
    exact ⟨v, getElem?_append_some hv, h2⟩
  · rw [List.getElem?_append_right (by omega), List.getElem?_map] at ha
    rcases hb : h.axes[i - h.axes.length]? with _ | b
    · rw [hb] at ha; simp at ha
    · rw [hb] at ha
      simp only [Option.map_some, Option.some.injEq] at ha
      subst ha
      refine ⟨fun j hj => ?_, (c _ b hb).2⟩
      simp only [AxisObj.offset, Option.map_eq_some_iff] at hj
      obtain ⟨j0, hj0, rfl⟩ := hj
      obtain ⟨v, hv, h2⟩ := (c _ b hb).1 j0 hj0
      exact ⟨v, by
        show (h.xarrs ++ h.xarrs)[j0 + h.xarrs.length]? = some v
        rw [List.getElem?_append_right (by omega)]; simpa using hv, h2⟩

theorem fresh_deepcopy (r : Loc) : FreshR (deepcopy r : HM K V Loc) := by
  intro h l h' hh
  unfold deepcopy at hh
  split at hh
  · simp at hh
  · simp only [Prod.mk.injEq, Except.ok.injEq] at hh
    rw [← hh.1]; exact Nat.le_add_right _ _

end Safe

end SweepDesign.Mem
