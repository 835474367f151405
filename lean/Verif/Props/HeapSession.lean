import Verif.Heap.Session
import Verif.Props.HeapPairs
import Verif.Props.HeapAxis
import Verif.Props.HeapGenerator

/-!
# C134: whole sessions
-/

set_option linter.unusedSectionVars false

namespace SweepDesign

open Mem Mem.HM Spec

variable {K V : Type} {S : Package K V}

/-! ## Specification -/

/-- By hand, the action assigns to the axes in `A` only and writes into the y arrays in `Y` and the x arrays in `X` only; an array given
as `start_sequence` is in `Y`. -/
def Spec.Confined (A Y X : Set Loc) : Act K V → Prop
  | .step s => within A Y X s
  | .lib (.mSequence _ (some s) _) => s ∈ Y
  | _ => True

/-- nobody writes into an x array by hand -/
def Spec.NoXWrites : Act K V → Prop
  | .step (.edit (.pokeX _ _)) => False
  | _ => True

/-- object `s` is not asked for a spectrum (signal) at a given frequency (time) -/
def Spec.KeepsCache (s : Loc) : Act K V → Prop
  | .step st => leavesCache s st
  | _ => True

/-- Config is not assigned to -/
def Spec.NoConfig : Act K V → Prop
  | .step (.edit (.setConfig _)) => False
  | _ => True

/-- at the beginning there are no objects -/
def Spec.newWorld (K V : Type) : World K V := ⟨emptyHeap K V, [], []⟩

/-- which methods an object has captured -/
def Spec.heldBy (h : Heap K V) (r : Loc) : Option Captured := (h.rels[r]?).map RelObj.caps

/-! ## Machinery -/

theorem act_edit (e : Edit K V) (w : World K V) : ((Act.step (.edit e)).run S w).heap = (Step.run S.prims S.methods S.conv (.edit e) w.heap) := rfl

theorem edit_or (a : Act K V) : (∃ e, a = .step (.edit e)) ∨ ∀ e, a ≠ .step (.edit e) := by
  by_cases h : ∃ e, a = .step (.edit e)
  · exact .inl h
  · exact .inr fun e he => h ⟨e, he⟩

theorem starts_confined {A Y X : Set Loc} {a : Act K V} (ha : Confined A Y X a) : a.starts ⊆ Y := by
  cases a with
  | lib c =>
    cases c with
    | mSequence t s b =>
      cases s with
      | none => exact Set.empty_subset _
      | some s => rintro i rfl; exact ha
    | _ => exact Set.empty_subset _
  | _ => exact Set.empty_subset _

theorem act_keep (hS : GoodPackage S) {A Y X : Set Loc} {a : Act K V} (hg : a.Good S.prims) (ha : Confined A Y X a) {w : World K V}
    (hX : ∀ j ∈ X, j < w.heap.xarrs.length ∧ ¬ Cached w.heap j) (c : Coh S.prims w.heap) :
    Keep A Y w.heap (a.run S w).heap ∧ Coh S.prims (a.run S w).heap ∧
    ∀ j ∈ X, j < (a.run S w).heap.xarrs.length ∧ ¬ Cached (a.run S w).heap j := by
  rcases edit_or a with ⟨e, rfl⟩ | hn
  · exact step_keep hS.methods hS.conv ha hX c
  · obtain ⟨h1, h2⟩ := act_le hS a hg hn w
    refine ⟨h1.keep.mono (Set.empty_subset _) (starts_confined ha), h2 c, fun j hj => ⟨(hX j hj).1.trans_le h1.xarrs_len, fun hcj => ?_⟩⟩
    rcases h1.cached j hcj with k | k
    · exact (hX j hj).2 k
    · exact absurd (hX j hj).1 (not_lt.2 k)

theorem session_keep (hS : GoodPackage S) {A Y X : Set Loc} (as : List (Act K V)) (hg : ∀ a ∈ as, a.Good S.prims)
    (ha : ∀ a ∈ as, Confined A Y X a) (w : World K V) (hX : ∀ j ∈ X, j < w.heap.xarrs.length ∧ ¬ Cached w.heap j)
    (c : Coh S.prims w.heap) : Keep A Y w.heap (runSession S as w).heap ∧ Coh S.prims (runSession S as w).heap := by
  induction as generalizing w with
  | nil => exact ⟨Keep.refl _ _ _, c⟩
  | cons a as ih =>
    obtain ⟨h1, h2, h3⟩ := act_keep hS (hg a List.mem_cons_self) (ha a List.mem_cons_self) hX c
    obtain ⟨h4, h5⟩ := ih (fun b hb => hg b (List.mem_cons_of_mem _ hb)) (fun b hb => ha b (List.mem_cons_of_mem _ hb)) _ h3 h2
    exact ⟨h1.trans h4, h5⟩

theorem session_coh (hS : GoodPackage S) (as : List (Act K V)) (hg : ∀ a ∈ as, a.Good S.prims) (ha : ∀ a ∈ as, NoXWrites a)
    (w : World K V) (c : Coh S.prims w.heap) : Coh S.prims (runSession S as w).heap := by
  induction as generalizing w with
  | nil => exact c
  | cons a as ih =>
    refine ih (fun b hb => hg b (List.mem_cons_of_mem _ hb)) (fun b hb => ha b (List.mem_cons_of_mem _ hb)) _ ?_
    rcases edit_or a with ⟨e, rfl⟩ | hn
    · refine coh_steps hS.methods hS.conv [.edit e] ?_ _ c
      rintro s hs
      rw [List.mem_singleton] at hs
      subst hs
      cases e
      case pokeX => exact ha _ List.mem_cons_self
      all_goals trivial
    · exact (act_le hS a (hg a List.mem_cons_self) hn w).2 c

theorem act_rels (hS : GoodPackage S) {a : Act K V} (hg : a.Good S.prims) (w : World K V) (i : Loc) (r : RelObj)
    (hr : w.heap.rels[i]? = some r) :
    ∃ r', (a.run S w).heap.rels[i]? = some r' ∧ RelFix r r' ∧ (KeepsCache i a → RelMono r r') := by
  rcases edit_or a with ⟨e, rfl⟩ | hn
  · exact ⟨r, by rw [act_edit]; exact (congrArg (·[i]?) (edit_rels e w.heap)).trans hr, RelFix.refl _, fun _ => RelMono.refl _⟩
  · obtain ⟨r', h1, h2, h3⟩ := (act_le hS a hg hn w).1.rels i r hr
    refine ⟨r', h1, h2, fun hk => h3 ?_⟩
    cases a with
    | step s =>
      cases s with
      | call c => exact leaves_not_refreshes hk
      | edit e => exact absurd rfl (hn e)
    | _ => exact Set.notMem_empty _

theorem session_rels (hS : GoodPackage S) (as : List (Act K V)) (hg : ∀ a ∈ as, a.Good S.prims) (w : World K V) (i : Loc) (r : RelObj)
    (hr : w.heap.rels[i]? = some r) :
    ∃ r', (runSession S as w).heap.rels[i]? = some r' ∧ RelFix r r' ∧ ((∀ a ∈ as, KeepsCache i a) → RelMono r r') := by
  induction as generalizing w r with
  | nil => exact ⟨r, hr, RelFix.refl _, fun _ => RelMono.refl _⟩
  | cons a as ih =>
    obtain ⟨r1, h1, h2, h3⟩ := act_rels hS (hg a List.mem_cons_self) w i r hr
    obtain ⟨r2, k1, k2, k3⟩ := ih (fun b hb => hg b (List.mem_cons_of_mem _ hb)) _ _ h1
    exact ⟨r2, k1, h2.trans k2, fun hk => (h3 (hk a List.mem_cons_self)).trans (k3 fun b hb => hk b (List.mem_cons_of_mem _ hb))⟩

theorem session_counterpart (hS : GoodPackage S) (as : List (Act K V)) (hg : ∀ a ∈ as, a.Good S.prims) (w : World K V) {s c : Loc}
    (hk : ∀ a ∈ as, KeepsCache s a) (hc : counterpartAt w.heap s = some c) : counterpartAt (runSession S as w).heap s = some c := by
  rw [counterpartAt, Option.bind_eq_some_iff] at hc
  obtain ⟨o, ho, hoc⟩ := hc
  obtain ⟨o', ho', -, m⟩ := session_rels hS as hg w s o ho
  rw [counterpartAt, ho']
  exact (m hk).counterpart c hoc

theorem act_gens (a : Act K V) (w : World K V) :
    (∃ gs, (a.run S w).gens = w.gens ++ gs) ∧ ∃ gs, (a.run S w).aprs = w.aprs ++ gs := by
  have key : ∀ {α : Type} (gs : List α) (x : Except Err α), ∃ hs, made gs x = gs ++ hs := by
    intro α gs x
    rcases x with e | g
    · exact ⟨[], by simp [made]⟩
    · exact ⟨[g], rfl⟩
  cases a with
  | newGen => exact ⟨key _ _, [], by simp [Act.run]⟩
  | newApr => exact ⟨⟨[], by simp [Act.run]⟩, key _ _⟩
  | callGen i t c =>
    unfold Act.run; dsimp only
    split <;> exact ⟨⟨[], by simp⟩, [], by simp⟩
  | callApr i t c b =>
    unfold Act.run; dsimp only
    split <;> exact ⟨⟨[], by simp⟩, [], by simp⟩
  | step | lib | decompose => exact ⟨⟨[], by simp [Act.run]⟩, [], by simp [Act.run]⟩

theorem session_gens (as : List (Act K V)) (w : World K V) :
    (∃ gs, (runSession S as w).gens = w.gens ++ gs) ∧ ∃ gs, (runSession S as w).aprs = w.aprs ++ gs := by
  induction as generalizing w with
  | nil => exact ⟨⟨[], by simp [runSession]⟩, [], by simp [runSession]⟩
  | cons a as ih =>
    obtain ⟨⟨g1, e1⟩, g2, e2⟩ := act_gens (S := S) a w
    obtain ⟨⟨k1, f1⟩, k2, f2⟩ := ih (a.run S w)
    exact ⟨⟨g1 ++ k1, by rw [runSession, f1, e1, List.append_assoc]⟩, g2 ++ k2, by rw [runSession, f2, e2, List.append_assoc]⟩

/-! ## descriptions of sweeps -/

/-- the frequency description, the amplitude description and the a-priori signal of an object, as far as it has them, are kept -/
structure DescFix (r r' : RelObj) : Prop where
  freqTime : ∀ c, r.freqTime = some c → r'.freqTime = some c
  ampTime : ∀ c, r.ampTime = some c → r'.ampTime = some c
  aPrior : ∀ c, r.aPrior = some c → r'.aPrior = some c

theorem DescFix.trans {a b c : RelObj} (h1 : DescFix a b) (h2 : DescFix b c) : DescFix a c :=
  ⟨fun l h => h2.1 l (h1.1 l h), fun l h => h2.2 l (h1.2 l h), fun l h => h2.3 l (h1.3 l h)⟩

def KeepsDesc {α : Type} (m : HM K V α) : Prop :=
  ∀ (h : Heap K V) (i : Loc) (r : RelObj), h.rels[i]? = some r → ∃ r', (m h).2.rels[i]? = some r' ∧ DescFix r r'

theorem keepsDesc_of_safe {α : Type} {P : Prims K V} {m : HM K V α} {X : Ex} (hX : X.rels = ∅) (hm : Safe P X m) : KeepsDesc m := by
  intro h i r hr
  obtain ⟨r', h1, -, h2⟩ := (hm h).1.rels i r hr
  have := h2 (by rw [hX]; exact Set.notMem_empty _)
  exact ⟨r', h1, this.freqTime, this.ampTime, this.aPrior⟩

theorem KeepsDesc.bind {α β : Type} {m : HM K V α} {f : α → HM K V β} (hm : KeepsDesc m) (hf : ∀ a, KeepsDesc (f a)) :
    KeepsDesc (m >>= f) := by
  intro h i r hr
  obtain ⟨r1, k1, e1⟩ := hm h i r hr
  rcases hk : m h with ⟨e | a, h1⟩
  · rw [bind_of_error hk]; rw [hk] at k1; exact ⟨r1, k1, e1⟩
  · rw [bind_of_ok hk]; rw [hk] at k1
    obtain ⟨r2, k2, e2⟩ := hf a h1 i r1 k1
    exact ⟨r2, k2, e1.trans e2⟩

theorem keepsDesc_refill (s : Loc) (sp : Loc) : KeepsDesc (K := K) (V := V) (getRel s >>= fun o =>
    putRel s { o with counterpart := some sp } >>= fun _ => pure sp) := by
  intro h i r hr
  rcases ho : h.rels[s]? with _ | o
  · rw [bind_of_error (getRel_none ho)]; exact ⟨r, hr, fun _ h => h, fun _ h => h, fun _ h => h⟩
  · rw [bind_of_ok (getRel_run ho), bind_of_ok putRel_run]
    by_cases e : s = i
    · subst e
      rw [ho] at hr
      cases hr
      exact ⟨_, set_getElem?_self ho, fun _ h => h, fun _ h => h, fun _ h => h⟩
    · exact ⟨r, by rw [pure_run]; exact (set_getElem?_of_ne e).trans hr, fun _ h => h, fun _ h => h, fun _ h => h⟩

theorem keepsDesc_getSpectrum {P : Prims K V} {M : Methods K V} (hM : GoodMethods P M) (s : Loc) (f : HSize) (z : Bool) :
    KeepsDesc (getSpectrum P M s f z) := by
  unfold getSpectrum
  refine (keepsDesc_of_safe (P := P) (X := ∅) rfl (safe_getRel _)).bind fun o => ?_
  split
  · exact keepsDesc_of_safe (P := P) (X := ∅) rfl (safe_pure _)
  · exact (keepsDesc_of_safe (P := P) (X := ∅) rfl (hM.signal2spectrum _ _ _ _)).bind fun _ =>
      (keepsDesc_of_safe (P := P) (X := ∅) rfl (safe_construct hM _ _ _ _)).bind fun _ => keepsDesc_refill _ _

theorem keepsDesc_getSignal {P : Prims K V} {M : Methods K V} (hM : GoodMethods P M) (s : Loc) (f : HSize) (z : Option K) :
    KeepsDesc (getSignal P M s f z) := by
  unfold getSignal
  refine (keepsDesc_of_safe (P := P) (X := ∅) rfl (safe_getRel _)).bind fun o => ?_
  split
  · exact keepsDesc_of_safe (P := P) (X := ∅) rfl (safe_pure _)
  · exact (keepsDesc_of_safe (P := P) (X := ∅) rfl (hM.spectrum2signal _ _ _ _)).bind fun _ =>
      (keepsDesc_of_safe (P := P) (X := ∅) rfl (safe_construct hM _ _ _ _)).bind fun _ => keepsDesc_refill _ _

theorem act_desc (hS : GoodPackage S) {a : Act K V} (hg : a.Good S.prims) (w : World K V) (i : Loc) (r : RelObj)
    (hr : w.heap.rels[i]? = some r) : ∃ r', (a.run S w).heap.rels[i]? = some r' ∧ DescFix r r' := by
  have mono : KeepsCache i a → ∃ r', (a.run S w).heap.rels[i]? = some r' ∧ DescFix r r' := fun hk => by
    obtain ⟨r', h1, -, h2⟩ := act_rels hS hg w i r hr
    exact ⟨r', h1, (h2 hk).freqTime, (h2 hk).ampTime, (h2 hk).aPrior⟩
  have pu : ∀ {α : Type} (x : α), KeepsDesc (K := K) (V := V) (pure x) := fun x =>
    keepsDesc_of_safe (P := S.prims) (X := ∅) rfl (safe_pure _)
  cases a with
  | step s =>
    cases s with
    | call c =>
      cases c
      case getSpectrum s f z => exact ((keepsDesc_getSpectrum hS.methods s f z).bind fun _ => pu _) w.heap i r hr
      case getSignal s f z => exact ((keepsDesc_getSignal hS.methods s f z).bind fun _ => pu _) w.heap i r hr
      case sgAmp s f z =>
        exact (((keepsDesc_getSpectrum hS.methods s f z).bind fun _ =>
          keepsDesc_of_safe (P := S.prims) (X := ∅) rfl (safe_getAmp hS.methods _)).bind fun _ => pu _) w.heap i r hr
      case sgPhase s f z =>
        exact (((keepsDesc_getSpectrum hS.methods s f z).bind fun _ =>
          keepsDesc_of_safe (P := S.prims) (X := ∅) rfl (safe_getPhase hS.methods _)).bind fun _ => pu _) w.heap i r hr
      all_goals exact mono trivial
    | edit e => exact mono trivial
  | _ => exact mono trivial

/-! ## C134 -/

/-- **C134** After any session that does not write into an x array by hand, every axis object there is (in relations, spectra, sweeps,
generators) reads as a new axis with its current start, end and sample. -/
theorem C134_never_stale (hS : GoodPackage S) (as : List (Act K V)) (hg : ∀ a ∈ as, a.Good S.prims) (ha : ∀ a ∈ as, NoXWrites a)
    (l : Loc) (a : Axis K) (hl : fieldsAt (runSession S as (newWorld K V)).heap l = some a) :
    arrayAt S.prims (runSession S as (newWorld K V)).heap l = (freshAxis S.prims).array a ∧
    (axisSize S.prims l (runSession S as (newWorld K V)).heap).1 = (freshAxis S.prims).size a ∧
    (axisActual S.prims l (runSession S as (newWorld K V)).heap).1 = (freshAxis S.prims).actualSample a := by
  have hc := session_coh hS as hg ha (newWorld K V) (coh_empty S.prims)
  rw [fieldsAt, Option.map_eq_some_iff] at hl
  obtain ⟨o, ho, rfl⟩ := hl
  exact ⟨axisValues_run hc ho, axisSize_run hc ho, axisActual_run hc ho⟩

/-- **C134** Whatever is done, an object keeps its class, its axis object, its y array object and the methods it has captured. -/
theorem C134_objects (hS : GoodPackage S) (as : List (Act K V)) (hg : ∀ a ∈ as, a.Good S.prims) (w : World K V) (r : Loc) :
    (∀ p, partsAt w.heap r = some p → partsAt (runSession S as w).heap r = some p) ∧
    ∀ m, heldBy w.heap r = some m → heldBy (runSession S as w).heap r = some m := by
  refine ⟨fun p hp => ?_, fun m hm => ?_⟩
  · rw [partsAt, Option.map_eq_some_iff] at hp
    obtain ⟨o, ho, rfl⟩ := hp
    obtain ⟨o', ho', e, -⟩ := session_rels hS as hg w r o ho
    rw [partsAt, ho']; simp [e.cls, e.x, e.y]
  · rw [heldBy, Option.map_eq_some_iff] at hm
    obtain ⟨o, ho, rfl⟩ := hm
    obtain ⟨o', ho', e, -⟩ := session_rels hS as hg w r o ho
    rw [heldBy, ho']; simp [e.caps]

/-- **C134** A sweep keeps its frequency description, its amplitude description and its a-priori signal. -/
theorem C134_descriptions (hS : GoodPackage S) (as : List (Act K V)) (hg : ∀ a ∈ as, a.Good S.prims) (w : World K V) (r c : Loc)
    (o : RelObj) (ho : w.heap.rels[r]? = some o) :
    ∃ o', (runSession S as w).heap.rels[r]? = some o' ∧ (o.freqTime = some c → o'.freqTime = some c) ∧
    (o.ampTime = some c → o'.ampTime = some c) ∧ (o.aPrior = some c → o'.aPrior = some c) := by
  have key : ∃ o', (runSession S as w).heap.rels[r]? = some o' ∧ DescFix o o' := by
    induction as generalizing w o with
    | nil => exact ⟨o, ho, fun _ h => h, fun _ h => h, fun _ h => h⟩
    | cons a as ih =>
      obtain ⟨o1, h1, e1⟩ := act_desc hS (hg a List.mem_cons_self) w r o ho
      obtain ⟨o2, h2, e2⟩ := ih (fun b hb => hg b (List.mem_cons_of_mem _ hb)) (a.run S w) o1 h1
      exact ⟨o2, h2, e1.trans e2⟩
  obtain ⟨o', h1, h2⟩ := key
  exact ⟨o', h1, h2.freqTime c, h2.ampTime c, h2.aPrior c⟩

/-- **C134** A session that assigns by hand to the axes in `A` only, and writes by hand (or through `start_sequence`) into the y arrays in
`Y` only, leaves all other axes and y arrays as they are, and every relation on them has the data it had. -/
theorem C134_data (hS : GoodPackage S) (A Y : Set Loc) (as : List (Act K V)) (hg : ∀ a ∈ as, a.Good S.prims)
    (ha : ∀ a ∈ as, Confined A Y ∅ a) (w : World K V) (hc : Coh S.prims w.heap) :
    let h' := (runSession S as w).heap
    (∀ l x, l ∉ A → fieldsAt w.heap l = some x → fieldsAt h' l = some x) ∧
    (∀ (j : Loc) v, j ∉ Y → w.heap.yarrs[j]? = some v → h'.yarrs[j]? = some v) ∧
    ∀ r o x y, IsRel w.heap r o x y → o.x ∉ A → o.y ∉ Y → dataAt S.prims h' r = dataAt S.prims w.heap r := by
  intro h'
  obtain ⟨k, c'⟩ := session_keep hS as hg ha w (fun j hj => absurd hj (Set.notMem_empty _)) hc
  refine ⟨fun l x hl hx => ?_, fun j v hj hv => k.yarrs j v hv hj, fun r o x y hr h1 h2 => data_keep hc c' k hr h1 h2⟩
  rw [fieldsAt, Option.map_eq_some_iff] at hx
  obtain ⟨o, ho, rfl⟩ := hx
  obtain ⟨o', ho', e⟩ := k.axes l o ho hl
  show fieldsAt (runSession S as w).heap l = _
  rw [fieldsAt, ho']; simp [e]

/-- **C134** Once `get_spectrum` has returned an object, it returns that object after any session, and the object gives back the signal,
as long as neither is asked for another frequency or time explicitly. -/
theorem C134_cached (hS : GoodPackage S) (w : World K V) (s c : Loc) (f : HSize) (z z' : Bool) (t : Option K) (h' : Heap K V)
    (hh : getSpectrum S.prims S.methods s f z w.heap = (.ok c, h')) (as : List (Act K V)) (hg : ∀ a ∈ as, a.Good S.prims)
    (hk : ∀ a ∈ as, KeepsCache s a) :
    let h2 := (runSession S as { w with heap := h' }).heap
    getSpectrum S.prims S.methods s .none z' h2 = (.ok c, h2) ∧
    (counterpartAt w.heap s = none → (∀ a ∈ as, KeepsCache c a) → getSignal S.prims S.methods c .none t h2 = (.ok s, h2)) := by
  intro h2
  exact ⟨getSpectrum_cached (session_counterpart hS as hg { w with heap := h' } hk (getSpectrum_ok hS.methods hh)) rfl z',
    fun hn hk' => getSignal_cached (session_counterpart hS as hg { w with heap := h' } hk'
      (getSpectrum_computed hS.methods (.inl hn) hh).2.2.1) rfl t⟩

/-- **C134** The same from the side of a spectrum. -/
theorem C134_cached_signal (hS : GoodPackage S) (w : World K V) (s c : Loc) (f : HSize) (z : Option K) (z' : Option K) (h' : Heap K V)
    (hn : counterpartAt w.heap s = none) (hh : getSignal S.prims S.methods s f z w.heap = (.ok c, h')) (as : List (Act K V))
    (hg : ∀ a ∈ as, a.Good S.prims) (hk : ∀ a ∈ as, KeepsCache s a) :
    let h2 := (runSession S as { w with heap := h' }).heap
    getSignal S.prims S.methods s .none z' h2 = (.ok c, h2) ∧
    ((∀ a ∈ as, KeepsCache c a) → ∀ b, getSpectrum S.prims S.methods c .none b h2 = (.ok s, h2)) := by
  intro h2
  obtain ⟨-, h1, h2', -⟩ := getSignal_computed hS.methods (.inl hn) hh
  exact ⟨getSignal_cached (session_counterpart hS as hg { w with heap := h' } hk h1) rfl z',
    fun hk' b => getSpectrum_cached (session_counterpart hS as hg { w with heap := h' } hk' h2') rfl b⟩

/-- **C134** Nothing but assignment to Config changes Config. -/
theorem C134_config (hS : GoodPackage S) (as : List (Act K V)) (hg : ∀ a ∈ as, a.Good S.prims) (ha : ∀ a ∈ as, NoConfig a)
    (w : World K V) : (runSession S as w).heap.config = w.heap.config := by
  induction as generalizing w with
  | nil => rfl
  | cons a as ih =>
    rw [runSession, ih (fun b hb => hg b (List.mem_cons_of_mem _ hb)) (fun b hb => ha b (List.mem_cons_of_mem _ hb))]
    rcases edit_or a with ⟨e, rfl⟩ | hn
    · have key : ∀ (l : Loc) (f : AxisObj K → AxisObj K),
          ((getAxis l >>= fun a => putAxis l (f a) : HM K V Unit) w.heap).2.config = w.heap.config := by
        intro l f
        rcases hl : w.heap.axes[l]? with _ | a
        · rw [bind_of_error (getAxis_none hl)]
        · rw [bind_of_ok (getAxis_run hl)]; rfl
      cases e with
      | setStart l v => exact key l _
      | setStop l v => exact key l _
      | setSample l v => exact key l _
      | pokeX => rfl
      | pokeY => rfl
      | setConfig => exact (ha _ List.mem_cons_self).elim
    · exact (act_le hS a (hg a List.mem_cons_self) hn w).1.config

/-- **C134** Generators are never lost or exchanged. -/
theorem C134_generators (as : List (Act K V)) (w : World K V) :
    (∀ (i : ℕ) g, w.gens[i]? = some g → (runSession S as w).gens[i]? = some g) ∧
    ∀ (i : ℕ) g, w.aprs[i]? = some g → (runSession S as w).aprs[i]? = some g := by
  obtain ⟨⟨g1, e1⟩, g2, e2⟩ := session_gens (S := S) as w
  exact ⟨fun i g hg => by rw [e1]; exact getElem?_append_some hg, fun i g hg => by rw [e2]; exact getElem?_append_some hg⟩

/-! ## with the default methods -/

section
variable {K : Type} [Field K] [LinearOrder K] [IsStrictOrderedRing K] [FloorRing K] [Star K] [PyPow K]

/-- the package as it comes; `N` and `T` are the functions of numpy and scipy, `L` the number crunching of the library functions, `Q` the
conversion methods of `SweepConfig` -/
def Spec.asShipped (T : Transcendental K K) (N : SweepNumbers K) (L : LibPrims K K) (Q : ℕ → Convert K K) : Package K K :=
  let P := exactPrims (SweepNumbers.over N T)
  ⟨P, exactGen P N, L, defaultMethods P, defaultConvMethods P (defaultMethods P), linearFun, onesFun, Q⟩

variable {T : Transcendental K K} {N : SweepNumbers K} {L : LibPrims K K} {Q : ℕ → Convert K K}

theorem good_asShipped (hQ : ∀ n s, Safe (exactPrims (SweepNumbers.over N T)) ∅ (Q n s)) : GoodPackage (asShipped T N L Q) where
  methods := good_defaultMethods
  interp _ _ _ _ := (safe_getX _).bind fun _ => (safe_getY _).bind fun _ => (safe_axisValues _).bind fun _ =>
    (safe_lift _).bind fun _ => safe_newY _
  conv := good_defaultConvMethods good_defaultMethods
  gen := goodGen_exact _ _
  freq2time := hQ

/-- **C134** A generator called after any session that does not assign to its time axis and does not write into the arrays it keeps gives
the sweep it would have given at the beginning. -/
theorem C134_same_sweep (hQ : ∀ n s, Safe (exactPrims (SweepNumbers.over N T)) ∅ (Q n s)) (A Y : Set Loc) (as : List (Act K K))
    (hg : ∀ a ∈ as, a.Good (exactPrims (SweepNumbers.over N T))) (ha : ∀ a ∈ as, Confined A Y ∅ a) (w : World K K)
    (hc : Coh (exactPrims (SweepNumbers.over N T)) w.heap) (gen : Gen K K) (u : UncalculatedSweep K) (hu : genAt w.heap gen = some u)
    (hA : ∀ t, gen.time = some t → t ∉ A) (hY : ∀ y ∈ gen.ys, y ∉ Y) (t : HTime K) (a : TimeArg K) (tht0 : K) :
    let S := asShipped T N L Q
    let h' := (runSession S as w).heap
    genAt h' gen = some u ∧
    (timeAt h' t = some a → resultOf sweepAt (genCall S.prims S.gen S.methods gen t tht0) h' = asSweep (u.call (formulas T N) a tht0)) := by
  intro S h'
  obtain ⟨k, c'⟩ := session_keep (good_asShipped (L := L) hQ) as hg ha w (fun j hj => absurd hj (Set.notMem_empty _)) hc
  have hg' := genAt_keep k hu hA hY
  exact ⟨hg', fun ht => (C89_generator_call c' _ u hg' t a ht tht0).1⟩

end

end SweepDesign
