import Verif.Heap.Aprior
import Verif.Props.HeapCache
import Verif.Props.HeapGenerator

/-!
# C106: what an a-priori generator keeps of its data

`ApriorUncalculatedSweep(time, data, method)` keeps a signal object and descriptions of its own. Which signal object, which spectrum the
descriptions are made from, and what later changes of the data do.
-/

set_option linter.unusedSectionVars false

namespace SweepDesign

open Mem HM Spec

/-- the stored descriptions of the generator are the frequencies `f` and amplitudes `a` over the times `t`, in two y arrays of its own -/
def Spec.Describes {K V : Type} (h : Heap K V) (gen : Gen K V) (lf la : Loc) (t : List K) (f a : List V) : Prop :=
  gen.freq = .interp t lf ∧ gen.amp = .interp t la ∧ lf ≠ la ∧ h.yarrs[lf]? = some f ∧ h.yarrs[la]? = some a

/-- The generator was built by running the conversion method `q` on the spectrum object `sp`, in the heap `h1`: its descriptions are what
the method returned, in arrays made after `h`. -/
def Spec.BuiltFrom {K V : Type} (h h1 h' : Heap K V) (gen : Gen K V) (q : Convert K V) (sp : Loc) : Prop :=
  ∃ t f a h2 lf la, q sp h1 = (.ok (t, f, a), h2) ∧ Describes h' gen lf la t f a ∧ h.yarrs.length ≤ lf ∧ h.yarrs.length ≤ la

section
variable {K V : Type} {P : Prims K V} {G : GenPrims K V} {M : Methods K V} {Q : ℕ → Convert K V} {method : Option (Convert K V)}
  {linear ones : PyFun K V} {time : HTime K} {gen : Gen K V} {ap : Loc} {h h' : Heap K V}

theorem genInit_given {d e : Desc K V} (hh : genInit P G M linear ones time (.given d) (.given e) h = (.ok gen, h')) :
    gen.freq = d ∧ gen.amp = e := by
  unfold genInit at hh
  obtain ⟨g, _, e1, hh⟩ := bind_ok.1 hh
  obtain ⟨t, _, e2, hh⟩ := bind_ok.1 hh
  simp only [extractDesc, bind_run, pure_run, Prod.mk.injEq, Except.ok.injEq] at hh
  obtain ⟨rfl, -⟩ := hh
  exact ⟨rfl, rfl⟩

/-- the conversion method a constructor uses -/
theorem aprioriInit_ok (hM : GoodMethods P M) (hQ : ∀ n s, Safe P ∅ (Q n s)) (hm : ∀ q ∈ method, ∀ s, Safe P ∅ (q s)) {data : AprArg V}
    (hh : aprioriInit P G M linear ones Q time data method h = (.ok (gen, ap), h')) :
    ∃ sp h1, aprObjects P M time data h = (.ok (ap, sp), h1) ∧ Le ∅ h1 h' ∧
      BuiltFrom h h1 h' gen (method.getD (Q h.config.freq2time)) sp := by
  unfold aprioriInit at hh
  obtain ⟨g, h0, e0, hh⟩ := bind_ok.1 hh
  simp only [config, Prod.mk.injEq, Except.ok.injEq] at e0
  obtain ⟨rfl, rfl⟩ := e0
  obtain ⟨⟨sig, sp⟩, h1, e1, hh⟩ := bind_ok.1 hh
  have w1 := le_of_run (safe_aprObjects (X := ∅) hM _ _) e1
  obtain ⟨⟨t, f, a⟩, h2, e2, hh⟩ := bind_ok.1 hh
  have sq : Safe P ∅ (method.getD (Q h.config.freq2time) sp) := by
    cases method with
    | none => exact hQ _ _
    | some q => exact hm q rfl _
  have w2 := le_of_run sq e2
  obtain ⟨lf, h3, e3, hh⟩ := bind_ok.1 hh
  have w3 := le_of_run (P := P) (X := ∅) (safe_newY _) e3
  obtain ⟨la, h4, e4, hh⟩ := bind_ok.1 hh
  have w4 := le_of_run (P := P) (X := ∅) (safe_newY _) e4
  obtain ⟨gen', h5, e5, hh⟩ := bind_ok.1 hh
  have w5 := le_of_run (X := ∅) (safe_genInit_given hM _ _ _ _ _) e5
  simp only [pure_run, Prod.mk.injEq, Except.ok.injEq] at hh
  obtain ⟨⟨rfl, rfl⟩, rfl⟩ := hh
  obtain ⟨g1, g2⟩ := genInit_given e5
  simp only [newY, Prod.mk.injEq, Except.ok.injEq] at e3 e4
  obtain ⟨rfl, rfl⟩ := e3
  obtain ⟨rfl, rfl⟩ := e4
  have w12 := w1.yarrs_len.trans w2.yarrs_len
  have y1 := fun i v hv => (w5.yarrs i v hv)
  refine ⟨sp, h1, e1, (w2.trans w3).trans (w4.trans w5), t, f, a, h2, _, _, e2, ⟨g1, g2, ?_, ?_, ?_⟩, w12, ?_⟩
  · simp
  · obtain ⟨v', hv', e⟩ := y1 h2.yarrs.length f (by simp)
    rw [hv', e (Set.notMem_empty _)]
  · obtain ⟨v', hv', e⟩ := y1 (h2.yarrs ++ [f]).length a (by simp)
    rw [hv', e (Set.notMem_empty _)]
  · simp; omega

/-- **C106** The constructor changes no sample, axis, class, or reference of an object that existed before: at most it fills the cached
spectrum or signal of the data. -/
theorem C106_changes_nothing (hM : GoodMethods P M) (hQ : ∀ n s, Safe P ∅ (Q n s)) (hm : ∀ q ∈ method, ∀ s, Safe P ∅ (q s))
    (data : AprArg V) (h : Heap K V) :
    let h' := (aprioriInit P G M linear ones Q time data method h).2
    (∀ l a, fieldsAt h l = some a → fieldsAt h' l = some a) ∧ (∀ r p, partsAt h r = some p → partsAt h' r = some p) ∧
    (∀ r y, yAt h r = some y → yAt h' r = some y) ∧ (∀ r c, counterpartAt h r = some c → counterpartAt h' r = some c) ∧
    h'.config = h.config := by
  intro h'
  have w := (safe_aprioriInit (G := G) (X := ∅) hM linear ones hQ time data hm h).1
  refine ⟨fun l a ha => ?_, fun r p hp => ?_, fun r y hy => ?_, fun r c hc => ?_, w.config⟩
  · rw [fieldsAt, Option.map_eq_some_iff] at ha
    obtain ⟨o, ho, rfl⟩ := ha
    obtain ⟨o', ho', e⟩ := w.axes l o ho
    have e := e (Set.notMem_empty _)
    show (h'.axes[l]?).map fields = _
    rw [ho']
    simp [fields, e.start, e.stop, e.sample]
  · rw [partsAt, Option.map_eq_some_iff] at hp
    obtain ⟨o, ho, rfl⟩ := hp
    obtain ⟨o', ho', e, -⟩ := w.rels r o ho
    show (h'.rels[r]?).map _ = _
    rw [ho']
    simp [e.cls, e.x, e.y]
  · rw [yAt, Option.bind_eq_some_iff] at hy
    obtain ⟨o, ho, hoy⟩ := hy
    obtain ⟨o', ho', e, -⟩ := w.rels r o ho
    obtain ⟨v', hv', ev⟩ := w.yarrs _ _ hoy
    show (h'.rels[r]?).bind _ = _
    rw [ho']
    simp only [Option.bind_some, e.y]
    exact hv'.trans (by rw [ev (Set.notMem_empty _)])
  · rw [counterpartAt, Option.bind_eq_some_iff] at hc
    obtain ⟨o, ho, hoc⟩ := hc
    obtain ⟨o', ho', -, e⟩ := w.rels r o ho
    show (h'.rels[r]?).bind _ = _
    rw [ho']
    exact (e (Set.notMem_empty _)).counterpart c hoc

theorem counterpart_le (w : Le ∅ h h') {s c : Loc} (hc : counterpartAt h s = some c) : counterpartAt h' s = some c := by
  rw [counterpartAt, Option.bind_eq_some_iff] at hc
  obtain ⟨o, ho, hoc⟩ := hc
  obtain ⟨o', ho', -, e⟩ := w.rels s o ho
  rw [counterpartAt, ho']
  exact (e (Set.notMem_empty _)).counterpart c hoc

/-- **C106** Data that is a signal (or a sweep): the generator keeps that very object. Its descriptions are made from the spectrum object
`get_spectrum()` returns, which is the cached one if there is one. -/
theorem C106_signal (hM : GoodMethods P M) (hQ : ∀ n s, Safe P ∅ (Q n s)) (hm : ∀ q ∈ method, ∀ s, Safe P ∅ (q s)) (l : Loc)
    (o : RelObj) (ho : h.rels[l]? = some o) (hs : SignalClass o.cls)
    (hh : aprioriInit P G M linear ones Q time (.obj l) method h = (.ok (gen, ap), h')) :
    ap = l ∧ ∃ sp h1, getSpectrum P M l .none false h = (.ok sp, h1) ∧ (∀ c, o.counterpart = some c → sp = c ∧ h1 = h) ∧
      counterpartAt h' l = some sp ∧ BuiltFrom h h1 h' gen (method.getD (Q h.config.freq2time)) sp := by
  obtain ⟨sp, h1, e, w, b⟩ := aprioriInit_ok hM hQ hm hh
  have hcl : o.cls ≠ .spectrum := by rcases hs with e | e <;> rw [e] <;> decide
  unfold aprObjects at e
  simp only [] at e
  rw [bind_of_ok (getRel_run ho), if_neg hcl, if_pos (isSignal_iff.2 hs)] at e
  obtain ⟨sp', h2, e1, e2⟩ := bind_ok.1 e
  simp only [pure_run, Prod.mk.injEq, Except.ok.injEq] at e2
  obtain ⟨⟨rfl, rfl⟩, rfl⟩ := e2
  refine ⟨rfl, sp', h2, e1, fun c hc => ?_, counterpart_le w (getSpectrum_ok hM e1), b⟩
  have := getSpectrum_cached (P := P) (M := M) (h := h) (s := l) (c := c) (by rw [counterpartAt, ho]; exact hc) (f := .none) rfl false
  rw [this] at e1
  simp only [Prod.mk.injEq, Except.ok.injEq] at e1
  exact ⟨e1.1.symm, e1.2.symm⟩

/-- **C106** Data that is a spectrum: the descriptions are made from that object, and the generator keeps the object `get_signal()`
returns, before and after. -/
theorem C106_spectrum (hM : GoodMethods P M) (hQ : ∀ n s, Safe P ∅ (Q n s)) (hm : ∀ q ∈ method, ∀ s, Safe P ∅ (q s)) (l : Loc)
    (o : RelObj) (ho : h.rels[l]? = some o) (hs : o.cls = .spectrum)
    (hh : aprioriInit P G M linear ones Q time (.obj l) method h = (.ok (gen, ap), h')) :
    (∃ h1, getSignal P M l .none none h = (.ok ap, h1) ∧ BuiltFrom h h1 h' gen (method.getD (Q h.config.freq2time)) l) ∧
    getSignal P M l .none none h' = (.ok ap, h') := by
  obtain ⟨sp, h1, e, w, b⟩ := aprioriInit_ok hM hQ hm hh
  unfold aprObjects at e
  simp only [] at e
  rw [bind_of_ok (getRel_run ho), if_pos hs] at e
  obtain ⟨s', h2, e1, e2⟩ := bind_ok.1 e
  simp only [pure_run, Prod.mk.injEq, Except.ok.injEq] at e2
  obtain ⟨⟨rfl, rfl⟩, rfl⟩ := e2
  have hk : counterpartAt h2 l = some s' := by
    by_cases hn : counterpartAt h l = none ∨ HSize.none.truthy = true
    · exact (getSignal_computed hM hn e1).2.1
    · push Not at hn
      obtain ⟨d, hd⟩ := Option.ne_none_iff_exists'.1 hn.1
      rw [getSignal_cached hd rfl] at e1
      simp only [Prod.mk.injEq, Except.ok.injEq] at e1
      obtain ⟨rfl, rfl⟩ := e1
      exact hd
  exact ⟨⟨h2, e1, b⟩, getSignal_cached (counterpart_le w hk) rfl _⟩

theorem parts_le (w : Le ∅ h h') {r : Loc} {p : Cls × Loc × Loc} (hp : partsAt h r = some p) : partsAt h' r = some p := by
  rw [partsAt, Option.map_eq_some_iff] at hp
  obtain ⟨o, ho, rfl⟩ := hp
  obtain ⟨o', ho', e, -⟩ := w.rels r o ho
  rw [partsAt, ho']
  simp [e.cls, e.x, e.y]

theorem yArr_le (w : Le ∅ h h') {i : Loc} {v : List V} (hv : h.yarrs[i]? = some v) : h'.yarrs[i]? = some v := by
  obtain ⟨v', hv', e⟩ := w.yarrs i v hv
  rw [hv', e (Set.notMem_empty _)]

theorem fields_le (w : Le ∅ h h') {i : Loc} {a : Axis K} (ha : fieldsAt h i = some a) : fieldsAt h' i = some a := by
  rw [fieldsAt, Option.map_eq_some_iff] at ha
  obtain ⟨o, ho, rfl⟩ := ha
  obtain ⟨o', ho', e⟩ := w.axes i o ho
  have e := e (Set.notMem_empty _)
  rw [fieldsAt, ho']
  simp [fields, e.start, e.stop, e.sample]

/-- constructing from a relation: new axis with the same fields, new array with the same values -/
theorem construct_rel {c : Cls} (hc : c ≠ .sweep) {l : Loc} {o : RelObj} (ho : h.rels[l]? = some o) {y : List V}
    (hy : h.yarrs[o.y]? = some y) {s : Loc} (hh : construct P M c (.rel l) .absent none h = (.ok s, h')) :
    ∃ x' y', partsAt h' s = some (c, x', y') ∧ h.rels.length ≤ s ∧ h.axes.length ≤ x' ∧ h.yarrs.length ≤ y' ∧
      fieldsAt h' x' = fieldsAt h o.x ∧ h'.yarrs[y']? = some y ∧ counterpartAt h' s = none := by
  unfold construct at hh
  obtain ⟨l0, h0, hi, hh⟩ := bind_ok.1 hh
  rw [if_neg hc] at hh
  simp only [pure_run, Prod.mk.injEq, Except.ok.injEq] at hh
  obtain ⟨rfl, rfl⟩ := hh
  unfold relInit at hi
  obtain ⟨g, h1, hg, hi⟩ := bind_ok.1 hi
  simp only [config, Prod.mk.injEq] at hg
  obtain ⟨-, rfl⟩ := hg
  simp only [] at hi
  rw [bind_of_ok (getRel_run ho)] at hi
  obtain ⟨ax, h2, hax, hi⟩ := bind_ok.1 hi
  obtain ⟨a, h3, ha, hn⟩ := bind_ok.1 hax
  obtain ⟨ha, rfl⟩ := getAxis_ok.1 ha
  simp only [newAxis, Prod.mk.injEq, Except.ok.injEq] at hn
  obtain ⟨rfl, rfl⟩ := hn
  obtain ⟨v, h4, hv, hi⟩ := bind_ok.1 hi
  obtain ⟨hv', rfl⟩ := getY_ok.1 hv
  have e : v = y := by simpa using hv'.symm.trans hy
  subst e
  simp only [newY, newRel, bind_run, Prod.mk.injEq, Except.ok.injEq] at hi
  obtain ⟨rfl, rfl⟩ := hi
  refine ⟨h3.axes.length, h3.yarrs.length, ?_, le_rfl, le_rfl, le_rfl, ?_, ?_, ?_⟩ <;>
    simp [partsAt, fieldsAt, counterpartAt, mkRelObj, ha]

/-- **C106** Data that is a plain relation: its samples are read as a spectrum. A new spectrum object with copies of its axis and samples is
made, the descriptions come from that, and the generator keeps the new spectrum's new signal. -/
theorem C106_relation (hM : GoodMethods P M) (hQ : ∀ n s, Safe P ∅ (Q n s)) (hm : ∀ q ∈ method, ∀ s, Safe P ∅ (q s)) (l : Loc)
    (o : RelObj) (ho : h.rels[l]? = some o) (hs : o.cls = .relation) (a : Axis K) (ha : fieldsAt h o.x = some a) (y : List V)
    (hy : h.yarrs[o.y]? = some y) (hh : aprioriInit P G M linear ones Q time (.obj l) method h = (.ok (gen, ap), h')) :
    ∃ sp x' y' h1, h.rels.length ≤ sp ∧ h.rels.length ≤ ap ∧ sp ≠ ap ∧ partsAt h' sp = some (.spectrum, x', y') ∧
      (∃ p, partsAt h' ap = some (.signal, p)) ∧ h.axes.length ≤ x' ∧ h.yarrs.length ≤ y' ∧ fieldsAt h' x' = some a ∧
      h'.yarrs[y']? = some y ∧ counterpartAt h' ap = some sp ∧ counterpartAt h' sp = some ap ∧
      BuiltFrom h h1 h' gen (method.getD (Q h.config.freq2time)) sp := by
  obtain ⟨sp, h1, e, w, b⟩ := aprioriInit_ok hM hQ hm hh
  unfold aprObjects at e
  simp only [] at e
  rw [bind_of_ok (getRel_run ho), if_neg (by rw [hs]; decide), if_neg (by rw [hs]; decide)] at e
  obtain ⟨s', h2, e1, e⟩ := bind_ok.1 e
  obtain ⟨s'', h3, e2, e⟩ := bind_ok.1 e
  simp only [pure_run, Prod.mk.injEq, Except.ok.injEq] at e
  obtain ⟨⟨rfl, rfl⟩, rfl⟩ := e
  obtain ⟨x', y', p1, p2, p3, p4, p5, p6, p7⟩ := construct_rel (by decide) ho hy e1
  obtain ⟨k1, k2, k3, oc, k4, k5⟩ := getSignal_computed hM (.inl p7) e2
  have w1 := le_of_run (X := ∅) (safe_construct hM _ _ _ _) e1
  have w2 := (le_of_run (X := ∅) (safe_getSignal0 hM _) e2).trans w
  have hlt : s' < h2.rels.length := by
    rw [partsAt, Option.map_eq_some_iff] at p1
    obtain ⟨q, hq, -⟩ := p1
    exact (List.getElem?_eq_some_iff.1 hq).1
  refine ⟨s', x', y', h3, p2, w1.rels_len.trans k1, (hlt.trans_le k1).ne, parts_le w2 p1, ⟨(oc.x, oc.y), parts_le w ?_⟩, p3, p4,
    fields_le w2 (p5.trans ha), yArr_le w2 p6, counterpart_le w k3, counterpart_le w k2, b⟩
  rw [partsAt, k4, Option.map_some, k5]

/-- `np.array(y)`: a new array with the given values -/
theorem npArray_ok {y : HYArg V} {ly : Loc} (hh : npArray y h = (.ok ly, h')) :
    y ≠ .absent ∧ h.yarrs.length ≤ ly ∧ (∀ v, y = .list v → h'.yarrs[ly]? = some v) ∧
      ∀ i v, y = .arr i → h.yarrs[i]? = some v → h'.yarrs[ly]? = some v := by
  cases y with
  | absent => simp [npArray, raise] at hh
  | arr l =>
    obtain ⟨v, h1, hv, hh2⟩ := bind_ok.1 hh
    obtain ⟨hv', rfl⟩ := getY_ok.1 hv
    simp only [newY, Prod.mk.injEq, Except.ok.injEq] at hh2
    obtain ⟨rfl, rfl⟩ := hh2
    refine ⟨by simp, le_rfl, by simp, fun i v2 hi h2 => ?_⟩
    obtain rfl : l = i := by simpa using hi
    have e : v = v2 := by simpa using hv'.symm.trans h2
    simp [e]
  | list v =>
    simp only [npArray, newY, Prod.mk.injEq, Except.ok.injEq] at hh
    obtain ⟨rfl, rfl⟩ := hh
    refine ⟨by simp, le_rfl, fun v2 hv => ?_, by simp⟩
    obtain rfl : v = v2 := by simpa using hv
    simp

theorem initAxis_ok {c : Cls} {g : ConfigIds} {ax ly s : Loc} (hh : initAxis P c g ax ly none h = (.ok s, h')) :
    partsAt h' s = some (c, ax, ly) ∧ h.rels.length ≤ s ∧ counterpartAt h' s = none := by
  obtain ⟨n, h1, e1, hh⟩ := bind_ok.1 hh
  have w := le_of_run (P := P) (X := ∅) (safe_axisSize _) e1
  obtain ⟨v, h2, hv, hh2⟩ := bind_ok.1 hh
  obtain ⟨-, rfl⟩ := getY_ok.1 hv
  split at hh2
  · simp [raise] at hh2
  simp only [newRel, Prod.mk.injEq, Except.ok.injEq] at hh2
  obtain ⟨rfl, rfl⟩ := hh2
  refine ⟨?_, w.rels_len, ?_⟩ <;> simp [partsAt, counterpartAt, mkRelObj]

/-- the signal made from data and time -/
theorem aprSignal_ok (hM : GoodMethods P M) {y : HYArg V} {s : Loc} (hh : aprSignal P M y time h = (.ok s, h')) :
    time ≠ .none ∧ y ≠ .absent ∧ h.rels.length ≤ s ∧ counterpartAt h' s = none ∧
    ∃ x' y', partsAt h' s = some (.signal, x', y') ∧ h.yarrs.length ≤ y' ∧ (∀ t, time = .axis t → x' = t) ∧
      (∀ v, y = .list v → h'.yarrs[y']? = some v) ∧ (∀ i v, y = .arr i → h.yarrs[i]? = some v → h'.yarrs[y']? = some v) := by
  cases time with
  | none =>
    obtain ⟨_, _, _, hh⟩ := bind_ok.1 hh
    simp [raise] at hh
  | axis t =>
    unfold aprSignal construct at hh
    obtain ⟨l0, h0, hi, hh⟩ := bind_ok.1 hh
    rw [if_neg (by decide)] at hh
    simp only [pure_run, Prod.mk.injEq, Except.ok.injEq] at hh
    obtain ⟨rfl, rfl⟩ := hh
    unfold relInit at hi
    obtain ⟨g, h1, hg, hi⟩ := bind_ok.1 hi
    simp only [config, Prod.mk.injEq] at hg
    obtain ⟨-, rfl⟩ := hg
    obtain ⟨ly, h2, e2, hi⟩ := bind_ok.1 hi
    obtain ⟨n1, n2, n3, n4⟩ := npArray_ok e2
    have w2 := le_of_run (P := P) (X := ∅) (safe_npArray _) e2
    have w3 := le_of_run (P := P) (X := ∅) (safe_initAxis _ _ _ _ _) hi
    obtain ⟨i1, i2, i3⟩ := initAxis_ok hi
    exact ⟨by simp, n1, w2.rels_len.trans i2, i3, t, ly, i1, n2, by simp, fun v hv => yArr_le w3 (n3 v hv),
      fun i v hv hv' => yArr_le w3 (n4 i v hv hv')⟩
  | array x f =>
    unfold aprSignal construct at hh
    obtain ⟨l0, h0, hi, hh⟩ := bind_ok.1 hh
    rw [if_neg (by decide)] at hh
    simp only [pure_run, Prod.mk.injEq, Except.ok.injEq] at hh
    obtain ⟨rfl, rfl⟩ := hh
    unfold relInit at hi
    obtain ⟨g, h1, hg, hi⟩ := bind_ok.1 hi
    simp only [config, Prod.mk.injEq] at hg
    obtain ⟨-, rfl⟩ := hg
    obtain ⟨ly, h2, e2, hi⟩ := bind_ok.1 hi
    obtain ⟨n1, n2, n3, n4⟩ := npArray_ok e2
    have w2 := le_of_run (P := P) (X := ∅) (safe_npArray _) e2
    obtain ⟨ax, h3, e3, hi⟩ := bind_ok.1 hi
    have w23 := le_of_run (hM.fromArray _ _ _ _) e3
    have w3 := w23.trans (le_of_run (P := P) (X := ∅) (safe_initAxis _ _ _ _ _) hi)
    obtain ⟨i1, i2, i3⟩ := initAxis_ok hi
    exact ⟨by simp, n1, (w2.rels_len.trans w23.rels_len).trans i2, i3, ax, ly, i1, n2, by simp, fun v hv => yArr_le w3 (n3 v hv),
      fun i v hv hv' => yArr_le w3 (n4 i v hv hv')⟩

/-- **C106** Any other data: a new signal object on the time, the given axis object itself if there is one. Without a time, or without
data, nothing is built. -/
theorem C106_array (hM : GoodMethods P M) (hQ : ∀ n s, Safe P ∅ (Q n s)) (hm : ∀ q ∈ method, ∀ s, Safe P ∅ (q s)) (y : HYArg V)
    (hh : aprioriInit P G M linear ones Q time (.other y) method h = (.ok (gen, ap), h')) :
    time ≠ .none ∧ y ≠ .absent ∧ h.rels.length ≤ ap ∧
    ∃ x' y' sp h1, partsAt h' ap = some (.signal, x', y') ∧ h.yarrs.length ≤ y' ∧ (∀ t, time = .axis t → x' = t) ∧
      (∀ v, y = .list v → h'.yarrs[y']? = some v) ∧ (∀ i v, y = .arr i → h.yarrs[i]? = some v → h'.yarrs[y']? = some v) ∧
      counterpartAt h' ap = some sp ∧ counterpartAt h' sp = some ap ∧ h.rels.length ≤ sp ∧
      BuiltFrom h h1 h' gen (method.getD (Q h.config.freq2time)) sp := by
  obtain ⟨sp, h1, e, w, b⟩ := aprioriInit_ok hM hQ hm hh
  unfold aprObjects at e
  obtain ⟨s', h2, e1, e⟩ := bind_ok.1 e
  obtain ⟨s'', h3, e2, e⟩ := bind_ok.1 e
  simp only [pure_run, Prod.mk.injEq, Except.ok.injEq] at e
  obtain ⟨⟨rfl, rfl⟩, rfl⟩ := e
  obtain ⟨k1, k2, k3, k4, x', y', k5, k6, k7, k8, k9⟩ := aprSignal_ok hM e1
  obtain ⟨q1, q2, q3, -⟩ := getSpectrum_computed hM (.inl k4) e2
  have w1 := le_of_run (X := ∅) (safe_aprSignal hM _ _) e1
  have w2 := (le_of_run (X := ∅) (safe_getSpectrum0 hM _) e2).trans w
  exact ⟨k1, k2, k3, x', y', s'', h3, parts_le w2 k5, k6, k7, fun v hv => yArr_le w2 (k8 v hv),
    fun i v hv hv' => yArr_le w2 (k9 i v hv hv'), counterpart_le w q2, counterpart_le w q3, w1.rels_len.trans q1, b⟩

end

/-! ## later calls, with the methods the code ships with -/

section
variable {T : Transcendental ℝ ℝ} {N : SweepNumbers ℝ} {h : Heap ℝ ℝ} {Q : ℕ → Convert ℝ ℝ} {method : Option (Convert ℝ ℝ)}

local notation "Pm" => exactPrims (SweepNumbers.over N T)
local notation "Dm" => defaultMethods (exactPrims (SweepNumbers.over N T))
local notation "Gm" => exactGen (exactPrims (SweepNumbers.over N T)) N
local notation "Fm" => formulas T N

theorem describes_ys {h : Heap ℝ ℝ} {gen : Gen ℝ ℝ} {lf la : Loc} {t f a : List ℝ} (d : Describes h gen lf la t f a) {n : ℕ}
    (hf : n ≤ lf) (ha : n ≤ la) : ∀ y ∈ gen.ys, n ≤ y := by
  intro y hy
  rw [Gen.ys, d.1, d.2.1] at hy
  rcases hy with rfl | rfl
  · exact hf
  · exact ha

/-- **C106** After the constructor the user does anything that writes only into y arrays from before it (the samples of the data among
them) and does not assign to the stored time axis. The descriptions are still those of the construction, but the energy the sweep is scaled
to, and the signal it carries, are those the data has at the time of the call. -/
theorem C106_later (hc : Coh Pm h) (hN : N.sqrt = mathSqrt) (hQ : ∀ n s, Safe Pm ∅ (Q n s)) (hm : ∀ q ∈ method, ∀ s, Safe Pm ∅ (q s))
    (time : HTime ℝ) (data : AprArg ℝ) (gen : Gen ℝ ℝ) (ap : Loc) (h1 : Heap ℝ ℝ)
    (hh : aprioriInit Pm Gm Dm linearFun onesFun Q time data method h = (.ok (gen, ap), h1)) (u : UncalculatedSweep ℝ)
    (hu : genAt h1 gen = some u) (A : Set Loc) (ss : List (Step ℝ ℝ)) (hs : ∀ s ∈ ss, within A {y | y < h.yarrs.length} ∅ s)
    (hA : ∀ t, gen.time = some t → t ∉ A) (t' : HTime ℝ) (a : TimeArg ℝ) (tht0 : ℝ) (b : Bool) (c : Cls) (r : Rel ℝ ℝ) :
    let h2 := runSteps Pm Dm (defaultConvMethods Pm Dm) ss h1
    genAt h2 gen = some u ∧
    (timeAt h2 t' = some a → valueAt h2 ap = some (c, r) → (c = .sweep → Derives (SweepNumbers.over N T)) →
      resultOf sweepAt (aprioriCall Pm Gm Dm gen ap t' tht0 b) h2 = asSweep ((⟨u, r⟩ : AprSweep).call Fm a tht0 b)) := by
  have gM := good_defaultMethods (P := Pm)
  have gC := good_defaultConvMethods gM
  intro h2
  obtain ⟨sp, h3, -, -, t, f, am, h4, lf, la, -, d, hf, ha⟩ := aprioriInit_ok gM hQ hm hh
  have hc1 : Coh Pm h1 := coh_of_run (X := ∅) (safe_aprioriInit gM _ _ hQ _ _ hm) hh hc
  obtain ⟨w, hc2⟩ : Keep A {y | y < h.yarrs.length} h1 h2 ∧ Coh Pm h2 :=
    steps_keep gM gC ss hs h1 (fun j hj => absurd hj (Set.notMem_empty _)) hc1
  have hg := genAt_keep w hu hA fun y hy => by
    have := describes_ys d hf ha y hy
    simpa using this
  exact ⟨hg, fun ht hap hd => C89_apriori hc2 hN gen ap ⟨u, r⟩ hg c hap hd t' a ht tht0 b⟩

end

/-! ## generators over ℚ

A conversion method that takes the spectrum itself as the description: times and frequencies from its axis, amplitudes from its samples. -/

def convert106 (s : Loc) : HM ℚ ℚ (List ℚ × List ℚ × List ℚ) := do
  let o ← getRel s
  let x ← axisValues P89 o.x
  let y ← getY o.y
  pure (x, x, y)

theorem safe_convert106 (s : Loc) : Safe P89 ∅ (convert106 s) :=
  (safe_getRel _).bind fun _ => (safe_axisValues _).bind fun _ => (safe_getY _).bind fun _ => safe_pure _

/-- the constructor with the default methods; `SweepConfig.freq2time` names a method that fails unless the id is 7 -/
def init106 (time : HTime ℚ) (data : AprArg ℚ) (method : Option (Convert ℚ ℚ)) : HM ℚ ℚ (Gen ℚ ℚ × Loc) :=
  aprioriInit P89 (exactGen P89 ratN) (defaultMethods P89) linearFun onesFun
    (fun n => if n = 7 then convert106 else fun _ => raise .typeError) time data method

/-- `ArrayAxis(0, 3, 1)` and an object of the class with the samples 1, 2, 3, 4, after the steps -/
def heap106 (c : Cls) (ss : List (Step ℚ ℚ)) : Heap ℚ ℚ :=
  runSteps P89 (defaultMethods P89) (defaultConvMethods P89 (defaultMethods P89))
    ([.call (.axisNew 0 3 1), .call (.construct c (.axis 0) (.list [1, 2, 3, 4]))] ++ ss) (emptyHeap ℚ ℚ)

/-- what is seen of a generator: times, frequencies and amplitudes of the descriptions; location, class and samples of the a-priori signal -/
structure Seen106 where
  t : Option (List ℚ)
  f : Option (List ℚ)
  a : Option (List ℚ)
  ap : Loc
  cls : Option Cls
  y : Option (List ℚ)
  deriving DecidableEq

def seen106 (m : HM ℚ ℚ (Gen ℚ ℚ × Loc)) (h : Heap ℚ ℚ) : Except Err Seen106 :=
  match m h with
  | (.error e, _) => .error e
  | (.ok (g, l), h') => .ok {
      t := match g.freq with | .interp t _ => some t | .func _ => none
      f := match g.freq with | .interp _ i => h'.yarrs[i]? | .func _ => none
      a := match g.amp with | .interp _ i => h'.yarrs[i]? | .func _ => none
      ap := l
      cls := (partsAt h' l).map (·.1)
      y := yAt h' l }

/-- **C106** The descriptions can be of samples the data no longer has: the spectrum was computed, the samples were written, and the
generator built from the signal describes the spectrum of the old samples. Without the earlier `get_spectrum()` it describes the new ones. -/
theorem C106_stale :
    let old : Step ℚ ℚ := .call (.getSpectrum 0 .none false)
    let write : Step ℚ ℚ := .edit (.pokeY 0 fun _ => [5, 0, 0, 0])
    let seen := fun ss => seen106 (init106 (.axis 0) (.obj 0) (some convert106)) (heap106 .signal ss)
    (seen [old, write]).map (·.a) = (seen [old]).map (·.a) ∧
    (seen [old, write]).map (·.y) = .ok (some [5, 0, 0, 0]) ∧
    (seen [write]).map (·.a) ≠ (seen [old, write]).map (·.a) := by
  refine ⟨?_, ?_, ?_⟩ <;> decide +kernel

/-- a signal is kept itself; a spectrum gives its signal; a relation is read as a spectrum; an array gives a new signal -/
example :
    seen106 (init106 (.axis 0) (.obj 0) (some convert106)) (heap106 .signal []) =
      .ok ⟨some [0, 1 / 4, 1 / 2], some [0, 1 / 4, 1 / 2], some [1, 2, 3], 0, some .signal, some [1, 2, 3, 4]⟩ ∧
    seen106 (init106 (.axis 0) (.obj 0) (some convert106)) (heap106 .spectrum []) =
      .ok ⟨some [0, 1, 2, 3], some [0, 1, 2, 3], some [1, 2, 3, 4], 1, some .signal, some [1, 2, 3, 4, 0, 0]⟩ ∧
    seen106 (init106 (.axis 0) (.obj 0) (some convert106)) (heap106 .relation []) =
      .ok ⟨some [0, 1, 2, 3], some [0, 1, 2, 3], some [1, 2, 3, 4], 2, some .signal, some [1, 2, 3, 4, 0, 0]⟩ ∧
    seen106 (init106 (.axis 0) (.other (.list [3, 1, 2, 4])) (some convert106)) (heap106 .relation []) =
      .ok ⟨some [0, 1 / 4, 1 / 2], some [0, 1 / 4, 1 / 2], some [3, 1, 2], 1, some .signal, some [3, 1, 2, 4]⟩ := by
  refine ⟨?_, ?_, ?_, ?_⟩ <;> decide +kernel

/-- without a method the one `SweepConfig.freq2time` names at that moment; without a time or data nothing is built -/
example :
    seen106 (init106 (.axis 0) (.obj 0) none) (heap106 .signal []) = .error .typeError ∧
    seen106 (init106 (.axis 0) (.obj 0) none) (heap106 .signal [.edit (.setConfig { noConfig with freq2time := 7 })]) =
      seen106 (init106 (.axis 0) (.obj 0) (some convert106)) (heap106 .signal []) ∧
    seen106 (init106 .none (.other (.arr 0)) (some convert106)) (heap106 .signal []) = .error .value ∧
    seen106 (init106 .none (.other .absent) (some convert106)) (heap106 .signal []) = .error .badInput ∧
    seen106 (init106 .none (.obj 0) (some convert106)) (heap106 .signal []) =
      seen106 (init106 (.axis 0) (.obj 0) (some convert106)) (heap106 .signal []) := by
  refine ⟨?_, ?_, ?_, ?_, ?_⟩ <;> decide +kernel

/-- the methods of the examples meet the hypotheses of the theorems -/
example : GoodMethods P89 (defaultMethods P89) ∧ ∀ q ∈ some convert106, ∀ s, Safe P89 ∅ (q s) :=
  ⟨good_defaultMethods, fun q hq s => by
    obtain rfl : convert106 = q := by simpa using hq
    exact safe_convert106 s⟩

end SweepDesign
