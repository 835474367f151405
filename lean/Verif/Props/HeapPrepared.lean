import Verif.Heap.Prepared
import Verif.Props.HeapSweep
import Verif.Props.HeapAprior
import Verif.Props.HeapEmd
import Verif.Props.HeapClasses

/-!
# C118: which objects the prepared sweeps, the codes and the source corrections change, share and make
-/

set_option linter.unusedSectionVars false

namespace SweepDesign

open Mem Spec HM

variable {K V : Type} {P : Prims K V} {M : Methods K V} {C : ConvMethods K V} {G : GenPrims K V} {L : LibPrims K V}
  {linear ones : PyFun K V}

/-- **C118** A call of one of the nine functions, returning or raising, changes no axis field, no array read from an axis, no class, axis
reference or y reference of an object that existed before, and not Config; of the y arrays and ndarrays it changes at most the one given as
`start_sequence`. -/
theorem C118_changes_nothing (hM : GoodMethods P M) (hC : GoodConvMethods P C) (hG : GoodGen P G) (c : LibCall K V) (hg : c.Good P)
    (h : Heap K V) (hc : Coh P h) :
    let h' := (c.exec P G L M C linear ones h).2
    (∀ l a, fieldsAt h l = some a → fieldsAt h' l = some a ∧ arrayAt P h' l = arrayAt P h l) ∧
    (∀ (j : Loc) v, h.xarrs[j]? = some v → h'.xarrs[j]? = some v) ∧
    (∀ (j : Loc) v, (∀ t b, c ≠ .mSequence t (some j) b) → h.yarrs[j]? = some v → h'.yarrs[j]? = some v) ∧
    (∀ r p, partsAt h r = some p → partsAt h' r = some p) ∧ h'.config = h.config := by
  intro h'
  have w := safe_libCall (X := ⟨∅, ∅, c.startArray⟩) (L := L) hM hC hG linear ones c hg (Set.Subset.refl _) h
  have k := w.1.keep
  refine ⟨fun l a ha => ?_, w.1.xarrs, fun j v hj hv => k.yarrs j v hv ?_, fun r p hp => ?_, w.1.config⟩
  · rw [fieldsAt, Option.map_eq_some_iff] at ha
    obtain ⟨o, ho, rfl⟩ := ha
    obtain ⟨o', ho', e⟩ := k.axes l o ho (Set.notMem_empty _)
    refine ⟨by rw [fieldsAt, ho']; simp [e], ?_⟩
    rw [arrayAt, arrayAt, axisValues_run hc ho, axisValues_run (w.2 hc) ho']
    have h1 : o'.start = o.start := congrArg Axis.start e
    have h2 : o'.stop = o.stop := congrArg Axis.stop e
    have h3 : o'.sample = o.sample := congrArg Axis.sample e
    rw [h1, h2, h3]
  · intro hm
    cases c with
    | mSequence t s b =>
      cases s with
      | none => exact hm
      | some s =>
        obtain rfl : j = s := hm
        exact hj t b rfl
    | _ => exact hm
  · rw [partsAt, Option.map_eq_some_iff] at hp
    obtain ⟨o, ho, rfl⟩ := hp
    obtain ⟨o', ho', e⟩ := k.rels r o ho
    rw [partsAt, ho']; simp [e.cls, e.x, e.y]

/-- **C118** so a relation that does not use the `start_sequence` array as its y keeps its data. -/
theorem C118_relations_keep (hM : GoodMethods P M) (hC : GoodConvMethods P C) (hG : GoodGen P G) (c : LibCall K V) (hg : c.Good P)
    (h : Heap K V) (hc : Coh P h) (r : Loc) (o : RelObj) (a : AxisObj K) (y : List V) (hr : IsRel h r o a y)
    (ho : ∀ t b, c ≠ .mSequence t (some o.y) b) : dataAt P (c.exec P G L M C linear ones h).2 r = dataAt P h r := by
  have w := safe_libCall (X := ⟨∅, ∅, c.startArray⟩) (L := L) hM hC hG linear ones c hg (Set.Subset.refl _) h
  refine data_keep hc (w.2 hc) w.1.keep hr (Set.notMem_empty _) fun hm => ?_
  cases c with
  | mSequence t s b =>
    cases s with
    | none => exact hm
    | some s => exact ho t b (by rw [show o.y = s from hm])
  | _ => exact hm

/-! ## the array of the caller -/

theorem fixStart_run {s : Loc} {h : Heap K V} {y : List V} (hy : h.yarrs[s]? = some y) :
    ((fixStartArray L s h).1 = .ok () → (fixStartArray L s h).2.yarrs[s]? =
      some (if y.all L.isZero then L.unit :: y.tail else y)) ∧
    ((fixStartArray L s h).1 ≠ .ok () → (fixStartArray L s h).2 = h) := by
  unfold fixStartArray
  rw [bind_of_ok (getY_run hy)]
  split
  · cases y with
    | nil => simp [raise]
    | cons v vs => simp [pokeY, hy]
  · simp [pure_run, hy]

theorem yarr_keep {α : Type} {m : HM K V α} (hm : Safe P ∅ m) {h : Heap K V} {s : Loc} {y : List V} (hy : h.yarrs[s]? = some y) :
    (m h).2.yarrs[s]? = some y := (hm h).1.keep.yarrs s y hy (Set.notMem_empty _)

/-- what holds of the array `s` after a computation: `A` if it returns, `B` anyway -/
def endsWith {α : Type} (s : Loc) (A : List V) (B : List V → Prop) (out : Except Err α × Heap K V) : Prop :=
  (∀ l, out.1 = .ok l → out.2.yarrs[s]? = some A) ∧ ∃ z, out.2.yarrs[s]? = some z ∧ B z

theorem endsWith_bind {α β : Type} {m : HM K V α} {f : α → HM K V β} {s : Loc} {A y : List V} {B : List V → Prop} (hm : Safe P ∅ m)
    {h : Heap K V} (hy : h.yarrs[s]? = some y) (hB : B y) (hf : ∀ a h', h'.yarrs[s]? = some y → endsWith s A B (f a h')) :
    endsWith s A B ((m >>= f) h) := by
  have k := yarr_keep hm hy
  rcases e : m h with ⟨e' | a, h'⟩
  · rw [bind_of_error e]; rw [e] at k
    exact ⟨fun l hl => by simp at hl, y, k, hB⟩
  · rw [bind_of_ok e]; rw [e] at k
    exact hf a h' k

/-- **C118** `get_relation_m_sequence` writes into the array it is given: if all its entries are zero, then after a call that returns its
first entry is 1 (`code_m_sequence.py:68`); otherwise it is as before. If the call raises, the array is as before or with the first entry
1. -/
theorem C118_start_sequence (hM : GoodMethods P M) (time : HTime K) (s : Loc) (b : Bool) (h : Heap K V) (y : List V)
    (hy : h.yarrs[s]? = some y) :
    let out := mSequenceRelation P L M time (some s) b h
    (∀ l, out.1 = .ok l → out.2.yarrs[s]? = some (if y.all L.isZero then L.unit :: y.tail else y)) ∧
    (out.2.yarrs[s]? = some y ∨ y.all L.isZero = true ∧ out.2.yarrs[s]? = some (L.unit :: y.tail)) := by
  intro out
  suffices H : endsWith s (if y.all L.isZero then L.unit :: y.tail else y)
      (fun z => z = y ∨ y.all L.isZero = true ∧ z = L.unit :: y.tail) out by
    obtain ⟨h1, z, h2, h3⟩ := H
    refine ⟨h1, ?_⟩
    rcases h3 with rfl | ⟨h3, rfl⟩
    · exact .inl h2
    · exact .inr ⟨h3, h2⟩
  refine endsWith_bind (safe_axisGiven (P := P) _) hy (.inl rfl) fun t h1 hy1 =>
    endsWith_bind (safe_axisSize (P := P) _) hy1 (.inl rfl) fun n h2 hy2 =>
    endsWith_bind (safe_lift (P := P) _) hy2 (.inl rfl) fun k h3 hy3 => ?_
  obtain ⟨f1, f2⟩ := fixStart_run (L := L) hy3
  change endsWith s _ _ ((fixStartArray L s >>= fun _ => (getY s >>= fun y => lift (L.maxLenSeq y) >>= fun m =>
      if b then (getAxis t >>= fun a => axisNew P.zero (L.last m.length a.sample) a.sample >>= fun nt =>
        construct P M .relation (.axis nt) (.list m))
      else construct P M .relation (.axis t) (.list (m.take n)) : HM K V Loc)) h3)
  have hend : Safe P ∅ (getY s >>= fun y => lift (L.maxLenSeq y) >>= fun m =>
      if b then (getAxis t >>= fun a => axisNew P.zero (L.last m.length a.sample) a.sample >>= fun nt =>
        construct P M .relation (.axis nt) (.list m))
      else construct P M .relation (.axis t) (.list (m.take n)) : HM K V Loc) := by
    refine (safe_getY _).bind fun _ => (safe_lift _).bind fun _ => ?_
    split
    · exact (safe_getAxis _).bind fun _ => (safe_axisNew _ _ _).bind fun _ => safe_construct hM _ _ _ _
    · exact safe_construct hM _ _ _ _
  rcases e : fixStartArray L s h3 with ⟨e' | u, h4⟩
  · rw [bind_of_error e]
    rw [e] at f2
    obtain rfl : h4 = h3 := f2 (by simp)
    exact ⟨fun l hl => by simp at hl, y, hy3, .inl rfl⟩
  · rw [bind_of_ok e]
    rw [e] at f1
    have hy4 := yarr_keep hend (f1 rfl)
    refine ⟨fun _ _ => hy4, _, hy4, ?_⟩
    split
    · rename_i hz; exact .inr ⟨hz, rfl⟩
    · exact .inl rfl

/-! ## what the result shares -/

/-- the calls whose result is made by arithmetic, slicing, shifting or a constructor with a relation -/
def Spec.libOwn : LibCall K V → Prop
  | .linear .. => False
  | .shuffle .. => False
  | .mSequence .. => False
  | .zinger _ n => 1 < n
  | _ => True

/-- **C118** The dwell sweep, the zinger code of two or more periods, both sweeps made from a code, and both corrections are new relations
with a new axis object and a new y array. -/
theorem C118_own_parts (hM : GoodMethods P M) (hC : GoodConvMethods P C) (hF : FreshMethods M) (hG : GoodGen P G) (c : LibCall K V)
    (hg : c.Good P) (ho : libOwn c) (h h' : Heap K V) (l : Loc) (hh : c.exec P G L M C linear ones h = (.ok (some l), h')) :
    ∃ o, OwnsParts h h' l o := by
  cases c with
  | linear => exact ho.elim
  | shuffle => exact ho.elim
  | mSequence => exact ho.elim
  | dwell => exact (ownM_dwellSweep hM hG _ _ hg _ _ _).some _ _ _ hh
  | zinger => exact (ownM_zingerRelation hM _ _ ho).some _ _ _ hh
  | segments => exact (ownM_codeSweepSegments hM _ _).some _ _ _ hh
  | convolution => exact (ownM_convolutionSweep hM hC.convolve _ _).some _ _ _ hh
  | correction => exact ownO_sourceCorrection hM _ _ _ _ _ _ _ _ _ _ hh
  | correctSweep => exact (ownM_sweepCorrection hM hF _ _ _).some _ _ _ hh

/-- **C118** For one period or fewer the zinger code is the very object passed, and nothing is made. -/
theorem C118_zinger_same_object (r : Loc) (n : ℤ) (hn : n ≤ 1) (h : Heap K V) : zingerRelation P L M r n h = (.ok r, h) := by
  unfold zingerRelation
  rw [if_neg (by omega)]
  rfl

theorem sweepOf_on (hM : GoodMethods P M) (hF : FreshMethods M) (hG : GoodGen P G) (time : HTime K) (fq am : List V) (s : Loc)
    (h h' : Heap K V) (hh : sweepOf P G L M linear ones time fq am h = (.ok s, h')) :
    ∃ f a t, SweepOn h' s f a t ∧ h.rels.length ≤ s ∧ h.rels.length ≤ f ∧ h.rels.length ≤ a ∧
      (∀ t', time = .axis t' → t = t') ∧ (∀ x b, time = .array x b → h.axes.length ≤ t) := by
  unfold sweepOf at hh
  obtain ⟨lf, h1, e1, hh1⟩ := bind_ok.1 hh
  obtain ⟨la, h2, e2, hh2⟩ := bind_ok.1 hh1
  obtain ⟨gen, h3, e3, hh3⟩ := bind_ok.1 hh2
  have w2 := (le_of_run (P := P) (X := ∅) (safe_newY _) e1).trans (le_of_run (P := P) (safe_newY _) e2)
  have w3 := le_of_run (X := ⟨∅, ∅, {lf, la}⟩) (safe_genInit hM linear ones time (.arr lf) (.arr la) (by simp [DescArg.ys])
    (by simp [DescArg.ys])) e3
  have n3 := w2.rels_len.trans w3.rels_len
  obtain ⟨c1, c2, c3⟩ := C56_constructor linear ones _ _ gen h2 h3 time e3
  clear hh hh1 hh2
  have on : ∀ t, gen.time = some t → ∃ f a, SweepOn h' s f a t ∧ h.rels.length ≤ s ∧ h.rels.length ≤ f ∧ h.rels.length ≤ a := by
    intro t ht
    obtain ⟨f, a, p, p1, p2, p3, -⟩ := C56_stored_time hM hG gen t ht _ s h3 h' hh3
    exact ⟨f, a, p, n3.trans p1, n3.trans p2, n3.trans p3⟩
  cases time with
  | none =>
    unfold genCall calcTime at hh3
    rw [c2 rfl] at hh3
    simp [raise, bind_run] at hh3
  | axis t =>
    obtain ⟨f, a, p, p1, p2, p3⟩ := on t (c1 t rfl)
    exact ⟨f, a, t, p, p1, p2, p3, fun t' ht => by simpa using ht, by simp⟩
  | array x b =>
    obtain ⟨t, ht, nt⟩ := c3 x b rfl hF
    obtain ⟨f, a, p, p1, p2, p3⟩ := on t ht
    exact ⟨f, a, t, p, p1, p2, p3, by simp, fun _ _ _ => w2.axes_len.trans nt⟩

/-- **C118** The linear sweep and the shuffled sweep, their `frequency_time` and their `amplitude_time` are new relations on one axis object:
the very object passed as `time`, or a new one if an array is passed. -/
theorem C118_sweeps_on_time (hM : GoodMethods P M) (hF : FreshMethods M) (hG : GoodGen P G) (time : HTime K) (fs fe : K)
    (tp : Option K) (s : Loc) (h h' : Heap K V)
    (hh : linearSweep P G L M linear ones time fs fe tp h = (.ok s, h') ∨ shuffleSweep P G L M linear ones time tp h = (.ok s, h')) :
    ∃ f a t, SweepOn h' s f a t ∧ h.rels.length ≤ s ∧ h.rels.length ≤ f ∧ h.rels.length ≤ a ∧
      (∀ t', time = .axis t' → t = t') ∧ (∀ x b, time = .array x b → h.axes.length ≤ t) := by
  rcases hh with hh | hh
  · unfold linearSweep at hh
    obtain ⟨xs, h1, e1, hh1⟩ := bind_ok.1 hh
    obtain ⟨fq, h2, e2, hh2⟩ := bind_ok.1 hh1
    obtain ⟨am, h3, e3, hh3⟩ := bind_ok.1 hh2
    have w := ((le_of_run (P := P) (X := ∅) (safe_timeValues _) e1).trans (le_of_run (P := P) (safe_lift _) e2)).trans
      (le_of_run (P := P) (safe_lift _) e3)
    obtain ⟨f, a, t, p, p1, p2, p3, p4, p5⟩ := sweepOf_on hM hF hG _ _ _ _ _ _ hh3
    exact ⟨f, a, t, p, w.rels_len.trans p1, w.rels_len.trans p2, w.rels_len.trans p3, p4, fun x b e => w.axes_len.trans (p5 x b e)⟩
  · unfold shuffleSweep at hh
    obtain ⟨t0, h1, e1, hh1⟩ := bind_ok.1 hh
    obtain ⟨o, h2, e2, hh2⟩ := bind_ok.1 hh1
    obtain ⟨fq, h3, e3, hh3⟩ := bind_ok.1 hh2
    obtain ⟨xs, h4, e4, hh4⟩ := bind_ok.1 hh3
    obtain ⟨am, h5, e5, hh5⟩ := bind_ok.1 hh4
    have w := ((((le_of_run (P := P) (X := ∅) (safe_axisGiven _) e1).trans (le_of_run (P := P) (safe_getAxis _) e2)).trans
      (le_of_run (P := P) (safe_lift _) e3)).trans (le_of_run (P := P) (safe_axisValues _) e4)).trans
      (le_of_run (P := P) (safe_lift _) e5)
    obtain ⟨f, a, t, p, p1, p2, p3, p4, -⟩ := sweepOf_on hM hF hG _ _ _ _ _ _ hh5
    obtain rfl := p4 t0 rfl
    refine ⟨f, a, t, p, w.rels_len.trans p1, w.rels_len.trans p2, w.rels_len.trans p3, ?_, ?_⟩
    · rintro t' rfl
      simp only [axisGiven, pure_run, Prod.mk.injEq, Except.ok.injEq] at e1
      exact e1.1.symm
    · rintro x b rfl
      exact fresh_axisFromArray _ _ _ _ _ _ e1

/-- **C118** The m-sequence relation is new with a new y array. Cut to the time it is on the axis object passed, or on a new one if an array
is passed; with `is_full` it is on a new one. -/
theorem C118_m_sequence (hM : GoodMethods P M) (time : HTime K) (start : Option Loc) (b : Bool) (l : Loc) (h h' : Heap K V)
    (hh : mSequenceRelation P L M time start b h = (.ok l, h')) :
    ∃ o, h'.rels[l]? = some o ∧ h.rels.length ≤ l ∧ h.yarrs.length ≤ o.y ∧
      (b = false → ∀ t, time = .axis t → o.x = t) ∧ (b = false → ∀ x f, time = .array x f → h.axes.length ≤ o.x) ∧
      (b = true → h.axes.length ≤ o.x) := by
  unfold mSequenceRelation at hh
  obtain ⟨t, h1, e1, hh1⟩ := bind_ok.1 hh
  obtain ⟨n, h2, e2, hh2⟩ := bind_ok.1 hh1
  obtain ⟨k, h3, e3, hh3⟩ := bind_ok.1 hh2
  obtain ⟨s, h4, e4, hh4⟩ := bind_ok.1 hh3
  obtain ⟨u, h5, e5, hh5⟩ := bind_ok.1 hh4
  obtain ⟨y, h6, e6, hh6⟩ := bind_ok.1 hh5
  obtain ⟨m, h7, e7, hh7⟩ := bind_ok.1 hh6
  have w3 := ((le_of_run (P := P) (X := ∅) (safe_axisGiven _) e1).trans (le_of_run (P := P) (safe_axisSize _) e2)).trans
    (le_of_run (P := P) (safe_lift _) e3)
  have w4 : Le ∅ h3 h4 := le_of_run (P := P) (safe_givenOr _ (safe_newY _)) e4
  have w5 : Le ⟨∅, ∅, {s}⟩ h4 h5 := le_of_run (P := P) (safe_fixStartArray rfl) e5
  have w7 := (le_of_run (P := P) (X := ∅) (safe_getY _) e6).trans (le_of_run (P := P) (safe_lift _) e7)
  have nr := ((w3.rels_len.trans w4.rels_len).trans w5.rels_len).trans w7.rels_len
  have ny := ((w3.yarrs_len.trans w4.yarrs_len).trans w5.yarrs_len).trans w7.yarrs_len
  have na := ((w3.axes_len.trans w4.axes_len).trans w5.axes_len).trans w7.axes_len
  cases b with
  | true =>
    rw [if_pos rfl] at hh7
    obtain ⟨a, h8, e8, hh8⟩ := bind_ok.1 hh7
    obtain ⟨nt, h9, e9, hh9⟩ := bind_ok.1 hh8
    have w8 := le_of_run (P := P) (X := ∅) (safe_getAxis _) e8
    have w9 := le_of_run (P := P) (X := ∅) (safe_axisNew _ _ _) e9
    have n9 := fresh_axisNew _ _ _ _ _ _ e9
    obtain ⟨o, o1, o2, o3, o4, -⟩ := ownX_construct hM _ _ _ _ _ _ _ hh9
    exact ⟨o, o1, (nr.trans (w8.rels_len.trans w9.rels_len)).trans o2, (ny.trans (w8.yarrs_len.trans w9.yarrs_len)).trans o4,
      by simp, by simp, fun _ => by rw [o3]; exact (na.trans w8.axes_len).trans n9⟩
  | false =>
    rw [if_neg (by simp)] at hh7
    obtain ⟨o, o1, o2, o3, o4, -⟩ := ownX_construct hM _ _ _ _ _ _ _ hh7
    refine ⟨o, o1, nr.trans o2, ny.trans o4, ?_, ?_, by simp⟩
    · rintro - t' rfl
      simp only [axisGiven, pure_run, Prod.mk.injEq, Except.ok.injEq] at e1
      exact o3.trans e1.1.symm
    · rintro - x f rfl
      rw [o3]
      exact fresh_axisFromArray _ _ _ _ _ _ e1

/-! ## so: editing -/

/-- **C118** Whatever is later assigned to start, end and sample of a result with its own parts, or written into its y, and whatever is
called in between: the relations that existed before the call keep their data. -/
theorem C118_editing_the_result (hM : GoodMethods P M) (hC : GoodConvMethods P C) (hF : FreshMethods M) (hG : GoodGen P G)
    (c : LibCall K V) (hg : c.Good P) (ho : libOwn c) (h h' : Heap K V) (hc : Coh P h) (l : Loc)
    (hh : c.exec P G L M C linear ones h = (.ok (some l), h')) :
    ∃ o, h'.rels[l]? = some o ∧ ∀ (ss : List (Step K V)), (∀ s ∈ ss, within {o.x} {o.y} ∅ s) →
      ∀ (r : Loc) (p : RelObj) (a : AxisObj K) (y : List V), IsRel h r p a y → dataAt P (runSteps P M C ss h') r = dataAt P h r := by
  obtain ⟨o, hl⟩ := C118_own_parts hM hC hF hG c hg ho h h' l hh
  refine ⟨o, hl.rel, fun ss hs r p a y hr => ?_⟩
  have hst : c.startArray ⊆ (∅ : Ex).ys := by
    cases c with
    | mSequence => exact ho.elim
    | _ => exact Set.Subset.refl _
  have w := safe_libCall (X := ∅) (L := L) hM hC hG linear ones c hg hst h
  rw [hh] at w
  obtain ⟨k, c'⟩ := steps_keep hM hC ss hs h' (fun j hj => absurd hj (Set.notMem_empty _)) (w.2 hc)
  have k1 : Keep {o.x} {o.y} h h' := w.1.keep.mono (Set.empty_subset _) (Set.empty_subset _)
  have n1 := (List.getElem?_eq_some_iff.1 hr.axis).1
  have n2 := (List.getElem?_eq_some_iff.1 hr.ys).1
  have n3 : p.x ≠ o.x := Nat.ne_of_lt (n1.trans_le hl.axis)
  have n4 : p.y ≠ o.y := Nat.ne_of_lt (n2.trans_le hl.ys)
  exact data_keep hc c' (k1.trans k) hr (by rw [Set.mem_singleton_iff]; exact n3) (by rw [Set.mem_singleton_iff]; exact n4)

/-- **C118** and the other way round: whatever is assigned to axes or written into y arrays that existed before the call, the result keeps
its data. -/
theorem C118_editing_the_arguments (hM : GoodMethods P M) (hC : GoodConvMethods P C) (hF : FreshMethods M) (hG : GoodGen P G)
    (c : LibCall K V) (hg : c.Good P) (ho : libOwn c) (h h' : Heap K V) (hc : Coh P h) (l : Loc)
    (hh : c.exec P G L M C linear ones h = (.ok (some l), h')) (ss : List (Step K V))
    (hs : ∀ s ∈ ss, within {i | i < h.axes.length} {i | i < h.yarrs.length} ∅ s) :
    dataAt P (runSteps P M C ss h') l = dataAt P h' l := by
  obtain ⟨o, hl⟩ := C118_own_parts hM hC hF hG c hg ho h h' l hh
  have hst : c.startArray ⊆ (∅ : Ex).ys := by
    cases c with
    | mSequence => exact ho.elim
    | _ => exact Set.Subset.refl _
  have w := safe_libCall (X := ∅) (L := L) hM hC hG linear ones c hg hst h
  rw [hh] at w
  obtain ⟨k, c'⟩ := steps_keep hM hC ss hs h' (fun j hj => absurd hj (Set.notMem_empty _)) (w.2 hc)
  have hx := List.getElem?_eq_getElem hl.axis_lt
  have hy := List.getElem?_eq_getElem hl.ys_lt
  exact data_keep (w.2 hc) c' k ⟨hl.rel, hx, hy⟩ (not_lt.2 hl.axis) (not_lt.2 hl.ys)

/-- **C118** The linear and the shuffled sweep share the axis passed: after `sweep.end = v` (or start, sample; or through `frequency_time`
or `amplitude_time`) the axis passed has the new value, and so has every other relation on it. -/
theorem C118_assignment_reaches_time (hM : GoodMethods P M) (hF : FreshMethods M) (hG : GoodGen P G)
    (t : Loc) (fs fe : K) (tp : Option K) (s : Loc) (h h' : Heap K V) (hc : Coh P h)
    (hh : linearSweep P G L M linear ones (.axis t) fs fe tp h = (.ok s, h') ∨
      shuffleSweep P G L M linear ones (.axis t) tp h = (.ok s, h')) (x : Axis K) (hx : fieldsAt h t = some x) :
    ∃ f a, SweepOn h' s f a t ∧ ∀ r, r = s ∨ r = f ∨ r = a → ∀ q : Assign K,
      (assignTo r q h').1 = .ok () ∧ fieldsAt (assignTo r q h').2 t = some (q.apply x) ∧
      arrayAt P (assignTo r q h').2 t = P.mkArr (q.apply x).start (q.apply x).stop (q.apply x).sample := by
  obtain ⟨f, a, t', p, -, -, -, p4, -⟩ := C118_sweeps_on_time hM hF hG (.axis t) fs fe tp s h h' hh
  obtain rfl := p4 t rfl
  have hw : Le ∅ h h' ∧ Coh P h' := by
    rcases hh with hh | hh
    · exact ⟨le_of_run (safe_linearSweep hM hG _ _ _ _ _ _) hh, coh_of_run (safe_linearSweep (X := ∅) hM hG _ _ _ _ _ _) hh hc⟩
    · exact ⟨le_of_run (safe_shuffleSweep hM hG _ _ _ _) hh, coh_of_run (safe_shuffleSweep (X := ∅) hM hG _ _ _ _) hh hc⟩
  have hx' : fieldsAt h' t' = some x := by
    obtain ⟨b, hb, rfl⟩ := Option.map_eq_some_iff.1 hx
    obtain ⟨b', hb', e⟩ := hw.1.keep.axes _ _ hb (Set.notMem_empty _)
    rw [fieldsAt, hb']; simp [e]
  refine ⟨f, a, p, fun r hr q => ?_⟩
  obtain ⟨q1, -, q3, q4⟩ := C56_assignment h' hw.2 s f a t' p x hx' r hr q
  exact ⟨q1, q3, q4⟩

/-! ## the a-priori signal is lost -/

/-- the returned relation has no `a_prior_signal` -/
def NoAprior (m : HM K V Loc) : Prop := ∀ h l h', m h = (.ok l, h') → ∃ o, h'.rels[l]? = some o ∧ o.aPrior = none

theorem NoAprior.bind {α : Type} {m : HM K V α} {f : α → HM K V Loc} (hf : ∀ a, NoAprior (f a)) : NoAprior (m >>= f) := by
  intro h l h' hh
  obtain ⟨a, h1, -, h3⟩ := bind_ok.1 hh
  exact hf a _ _ _ h3

theorem noAprior_newRel (c : Cls) (g : ConfigIds) (ax ly : Loc) (cp : Option Loc) :
    NoAprior (newRel (mkRelObj c g ax ly cp) : HM K V Loc) := by
  intro h l h' hh
  simp only [newRel, Prod.mk.injEq, Except.ok.injEq] at hh
  obtain ⟨rfl, rfl⟩ := hh
  exact ⟨mkRelObj c g ax ly cp, by simp, rfl⟩

theorem noAprior_initAxis (c : Cls) (g : ConfigIds) (ax ly : Loc) (cp : Option Loc) :
    NoAprior (initAxis P c g ax ly cp) := by
  refine NoAprior.bind fun n => NoAprior.bind fun v => ?_
  split
  · intro h l h' hh; simp [raise] at hh
  · exact noAprior_newRel _ _ _ _ _

theorem noAprior_construct (c : Cls) (x : HXArg K) (y : HYArg V) (cp : Option Loc) : NoAprior (construct P M c x y cp) := by
  have h0 : NoAprior (relInit P M c x y cp) := by
    refine NoAprior.bind fun g => ?_
    cases x with
    | rel r => exact NoAprior.bind fun _ => NoAprior.bind fun _ => NoAprior.bind fun _ => NoAprior.bind fun _ => noAprior_newRel _ _ _ _ _
    | axis ax => exact NoAprior.bind fun _ => noAprior_initAxis _ _ _ _ _
    | array l b => exact NoAprior.bind fun _ => NoAprior.bind fun _ => noAprior_initAxis _ _ _ _ _
  intro h l h' hh
  obtain ⟨l0, h1, e1, hh1⟩ := bind_ok.1 hh
  split at hh1
  · unfold sweepInit at hh1
    obtain ⟨_, _, _, hh2⟩ := bind_ok.1 hh1
    obtain ⟨_, _, _, hh3⟩ := bind_ok.1 hh2
    obtain ⟨_, _, _, hh4⟩ := bind_ok.1 hh3
    obtain ⟨_, _, _, hh5⟩ := bind_ok.1 hh4
    obtain ⟨_, _, _, hh6⟩ := bind_ok.1 hh5
    obtain ⟨_, _, _, hh7⟩ := bind_ok.1 hh6
    obtain ⟨_, _, _, hh8⟩ := bind_ok.1 hh7
    obtain ⟨_, k, _, hh9⟩ := bind_ok.1 hh8
    obtain ⟨o, k1, e2, hh10⟩ := bind_ok.1 hh9
    obtain ⟨ho, rfl⟩ := getRel_ok.1 e2
    obtain ⟨u, k2, e3, hh11⟩ := bind_ok.1 hh10
    rw [putRel_run] at e3
    simp only [Prod.mk.injEq, true_and, pure_run, Except.ok.injEq] at e3 hh11
    obtain ⟨rfl, rfl⟩ := hh11
    subst e3
    exact ⟨_, set_getElem?_self ho, rfl⟩
  · simp only [pure_run, Prod.mk.injEq, Except.ok.injEq] at hh1
    obtain ⟨rfl, rfl⟩ := hh1
    exact h0 _ _ _ e1

/-- **C118** The result of an arithmetic operator has no `a_prior_signal`, even if the operand is an a-priori sweep with one. -/
theorem C118_operator_drops_a_priori (a : Loc) (b : PyOperand V) (op : MathOp) (h h' : Heap K V) (l : Loc)
    (hh : operator P M a b op h = (.ok l, h')) : ∃ o, h'.rels[l]? = some o ∧ o.aPrior = none := by
  refine (?_ : NoAprior (operator P M a b op)) h l h' hh
  refine NoAprior.bind fun _ => NoAprior.bind fun _ => ?_
  unfold relOperation
  refine NoAprior.bind fun _ => ?_
  split
  · exact NoAprior.bind fun _ => NoAprior.bind fun _ => NoAprior.bind fun _ => NoAprior.bind fun _ => NoAprior.bind fun _ =>
      NoAprior.bind fun _ => NoAprior.bind fun _ => NoAprior.bind fun _ => NoAprior.bind fun _ => noAprior_construct _ _ _ _
  · exact NoAprior.bind fun _ => NoAprior.bind fun _ => NoAprior.bind fun _ => NoAprior.bind fun _ => noAprior_construct _ _ _ _

/-- **C118** so `get_dwell_sweep`, whose last step is the product with the window, returns a sweep without `a_prior_signal`, although the
a-priori sweep it multiplies has one. -/
theorem C118_dwell_no_a_priori (method : Convert K V) (time : HTime K) (data : AprArg V) (tp : Option K) (h h' : Heap K V) (l : Loc)
    (hh : dwellSweep P G L M linear ones method time data tp h = (.ok l, h')) : ∃ o, h'.rels[l]? = some o ∧ o.aPrior = none := by
  have op : ∀ s win, NoAprior (operator P M s (.obj win) .mul) := fun s win h l h' hh => C118_operator_drops_a_priori _ _ _ h h' l hh
  refine (?_ : NoAprior (dwellSweep P G L M linear ones method time data tp)) h l h' hh
  exact NoAprior.bind fun _ => NoAprior.bind fun _ => NoAprior.bind fun _ => NoAprior.bind fun _ => NoAprior.bind fun _ =>
    NoAprior.bind fun _ => op _ _

/-! ## classes -/

/-- if `r` is of class `c`, so is what is returned -/
def InCls (r : Loc) (c : Cls) (m : HM K V Loc) : Prop :=
  ∀ h l h', c ∈ classAt h r → m h = (.ok l, h') → c ∈ classAt h' l

theorem classAt_after {α : Type} {X : Ex} {m : HM K V α} (hm : Safe P X m) {h h' : Heap K V} {a : Except Err α} (hr : m h = (a, h'))
    {r : Loc} {c : Cls} (hc : c ∈ classAt h r) : c ∈ classAt h' r := by
  obtain ⟨o, ho, rfl⟩ := hc
  exact keeps_class hm hr ho

theorem InCls.bind {α : Type} {X : Ex} {r : Loc} {c : Cls} {m : HM K V α} {f : α → HM K V Loc} (hm : Safe P X m)
    (hf : ∀ a, InCls r c (f a)) : InCls r c (m >>= f) := by
  intro h l h' hc hh
  obtain ⟨a, h1, e1, e2⟩ := bind_ok.1 hh
  exact hf a _ _ _ (classAt_after hm e1 hc) e2

theorem InCls.then {r : Loc} {c : Cls} {m : HM K V Loc} {f : Loc → HM K V Loc} (hm : InCls r c m) (hf : ∀ a, InCls a c (f a)) :
    InCls r c (m >>= f) := by
  intro h l h' hc hh
  obtain ⟨a, h1, e1, e2⟩ := bind_ok.1 hh
  exact hf a _ _ _ (hm _ _ _ hc e1) e2

theorem InCls.pure (r : Loc) (c : Cls) : InCls r c (Pure.pure r : HM K V Loc) := by
  intro h l h' hc hh
  simp only [pure_run, Prod.mk.injEq, Except.ok.injEq] at hh
  obtain ⟨rfl, rfl⟩ := hh
  exact hc

/-- what is returned is of class `c` -/
def HasCls (c : Cls) (m : HM K V Loc) : Prop := ∀ h l h', m h = (.ok l, h') → c ∈ classAt h' l

theorem HasCls.bind {α : Type} {c : Cls} {m : HM K V α} {f : α → HM K V Loc} (hf : ∀ a, HasCls c (f a)) : HasCls c (m >>= f) := by
  intro h l h' hh
  obtain ⟨a, h1, -, e2⟩ := bind_ok.1 hh
  exact hf a _ _ _ e2

theorem HasCls.then {c : Cls} {m : HM K V Loc} {f : Loc → HM K V Loc} (hm : HasCls c m) (hf : ∀ a, InCls a c (f a)) :
    HasCls c (m >>= f) := by
  intro h l h' hh
  obtain ⟨a, h1, e1, e2⟩ := bind_ok.1 hh
  exact hf a _ _ _ (hm _ _ _ e1) e2

theorem inCls_of {f : Loc → HM K V Loc} (hf : ∀ {r : Loc} {h h' : Heap K V} {l : Loc}, f r h = (.ok l, h') →
    ∃ o, h'.rels[l]? = some o ∧ o.cls ∈ classAt h r) (r : Loc) (c : Cls) : InCls r c (f r) := by
  intro h l h' hc hh
  obtain ⟨o, ho, q, hq, e⟩ := hf hh
  obtain ⟨q', hq', rfl⟩ := hc
  rw [hq] at hq'
  simp only [Option.some.injEq] at hq'
  subst hq'
  exact ⟨o, ho, e.symm⟩

theorem inCls_operator (hM : GoodMethods P M) (b : PyOperand V) (op : MathOp) (r : Loc) (c : Cls) : InCls r c (operator P M r b op) :=
  inCls_of (f := fun r => operator P M r b op) (fun e => yields_operator hM e) r c

theorem inCls_relDiff (hM : GoodMethods P M) (r : Loc) (c : Cls) : InCls r c (relDiff P M r) :=
  inCls_of (f := fun r => relDiff P M r) (fun e => yields_relDiff hM e) r c

theorem inCls_shift (hM : GoodMethods P M) (d : K) (r : Loc) (c : Cls) : InCls r c (shift P M r d) :=
  inCls_of (f := fun r => shift P M r d) (fun e => yields_shift hM e) r c

theorem inCls_relSelect (hM : GoodMethods P M) (s e : Option K) (r : Loc) (c : Cls) : InCls r c (relSelect P M r s e) :=
  inCls_of (f := fun r => relSelect P M r s e) (fun e => yields_relSelect hM e) r c

theorem inCls_zingerLoop (hM : GoodMethods P M) (r : Loc) (ks : List ℕ) (acc : Loc) (c : Cls) :
    InCls acc c (zingerLoop P L M r ks acc) := by
  induction ks generalizing acc with
  | nil => exact InCls.pure _ _
  | cons k ks ih =>
    exact InCls.bind (P := P) (X := ∅) (safe_getRel _) fun _ => InCls.bind (P := P) (X := ∅) (safe_getAxis _) fun _ =>
      InCls.bind (P := P) (X := ∅) (safe_shift hM _ _) fun _ => (inCls_operator hM _ _ _ _).then fun _ => ih _

theorem hasCls_construct (hM : GoodMethods P M) (c : Cls) (x : HXArg K) (y : HYArg V) (cp : Option Loc) :
    HasCls c (construct P M c x y cp) := fun h l h' hh => yields_class hM c x y cp h l h' hh

theorem hasCls_genCall (hM : GoodMethods P M) (hG : GoodGen P G) (gen : Gen K V) (time : HTime K) (v : V) :
    HasCls .sweep (genCall P G M gen time v) := by
  refine HasCls.bind fun t h l h' hh => ?_
  obtain ⟨f, a, p, -⟩ := calculate_on hM hG hh
  obtain ⟨o, ho, hc, -⟩ := p.sweep
  exact ⟨o, ho, hc⟩

theorem inCls_normalise (hM : GoodMethods P M) (s ap : Loc) (c : Cls) : InCls s c (normalise P G M s ap) := by
  unfold normalise
  refine InCls.bind (P := P) (X := ∅) (safe_getNorm hM _) fun _ => InCls.bind (P := P) (X := ∅) (safe_getNorm hM _) fun _ =>
    InCls.bind (P := P) (X := ∅) (safe_lift _) fun v => InCls.bind (P := P) (X := ∅) (safe_getRel _) fun o => ?_
  split
  · intro h l h' _ hh; simp [raise] at hh
  · refine InCls.bind (P := P) (X := ∅) (safe_operator hM _ _ _) fun a' => ?_
    have e : (getRel s >>= fun o => putRel s { o with ampTime := some a' } >>= fun _ => operator P M s (.number v) .mul) =
        ((getRel s >>= fun o => putRel s { o with ampTime := some a' }) >>= fun _ => operator P M s (.number v) .mul : HM K V Loc) :=
      funext fun h => (bind_assoc_run _ _ _ h).symm
    rw [e]
    exact InCls.bind (P := P) (X := ⟨∅, {s}, ∅⟩) (safe_putRel_new (fun o => { o with ampTime := some a' }) (fun _ => ⟨rfl, rfl, rfl, rfl⟩)
      rfl) fun _ => inCls_operator hM _ _ _ _

theorem hasCls_aprioriCall (hM : GoodMethods P M) (hG : GoodGen P G) (gen : Gen K V) (ap : Loc) (time : HTime K) (v : V) (b : Bool) :
    HasCls .sweep (aprioriCall P G M gen ap time v b) := by
  have fin : ∀ s, InCls s .sweep (setAprior s (some ap) >>= fun _ => pure s : HM K V Loc) := fun s =>
    InCls.bind (P := P) (X := ⟨∅, {s}, ∅⟩) (safe_setAprior rfl _) fun _ => InCls.pure _ _
  refine (hasCls_genCall hM hG _ _ _).then fun s => ?_
  cases b
  · rw [if_neg (by simp)]; exact (InCls.pure _ _).then fin
  · rw [if_pos rfl]; exact (inCls_normalise hM _ _ _).then fin

theorem hasCls_firstOfIMFs (hM : GoodMethods P M) (E : List V → Except Err (List (List V))) (r : Loc) :
    HasCls .signal (firstOfIMFs P M E r) := by
  have one : ∀ k, HasCls .signal (oneIMF P M r k) := fun k => HasCls.bind fun _ => HasCls.bind fun _ => hasCls_construct hM _ _ _ _
  intro h l h' hh
  obtain ⟨ls, h1, e1, hh1⟩ := bind_ok.1 hh
  unfold getIMFs at e1
  obtain ⟨j, h2, e2, hh2⟩ := bind_ok.1 e1
  obtain ⟨y, h3, e3, hh3⟩ := bind_ok.1 hh2
  obtain ⟨ks, h4, e4, hh4⟩ := bind_ok.1 hh3
  cases ks with
  | nil =>
    simp only [allIMFs, pure_run, Prod.mk.injEq, Except.ok.injEq] at hh4
    obtain ⟨rfl, rfl⟩ := hh4
    simp [raise] at hh1
  | cons k ks =>
    obtain ⟨a, h5, e5, hh5⟩ := bind_ok.1 hh4
    obtain ⟨as, h6, e6, hh6⟩ := bind_ok.1 hh5
    simp only [pure_run, Prod.mk.injEq, Except.ok.injEq] at hh6
    obtain ⟨rfl, rfl⟩ := hh6
    simp only [pure_run, Prod.mk.injEq, Except.ok.injEq] at hh1
    obtain ⟨rfl, rfl⟩ := hh1
    exact classAt_after (safe_allIMFs (X := ∅) hM _ _) e6 (one _ _ _ _ e5)

theorem inCls_forceFrom (hM : GoodMethods P M) (v : V) (r : Loc) (c : Cls) : InCls r c (forceFrom P M r v) :=
  (inCls_relDiff hM _ _).then fun _ => (inCls_relDiff hM _ _).then fun _ => inCls_operator hM _ _ _ _

/-- both displacements of a pass are signals -/
theorem correctionStep_cls (hM : GoodMethods P M) {E : List V → Except Err (List (List V))} {c : Cls} {v : V} {nt win : Loc}
    {rows : List (V × V)} {cnt : ℕ} {h h' : Heap K V} {p : Loc × Loc}
    (hh : correctionStep P L M E c v nt win rows cnt h = (.ok p, h')) : .signal ∈ classAt h' p.1 ∧ .signal ∈ classAt h' p.2 := by
  unfold correctionStep at hh
  obtain ⟨_, h1, e1, hh1⟩ := bind_ok.1 hh
  obtain ⟨_, h2, e2, hh2⟩ := bind_ok.1 hh1
  obtain ⟨_, h3, e3, hh3⟩ := bind_ok.1 hh2
  obtain ⟨imf, h4, e4, hh4⟩ := bind_ok.1 hh3
  obtain ⟨nd, h5, e5, hh5⟩ := bind_ok.1 hh4
  simp only [pure_run, Prod.mk.injEq, Except.ok.injEq] at hh5
  obtain ⟨rfl, rfl⟩ := hh5
  have c4 := hasCls_firstOfIMFs hM _ _ _ _ _ e4
  exact ⟨classAt_after (safe_operator (X := ∅) hM _ _ _) e5 c4, inCls_operator hM _ _ _ _ _ _ _ c4 e5⟩

theorem correctionRun_cls (hM : GoodMethods P M) {E : List V → Except Err (List (List V))} {c : Cls} {v : V} {lim : Option ℤ}
    {nt win : Loc} {rows : List (V × V)} {fuel cnt : ℕ} {h h' : Heap K V} {p : Loc × Loc}
    (hh : correctionRun P L M E c v lim nt win rows fuel cnt h = (.ok (some p), h')) :
    .signal ∈ classAt h' p.1 ∧ .signal ∈ classAt h' p.2 := by
  induction fuel generalizing cnt h with
  | zero => simp [correctionRun, pure_run] at hh
  | succ fuel ih =>
    unfold correctionRun at hh
    obtain ⟨q, h1, e1, hh1⟩ := bind_ok.1 hh
    obtain ⟨y, h2, e2, hh2⟩ := bind_ok.1 hh1
    have c1 := correctionStep_cls hM e1
    have c2 : Cls.signal ∈ classAt h2 q.1 ∧ Cls.signal ∈ classAt h2 q.2 :=
      ⟨classAt_after (P := P) (X := ∅) (safe_valuesOf _) e2 c1.1, classAt_after (P := P) (X := ∅) (safe_valuesOf _) e2 c1.2⟩
    split at hh2
    · simp only [pure_run, Prod.mk.injEq, Except.ok.injEq, Option.some.injEq] at hh2
      obtain ⟨rfl, rfl⟩ := hh2
      exact c2
    · split at hh2
      · simp only [pure_run, Prod.mk.injEq, Except.ok.injEq, Option.some.injEq] at hh2
        obtain ⟨rfl, rfl⟩ := hh2
        exact c2
      · exact ih hh2

theorem nonEmptyOr_cls {p : Loc × Loc} {h h' : Heap K V} {l : Loc} {c : Cls} (h1 : c ∈ classAt h p.1) (h2 : c ∈ classAt h p.2)
    (hh : nonEmptyOr P p h = (.ok l, h')) : c ∈ classAt h' l := by
  obtain ⟨n, k, e, hh1⟩ := bind_ok.1 hh
  have a1 := classAt_after (P := P) (X := ∅) (safe_relLen _) e h1
  have a2 := classAt_after (P := P) (X := ∅) (safe_relLen _) e h2
  split at hh1 <;>
  · simp only [pure_run, Prod.mk.injEq, Except.ok.injEq] at hh1
    obtain ⟨rfl, rfl⟩ := hh1
    assumption

/-- the class of what a call returns -/
def Spec.libClass (h : Heap K V) : LibCall K V → Set Cls
  | .zinger r _ => classAt h r
  | .mSequence .. => {.relation}
  | .correction .. | .correctSweep .. => {.signal}
  | .linear .. | .shuffle .. | .dwell .. | .segments .. | .convolution .. => {.sweep}

/-- **C118** The prepared sweeps and the sweeps made from a code are of class `Sweep`, an m-sequence is a `Relation`, a zinger code of the
class of its argument, and both corrections are of class `Signal`, whatever the class of the argument. -/
theorem C118_classes (hM : GoodMethods P M) (hF : FreshMethods M) (hG : GoodGen P G) (c : LibCall K V) (h h' : Heap K V) (l : Loc)
    (hr : ∀ r n, c = .zinger r n → ∃ o, h.rels[r]? = some o)
    (hh : c.exec P G L M C linear ones h = (.ok (some l), h')) : ∃ o, h'.rels[l]? = some o ∧ o.cls ∈ libClass h c := by
  have fin : ∀ {m : HM K V Loc} {k : Cls}, HasCls k m → (m >>= fun l => pure (some l)) h = (.ok (some l), h') →
      ∃ o, h'.rels[l]? = some o ∧ o.cls = k := by
    intro m k hm hh
    obtain ⟨a, h1, e1, e2⟩ := bind_ok.1 hh
    simp only [pure_run, Prod.mk.injEq, Except.ok.injEq, Option.some.injEq] at e2
    obtain ⟨rfl, rfl⟩ := e2
    exact hm _ _ _ e1
  cases c with
  | linear time fs fe tp =>
    refine fin (fun h l h' hh => ?_) hh
    obtain ⟨f, a, t, p, -⟩ := C118_sweeps_on_time hM hF hG time fs fe tp l h h' (.inl hh)
    obtain ⟨o, ho, hc, -⟩ := p.sweep
    exact ⟨o, ho, hc⟩
  | shuffle time tp =>
    refine fin (fun h l h' hh => ?_) hh
    unfold shuffleSweep at hh
    obtain ⟨_, _, _, hh1⟩ := bind_ok.1 hh
    obtain ⟨_, _, _, hh2⟩ := bind_ok.1 hh1
    obtain ⟨_, _, _, hh3⟩ := bind_ok.1 hh2
    obtain ⟨_, _, _, hh4⟩ := bind_ok.1 hh3
    obtain ⟨_, _, _, hh5⟩ := bind_ok.1 hh4
    obtain ⟨f, a, t, p, -⟩ := sweepOf_on hM hF hG _ _ _ _ _ _ hh5
    obtain ⟨o, ho, hc, -⟩ := p.sweep
    exact ⟨o, ho, hc⟩
  | dwell method time data tp =>
    refine fin (?_ : HasCls .sweep (dwellSweep P G L M linear ones method time data tp)) hh
    exact HasCls.bind fun _ => HasCls.bind fun _ => HasCls.bind fun _ => HasCls.bind fun _ => HasCls.bind fun _ =>
      (hasCls_aprioriCall hM hG _ _ _ _ _).then fun _ => inCls_operator hM _ _ _ _
  | zinger r n =>
    obtain ⟨a, h1, e1, e2⟩ := bind_ok.1 hh
    simp only [pure_run, Prod.mk.injEq, Except.ok.injEq, Option.some.injEq] at e2
    obtain ⟨rfl, rfl⟩ := e2
    obtain ⟨o, ho⟩ := hr r n rfl
    have hz : InCls r o.cls (zingerRelation P L M r n) := by
      unfold zingerRelation
      split
      · exact inCls_zingerLoop hM _ _ _ _
      · exact InCls.pure _ _
    obtain ⟨q, hq, e⟩ := hz _ _ _ ⟨o, ho, rfl⟩ e1
    exact ⟨q, hq, o, ho, e.symm⟩
  | segments code base =>
    refine fin (?_ : HasCls .sweep (codeSweepSegments P L M code base)) hh
    refine HasCls.bind fun es => ?_
    cases es
    · intro h l h' hh; simp [raise] at hh
    · exact HasCls.bind fun _ => HasCls.bind fun _ => hasCls_construct hM _ _ _ _
  | convolution code base =>
    refine fin (?_ : HasCls .sweep (convolutionSweep P L M C.convolveCall code base)) hh
    have conv : ∀ a b, HasCls .sweep (clsConv P M C.convolveCall .sweep a b) := fun a b h l h' hh => yields_clsConv hM _ _ _ h l h' hh
    refine HasCls.bind fun cr => (conv _ _).then fun q => ?_
    exact InCls.bind (P := P) (X := ∅) (safe_relLen _) fun _ => InCls.bind (P := P) (X := ∅) (safe_getRel _) fun _ =>
      InCls.bind (P := P) (X := ∅) (safe_getAxis _) fun _ => (inCls_relSelect hM _ _ _ _).then fun _ =>
      InCls.bind (P := P) (X := ∅) (safe_getAxis _) fun _ => inCls_shift hM _ _ _
  | mSequence time s b =>
    refine fin (?_ : HasCls .relation (mSequenceRelation P L M time s b)) hh
    refine HasCls.bind fun _ => HasCls.bind fun _ => HasCls.bind fun _ => HasCls.bind fun _ => HasCls.bind fun _ => HasCls.bind fun _ =>
      HasCls.bind fun _ => ?_
    split
    · exact HasCls.bind fun _ => HasCls.bind fun _ => hasCls_construct hM _ _ _ _
    · exact hasCls_construct hM _ _ _ _
  | correctSweep E r w =>
    refine fin (?_ : HasCls .signal (sweepCorrection P L M E r w)) hh
    refine HasCls.bind fun _ => HasCls.bind fun _ => HasCls.bind fun _ => HasCls.bind fun _ => (hasCls_firstOfIMFs hM _ _).then fun imf => ?_
    have hw : ∀ xs, InCls imf .signal (windowed P L M imf xs w) := by
      intro xs
      cases w
      · exact InCls.pure _ _
      · exact InCls.bind (P := P) (X := ∅) (safe_lift _) fun _ => InCls.bind (P := P) (X := ∅) (safe_construct hM _ _ _ _) fun _ =>
          inCls_operator hM _ _ _ _
    exact (hw _).then fun _ => (inCls_relDiff hM _ _).then fun _ => inCls_relDiff hM _ _
  | correction E r v b lim pc fuel =>
    change sourceCorrection P L M E r v b lim pc fuel h = _ at hh
    unfold sourceCorrection at hh
    obtain ⟨_, _, _, hh1⟩ := bind_ok.1 hh
    obtain ⟨_, _, _, hh2⟩ := bind_ok.1 hh1
    obtain ⟨_, _, _, hh3⟩ := bind_ok.1 hh2
    obtain ⟨_, _, _, hh4⟩ := bind_ok.1 hh3
    obtain ⟨_, _, _, hh5⟩ := bind_ok.1 hh4
    obtain ⟨_, _, _, hh6⟩ := bind_ok.1 hh5
    obtain ⟨_, _, _, hh7⟩ := bind_ok.1 hh6
    obtain ⟨_, _, _, hh8⟩ := bind_ok.1 hh7
    obtain ⟨_, _, _, hh9⟩ := bind_ok.1 hh8
    obtain ⟨imf, g1, e1, hh10⟩ := bind_ok.1 hh9
    obtain ⟨imf0, g2, e2, hh11⟩ := bind_ok.1 hh10
    obtain ⟨u, g3, e3, hh12⟩ := bind_ok.1 hh11
    obtain ⟨w, g4, e4, hh13⟩ := bind_ok.1 hh12
    obtain ⟨rows, g5, e5, hh14⟩ := bind_ok.1 hh13
    have c1 := hasCls_firstOfIMFs hM _ _ _ _ _ e1
    have c2 := inCls_operator hM _ _ _ _ _ _ _ c1 e2
    have c5 := classAt_after (P := P) (X := ∅) (safe_lift _) e5 (classAt_after (P := P) (X := ∅) (safe_valuesOf _) e4
      (classAt_after (P := P) (X := ∅) (safe_valuesOf _) e3 c2))
    split at hh14
    · obtain ⟨out, g6, e6, hh15⟩ := bind_ok.1 hh14
      cases out with
      | none => simp [pure_run] at hh15
      | some p =>
        obtain ⟨nd, g7, e7, hh16⟩ := bind_ok.1 hh15
        obtain ⟨q, g8, e8, hh17⟩ := bind_ok.1 hh16
        simp only [pure_run, Prod.mk.injEq, Except.ok.injEq, Option.some.injEq] at hh17
        obtain ⟨rfl, rfl⟩ := hh17
        obtain ⟨a1, a2⟩ := correctionRun_cls hM e6
        exact inCls_forceFrom hM _ _ _ _ _ _ (nonEmptyOr_cls a1 a2 e7) e8
    · obtain ⟨q, g8, e8, hh17⟩ := bind_ok.1 hh14
      simp only [pure_run, Prod.mk.injEq, Except.ok.injEq, Option.some.injEq] at hh17
      obtain ⟨rfl, rfl⟩ := hh17
      exact inCls_forceFrom hM _ _ _ _ _ _ c5 e8

/-! ## over ℚ

Stand-ins for the number functions: the frequencies and the window are the times, the window on the left is constant, `max_len_seq` repeats
its seed, `soft_clip` halves. -/

def ratLib : LibPrims ℚ ℚ where
  times n x := n * x
  last n x := (n - 1) * x
  mul a b := a * b
  zero := 0
  linear x _ _ := .ok x
  tukey x _ loc := .ok (match loc with | .left => x.map fun _ => 1 | _ => x)
  shuffled d s := .ok [d, s]
  bits n := .ok n
  draw n := List.replicate n 0
  unit := 1
  isZero v := v == 0
  maxLenSeq y := .ok (y ++ y)
  clip n rows := .ok (rows.map fun r => (r.1 / n, r.2 / n))
  below y := y.all fun v => v < 2

def exec118 (c : LibCall ℚ ℚ) (h : Heap ℚ ℚ) : Except Err (Option Loc) × Heap ℚ ℚ :=
  c.exec ratPrims ratGen ratLib (defaultMethods ratPrims) defaultC linearFun onesFun h

/-- `oneRelation` and an array of three zeros -/
def zeros118 : Heap ℚ ℚ := { oneRelation with yarrs := oneRelation.yarrs ++ [[0, 0, 0]] }

/-- the axis 0 is `[0, 1, 2]`, the array 1 is all zero: the call makes its first entry 1, and the relation is on axis 0 -/
example : zeros118.yarrs[1]? = some [0, 0, 0] ∧
    (exec118 (.mSequence (.axis 0) (some 1) false) zeros118).1 = .ok (some 1) ∧
    (exec118 (.mSequence (.axis 0) (some 1) false) zeros118).2.yarrs[1]? = some [1, 0, 0] ∧
    partsAt (exec118 (.mSequence (.axis 0) (some 1) false) zeros118).2 1 = some (.relation, 0, 2) ∧
    partsAt (exec118 (.mSequence (.axis 0) (some 1) true) zeros118).2 1 = some (.relation, 1, 2) ∧
    dataAt ratPrims (exec118 (.mSequence (.axis 0) (some 1) true) zeros118).2 1 =
      .ok (some [0, 1, 2, 3, 4, 5], some [1, 0, 0, 1, 0, 0]) := by decide +kernel

/-- an array that is not all zero is left as it is; the relation 0 shares the array and keeps its data -/
example : (exec118 (.mSequence (.axis 0) (some 0) false) oneRelation).2.yarrs[0]? = some [1, 2, 3] ∧
    dataAt ratPrims (exec118 (.mSequence (.axis 0) (some 0) false) oneRelation).2 1 = .ok (some [0, 1, 2], some [1, 2, 3]) := by
  decide +kernel

/-- three periods make a new relation; one period gives the object 0 back -/
example : dataAt ratPrims (exec118 (.zinger 0 3) oneRelation).2 ((exec118 (.zinger 0 3) oneRelation).1.toOption.join.getD 0) =
      .ok (some [0, 1, 2, 3, 4, 5, 6], some [2, 4, 7, 2, 4, 2, 3]) ∧
    (exec118 (.zinger 0 1) oneRelation).1 = .ok (some 0) ∧
    dataAt ratPrims (exec118 (.zinger 0 3) oneRelation).2 0 = .ok (some [0, 1, 2], some [1, 2, 3]) := by decide +kernel

/-- a linear sweep on axis 0, then its end is moved: the relation 0 on that axis no longer fits its samples -/
example : ((exec118 (.linear (.axis 0) 1 5 none) oneRelation).1.toOption.join.bind fun s =>
      (partsAt (exec118 (.linear (.axis 0) 1 5 none) oneRelation).2 s).map fun p => (p.1, p.2.1)) = some (.sweep, 0) ∧
    (let r := exec118 (.linear (.axis 0) 1 5 none) oneRelation
     dataAt ratPrims (relSetStop (r.1.toOption.join.getD 99) 4 r.2).2 0 = .error (.notEqual 5 3)) := by decide +kernel

/-- a conversion method that takes times, frequencies and amplitudes from the spectrum -/
def convert118 (s : Loc) : HM ℚ ℚ (List ℚ × List ℚ × List ℚ) := do
  let o ← getRel s
  let x ← axisValues ratPrims o.x
  let y ← getY o.y
  pure (x, x, y)

theorem good_convert118 (time : HTime ℚ) (data : AprArg ℚ) (tp : Option ℚ) :
    (LibCall.dwell convert118 time data tp : LibCall ℚ ℚ).Good ratPrims := fun _ =>
  (safe_getRel _).bind fun _ => (safe_axisValues _).bind fun _ => (safe_getY _).bind fun _ => safe_pure _

/-- a signal of six samples -/
def six118 : Heap ℚ ℚ :=
  runSteps ratPrims (defaultMethods ratPrims) defaultC
    [.call (.axisNew 0 5 1), .call (.construct .signal (.axis 0) (.list [1, 4, 2, 0, 3, 5]))] (emptyHeap ℚ ℚ)

/-- class, axis object and y array of the result -/
def parts118 (c : LibCall ℚ ℚ) (h : Heap ℚ ℚ) : Option (Cls × Loc × Loc) :=
  match exec118 c h with
  | (.ok (some l), h') => partsAt h' l
  | _ => none

/-- its data -/
def data118 (c : LibCall ℚ ℚ) (h : Heap ℚ ℚ) : Option (List ℚ × List ℚ) :=
  match exec118 c h with
  | (.ok (some l), h') =>
    match dataAt ratPrims h' l with
    | .ok (some x, some y) => some (x, y)
    | _ => none
  | _ => none

/-- a code as a list: the sweep made of the pieces; its axis 8 and its array 18 are new -/
example : parts118 (.segments (.list [1, -1]) 0) oneRelation = some (.sweep, 8, 18) ∧
    data118 (.segments (.list [1, -1]) 0) oneRelation = some ([0, 1, 2, 3, 4, 5], [1, 2, 3, -1, -2, -3]) ∧
    data118 (.convolution (.list [1, -1]) 0) oneRelation = some ([-2, -1, 0, 1, 2], [0, 0, 0, 2, 0]) := by
  refine ⟨?_, ?_, ?_⟩ <;> decide +kernel

/-- the corrections: without limits, with the loop running to its end, cut off, and stopped by its limit -/
example : parts118 (.correctSweep halves 0 (some 1)) six118 = some (.signal, 11, 21) ∧
    data118 (.correctSweep halves 0 (some 1)) six118 = some ([3, 4], [5/8, 11/8]) ∧
    data118 (.correction halves 0 2 false none 1 0) six118 = some ([3, 4], [5/8, 11/8]) ∧
    data118 (.correction halves 0 2 true none 1 5) six118 = some ([3, 4], [7/8, 5/16]) ∧
    data118 (.correction halves 0 2 true none 1 1) six118 = none ∧
    data118 (.correction halves 0 2 true (some 1) 1 3) six118 = some ([3, 4], [7/4, 5/8]) := by
  refine ⟨?_, ?_, ?_, ?_, ?_, ?_⟩ <;> decide +kernel

/-- the classes: a zinger code of a signal is a signal and of a relation a relation, a correction of a relation is a signal -/
example : (parts118 (.zinger 0 3) six118).map Prod.fst = some .signal ∧ (parts118 (.zinger 0 3) oneRelation).map Prod.fst = some .relation ∧
    (parts118 (.convolution (.list [1, -1]) 0) oneRelation).map Prod.fst = some .sweep ∧
    (parts118 (.correctSweep halves 0 none) { six118 with rels := six118.rels.map fun o => { o with cls := .relation } }).map Prod.fst =
      some .signal := by
  refine ⟨?_, ?_, ?_, ?_⟩ <;> decide +kernel

/-- a dwell sweep on axis 0 from the signal 0, which a conversion method turns into descriptions: a new sweep on a new axis, without an
a-priori signal -/
example : parts118 (.dwell convert118 (.axis 0) (.obj 0) none) six118 = some (.sweep, 11, 45) ∧
    (match exec118 (.dwell convert118 (.axis 0) (.obj 0) none) six118 with
      | (.ok (some l), h') => (h'.rels[l]?).map RelObj.aPrior
      | _ => none) = some none := by
  refine ⟨?_, ?_⟩ <;> decide +kernel

end SweepDesign
