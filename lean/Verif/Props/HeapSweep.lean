import Verif.Heap.Sweep
import Verif.Heap.ExactSweep

/-!
# C56: a calculated sweep shares its axis with its descriptions and its generator
-/

set_option linter.unusedSectionVars false

namespace SweepDesign

open Mem Spec HM

variable {K V : Type} {P : Prims K V} {M : Methods K V} {C : ConvMethods K V} {G : GenPrims K V}

/-- `s` is a sweep with `frequency_time` object `f` and `amplitude_time` object `a`, all three on the axis object `t` -/
structure Spec.SweepOn (h : Heap K V) (s f a t : Loc) : Prop where
  sweep : ∃ o, h.rels[s]? = some o ∧ o.cls = .sweep ∧ o.x = t ∧ o.freqTime = some f ∧ o.ampTime = some a
  freq : ∃ o, h.rels[f]? = some o ∧ o.x = t
  amp : ∃ o, h.rels[a]? = some o ∧ o.x = t
  axis : ∃ x, h.axes[t]? = some x

/-- the assignments to an axis through one of the relations on it -/
inductive Spec.Assign (K : Type)
  | start (v : K)
  | stop (v : K)
  | sample (v : K)

/-- `r.start = v`, `r.end = v`, `r.sample = v` -/
def Spec.assignTo (r : Loc) : Spec.Assign K → HM K V Unit
  | .start v => relSetStart r v
  | .stop v => relSetStop r v
  | .sample v => relSetSample r v

/-- the three fields after the assignment -/
def Spec.Assign.apply : Spec.Assign K → Axis K → Axis K
  | .start v, x => ⟨v, x.stop, x.sample⟩
  | .stop v, x => ⟨x.start, v, x.sample⟩
  | .sample v, x => ⟨x.start, x.stop, v⟩

theorem relInit_cls {c : Cls} {ax : Loc} {y : HYArg V} {cp : Option Loc} {h h' : Heap K V} {l : Loc}
    (hh : relInit P M c (.axis ax) y cp h = (.ok l, h')) :
    ∃ o, h'.rels[l]? = some o ∧ o.cls = c ∧ o.x = ax ∧ ∃ x, h'.axes[ax]? = some x := by
  unfold relInit at hh
  obtain ⟨g, h1, hg, hh1⟩ := bind_ok.1 hh
  obtain ⟨ly, h2, hly, hh2⟩ := bind_ok.1 hh1
  obtain ⟨o, p1, -, p3, -, p5, -⟩ := ownXY_initAxis _ _ _ _ _ _ _ _ hh2
  refine ⟨o, p1, ?_, p3, _, List.getElem?_eq_getElem p5⟩
  unfold initAxis at hh2
  obtain ⟨n, h3, -, hh3⟩ := bind_ok.1 hh2
  obtain ⟨v, h4, -, hh4⟩ := bind_ok.1 hh3
  split at hh4
  · simp [raise] at hh4
  · simp only [newRel, Prod.mk.injEq, Except.ok.injEq] at hh4
    obtain ⟨rfl, rfl⟩ := hh4
    simp only [List.getElem?_concat_length, Option.some.injEq] at p1
    rw [← p1]; rfl

theorem calculate_on (hM : GoodMethods P M) (hG : GoodGen P G) {gen : Gen K V} {tht0 : V} {t s : Loc} {h h' : Heap K V}
    (hh : calculate P G M gen tht0 t h = (.ok s, h')) :
    ∃ f a, SweepOn h' s f a t ∧ h.rels.length ≤ s ∧ h.rels.length ≤ f ∧ h.rels.length ≤ a ∧ f ≠ a ∧ f ≠ s ∧ a ≠ s := by
  unfold calculate at hh
  obtain ⟨v, h1, e1, hh1⟩ := bind_ok.1 hh
  obtain ⟨w, h2, e2, hh2⟩ := bind_ok.1 hh1
  obtain ⟨ft, h3, e3, hh3⟩ := bind_ok.1 hh2
  obtain ⟨amp, h4, e4, hh4⟩ := bind_ok.1 hh3
  obtain ⟨a, h5, e5, hh5⟩ := bind_ok.1 hh4
  obtain ⟨th, h6, e6, hh6⟩ := bind_ok.1 hh5
  obtain ⟨y, h7, e7, hh7⟩ := bind_ok.1 hh6
  obtain ⟨at', h8, e8, hh8⟩ := bind_ok.1 hh7
  obtain ⟨s', h9, e9, hh9⟩ := bind_ok.1 hh8
  have hs := sweepInit_ret hh9
  subst hs
  let X : Ex := ⟨∅, ∅, gen.ys⟩
  have hf : gen.freq.ys ⊆ X.ys := Set.subset_union_left
  have ha : gen.amp.ys ⊆ X.ys := Set.subset_union_right
  have w1 : Le X h h2 := (le_of_run (safe_firstFreq hM gen t hf) e1).trans (le_of_run (safe_descOn hM _ _ hf) e2)
  have w4 : Le X h3 h7 := ((le_of_run (safe_descOn hM _ _ ha) e4).trans (le_of_run (P := P) (safe_getY _) e5)).trans
    ((le_of_run (safe_thtOn hM hG _ _ _) e6).trans (le_of_run (P := P) (safe_lift _) e7))
  have w3 : Le X h2 h3 := le_of_run (safe_relInit hM _ _ _ _) e3
  have w8 : Le X h7 h8 := le_of_run (safe_relInit hM _ _ _ _) e8
  have w9 : Le X h8 h9 := le_of_run (safe_relInit hM _ _ _ _) e9
  have w10 : Le (X.addR s) h9 h' := le_of_run (safe_sweepInit hM (Set.mem_insert _ _) _ _ _) hh9
  obtain ⟨of, f1, -, f3, -⟩ := relInit_cls e3
  obtain ⟨oa, a1, -, a3, -⟩ := relInit_cls e8
  obtain ⟨os, s1, s2, s3, x, hx⟩ := relInit_cls e9
  have n3 := fresh_relInit hM _ _ _ _ _ _ _ e3
  have n8 := fresh_relInit hM _ _ _ _ _ _ _ e8
  have n9 := fresh_relInit hM _ _ _ _ _ _ _ e9
  have l3 := (List.getElem?_eq_some_iff.1 f1).1
  have l8 := (List.getElem?_eq_some_iff.1 a1).1
  obtain ⟨of1, f4, f5, -⟩ := ((w4.trans w8).trans w9).rels _ _ f1
  obtain ⟨of2, f6, f7, -⟩ := w10.rels _ _ f4
  obtain ⟨oa1, a4, a5, -⟩ := w9.rels _ _ a1
  obtain ⟨oa2, a6, a7, -⟩ := w10.rels _ _ a4
  obtain ⟨os1, s4, s5, -⟩ := w10.rels _ _ s1
  obtain ⟨x', hx', -⟩ := w10.axes _ _ hx
  obtain ⟨o, o1, o2, o3, -⟩ := sweepInit_desc hM hh9
  rw [s4] at o1
  simp only [Option.some.injEq] at o1
  subst o1
  have r1 := w1.rels_len
  have r3 := w3.rels_len
  have r4 := w4.rels_len
  have r8 := w8.rels_len
  refine ⟨ft, at', ⟨⟨_, s4, s5.cls.trans s2, s5.x.trans s3, o2, o3⟩, ⟨_, f6, (f7.x.trans f5.x).trans f3⟩,
    ⟨_, a6, (a7.x.trans a5.x).trans a3⟩, ⟨_, hx'⟩⟩, by omega, by omega, by omega, Nat.ne_of_lt (by omega), Nat.ne_of_lt (by omega), Nat.ne_of_lt (by omega)⟩

theorem initAxis_on {c : Cls} {g : ConfigIds} {ax ly : Loc} {cp : Option Loc} {h h' : Heap K V} {l : Loc}
    (hh : initAxis P c g ax ly cp h = (.ok l, h')) : ∃ o, h'.rels[l]? = some o ∧ o.x = ax := by
  obtain ⟨o, p1, -, p3, -⟩ := ownXY_initAxis _ _ _ _ _ _ _ _ hh
  exact ⟨o, p1, p3⟩

theorem defGetFt_on {s l : Loc} {h h' : Heap K V} {o : RelObj} (ho : h.rels[s]? = some o)
    (hh : defGetFt P s h = (.ok l, h')) : ∃ o', h'.rels[l]? = some o' ∧ o'.x = o.x := by
  unfold defGetFt at hh
  rw [bind_of_ok (getRel_run ho)] at hh
  obtain ⟨_, _, _, hh1⟩ := bind_ok.1 hh
  obtain ⟨_, _, _, hh2⟩ := bind_ok.1 hh1
  obtain ⟨_, _, _, hh3⟩ := bind_ok.1 hh2
  obtain ⟨_, _, _, hh4⟩ := bind_ok.1 hh3
  obtain ⟨_, _, _, hh5⟩ := bind_ok.1 hh4
  exact initAxis_on hh5

theorem defGetAt_on {s l : Loc} {h h' : Heap K V} {o : RelObj} (ho : h.rels[s]? = some o)
    (hh : defGetAt P s h = (.ok l, h')) : ∃ o', h'.rels[l]? = some o' ∧ o'.x = o.x := by
  unfold defGetAt at hh
  rw [bind_of_ok (getRel_run ho)] at hh
  obtain ⟨_, _, _, hh1⟩ := bind_ok.1 hh
  obtain ⟨_, _, _, hh3⟩ := bind_ok.1 hh1
  obtain ⟨_, _, _, hh4⟩ := bind_ok.1 hh3
  obtain ⟨_, _, _, hh5⟩ := bind_ok.1 hh4
  exact initAxis_on hh5

theorem getElem?_set_fix {l : List RelObj} {i j : ℕ} {r r' o : RelObj} (hr : l[i]? = some r) (ho : l[j]? = some o)
    (hx : r'.x = r.x) : ∃ o', (l.set i r')[j]? = some o' ∧ o'.x = o.x := by
  by_cases hij : i = j
  · subst hij
    rw [hr] at ho; simp only [Option.some.injEq] at ho; subst ho
    exact ⟨r', set_getElem?_self hr, hx⟩
  · exact ⟨o, by rw [set_getElem?_of_ne hij]; exact ho, rfl⟩

theorem sweepInit_default {l l' : Loc} {ap : Option Loc} {h h' : Heap K V} {o : RelObj} (ho : h.rels[l]? = some o)
    (hh : sweepInit (defaultMethods P) l none none ap h = (.ok l', h')) :
    ∃ o' f a of oa, h'.rels[l]? = some o' ∧ o'.freqTime = some f ∧ o'.ampTime = some a ∧ o'.aPrior = ap ∧
      h'.rels[f]? = some of ∧ of.x = o.x ∧ h'.rels[a]? = some oa ∧ oa.x = o.x ∧ o'.cls = o.cls ∧ o'.x = o.x := by
  have hM := good_defaultMethods (P := P)
  unfold sweepInit at hh
  obtain ⟨g, _, hg, hh1⟩ := bind_ok.1 hh
  simp only [config, Prod.mk.injEq, Except.ok.injEq] at hg
  obtain ⟨-, rfl⟩ := hg
  obtain ⟨f, h2, hf, hh2⟩ := bind_ok.1 hh1
  obtain ⟨of, f1, f2⟩ := defGetFt_on ho hf
  obtain ⟨o1, ho1, e1, -⟩ := (le_of_run (hM.getFt 0 l) hf).rels _ _ ho
  rw [bind_of_ok (getRel_run ho1), bind_of_ok putRel_run] at hh2
  have ho2 := set_getElem?_self (b := { o1 with freqTime := some f }) ho1
  obtain ⟨of', f3, f4⟩ := getElem?_set_fix (r' := { o1 with freqTime := some f }) ho1 f1 rfl
  obtain ⟨a, h3, ha, hh3⟩ := bind_ok.1 hh2
  obtain ⟨oa, a1, a2⟩ := defGetAt_on ho2 ha
  have w3 := le_of_run (hM.getAt 0 l) ha
  obtain ⟨o3, ho3, e3, m3⟩ := w3.rels _ _ ho2
  obtain ⟨of'', f5, e5, -⟩ := w3.rels _ _ f3
  rw [bind_of_ok (getRel_run ho3), bind_of_ok putRel_run] at hh3
  have ho4 := set_getElem?_self (b := { o3 with ampTime := some a }) ho3
  obtain ⟨of3, f6, f7⟩ := getElem?_set_fix (r' := { o3 with ampTime := some a }) ho3 f5 rfl
  obtain ⟨oa1, a3, a4⟩ := getElem?_set_fix (r' := { o3 with ampTime := some a }) ho3 a1 rfl
  obtain ⟨_, h4, hs, hh4⟩ := bind_ok.1 hh3
  have w4 := le_of_run (hM.spectrogram 0 l) hs
  obtain ⟨o5, ho5, e6, m5⟩ := w4.rels _ _ ho4
  obtain ⟨of4, f8, e8, -⟩ := w4.rels _ _ f6
  obtain ⟨oa2, a5, e9, -⟩ := w4.rels _ _ a3
  rw [bind_of_ok (getRel_run ho5), bind_of_ok putRel_run] at hh4
  simp only [pure_run, Prod.mk.injEq, Except.ok.injEq] at hh4
  obtain ⟨-, rfl⟩ := hh4
  obtain ⟨of5, f9, f10⟩ := getElem?_set_fix (r' := { o5 with aPrior := ap }) ho5 f8 rfl
  obtain ⟨oa3, a6, a7⟩ := getElem?_set_fix (r' := { o5 with aPrior := ap }) ho5 a5 rfl
  refine ⟨_, f, a, of5, oa3, set_getElem?_self ho5, ?_, ?_, rfl, f9, ?_, a6, ?_, ?_, ?_⟩
  · exact (m5 (Set.notMem_empty _)).freqTime _ ((m3 (Set.notMem_empty _)).freqTime _ rfl)
  · exact (m5 (Set.notMem_empty _)).ampTime _ rfl
  · rw [f10, e8.x, f7, e5.x, f4, f2]
  · rw [a7, e9.x, a4, a2]; exact e1.x
  · show o5.cls = _
    rw [e6.cls]; show o3.cls = _
    rw [e3.cls]; exact e1.cls
  · show o5.x = _
    rw [e6.x]; show o3.x = _
    rw [e3.x]; exact e1.x

/-- **C56** for a sweep whose descriptions are derived by the default methods: they are on the axis object of the sweep. -/
theorem C56_derived_descriptions (t : Loc) (y : HYArg V) (s : Loc) (h h' : Heap K V)
    (hh : construct P (defaultMethods P) .sweep (.axis t) y none h = (.ok s, h')) : ∃ f a, SweepOn h' s f a t := by
  unfold construct at hh
  obtain ⟨l, h1, e1, hh1⟩ := bind_ok.1 hh
  rw [if_pos rfl] at hh1
  have hs := sweepInit_ret hh1
  subst hs
  obtain ⟨o, o1, o2, o3, x, hx⟩ := relInit_cls e1
  obtain ⟨o', f, a, of, oa, p1, p2, p3, -, p4, p5, p6, p7, p8, p9⟩ := sweepInit_default o1 hh1
  have w := le_of_run (safe_sweepInit (X := (∅ : Ex).addR s) (good_defaultMethods (P := P)) (Set.mem_insert _ _) _ _ _) hh1
  obtain ⟨x', hx', -⟩ := w.axes _ _ hx
  exact ⟨f, a, ⟨o', p1, p8.trans o2, p9.trans o3, p2, p3⟩, ⟨of, p4, p5.trans o3⟩, ⟨oa, p6, p7.trans o3⟩, ⟨x', hx'⟩⟩

/-- **C56** A call without a time: the sweep, its `frequency_time` and its `amplitude_time` are three new relations on one
axis object, and that object is the stored time of the generator. -/
theorem C56_stored_time (hM : GoodMethods P M) (hG : GoodGen P G) (gen : Gen K V) (t : Loc) (ht : gen.time = some t)
    (tht0 : V) (s : Loc) (h h' : Heap K V) (hh : genCall P G M gen .none tht0 h = (.ok s, h')) :
    ∃ f a, SweepOn h' s f a t ∧ h.rels.length ≤ s ∧ h.rels.length ≤ f ∧ h.rels.length ≤ a ∧ f ≠ a ∧ f ≠ s ∧ a ≠ s := by
  unfold genCall calcTime at hh
  rw [ht] at hh
  rw [bind_of_ok (pure_run _ _)] at hh
  exact calculate_on hM hG hh

/-- **C56** A call with an axis object: the three are on that object. -/
theorem C56_given_axis (hM : GoodMethods P M) (hG : GoodGen P G) (gen : Gen K V) (t : Loc)
    (tht0 : V) (s : Loc) (h h' : Heap K V) (hh : genCall P G M gen (.axis t) tht0 h = (.ok s, h')) :
    ∃ f a, SweepOn h' s f a t := by
  unfold genCall calcTime at hh
  rw [bind_of_ok (pure_run _ _)] at hh
  obtain ⟨f, a, h1, -⟩ := calculate_on hM hG hh
  exact ⟨f, a, h1⟩

/-- **C56** A call with an array: the three are on one new axis object, so not on the stored time. -/
theorem C56_given_array (hM : GoodMethods P M) (hF : FreshMethods M) (hG : GoodGen P G) (gen : Gen K V) (x : List K)
    (isFloat : Bool) (tht0 : V) (s : Loc) (h h' : Heap K V)
    (hh : genCall P G M gen (.array x isFloat) tht0 h = (.ok s, h')) :
    ∃ f a t, SweepOn h' s f a t ∧ h.axes.length ≤ t := by
  unfold genCall at hh
  obtain ⟨t, h1, e1, hh1⟩ := bind_ok.1 hh
  obtain ⟨f, a, p, -⟩ := calculate_on hM hG hh1
  exact ⟨f, a, t, p, hF.fromArray _ _ _ _ _ _ _ e1⟩

/-- **C56** The stored time is the axis object the generator was constructed with; without a time nothing is stored, whatever
the descriptions are. -/
theorem C56_constructor (linear ones : PyFun K V) (f a : DescArg K V) (gen : Gen K V) (h h' : Heap K V)
    (time : HTime K) (hh : genInit P G M linear ones time f a h = (.ok gen, h')) :
    (∀ t, time = .axis t → gen.time = some t) ∧ (time = .none → gen.time = none) ∧
    (∀ x fl, time = .array x fl → FreshMethods M → ∃ t, gen.time = some t ∧ h.axes.length ≤ t) := by
  unfold genInit at hh
  obtain ⟨g, h1, hg, hh1⟩ := bind_ok.1 hh
  simp only [config, Prod.mk.injEq, Except.ok.injEq] at hg
  obtain ⟨-, rfl⟩ := hg
  obtain ⟨t, h2, e2, hh2⟩ := bind_ok.1 hh1
  obtain ⟨fd, h3, e3, hh3⟩ := bind_ok.1 hh2
  obtain ⟨ad, h4, e4, hh4⟩ := bind_ok.1 hh3
  simp only [pure_run, Prod.mk.injEq, Except.ok.injEq] at hh4
  obtain ⟨rfl, -⟩ := hh4
  refine ⟨?_, ?_, ?_⟩
  · rintro t rfl
    simp only [genTime, pure_run, Prod.mk.injEq, Except.ok.injEq] at e2
    exact e2.1.symm
  · rintro rfl
    simp only [genTime, pure_run, Prod.mk.injEq, Except.ok.injEq] at e2
    exact e2.1.symm
  · rintro x fl rfl hF
    obtain ⟨l, h5, e5, e6⟩ := bind_ok.1 e2
    simp only [pure_run, Prod.mk.injEq, Except.ok.injEq] at e6
    exact ⟨l, e6.1.symm, hF.fromArray _ _ _ _ _ _ _ e5⟩

theorem setter_fields {t : Loc} {h : Heap K V} {x : AxisObj K} (hx : h.axes[t]? = some x) (q : Assign K) {r : Loc} {o : RelObj}
    (ho : h.rels[r]? = some o) (ht : o.x = t) :
    ∃ x', assignTo r q h = (.ok (), { h with axes := h.axes.set t x' }) ∧ fields x' = q.apply (fields x) := by
  subst ht
  cases q with
  | start v =>
    refine ⟨{ x with start := v, arr := none, actual := none }, ?_, rfl⟩
    show relSetStart r v h = _
    unfold relSetStart axisSetStart
    rw [bind_of_ok (getRel_run ho), bind_of_ok (getAxis_run hx)]
    rfl
  | stop v =>
    refine ⟨{ x with stop := v, arr := none, actual := none }, ?_, rfl⟩
    show relSetStop r v h = _
    unfold relSetStop axisSetStop
    rw [bind_of_ok (getRel_run ho), bind_of_ok (getAxis_run hx)]
    rfl
  | sample v =>
    refine ⟨{ x with sample := v, arr := none, actual := none }, ?_, rfl⟩
    show relSetSample r v h = _
    unfold relSetSample axisSetSample
    rw [bind_of_ok (getRel_run ho), bind_of_ok (getAxis_run hx)]
    rfl

theorem coh_assignTo {r : Loc} (q : Assign K) {h : Heap K V} (c : Coh P h) : Coh P (assignTo r q h).2 := by
  have key : ∀ m : Loc → HM K V Unit, (∀ l, Safe P ⟨{l}, ∅, ∅⟩ (m l)) → Coh P ((getRel r >>= fun o => m o.x) h).2 := by
    intro m hm
    rcases ho : h.rels[r]? with _ | o
    · rw [bind_of_error (getRel_none ho)]; exact c
    · rw [bind_of_ok (getRel_run ho)]; exact (hm o.x h).2 c
  cases q with
  | start v => exact key _ fun l => safe_axisSetStart v rfl
  | stop v => exact key _ fun l => safe_axisSetStop v rfl
  | sample v => exact key _ fun l => safe_axisSetSample v rfl

/-- **C56** An assignment through any of the three is an assignment to all of them: it succeeds, the three stay on the one
axis, the fields of that axis change accordingly, and the x array read through any of them is the one computed from the new
fields. -/
theorem C56_assignment (h : Heap K V) (hc : Coh P h) (s f a t : Loc) (p : SweepOn h s f a t) (x : Axis K)
    (hx : fieldsAt h t = some x) (r : Loc) (hr : r = s ∨ r = f ∨ r = a) (q : Assign K) :
    (assignTo r q h).1 = .ok () ∧
    SweepOn (assignTo r q h).2 s f a t ∧
    fieldsAt (assignTo r q h).2 t = some (q.apply x) ∧
    arrayAt P (assignTo r q h).2 t = P.mkArr (q.apply x).start (q.apply x).stop (q.apply x).sample := by
  have ho : ∃ o, h.rels[r]? = some o ∧ o.x = t := by
    rcases hr with rfl | rfl | rfl
    · obtain ⟨o, h1, -, h2, -⟩ := p.sweep; exact ⟨o, h1, h2⟩
    · exact p.freq
    · exact p.amp
  obtain ⟨o, ho, hot⟩ := ho
  obtain ⟨b, hb, rfl⟩ := Option.map_eq_some_iff.1 hx
  obtain ⟨x', e1, e2⟩ := setter_fields hb q ho hot
  have hcc := coh_assignTo (r := r) q hc
  rw [e1] at hcc ⊢
  have hx' : ({ h with axes := h.axes.set t x' } : Heap K V).axes[t]? = some x' := set_getElem?_self hb
  refine ⟨rfl, ⟨p.sweep, p.freq, p.amp, ⟨_, hx'⟩⟩, ?_, ?_⟩
  · rw [fieldsAt, hx']; simp [e2]
  · rw [arrayAt, axisValues_run hcc hx', ← e2]; rfl

/-- **C56** Later calls: take a sweep calculated on the stored time, assign through it or one of its descriptions, then do
anything that does not assign to that axis or write into cached arrays; a call without a time is then calculated on the
assigned axis. -/
theorem C56_later_call (hM : GoodMethods P M) (hC : GoodConvMethods P C) (hG : GoodGen P G) (gen : Gen K V) (t : Loc)
    (ht : gen.time = some t) (tht0 tht1 : V) (s s' : Loc) (h h1 h2 : Heap K V) (hc : Coh P h)
    (hh : genCall P G M gen .none tht0 h = (.ok s, h1)) (x : Axis K) (hx : fieldsAt h t = some x) :
    ∃ f a, SweepOn h1 s f a t ∧ fieldsAt h1 t = some x ∧
      ∀ (r : Loc), r = s ∨ r = f ∨ r = a → ∀ (q : Assign K) (A Y : Set Loc) (ss : List (Step K V)), t ∉ A →
        (∀ s ∈ ss, within A Y ∅ s) →
        genCall P G M gen .none tht1 (runSteps P M C ss (assignTo r q h1).2) = (.ok s', h2) →
        ∃ f' a', SweepOn h2 s' f' a' t ∧ fieldsAt h2 t = some (q.apply x) ∧
          arrayAt P h2 t = P.mkArr (q.apply x).start (q.apply x).stop (q.apply x).sample := by
  obtain ⟨f, a, p, -⟩ := C56_stored_time hM hG gen t ht tht0 s h h1 hh
  have keepAx : ∀ {A Y : Set Loc} {g g' : Heap K V}, Keep A Y g g' → t ∉ A → ∀ {x : Axis K}, fieldsAt g t = some x →
      fieldsAt g' t = some x := by
    intro A Y g g' w hA x hx
    obtain ⟨b, hb, rfl⟩ := Option.map_eq_some_iff.1 hx
    obtain ⟨b', hb', e⟩ := w.axes _ _ hb hA
    rw [fieldsAt, hb']; simp [e]
  have sg := safe_genCall (X := ⟨∅, ∅, gen.ys⟩) hM hG gen .none tht0 (Set.Subset.refl _)
  have hx1 := keepAx (le_of_run sg hh).keep (Set.notMem_empty _) hx
  have c1 := coh_of_run sg hh hc
  refine ⟨f, a, p, hx1, ?_⟩
  intro r hr q A Y ss hA hs hh2
  obtain ⟨-, -, hx2, -⟩ := C56_assignment h1 c1 s f a t p x hx1 r hr q
  obtain ⟨k, c3⟩ := steps_keep hM hC ss hs _ (fun j hj => absurd hj (Set.notMem_empty _)) (coh_assignTo (r := r) q c1)
  have hx3 := keepAx k hA hx2
  have sg2 := safe_genCall (X := ⟨∅, ∅, gen.ys⟩) hM hG gen .none tht1 (Set.Subset.refl _)
  obtain ⟨f', a', p', -⟩ := C56_stored_time hM hG gen t ht tht1 s' _ h2 hh2
  have hx4 := keepAx (le_of_run sg2 hh2).keep (Set.notMem_empty _) hx3
  refine ⟨f', a', p', hx4, ?_⟩
  obtain ⟨b, hb, hbx⟩ := Option.map_eq_some_iff.1 hx4
  rw [arrayAt, axisValues_run (coh_of_run sg2 hh2 c3) hb, ← hbx]; rfl

/-! ## a-priori generators -/

theorem setAprior_run {s : Loc} {ap : Option Loc} {h h' : Heap K V} {u : Unit} (hh : setAprior s ap h = (.ok u, h')) :
    ∃ o, h.rels[s]? = some o ∧ h' = { h with rels := h.rels.set s { o with aPrior := ap } } := by
  unfold setAprior at hh
  obtain ⟨o, h1, e1, hh1⟩ := bind_ok.1 hh
  obtain ⟨ho, rfl⟩ := getRel_ok.1 e1
  rw [putRel_run] at hh1
  simp only [Prod.mk.injEq, true_and] at hh1
  exact ⟨o, ho, hh1.symm⟩

/-- **C56** An a-priori sweep that is not normalised is on the stored time as well, with its descriptions, and carries the
a-priori signal. -/
theorem C56_apriori_raw (hM : GoodMethods P M) (hG : GoodGen P G) (gen : Gen K V) (ap t : Loc) (ht : gen.time = some t)
    (tht0 : V) (s : Loc) (h h' : Heap K V) (hh : aprioriCall P G M gen ap .none tht0 false h = (.ok s, h')) :
    ∃ f a, SweepOn h' s f a t ∧ (h'.rels[s]?).map RelObj.aPrior = some (some ap) := by
  unfold aprioriCall at hh
  obtain ⟨s1, h1, e1, hh1⟩ := bind_ok.1 hh
  obtain ⟨f, a, p, -, -, -, -, n1, n2⟩ := C56_stored_time hM hG gen t ht tht0 s1 h h1 e1
  rw [if_neg (by simp)] at hh1
  rw [bind_of_ok (pure_run _ _)] at hh1
  obtain ⟨u, h2, e2, hh2⟩ := bind_ok.1 hh1
  simp only [pure_run, Prod.mk.injEq, Except.ok.injEq] at hh2
  obtain ⟨rfl, rfl⟩ := hh2
  obtain ⟨o, ho, rfl⟩ := setAprior_run e2
  obtain ⟨o', ho', q1, q2, q3, q4⟩ := p.sweep
  rw [ho'] at ho; simp only [Option.some.injEq] at ho; subst ho
  refine ⟨f, a, ⟨⟨_, set_getElem?_self ho', q1, q2, q3, q4⟩, ?_, ?_, p.axis⟩, ?_⟩
  · obtain ⟨of, f1, f2⟩ := p.freq
    exact ⟨of, by simp only []; rw [set_getElem?_of_ne (Ne.symm n1)]; exact f1, f2⟩
  · obtain ⟨of, f1, f2⟩ := p.amp
    exact ⟨of, by simp only []; rw [set_getElem?_of_ne (Ne.symm n2)]; exact f1, f2⟩
  · simp only []
    rw [set_getElem?_self ho']; rfl

/-- **C56** does not hold of a normalised a-priori sweep: it is on a new axis object, so the generator's stored time is not
touched by assignments to it. -/
theorem C56_apriori_normalised (hM : GoodMethods P M) (hG : GoodGen P G) (gen : Gen K V) (ap : Loc)
    (time : HTime K) (tht0 : V) (s : Loc) (h h' : Heap K V)
    (hh : aprioriCall P G M gen ap time tht0 true h = (.ok s, h')) :
    ∃ o, h'.rels[s]? = some o ∧ h.axes.length ≤ o.x ∧ o.aPrior = some ap := by
  unfold aprioriCall at hh
  obtain ⟨s1, h1, e1, hh1⟩ := bind_ok.1 hh
  have w1 := le_of_run (safe_genCall (X := ⟨∅, ∅, gen.ys⟩) hM hG gen time tht0 (Set.Subset.refl _)) e1
  rw [if_pos rfl] at hh1
  obtain ⟨s2, h2, e2, hh2⟩ := bind_ok.1 hh1
  unfold normalise at e2
  obtain ⟨ns, h3, e3, hh3⟩ := bind_ok.1 e2
  have w3 := le_of_run (P := P) (X := ∅) (safe_getNorm hM _) e3
  obtain ⟨na, h4, e4, hh4⟩ := bind_ok.1 hh3
  have w4 := le_of_run (P := P) (X := ∅) (safe_getNorm hM _) e4
  obtain ⟨c, h5, e5, hh5⟩ := bind_ok.1 hh4
  have w5 := le_of_run (P := P) (X := ∅) (safe_lift _) e5
  obtain ⟨o, h6, e6, hh6⟩ := bind_ok.1 hh5
  obtain ⟨ho, rfl⟩ := getRel_ok.1 e6
  have len : h.axes.length ≤ h6.axes.length :=
    w1.axes_len.trans (w3.axes_len.trans (w4.axes_len.trans w5.axes_len))
  rcases ha : o.ampTime with _ | a
  · rw [ha] at hh6; simp [raise] at hh6
  rw [ha] at hh6
  simp only [] at hh6
  obtain ⟨a', h7, e7, hh7⟩ := bind_ok.1 hh6
  have w7 := le_of_run (P := P) (X := ∅) (safe_operator hM _ _ _) e7
  obtain ⟨o2, h8, e8, hh8⟩ := bind_ok.1 hh7
  obtain ⟨ho2, rfl⟩ := getRel_ok.1 e8
  rw [bind_of_ok putRel_run] at hh8
  obtain ⟨o3, q⟩ := ownM_operator hM _ _ _ _ _ _ hh8
  obtain ⟨u, h9, e9, hh9⟩ := bind_ok.1 hh2
  simp only [pure_run, Prod.mk.injEq, Except.ok.injEq] at hh9
  obtain ⟨rfl, rfl⟩ := hh9
  obtain ⟨o4, ho4, rfl⟩ := setAprior_run e9
  have h1 := q.rel
  rw [h1] at ho4; simp only [Option.some.injEq] at ho4; subst ho4
  exact ⟨_, set_getElem?_self h1, len.trans (w7.axes_len.trans q.axis), rfl⟩

/-! ## a concrete generator -/

def ratGen : GenPrims ℚ ℚ := exactGen ratPrims ratN

theorem good_ratGen : GoodGen ratPrims ratGen := goodGen_exact _ _

def sweepHeap : Heap ℚ ℚ :=
  runSteps ratPrims (defaultMethods ratPrims) (defaultConvMethods ratPrims (defaultMethods ratPrims))
    [.call (.axisNew 0 3 1), .call (.construct .relation (.axis 0) (.list [1, 2, 3, 4]))] (emptyHeap ℚ ℚ)

/-- generator with a linear frequency and a relation as envelope, on axis 0 -/
def ratGenerator : Except Err (Gen ℚ ℚ) × Heap ℚ ℚ :=
  genInit ratPrims ratGen (defaultMethods ratPrims) linearFun onesFun (.axis 0) .absent
    (.rel 0) sweepHeap

/-- what a call leaves: the returned sweep and the heap -/
def calledSweep (setStop : Option ℚ) : Except Err (Loc × Loc) × Heap ℚ ℚ :=
  (ratGenerator.1.toOption.elim (HM.raise .typeError) fun gen => do
    let s ← genCall ratPrims ratGen (defaultMethods ratPrims) gen .none 0
    match setStop with
    | some v => do
      let o ← getRel s
      relSetStop (o.freqTime.getD 99) v
      let s' ← genCall ratPrims ratGen (defaultMethods ratPrims) gen .none 0
      pure (s, s')
    | none => pure (s, s)) ratGenerator.2

/-- sweep object 4 with descriptions 1 and 3 (object 2 is the phase relation), all on axis 0 -/
example : (calledSweep none).1.toOption = some (4, 4) ∧
    ((calledSweep none).2.rels.map fun o => (o.cls, o.x, o.freqTime, o.ampTime)) =
      [(.relation, 0, none, none), (.relation, 0, none, none), (.relation, 0, none, none), (.relation, 0, none, none),
       (.sweep, 0, some 1, some 3)] ∧
    dataAt ratPrims (calledSweep none).2 4 = .ok (some [0, 1, 2, 3], some [0, 1, 6, 18]) := by decide +kernel

/-- `sweep.frequency_time.end = 6` and a second call without a time: the second sweep has seven samples -/
example : (calledSweep (some 6)).1.toOption = some (4, 8) ∧
    dataAt ratPrims (calledSweep (some 6)).2 4 = .error (.notEqual 7 4) ∧
    dataAt ratPrims (calledSweep (some 6)).2 8 =
      .ok (some [0, 1, 2, 3, 4, 5, 6], some [0, 3 / 4, 4, 45 / 4, 24, 175 / 4, 72]) := by decide +kernel

end SweepDesign
