import Verif.Props.HeapMixed

/-!
# C87: cached counterparts are of the other kind
-/

set_option linter.unusedSectionVars false

namespace SweepDesign.Mem

open HM Spec

variable {K V : Type} {P : Prims K V} {M : Methods K V} {C : ConvMethods K V} {α β : Type} {A B : Set Loc}

/-! ## Specification -/

/-- what is cached in a signal is a spectrum and the other way round -/
def _root_.SweepDesign.Spec.Paired (h : Heap K V) : Prop := ∀ (s : Loc) (o : RelObj) (k : Loc), h.rels[s]? = some o → o.counterpart = some k →
  (SignalClass o.cls → SpectrumAt h k) ∧ (o.cls = .spectrum → SignalAt h k)

/-- methods of `Signal` are called on signals, methods of `Spectrum` on spectra -/
def _root_.SweepDesign.Spec.OwnClass (h : Heap K V) : Call K V → Prop
  | .getSpectrum r _ _ | .sgAmp r _ _ | .sgPhase r _ _ | .sgAddPhase r _ _ | .reverseSignal r _ _ _ _ => SignalAt h r
  | .getSignal r _ _ => SpectrumAt h r
  | _ => True

/-- the same for every call of a history -/
def _root_.SweepDesign.Spec.OwnClasses (P : Prims K V) (M : Methods K V) (C : ConvMethods K V) :
    List (Step K V) → Heap K V → Prop
  | [], _ => True
  | .call c :: ss, h => OwnClass h c ∧ OwnClasses P M C ss (Step.run P M C (.call c) h)
  | .edit e :: ss, h => OwnClasses P M C ss (Step.run P M C (.edit e) h)

/-! ## Machinery -/

/-- `m` keeps the classes of the objects, and counterparts of the other kind provided the objects in `A` are signals and those in
`B` spectra -/
structure Pairs (A B : Set Loc) (m : HM K V α) : Prop where
  keeps : ∀ (h : Heap K V) (l : Loc) (o : RelObj), h.rels[l]? = some o → ∃ o' : RelObj, (m h).2.rels[l]? = some o' ∧ o'.cls = o.cls
  pairs : ∀ h, Paired h → (∀ a ∈ A, SignalAt h a) → (∀ b ∈ B, SpectrumAt h b) → Paired (m h).2

theorem Pairs.signal {m : HM K V α} (hm : Pairs A B m) {h : Heap K V} {l : Loc} (hl : SignalAt h l) : SignalAt (m h).2 l := by
  obtain ⟨o, ho, hc⟩ := hl
  obtain ⟨o', ho', e⟩ := hm.keeps h l o ho
  exact ⟨o', ho', e ▸ hc⟩

theorem Pairs.spectrum {m : HM K V α} (hm : Pairs A B m) {h : Heap K V} {l : Loc} (hl : SpectrumAt h l) : SpectrumAt (m h).2 l := by
  obtain ⟨o, ho, hc⟩ := hl
  obtain ⟨o', ho', e⟩ := hm.keeps h l o ho
  exact ⟨o', ho', e ▸ hc⟩

theorem Pairs.mono {A' B' : Set Loc} {m : HM K V α} (hm : Pairs A B m) (hA : A ⊆ A') (hB : B ⊆ B') : Pairs A' B' m :=
  ⟨hm.keeps, fun h hp ha hb => hm.pairs h hp (fun a k => ha a (hA k)) (fun b k => hb b (hB k))⟩

theorem Pairs.of_empty {m : HM K V α} (hm : Pairs ∅ ∅ m) : Pairs A B m := hm.mono (Set.empty_subset _) (Set.empty_subset _)

/-- the rule for a sequence: what is known about the intermediate result may be used -/
theorem Pairs.bind_with {m : HM K V α} {f : α → HM K V β} (A' B' : α → Set Loc) (hm : Pairs A B m)
    (hr : ∀ h a h', Paired h → (∀ a ∈ A, SignalAt h a) → (∀ b ∈ B, SpectrumAt h b) → m h = (.ok a, h') →
      (∀ x ∈ A' a, SignalAt h' x) ∧ ∀ x ∈ B' a, SpectrumAt h' x)
    (hf : ∀ a, Pairs (A ∪ A' a) (B ∪ B' a) (f a)) : Pairs A B (m >>= f) := by
  constructor
  · intro h l o ho
    obtain ⟨o1, k, e1⟩ := hm.keeps h l o ho
    rcases hk : m h with ⟨e | a, h1⟩
    · rw [bind_of_error hk]; rw [hk] at k; exact ⟨o1, k, e1⟩
    · rw [bind_of_ok hk]; rw [hk] at k
      obtain ⟨o2, k2, e2⟩ := (hf a).keeps h1 l o1 k
      exact ⟨o2, k2, e2.trans e1⟩
  · intro h hp hA hB
    have k := hm.pairs h hp hA hB
    rcases hk : m h with ⟨e | a, h1⟩
    · rw [bind_of_error hk]; rw [hk] at k; exact k
    · rw [bind_of_ok hk]; rw [hk] at k
      obtain ⟨r1, r2⟩ := hr h a h1 hp hA hB hk
      refine (hf a).pairs h1 k ?_ ?_
      · rintro x (hx | hx)
        · have := hm.signal (hA x hx); rwa [hk] at this
        · exact r1 x hx
      · rintro x (hx | hx)
        · have := hm.spectrum (hB x hx); rwa [hk] at this
        · exact r2 x hx

theorem Pairs.bind {m : HM K V α} {f : α → HM K V β} (hm : Pairs A B m) (hf : ∀ a, Pairs A B (f a)) : Pairs A B (m >>= f) :=
  hm.bind_with (fun _ => ∅) (fun _ => ∅) (fun _ _ _ _ _ _ _ => ⟨fun _ h => h.elim, fun _ h => h.elim⟩)
    (fun a => (hf a).mono Set.subset_union_left Set.subset_union_left)

theorem pairs_of_rels {m : HM K V α} (hm : ∀ h, (m h).2.rels = h.rels) : Pairs A B m := by
  constructor
  · intro h l o ho; exact ⟨o, by rw [hm]; exact ho, rfl⟩
  · intro h hp _ _ s o k ho hk
    rw [hm] at ho
    obtain ⟨h1, h2⟩ := hp s o k ho hk
    refine ⟨fun hs => ?_, fun hs => ?_⟩
    · obtain ⟨q, hq, e⟩ := h1 hs; exact ⟨q, by rw [hm]; exact hq, e⟩
    · obtain ⟨q, hq, e⟩ := h2 hs; exact ⟨q, by rw [hm]; exact hq, e⟩

theorem pairs_pure (a : α) : Pairs A B (pure a : HM K V α) := pairs_of_rels fun _ => rfl

theorem pairs_raise (e : Err) : Pairs A B (raise e : HM K V α) := pairs_of_rels fun _ => rfl

theorem pairs_lift (x : Except Err α) : Pairs A B (lift x : HM K V α) := pairs_of_rels fun _ => rfl

theorem pairs_config : Pairs A B (config : HM K V ConfigIds) := pairs_of_rels fun _ => rfl

theorem pairs_getAxis (l : Loc) : Pairs A B (getAxis l : HM K V (AxisObj K)) :=
  pairs_of_rels fun h => by unfold getAxis; split <;> rfl

theorem pairs_getX (l : Loc) : Pairs A B (getX l : HM K V (List K)) := pairs_of_rels fun h => by unfold getX; split <;> rfl

theorem pairs_getY (l : Loc) : Pairs A B (getY l : HM K V (List V)) := pairs_of_rels fun h => by unfold getY; split <;> rfl

theorem pairs_getRel (l : Loc) : Pairs A B (getRel l : HM K V RelObj) := pairs_of_rels fun h => by unfold getRel; split <;> rfl

theorem pairs_newX (x : List K) : Pairs A B (newX x : HM K V Loc) := pairs_of_rels fun _ => rfl

theorem pairs_newY (y : List V) : Pairs A B (newY y : HM K V Loc) := pairs_of_rels fun _ => rfl

theorem pairs_newAxis (a : AxisObj K) : Pairs A B (newAxis a : HM K V Loc) := pairs_of_rels fun _ => rfl

theorem pairs_putAxis (l : Loc) (a : AxisObj K) : Pairs A B (putAxis l a : HM K V Unit) := pairs_of_rels fun _ => rfl

/-- reading an object tells its class -/
theorem Pairs.read {l : Loc} {f : RelObj → HM K V β}
    (hf : ∀ o : RelObj, Pairs (A ∪ {x | x = l ∧ SignalClass o.cls}) (B ∪ {x | x = l ∧ o.cls = .spectrum}) (f o)) :
    Pairs A B (getRel l >>= f) := by
  refine Pairs.bind_with (fun o : RelObj => {x | x = l ∧ SignalClass o.cls}) (fun o => {x | x = l ∧ o.cls = .spectrum})
    (pairs_getRel l) ?_ hf
  intro h o h' _ _ _ hr
  obtain ⟨ho, rfl⟩ := getRel_ok.1 hr
  exact ⟨by rintro x ⟨rfl, k⟩; exact ⟨o, ho, k⟩, by rintro x ⟨rfl, k⟩; exact ⟨o, ho, k⟩⟩

theorem signalAt_append {h : Heap K V} {l : Loc} (q : List RelObj) (hl : SignalAt h l) :
    SignalAt { h with rels := h.rels ++ q } l := by
  obtain ⟨o, ho, k⟩ := hl
  exact ⟨o, getElem?_append_some ho, k⟩

theorem spectrumAt_append {h : Heap K V} {l : Loc} (q : List RelObj) (hl : SpectrumAt h l) :
    SpectrumAt { h with rels := h.rels ++ q } l := by
  obtain ⟨o, ho, k⟩ := hl
  exact ⟨o, getElem?_append_some ho, k⟩

/-- the counterpart given to a new object of class `c` is of the other kind -/
def Opposite (A B : Set Loc) (c : Cls) (cp : Option Loc) : Prop :=
  ∀ k, cp = some k → (SignalClass c → k ∈ B) ∧ (c = .spectrum → k ∈ A)

theorem opposite_none (c : Cls) : Opposite A B c none := fun _ h => by cases h

theorem pairs_newRel {r : RelObj} (hr : Opposite A B r.cls r.counterpart) : Pairs A B (newRel r : HM K V Loc) := by
  constructor
  · intro h l o ho; exact ⟨o, getElem?_append_some ho, rfl⟩
  · intro h hp hA hB s o k ho hk
    show (SignalClass o.cls → SpectrumAt { h with rels := h.rels ++ [r] } k) ∧
      (o.cls = .spectrum → SignalAt { h with rels := h.rels ++ [r] } k)
    rcases getElem?_append_singleton ho with ho | ⟨-, rfl⟩
    · obtain ⟨h1, h2⟩ := hp s o k ho hk
      exact ⟨fun q => spectrumAt_append _ (h1 q), fun q => signalAt_append _ (h2 q)⟩
    · obtain ⟨h1, h2⟩ := hr k hk
      exact ⟨fun q => spectrumAt_append _ (hB _ (h1 q)), fun q => signalAt_append _ (hA _ (h2 q))⟩

theorem pairs_deepcopy (r : Loc) : Pairs A B (deepcopy r : HM K V Loc) := by
  constructor
  · intro h l o ho
    unfold deepcopy
    split
    · exact ⟨o, ho, rfl⟩
    · exact ⟨o, getElem?_append_some ho, rfl⟩
  · intro h hp _ _
    unfold deepcopy
    split
    · exact hp
    · intro s o k ho hk
      simp only at ho
      by_cases hs : s < h.rels.length
      · rw [List.getElem?_append_left hs] at ho
        obtain ⟨h1, h2⟩ := hp s o k ho hk
        refine ⟨fun q => ?_, fun q => ?_⟩
        · obtain ⟨p, hp, e⟩ := h1 q; exact ⟨p, getElem?_append_some hp, e⟩
        · obtain ⟨p, hp, e⟩ := h2 q; exact ⟨p, getElem?_append_some hp, e⟩
      · rw [List.getElem?_append_right (Nat.not_lt.1 hs), List.getElem?_map, Option.map_eq_some_iff] at ho
        obtain ⟨p, hp', rfl⟩ := ho
        obtain ⟨j, hj, rfl⟩ := Option.map_eq_some_iff.1 hk
        obtain ⟨h1, h2⟩ := hp _ p j hp' hj
        have key : ∀ q, h.rels[j]? = some q →
            (h.rels ++ h.rels.map (RelObj.offset h.axes.length h.yarrs.length h.rels.length))[j + h.rels.length]? =
              some (q.offset h.axes.length h.yarrs.length h.rels.length) := by
          intro q hq
          rw [List.getElem?_append_right (Nat.le_add_left _ _), List.getElem?_map, Nat.add_sub_cancel, hq]
          rfl
        refine ⟨fun q => ?_, fun q => ?_⟩
        · obtain ⟨w, hw, e⟩ := h1 q; exact ⟨_, key w hw, e⟩
        · obtain ⟨w, hw, e⟩ := h2 q; exact ⟨_, key w hw, e⟩

/-- overwriting attributes of an object: the class stays, and the counterpart stays or is one of the other kind -/
theorem pairs_update {l : Loc} {f : RelObj → RelObj} (h1 : ∀ o, (f o).cls = o.cls)
    (h2 : ∀ o, (f o).counterpart = o.counterpart ∨ ∃ k, (f o).counterpart = some k ∧ (l ∈ A ∧ k ∈ B ∨ l ∈ B ∧ k ∈ A))
    {g : HM K V β} (hg : Pairs A B g) : Pairs A B (getRel l >>= fun o => putRel l (f o) >>= fun _ => g) := by
  have key : ∀ (h : Heap K V) (o : RelObj), h.rels[l]? = some o → ∀ (i : Loc) (q : RelObj), h.rels[i]? = some q →
      ∃ q' : RelObj, (h.rels.set l (f o))[i]? = some q' ∧ q'.cls = q.cls := by
    intro h o ho i q hq
    by_cases e : l = i
    · subst e
      rw [ho] at hq
      cases hq
      exact ⟨f o, set_getElem?_self ho, h1 o⟩
    · exact ⟨q, by rw [set_getElem?_of_ne e]; exact hq, rfl⟩
  constructor
  · intro h i q hq
    rcases ho : h.rels[l]? with _ | o
    · rw [bind_of_error (getRel_none ho)]; exact ⟨q, hq, rfl⟩
    · rw [bind_of_ok (getRel_run ho)]
      obtain ⟨q', hq', e⟩ := key h o ho i q hq
      obtain ⟨q'', hq'', e'⟩ := hg.keeps { h with rels := h.rels.set l (f o) } i q' hq'
      exact ⟨q'', hq'', e'.trans e⟩
  · intro h hp hA hB
    rcases ho : h.rels[l]? with _ | o
    · rw [bind_of_error (getRel_none ho)]; exact hp
    · rw [bind_of_ok (getRel_run ho)]
      have sig : ∀ i, SignalAt h i → SignalAt { h with rels := h.rels.set l (f o) } i := by
        rintro i ⟨q, hq, e⟩
        obtain ⟨q', hq', e'⟩ := key h o ho i q hq
        exact ⟨q', hq', e' ▸ e⟩
      have spe : ∀ i, SpectrumAt h i → SpectrumAt { h with rels := h.rels.set l (f o) } i := by
        rintro i ⟨q, hq, e⟩
        obtain ⟨q', hq', e'⟩ := key h o ho i q hq
        exact ⟨q', hq', e' ▸ e⟩
      refine hg.pairs { h with rels := h.rels.set l (f o) } ?_ (fun a ha => sig a (hA a ha)) (fun b hb => spe b (hB b hb))
      intro s q k hq hk
      by_cases e : l = s
      · subst e
        have : q = f o := by
          have := set_getElem?_self (b := f o) ho
          simp only at hq
          rw [this] at hq
          exact (Option.some.inj hq).symm
        subst this
        rcases h2 o with e | ⟨k', e, hd⟩
        · rw [e] at hk
          rw [h1]
          obtain ⟨p1, p2⟩ := hp l o k ho hk
          exact ⟨fun q => spe _ (p1 q), fun q => sig _ (p2 q)⟩
        · rw [e] at hk
          cases hk
          rw [h1]
          rcases hd with ⟨ha, hb⟩ | ⟨hb, ha⟩
          · refine ⟨fun _ => spe _ (hB _ hb), fun q => ?_⟩
            obtain ⟨o', ho', hs⟩ := hA _ ha
            rw [ho] at ho'
            cases ho'
            exact absurd q (not_spectrum_of_signal (isSignal_iff.2 hs))
          · refine ⟨fun q => ?_, fun _ => sig _ (hA _ ha)⟩
            obtain ⟨o', ho', hs⟩ := hB _ hb
            rw [ho] at ho'
            cases ho'
            exact absurd hs (not_spectrum_of_signal (isSignal_iff.2 q))
      · simp only at hq
        rw [set_getElem?_of_ne e] at hq
        obtain ⟨p1, p2⟩ := hp s q k hq hk
        exact ⟨fun q => spe _ (p1 q), fun q => sig _ (p2 q)⟩

macro "pairs_steps" : tactic => `(tactic| repeat (with_reducible first
  | exact pairs_pure _
  | exact pairs_raise _
  | exact pairs_lift _
  | exact pairs_config
  | exact pairs_getAxis _
  | exact pairs_getX _
  | exact pairs_getY _
  | exact pairs_getRel _
  | exact pairs_newX _
  | exact pairs_newY _
  | exact pairs_newAxis _
  | exact pairs_putAxis _ _
  | exact pairs_deepcopy _
  | assumption
  | refine Pairs.bind ?_ (fun _ => ?_)
  | split))

/-- the calls that return are of class `c` -/
def Yields (c : Cls) (m : HM K V Loc) : Prop := ∀ h l h', m h = (.ok l, h') → ∃ o : RelObj, h'.rels[l]? = some o ∧ o.cls = c

theorem Yields.bind {c : Cls} {m : HM K V α} {f : α → HM K V Loc} (hf : ∀ a, Yields c (f a)) : Yields c (m >>= f) := by
  intro h l h' hr
  rw [bind_ok] at hr
  obtain ⟨a, h1, -, hr⟩ := hr
  exact hf a h1 l h' hr

theorem yields_newRel (r : RelObj) : Yields r.cls (newRel r : HM K V Loc) := by
  intro h l h' hr
  simp only [newRel, Prod.mk.injEq, Except.ok.injEq] at hr
  obtain ⟨rfl, rfl⟩ := hr
  exact ⟨r, by simp, rfl⟩

theorem yields_initAxis (c : Cls) (g : ConfigIds) (ax ly : Loc) (cp : Option Loc) : Yields c (initAxis P c g ax ly cp) := by
  unfold initAxis
  refine Yields.bind fun _ => Yields.bind fun _ => ?_
  split
  · intro h l h' hr; simp [raise] at hr
  · exact yields_newRel (mkRelObj c g ax ly cp)

theorem yields_relInit (c : Cls) (x : HXArg K) (y : HYArg V) (cp : Option Loc) : Yields c (relInit P M c x y cp) := by
  unfold relInit
  refine Yields.bind fun g => ?_
  split
  · exact Yields.bind fun _ => Yields.bind fun _ => Yields.bind fun _ => Yields.bind fun _ => yields_newRel (mkRelObj c g _ _ cp)
  · exact Yields.bind fun _ => yields_initAxis _ _ _ _ _
  · exact Yields.bind fun _ => Yields.bind fun _ => yields_initAxis _ _ _ _ _

theorem yields_construct {c : Cls} (hc : c ≠ .sweep) (x : HXArg K) (y : HYArg V) (cp : Option Loc) :
    Yields c (construct P M c x y cp) := by
  unfold construct
  simp only [if_neg hc]
  intro h l h' hr
  rw [bind_ok] at hr
  obtain ⟨a, h1, e, hr⟩ := hr
  simp only [pure_run, Prod.mk.injEq, Except.ok.injEq] at hr
  obtain ⟨rfl, rfl⟩ := hr
  exact yields_relInit _ _ _ _ _ _ _ e

theorem Yields.spectrum {m : HM K V Loc} (hm : Yields .spectrum m) {h h' : Heap K V} {l : Loc} (hr : m h = (.ok l, h')) :
    SpectrumAt h' l := hm h l h' hr

theorem Yields.signal {m : HM K V Loc} (hm : Yields .signal m) {h h' : Heap K V} {l : Loc} (hr : m h = (.ok l, h')) :
    SignalAt h' l := by
  obtain ⟨o, ho, e⟩ := hm h l h' hr
  exact ⟨o, ho, .inl e⟩

theorem Pairs.bindSpectrum {m : HM K V Loc} {f : Loc → HM K V β} (hm : Pairs A B m) (hy : Yields .spectrum m)
    (hf : ∀ a, Pairs A (insert a B) (f a)) : Pairs A B (m >>= f) :=
  hm.bind_with (fun _ => ∅) (fun a => {a}) (fun _ _ _ _ _ _ hr => ⟨fun _ h => h.elim, by rintro x rfl; exact hy.spectrum hr⟩)
    (fun a => (hf a).mono Set.subset_union_left (by rw [Set.union_comm, Set.singleton_union]))

theorem Pairs.bindSignal {m : HM K V Loc} {f : Loc → HM K V β} (hm : Pairs A B m) (hy : Yields .signal m)
    (hf : ∀ a, Pairs (insert a A) B (f a)) : Pairs A B (m >>= f) :=
  hm.bind_with (fun a => {a}) (fun _ => ∅) (fun _ _ _ _ _ _ hr => ⟨by rintro x rfl; exact hy.signal hr, fun _ h => h.elim⟩)
    (fun a => (hf a).mono (by rw [Set.union_comm, Set.singleton_union]) Set.subset_union_left)

theorem pairs_axisNew (s e d : K) : Pairs A B (axisNew s e d : HM K V Loc) := pairs_newAxis _

theorem pairs_axisArray (l : Loc) : Pairs A B (axisArray P l) := by unfold axisArray; pairs_steps

theorem pairs_axisValues (l : Loc) : Pairs A B (axisValues P l) := (pairs_axisArray l).bind fun _ => pairs_getX _

theorem pairs_axisSize (l : Loc) : Pairs A B (axisSize P l) := (pairs_axisValues l).bind fun _ => pairs_pure _

theorem pairs_axisActual (l : Loc) : Pairs A B (axisActual P l) := by
  have := @pairs_axisValues K V P A B l
  unfold axisActual; pairs_steps

theorem pairs_axisCopy (l : Loc) : Pairs A B (axisCopy l : HM K V Loc) := (pairs_getAxis _).bind fun _ => pairs_newAxis _

theorem pairs_axisSetStart (l : Loc) (v : K) : Pairs A B (axisSetStart l v : HM K V Unit) :=
  (pairs_getAxis _).bind fun _ => pairs_putAxis _ _

theorem pairs_axisSetStop (l : Loc) (v : K) : Pairs A B (axisSetStop l v : HM K V Unit) :=
  (pairs_getAxis _).bind fun _ => pairs_putAxis _ _

theorem pairs_axisFromArray (x : List K) (f r : Bool) : Pairs A B (axisFromArray P x f r : HM K V Loc) :=
  (pairs_lift _).bind fun _ => pairs_axisNew _ _ _

theorem pairs_npArray (y : HYArg V) : Pairs A B (npArray y : HM K V Loc) := by unfold npArray; pairs_steps

theorem pairs_initAxis {c : Cls} (g : ConfigIds) (ax ly : Loc) {cp : Option Loc} (ho : Opposite A B c cp) :
    Pairs A B (initAxis P c g ax ly cp) := by
  unfold initAxis
  refine (pairs_axisSize ax).bind fun n => (pairs_getY _).bind fun v => ?_
  split
  · exact pairs_raise _
  · exact pairs_newRel ho

/-- The methods keep classes and counterparts in order. -/
structure PairMethods (M : Methods K V) : Prop where
  fromArray : ∀ n x f r, Pairs ∅ ∅ (M.fromArray n x f r)
  mathOp : ∀ n l w op, Pairs ∅ ∅ (M.mathOp n l w op)
  interp : ∀ n a b c, Pairs ∅ ∅ (M.interp n a b c)
  integrateOne : ∀ n r, Pairs ∅ ∅ (M.integrateOne n r)
  integrate : ∀ n r, Pairs ∅ ∅ (M.integrate n r)
  differentiate : ∀ n r, Pairs ∅ ∅ (M.differentiate n r)
  commonX : ∀ n a b, Pairs ∅ ∅ (M.commonX n a b)
  signal2spectrum : ∀ n r f z, Pairs ∅ ∅ (M.signal2spectrum n r f z)
  spectrum2signal : ∀ n r f z, Pairs ∅ ∅ (M.spectrum2signal n r f z)
  getFt : ∀ n r, Pairs ∅ ∅ (M.getFt n r)
  getAt : ∀ n r, Pairs ∅ ∅ (M.getAt n r)
  spectrogram : ∀ n r, Pairs ∅ ∅ (M.spectrogram n r)

section
variable (hK : PairMethods M)
include hK

theorem pairs_relInit {c : Cls} (x : HXArg K) (y : HYArg V) {cp : Option Loc} (ho : Opposite A B c cp) :
    Pairs A B (relInit P M c x y cp) := by
  unfold relInit
  refine pairs_config.bind fun g => ?_
  split
  · exact (pairs_getRel _).bind fun _ => (pairs_axisCopy _).bind fun _ => (pairs_getY _).bind fun _ =>
      (pairs_newY _).bind fun _ => pairs_newRel ho
  · exact (pairs_npArray _).bind fun _ => pairs_initAxis _ _ _ ho
  · exact (pairs_npArray _).bind fun _ => (hK.fromArray _ _ _ _).of_empty.bind fun _ => pairs_initAxis _ _ _ ho

theorem pairs_givenOr (o : Option Loc) {m : HM K V Loc} (hm : Pairs A B m) : Pairs A B (givenOr o m) := by
  unfold givenOr; pairs_steps

theorem pairs_sweepInit (l : Loc) (ft at' ap : Option Loc) : Pairs A B (sweepInit M l ft at' ap) := by
  unfold sweepInit
  exact pairs_config.bind fun g => (pairs_givenOr hK _ (hK.getFt _ _).of_empty).bind fun f =>
    pairs_update (f := fun o => { o with freqTime := some f }) (fun _ => rfl) (fun _ => .inl rfl)
    ((pairs_givenOr hK _ (hK.getAt _ _).of_empty).bind fun a =>
    pairs_update (f := fun o => { o with ampTime := some a }) (fun _ => rfl) (fun _ => .inl rfl)
    ((hK.spectrogram _ _).of_empty.bind fun _ =>
    pairs_update (f := fun o => { o with aPrior := ap }) (fun _ => rfl) (fun _ => .inl rfl) (pairs_pure _)))

theorem pairs_constructCp {c : Cls} (x : HXArg K) (y : HYArg V) {cp : Option Loc} (ho : Opposite A B c cp) :
    Pairs A B (construct P M c x y cp) := by
  unfold construct
  refine (pairs_relInit hK _ _ ho).bind fun l => ?_
  split
  · exact pairs_sweepInit hK _ _ _ _
  · exact pairs_pure _

theorem pairs_construct (c : Cls) (x : HXArg K) (y : HYArg V) : Pairs A B (construct P M c x y) :=
  pairs_constructCp hK _ _ (opposite_none _)

theorem pairs_relSelect (r : Loc) (s e : Option K) : Pairs A B (relSelect P M r s e) := by
  unfold relSelect
  exact (pairs_getRel _).bind fun _ => (pairs_getAxis _).bind fun _ => (pairs_axisValues _).bind fun _ =>
    (pairs_getY _).bind fun _ => (pairs_lift _).bind fun _ => (pairs_axisNew _ _ _).bind fun _ => pairs_construct hK _ _ _

theorem pairs_relExp (r : Loc) : Pairs A B (relExp P M r) := by
  unfold relExp
  exact (pairs_getRel _).bind fun _ => (pairs_axisCopy _).bind fun _ => (pairs_getY _).bind fun _ => pairs_construct hK _ _ _

theorem pairs_relDiff (r : Loc) : Pairs A B (relDiff P M r) := by
  unfold relDiff
  exact (pairs_getRel _).bind fun _ => (hK.differentiate _ _).of_empty.bind fun _ => pairs_construct hK _ _ _

theorem pairs_relIntegrate (r : Loc) : Pairs A B (relIntegrate P M r) := by
  unfold relIntegrate
  exact (pairs_getRel _).bind fun _ => (hK.integrate _ _).of_empty.bind fun _ => pairs_construct hK _ _ _

theorem pairs_relInterp (r : Loc) (x : HXArg K) : Pairs A B (relInterp P M r x) := by
  unfold relInterp
  refine (pairs_getRel _).bind fun _ => Pairs.bind ?_ fun _ => (pairs_axisValues _).bind fun _ => (pairs_newX _).bind fun _ =>
    (pairs_getY _).bind fun _ => (pairs_newY _).bind fun _ => (hK.interp _ _ _ _).of_empty.bind fun _ =>
    pairs_construct hK _ _ _
  unfold interpAxisOf
  split
  · exact (pairs_getRel _).bind fun _ => pairs_axisCopy _
  · exact pairs_axisCopy _
  · exact (hK.fromArray _ _ _ _).of_empty

theorem pairs_relShift (r : Loc) (d : K) : Pairs A B (relShift P M r d) := by
  unfold relShift
  exact (pairs_getRel _).bind fun _ => (pairs_axisCopy _).bind fun _ => (pairs_getAxis _).bind fun _ =>
    (pairs_axisSetStart _ _).bind fun _ => (pairs_getAxis _).bind fun _ => (pairs_axisSetStop _ _).bind fun _ =>
    pairs_construct hK _ _ _

theorem pairs_relEqualize (r1 r2 : Loc) : Pairs A B (relEqualize P M r1 r2) := by
  unfold relEqualize
  refine (pairs_getRel _).bind fun _ => (pairs_getRel _).bind fun _ => ?_
  split
  · exact (pairs_deepcopy _).bind fun _ => (pairs_deepcopy _).bind fun _ => pairs_pure _
  · exact pairs_config.bind fun _ => (hK.commonX _ _ _).of_empty.bind fun _ => (pairs_relInterp hK _ _).bind fun _ =>
      (pairs_relInterp hK _ _).bind fun _ => pairs_pure _

theorem pairs_relOperation (a : Loc) (b : HArg V) (op : MathOp) : Pairs A B (relOperation P M a b op) := by
  unfold relOperation
  refine (pairs_getRel _).bind fun _ => ?_
  split
  · exact (pairs_relEqualize hK _ _).bind fun _ => (pairs_getRel _).bind fun _ => (pairs_getRel _).bind fun _ =>
      (pairs_axisCopy _).bind fun _ => (pairs_getY _).bind fun _ => (pairs_newY _).bind fun _ => (pairs_getY _).bind fun _ =>
      (pairs_newY _).bind fun _ => (hK.mathOp _ _ _ _).of_empty.bind fun _ => pairs_construct hK _ _ _
  · exact (pairs_axisCopy _).bind fun _ => (pairs_getY _).bind fun _ => (pairs_newY _).bind fun _ =>
      (hK.mathOp _ _ _ _).of_empty.bind fun _ => pairs_construct hK _ _ _

theorem pairs_getSpectrum {s : Loc} (hs : s ∈ A) (f : HSize) (z : Bool) : Pairs A B (getSpectrum P M s f z) := by
  unfold getSpectrum
  refine (pairs_getRel _).bind fun _ => ?_
  split
  · exact pairs_pure _
  · refine (hK.signal2spectrum _ _ _ _).of_empty.bind fun p => ?_
    refine (pairs_constructCp hK _ _ fun k e => ?_).bindSpectrum (yields_construct (by decide) _ _ _) fun sp => ?_
    · cases e; exact ⟨fun h => by simp [SignalClass] at h, fun _ => hs⟩
    · exact pairs_update (f := fun o => { o with counterpart := some sp }) (fun _ => rfl)
        (fun _ => .inr ⟨sp, rfl, .inl ⟨hs, Set.mem_insert _ _⟩⟩) (pairs_pure _)

theorem pairs_getSignal {s : Loc} (hs : s ∈ B) (f : HSize) (z : Option K) : Pairs A B (getSignal P M s f z) := by
  unfold getSignal
  refine (pairs_getRel _).bind fun _ => ?_
  split
  · exact pairs_pure _
  · refine (hK.spectrum2signal _ _ _ _).of_empty.bind fun p => ?_
    refine (pairs_constructCp hK _ _ fun k e => ?_).bindSignal (yields_construct (by decide) _ _ _) fun sp => ?_
    · cases e; exact ⟨fun _ => hs, fun h => by cases h⟩
    · exact pairs_update (f := fun o => { o with counterpart := some sp }) (fun _ => rfl)
        (fun _ => .inr ⟨sp, rfl, .inr ⟨hs, Set.mem_insert _ _⟩⟩) (pairs_pure _)

theorem pairs_getAmp (s : Loc) : Pairs A B (getAmp P M s) := by
  unfold getAmp
  exact (pairs_getRel _).bind fun _ => (pairs_axisCopy _).bind fun _ => (pairs_getY _).bind fun _ => pairs_construct hK _ _ _

theorem pairs_getPhase (s : Loc) : Pairs A B (getPhase P M s) := by
  unfold getPhase
  exact (pairs_getRel _).bind fun _ => (pairs_axisCopy _).bind fun _ => (pairs_getY _).bind fun _ => pairs_construct hK _ _ _

theorem pairs_inp2signalOperation (b : PyOperand V) : Pairs A B (inp2signalOperation P M b) := by
  unfold inp2signalOperation
  split
  · refine Pairs.read fun o => ?_
    split
    · rename_i h
      exact (pairs_getSignal hK (.inr ⟨rfl, h⟩) _ _).bind fun _ => pairs_pure _
    · exact pairs_pure _
  · exact pairs_pure _

theorem pairs_input2spectrumOperation (b : PyOperand V) : Pairs A B (input2spectrumOperation P M b) := by
  unfold input2spectrumOperation
  split
  · refine Pairs.read fun o => ?_
    split
    · rename_i h
      exact (pairs_getSpectrum hK (.inr ⟨rfl, isSignal_iff.1 h⟩) _ _).bind fun _ => pairs_pure _
    · exact pairs_pure _
  · exact pairs_pure _
  · exact pairs_raise _

theorem pairs_operator (a : Loc) (b : PyOperand V) (op : MathOp) : Pairs A B (operator P M a b op) := by
  unfold operator
  refine (pairs_getRel _).bind fun _ => Pairs.bind ?_ fun _ => pairs_relOperation hK _ _ _
  have h1 := @pairs_inp2signalOperation K V P M A B hK b
  have h2 := @pairs_input2spectrumOperation K V P M A B hK b
  unfold convertOperand
  pairs_steps

theorem pairs_getNorm (r : Loc) : Pairs A B (getNorm P M r) := by
  unfold getNorm relNorm
  exact (pairs_getRel _).bind fun _ => (pairs_operator hK _ _ _).bind fun _ =>
    (hK.integrateOne _ _).of_empty.bind fun _ => (pairs_getAxis _).bind fun _ => pairs_lift _

theorem pairs_inp2signal (a : PyOperand V) : Pairs A B (inp2signal P M a) := by
  unfold inp2signal
  split
  · refine Pairs.read fun o => ?_
    split
    · rename_i h
      exact pairs_getSignal hK (.inr ⟨rfl, h⟩) _ _
    · split
      · exact pairs_pure _
      · exact pairs_construct hK _ _ _
  · exact pairs_raise _

theorem pairs_input2spectrum (a : PyOperand V) : Pairs A B (input2spectrum P M a) := by
  unfold input2spectrum
  split
  · refine Pairs.read fun o => ?_
    split
    · rename_i h
      exact pairs_getSpectrum hK (.inr ⟨rfl, isSignal_iff.1 h⟩) _ _
    · split
      · exact pairs_pure _
      · exact pairs_construct hK _ _ _
  · exact pairs_raise _

theorem pairs_fromAmpPhase (a p : Loc) : Pairs A B (fromAmpPhase P M a p) := by
  unfold fromAmpPhase
  exact (pairs_operator hK _ _ _).bind fun q => (pairs_relExp hK _).bind fun e =>
    (pairs_operator hK _ _ _).bind fun _ => pairs_construct hK _ _ _

theorem yields_fromAmpPhase (a p : Loc) : Yields .spectrum (fromAmpPhase P M a p) := by
  unfold fromAmpPhase
  exact Yields.bind fun _ => Yields.bind fun _ => Yields.bind fun _ => yields_construct (by decide) _ _ _

theorem pairs_spAddPhase (s : Loc) (b : PyOperand V) (op : MathOp) : Pairs A B (spAddPhase P M s b op) := by
  unfold spAddPhase
  exact (pairs_input2spectrum hK _).bind fun so => (pairs_getAmp hK _).bind fun amp =>
    (pairs_getPhase hK _).bind fun p1 => (pairs_getPhase hK _).bind fun p2 =>
    (pairs_operator hK _ _ _).bind fun _ => pairs_fromAmpPhase hK _ _

theorem yields_spAddPhase (s : Loc) (b : PyOperand V) (op : MathOp) : Yields .spectrum (spAddPhase P M s b op) := by
  unfold spAddPhase
  exact Yields.bind fun _ => Yields.bind fun _ => Yields.bind fun _ => Yields.bind fun _ => Yields.bind fun _ =>
    yields_fromAmpPhase hK _ _

/-- the way back to a signal works on a new spectrum -/
theorem pairs_back {m : HM K V Loc} (hm : Pairs A B m) (hy : Yields .spectrum m) (f : HSize) (c : Cls) :
    Pairs A B (m >>= fun q => getSignal P M q f >>= fun g => construct P M c (.rel g) .absent) :=
  hm.bindSpectrum hy fun _ => (pairs_getSignal hK (Set.mem_insert _ _) _ _).bind fun _ => pairs_construct hK _ _ _

theorem pairs_sgAddPhase {s : Loc} (hs : s ∈ A) (b : PyOperand V) (op : MathOp) : Pairs A B (sgAddPhase P M s b op) := by
  unfold sgAddPhase
  exact (pairs_getRel _).bind fun _ => (pairs_getSpectrum hK hs _ _).bind fun _ =>
    pairs_back hK (pairs_spAddPhase hK _ _ _) (yields_spAddPhase hK _ _ _) _ _

theorem pairs_reverseFilter (s : Loc) (p : K) (b : Bool) (fs fe : Option K) : Pairs A B (reverseFilter P M s p b fs fe) := by
  unfold reverseFilter relMax
  exact (pairs_relSelect hK _ _ _).bind fun _ => (pairs_getAmp hK _).bind fun _ =>
    ((pairs_getRel _).bind fun _ => (pairs_getY _).bind fun _ => pairs_lift _).bind fun _ =>
    (pairs_operator hK _ _ _).bind fun _ => (pairs_operator hK _ _ _).bind fun _ =>
    (pairs_getPhase hK _).bind fun _ => (pairs_operator hK _ _ _).bind fun _ => pairs_fromAmpPhase hK _ _

theorem yields_reverseFilter (s : Loc) (p : K) (b : Bool) (fs fe : Option K) : Yields .spectrum (reverseFilter P M s p b fs fe) := by
  unfold reverseFilter
  exact Yields.bind fun _ => Yields.bind fun _ => Yields.bind fun _ => Yields.bind fun _ => Yields.bind fun _ =>
    Yields.bind fun _ => Yields.bind fun _ => yields_fromAmpPhase hK _ _

theorem pairs_reverseSignal {s : Loc} (hs : s ∈ A) (p : K) (b : Bool) (fs fe : Option K) :
    Pairs A B (reverseSignal P M s p b fs fe) := by
  unfold reverseSignal
  exact (pairs_getRel _).bind fun _ => (pairs_getSpectrum hK hs _ _).bind fun _ =>
    pairs_back hK (pairs_reverseFilter hK _ _ _ _ _) (yields_reverseFilter hK _ _ _ _ _) _ _

theorem pairs_sgShift {s : Loc} (hs : s ∈ A) (d : K) : Pairs A B (sgShift P M s d) := by
  unfold sgShift
  exact (pairs_getSpectrum hK hs _ _).bind fun sp => (pairs_getRel _).bind fun o => (pairs_axisValues _).bind fun f =>
    (pairs_construct hK _ _ _).bind fun sh => pairs_sgAddPhase hK hs _ _

theorem pairs_shift (r : Loc) (d : K) : Pairs A B (shift P M r d) := by
  unfold shift
  refine Pairs.read fun o => ?_
  split
  · rename_i h
    exact pairs_sgShift hK (.inr ⟨rfl, isSignal_iff.1 h⟩) d
  · exact pairs_relShift hK _ _

theorem pairs_relConv {D : ConvCall K V} (hD : ∀ g c r1 r2, Pairs ∅ ∅ (D g c r1 r2)) (c : Cls) (r1 r2 : Loc) :
    Pairs A B (relConv P M D c r1 r2) := by
  unfold relConv
  exact pairs_config.bind fun _ => (hD _ _ _ _).of_empty.bind fun _ => pairs_construct hK _ _ _

theorem pairs_clsConv {D : ConvCall K V} (hD : ∀ g c r1 r2, Pairs ∅ ∅ (D g c r1 r2)) (c : Cls) (a b : PyOperand V) :
    Pairs A B (clsConv P M D c a b) := by
  have sig : Pairs A B (inp2signal P M a >>= fun r1 => inp2signal P M b >>= fun r2 => relConv P M D c r1 r2 >>= fun q =>
      construct P M c (.rel q) .absent) :=
    (pairs_inp2signal hK _).bind fun _ => (pairs_inp2signal hK _).bind fun _ => (pairs_relConv hK hD _ _ _).bind fun _ =>
      pairs_construct hK _ _ _
  cases c with
  | relation =>
    unfold clsConv
    simp only []
    split
    · exact pairs_relConv hK hD _ _ _
    · exact pairs_raise _
  | spectrum => exact (pairs_input2spectrum hK _).bind fun _ => (pairs_input2spectrum hK _).bind fun _ => pairs_relConv hK hD _ _ _
  | signal => exact sig
  | sweep => exact sig

theorem pairs_defConv (np : List V → List V → List V) (r1 r2 : Loc) : Pairs A B (defConv P M np r1 r2) := by
  unfold defConv
  exact (pairs_getRel _).bind fun _ => (pairs_getAxis _).bind fun _ => (pairs_shift hK _ _).bind fun _ =>
    (pairs_getRel _).bind fun _ => (pairs_getAxis _).bind fun _ => (pairs_shift hK _ _).bind fun _ =>
    (pairs_relEqualize hK _ _).bind fun _ => (pairs_getRel _).bind fun _ => (pairs_getAxis _).bind fun _ =>
    (pairs_axisNew _ _ _).bind fun _ => (pairs_getY _).bind fun _ => (pairs_getRel _).bind fun _ => (pairs_getY _).bind fun _ =>
    (pairs_newY _).bind fun _ => pairs_pure _

end

theorem pairs_relGetData (r : Loc) : Pairs A B (relGetData P r) := by
  unfold relGetData
  refine (pairs_getRel _).bind fun _ => (pairs_axisSize _).bind fun _ => (pairs_getY _).bind fun _ => ?_
  split
  · exact pairs_raise _
  · exact (pairs_axisValues _).bind fun _ => (pairs_newX _).bind fun _ => (pairs_newY _).bind fun _ => pairs_pure _

theorem pairs_defaultMethods : PairMethods (defaultMethods P) where
  fromArray n x f r := pairs_axisFromArray _ _ _
  mathOp n l w op := by
    show Pairs _ _ (defMathOp P l w op)
    unfold defMathOp npOperand
    pairs_steps
  interp n a b c := by
    have := @pairs_axisValues K V P ∅ ∅ c
    show Pairs _ _ (defInterp P a b c)
    unfold defInterp
    pairs_steps
  integrateOne n r := (pairs_relGetData r).bind fun _ => (pairs_getX _).bind fun _ => (pairs_getY _).bind fun _ => pairs_pure _
  integrate n r := (pairs_getRel _).bind fun _ => (pairs_axisCopy _).bind fun _ => (pairs_getAxis _).bind fun _ =>
    (pairs_axisSetStart _ _).bind fun _ => (pairs_getY _).bind fun _ => (pairs_newY _).bind fun _ => pairs_pure _
  differentiate n r := (pairs_getRel _).bind fun _ => (pairs_axisCopy _).bind fun _ => (pairs_getAxis _).bind fun _ =>
    (pairs_axisSetStart _ _).bind fun _ => (pairs_axisSetStop _ _).bind fun _ =>
    (pairs_getY _).bind fun _ => (pairs_newY _).bind fun _ => pairs_pure _
  commonX n a b := (pairs_getAxis _).bind fun _ => (pairs_getAxis _).bind fun _ => pairs_axisNew _ _ _
  signal2spectrum n r f z := by
    have hs : Pairs ∅ ∅ (sizeOf P f : HM K V (Option ℤ)) := by
      unfold sizeOf
      split
      · exact pairs_pure _
      · exact pairs_pure _
      · exact (pairs_axisSize _).bind fun _ => pairs_pure _
    have hf : ∀ t n, Pairs ∅ ∅ (freqAxis P t n f : HM K V Loc) := by
      intro t n
      unfold freqAxis
      split
      · exact pairs_pure _
      · exact (pairs_getAxis _).bind fun _ => (pairs_lift _).bind fun _ => pairs_axisFromArray _ _ _
    have hc : ∀ t a, Pairs ∅ ∅ (calculateSpectrum P t a f) := fun t a =>
      hs.bind fun _ => (pairs_axisValues _).bind fun _ => (pairs_lift _).bind fun _ => (pairs_lift _).bind fun _ =>
        (hf _ _).bind fun _ => (pairs_newY _).bind fun _ => pairs_pure _
    show Pairs _ _ (defSignal2Spectrum P r f z)
    unfold defSignal2Spectrum
    refine (pairs_getRel _).bind fun _ => (pairs_axisCopy _).bind fun _ => (pairs_getY _).bind fun _ =>
      (pairs_getAxis _).bind fun _ => ?_
    split
    · exact hc _ _
    · split
      · exact (pairs_axisSetStart _ _).bind fun _ => (pairs_axisSize _).bind fun _ => (pairs_lift _).bind fun _ => hc _ _
      · split
        · exact (pairs_axisSetStop _ _).bind fun _ => (pairs_axisSize _).bind fun _ => (pairs_lift _).bind fun _ => hc _ _
        · exact hc _ _
  spectrum2signal n r f z := by
    have hs : Pairs ∅ ∅ (sizeOf P f : HM K V (Option ℤ)) := by
      unfold sizeOf
      split
      · exact pairs_pure _
      · exact pairs_pure _
      · exact (pairs_axisSize _).bind fun _ => pairs_pure _
    have hf : ∀ t n, Pairs ∅ ∅ (timeAxis P t n f z : HM K V Loc) := by
      intro t n
      unfold timeAxis
      split
      · exact pairs_pure _
      · exact (pairs_getAxis _).bind fun _ => (pairs_lift _).bind fun _ => pairs_axisNew _ _ _
    exact (pairs_getRel _).bind fun _ => (pairs_getY _).bind fun _ => (pairs_axisCopy _).bind fun _ => hs.bind fun _ =>
      (pairs_lift _).bind fun _ => (hf _ _).bind fun _ => (pairs_axisValues _).bind fun _ => (pairs_lift _).bind fun _ =>
      (pairs_newY _).bind fun _ => pairs_pure _
  getFt n r := (pairs_getRel _).bind fun _ => (pairs_getY _).bind fun _ => (pairs_getAxis _).bind fun _ =>
    (pairs_lift _).bind fun _ => pairs_config.bind fun _ => (pairs_newY _).bind fun _ => pairs_initAxis _ _ _ (opposite_none _)
  getAt n r := (pairs_getRel _).bind fun _ => (pairs_getY _).bind fun _ =>
    (pairs_lift _).bind fun _ => pairs_config.bind fun _ => (pairs_newY _).bind fun _ => pairs_initAxis _ _ _ (opposite_none _)
  spectrogram n r := (pairs_getRel _).bind fun _ => (pairs_getY _).bind fun _ => (pairs_getAxis _).bind fun _ => pairs_lift _

/-- the same contract for the convolution methods -/
structure PairConvMethods (C : ConvMethods K V) : Prop where
  convolve : ∀ g c r1 r2, Pairs ∅ ∅ (C.convolveCall g c r1 r2)
  correlate : ∀ g c r1 r2, Pairs ∅ ∅ (C.correlateCall g c r1 r2)

theorem pairs_one {m : HM K V α} (f : α → List Loc) (hm : Pairs A B m) : Pairs A B (one m f) := hm.bind fun _ => pairs_pure _

end SweepDesign.Mem

namespace SweepDesign

open Mem Mem.HM Spec

variable {K V : Type} {P : Prims K V} {M : Methods K V} {C : ConvMethods K V} {α β : Type} {A B : Set Loc}

/-! ## C87 -/

/-- A call keeps cached counterparts of the other kind. -/
theorem C87_call (hK : PairMethods M) (hC : PairConvMethods C) (c : Call K V) {h : Heap K V} (hp : Paired h)
    (hc : OwnClass h c) : Paired (c.exec P M C h).2 := by
  have E : ∀ {α : Type} (m : HM K V α) (f : α → List Loc), Pairs ∅ ∅ m → Paired (one m f h).2 := fun m f hm =>
    (pairs_one f hm).pairs h hp (fun _ k => k.elim) (fun _ k => k.elim)
  have SG : ∀ {α : Type} (m : HM K V α) (f : α → List Loc) (r : Loc), SignalAt h r → Pairs {r} ∅ m → Paired (one m f h).2 :=
    fun m f r hr hm => (pairs_one f hm).pairs h hp (by rintro x rfl; exact hr) (fun _ k => k.elim)
  cases c with
  | axisNew => exact E _ _ (pairs_axisNew _ _ _)
  | axisArray => exact E _ _ (pairs_axisArray _)
  | axisActual => exact E _ _ (pairs_axisActual _)
  | axisCopy => exact E _ _ (pairs_axisCopy _)
  | construct => exact E _ _ (pairs_construct hK _ _ _)
  | getData => exact E _ _ (pairs_relGetData _)
  | max => exact E _ _ ((pairs_getRel _).bind fun _ => (pairs_getY _).bind fun _ => pairs_lift _)
  | min => exact E _ _ ((pairs_getRel _).bind fun _ => (pairs_getY _).bind fun _ => pairs_lift _)
  | norm => exact E _ _ (pairs_getNorm hK _)
  | select => exact E _ _ (pairs_relSelect hK _ _ _)
  | exp => exact E _ _ (pairs_relExp hK _)
  | diff => exact E _ _ (pairs_relDiff hK _)
  | integrate => exact E _ _ (pairs_relIntegrate hK _)
  | interp => exact E _ _ (pairs_relInterp hK _ _)
  | shift => exact E _ _ (pairs_shift hK _ _)
  | equalize => exact E _ _ (pairs_relEqualize hK _ _)
  | operator => exact E _ _ (pairs_operator hK _ _ _)
  | len => exact E _ _ ((pairs_getRel _).bind fun _ => pairs_axisSize _)
  | item => exact E _ _ ((pairs_getRel _).bind fun _ => (pairs_axisValues _).bind fun _ => (pairs_getY _).bind fun _ => pairs_lift _)
  | getSpectrum r f z => exact SG _ _ r hc (pairs_getSpectrum hK (Set.mem_singleton r) _ _)
  | getSignal r f z =>
    exact (pairs_one _ (pairs_getSignal hK (A := ∅) (Set.mem_singleton r) _ _)).pairs h hp (fun _ k => k.elim)
      (by rintro x rfl; exact hc)
  | getAmp => exact E _ _ (pairs_getAmp hK _)
  | getPhase => exact E _ _ (pairs_getPhase hK _)
  | sgAmp r f z => exact SG _ _ r hc ((pairs_getSpectrum hK (Set.mem_singleton r) _ _).bind fun _ => pairs_getAmp hK _)
  | sgPhase r f z => exact SG _ _ r hc ((pairs_getSpectrum hK (Set.mem_singleton r) _ _).bind fun _ => pairs_getPhase hK _)
  | spAddPhase => exact E _ _ (pairs_spAddPhase hK _ _ _)
  | sgAddPhase r b op => exact SG _ _ r hc (pairs_sgAddPhase hK (Set.mem_singleton r) _ _)
  | reverseFilter => exact E _ _ (pairs_reverseFilter hK _ _ _ _ _)
  | reverseSignal r p b fs fe => exact SG _ _ r hc (pairs_reverseSignal hK (Set.mem_singleton r) _ _ _ _)
  | fromAmpPhase => exact E _ _ (pairs_fromAmpPhase hK _ _)
  | convolve => exact E _ _ (pairs_clsConv hK hC.convolve _ _ _)
  | correlate => exact E _ _ (pairs_clsConv hK hC.correlate _ _ _)

/-- Whatever is done in a session, the counterparts stay of the other kind. -/
theorem C87_history (hK : PairMethods M) (hC : PairConvMethods C) (ss : List (Step K V)) {h : Heap K V}
    (hp : Paired h) (hs : OwnClasses P M C ss h) : Paired (runSteps P M C ss h) := by
  induction ss generalizing h with
  | nil => exact hp
  | cons st ss ih =>
    cases st with
    | call c => exact ih (C87_call hK hC c hp hs.1) hs.2
    | edit e =>
      refine ih ?_ hs
      exact (pairs_of_rels (A := ∅) (B := ∅) (edit_rels e)).pairs h hp (fun _ k => k.elim) (fun _ k => k.elim)

/-- at the beginning there are no objects -/
theorem C87_start : Paired (emptyHeap K V) := by
  intro s o k ho
  simp [emptyHeap] at ho

/-- Hence in any session `get_spectrum` returns a spectrum and `get_signal` a signal. -/
theorem C87_returns (hM : GoodMethods P M) {h : Heap K V} (hp : Paired h) {s k : Loc} {h' : Heap K V} :
    (∀ f z, SignalAt h s → getSpectrum P M s f z h = (.ok k, h') → SpectrumAt h' k) ∧
    (∀ f z, SpectrumAt h s → getSignal P M s f z h = (.ok k, h') → SignalAt h' k) := by
  constructor
  · rintro f z ⟨o, ho, hs⟩ hr
    by_cases hn : counterpartAt h s = none ∨ f.truthy = true
    · obtain ⟨-, -, -, q, hq, e⟩ := getSpectrum_computed hM hn hr
      exact ⟨q, hq, e⟩
    · push Not at hn
      obtain ⟨d, hd⟩ := Option.ne_none_iff_exists'.1 hn.1
      rw [getSpectrum_cached hd (by simpa using hn.2)] at hr
      simp only [Prod.mk.injEq, Except.ok.injEq] at hr
      obtain ⟨rfl, rfl⟩ := hr
      simp only [counterpartAt, ho, Option.bind_some] at hd
      exact (hp s o d ho hd).1 hs
  · rintro f z ⟨o, ho, hs⟩ hr
    by_cases hn : counterpartAt h s = none ∨ f.truthy = true
    · obtain ⟨-, -, -, q, hq, e⟩ := getSignal_computed hM hn hr
      exact ⟨q, hq, .inl e⟩
    · push Not at hn
      obtain ⟨d, hd⟩ := Option.ne_none_iff_exists'.1 hn.1
      rw [getSignal_cached hd (by simpa using hn.2)] at hr
      simp only [Prod.mk.injEq, Except.ok.injEq] at hr
      obtain ⟨rfl, rfl⟩ := hr
      simp only [counterpartAt, ho, Option.bind_some] at hd
      exact (hp s o d ho hd).2 hs

/-- Mixed operators in any session: an operand of the other kind is replaced by its counterpart. -/
theorem C87_mixed (hM : GoodMethods P M) {a b : Loc} {op : MathOp} (hop : Forward op)
    {h : Heap K V} (hp : Paired h) :
    (SignalAt h a → SpectrumAt h b →
      operator P M a (.obj b) op h = (getSignal P M b >>= fun s => operator P M a (.obj s) op) h) ∧
    (SpectrumAt h a → SignalAt h b →
      operator P M a (.obj b) op h = (getSpectrum P M b >>= fun s => operator P M a (.obj s) op) h) := by
  refine ⟨fun ha hb => C86_signal_spectrum hM hop ha hb fun k hk => ?_, fun ha hb => C86_spectrum_signal hM hop ha hb fun k hk => ?_⟩
  · obtain ⟨o, ho, hs⟩ := hb
    simp only [counterpartAt, ho, Option.bind_some] at hk
    exact (hp b o k ho hk).2 hs
  · obtain ⟨o, ho, hs⟩ := hb
    simp only [counterpartAt, ho, Option.bind_some] at hk
    exact (hp b o k ho hk).1 hs

/-- The default methods meet the contracts. -/
theorem C87_defaults (hK : PairMethods M) :
    PairMethods (defaultMethods P) ∧ PairConvMethods (defaultConvMethods P M) :=
  ⟨pairs_defaultMethods, fun _ _ _ _ => pairs_defConv hK _ _ _, fun _ _ _ _ => pairs_defConv hK _ _ _⟩

/-- after `signal + spectrum`, `signal.get_spectrum()` and `spectrum.get_signal(4)`: the caches and the classes of what is cached -/
example :
    let M := defaultMethods ratPrims
    let C := defaultConvMethods ratPrims M
    let h := runSteps ratPrims M C [.call (.operator 0 (.obj 1) .add), .call (.getSpectrum 3 .none false),
      .call (.getSignal 1 (.int 4) none)] fourObjects
    [0, 1, 3].map (counterpartAt h) = [none, some 9, some 8] ∧
    [8, 9].map (fun l => (h.rels[l]?).map RelObj.cls) = [some .spectrum, some .signal] := by
  refine ⟨?_, ?_⟩ <;> decide +kernel

end SweepDesign
