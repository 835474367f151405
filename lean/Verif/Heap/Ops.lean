import Verif.Heap.Safe

/-!
# Heap layer: every call of the package is safe

Given Config methods that are safe (`GoodMethods`), every call satisfies `Le`: it changes nothing that existed before
except filling empty caches. The default methods are safe.
-/

set_option linter.unusedSectionVars false

namespace SweepDesign.Mem

open HM

variable {K V : Type}

/-- Contract for Config methods: they do not modify the objects they are given (apart from filling empty caches);
`math_operation` may write into its first argument and the interpolation method into the y values it is given (the
package hands them copies). -/
structure GoodMethods (P : Prims K V) (M : Methods K V) : Prop where
  fromArray : ∀ n x f r, Safe P ∅ (M.fromArray n x f r)
  mathOp : ∀ n l w op, Safe P ⟨∅, ∅, {l}⟩ (M.mathOp n l w op)
  interp : ∀ n lx ly nx, Safe P ⟨∅, ∅, {ly}⟩ (M.interp n lx ly nx)
  integrateOne : ∀ n r, Safe P ∅ (M.integrateOne n r)
  integrate : ∀ n r, Safe P ∅ (M.integrate n r)
  differentiate : ∀ n r, Safe P ∅ (M.differentiate n r)
  commonX : ∀ n a b, Safe P ∅ (M.commonX n a b)
  signal2spectrum : ∀ n r f z, Safe P ∅ (M.signal2spectrum n r f z)
  spectrum2signal : ∀ n r f z, Safe P ∅ (M.spectrum2signal n r f z)
  getFt : ∀ n r, Safe P ∅ (M.getFt n r)
  getAt : ∀ n r, Safe P ∅ (M.getAt n r)
  spectrogram : ∀ n r, Safe P ∅ (M.spectrogram n r)

/-- the same contract for a convolution method -/
def GoodConv (P : Prims K V) (C : ConvCall K V) : Prop := ∀ g c r1 r2, Safe P ∅ (C g c r1 r2)

variable {P : Prims K V} {M : Methods K V} {X : Ex}

theorem safe_npArray (y : HYArg V) : Safe P X (npArray y : HM K V Loc) := by
  unfold npArray
  split
  · exact safe_raise _
  · exact (safe_getY _).bind fun _ => safe_newY _
  · exact safe_newY _

theorem safe_initAxis (c : Cls) (g : ConfigIds) (ax ly : Loc) (cp : Option Loc) :
    Safe P X (initAxis P c g ax ly cp) := by
  unfold initAxis
  refine (safe_axisSize _).bind fun _ => (safe_getY _).bind fun _ => ?_
  split
  · exact safe_raise _
  · exact safe_newRel _

theorem fresh_initAxis (c : Cls) (g : ConfigIds) (ax ly : Loc) (cp : Option Loc) :
    FreshR (initAxis P c g ax ly cp) := by
  unfold initAxis
  refine FreshR.bind (P := P) (X := ∅) (safe_axisSize _) fun _ =>
    FreshR.bind (P := P) (X := ∅) (safe_getY _) fun _ => ?_
  split
  · exact fresh_raiseR _
  · exact fresh_newRel _

theorem safe_relInit (hM : GoodMethods P M) (c : Cls) (x : HXArg K) (y : HYArg V) (cp : Option Loc) :
    Safe P X (relInit P M c x y cp) := by
  unfold relInit
  refine safe_config.bind fun g => ?_
  split
  · exact (safe_getRel _).bind fun _ => (safe_axisCopy _).bind fun _ => (safe_getY _).bind fun _ =>
      (safe_newY _).bind fun _ => safe_newRel _
  · exact (safe_npArray _).bind fun _ => safe_initAxis _ _ _ _ _
  · exact (safe_npArray _).bind fun _ => (hM.fromArray _ _ _ _).of_empty.bind fun _ => safe_initAxis _ _ _ _ _

theorem fresh_relInit (hM : GoodMethods P M) (c : Cls) (x : HXArg K) (y : HYArg V) (cp : Option Loc) :
    FreshR (relInit P M c x y cp) := by
  unfold relInit
  refine FreshR.bind (P := P) (X := ∅) safe_config fun g => ?_
  split
  · exact FreshR.bind (P := P) (X := ∅) (safe_getRel _) fun _ =>
      FreshR.bind (P := P) (X := ∅) (safe_axisCopy _) fun _ =>
      FreshR.bind (P := P) (X := ∅) (safe_getY _) fun _ =>
      FreshR.bind (P := P) (X := ∅) (safe_newY _) fun _ => fresh_newRel _
  · exact FreshR.bind (P := P) (X := ∅) (safe_npArray _) fun _ => fresh_initAxis _ _ _ _ _
  · exact FreshR.bind (P := P) (X := ∅) (safe_npArray _) fun _ =>
      FreshR.bind (P := P) (X := ∅) (hM.fromArray _ _ _ _) fun _ => fresh_initAxis _ _ _ _ _

theorem safe_givenOr (o : Option Loc) {m : HM K V Loc} (hm : Safe P X m) : Safe P X (givenOr o m) := by
  unfold givenOr
  split
  · exact safe_pure _
  · exact hm

theorem safe_sweepInit (hM : GoodMethods P M) {l : Loc} (hl : l ∈ X.rels) (ft at' ap : Option Loc) :
    Safe P X (sweepInit M l ft at' ap) := by
  unfold sweepInit
  have put : ∀ (f : RelObj → RelObj) (_ : ∀ r, RelFix r (f r)) (k : HM K V Loc), Safe P X k →
      Safe P X (getRel l >>= fun r => putRel l (f r) >>= fun _ => k) := by
    intro f hf k hk
    have h := (safe_putRel_new (P := P) (X := X) f hf hl).bind fun _ => hk
    intro h0
    have := h h0
    have e : ((getRel l >>= fun r => putRel l (f r)) >>= fun _ => k) h0 =
        (getRel l >>= fun r => putRel l (f r) >>= fun _ => k) h0 := by
      rcases hr : h0.rels[l]? with _ | r
      · rw [bind_of_error (getRel_none hr), bind_of_error (bind_of_error (getRel_none hr))]
      · rw [bind_of_ok (getRel_run hr), bind_run, bind_of_ok (getRel_run hr), bind_run]
    rw [e] at this
    exact this
  refine safe_config.bind fun g => ?_
  refine (safe_givenOr _ (hM.getFt _ _).of_empty).bind fun f => ?_
  refine put (fun o => { o with freqTime := some f }) (fun r => ⟨rfl, rfl, rfl, rfl⟩) _ ?_
  refine (safe_givenOr _ (hM.getAt _ _).of_empty).bind fun a => ?_
  refine put (fun o => { o with ampTime := some a }) (fun r => ⟨rfl, rfl, rfl, rfl⟩) _ ?_
  refine (hM.spectrogram _ _).of_empty.bind fun _ => ?_
  exact put (fun o => { o with aPrior := ap }) (fun r => ⟨rfl, rfl, rfl, rfl⟩) _ (safe_pure _)

theorem sweepInit_ret {l l' : Loc} {ft at' ap : Option Loc} {h h' : Heap K V}
    (hh : sweepInit M l ft at' ap h = (.ok l', h')) : l' = l := by
  unfold sweepInit at hh
  obtain ⟨_, _, _, hh⟩ := bind_ok.1 hh
  obtain ⟨_, _, _, hh⟩ := bind_ok.1 hh
  obtain ⟨_, _, _, hh⟩ := bind_ok.1 hh
  obtain ⟨_, _, _, hh⟩ := bind_ok.1 hh
  obtain ⟨_, _, _, hh⟩ := bind_ok.1 hh
  obtain ⟨_, _, _, hh⟩ := bind_ok.1 hh
  obtain ⟨_, _, _, hh⟩ := bind_ok.1 hh
  obtain ⟨_, _, _, hh⟩ := bind_ok.1 hh
  obtain ⟨_, _, _, hh⟩ := bind_ok.1 hh
  obtain ⟨_, _, _, hh⟩ := bind_ok.1 hh
  simp only [pure_run, Prod.mk.injEq, Except.ok.injEq] at hh
  exact hh.1.symm

theorem safe_construct (hM : GoodMethods P M) (c : Cls) (x : HXArg K) (y : HYArg V) (cp : Option Loc) :
    Safe P X (construct P M c x y cp) := by
  unfold construct
  refine Safe.bindR (safe_relInit hM _ _ _ _) (fresh_relInit hM _ _ _ _) fun l => ?_
  split
  · exact safe_sweepInit hM (Set.mem_insert _ _) _ _ _
  · exact safe_pure _

theorem fresh_construct (hM : GoodMethods P M) (c : Cls) (x : HXArg K) (y : HYArg V) (cp : Option Loc) :
    FreshR (construct P M c x y cp) := by
  intro h l h' hh
  unfold construct at hh
  obtain ⟨l0, h1, hi, hh⟩ := bind_ok.1 hh
  have hl : l = l0 := by
    split at hh
    · exact sweepInit_ret hh
    · simp only [pure_run, Prod.mk.injEq, Except.ok.injEq] at hh; exact hh.1.symm
  rw [hl]; exact fresh_relInit hM _ _ _ _ _ _ _ hi

/-- one step of a safety proof -/
macro "safe_steps" : tactic => `(tactic| repeat (with_reducible first
  | exact safe_pure _
  | exact safe_raise _
  | exact safe_lift _
  | exact safe_config
  | exact safe_getAxis _
  | exact safe_getX _
  | exact safe_getY _
  | exact safe_getRel _
  | exact safe_newX _
  | exact safe_newY _
  | exact safe_newRel _
  | exact safe_axisNew _ _ _
  | exact safe_axisValues _
  | exact safe_axisSize _
  | exact safe_axisActual _
  | exact safe_axisCopy _
  | exact safe_axisFromArray _ _ _
  | exact safe_axisSetStart _ (Set.mem_insert _ _)
  | exact safe_axisSetStop _ (Set.mem_insert _ _)
  | exact safe_axisSetSample _ (Set.mem_insert _ _)
  | exact safe_initAxis _ _ _ _ _
  | exact safe_npArray _
  | exact safe_deepcopy _
  | assumption
  | refine Safe.bind ?_ (fun _ => ?_)
  | split))

theorem safe_relGetData (r : Loc) : Safe P X (relGetData P r) := by
  unfold relGetData; safe_steps

theorem safe_relMax (r : Loc) : Safe P X (relMax P r) := by
  unfold relMax; safe_steps

theorem safe_relMin (r : Loc) : Safe P X (relMin P r) := by
  unfold relMin; safe_steps

theorem safe_relLen (r : Loc) : Safe P X (relLen P r) := by
  unfold relLen; safe_steps

theorem safe_relItem (r : Loc) (v : K) : Safe P X (relItem P r v) := by
  unfold relItem; safe_steps

theorem safe_relSelect (hM : GoodMethods P M) (r : Loc) (s e : Option K) : Safe P X (relSelect P M r s e) := by
  unfold relSelect
  refine (safe_getRel _).bind fun _ => (safe_getAxis _).bind fun _ => (safe_axisValues _).bind fun _ =>
    (safe_getY _).bind fun _ => (safe_lift _).bind fun _ => (safe_axisNew _ _ _).bind fun _ => safe_construct hM _ _ _ _

theorem safe_relExp (hM : GoodMethods P M) (r : Loc) : Safe P X (relExp P M r) := by
  unfold relExp
  exact (safe_getRel _).bind fun _ => (safe_axisCopy _).bind fun _ => (safe_getY _).bind fun _ =>
    safe_construct hM _ _ _ _

theorem safe_relDiff (hM : GoodMethods P M) (r : Loc) : Safe P X (relDiff P M r) := by
  unfold relDiff
  exact (safe_getRel _).bind fun _ => (hM.differentiate _ _).of_empty.bind fun _ => safe_construct hM _ _ _ _

theorem safe_relIntegrate (hM : GoodMethods P M) (r : Loc) : Safe P X (relIntegrate P M r) := by
  unfold relIntegrate
  exact (safe_getRel _).bind fun _ => (hM.integrate _ _).of_empty.bind fun _ => safe_construct hM _ _ _ _

theorem safe_relInterp (hM : GoodMethods P M) (r : Loc) (x : HXArg K) : Safe P X (relInterp P M r x) := by
  unfold relInterp
  refine (safe_getRel _).bind fun _ => Safe.bind ?_ fun _ => ?_
  · unfold interpAxisOf
    split
    · safe_steps
    · safe_steps
    · exact (hM.fromArray _ _ _ _).of_empty
  · exact (safe_axisValues _).bind fun _ => (safe_newX _).bind fun _ => (safe_getY _).bind fun _ =>
      Safe.bindY (safe_newY _) (fresh_newY _) fun _ => Safe.bind ((hM.interp _ _ _ _).mono (Set.empty_subset _)
        (Set.empty_subset _) (Set.singleton_subset_iff.2 (Set.mem_insert _ _))) fun _ => safe_construct hM _ _ _ _

theorem safe_relShift (hM : GoodMethods P M) (r : Loc) (d : K) : Safe P X (relShift P M r d) := by
  unfold relShift
  refine (safe_getRel _).bind fun _ => Safe.bindA (safe_axisCopy _) (fresh_axisCopy _) fun nx => ?_
  exact (safe_getAxis _).bind fun _ => (safe_axisSetStart _ (Set.mem_insert _ _)).bind fun _ =>
    (safe_getAxis _).bind fun _ => (safe_axisSetStop _ (Set.mem_insert _ _)).bind fun _ => safe_construct hM _ _ _ _

theorem safe_relEqualize (hM : GoodMethods P M) (r1 r2 : Loc) : Safe P X (relEqualize P M r1 r2) := by
  unfold relEqualize
  refine (safe_getRel _).bind fun _ => (safe_getRel _).bind fun _ => ?_
  split
  · safe_steps
  · exact safe_config.bind fun _ => (hM.commonX _ _ _).of_empty.bind fun _ =>
      (safe_relInterp hM _ _).bind fun _ => (safe_relInterp hM _ _).bind fun _ => safe_pure _

theorem safe_relOperation (hM : GoodMethods P M) (a : Loc) (b : HArg V) (op : MathOp) :
    Safe P X (relOperation P M a b op) := by
  unfold relOperation
  refine (safe_getRel _).bind fun _ => ?_
  split
  · exact (safe_relEqualize hM _ _).bind fun _ => (safe_getRel _).bind fun _ => (safe_getRel _).bind fun _ =>
      (safe_axisCopy _).bind fun _ => (safe_getY _).bind fun _ => Safe.bindY (safe_newY _) (fresh_newY _) fun _ =>
      (safe_getY _).bind fun _ => (safe_newY _).bind fun _ => Safe.bind ((hM.mathOp _ _ _ _).mono (Set.empty_subset _)
        (Set.empty_subset _) (Set.singleton_subset_iff.2 (Set.mem_insert _ _))) fun _ => safe_construct hM _ _ _ _
  · exact (safe_axisCopy _).bind fun _ => (safe_getY _).bind fun _ => Safe.bindY (safe_newY _) (fresh_newY _) fun _ =>
      Safe.bind ((hM.mathOp _ _ _ _).mono (Set.empty_subset _)
        (Set.empty_subset _) (Set.singleton_subset_iff.2 (Set.mem_insert _ _))) fun _ => safe_construct hM _ _ _ _

theorem le_putCounterpart {h h1 : Heap K V} {s c : Loc} {r r1 : RelObj} (w : Le X h h1) (hr : h.rels[s]? = some r)
    (hn : s ∉ X.rels → r.counterpart = none) (hr1 : h1.rels[s]? = some r1) :
    Le X h { h1 with rels := h1.rels.set s { r1 with counterpart := some c } } := by
  refine ⟨w.axes, w.xarrs, w.yarrs, fun i q hq => ?_, w.config, w.cached⟩
  by_cases hi : s = i
  · subst hi
    rw [hr] at hq; simp only [Option.some.injEq] at hq; subst hq
    obtain ⟨r', h1', h2', h3'⟩ := w.rels s r hr
    rw [hr1] at h1'; simp only [Option.some.injEq] at h1'; subst h1'
    refine ⟨_, set_getElem?_self hr1, ⟨h2'.1, h2'.2, h2'.3, h2'.4⟩, fun hs => ?_⟩
    exact ⟨by simp [hn hs], (h3' hs).2, (h3' hs).3, (h3' hs).4⟩
  · obtain ⟨r', h1', h2'⟩ := w.rels i q hq
    exact ⟨r', by simp only []; rw [set_getElem?_of_ne hi]; exact h1', h2'⟩

/-- common part of `get_spectrum` and `get_signal` -/
theorem safe_refill {s : Loc} {m : HM K V Loc} (hm : Safe P X m)
    {h : Heap K V} {r : RelObj} (hr : h.rels[s]? = some r) (hn : s ∉ X.rels → r.counterpart = none) :
    let res := (m >>= fun c => getRel s >>= fun o => putRel s { o with counterpart := some c } >>= fun _ => pure c) h
    Le X h res.2 ∧ (Coh P h → Coh P res.2) := by
  intro res
  have w := hm h
  rcases hm' : m h with ⟨e | c, h1⟩
  · have : res = (.error e, h1) := bind_of_error hm'
    rw [this]; rw [hm'] at w; exact w
  rw [hm'] at w
  obtain ⟨r1, hr1, -⟩ := w.1.rels s r hr
  have : res = (.ok c, { h1 with rels := h1.rels.set s { r1 with counterpart := some c } }) := by
    show _ = _
    simp only [res]
    rw [bind_of_ok hm', bind_of_ok (getRel_run hr1)]
    rfl
  rw [this]
  exact ⟨le_putCounterpart w.1 hr hn hr1, w.2⟩

theorem bind_assoc_run {α β γ : Type} (m : HM K V α) (f : α → HM K V β) (g : β → HM K V γ) (h : Heap K V) :
    ((m >>= f) >>= g) h = (m >>= fun a => f a >>= g) h := by
  rw [bind_run, bind_run, bind_run]
  rcases m h with ⟨e | a, h1⟩ <;> rfl

theorem safe_getSpectrum (hM : GoodMethods P M) {s : Loc} (f : HSize) (z : Bool) (hs : f.truthy = true → s ∈ X.rels) :
    Safe P X (getSpectrum P M s f z) := by
  intro h
  unfold getSpectrum
  rcases hr : h.rels[s]? with _ | r
  · rw [bind_of_error (getRel_none hr)]; exact ⟨Le.refl _ _, fun c => c⟩
  rw [bind_of_ok (getRel_run hr)]
  have key : (s ∉ X.rels → r.counterpart = none) →
      let res := (M.signal2spectrum r.caps.transform s f z >>= fun p => construct P M .spectrum (.axis p.1) (.arr p.2)
        (some s) >>= fun sp => getRel s >>= fun o => putRel s { o with counterpart := some sp } >>= fun _ => pure sp) h
      Le X h res.2 ∧ (Coh P h → Coh P res.2) := by
    intro hn
    have := safe_refill (P := P) (X := X) (s := s)
      (m := M.signal2spectrum r.caps.transform s f z >>= fun p => construct P M .spectrum (.axis p.1) (.arr p.2)
        (some s)) ((hM.signal2spectrum _ _ _ _).of_empty.bind fun _ => safe_construct hM _ _ _ _) hr hn
    rw [bind_assoc_run] at this
    exact this
  cases hc : r.counterpart <;> cases ht : f.truthy
  · exact key fun _ => hc
  · exact key fun _ => hc
  · exact safe_pure _ h
  · exact key fun hs' => absurd (hs ht) hs'

theorem safe_getSignal (hM : GoodMethods P M) {s : Loc} (f : HSize) (z : Option K) (hs : f.truthy = true → s ∈ X.rels) :
    Safe P X (getSignal P M s f z) := by
  intro h
  unfold getSignal
  rcases hr : h.rels[s]? with _ | r
  · rw [bind_of_error (getRel_none hr)]; exact ⟨Le.refl _ _, fun c => c⟩
  rw [bind_of_ok (getRel_run hr)]
  have key : (s ∉ X.rels → r.counterpart = none) →
      let res := (M.spectrum2signal r.caps.transform s f z >>= fun p => construct P M .signal (.axis p.1) (.arr p.2)
        (some s) >>= fun sp => getRel s >>= fun o => putRel s { o with counterpart := some sp } >>= fun _ => pure sp) h
      Le X h res.2 ∧ (Coh P h → Coh P res.2) := by
    intro hn
    have := safe_refill (P := P) (X := X) (s := s)
      (m := M.spectrum2signal r.caps.transform s f z >>= fun p => construct P M .signal (.axis p.1) (.arr p.2)
        (some s)) ((hM.spectrum2signal _ _ _ _).of_empty.bind fun _ => safe_construct hM _ _ _ _) hr hn
    rw [bind_assoc_run] at this
    exact this
  cases hc : r.counterpart <;> cases ht : f.truthy
  · exact key fun _ => hc
  · exact key fun _ => hc
  · exact safe_pure _ h
  · exact key fun hs' => absurd (hs ht) hs'

theorem safe_getSpectrum0 (hM : GoodMethods P M) (s : Loc) : Safe P X (getSpectrum P M s) :=
  safe_getSpectrum hM _ _ (by simp [HSize.truthy])

theorem safe_getSignal0 (hM : GoodMethods P M) (s : Loc) : Safe P X (getSignal P M s) :=
  safe_getSignal hM _ _ (by simp [HSize.truthy])

theorem safe_getAmp (hM : GoodMethods P M) (s : Loc) : Safe P X (getAmp P M s) := by
  unfold getAmp
  exact (safe_getRel _).bind fun _ => (safe_axisCopy _).bind fun _ => (safe_getY _).bind fun _ =>
    safe_construct hM _ _ _ _

theorem safe_getPhase (hM : GoodMethods P M) (s : Loc) : Safe P X (getPhase P M s) := by
  unfold getPhase
  exact (safe_getRel _).bind fun _ => (safe_axisCopy _).bind fun _ => (safe_getY _).bind fun _ =>
    safe_construct hM _ _ _ _

theorem safe_inp2signalOperation (hM : GoodMethods P M) (a : PyOperand V) :
    Safe P X (inp2signalOperation P M a) := by
  unfold inp2signalOperation
  split
  · refine (safe_getRel _).bind fun _ => ?_
    split
    · exact (safe_getSignal0 hM _).bind fun _ => safe_pure _
    · exact safe_pure _
  · exact safe_pure _

theorem safe_input2spectrumOperation (hM : GoodMethods P M) (a : PyOperand V) :
    Safe P X (input2spectrumOperation P M a) := by
  unfold input2spectrumOperation
  split
  · refine (safe_getRel _).bind fun _ => ?_
    split
    · exact (safe_getSpectrum0 hM _).bind fun _ => safe_pure _
    · exact safe_pure _
  · exact safe_pure _
  · exact safe_raise _

theorem safe_operator (hM : GoodMethods P M) (a : Loc) (b : PyOperand V) (op : MathOp) :
    Safe P X (operator P M a b op) := by
  unfold operator
  refine (safe_getRel _).bind fun _ => Safe.bind ?_ fun _ => safe_relOperation hM _ _ _
  unfold convertOperand
  split
  · split
    · exact safe_inp2signalOperation hM _
    · split
      · exact safe_input2spectrumOperation hM _
      · exact safe_pure _
  · exact safe_pure _

theorem safe_getNorm (hM : GoodMethods P M) (r : Loc) : Safe P X (getNorm P M r) := by
  unfold getNorm relNorm
  exact (safe_getRel _).bind fun _ => (safe_operator hM _ _ _).bind fun _ => (hM.integrateOne _ _).of_empty.bind fun _ =>
    (safe_getAxis _).bind fun _ => safe_lift _

theorem safe_inp2signal (hM : GoodMethods P M) (a : PyOperand V) : Safe P X (inp2signal P M a) := by
  unfold inp2signal
  split
  · refine (safe_getRel _).bind fun _ => ?_
    split
    · exact safe_getSignal0 hM _
    · split
      · exact safe_pure _
      · exact safe_construct hM _ _ _ _
  · exact safe_raise _

theorem safe_input2spectrum (hM : GoodMethods P M) (a : PyOperand V) : Safe P X (input2spectrum P M a) := by
  unfold input2spectrum
  split
  · refine (safe_getRel _).bind fun _ => ?_
    split
    · exact safe_getSpectrum0 hM _
    · split
      · exact safe_pure _
      · exact safe_construct hM _ _ _ _
  · exact safe_raise _

theorem safe_fromAmpPhase (hM : GoodMethods P M) (a p : Loc) : Safe P X (fromAmpPhase P M a p) := by
  unfold fromAmpPhase
  exact (safe_operator hM _ _ _).bind fun _ => (safe_relExp hM _).bind fun _ => (safe_operator hM _ _ _).bind fun _ =>
    safe_construct hM _ _ _ _

theorem fresh_fromAmpPhase (hM : GoodMethods P M) (a p : Loc) : FreshR (fromAmpPhase P M a p) := by
  unfold fromAmpPhase
  exact FreshR.bind (P := P) (X := ∅) (safe_operator hM _ _ _) fun _ =>
    FreshR.bind (P := P) (X := ∅) (safe_relExp hM _) fun _ =>
    FreshR.bind (P := P) (X := ∅) (safe_operator hM _ _ _) fun _ => fresh_construct hM _ _ _ _

theorem safe_spAddPhase (hM : GoodMethods P M) (s : Loc) (o : PyOperand V) (op : MathOp) :
    Safe P X (spAddPhase P M s o op) := by
  unfold spAddPhase
  exact (safe_input2spectrum hM _).bind fun _ => (safe_getAmp hM _).bind fun _ => (safe_getPhase hM _).bind fun _ =>
    (safe_getPhase hM _).bind fun _ => (safe_operator hM _ _ _).bind fun _ => safe_fromAmpPhase hM _ _

theorem fresh_spAddPhase (hM : GoodMethods P M) (s : Loc) (o : PyOperand V) (op : MathOp) :
    FreshR (spAddPhase P M s o op) := by
  unfold spAddPhase
  exact FreshR.bind (P := P) (X := ∅) (safe_input2spectrum hM _) fun _ =>
    FreshR.bind (P := P) (X := ∅) (safe_getAmp hM _) fun _ =>
    FreshR.bind (P := P) (X := ∅) (safe_getPhase hM _) fun _ =>
    FreshR.bind (P := P) (X := ∅) (safe_getPhase hM _) fun _ =>
    FreshR.bind (P := P) (X := ∅) (safe_operator hM _ _ _) fun _ => fresh_fromAmpPhase hM _ _

theorem safe_reverseFilter (hM : GoodMethods P M) (s : Loc) (p : K) (b : Bool) (fs fe : Option K) :
    Safe P X (reverseFilter P M s p b fs fe) := by
  unfold reverseFilter
  exact (safe_relSelect hM _ _ _).bind fun _ => (safe_getAmp hM _).bind fun _ => (safe_relMax _).bind fun _ =>
    (safe_operator hM _ _ _).bind fun _ => (safe_operator hM _ _ _).bind fun _ => (safe_getPhase hM _).bind fun _ =>
    (safe_operator hM _ _ _).bind fun _ => safe_fromAmpPhase hM _ _

theorem fresh_reverseFilter (hM : GoodMethods P M) (s : Loc) (p : K) (b : Bool) (fs fe : Option K) :
    FreshR (reverseFilter P M s p b fs fe) := by
  unfold reverseFilter
  exact FreshR.bind (P := P) (X := ∅) (safe_relSelect hM _ _ _) fun _ =>
    FreshR.bind (P := P) (X := ∅) (safe_getAmp hM _) fun _ =>
    FreshR.bind (P := P) (X := ∅) (safe_relMax _) fun _ =>
    FreshR.bind (P := P) (X := ∅) (safe_operator hM _ _ _) fun _ =>
    FreshR.bind (P := P) (X := ∅) (safe_operator hM _ _ _) fun _ =>
    FreshR.bind (P := P) (X := ∅) (safe_getPhase hM _) fun _ =>
    FreshR.bind (P := P) (X := ∅) (safe_operator hM _ _ _) fun _ => fresh_fromAmpPhase hM _ _

theorem safe_sgAddPhase (hM : GoodMethods P M) (s : Loc) (o : PyOperand V) (op : MathOp) :
    Safe P X (sgAddPhase P M s o op) := by
  unfold sgAddPhase
  refine (safe_getRel _).bind fun _ => (safe_getSpectrum0 hM _).bind fun _ =>
    Safe.bindR (safe_spAddPhase hM _ _ _) (fresh_spAddPhase hM _ _ _) fun q => ?_
  exact (safe_getSignal hM _ _ fun _ => Set.mem_insert _ _).bind fun _ => safe_construct hM _ _ _ _

theorem safe_reverseSignal (hM : GoodMethods P M) (s : Loc) (p : K) (b : Bool) (fs fe : Option K) :
    Safe P X (reverseSignal P M s p b fs fe) := by
  unfold reverseSignal
  refine (safe_getRel _).bind fun _ => (safe_getSpectrum0 hM _).bind fun _ =>
    Safe.bindR (safe_reverseFilter hM _ _ _ _ _) (fresh_reverseFilter hM _ _ _ _ _) fun q => ?_
  exact (safe_getSignal hM _ _ fun _ => Set.mem_insert _ _).bind fun _ => safe_construct hM _ _ _ _

theorem safe_sgShift (hM : GoodMethods P M) (s : Loc) (d : K) : Safe P X (sgShift P M s d) := by
  unfold sgShift
  exact (safe_getSpectrum0 hM _).bind fun _ => (safe_getRel _).bind fun _ => (safe_axisValues _).bind fun _ =>
    (safe_construct hM _ _ _ _).bind fun _ => safe_sgAddPhase hM _ _ _

theorem safe_shift (hM : GoodMethods P M) (r : Loc) (d : K) : Safe P X (shift P M r d) := by
  unfold shift
  refine (safe_getRel _).bind fun _ => ?_
  split
  · exact safe_sgShift hM _ _
  · exact safe_relShift hM _ _

theorem safe_sgAmp (hM : GoodMethods P M) {s : Loc} (f : HSize) (z : Bool) (hs : f.truthy = true → s ∈ X.rels) :
    Safe P X (sgAmp P M s f z) := (safe_getSpectrum hM _ _ hs).bind fun _ => safe_getAmp hM _

theorem safe_sgPhase (hM : GoodMethods P M) {s : Loc} (f : HSize) (z : Bool) (hs : f.truthy = true → s ∈ X.rels) :
    Safe P X (sgPhase P M s f z) := (safe_getSpectrum hM _ _ hs).bind fun _ => safe_getPhase hM _

theorem safe_relConv (hM : GoodMethods P M) {C : ConvCall K V} (hC : GoodConv P C) (c : Cls) (r1 r2 : Loc) :
    Safe P X (relConv P M C c r1 r2) := by
  unfold relConv
  exact safe_config.bind fun _ => (hC _ _ _ _).of_empty.bind fun _ => safe_construct hM _ _ _ _

theorem safe_clsConv (hM : GoodMethods P M) {C : ConvCall K V} (hC : GoodConv P C) (c : Cls) (a b : PyOperand V) :
    Safe P X (clsConv P M C c a b) := by
  unfold clsConv
  split
  · split
    · exact safe_relConv hM hC _ _ _
    · exact safe_raise _
  · exact (safe_input2spectrum hM _).bind fun _ => (safe_input2spectrum hM _).bind fun _ => safe_relConv hM hC _ _ _
  · exact (safe_inp2signal hM _).bind fun _ => (safe_inp2signal hM _).bind fun _ => (safe_relConv hM hC _ _ _).bind fun _ =>
      safe_construct hM _ _ _ _

/-! ## the default methods -/

theorem safe_sizeOf (f : HSize) : Safe P X (sizeOf P f) := by
  unfold sizeOf; safe_steps

theorem safe_calculateSpectrum (t : Loc) (a : List V) (f : HSize) : Safe P X (calculateSpectrum P t a f) := by
  unfold calculateSpectrum
  refine (safe_sizeOf _).bind fun _ => ?_
  unfold freqAxis
  safe_steps

theorem safe_defSignal2Spectrum (r : Loc) (f : HSize) (z : Bool) : Safe P X (defSignal2Spectrum P r f z) := by
  unfold defSignal2Spectrum
  refine (safe_getRel _).bind fun _ => Safe.bindA (safe_axisCopy _) (fresh_axisCopy _) fun nt => ?_
  have hc : ∀ t a f, Safe P (X.addA nt) (calculateSpectrum P t a f) := fun t a f => safe_calculateSpectrum t a f
  refine (safe_getY _).bind fun _ => (safe_getAxis _).bind fun _ => ?_
  split
  · exact hc _ _ _
  · split
    · exact (safe_axisSetStart _ (Set.mem_insert _ _)).bind fun _ => (safe_axisSize _).bind fun _ =>
        (safe_lift _).bind fun _ => hc _ _ _
    · split
      · exact (safe_axisSetStop _ (Set.mem_insert _ _)).bind fun _ => (safe_axisSize _).bind fun _ =>
          (safe_lift _).bind fun _ => hc _ _ _
      · exact hc _ _ _

theorem safe_defSpectrum2Signal (r : Loc) (f : HSize) (z : Option K) : Safe P X (defSpectrum2Signal P r f z) := by
  unfold defSpectrum2Signal
  refine (safe_getRel _).bind fun _ => (safe_getY _).bind fun _ => (safe_axisCopy _).bind fun _ =>
    (safe_sizeOf _).bind fun _ => ?_
  unfold timeAxis
  safe_steps

/-- The default methods satisfy the contract. -/
theorem good_defaultMethods : GoodMethods P (defaultMethods P) where
  fromArray _ x f r := safe_axisFromArray x f r
  mathOp _ l w op := by
    show Safe P _ (defMathOp P l w op)
    unfold defMathOp npOperand; safe_steps
  interp _ lx ly nx := by
    show Safe P _ (defInterp P lx ly nx)
    unfold defInterp; safe_steps
  integrateOne _ r := by
    show Safe P ∅ (defIntegrateOne P r)
    unfold defIntegrateOne
    refine (safe_relGetData _).bind fun _ => ?_
    safe_steps
  integrate _ r := by
    show Safe P ∅ (defIntegrate P r)
    unfold defIntegrate
    refine (safe_getRel _).bind fun _ => Safe.bindA (safe_axisCopy _) (fresh_axisCopy _) fun nt => ?_
    safe_steps
  differentiate _ r := by
    show Safe P ∅ (defDifferentiate P r)
    unfold defDifferentiate
    refine (safe_getRel _).bind fun _ => Safe.bindA (safe_axisCopy _) (fresh_axisCopy _) fun nt => ?_
    safe_steps
  commonX _ a b := by
    show Safe P ∅ (defCommonX P a b)
    unfold defCommonX; safe_steps
  signal2spectrum _ r f z := safe_defSignal2Spectrum r f z
  spectrum2signal _ r f z := safe_defSpectrum2Signal r f z
  getFt _ s := by
    show Safe P ∅ (defGetFt P s)
    unfold defGetFt; safe_steps
  getAt _ s := by
    show Safe P ∅ (defGetAt P s)
    unfold defGetAt; safe_steps
  spectrogram _ s := by
    show Safe P ∅ (defSpectrogram P s)
    unfold defSpectrogram; safe_steps

theorem safe_defConv (hM : GoodMethods P M) (np : List V → List V → List V) (r1 r2 : Loc) :
    Safe P X (defConv P M np r1 r2) := by
  unfold defConv
  refine (safe_getRel _).bind fun _ => (safe_getAxis _).bind fun _ => (safe_shift hM _ _).bind fun _ =>
    (safe_getRel _).bind fun _ => (safe_getAxis _).bind fun _ => (safe_shift hM _ _).bind fun _ =>
    (safe_relEqualize hM _ _).bind fun _ => ?_
  safe_steps

end SweepDesign.Mem
