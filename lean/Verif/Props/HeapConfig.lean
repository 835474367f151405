import Verif.Heap.Vocabulary
import Verif.Heap.Own
import Verif.Heap.Exact

/-!
# C66, C31: captured methods, operand conversion
-/

set_option linter.unusedSectionVars false

namespace SweepDesign

open Mem Spec HM

variable {K V : Type} {P : Prims K V} {M : Methods K V} {C : ConvMethods K V}

/-! ## C66 -/

/-- the methods captured by object `r` -/
def Spec.capturedAt (h : Heap K V) (r : Loc) : Option Captured := (h.rels[r]?).map RelObj.caps

/-- `c` are the methods named in `g`, each in its own place; signals and sweeps transform by `signal2spectrum`, spectra by
`spectrum2signal` -/
def Spec.NamedIn (g : ConfigIds) (cls : Cls) (c : Captured) : Prop :=
  c.fromArray = g.fromArray ∧ c.mathOp = g.mathOp ∧ c.interp = g.interp ∧ c.integrateOne = g.integrateOne ∧
  c.integrate = g.integrate ∧ c.differentiate = g.differentiate ∧
  (cls = .signal ∨ cls = .sweep → c.transform = g.signal2spectrum) ∧ (cls = .spectrum → c.transform = g.spectrum2signal)

theorem namedIn_capture (cls : Cls) (g : ConfigIds) : NamedIn g cls (capture cls g) := by
  cases cls <;> simp [NamedIn, capture, Cls.isSignal]

theorem relInit_caps (cls : Cls) (x : HXArg K) (y : HYArg V) (cp : Option Loc) (h h' : Heap K V) (l : Loc)
    (hh : relInit P M cls x y cp h = (.ok l, h')) :
    ∃ o, h'.rels[l]? = some o ∧ o.cls = cls ∧ o.caps = capture cls h.config := by
  have hinit : ∀ g ax ly h0, initAxis P cls g ax ly cp h0 = (.ok l, h') →
      ∃ o, h'.rels[l]? = some o ∧ o.cls = cls ∧ o.caps = capture cls g := by
    intro g ax ly h0 hi
    unfold initAxis at hi
    rw [bind_ok] at hi
    obtain ⟨n, h3, hn, hi⟩ := hi
    rw [bind_ok] at hi
    obtain ⟨v, h4, hv, hi⟩ := hi
    split at hi
    · simp [raise] at hi
    · simp only [newRel, Prod.mk.injEq, Except.ok.injEq] at hi
      obtain ⟨rfl, rfl⟩ := hi
      exact ⟨mkRelObj cls g ax ly cp, by simp, rfl, rfl⟩
  unfold relInit at hh
  rw [bind_ok] at hh
  obtain ⟨g, h1, hg, hh⟩ := hh
  simp only [config, Prod.mk.injEq, Except.ok.injEq] at hg
  obtain ⟨rfl, rfl⟩ := hg
  cases x with
  | rel r =>
    simp only [] at hh
    rw [bind_ok] at hh
    obtain ⟨o, h2, ho, hh⟩ := hh
    rw [bind_ok] at hh
    obtain ⟨ax, h3, hax, hh⟩ := hh
    rw [bind_ok] at hh
    obtain ⟨v, h4, hv, hh⟩ := hh
    simp only [newY, newRel, bind_run, Prod.mk.injEq, Except.ok.injEq] at hh
    obtain ⟨rfl, rfl⟩ := hh
    exact ⟨mkRelObj cls h.config ax h4.yarrs.length cp, by simp, rfl, rfl⟩
  | axis ax =>
    simp only [] at hh
    rw [bind_ok] at hh
    obtain ⟨ly, h2, hly, hh⟩ := hh
    exact hinit _ _ _ _ hh
  | array x f =>
    simp only [] at hh
    rw [bind_ok] at hh
    obtain ⟨ly, h2, hly, hh⟩ := hh
    rw [bind_ok] at hh
    obtain ⟨ax, h3, hax, hh⟩ := hh
    exact hinit _ _ _ _ hh

/-- **C66** An object holds the methods named in Config when its constructor was called, after any history of calls,
edits and Config assignments. -/
theorem C66_captured_at_construction (hM : GoodMethods P M) (hC : GoodConvMethods P C) (cls : Cls) (x : HXArg K)
    (y : HYArg V) (cp : Option Loc) (h h' : Heap K V) (l : Loc) (hh : construct P M cls x y cp h = (.ok l, h'))
    (ss : List (Step K V)) : ∃ c, capturedAt (runSteps P M C ss h') l = some c ∧ NamedIn h.config cls c := by
  refine ⟨capture cls h.config, ?_, namedIn_capture _ _⟩
  have h0 : ∃ o, h'.rels[l]? = some o ∧ o.caps = capture cls h.config := by
    unfold construct at hh
    rw [bind_ok] at hh
    obtain ⟨l0, h1, hi, hh⟩ := hh
    obtain ⟨o, ho, -, hoc⟩ := relInit_caps _ _ _ _ _ _ _ hi
    split at hh
    · have hl := sweepInit_ret hh
      subst hl
      have w := (safe_sweepInit (X := (∅ : Ex).addR l) hM (Set.mem_insert _ _) none none none h1).1
      rw [hh] at w
      obtain ⟨o', ho', e, -⟩ := w.rels l o ho
      exact ⟨o', ho', e.caps.trans hoc⟩
    · simp only [pure_run, Prod.mk.injEq, Except.ok.injEq] at hh
      obtain ⟨rfl, rfl⟩ := hh
      exact ⟨o, ho, hoc⟩
  have step : ∀ (s : Step K V) (h1 : Heap K V) (o : RelObj), h1.rels[l]? = some o →
      ∃ o', (s.run P M C h1).rels[l]? = some o' ∧ o'.caps = o.caps := by
    intro s h1 o ho
    cases s with
    | call k =>
      obtain ⟨o', ho', e, -⟩ := (safe_call hM hC k h1).1.rels l o ho
      exact ⟨o', ho', e.caps⟩
    | edit e =>
      have key : ∀ (i : Loc) (f : AxisObj K → AxisObj K),
          ((getAxis i >>= fun a => putAxis i (f a) : HM K V Unit) h1).2.rels = h1.rels := by
        intro i f
        rcases ha : h1.axes[i]? with _ | a
        · rw [bind_of_error (getAxis_none ha)]
        · rw [bind_of_ok (getAxis_run ha)]; rfl
      refine ⟨o, ?_, rfl⟩
      cases e with
      | setStart i v => exact (congrArg (·[l]?) (key i _)).trans ho
      | setStop i v => exact (congrArg (·[l]?) (key i _)).trans ho
      | setSample i v => exact (congrArg (·[l]?) (key i _)).trans ho
      | pokeX => exact ho
      | pokeY => exact ho
      | setConfig => exact ho
  obtain ⟨o, ho, hoc⟩ := h0
  clear hh
  induction ss generalizing h' o with
  | nil => rw [runSteps, capturedAt, ho, ← hoc]; rfl
  | cons s ss ih =>
    obtain ⟨o', ho', e⟩ := step s h' o ho
    exact ih _ _ ho' (e.trans hoc)

/-- the two tables of methods agree on the methods captured by `k` -/
structure Spec.AgreeOn (M M' : Methods K V) (k : Captured) : Prop where
  fromArray : M.fromArray k.fromArray = M'.fromArray k.fromArray
  mathOp : M.mathOp k.mathOp = M'.mathOp k.mathOp
  interp : M.interp k.interp = M'.interp k.interp
  integrateOne : M.integrateOne k.integrateOne = M'.integrateOne k.integrateOne
  integrate : M.integrate k.integrate = M'.integrate k.integrate
  differentiate : M.differentiate k.differentiate = M'.differentiate k.differentiate

theorem construct_axis_eq {M' : Methods K V} {cls : Cls} (hcls : cls ≠ .sweep) (ax : Loc) (y : HYArg V) :
    construct P M cls (.axis ax) y none = construct P M' cls (.axis ax) y none := by
  unfold construct
  simp only [if_neg hcls]
  rfl

theorem relInterp_agree {M' : Methods K V} (r : Loc) (h : Heap K V) (o : RelObj) (ho : h.rels[r]? = some o)
    (hcls : o.cls ≠ .sweep) (ha : AgreeOn M M' o.caps) (x : HXArg K) : relInterp P M r x h = relInterp P M' r x h := by
  unfold relInterp
  rw [bind_of_ok (getRel_run ho), bind_of_ok (getRel_run ho)]
  have : interpAxisOf M o.caps x = interpAxisOf M' o.caps x := by
    unfold interpAxisOf
    cases x <;> simp only [ha.fromArray]
  rw [this, ha.interp]
  simp only [construct_axis_eq (M := M) (M' := M') hcls]

/-- **C66** What the methods of a relation do is decided by its captured methods: with two tables of methods that agree
on them, whatever the other names in Config stand for, `diff`, `integrate`, `interpolate_extrapolate`, arithmetic
with a number or array, and `get_norm` run identically. -/
theorem C66_only_captured_methods_matter (M' : Methods K V) (r : Loc) (h : Heap K V) (o : RelObj)
    (ho : h.rels[r]? = some o) (hcls : o.cls ≠ .sweep) (ha : AgreeOn M M' o.caps) :
    relDiff P M r h = relDiff P M' r h ∧ relIntegrate P M r h = relIntegrate P M' r h ∧
    (∀ x, relInterp P M r x h = relInterp P M' r x h) ∧
    (∀ v op, relOperation P M r (.other v) op h = relOperation P M' r (.other v) op h) ∧
    getNorm P M r h = getNorm P M' r h := by
  have hx := fun ax y => construct_axis_eq (P := P) (M := M) (M' := M') hcls ax y
  have hop : ∀ v op, relOperation P M r (.other v) op h = relOperation P M' r (.other v) op h := by
    intro v op
    unfold relOperation
    rw [bind_of_ok (getRel_run ho), bind_of_ok (getRel_run ho), ha.mathOp]
    simp only [hx]
  have hpow : ∀ M : Methods K V, operator P M r (.number P.two) .pow h = relOperation P M r (.other (.num P.two)) .pow h := by
    intro M
    unfold operator
    rw [bind_of_ok (getRel_run ho)]
    refine bind_of_ok ?_
    unfold convertOperand
    cases o.cls <;> rfl
  refine ⟨?_, ?_, relInterp_agree r h o ho hcls ha, hop, ?_⟩
  · unfold relDiff
    rw [bind_of_ok (getRel_run ho), bind_of_ok (getRel_run ho), ha.differentiate]
    simp only [hx]
  · unfold relIntegrate
    rw [bind_of_ok (getRel_run ho), bind_of_ok (getRel_run ho), ha.integrate]
    simp only [hx]
  · unfold getNorm relNorm
    rw [bind_of_ok (getRel_run ho), bind_of_ok (getRel_run ho), bind_run, bind_run, hpow M, hpow M', hop,
      ha.integrateOne]

/-- **C66** arithmetic of two relations: the captured methods of both and the common-axis method that is in Config at the
time of the call. -/
theorem C66_binary_operation (hM : GoodMethods P M) (M' : Methods K V) (r1 r2 : Loc) (h : Heap K V) (o1 o2 : RelObj)
    (h1 : h.rels[r1]? = some o1) (h2 : h.rels[r2]? = some o2) (hc1 : o1.cls ≠ .sweep) (hc2 : o2.cls ≠ .sweep)
    (ha1 : AgreeOn M M' o1.caps) (ha2 : AgreeOn M M' o2.caps)
    (hx : M.commonX h.config.commonX = M'.commonX h.config.commonX) (op : MathOp) :
    relOperation P M r1 (.rel r2) op h = relOperation P M' r1 (.rel r2) op h := by
  have he : relEqualize P M r1 r2 h = relEqualize P M' r1 r2 h := by
    unfold relEqualize
    rw [bind_of_ok (getRel_run h1), bind_of_ok (getRel_run h1), bind_of_ok (getRel_run h2), bind_of_ok (getRel_run h2)]
    split
    · rfl
    · rw [bind_of_ok (show config h = (.ok h.config, h) from rfl),
        bind_of_ok (show config h = (.ok h.config, h) from rfl), ← hx]
      have w := (hM.commonX h.config.commonX o1.x o2.x h).1
      rcases hnx : M.commonX h.config.commonX o1.x o2.x h with ⟨e | nx, h3⟩
      · rw [bind_of_error hnx, bind_of_error hnx]
      · rw [bind_of_ok hnx, bind_of_ok hnx]
        rw [hnx] at w
        obtain ⟨p1, hp1, e1, -⟩ := w.rels _ _ h1
        obtain ⟨p2, hp2, e2, -⟩ := w.rels _ _ h2
        have hi1 := relInterp_agree (P := P) (M := M) (M' := M') r1 h3 p1 hp1 (by rw [e1.cls]; exact hc1)
          (by rw [e1.caps]; exact ha1) (.axis nx)
        rw [bind_run, bind_run, ← hi1]
        have w' := (safe_relInterp (X := ∅) hM r1 (.axis nx) h3).1
        rcases hq : relInterp P M r1 (.axis nx) h3 with ⟨e | q1, h4⟩
        · rfl
        · simp only []
          rw [hq] at w'
          obtain ⟨p2', hp2', e2', -⟩ := w'.rels _ _ hp2
          have hi2 := relInterp_agree (P := P) (M := M) (M' := M') r2 h4 p2' hp2' (by rw [e2'.cls, e2.cls]; exact hc2)
            (by rw [e2'.caps, e2.caps]; exact ha2) (.axis nx)
          rw [bind_run, bind_run, ← hi2]
  unfold relOperation
  rw [bind_of_ok (getRel_run h1), bind_of_ok (getRel_run h1)]
  simp only []
  rw [bind_run, bind_run, ← he]
  simp only [construct_axis_eq (P := P) (M := M) (M' := M') hc1, ha1.mathOp]

/-- the two tables agree on the methods that derive the descriptions of a sweep and are named in `g` -/
structure Spec.AgreeDescr (M M' : Methods K V) (g : ConfigIds) : Prop where
  getFt : M.getFt g.getFt = M'.getFt g.getFt
  getAt : M.getAt g.getAt = M'.getAt g.getAt
  spectrogram : M.spectrogram g.spectrogram = M'.spectrogram g.spectrogram

theorem bind_congr_config {α β : Type} {X : Ex} {m : HM K V α} {f f' : α → HM K V β} {h : Heap K V} (hm : Safe P X m)
    (hf : ∀ a h1, h1.config = h.config → f a h1 = f' a h1) : (m >>= f) h = (m >>= f') h := by
  rw [bind_run, bind_run]
  have hc := (hm h).1.config
  rcases hh : m h with ⟨e | a, h1⟩
  · rfl
  · rw [hh] at hc
    exact hf a h1 hc

theorem construct_agree (hM : GoodMethods P M) {M' : Methods K V} {cls : Cls} {h : Heap K V}
    (hd : cls = .sweep → AgreeDescr M M' h.config) (ax : Loc) (y : HYArg V) :
    construct P M cls (.axis ax) y none h = construct P M' cls (.axis ax) y none h := by
  unfold construct
  have e : relInit P M cls (.axis ax) y none = relInit P M' cls (.axis ax) y none := rfl
  rw [← e]
  refine bind_congr_config (safe_relInit (X := ∅) hM _ _ _ _) fun l h1 hc => ?_
  by_cases hs : cls = .sweep
  · rw [if_pos hs, if_pos hs]
    have a := hd hs
    unfold sweepInit
    rw [bind_of_ok (show config h1 = (.ok h1.config, h1) from rfl), bind_of_ok (show config h1 = (.ok h1.config, h1) from rfl), hc,
      a.getFt, a.getAt, a.spectrogram]
  · rw [if_neg hs, if_neg hs]

theorem relInterp_agree_all (hM : GoodMethods P M) {M' : Methods K V} (r : Loc) (h : Heap K V) (o : RelObj) (ho : h.rels[r]? = some o)
    (ha : AgreeOn M M' o.caps) (hd : o.cls = .sweep → AgreeDescr M M' h.config) (x : HXArg K) :
    relInterp P M r x h = relInterp P M' r x h := by
  unfold relInterp
  rw [bind_of_ok (getRel_run ho), bind_of_ok (getRel_run ho)]
  have hi : interpAxisOf M o.caps x = interpAxisOf M' o.caps x := by
    unfold interpAxisOf
    cases x <;> simp only [ha.fromArray]
  rw [← hi, ← ha.interp]
  have hs : Safe P ∅ (interpAxisOf M o.caps x) := by
    unfold interpAxisOf
    split
    · exact (safe_getRel _).bind fun _ => safe_axisCopy _
    · exact safe_axisCopy _
    · exact hM.fromArray _ _ _ _
  refine bind_congr_config hs fun nx h1 c1 => ?_
  refine bind_congr_config (safe_axisValues (X := ∅) _) fun xv h2 c2 => ?_
  refine bind_congr_config (safe_newX (P := P) (X := ∅) _) fun lx h3 c3 => ?_
  refine bind_congr_config (safe_getY (P := P) (X := ∅) _) fun y h4 c4 => ?_
  refine bind_congr_config (safe_newY (P := P) (X := ∅) _) fun ly h5 c5 => ?_
  refine bind_congr_config (hM.interp _ _ _ _) fun ny h6 c6 => ?_
  exact construct_agree hM (by rw [c6, c5, c4, c3, c2, c1]; exact hd) _ _

/-- **C66** For sweeps too: what `diff`, `integrate`, `interpolate_extrapolate`, arithmetic with a number or array, and `get_norm` do is decided
by the captured methods and, as a sweep is made, by the methods that `SweepConfig` names at the time of the call. -/
theorem C66_sweep_methods (hM : GoodMethods P M) (M' : Methods K V) (r : Loc) (h : Heap K V) (o : RelObj) (ho : h.rels[r]? = some o)
    (ha : AgreeOn M M' o.caps) (hd : o.cls = .sweep → AgreeDescr M M' h.config) :
    relDiff P M r h = relDiff P M' r h ∧ relIntegrate P M r h = relIntegrate P M' r h ∧
    (∀ x, relInterp P M r x h = relInterp P M' r x h) ∧
    (∀ v op, relOperation P M r (.other v) op h = relOperation P M' r (.other v) op h) ∧
    getNorm P M r h = getNorm P M' r h := by
  have hop : ∀ v op, relOperation P M r (.other v) op h = relOperation P M' r (.other v) op h := by
    intro v op
    unfold relOperation
    rw [bind_of_ok (getRel_run ho), bind_of_ok (getRel_run ho), ← ha.mathOp]
    refine bind_congr_config (safe_axisCopy (P := P) (X := ∅) _) fun nx h1 c1 => ?_
    refine bind_congr_config (safe_getY (P := P) (X := ∅) _) fun y h2 c2 => ?_
    refine bind_congr_config (safe_newY (P := P) (X := ∅) _) fun ly h3 c3 => ?_
    refine bind_congr_config (hM.mathOp _ _ _ _) fun ny h4 c4 => ?_
    exact construct_agree hM (by rw [c4, c3, c2, c1]; exact hd) _ _
  have hpow : ∀ M : Methods K V, operator P M r (.number P.two) .pow h = relOperation P M r (.other (.num P.two)) .pow h := by
    intro M
    unfold operator
    rw [bind_of_ok (getRel_run ho)]
    refine bind_of_ok ?_
    unfold convertOperand
    cases o.cls <;> rfl
  refine ⟨?_, ?_, relInterp_agree_all hM r h o ho ha hd, hop, ?_⟩
  · unfold relDiff
    rw [bind_of_ok (getRel_run ho), bind_of_ok (getRel_run ho), ← ha.differentiate]
    exact bind_congr_config (hM.differentiate _ _) fun p h1 c1 => construct_agree hM (by rw [c1]; exact hd) _ _
  · unfold relIntegrate
    rw [bind_of_ok (getRel_run ho), bind_of_ok (getRel_run ho), ← ha.integrate]
    exact bind_congr_config (hM.integrate _ _) fun p h1 c1 => construct_agree hM (by rw [c1]; exact hd) _ _
  · unfold getNorm relNorm
    rw [bind_of_ok (getRel_run ho), bind_of_ok (getRel_run ho), bind_run, bind_run, hpow M, hpow M', hop,
      ha.integrateOne]

/-- **C66** arithmetic of two relations of any class: the captured methods of both, the common-axis method in Config and, if one of them is a
sweep, the methods in `SweepConfig` at the time of the call. -/
theorem C66_sweep_binary_operation (hM : GoodMethods P M) (M' : Methods K V) (r1 r2 : Loc) (h : Heap K V) (o1 o2 : RelObj)
    (h1 : h.rels[r1]? = some o1) (h2 : h.rels[r2]? = some o2) (ha1 : AgreeOn M M' o1.caps) (ha2 : AgreeOn M M' o2.caps)
    (hd : o1.cls = .sweep ∨ o2.cls = .sweep → AgreeDescr M M' h.config)
    (hx : M.commonX h.config.commonX = M'.commonX h.config.commonX) (op : MathOp) :
    relOperation P M r1 (.rel r2) op h = relOperation P M' r1 (.rel r2) op h := by
  have he : relEqualize P M r1 r2 h = relEqualize P M' r1 r2 h := by
    unfold relEqualize
    rw [bind_of_ok (getRel_run h1), bind_of_ok (getRel_run h1), bind_of_ok (getRel_run h2), bind_of_ok (getRel_run h2)]
    split
    · rfl
    · rw [bind_of_ok (show config h = (.ok h.config, h) from rfl),
        bind_of_ok (show config h = (.ok h.config, h) from rfl), ← hx]
      have w := (hM.commonX h.config.commonX o1.x o2.x h).1
      rcases hnx : M.commonX h.config.commonX o1.x o2.x h with ⟨e | nx, h3⟩
      · rw [bind_of_error hnx, bind_of_error hnx]
      · rw [bind_of_ok hnx, bind_of_ok hnx]
        rw [hnx] at w
        obtain ⟨p1, hp1, e1, -⟩ := w.rels _ _ h1
        obtain ⟨p2, hp2, e2, -⟩ := w.rels _ _ h2
        have c3 : h3.config = h.config := w.config
        have hi1 := relInterp_agree_all (P := P) hM (M' := M') r1 h3 p1 hp1 (by rw [e1.caps]; exact ha1)
          (fun hs => by rw [c3]; exact hd (.inl (e1.cls ▸ hs))) (.axis nx)
        rw [bind_run, bind_run, ← hi1]
        have w' := (safe_relInterp (X := ∅) hM r1 (.axis nx) h3).1
        rcases hq : relInterp P M r1 (.axis nx) h3 with ⟨e | q1, h4⟩
        · rfl
        · simp only []
          rw [hq] at w'
          have c4 : h4.config = h3.config := w'.config
          obtain ⟨p2', hp2', e2', -⟩ := w'.rels _ _ hp2
          have hi2 := relInterp_agree_all (P := P) hM (M' := M') r2 h4 p2' hp2' (by rw [e2'.caps, e2.caps]; exact ha2)
            (fun hs => by rw [c4, c3]; exact hd (.inr (e2.cls ▸ e2'.cls ▸ hs))) (.axis nx)
          rw [bind_run, bind_run, ← hi2]
  unfold relOperation
  rw [bind_of_ok (getRel_run h1), bind_of_ok (getRel_run h1)]
  simp only []
  have hc := (safe_relEqualize (X := ∅) hM r1 r2 h).1.config
  rw [bind_run, bind_run, ← he]
  rcases hq : relEqualize P M r1 r2 h with ⟨e | ⟨q1, q2⟩, h3⟩
  · rfl
  rw [hq] at hc
  have c0 : h3.config = h.config := hc
  simp only []
  rw [← ha1.mathOp]
  refine bind_congr_config (safe_getRel (P := P) (X := ∅) _) fun p1 h4 c1 => ?_
  refine bind_congr_config (safe_getRel (P := P) (X := ∅) _) fun p2 h5 c2 => ?_
  refine bind_congr_config (safe_axisCopy (P := P) (X := ∅) _) fun nx h6 c3 => ?_
  refine bind_congr_config (safe_getY (P := P) (X := ∅) _) fun y1 h7 c4 => ?_
  refine bind_congr_config (safe_newY (P := P) (X := ∅) _) fun l1 h8 c5 => ?_
  refine bind_congr_config (safe_getY (P := P) (X := ∅) _) fun y2 h9 c6 => ?_
  refine bind_congr_config (safe_newY (P := P) (X := ∅) _) fun l2 h10 c7 => ?_
  refine bind_congr_config (hM.mathOp _ _ _ _) fun ny h11 c8 => ?_
  exact construct_agree hM (fun hs => by rw [c8, c7, c6, c5, c4, c3, c2, c1, c0]; exact hd (.inl hs)) _ _

/-- **C66** The captured method really is called: what it raises is raised. -/
theorem C66_captured_method_is_called (r : Loc) (h h1 : Heap K V) (o : RelObj) (ho : h.rels[r]? = some o) (e : Err) :
    (M.differentiate o.caps.differentiate r h = (.error e, h1) → relDiff P M r h = (.error e, h1)) ∧
    (M.integrate o.caps.integrate r h = (.error e, h1) → relIntegrate P M r h = (.error e, h1)) := by
  refine ⟨fun he => ?_, fun he => ?_⟩
  · unfold relDiff; rw [bind_of_ok (getRel_run ho), bind_of_error he]
  · unfold relIntegrate; rw [bind_of_ok (getRel_run ho), bind_of_error he]

/-- **C66** The common-axis, convolution and correlation methods are those in Config at the time of the call: what they
raise is raised, and no other name matters. -/
theorem C66_current_config_is_called (r1 r2 : Loc) (h h1 : Heap K V) (o1 o2 : RelObj)
    (ho1 : h.rels[r1]? = some o1) (ho2 : h.rels[r2]? = some o2) (e : Err) :
    (o1.x ≠ o2.x → M.commonX h.config.commonX o1.x o2.x h = (.error e, h1) → relEqualize P M r1 r2 h = (.error e, h1)) ∧
    (C.convolve h.config.convolve .relation r1 r2 h = (.error e, h1) →
      clsConv P M C.convolveCall .relation (.obj r1) (.obj r2) h = (.error e, h1)) ∧
    (C.correlate h.config.correlate .relation r1 r2 h = (.error e, h1) →
      clsConv P M C.correlateCall .relation (.obj r1) (.obj r2) h = (.error e, h1)) ∧
    (∀ C' : ConvMethods K V, C'.convolve h.config.convolve = C.convolve h.config.convolve →
      clsConv P M C'.convolveCall .relation (.obj r1) (.obj r2) h =
        clsConv P M C.convolveCall .relation (.obj r1) (.obj r2) h) ∧
    (∀ C' : ConvMethods K V, C'.correlate h.config.correlate = C.correlate h.config.correlate →
      clsConv P M C'.correlateCall .relation (.obj r1) (.obj r2) h =
        clsConv P M C.correlateCall .relation (.obj r1) (.obj r2) h) := by
  have hg : (config : HM K V ConfigIds) h = (.ok h.config, h) := rfl
  refine ⟨fun hx he => ?_, fun he => ?_, fun he => ?_, fun C' hC => ?_, fun C' hC => ?_⟩
  · unfold relEqualize
    rw [bind_of_ok (getRel_run ho1), bind_of_ok (getRel_run ho2), if_neg hx, bind_of_ok hg, bind_of_error he]
  · simp only [clsConv]; unfold relConv
    rw [bind_of_ok hg]
    exact bind_of_error he
  · simp only [clsConv]; unfold relConv
    rw [bind_of_ok hg]
    exact bind_of_error he
  · simp only [clsConv]; unfold relConv
    rw [bind_of_ok hg, bind_of_ok hg]
    simp only [ConvMethods.convolveCall, hC]
  · simp only [clsConv]; unfold relConv
    rw [bind_of_ok hg, bind_of_ok hg]
    simp only [ConvMethods.correlateCall, hC]

/-- **C66** Transforms: `get_spectrum` and `get_signal` without a cached result run the captured method, and no other name matters. -/
theorem C66_transforms (M' : Methods K V) (r : Loc) (h : Heap K V) (o : RelObj) (ho : h.rels[r]? = some o) :
    (M.signal2spectrum o.caps.transform = M'.signal2spectrum o.caps.transform →
      ∀ f z, getSpectrum P M r f z h = getSpectrum P M' r f z h) ∧
    (M.spectrum2signal o.caps.transform = M'.spectrum2signal o.caps.transform →
      ∀ t s, getSignal P M r t s h = getSignal P M' r t s h) ∧
    (∀ f z e h1, o.counterpart = none → M.signal2spectrum o.caps.transform r f z h = (.error e, h1) →
      getSpectrum P M r f z h = (.error e, h1)) ∧
    (∀ t s e h1, o.counterpart = none → M.spectrum2signal o.caps.transform r t s h = (.error e, h1) →
      getSignal P M r t s h = (.error e, h1)) := by
  have hc : ∀ (cls : Cls) (hcls : cls ≠ .sweep) (ax : Loc) (y : HYArg V) (cp : Option Loc),
      construct P M cls (.axis ax) y cp = construct P M' cls (.axis ax) y cp := by
    intro cls hcls ax y cp
    unfold construct
    simp only [if_neg hcls]
    rfl
  refine ⟨fun hm f z => ?_, fun hm t s => ?_, fun f z e h1 hn he => ?_, fun t s e h1 hn he => ?_⟩
  · unfold getSpectrum
    simp only [bind_of_ok (getRel_run ho), hc .spectrum (by simp), hm]
  · unfold getSignal
    simp only [bind_of_ok (getRel_run ho), hc .signal (by simp), hm]
  · unfold getSpectrum
    rw [bind_of_ok (getRel_run ho), hn]
    exact bind_of_error he
  · unfold getSignal
    rw [bind_of_ok (getRel_run ho), hn]
    exact bind_of_error he

/-- **C66** Sweeps: the methods named in `SweepConfig` when a sweep is made are called; what they raise is raised. -/
theorem C66_sweep_config_is_called (hM : GoodMethods P M) (x : HXArg K) (y : HYArg V) (cp : Option Loc) (h h1 : Heap K V) (l : Loc)
    (hi : relInit P M .sweep x y cp h = (.ok l, h1)) (e : Err) :
    (∀ h2, M.getFt h.config.getFt l h1 = (.error e, h2) → construct P M .sweep x y cp h = (.error e, h2)) := by
  intro h2 he
  have hc := (safe_relInit (X := ∅) hM .sweep x y cp h).1.config
  rw [hi] at hc
  have hc : h1.config = h.config := hc
  unfold construct
  rw [bind_of_ok hi, if_pos rfl]
  unfold sweepInit
  rw [bind_of_ok (show config h1 = (.ok h1.config, h1) from rfl), hc]
  exact bind_of_error he

/-- method names 0: the defaults; name 1: `differentiate` and `get_common_x` raise -/
def twoMethods : Methods ℚ ℚ :=
  { defaultMethods ratPrims with
    differentiate := fun n r => if n = 0 then defDifferentiate ratPrims r else raise .value
    commonX := fun n a b => if n = 0 then defCommonX ratPrims a b else raise .value }

def twoRelations : Heap ℚ ℚ :=
  runSteps ratPrims twoMethods (defaultConvMethods ratPrims twoMethods)
    [.call (.axisNew 0 2 1), .call (.construct .relation (.axis 0) (.list [1, 2, 4])),
     .call (.axisNew 0 2 1), .call (.construct .relation (.axis 1) (.list [1, 1, 1])),
     .edit (.setConfig { noConfig with differentiate := 1, commonX := 1 })] (emptyHeap ℚ ℚ)

/-- After Config is changed, an old relation still differentiates with the old method, while the sum of two relations
on different axes uses the new common-axis method. -/
example :
    (relDiff ratPrims twoMethods 0 twoRelations).1 = .ok 2 ∧
    yAt (relDiff ratPrims twoMethods 0 twoRelations).2 2 = some [1, 2] ∧
    (relOperation ratPrims twoMethods 0 (.rel 1) .add twoRelations).1 = .error .value := by decide +kernel

/-- name 1: `get_f_t` raises -/
def twoDescriptions : Methods ℚ ℚ :=
  { defaultMethods ratPrims with
    getFt := fun n r => if n = 0 then pure r else raise .value
    getAt := fun _ r => pure r
    spectrogram := fun _ _ => pure () }

def oldSweep : Heap ℚ ℚ :=
  runSteps ratPrims twoDescriptions (defaultConvMethods ratPrims twoDescriptions)
    [.call (.axisNew 0 2 1), .call (.construct .sweep (.axis 0) (.list [1, 2, 4]))] (emptyHeap ℚ ℚ)

/-- A sweep made before `SweepConfig` was changed has a derivative; afterwards the new `get_f_t` is asked when the derivative is made. -/
example :
    (relDiff ratPrims twoDescriptions 0 oldSweep).1 = .ok 1 ∧
    (relDiff ratPrims twoDescriptions 0 { oldSweep with config := { noConfig with getFt := 1 } }).1 = .error .value := by
  decide +kernel

/-! ## C31 -/

section Dispatch
variable {K : Type} [Field K] [LinearOrder K] [IsStrictOrderedRing K] [FloorRing K]
variable {V : Type} [Field V] [Algebra K V] [Star V] [DecidableEq V] [PyPow V]
variable {M : Methods K V}

/-- the operand is nothing numpy can combine with an array of length `n` -/
def Spec.Incompatible (h : Heap K V) (n : ℕ) : HOperand V → Prop
  | .bad => True
  | .arr l => ∃ y, h.yarrs[l]? = some y ∧ y.length ≠ n ∧ y.length ≠ 1 ∧ n ≠ 1
  | .num _ => False

theorem mathOperation_incompatible (y l : List V) (h1 : l.length ≠ y.length) (h2 : l.length ≠ 1) (h3 : y.length ≠ 1)
    (op : MathOp) : mathOperation y (.arr l) op = .error .typeFunc := by
  unfold mathOperation
  simp only []
  rw [if_neg fun h => h1 h.symm]
  match y, l, h2, h3 with
  | [], [], _, _ => rfl
  | [_], _, _, h3 => simp at h3
  | _, [_], h2, _ => simp at h2
  | [], _ :: _ :: _, _, _ => rfl
  | _ :: _ :: _, [], _, _ => rfl
  | _ :: _ :: _, _ :: _ :: _, _, _ => rfl

theorem relOperation_incompatible (T : Transcendental K V) (r : Loc) (o : RelObj) (a : AxisObj K) (y : List V)
    (h : Heap K V) (hr : IsRel h r o a y) (w : HOperand V) (hw : Incompatible h y.length w) (op : MathOp) :
    (relOperation (exactPrims T) (defaultMethods (exactPrims T)) r (.other w) op h).1 = .error .typeFunc := by
  unfold relOperation
  rw [bind_of_ok (getRel_run hr.rel)]
  have hcopy : axisCopy o.x h = (.ok h.axes.length, { h with axes := h.axes ++ [a] }) := by
    unfold axisCopy; rw [bind_of_ok (getAxis_run hr.axis)]; rfl
  simp only []
  have hy1 : ({ h with axes := h.axes ++ [a] } : Heap K V).yarrs[o.y]? = some y := hr.ys
  rw [bind_of_ok hcopy, bind_of_ok (getY_run hy1), bind_of_ok
    (show newY y { h with axes := h.axes ++ [a] } =
      (.ok h.yarrs.length, { h with axes := h.axes ++ [a], yarrs := h.yarrs ++ [y] }) from rfl)]
  rw [bind_run]
  set h2 : Heap K V := { h with axes := h.axes ++ [a], yarrs := h.yarrs ++ [y] } with hh2
  have hm : (defaultMethods (exactPrims T)).mathOp o.caps.mathOp h.yarrs.length w op h2 = (.error .typeFunc, h2) := by
    show defMathOp (exactPrims T) h.yarrs.length w op h2 = _
    unfold defMathOp
    have hy : h2.yarrs[h.yarrs.length]? = some y := by simp [hh2]
    rw [bind_of_ok (getY_run hy)]
    cases w with
    | num c => exact absurd hw id
    | bad => rfl
    | arr l =>
      obtain ⟨y', hy', g1, g2, g3⟩ := hw
      have hy2 : h2.yarrs[l]? = some y' := by
        simp only [hh2]; exact getElem?_append_some hy'
      have : npOperand (HOperand.arr l) h2 = (.ok (NpOperand.arr y'), h2) := by
        exact bind_of_ok (getY_run hy2)
      rw [bind_of_ok this, bind_of_error]
      show (mathOperation y (.arr y') op, h2) = _
      rw [mathOperation_incompatible y y' g1 g2 g3]
  rw [hm]

/-- **C31** An operand numpy cannot combine with the samples (not a number, or an array of another length): every
operator of a Relation, Signal or Sweep, and every reflected operator of a Spectrum, raises `TypeFuncError`. -/
theorem C31_incompatible_operand (T : Transcendental K V) (r : Loc) (o : RelObj) (a : AxisObj K) (y : List V)
    (h : Heap K V) (hr : IsRel h r o a y) (w : HOperand V) (hw : Incompatible h y.length w) (op : MathOp)
    (hc : o.cls ≠ .spectrum ∨ ¬ Forward op) :
    (operator (exactPrims T) (defaultMethods (exactPrims T)) r (.other w) op h).1 = .error .typeFunc := by
  rw [← not_forward_iff] at hc
  unfold operator
  rw [bind_of_ok (getRel_run hr.rel)]
  have : convertOperand (exactPrims T) (defaultMethods (exactPrims T)) o.cls (.other w) op h = (.ok (.other w), h) := by
    unfold convertOperand
    by_cases hf : MathOp.isForward op = true
    · rw [if_pos hf]
      have hc : o.cls ≠ .spectrum := by rcases hc with hc | hc; exacts [hc, by rw [hf] at hc; simp at hc]
      cases hcls : o.cls with
      | spectrum => exact absurd hcls hc
      | relation => rfl
      | signal => rfl
      | sweep => rfl
    · rw [if_neg hf]; rfl
  rw [bind_of_ok this]
  exact relOperation_incompatible T r o a y h hr w hw op

end Dispatch

/-- **C31** Spectrum operators raise `ConvertingError` for everything that is not a relation or an int, float or
complex, also for arrays numpy could combine. Any Config methods. -/
theorem C31_spectrum_converting_error (r : Loc) (o : RelObj) (h : Heap K V) (hr : h.rels[r]? = some o)
    (hc : o.cls = .spectrum) (w : HOperand V) (op : MathOp) (hf : Forward op) :
    operator P M r (.other w) op h = (.error .converting, h) := by
  rw [← forward_iff] at hf
  unfold operator
  rw [bind_of_ok (getRel_run hr)]
  have : convertOperand P M o.cls (.other w) op h = (.error .converting, h) := by
    unfold convertOperand
    rw [if_pos hf, hc]
    rfl
  rw [bind_of_error this]

/-- **C31** A Signal operand of a Spectrum operator is replaced by its (cached) spectrum; a Spectrum operand of a Signal
operator is replaced by its signal; then the operator is the same as with the converted object. -/
theorem C31_operands_are_converted (r q : Loc) (o p : RelObj) (h : Heap K V)
    (hr : h.rels[r]? = some o) (hq : h.rels[q]? = some p) (op : MathOp) (hf : Forward op) :
    (o.cls = .spectrum → SignalClass p.cls → ∀ c h1, getSpectrum P M q .none false h = (.ok c, h1) →
      operator P M r (.obj q) op h = relOperation P M r (.rel c) op h1) ∧
    (SignalClass o.cls → p.cls = .spectrum → ∀ c h1, getSignal P M q .none none h = (.ok c, h1) →
      operator P M r (.obj q) op h = relOperation P M r (.rel c) op h1) ∧
    (o.cls = .spectrum → ¬ SignalClass p.cls → operator P M r (.obj q) op h = relOperation P M r (.rel q) op h) ∧
    (SignalClass o.cls → p.cls ≠ .spectrum → operator P M r (.obj q) op h = relOperation P M r (.rel q) op h) ∧
    (o.cls = .relation → operator P M r (.obj q) op h = relOperation P M r (.rel q) op h) := by
  simp only [← isSignal_iff, Bool.not_eq_true]
  rw [← forward_iff] at hf
  unfold operator
  rw [bind_of_ok (getRel_run hr)]
  unfold convertOperand
  rw [if_pos hf]
  refine ⟨fun hc hp c h1 hs => ?_, fun hc hp c h1 hs => ?_, fun hc hp => ?_, fun hc hp => ?_, fun hc => ?_⟩
  · rw [hc]
    have : input2spectrumOperation P M (.obj q) h = (.ok (.rel c), h1) := by
      unfold input2spectrumOperation
      simp only []
      rw [bind_of_ok (getRel_run hq), if_pos hp, bind_of_ok hs]; rfl
    exact bind_of_ok this
  · rw [if_pos hc]
    have : inp2signalOperation P M (.obj q) h = (.ok (.rel c), h1) := by
      unfold inp2signalOperation
      simp only []
      rw [bind_of_ok (getRel_run hq), if_pos hp, bind_of_ok hs]; rfl
    exact bind_of_ok this
  · rw [hc]
    have : input2spectrumOperation P M (.obj q) h = (.ok (.rel q), h) := by
      unfold input2spectrumOperation
      simp only []
      rw [bind_of_ok (getRel_run hq), if_neg (by simp [hp])]; rfl
    exact bind_of_ok this
  · rw [if_pos hc]
    have : inp2signalOperation P M (.obj q) h = (.ok (.rel q), h) := by
      unfold inp2signalOperation
      simp only []
      rw [bind_of_ok (getRel_run hq), if_neg hp]; rfl
    exact bind_of_ok this
  · rw [hc]; rfl

/-- the operand is not a relation object -/
def Spec.NotRelation : PyOperand V → Prop
  | .obj _ => False
  | _ => True

/-- **C31** `convolve` and `correlate` on something that is not a relation: `Relation`'s raise `TypeFuncError`,
`Signal`'s, `Sweep`'s and `Spectrum`'s raise `ConvertingError` (when converting the other operand succeeds, or the first
operand is the bad one). -/
theorem C31_convolve_errors (F : ConvCall K V) (a b : PyOperand V) (h : Heap K V) :
    (NotRelation a ∨ NotRelation b → clsConv P M F .relation a b h = (.error .typeFunc, h)) ∧
    (∀ cls, cls ≠ .relation → NotRelation a → clsConv P M F cls a b h = (.error .converting, h)) ∧
    (NotRelation b → ∀ c h1, input2spectrum P M a h = (.ok c, h1) →
      clsConv P M F .spectrum a b h = (.error .converting, h1)) ∧
    (NotRelation b → ∀ cls, SignalClass cls → ∀ c h1, inp2signal P M a h = (.ok c, h1) →
      clsConv P M F cls a b h = (.error .converting, h1)) := by
  refine ⟨fun hab => ?_, fun cls hcls ha => ?_, fun hb c h1 ha => ?_, fun hb cls hcls c h1 ha => ?_⟩
  · cases a <;> cases b <;> first | rfl | (rcases hab with hab | hab <;> exact absurd hab id)
  · cases a with
    | obj => exact absurd ha id
    | number => cases cls <;> first | rfl | exact absurd rfl hcls
    | other => cases cls <;> first | rfl | exact absurd rfl hcls
  · unfold clsConv
    simp only []
    rw [bind_of_ok ha]
    cases b with
    | obj => exact absurd hb id
    | number => rfl
    | other => rfl
  · cases cls with
    | relation => simp [SignalClass] at hcls
    | spectrum => simp [SignalClass] at hcls
    | signal =>
      unfold clsConv
      simp only []
      rw [bind_of_ok ha]
      cases b with
      | obj => exact absurd hb id
      | number => rfl
      | other => rfl
    | sweep =>
      unfold clsConv
      simp only []
      rw [bind_of_ok ha]
      cases b with
      | obj => exact absurd hb id
      | number => rfl
      | other => rfl

/-- a signal (object 0), its spectrum (object 1), a plain relation (object 2) -/
def mixedHeap : Heap ℚ ℚ :=
  runSteps ratPrims (defaultMethods ratPrims) (defaultConvMethods ratPrims (defaultMethods ratPrims))
    [.call (.axisNew 0 3 1), .call (.construct .signal (.axis 0) (.list [1, 2, 3, 4])), .call (.getSpectrum 0 .none false),
     .call (.axisNew 0 2 1), .call (.construct .relation (.axis 2) (.list [1, 1, 1]))] (emptyHeap ℚ ℚ)

example : (mixedHeap.rels.map RelObj.cls) = [.signal, .spectrum, .relation] := by decide +kernel

example :
    (operator ratPrims (defaultMethods ratPrims) 0 (.other .bad) .add mixedHeap).1 = .error .typeFunc ∧
    (operator ratPrims (defaultMethods ratPrims) 2 (.other (.arr 0)) .mul mixedHeap).1 = .error .typeFunc ∧
    (operator ratPrims (defaultMethods ratPrims) 1 (.other (.arr 1)) .add mixedHeap).1 = .error .converting ∧
    (operator ratPrims (defaultMethods ratPrims) 1 (.other .bad) .radd mixedHeap).1 = .error .typeFunc ∧
    (operator ratPrims (defaultMethods ratPrims) 0 (.obj 1) .add mixedHeap).1.isOk = true ∧
    (operator ratPrims (defaultMethods ratPrims) 1 (.obj 0) .add mixedHeap).1.isOk = true := by decide +kernel

end SweepDesign
