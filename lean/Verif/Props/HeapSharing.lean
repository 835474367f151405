import Verif.Heap.Own
import Verif.Heap.Exact

/-!
# C32–C35: what is shared and what is not
-/

set_option linter.unusedSectionVars false

namespace SweepDesign

open Mem Spec HM

variable {K V : Type} {P : Prims K V} {M : Methods K V} {C : ConvMethods K V}

/-! ## C32 -/

/-- **C32** A call (returning or raising) changes no axis field, no array read, no ndarray, no class, axis reference or y
reference of any object that existed before, and not Config. Any heap with correct caches, any aliasing, any Config
methods that keep the contract. -/
theorem C32_call_changes_nothing (hM : GoodMethods P M) (hC : GoodConvMethods P C) (c : Call K V) (h : Heap K V)
    (hc : Coh P h) :
    let h' := (c.exec P M C h).2
    (∀ l a, fieldsAt h l = some a → fieldsAt h' l = some a ∧ arrayAt P h' l = arrayAt P h l) ∧
    (∀ (j : Loc) v, h.xarrs[j]? = some v → h'.xarrs[j]? = some v) ∧
    (∀ (j : Loc) v, h.yarrs[j]? = some v → h'.yarrs[j]? = some v) ∧
    (∀ r p, partsAt h r = some p → partsAt h' r = some p) ∧
    (∀ r y, yAt h r = some y → yAt h' r = some y) ∧ h'.config = h.config := by
  intro h'
  have w := safe_call hM hC c h
  have k := w.1.keep
  have hy : ∀ (j : Loc) v, h.yarrs[j]? = some v → h'.yarrs[j]? = some v :=
    fun j v hv => k.yarrs j v hv (Set.notMem_empty _)
  refine ⟨fun l a ha => ?_, w.1.xarrs, hy, fun r p hp => ?_, fun r y hry => ?_, w.1.config⟩
  · rw [fieldsAt, Option.map_eq_some_iff] at ha
    obtain ⟨o, ho, rfl⟩ := ha
    obtain ⟨o', ho', e⟩ := k.axes l o ho (Set.notMem_empty _)
    refine ⟨by rw [fieldsAt, ho']; simp [e], ?_⟩
    rw [arrayAt, arrayAt, axisValues_run hc ho, axisValues_run (w.2 hc) ho']
    have h1 : o'.start = o.start := congrArg Axis.start e
    have h2 : o'.stop = o.stop := congrArg Axis.stop e
    have h3 : o'.sample = o.sample := congrArg Axis.sample e
    rw [h1, h2, h3]
  · rw [partsAt, Option.map_eq_some_iff] at hp
    obtain ⟨o, ho, rfl⟩ := hp
    obtain ⟨o', ho', e⟩ := k.rels r o ho
    rw [partsAt, ho']; simp [e.cls, e.x, e.y]
  · rw [yAt, Option.bind_eq_some_iff] at hry
    obtain ⟨o, ho, hoy⟩ := hry
    obtain ⟨o', ho', e⟩ := k.rels r o ho
    rw [yAt, ho']
    simp only [Option.bind_some, e.y]
    exact hy _ _ hoy

/-- **C32** for histories of calls and Config assignments: every relation keeps its data, every axis its fields and
array. -/
theorem C32_history_changes_nothing (hM : GoodMethods P M) (hC : GoodConvMethods P C) (ss : List (Step K V))
    (hs : ∀ s ∈ ss, within ∅ ∅ ∅ s) (h : Heap K V) (hc : Coh P h) :
    (∀ r o a y, IsRel h r o a y → dataAt P (runSteps P M C ss h) r = dataAt P h r) ∧
    (∀ l a, fieldsAt h l = some a → fieldsAt (runSteps P M C ss h) l = some a) := by
  obtain ⟨k, c'⟩ := steps_keep hM hC ss hs h (fun j hj => absurd hj (Set.notMem_empty _)) hc
  refine ⟨fun r o a y hr => data_keep hc c' k hr (Set.notMem_empty _) (Set.notMem_empty _), fun l a ha => ?_⟩
  rw [fieldsAt, Option.map_eq_some_iff] at ha
  obtain ⟨o, ho, rfl⟩ := ha
  obtain ⟨o', ho', e⟩ := k.axes l o ho (Set.notMem_empty _)
  rw [fieldsAt, ho']; simp [e]

/-- The defaults keep the contract, so for them there is no condition. -/
theorem C32_defaults (c : Call K V) (h : Heap K V) (hc : Coh P h) :
    let h' := (c.exec P (defaultMethods P) (defaultConvMethods P (defaultMethods P)) h).2
    (∀ l a, fieldsAt h l = some a → fieldsAt h' l = some a ∧ arrayAt P h' l = arrayAt P h l) ∧
    (∀ r y, yAt h r = some y → yAt h' r = some y) := by
  obtain ⟨h1, -, -, -, h5, -⟩ := C32_call_changes_nothing good_defaultMethods (good_defaultConvMethods good_defaultMethods)
    c h hc
  exact ⟨h1, h5⟩

/-- a Config `math_operation` that overwrites the y array 0, whatever it is asked to do -/
def vandalMethods : Methods ℚ ℚ :=
  { defaultMethods ratPrims with
    mathOp := fun _ l _ _ h => (.ok l, { h with yarrs := h.yarrs.modify 0 fun y => y.map fun _ => 7 }) }

def defaultC : ConvMethods ℚ ℚ := defaultConvMethods ratPrims (defaultMethods ratPrims)

/-- one relation on `[0, 1, 2]`, not yet read -/
def oneRelation : Heap ℚ ℚ :=
  runSteps ratPrims (defaultMethods ratPrims) defaultC
    [.call (.axisNew 0 2 1), .call (.construct .relation (.axis 0) (.list [1, 2, 3]))] (emptyHeap ℚ ℚ)

/-- Without the contract the claim is false: a Config method may do anything. -/
theorem C32_contract_needed :
    yAt oneRelation 0 = some [1, 2, 3] ∧
    yAt ((Call.operator 0 (.number 1) .add).exec ratPrims vandalMethods defaultC oneRelation).2 0 = some [7, 7, 7] := by
  decide +kernel

example : ((Call.operator 0 (.obj 0) .add).exec ratPrims (defaultMethods ratPrims) defaultC oneRelation).1 = .ok [4] ∧
    yAt ((Call.operator 0 (.obj 0) .add).exec ratPrims (defaultMethods ratPrims) defaultC oneRelation).2 0 =
      some [1, 2, 3] ∧
    yAt ((Call.operator 0 (.obj 0) .add).exec ratPrims (defaultMethods ratPrims) defaultC oneRelation).2 4 =
      some [2, 4, 6] := by decide +kernel

/-! ## C33 -/

/-- calls whose relation results are made by the package on a new axis -/
def Spec.makesOwn : Call K V → Prop
  | .construct _ (.axis _) _ => False
  | .getSpectrum _ _ _ => False
  | .getSignal _ _ _ => False
  | _ => True

theorem one_ok {α : Type} {m : HM K V α} {f : α → List Loc} {h h' : Heap K V} {ls : List Loc}
    (hh : one m f h = (.ok ls, h')) : ∃ a, m h = (.ok a, h') ∧ ls = f a := by
  unfold one at hh
  rw [bind_ok] at hh
  obtain ⟨a, h1, h2, h3⟩ := hh
  simp only [pure_run, Prod.mk.injEq, Except.ok.injEq] at h3
  obtain ⟨rfl, rfl⟩ := h3
  exact ⟨a, h2, rfl⟩

/-- **C33** Every relation returned by arithmetic, `select_data`, `exp`, `diff`, `integrate`,
`interpolate_extrapolate`, `shift`, `equalize`, `Relation(r)` (and by `convolve`, `correlate`, the amplitude and phase
spectra, `add_phase`, the reverse filters) is a new object with a new axis object and a new y array. -/
theorem C33_result_has_own_parts (hM : GoodMethods P M) (hC : GoodConvMethods P C) (hF : FreshMethods M)
    (hFC : FreshConvMethods C) (c : Call K V) (hc : makesOwn c) (h h' : Heap K V) (ls : List Loc)
    (wf : ∀ (r : Loc) o, h.rels[r]? = some o → o.x < h.axes.length ∧ o.y < h.yarrs.length)
    (hh : c.exec P M C h = (.ok ls, h')) : ∀ l ∈ ls, ∃ o, OwnsParts h h' l o := by
  have single : ∀ {m : HM K V Loc}, OwnM m → one m (fun l => [l]) h = (.ok ls, h') → ∀ l ∈ ls, ∃ o, OwnsParts h h' l o := by
    intro m hm hh l hl
    obtain ⟨a, ha, rfl⟩ := one_ok hh
    rw [List.mem_singleton] at hl
    subst hl
    exact hm _ _ _ ha
  have empty : ∀ {α : Type} {m : HM K V α}, one m (fun _ => []) h = (.ok ls, h') → ∀ l ∈ ls, ∃ o, OwnsParts h h' l o := by
    intro α m hh l hl
    obtain ⟨a, ha, rfl⟩ := one_ok hh
    exact absurd hl List.not_mem_nil
  cases c with
  | axisNew => exact empty hh
  | axisArray => exact empty hh
  | axisActual => exact empty hh
  | axisCopy => exact empty hh
  | construct c x y =>
    cases x with
    | rel r => exact single (ownM_construct_rel hM _ _ _ _) hh
    | axis l => exact absurd hc id
    | array x f => exact single (ownM_construct_array hM hF _ _ _ _ _) hh
  | getData => exact empty hh
  | max => exact empty hh
  | min => exact empty hh
  | norm => exact empty hh
  | select => exact single (ownM_relSelect hM _ _ _) hh
  | exp => exact single (ownM_relExp hM _) hh
  | diff => exact single (ownM_relDiff hM hF _) hh
  | integrate => exact single (ownM_relIntegrate hM hF _) hh
  | interp => exact single (ownM_relInterp hM hF _ _) hh
  | shift => exact single (ownM_shift hM _ _) hh
  | equalize r1 r2 =>
    intro l hl
    obtain ⟨a, ha, rfl⟩ := one_ok hh
    obtain ⟨o1, o2, p1, p2, -⟩ := own_equalize hM hF (wf r1) (wf r2) ha
    simp only [List.mem_cons, List.not_mem_nil, or_false] at hl
    rcases hl with rfl | rfl
    · exact ⟨o1, p1⟩
    · exact ⟨o2, p2⟩
  | operator => exact single (ownM_operator hM _ _ _) hh
  | len => exact empty hh
  | item => exact empty hh
  | getSpectrum => exact absurd hc id
  | getSignal => exact absurd hc id
  | getAmp => exact single (ownM_getAmp hM _) hh
  | getPhase => exact single (ownM_getPhase hM _) hh
  | sgAmp r f z =>
    exact single (OwnM.bind (P := P) (X := ⟨∅, {r}, ∅⟩) (safe_getSpectrum hM _ _ fun _ => rfl) fun _ => ownM_getAmp hM _) hh
  | sgPhase r f z =>
    exact single (OwnM.bind (P := P) (X := ⟨∅, {r}, ∅⟩) (safe_getSpectrum hM _ _ fun _ => rfl) fun _ => ownM_getPhase hM _) hh
  | spAddPhase => exact single (ownM_spAddPhase hM _ _ _) hh
  | sgAddPhase => exact single (ownM_sgAddPhase hM _ _ _) hh
  | reverseFilter => exact single (ownM_reverseFilter hM _ _ _ _ _) hh
  | reverseSignal => exact single (ownM_reverseSignal hM _ _ _ _ _) hh
  | fromAmpPhase => exact single (ownM_fromAmpPhase hM _ _) hh
  | convolve => exact single (ownM_clsConv hM hC.convolve (fun _ _ _ _ => hFC.convolve _ _ _ _) _ _ _) hh
  | correlate => exact single (ownM_clsConv hM hC.correlate (fun _ _ _ _ => hFC.correlate _ _ _ _) _ _ _) hh

/-- **C33** The two results of `equalize` do not share with each other either. -/
theorem C33_equalize_results_differ (hM : GoodMethods P M) (hF : FreshMethods M) (r1 r2 : Loc) (h h' : Heap K V)
    (q : Loc × Loc) (wf : ∀ (r : Loc) o, h.rels[r]? = some o → o.x < h.axes.length ∧ o.y < h.yarrs.length)
    (hh : relEqualize P M r1 r2 h = (.ok q, h')) :
    ∃ o1 o2, OwnsParts h h' q.1 o1 ∧ OwnsParts h h' q.2 o2 ∧ o1.x ≠ o2.x ∧ o1.y ≠ o2.y ∧ q.1 ≠ q.2 :=
  own_equalize hM hF (wf r1) (wf r2) hh

/-- **C33** Whatever is later assigned to start, end and sample of the result or written into its y, and whatever is
called in between, every relation that existed before keeps its data. -/
theorem C33_editing_the_result (hM : GoodMethods P M) (hC : GoodConvMethods P C) (c : Call K V) (h h' : Heap K V)
    (ls : List Loc) (hh : c.exec P M C h = (.ok ls, h')) (hc : Coh P h) (l : Loc) (o : RelObj) (hl : OwnsParts h h' l o)
    (ss : List (Step K V)) (hs : ∀ s ∈ ss, within {o.x} {o.y} ∅ s)
    (r : Loc) (p : RelObj) (a : AxisObj K) (y : List V) (hr : IsRel h r p a y) :
    dataAt P (runSteps P M C ss h') r = dataAt P h r := by
  have w := safe_call hM hC c h
  rw [hh] at w
  obtain ⟨k, c'⟩ := steps_keep hM hC ss hs h' (fun j hj => absurd hj (Set.notMem_empty _)) (w.2 hc)
  have k1 : Keep {o.x} {o.y} h h' := w.1.keep.mono (Set.empty_subset _) (Set.empty_subset _)
  refine data_keep hc c' (k1.trans k) hr ?_ ?_
  · intro hx
    rw [Set.mem_singleton_iff] at hx
    have := (List.getElem?_eq_some_iff.1 hr.axis).1
    have := hl.axis
    rw [hx] at *
    omega
  · intro hx
    rw [Set.mem_singleton_iff] at hx
    have := (List.getElem?_eq_some_iff.1 hr.ys).1
    have := hl.ys
    rw [hx] at *
    omega

/-- **C33** and vice versa: whatever is later assigned to axes or written into y arrays that existed before the call,
the result keeps its data. -/
theorem C33_editing_the_operands (hM : GoodMethods P M) (hC : GoodConvMethods P C) (c : Call K V) (h h' : Heap K V)
    (ls : List Loc) (hh : c.exec P M C h = (.ok ls, h')) (hc : Coh P h) (l : Loc) (o : RelObj) (hl : OwnsParts h h' l o)
    (ss : List (Step K V)) (hs : ∀ s ∈ ss, within {i | i < h.axes.length} {i | i < h.yarrs.length} ∅ s) :
    dataAt P (runSteps P M C ss h') l = dataAt P h' l := by
  have w := safe_call hM hC c h
  rw [hh] at w
  obtain ⟨k, c'⟩ := steps_keep hM hC ss hs h' (fun j hj => absurd hj (Set.notMem_empty _)) (w.2 hc)
  have hx := List.getElem?_eq_getElem hl.axis_lt
  have hy := List.getElem?_eq_getElem hl.ys_lt
  exact data_keep (w.2 hc) c' k ⟨hl.rel, hx, hy⟩ (not_lt.2 hl.axis) (not_lt.2 hl.ys)

/-- **C33** A relation built on an axis object shares that object. -/
theorem C33_built_on_an_axis_shares_it (hM : GoodMethods P M) (cls : Cls) (ax : Loc) (y : HYArg V) (h h' : Heap K V)
    (l : Loc) (hh : construct P M cls (.axis ax) y none h = (.ok l, h')) :
    ∃ o, h'.rels[l]? = some o ∧ o.x = ax ∧ h.yarrs.length ≤ o.y := by
  obtain ⟨o, h1, -, h3, h4, -⟩ := ownX_construct hM cls ax y none _ _ _ hh
  exact ⟨o, h1, h3, h4⟩

/-- `r.exp()`, then the end of the result is changed: `r` keeps its data, the result does not -/
example :
    let h' := ((Call.exp 0).exec ratPrims (defaultMethods ratPrims) defaultC oneRelation).2
    let h'' := runSteps ratPrims (defaultMethods ratPrims) defaultC
      [.edit (.setStop 1 4), .call (.getData 0), .edit (.pokeY 1 fun y => y.map fun _ => 9)] h'
    dataAt ratPrims h' 1 = .ok (some [0, 1, 2], some [2, 3, 4]) ∧
    dataAt ratPrims h'' 0 = .ok (some [0, 1, 2], some [1, 2, 3]) ∧
    dataAt ratPrims h'' 1 = .error (.notEqual 5 3) := by decide +kernel

/-- two relations on one axis object: the assignment is seen by both -/
example :
    let h := runSteps ratPrims (defaultMethods ratPrims) defaultC
      [.call (.construct .relation (.axis 0) (.list [4, 5, 6])), .edit (.setStop 0 4), .edit (.setSample 0 2)] oneRelation
    dataAt ratPrims h 0 = .ok (some [0, 2, 4], some [1, 2, 3]) ∧
    dataAt ratPrims h 1 = .ok (some [0, 2, 4], some [4, 5, 6]) := by decide +kernel

/-! ## C34 -/

/-- **C34** Whatever is written into the two arrays returned by `get_data`, and whatever is called in between, every
relation that existed before (the one asked included) keeps its data, and so a later `get_data` returns it. -/
theorem C34_get_data_copies (hM : GoodMethods P M) (hC : GoodConvMethods P C) (q : Loc) (h h' : Heap K V) (lx ly : Loc)
    (hh : relGetData P q h = (.ok (lx, ly), h')) (hc : Coh P h)
    (ss : List (Step K V)) (hs : ∀ s ∈ ss, within ∅ {ly} {lx} s)
    (r : Loc) (o : RelObj) (a : AxisObj K) (y : List V) (hr : IsRel h r o a y) :
    dataAt P (runSteps P M C ss h') r = dataAt P h r := by
  have w := safe_relGetData (P := P) (X := ∅) q h
  rw [hh] at w
  obtain ⟨w, wc⟩ := w
  have hly : h.yarrs.length ≤ ly ∧ lx < h'.xarrs.length ∧ ¬ Cached h' lx := by
    clear w wc
    unfold relGetData at hh
    rw [bind_ok] at hh
    obtain ⟨p, h1, hp, hh⟩ := hh
    obtain ⟨hp, rfl⟩ := getRel_ok.1 hp
    rw [bind_ok] at hh
    obtain ⟨n, h2, hn, hh⟩ := hh
    rw [bind_ok] at hh
    obtain ⟨y', h3, hy', hh⟩ := hh
    obtain ⟨hy', rfl⟩ := getY_ok.1 hy'
    split at hh
    · simp [raise] at hh
    rw [bind_ok] at hh
    obtain ⟨x, h4, hx, hh⟩ := hh
    simp only [newX, newY, bind_run, pure_run, Prod.mk.injEq, Except.ok.injEq] at hh
    obtain ⟨⟨rfl, rfl⟩, rfl⟩ := hh
    have w1 := safe_axisSize (P := P) (X := ∅) p.x h1
    rw [hn] at w1
    have w2 := safe_axisValues (P := P) (X := ∅) p.x h3
    rw [hx] at w2
    refine ⟨w1.1.yarrs_len.trans w2.1.yarrs_len, by simp, ?_⟩
    rintro ⟨i, b, hb, hbj⟩
    obtain ⟨v, hv, -⟩ := (w2.2 (w1.2 hc) i b hb).1 _ hbj
    simp at hv
  obtain ⟨k, c'⟩ := steps_keep hM hC ss hs h' (fun j hj => by rw [Set.mem_singleton_iff] at hj; subst hj; exact hly.2) (wc hc)
  have k1 : Keep ∅ {ly} h h' := w.keep.mono (Set.empty_subset _) (Set.empty_subset _)
  refine data_keep hc c' (k1.trans k) hr (Set.notMem_empty _) ?_
  intro hx
  rw [Set.mem_singleton_iff] at hx
  have h1 := (List.getElem?_eq_some_iff.1 hr.ys).1
  rw [hx] at h1
  exact absurd h1 (not_lt.2 hly.1)

/-- the arrays really are writable, and the relation stays -/
example :
    let p := relGetData ratPrims 0 oneRelation
    let h'' := runSteps ratPrims (defaultMethods ratPrims) defaultC
      [.edit (.pokeX 1 fun _ => [9]), .edit (.pokeY 1 fun _ => []), .call (.exp 0)] p.2
    p.1 = .ok (1, 1) ∧ p.2.xarrs[1]? = some [0, 1, 2] ∧ h''.xarrs[1]? = some [9] ∧ h''.yarrs[1]? = some [] ∧
    dataAt ratPrims h'' 0 = .ok (some [0, 1, 2], some [1, 2, 3]) := by decide +kernel

/-! ## C35 -/

/-- Python variables -/
abbrev Names := ℕ → Option Loc

/-- `__iadd__`, `__isub__`, `__imul__`, `__ipow__` (`relation.py:482-495`) return what the binary operator of the class
returns; `/=` falls back on `__truediv__` because there is no `__itruediv__`. -/
def inplace (P : Prims K V) (M : Methods K V) (a : Loc) (b : PyOperand V) (op : MathOp) : HM K V Loc := operator P M a b op

/-- the statement `n op= b`: the name is rebound to what the in-place operator returns; if it raises nothing is bound -/
def augAssign (P : Prims K V) (M : Methods K V) (n : ℕ) (b : PyOperand V) (op : MathOp) (env : Names) (h : Heap K V) :
    Names × Heap K V :=
  match env n with
  | none => (env, h)
  | some a =>
    match inplace P M a b op h with
    | (.ok l, h') => (Function.update env n (some l), h')
    | (.error _, h') => (env, h')

/-- **C35** After `n op= b` the name is bound to a new object, the one `n op b` makes; every name, also one that was
bound to the same object as `n`, keeps its binding, and every object keeps its data. -/
theorem C35_augmented_assignment (hM : GoodMethods P M) (n : ℕ) (b : PyOperand V) (op : MathOp) (env : Names)
    (h : Heap K V) (hc : Coh P h) (a : Loc) (ha : env n = some a) :
    let s := augAssign P M n b op env h
    (∀ m, m ≠ n → s.1 m = env m) ∧
    (∀ r o x y, IsRel h r o x y → dataAt P s.2 r = dataAt P h r) ∧
    (∀ l h', operator P M a b op h = (.ok l, h') → s = (Function.update env n (some l), h') ∧ ∃ o, OwnsParts h h' l o) ∧
    (∀ e h', operator P M a b op h = (.error e, h') → s.1 n = some a) := by
  intro s
  have w := safe_operator (X := ∅) hM a b op h
  have hs : s = match operator P M a b op h with
      | (.ok l, h') => (Function.update env n (some l), h')
      | (.error _, h') => (env, h') := by
    simp only [s, augAssign, ha]; rfl
  have hs2 : s.2 = (operator P M a b op h).2 := by
    rw [hs]; rcases operator P M a b op h with ⟨e | l, h'⟩ <;> rfl
  refine ⟨fun m hm => ?_, fun r o x y hr => ?_, fun l h' hh => ?_, fun e h' hh => ?_⟩
  · rw [hs]
    rcases operator P M a b op h with ⟨e | l, h'⟩
    · rfl
    · exact Function.update_of_ne hm _ _
  · rw [hs2]
    exact data_keep hc (w.2 hc) w.1.keep hr (Set.notMem_empty _) (Set.notMem_empty _)
  · refine ⟨by rw [hs, hh], ?_⟩
    exact ownM_operator hM a b op _ _ _ hh
  · rw [hs, hh]; exact ha

/-- names 0 and 1 are bound to one relation; `name0 += 10` -/
example :
    let env : Names := fun n => if n < 2 then some 0 else none
    let s := augAssign ratPrims (defaultMethods ratPrims) 0 (.number 10) .add env oneRelation
    s.1 0 = some 1 ∧ s.1 1 = some 0 ∧
    dataAt ratPrims s.2 0 = .ok (some [0, 1, 2], some [1, 2, 3]) ∧
    dataAt ratPrims s.2 1 = .ok (some [0, 1, 2], some [11, 12, 13]) := by decide +kernel

end SweepDesign
