import Verif.Heap.RefineSweep
import Verif.Heap.History
import Verif.Props.HeapRefine

/-!
# C89: sweep objects and generator objects compute the sweep formulas

With the default methods, `Sweep(..)`, operators on sweeps, `UncalculatedSweep(..)`, calling it, and calling an
`ApriorUncalculatedSweep` return objects whose values are the ones the functions of `Model/Sweep.lean` and
`Model/Aprior.lean` compute from the current values of their arguments, or raise the same exception.
-/

set_option linter.unusedSectionVars false

namespace SweepDesign

namespace Spec

open Mem

variable {K : Type}

/-- the values of a sweep object: its own, those of `frequency_time` and `amplitude_time`, and of `a_prior_signal` -/
structure SweepValues (K : Type) where
  own : Rel K K
  frequencyTime : Rel K K
  amplitudeTime : Rel K K
  aPriorSignal : Option (Rel K K)
  deriving DecidableEq

/-- the values of a plain relation object -/
def relationAt (h : Heap K K) (l : Loc) : Option (Rel K K) :=
  match valueAt h l with
  | some (.relation, v) => some v
  | _ => none

/-- the values of an optional object -/
def optionAt (h : Heap K K) : Option Loc → Option (Option (Rel K K))
  | none => some none
  | some l => (valueAt h l).map fun p => some p.2

/-- what can be read off the sweep object `l`; `none` if it is no sweep or a description is missing -/
def sweepAt (h : Heap K K) (l : Loc) : Option (SweepValues K) :=
  match h.rels[l]?, valueAt h l with
  | some o, some (.sweep, v) => do
    let f ← o.freqTime >>= relationAt h
    let a ← o.ampTime >>= relationAt h
    let p ← optionAt h o.aPrior
    pure ⟨v, f, a, p⟩
  | _, _ => none

/-- the current value of a stored description -/
def descAt (h : Heap K K) : Desc K K → Option (Descr K)
  | .func f => some (.func f.onArray f.onNumber)
  | .interp x y => (h.yarrs[y]?).map fun v => .interp ⟨x, v⟩

/-- the current value of a generator object -/
def genAt (h : Heap K K) (gen : Gen K K) : Option (UncalculatedSweep K) :=
  match (match gen.time with
    | none => some none
    | some t => (fieldsAt h t).map some), descAt h gen.freq, descAt h gen.amp with
  | some t, some f, some a => some ⟨t, f, a⟩
  | _, _, _ => none

/-- the value of a `time` argument -/
def timeAt (h : Heap K K) : HTime K → Option (TimeArg K)
  | .none => some .none
  | .axis l => (fieldsAt h l).map .axis
  | .array x f => some (.array x f)

/-- the value of a description argument -/
def argAt (h : Heap K K) : DescArg K K → Option (Ftat K)
  | .absent => some .absent
  | .given (.func f) => some (.func f.onArray f.onNumber)
  | .given (.interp x y) => (h.yarrs[y]?).map fun v => .interp ⟨x, v⟩
  | .rel r => (valueAt h r).map fun p => .rel p.2
  | .arr l => (h.yarrs[l]?).map .array

/-- what a call returned, read by `f` in the heap it left -/
def resultOf {α β : Type} (f : Heap K K → α → β) (m : HM K K α) (h : Heap K K) : Except Err β := (m h).1.map (f (m h).2)

/-- a sweep of the value layer without its spectrogram -/
def asSweep (x : Except Err (Sweep K)) : Except Err (Option (SweepValues K)) :=
  x.map fun s => some ⟨s.rel, s.frequencyTime, s.amplitudeTime, s.aPriorSignal⟩

/-- the sweep formulas with the methods of the heap layer: `get_f_t` and `get_a_t` put the values of `T` on the axis of the
sweep -/
def formulas [Field K] [LinearOrder K] [IsStrictOrderedRing K] [FloorRing K] (T : Transcendental K K) (N : SweepNumbers K) :
    SweepPrims K where
  sin := N.sin
  pi := N.pi
  quad := N.quad
  getFT r := do
    let f ← T.instFreq r.y r.x.sample
    Rel.make r.x f
  getAT r := do
    let a ← T.envelope r.y
    Rel.make r.x a
  spectrogram r := N.spectro r.y r.x.sample

end Spec

open Mem Spec HM

section
variable {K : Type} [Field K] [LinearOrder K] [IsStrictOrderedRing K] [FloorRing K] [Star K] [PyPow K]
variable {T : Transcendental K K} {N : SweepNumbers K} {h : Heap K K}

local notation "Tm" => SweepNumbers.over N T
local notation "Pm" => exactPrims (SweepNumbers.over N T)
local notation "Dm" => defaultMethods (exactPrims (SweepNumbers.over N T))
local notation "Gm" => exactGen (exactPrims (SweepNumbers.over N T)) N
local notation "Fm" => formulas T N

theorem formulas_eq : SweepNumbers.prims N Tm = Fm := rfl

theorem sweepAt_of_is {l : Loc} {s : Sweep K} (hs : SweepIs h l s) :
    sweepAt h l = some ⟨s.rel, s.frequencyTime, s.amplitudeTime, s.aPriorSignal⟩ := by
  obtain ⟨ap, ⟨o, lf, la, hr, of, oa, ⟨pf, nf⟩, ⟨pa, na⟩, oap⟩, hopt⟩ := hs
  have k : optionAt h o.aPrior = some s.aPriorSignal := by
    rw [oap]
    revert hopt
    rcases ap with _ | p <;> rcases s.aPriorSignal with _ | v <;> intro hopt
    · rfl
    · exact absurd hopt id
    · exact absurd hopt id
    · obtain ⟨c, q, hq⟩ := hopt
      simp [optionAt, valueAt_of_relIs hq]
  have kf : relationAt h lf = some s.frequencyTime := by simp [relationAt, valueAt_of_relIs nf]
  have ka : relationAt h la = some s.amplitudeTime := by simp [relationAt, valueAt_of_relIs na]
  simp [sweepAt, hr.rel, valueAt_of_relIs hr, of, oa, kf, ka, k]

theorem result_of_runs {m : HM K K Loc} {x : Except Err (Sweep K)} (hs : Runs Pm h m x SweepIs) :
    resultOf sweepAt m h = asSweep x := by
  have ag := hs.agree
  unfold resultOf asSweep
  revert ag
  rcases (m h).1 with e | l <;> rcases x with e' | s <;> intro ag
  · cases ag; rfl
  · exact absurd ag id
  · exact absurd ag id
  · simp [Except.map, sweepAt_of_is ag]

theorem result_of_sim {m : HM K K Loc} {x : Except Err (Sweep K)} (hs : Sim Pm h m x SweepIs) :
    resultOf sweepAt m h = asSweep x := result_of_runs ⟨hs.coh, hs.agree⟩

theorem descIs_iff {d : Desc K K} {D : Descr K} : DescIs h d D ↔ descAt h d = some D := by
  cases d <;> cases D
  · rename_i f a n
    obtain ⟨fa, fn⟩ := f
    simp [DescIs, descAt]
  · simp [DescIs, descAt]
  · simp [DescIs, descAt]
  · rename_i x y F
    obtain ⟨Fx, Fy⟩ := F
    simp only [DescIs, descAt, Option.map_eq_some_iff, Descr.interp.injEq, InterpArr.mk.injEq]
    constructor
    · rintro ⟨rfl, e⟩; exact ⟨_, e, rfl, rfl⟩
    · rintro ⟨v, e, rfl, rfl⟩; exact ⟨rfl, e⟩

theorem axIs_iff {l : Loc} {a : Axis K} : AxIs h l a ↔ fieldsAt h l = some a := by
  rw [fieldsAt, Option.map_eq_some_iff]; rfl

theorem genIs_iff {gen : Gen K K} {u : UncalculatedSweep K} : GenIs h gen u ↔ genAt h gen = some u := by
  have ht : OptAx h gen.time u.time ↔ (match gen.time with
      | none => some none
      | some t => (fieldsAt h t).map some) = some u.time := by
    rcases gen.time with _ | t <;> rcases u.time with _ | a
    · simp [OptAx]
    · simp [OptAx]
    · simp [OptAx]
    · simp [OptAx, axIs_iff]
  constructor
  · intro k
    unfold genAt
    rw [ht.1 k.time, descIs_iff.1 k.freq, descIs_iff.1 k.amp]
  · intro k
    unfold genAt at k
    split at k
    · rename_i t f a e1 e2 e3
      cases k
      exact ⟨ht.2 e1, descIs_iff.2 e2, descIs_iff.2 e3⟩
    · cases k

theorem timeIs_of {t : HTime K} {a : TimeArg K} (ht : timeAt h t = some a) : TimeIs h t a := by
  cases t
  · cases ht; trivial
  · simp only [timeAt, Option.map_eq_some_iff] at ht
    obtain ⟨b, hb, rfl⟩ := ht
    exact axIs_iff.2 hb
  · cases ht; exact ⟨rfl, rfl⟩

theorem argIs_of {x : DescArg K K} {X : Ftat K} (hx : argAt h x = some X) : ArgIs h x X := by
  rcases x with _ | d | r | l
  · cases hx; trivial
  · rcases d with f | ⟨x, y⟩
    · cases hx; exact ⟨rfl, rfl⟩
    · simp only [argAt, Option.map_eq_some_iff] at hx
      obtain ⟨v, hv, rfl⟩ := hx
      exact ⟨rfl, hv⟩
  · simp only [argAt, Option.map_eq_some_iff] at hx
    obtain ⟨⟨c, v⟩, hv, rfl⟩ := hx
    exact ⟨c, relIs_of_valueAt hv⟩
  · simp only [argAt, Option.map_eq_some_iff] at hx
    obtain ⟨v, hv, rfl⟩ := hx
    exact hv

/-- **C89** `Sweep(time, amplitude)` on an axis object or an array, and with given descriptions -/
theorem C89_constructor (hc : Coh Pm h) (y : List K) :
    (∀ t a, fieldsAt h t = some a →
      resultOf sweepAt (construct Pm Dm .sweep (.axis t) (.list y)) h = asSweep (Sweep.init Fm (.axis a) (some y) none none none)) ∧
    (∀ x f, resultOf sweepAt (construct Pm Dm .sweep (.array x f) (.list y)) h =
      asSweep (Sweep.init Fm (.array x f) (some y) none none none)) ∧
    (∀ t a lf f la am, fieldsAt h t = some a → relationAt h lf = some f → relationAt h la = some am →
      resultOf sweepAt (do
        let s ← relInit Pm Dm .sweep (.axis t) (.list y) none
        sweepInit Dm s (some lf) (some la) none) h =
      asSweep (Sweep.init Fm (.axis a) (some y) (some f) (some am) none)) := by
  refine ⟨fun t a ht => ?_, fun x f => ?_, fun t a lf f la am ht hf ha => ?_⟩
  · exact result_of_sim (sim_construct_sweep (sim_relInit_axis_list hc Dm .sweep y (axIs_iff.2 ht) none))
  · refine result_of_sim (sim_construct_sweep ?_)
    unfold relInit npArray
    refine Sim.read rfl ?_
    refine Sim.step (b := ()) (sim_newY hc y) fun l h1 w1 c1 r => ?_
    exact (sim_axisFromArray c1 x f true).bind fun ax a h2 w2 c2 ra => sim_initAxis c2 .sweep _ ra (yIs_le w2 r) none
  · have k : ∀ {l v}, relationAt h l = some v → IsNew .relation h l v := by
      intro l v e
      unfold relationAt at e
      split at e
      · rename_i v' hv
        cases e
        exact relIs_of_valueAt hv
      · cases e
    exact result_of_sim (sim_newSweep (sim_relInit_axis_list hc Dm .sweep y (axIs_iff.2 ht) none) (ft := some lf)
      (at' := some la) (ap := none) (fv := some f) (av := some am) (apv := none) (k hf) (k ha) trivial)

/-- **C89** an operator on a sweep object makes a sweep with derived descriptions; `get_norm` squares the sweep -/
theorem C89_operators (hc : Coh Pm h) (r : Loc) (s : Sweep K) (hv : valueAt h r = some (.sweep, s.rel)) :
    (∀ a op, resultOf sweepAt (Mem.operator Pm Dm r (.number a) op) h = asSweep (s.operation Fm (.other (.num a)) op)) ∧
    (∀ l y op, h.yarrs[l]? = some y →
      resultOf sweepAt (Mem.operator Pm Dm r (.other (.arr l)) op) h = asSweep (s.operation Fm (.other (.arr y)) op)) ∧
    (Derives Tm → ∀ r2 c2 v2 same op, valueAt h r2 = some (c2, v2) → c2 ≠ .spectrum →
      (axisOf h r = axisOf h r2 ↔ same = true) →
      resultOf sweepAt (Mem.operator Pm Dm r (.obj r2) op) h = asSweep (s.operation Fm (.rel same v2) op)) ∧
    (Mem.getNorm Pm Dm r h).1 = s.getNorm Fm := by
  obtain ⟨o, hr⟩ := relIs_of_valueAt hv
  refine ⟨fun a op => result_of_sim (sim_sweep_number hc hr a op),
    fun l y op hy => result_of_sim (sim_sweep_other hc hr (w := .arr l) (b := .arr y) hy op),
    fun hd r2 c2 v2 same op hv2 hcc hsame => ?_, fst_of_sim (sim_sweepNorm hc hr)⟩
  obtain ⟨o2, hr2⟩ := relIs_of_valueAt hv2
  have e : decide (o.x = o2.x) = same := by
    simp only [axisOf, hr.rel, hr2.rel, Option.map_some, Option.some.injEq] at hsame
    rw [Bool.eq_iff_iff, decide_eq_true_iff, hsame]
  have hd' : Describes Tm := ((fine_of_derives (T := Tm) (c := .sweep) fun _ => hd) rfl).2
  rw [← e]
  exact result_of_sim (sim_sweep_rel hc hr hr2 hd' hcc op)

/-- **C89** `UncalculatedSweep(time, frequency_time, amplitude_time)` -/
theorem C89_generator_init (hc : Coh Pm h) (t : HTime K) (a : TimeArg K) (f am : DescArg K K) (F A : Ftat K)
    (ht : timeAt h t = some a) (hf : argAt h f = some F) (ha : argAt h am = some A) :
    resultOf genAt (genInit Pm Gm Dm linearFun onesFun t f am) h = (UncalculatedSweep.init a F A).map some := by
  have ag := (sim_genInit (T := T) (N := N) hc (timeIs_of ht) (argIs_of hf) (argIs_of ha)).agree
  unfold resultOf
  revert ag
  rcases (genInit Pm Gm Dm linearFun onesFun t f am h).1 with e | g <;> rcases UncalculatedSweep.init a F A with e' | u <;> intro ag
  · cases ag; rfl
  · exact absurd ag id
  · exact absurd ag id
  · simp [Except.map, genIs_iff.1 ag]

/-- **C89** calling a generator; the generator stays what it was -/
theorem C89_generator_call (hc : Coh Pm h) (gen : Gen K K) (u : UncalculatedSweep K) (hg : genAt h gen = some u) (t : HTime K)
    (a : TimeArg K) (ht : timeAt h t = some a) (tht0 : K) :
    resultOf sweepAt (genCall Pm Gm Dm gen t tht0) h = asSweep (u.call Fm a tht0) ∧
    genAt (genCall Pm Gm Dm gen t tht0 h).2 gen = some u := by
  have k := sim_genCall (T := T) (N := N) hc (genIs_iff.2 hg) (timeIs_of ht) tht0
  exact ⟨result_of_sim k, genIs_iff.1 ((genIs_iff.2 hg).le k.le)⟩

theorem genAt_keep {A Y : Set Loc} {h' : Heap K K} (w : Keep A Y h h') {gen : Gen K K} {u : UncalculatedSweep K}
    (hg : genAt h gen = some u) (ht : ∀ t, gen.time = some t → t ∉ A) (hy : ∀ y ∈ gen.ys, y ∉ Y) :
    genAt h' gen = some u := by
  have g := genIs_iff.2 hg
  have kd : ∀ d D, DescIs h d D → d.ys ⊆ gen.ys → DescIs h' d D := by
    intro d D hd hs
    cases d <;> cases D <;> try exact hd
    exact ⟨hd.1, w.yarrs _ _ hd.2 (hy _ (hs (Set.mem_singleton _)))⟩
  refine genIs_iff.1 ⟨?_, kd _ _ g.freq Set.subset_union_left, kd _ _ g.amp Set.subset_union_right⟩
  have gt := g.time
  revert gt ht
  rcases gen.time with _ | t <;> rcases u.time with _ | a <;> intro ht gt
  · trivial
  · exact gt
  · exact gt
  · obtain ⟨o, ho, e⟩ := gt
    obtain ⟨o', ho', e'⟩ := w.axes _ _ ho (ht t rfl)
    exact ⟨o', ho', e'.trans e⟩

/-- a description made by the constructor keeps a new array -/
theorem extract_fresh {t : Option Loc} {f : PyFun K K} {x : DescArg K K} (hx : ∀ d, x ≠ .given d) {d : Desc K K}
    {h' : Heap K K} (hh : extractDesc Pm Gm Dm t f x h = (.ok d, h')) : ∀ y ∈ d.ys, h.yarrs.length ≤ y := by
  have hnew : ∀ {t ly d} {h h' : Heap K K}, interpOfAxis Pm t ly h = (.ok d, h') → ∀ y ∈ d.ys, h.yarrs.length ≤ y := by
    intro t ly d h h' hh
    unfold interpOfAxis at hh
    obtain ⟨v, h1, e1, hh1⟩ := bind_ok.1 hh
    obtain ⟨-, rfl⟩ := getY_ok.1 e1
    obtain ⟨l, h2, e2, hh2⟩ := bind_ok.1 hh1
    simp only [newY, Prod.mk.injEq, Except.ok.injEq] at e2
    obtain ⟨x, h3, -, hh3⟩ := bind_ok.1 hh2
    simp only [pure_run, Prod.mk.injEq, Except.ok.injEq] at hh3
    obtain ⟨rfl, -⟩ := hh3
    rintro y hy
    obtain rfl := Set.mem_singleton_iff.1 hy
    exact e2.1.le
  rcases x with _ | d' | r | l
  · simp only [extractDesc, pure_run, Prod.mk.injEq, Except.ok.injEq] at hh
    obtain ⟨rfl, -⟩ := hh
    exact fun y hy => absurd hy (Set.notMem_empty _)
  · exact absurd rfl (hx d')
  · have hh : interpOfRel Pm r h = (.ok d, h') := hh
    unfold interpOfRel at hh
    obtain ⟨o, h1, e1, hh1⟩ := bind_ok.1 hh
    obtain ⟨-, rfl⟩ := getRel_ok.1 e1
    obtain ⟨x, h2, e2, hh2⟩ := bind_ok.1 hh1
    have w2 := le_of_run (P := Pm) (X := ∅) (safe_axisValues _) e2
    obtain ⟨v, h3, e3, hh3⟩ := bind_ok.1 hh2
    obtain ⟨-, rfl⟩ := getY_ok.1 e3
    obtain ⟨l, h4, e4, hh4⟩ := bind_ok.1 hh3
    simp only [newY, Prod.mk.injEq, Except.ok.injEq] at e4
    simp only [pure_run, Prod.mk.injEq, Except.ok.injEq] at hh4
    obtain ⟨rfl, -⟩ := hh4
    rintro y hy
    obtain rfl := Set.mem_singleton_iff.1 hy
    exact w2.yarrs_len.trans e4.1.le
  · unfold extractDesc at hh
    rcases t with _ | t
    · simp [raise] at hh
    simp only [] at hh
    obtain ⟨n, h1, e1, hh1⟩ := bind_ok.1 hh
    have w1 := le_of_run (P := Pm) (X := ∅) (safe_axisSize _) e1
    obtain ⟨v, h2, e2, hh2⟩ := bind_ok.1 hh1
    obtain ⟨-, rfl⟩ := getY_ok.1 e2
    by_cases hn : n ≠ v.length
    · rw [if_pos hn] at hh2
      obtain ⟨a, h3, e3, hh3⟩ := bind_ok.1 hh2
      obtain ⟨dd, h4, e4, hh4⟩ := bind_ok.1 hh3
      obtain ⟨c, h5, e5, hh5⟩ := bind_ok.1 hh4
      obtain ⟨lx, h6, e6, hh6⟩ := bind_ok.1 hh5
      obtain ⟨g, h7, e7, hh7⟩ := bind_ok.1 hh6
      obtain ⟨ly, h8, e8, hh8⟩ := bind_ok.1 hh7
      have w3 := le_of_run (P := Pm) (X := ∅) (safe_getAxis _) e3
      have w4 := le_of_run (P := Pm) (X := ∅) (safe_lift _) e4
      have w5 := le_of_run (P := Pm) (X := ∅) (safe_axisNew _ _ _) e5
      have w6 := le_of_run (P := Pm) (X := ∅) (safe_axisArray _) e6
      have w7 := le_of_run (P := Pm) (X := ∅) safe_config e7
      have w8 := (le_of_run (good_defaultMethods (P := Pm) |>.interp _ _ _ _) e8).yarrs_len
      intro y hy
      exact (w1.yarrs_len.trans (w3.yarrs_len.trans (w4.yarrs_len.trans (w5.yarrs_len.trans (w6.yarrs_len.trans
        (w7.yarrs_len.trans w8)))))).trans (hnew hh8 y hy)
    · rw [if_neg hn] at hh2
      intro y hy
      exact w1.yarrs_len.trans (hnew hh2 y hy)

/-- **C89** The generator keeps copies of the arrays and relations it is given: after anything that writes only into y arrays
that existed before the constructor was called, and that assigns neither to the axis passed as time, a call returns what it
would have returned right away. -/
theorem C89_private (hc : Coh Pm h) (t : HTime K) (f am : DescArg K K) (gen : Gen K K) (h1 : Heap K K)
    (hh : genInit Pm Gm Dm linearFun onesFun t f am h = (.ok gen, h1)) (hf : ∀ d, f ≠ .given d) (ha : ∀ d, am ≠ .given d)
    (u : UncalculatedSweep K) (hu : genAt h1 gen = some u) (A : Set Loc) (ss : List (Step K K))
    (hs : ∀ s ∈ ss, within A {y | y < h.yarrs.length} ∅ s) (hA : ∀ t, gen.time = some t → t ∉ A) (t' : HTime K) (a : TimeArg K)
    (tht0 : K) :
    let h2 := runSteps Pm Dm (defaultConvMethods Pm Dm) ss h1
    genAt h2 gen = some u ∧
    (timeAt h2 t' = some a → resultOf sweepAt (genCall Pm Gm Dm gen t' tht0) h2 = asSweep (u.call Fm a tht0)) := by
  have gM := good_defaultMethods (P := Pm)
  have gC := good_defaultConvMethods gM
  unfold genInit at hh
  obtain ⟨g, h3, e3, hh3⟩ := bind_ok.1 hh
  have w3 := le_of_run (P := Pm) (X := ∅) safe_config e3
  have c3 := coh_of_run (P := Pm) (X := ∅) safe_config e3 hc
  obtain ⟨l, h4, e4, hh4⟩ := bind_ok.1 hh3
  have s4 : Safe Pm ∅ (genTime Dm g t) := by
    cases t
    · exact safe_pure _
    · exact safe_pure _
    · exact (gM.fromArray _ _ _ _).bind fun _ => safe_pure _
  have w4 := le_of_run s4 e4
  have c4 := coh_of_run s4 e4 c3
  obtain ⟨fd, h5, e5, hh5⟩ := bind_ok.1 hh4
  have s5 : ∀ x f, Safe Pm ⟨∅, ∅, Set.univ⟩ (extractDesc Pm Gm Dm l f x) := by
    intro x f
    have sa : ∀ t y, Safe Pm ⟨∅, ∅, Set.univ⟩ (interpOfAxis Pm t y) := fun t y =>
      (safe_getY _).bind fun _ => (safe_newY _).bind fun _ => (safe_axisValues _).bind fun _ => safe_pure _
    rcases x with _ | d' | r | ly
    · exact safe_pure _
    · exact safe_pure _
    · exact (safe_getRel _).bind fun _ => (safe_axisValues _).bind fun _ => (safe_getY _).bind fun _ =>
        (safe_newY _).bind fun _ => safe_pure _
    · rcases l with _ | t
      · exact safe_raise _
      · refine (safe_axisSize _).bind fun n => (safe_getY _).bind fun y => ?_
        split
        · exact (safe_getAxis _).bind fun _ => (safe_lift _).bind fun _ => (safe_axisNew _ _ _).bind fun _ =>
            (safe_axisArray _).bind fun _ => safe_config.bind fun _ =>
            ((gM.interp _ _ _ _).mono (Set.empty_subset _) (Set.empty_subset _) (Set.subset_univ _)).bind fun _ => sa _ _
        · exact sa _ _
  have w5 := le_of_run (s5 _ _) e5
  have c5 := coh_of_run (s5 _ _) e5 c4
  have n5 := extract_fresh hf e5
  obtain ⟨ad, h6, e6, hh6⟩ := bind_ok.1 hh5
  have c6 := coh_of_run (s5 _ _) e6 c5
  have n6 := extract_fresh ha e6
  simp only [pure_run, Prod.mk.injEq, Except.ok.injEq] at hh6
  obtain ⟨rfl, rfl⟩ := hh6
  obtain ⟨k, c7⟩ := steps_keep gM gC ss hs h6 (fun j hj => absurd hj (Set.notMem_empty _)) c6
  have w34 := w3.yarrs_len.trans w4.yarrs_len
  have hg := genAt_keep k hu hA (by
    rintro y (hy | hy) hlt
    · exact absurd (w34.trans (n5 y hy)) (not_le.2 hlt)
    · exact absurd (w34.trans (w5.yarrs_len.trans (n6 y hy))) (not_le.2 hlt))
  exact ⟨hg, fun ht => (C89_generator_call c7 _ u hg t' a ht tht0).1⟩

end

/-! ## a-priori generators -/

section
variable {T : Transcendental ℝ ℝ} {N : SweepNumbers ℝ} {h : Heap ℝ ℝ}

local notation "Tm" => SweepNumbers.over N T
local notation "Pm" => exactPrims (SweepNumbers.over N T)
local notation "Dm" => defaultMethods (exactPrims (SweepNumbers.over N T))
local notation "Gm" => exactGen (exactPrims (SweepNumbers.over N T)) N
local notation "Fm" => formulas T N

/-- **C89** calling an a-priori generator: the sweep is scaled to the energy of the a-priori signal, which it carries -/
theorem C89_apriori (hc : Coh Pm h) (hN : N.sqrt = mathSqrt) (gen : Gen ℝ ℝ) (ap : Loc) (u : AprSweep)
    (hg : genAt h gen = some u.base) (c : Cls) (hap : valueAt h ap = some (c, u.aPrior)) (hs : c = .sweep → Derives Tm)
    (t : HTime ℝ) (a : TimeArg ℝ) (ht : timeAt h t = some a) (tht0 : ℝ) (isNormalize : Bool) :
    resultOf sweepAt (aprioriCall Pm Gm Dm gen ap t tht0 isNormalize) h = asSweep (u.call Fm a tht0 isNormalize) := by
  have k := runs_aprioriCall (T := T) (N := N) hc (genIs_iff.2 hg) (timeIs_of ht) tht0 (relIs_of_valueAt hap)
    (fine_of_derives hs) isNormalize
  rw [result_of_runs k]
  congr 1
  unfold AprSweep.call
  rw [formulas_eq]
  rcases u.base.call Fm a tht0 with e | s
  · rfl
  cases isNormalize
  · rfl
  show (normalised Fm N s u.aPrior >>= _) = (s.getNorm Fm >>= _)
  unfold normalised
  rw [hN]
  rcases s.getNorm Fm with e | ns
  · rfl
  rcases u.aPrior.getNorm with e | na
  · rfl
  show ((mathSqrt na >>= _) >>= _) = (mathSqrt na >>= _)
  rcases mathSqrt na with e | x
  · rfl
  show ((mathSqrt ns >>= _) >>= _) = (mathSqrt ns >>= _)
  rcases mathSqrt ns with e | y
  · rfl
  show ((if y = 0 then _ else _) >>= _) = (if y = 0 then _ else _)
  by_cases hy : y = 0
  · rw [if_pos hy, if_pos hy]; rfl
  rw [if_neg hy, if_neg hy]
  rcases s.amplitudeTime.mul (.other (.num (x / y))) with e | m
  · rfl
  rcases s.operation Fm (.other (.num (x / y))) .mul with e | s' <;> rfl

end

/-! ## a generator over ℚ, without sine and factor 2π

`ArrayAxis(0, 3, 1)`; `Relation(axis, [1, 2, 3, 4])`; `UncalculatedSweep(axis, None, relation)` -/

theorem derives_ratN : Derives (ratN.over ratT) :=
  fun _ _ _ => ⟨⟨_, rfl, by simp⟩, ⟨_, rfl, by simp⟩, by
    show (getSpectrogram ⟨[(0 : ℚ), 1], [0, 1], []⟩).map (fun _ => ()) = .ok ()
    decide +kernel⟩

abbrev P89 : Prims ℚ ℚ := exactPrims (ratN.over ratT)

def heap89 : Heap ℚ ℚ :=
  runSteps P89 (defaultMethods P89) (defaultConvMethods P89 (defaultMethods P89))
    [.call (.axisNew 0 3 1), .call (.construct .relation (.axis 0) (.list [1, 2, 3, 4]))] (emptyHeap ℚ ℚ)

/-- the constructor, steps `ss` of the user, and a call without a time -/
def call89 (ss : List (Step ℚ ℚ)) : HM ℚ ℚ Loc := do
  let gen ← genInit P89 (exactGen P89 ratN) (defaultMethods P89) linearFun onesFun (.axis 0) .absent (.rel 0)
  fun h => genCall P89 (exactGen P89 ratN) (defaultMethods P89) gen .none 0
    (runSteps P89 (defaultMethods P89) (defaultConvMethods P89 (defaultMethods P89)) ss h)

/-- frequency `t`, phase `t² / 2`, amplitude `t + 1` -/
example : resultOf sweepAt (call89 []) heap89 =
    .ok (some ⟨⟨⟨0, 3, 1⟩, [0, 1, 6, 18]⟩, ⟨⟨0, 3, 1⟩, [0, 1, 2, 3]⟩, ⟨⟨0, 3, 1⟩, [1, 2, 3, 4]⟩, none⟩) := by
  decide +kernel

/-- writing into the samples of the relation given as the envelope does not matter; assigning to the time axis does -/
example : resultOf sweepAt (call89 [.edit (.pokeY 0 fun _ => [9, 9, 9, 9])]) heap89 = resultOf sweepAt (call89 []) heap89 ∧
    resultOf sweepAt (call89 [.edit (.setStop 0 2)]) heap89 =
      .ok (some ⟨⟨⟨0, 2, 1⟩, [0, 5 / 4, 8]⟩, ⟨⟨0, 2, 1⟩, [0, 1, 2]⟩, ⟨⟨0, 2, 1⟩, [1, 5 / 2, 4]⟩, none⟩) := by
  refine ⟨?_, ?_⟩ <;> decide +kernel

/-- twice a sweep: the descriptions are derived again -/
example :
    resultOf sweepAt (do
        let s ← call89 []
        Mem.operator P89 (defaultMethods P89) s (.number 2) .mul) heap89 =
      .ok (some ⟨⟨⟨0, 3, 1⟩, [0, 2, 12, 36]⟩, ⟨⟨0, 3, 1⟩, [1, 1, 1, 1]⟩, ⟨⟨0, 3, 1⟩, [0, 2, 12, 36]⟩, none⟩) := by
  decide +kernel

/-- an a-priori call normalised to the relation: the norms are 199 and 43/2 -/
example :
    resultOf sweepAt (do
        let gen ← genInit P89 (exactGen P89 ratN) (defaultMethods P89) linearFun onesFun (.axis 0) .absent (.rel 0)
        aprioriCall P89 (exactGen P89 ratN) (defaultMethods P89) gen 0 .none 0 true) heap89 =
      .ok (some ⟨⟨⟨0, 3, 1⟩, [0, 43 / 398, 129 / 199, 387 / 199]⟩, ⟨⟨0, 3, 1⟩, [1, 1, 1, 1]⟩,
        ⟨⟨0, 3, 1⟩, [0, 43 / 398, 129 / 199, 387 / 199]⟩, some ⟨⟨0, 3, 1⟩, [1, 2, 3, 4]⟩⟩) := by
  decide +kernel

noncomputable def realN : SweepNumbers ℝ where
  sin := Real.sin
  pi := Real.pi
  quad f a b := (f a + f b) / 2 * (b - a)
  spectro _ _ := .ok ⟨[0, 1], [0, 1], []⟩
  sqrt := mathSqrt

/-- the hypotheses of `C89_apriori` for a signal object over ℝ -/
example (T : Transcendental ℝ ℝ) :
    let h : Heap ℝ ℝ := ⟨[⟨0, 3, 1, none, none⟩], [], [[1, 2, 3, 4]], [mkRelObj .signal noConfig 0 0 none], noConfig⟩
    Coh (exactPrims (realN.over T)) h ∧ realN.sqrt = mathSqrt ∧
    genAt h ⟨some 0, .func linearFun, .interp [0, 1, 2, 3] 0, 0, 0⟩ =
      some ⟨some ⟨0, 3, 1⟩, linearTime, .interp ⟨[0, 1, 2, 3], [1, 2, 3, 4]⟩⟩ ∧
    valueAt h 0 = some (.signal, ⟨⟨0, 3, 1⟩, [1, 2, 3, 4]⟩) ∧ timeAt h (.axis 0) = some (.axis ⟨0, 3, 1⟩) := by
  refine ⟨?_, rfl, rfl, rfl, rfl⟩
  intro i a ha
  rcases i with _ | i
  · simp only [List.getElem?_cons_zero, Option.some.injEq] at ha
    subst ha
    exact ⟨fun j hj => by simp at hj, fun d hd => by simp at hd⟩
  · simp at ha

end SweepDesign
