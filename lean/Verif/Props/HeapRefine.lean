import Verif.Heap.Vocabulary
import Verif.Heap.Refine
import Verif.Props.Arithmetic
import Verif.Props.HeapAxis

/-!
# C73: objects behave like their values

The value-layer theorems (C07–C31) speak about relations as pairs of an axis and y values. Here: whatever happened to the
objects before (assignments to axis fields, filled caches, shared axis objects, reassigned Config), a call on them returns
an object with exactly the class, axis fields and y values the value-layer function computes from the current axis
fields and y values of the operands, or raises the same exception. For objects of class `Sweep` this needs that the methods
deriving the descriptions of a new sweep succeed (`Derives`): otherwise its constructor raises.
-/

set_option linter.unusedSectionVars false

namespace SweepDesign

namespace Spec

open Mem

variable {K V : Type}

/-- class, axis fields and y values of the object `r` -/
def valueAt (h : Heap K V) (r : Loc) : Option (Cls × Rel K V) :=
  match h.rels[r]? with
  | none => none
  | some o =>
    match fieldsAt h o.x, h.yarrs[o.y]? with
    | some a, some y => some (o.cls, ⟨a, y⟩)
    | _, _ => none

/-- the object `r` is on the axis object `l` -/
def axisOf (h : Heap K V) (r : Loc) : Option Loc := (h.rels[r]?).map RelObj.x

/-- what a call that returns an object returned: class, axis fields, y values -/
def outcome (m : HM K V Loc) (h : Heap K V) : Except Err (Option (Cls × Rel K V)) :=
  (m h).1.map (valueAt (m h).2)

/-- the same for a call that returns two objects -/
def outcome₂ (m : HM K V (Loc × Loc)) (h : Heap K V) :
    Except Err (Option (Cls × Rel K V) × Option (Cls × Rel K V)) :=
  (m h).1.map fun p => (valueAt (m h).2 p.1, valueAt (m h).2 p.2)

/-- the value layer's answer, as an object of class `c` -/
def asObject (c : Cls) (x : Except Err (Rel K V)) : Except Err (Option (Cls × Rel K V)) := x.map fun v => some (c, v)

/-- The methods that describe a new sweep succeed on any samples and give one value per sample. -/
def Derives (T : Transcendental K V) : Prop :=
  ∀ (y : List V) (d : K), y ≠ [] → (∃ f, T.instFreq y d = .ok f ∧ f.length = y.length) ∧
    (∃ a, T.envelope y = .ok a ∧ a.length = y.length) ∧ T.spectrogram y d = .ok ()

end Spec

open Mem Spec HM

section
variable {K V : Type}

theorem relIs_of_valueAt {h : Heap K V} {r : Loc} {c : Cls} {v : Rel K V} (hv : valueAt h r = some (c, v)) :
    ∃ o, RelIs h r c v o := by
  unfold valueAt at hv
  split at hv
  · cases hv
  · rename_i o ho
    split at hv
    · rename_i a y ha hy
      simp only [Option.some.injEq, Prod.mk.injEq] at hv
      obtain ⟨rfl, rfl⟩ := hv
      rw [fieldsAt, Option.map_eq_some_iff] at ha
      exact ⟨o, ho, rfl, ha, hy⟩
    · cases hv

theorem valueAt_of_relIs {h : Heap K V} {r : Loc} {c : Cls} {v : Rel K V} {o : RelObj} (hr : RelIs h r c v o) :
    valueAt h r = some (c, v) := by
  obtain ⟨a, ha, e⟩ := hr.x
  simp [valueAt, hr.rel, fieldsAt, ha, hr.y, hr.cls, e]

theorem outcome_of_sim {P : Prims K V} {h : Heap K V} {m : HM K V Loc} {x : Except Err (Rel K V)} {c : Cls}
    (hs : Sim P h m x (IsNew c)) : outcome m h = asObject c x := by
  have ag := hs.agree
  unfold outcome asObject
  revert ag
  rcases (m h).1 with e | l <;> rcases x with e' | v <;> simp only [Agree] <;> intro ag
  · subst ag; rfl
  · exact ag.elim
  · exact ag.elim
  · obtain ⟨o, ho⟩ := ag
    simp [Except.map, valueAt_of_relIs ho]

theorem fst_of_sim {P : Prims K V} {h : Heap K V} {α : Type} {m : HM K V α} {x : Except Err α}
    (hs : Sim P h m x (fun _ a b => a = b)) : (m h).1 = x := by
  have ag := hs.agree
  revert ag
  rcases (m h).1 with e | l <;> rcases x with e' | v <;> simp only [Agree] <;> intro ag
  · rw [ag]
  · exact ag.elim
  · exact ag.elim
  · rw [ag]

end

section
variable {K : Type} [Field K] [LinearOrder K] [IsStrictOrderedRing K] [FloorRing K]
variable {V : Type} [Field V] [Algebra K V] [Star V] [DecidableEq V] [PyPow V]
variable {T : Transcendental K V} {h : Heap K V}

theorem fine_of_derives {c : Cls} (hs : c = .sweep → Derives T) : Fine T (defaultMethods (exactPrims T)) c := by
  intro e
  refine ⟨rfl, fun v hb => ?_⟩
  have hy : v.y ≠ [] := by
    intro h0
    unfold Balanced at hb
    rw [h0] at hb
    have := ((v.x.size_ok_iff _).1 hb).2
    simp at this
  obtain ⟨⟨f, ef, lf⟩, ⟨a, ea, la⟩, es⟩ := hs e v.y v.x.sample hy
  refine ⟨(⟨v.x, f⟩, ⟨v.x, a⟩), ?_⟩
  have k1 : Rel.make v.x f = .ok ⟨v.x, f⟩ := make_ok (by rw [lf]; exact hb)
  have k2 : Rel.make v.x a = .ok ⟨v.x, a⟩ := make_ok (by rw [la]; exact hb)
  simp [sweepParts, derivedFt, derivedAt, ef, ea, es, k1, k2]

/-- `T` with the default Config -/
local notation "Dm" => defaultMethods (exactPrims T)
local notation "Pm" => exactPrims T

/-- **C73** calls on one object -/
theorem C73_one_object (hc : Coh Pm h) (r : Loc) (c : Cls) (v : Rel K V) (hv : valueAt h r = some (c, v))
    (hs : c = .sweep → Derives T) :
    dataAt Pm h r = v.getData.map (fun d => (some d.1, some d.2)) ∧
    (∀ s e, outcome (relSelect Pm Dm r s e) h = asObject c (v.selectData s e)) ∧
    outcome (relExp Pm Dm r) h = asObject c (v.exp T.exp) ∧
    outcome (relIntegrate Pm Dm r) h = asObject c v.integrate ∧
    outcome (relDiff Pm Dm r) h = asObject c v.diff ∧
    (∀ x f, outcome (relInterp Pm Dm r (.array x f)) h = asObject c (v.interpolateExtrapolate (.array x f))) ∧
    (¬ SignalClass c → ∀ d, outcome (Mem.shift Pm Dm r d) h = asObject c (v.shift d)) ∧
    (∀ a op, outcome (Mem.operator Pm Dm r (.number a) op) h = asObject c (v.operation (.other (.num a)) op)) ∧
    (Mem.getNorm Pm Dm r h).1 = v.getNorm ∧
    (relLen Pm r h).1 = v.len ∧
    (∀ t, (relItem Pm r t h).1 = v.getItem t) ∧
    (relMax Pm r h).1 = T.max v.y ∧ (relMin Pm r h).1 = T.min v.y := by
  obtain ⟨o, ho⟩ := relIs_of_valueAt hv
  replace hs := fine_of_derives hs
  refine ⟨?_, fun s e => outcome_of_sim (sim_relSelect hc ho hs s e), outcome_of_sim (sim_relExp hc ho hs),
    outcome_of_sim (sim_relIntegrate hc ho hs), outcome_of_sim (sim_relDiff hc ho hs),
    fun x f => outcome_of_sim (sim_relInterp_array hc ho hs x f),
    fun hg d => outcome_of_sim (sim_shift hc ho (not_isSignal_iff.2 hg) d), fun a op => outcome_of_sim (sim_operator_number hc ho hs a op),
    fst_of_sim (sim_relNorm hc ho hs), fst_of_sim (sim_relLen hc ho), fun t => fst_of_sim (sim_relItem hc ho t),
    fst_of_sim (Sim.read (getRel_run ho.rel) (Sim.read (getY_run ho.y) (sim_lift hc _))),
    fst_of_sim (Sim.read (getRel_run ho.rel) (Sim.read (getY_run ho.y) (sim_lift hc _)))⟩
  · have ag := (sim_relGetData hc ho).agree
    unfold dataAt
    revert ag
    rcases relGetData Pm r h with ⟨e | ⟨lx, ly⟩, h'⟩ <;> rcases v.getData with e' | d <;> simp only [Agree] <;> intro ag
    · subst ag; rfl
    · exact ag.elim
    · exact ag.elim
    · simp only [Except.map, ag.1, ag.2]

/-- **C73** construction: from an axis object and values, from an array, from another object -/
theorem C73_construct (hc : Coh Pm h) (c : Cls) (hs : c = .sweep → Derives T) (cp : Option Loc) :
    (∀ l a y, fieldsAt h l = some a → outcome (construct Pm Dm c (.axis l) (.list y) cp) h = asObject c (Rel.make a y)) ∧
    (∀ x f y, outcome (construct Pm Dm c (.array x f) (.list y) cp) h = asObject c (Rel.init (.array x f) (some y))) ∧
    (∀ r c' v y, valueAt h r = some (c', v) → (c = .sweep → Balanced v) →
      outcome (construct Pm Dm c (.rel r) y cp) h = .ok (some (c, v))) := by
  replace hs := fine_of_derives hs
  refine ⟨fun l a y ha => ?_, fun x f y => outcome_of_sim (sim_construct_array hc hs x f y cp), fun r c' v y hv hb => ?_⟩
  · rw [fieldsAt, Option.map_eq_some_iff] at ha
    exact outcome_of_sim (sim_construct_list hc _ hs y ha cp)
  · obtain ⟨o, ho⟩ := relIs_of_valueAt hv
    exact outcome_of_sim (sim_construct_rel hc _ hs ho hb y cp)

/-- **C73** calls on two objects. `l1 = l2` is the only thing besides the values that enters: whether the operands are on
one axis object. -/
theorem C73_two_objects (hc : Coh Pm h) (r1 r2 l1 l2 : Loc) (c1 c2 : Cls) (v1 v2 : Rel K V)
    (hv1 : valueAt h r1 = some (c1, v1)) (hv2 : valueAt h r2 = some (c2, v2)) (hl1 : axisOf h r1 = some l1)
    (hl2 : axisOf h r2 = some l2) (hs1 : c1 = .sweep → Derives T)
    (hs2 : c2 = .sweep → Derives T) :
    outcome₂ (relEqualize Pm Dm r1 r2) h =
      (Rel.equalize (decide (l1 = l2)) v1 v2).map (fun q => (some (c1, q.1), some (c2, q.2))) ∧
    outcome (relInterp Pm Dm r1 (.rel r2)) h = asObject c1 (v1.interpolateExtrapolate (.rel v2)) ∧
    (∀ op, (Forward op → (SignalClass c1 → c2 ≠ .spectrum) ∧ (c1 = .spectrum → ¬ SignalClass c2)) →
      outcome (Mem.operator Pm Dm r1 (.obj r2) op) h = asObject c1 (v1.operation (.rel (decide (l1 = l2)) v2) op)) ∧
    (¬ SignalClass c1 → ¬ SignalClass c2 →
      outcome (clsConv Pm Dm (defaultConvMethods Pm Dm).convolveCall .relation (.obj r1) (.obj r2)) h =
        asObject .relation (Rel.convolve v1 v2) ∧
      outcome (clsConv Pm Dm (defaultConvMethods Pm Dm).correlateCall .relation (.obj r1) (.obj r2)) h =
        asObject .relation (Rel.correlate v1 v2)) := by
  obtain ⟨o1, ho1⟩ := relIs_of_valueAt hv1
  obtain ⟨o2, ho2⟩ := relIs_of_valueAt hv2
  have e1 : o1.x = l1 := by simpa [axisOf, ho1.rel] using hl1
  have e2 : o2.x = l2 := by simpa [axisOf, ho2.rel] using hl2
  subst e1 e2
  replace hs1 := fine_of_derives hs1
  replace hs2 := fine_of_derives hs2
  refine ⟨?_, outcome_of_sim (sim_relInterp_rel hc ho1 hs1 ho2),
    fun op hop => outcome_of_sim (sim_operator_rel hc ho1 ho2 hs1 hs2 op fun g => by simpa only [← isSignal_iff, Bool.not_eq_true] using hop (forward_iff.1 g)), fun g1 g2 => ⟨?_, ?_⟩⟩
  · have ag := (sim_relEqualize hc ho1 ho2 hs1 hs2).agree
    unfold outcome₂
    revert ag
    rcases relEqualize Pm Dm r1 r2 h with ⟨e | ⟨lx, ly⟩, h'⟩ <;>
      rcases Rel.equalize (decide (o1.x = o2.x)) v1 v2 with e' | d <;> simp only [Agree] <;> intro ag
    · subst ag; rfl
    · exact ag.elim
    · exact ag.elim
    · obtain ⟨⟨u1, h1⟩, ⟨u2, h2⟩⟩ := ag
      simp [Except.map, valueAt_of_relIs h1, valueAt_of_relIs h2]
  · exact outcome_of_sim (sim_clsConv_relation hc ho1 ho2 (not_isSignal_iff.2 g1) (not_isSignal_iff.2 g2)
      (C := (defaultConvMethods Pm Dm).convolveCall) (np := npConvolve) fun _ _ => rfl)
  · exact outcome_of_sim (sim_clsConv_relation hc ho1 ho2 (not_isSignal_iff.2 g1) (not_isSignal_iff.2 g2)
      (C := (defaultConvMethods Pm Dm).correlateCall) (np := npCorrelate) fun _ _ => rfl)

/-- **C73** an ndarray operand (not for a spectrum, which refuses it) -/
theorem C73_array_operand (hc : Coh Pm h) (r ly : Loc) (c : Cls) (v : Rel K V) (y : List V) (hv : valueAt h r = some (c, v))
    (hy : h.yarrs[ly]? = some y) (hs : c = .sweep → Derives T) (op : MathOp) (hcc : Forward op → c ≠ .spectrum) :
    outcome (Mem.operator Pm Dm r (.other (.arr ly)) op) h = asObject c (v.operation (.other (.arr y)) op) := by
  obtain ⟨o, ho⟩ := relIs_of_valueAt hv
  exact outcome_of_sim (sim_operator_other hc ho (fine_of_derives hs) (w := .arr ly) (b := .arr y) hy op fun g => hcc (forward_iff.1 g))

/-- **C73** sharing does not matter: for operands whose `get_data` works, an operator returns the same values whether the
operands are on one axis object, on two equal ones, in this heap or in another. -/
theorem C73_sharing_irrelevant {h' : Heap K V} (hc : Coh Pm h) (hc' : Coh Pm h') (r1 r2 q1 q2 : Loc) (c1 c2 : Cls)
    (v1 v2 : Rel K V) (hv1 : valueAt h r1 = some (c1, v1)) (hv2 : valueAt h r2 = some (c2, v2))
    (hq1 : valueAt h' q1 = some (c1, v1)) (hq2 : valueAt h' q2 = some (c2, v2)) (hs1 : c1 = .sweep → Derives T)
    (hs2 : c2 = .sweep → Derives T)
    (b1 : Balanced v1) (b2 : Balanced v2) (op : MathOp)
    (hcc : Forward op → (SignalClass c1 → c2 ≠ .spectrum) ∧ (c1 = .spectrum → ¬ SignalClass c2)) :
    outcome (Mem.operator Pm Dm r1 (.obj r2) op) h = outcome (Mem.operator Pm Dm q1 (.obj q2) op) h' := by
  have key : ∀ {g : Heap K V} {a b : Loc}, Coh Pm g → valueAt g a = some (c1, v1) → valueAt g b = some (c2, v2) →
      outcome (Mem.operator Pm Dm a (.obj b) op) g = asObject c1 (v1.operation (.rel false v2) op) := by
    intro g a b hg ha hb
    obtain ⟨o1, ho1⟩ := relIs_of_valueAt ha
    obtain ⟨o2, ho2⟩ := relIs_of_valueAt hb
    rw [(C73_two_objects hg a b o1.x o2.x c1 c2 v1 v2 ha hb (by simp [axisOf, ho1.rel]) (by simp [axisOf, ho2.rel])
      hs1 hs2).2.2.1 op hcc]
    by_cases he : o1.x = o2.x
    · have hx : v1.x = v2.x := by
        obtain ⟨a1, h1, e1⟩ := ho1.x
        obtain ⟨a2, h2, e2⟩ := ho2.x
        rw [he, h2] at h1
        rw [← e1, ← e2, Option.some.inj h1]
      rw [operation_equal_axes _ v1 v2 op b1 b2 hx, operation_equal_axes _ v1 v2 op b1 b2 hx]
    · rw [decide_eq_false he]
  rw [key hc hv1 hv2, key hc' hq1 hq2]

namespace Spec

/-- calls on one object that return an object -/
inductive OneCall (K V : Type)
  | select (s e : Option K)
  | exp
  | integrate
  | diff
  | interp (x : List K) (isFloat : Bool)
  | number (a : V) (op : MathOp)

def OneCall.on {K V : Type} (P : Prims K V) (M : Methods K V) (r : Loc) : OneCall K V → HM K V Loc
  | .select s e => relSelect P M r s e
  | .exp => relExp P M r
  | .integrate => relIntegrate P M r
  | .diff => relDiff P M r
  | .interp x f => relInterp P M r (.array x f)
  | .number a op => Mem.operator P M r (.number a) op

end Spec

/-- **C73** the past does not matter: if two programs (any calls, any assignments to axes and Config, writes into y
arrays) leave objects with the same class, axis fields and y values, every call on them returns the same. -/
theorem C73_history_irrelevant (ss ss' : List (Step K V)) (hss : ∀ s ∈ ss, s.noPoke) (hss' : ∀ s ∈ ss', s.noPoke)
    (r r' : Loc) (c : Cls) (v : Rel K V) (hs : c = .sweep → Derives T)
    (hv : valueAt (runSteps Pm Dm (defaultConvMethods Pm Dm) ss (emptyHeap K V)) r = some (c, v))
    (hv' : valueAt (runSteps Pm Dm (defaultConvMethods Pm Dm) ss' (emptyHeap K V)) r' = some (c, v)) (k : OneCall K V) :
    outcome (k.on Pm Dm r) (runSteps Pm Dm (defaultConvMethods Pm Dm) ss (emptyHeap K V)) =
    outcome (k.on Pm Dm r') (runSteps Pm Dm (defaultConvMethods Pm Dm) ss' (emptyHeap K V)) := by
  have gM := good_defaultMethods (P := Pm)
  have gC := good_defaultConvMethods gM
  obtain ⟨-, a2, a3, a4, a5, a6, -, a8, -⟩ :=
    C73_one_object (coh_steps gM gC ss hss _ (coh_empty _)) r c v hv hs
  obtain ⟨-, b2, b3, b4, b5, b6, -, b8, -⟩ :=
    C73_one_object (coh_steps gM gC ss' hss' _ (coh_empty _)) r' c v hv' hs
  cases k with
  | select s e => exact (a2 s e).trans (b2 s e).symm
  | exp => exact a3.trans b3.symm
  | integrate => exact a4.trans b4.symm
  | diff => exact a5.trans b5.symm
  | interp x f => exact (a6 x f).trans (b6 x f).symm
  | number a op => exact (a8 a op).trans (b8 a op).symm

end

/-! Two ways to the same relation: built directly, or on a longer axis that is shortened after its array was cached. -/

/-- `ArrayAxis(0, 2, 1)`; `Relation(axis, [1, 2, 4])` -/
def direct : List (Step ℚ ℚ) := [.call (.axisNew 0 2 1), .call (.construct .relation (.axis 0) (.list [1, 2, 4]))]

/-- `ArrayAxis(0, 4, 2)`, relation on it, array read, `sample = 1`, `end = 2`, `y[:] = [1, 2, 4]` -/
def devious : List (Step ℚ ℚ) :=
  [.call (.axisNew 0 4 2), .call (.construct .relation (.axis 0) (.list [0, 0, 0])), .call (.getData 0),
    .call (.axisActual 0), .edit (.setSample 0 1), .edit (.setStop 0 2), .edit (.pokeY 0 fun _ => [1, 2, 4])]

example :
    let h := runSteps ratPrims (defaultMethods ratPrims) (defaultConvMethods ratPrims (defaultMethods ratPrims)) direct
      (emptyHeap ℚ ℚ)
    let h' := runSteps ratPrims (defaultMethods ratPrims) (defaultConvMethods ratPrims (defaultMethods ratPrims)) devious
      (emptyHeap ℚ ℚ)
    valueAt h 0 = some (.relation, ⟨⟨0, 2, 1⟩, [1, 2, 4]⟩) ∧ valueAt h' 0 = valueAt h 0 ∧
    outcome (relIntegrate ratPrims (defaultMethods ratPrims) 0) h =
      .ok (some (.relation, ⟨⟨1, 2, 1⟩, [3 / 2, 9 / 2]⟩)) ∧
    outcome (relIntegrate ratPrims (defaultMethods ratPrims) 0) h' =
      .ok (some (.relation, ⟨⟨1, 2, 1⟩, [3 / 2, 9 / 2]⟩)) := by decide +kernel

/-- one axis object or two equal ones -/
example :
    let C := defaultConvMethods ratPrims (defaultMethods ratPrims)
    let h := runSteps ratPrims (defaultMethods ratPrims) C (direct ++
      [.call (.construct .relation (.axis 0) (.list [5, 6, 7]))]) (emptyHeap ℚ ℚ)
    let h' := runSteps ratPrims (defaultMethods ratPrims) C (direct ++ [.call (.axisNew 0 2 1),
      .call (.construct .relation (.axis 1) (.list [5, 6, 7]))]) (emptyHeap ℚ ℚ)
    axisOf h 0 = axisOf h 1 ∧ axisOf h' 0 ≠ axisOf h' 1 ∧
    outcome (Mem.operator ratPrims (defaultMethods ratPrims) 0 (.obj 1) .sub) h =
      .ok (some (.relation, ⟨⟨0, 2, 1⟩, [-4, -4, -3]⟩)) ∧
    outcome (Mem.operator ratPrims (defaultMethods ratPrims) 0 (.obj 1) .sub) h' =
      .ok (some (.relation, ⟨⟨0, 2, 1⟩, [-4, -4, -3]⟩)) := by decide +kernel

/-- the relation and its convolution with itself -/
example :
    let C := defaultConvMethods ratPrims (defaultMethods ratPrims)
    let h := runSteps ratPrims (defaultMethods ratPrims) C direct (emptyHeap ℚ ℚ)
    outcome (clsConv ratPrims (defaultMethods ratPrims) C.convolveCall .relation (.obj 0) (.obj 0)) h =
      .ok (some (.relation, ⟨⟨-2, 2, 1⟩, [1, 4, 12, 16, 16]⟩)) := by decide +kernel

theorem derives_ratT : Derives ratT := fun _ _ _ => ⟨⟨_, rfl, by simp⟩, ⟨_, rfl, by simp⟩, rfl⟩

/-- a sweep object times two, and its integral, are sweeps -/
example :
    let h := runSteps ratPrims (defaultMethods ratPrims) (defaultConvMethods ratPrims (defaultMethods ratPrims))
      [.call (.axisNew 0 2 1), .call (.construct .sweep (.axis 0) (.list [1, 2, 4]))] (emptyHeap ℚ ℚ)
    (h.rels.map fun o => o.cls) = [.sweep, .relation, .relation] ∧
    outcome (Mem.operator ratPrims (defaultMethods ratPrims) 0 (.number 2) .mul) h =
      .ok (some (.sweep, ⟨⟨0, 2, 1⟩, [2, 4, 8]⟩)) ∧
    outcome (relIntegrate ratPrims (defaultMethods ratPrims) 0) h =
      .ok (some (.sweep, ⟨⟨1, 2, 1⟩, [3 / 2, 9 / 2]⟩)) := by decide +kernel

end SweepDesign
