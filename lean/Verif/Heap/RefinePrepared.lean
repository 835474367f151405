import Verif.Heap.Prepared
import Verif.Heap.RefineSweep
import Verif.Model.Codes
import Verif.Model.Correction
import Verif.Model.Dwell

/-!
# Heap layer: the functions of `Heap/Prepared` compute the value-layer functions of `Model/{Prepared,Codes,Correction}`
-/

set_option linter.unusedSectionVars false

namespace SweepDesign.Mem

open HM Spec

section
variable {K V : Type} [Field K] [LinearOrder K] [IsStrictOrderedRing K] [FloorRing K]
variable [Field V] [Algebra K V] [Star V] [DecidableEq V] [PyPow V]
variable {T : Transcendental K V} {h : Heap K V} {L : LibPrims K V}

local notation "Pm" => exactPrims T
local notation "Dm" => defaultMethods (exactPrims T)

theorem AxIs.lt {l : Loc} {a : Axis K} (ha : AxIs h l a) : l < h.axes.length := by
  obtain ⟨o, ho, -⟩ := ha
  exact (List.getElem?_eq_some_iff.1 ho).1

/-- the operands of an operator are on two axis objects if the right one was made after the left one -/
theorem sim_operator_later {h1 : Heap K V} {a b : Loc} {c1 c2 : Cls} {va vb : Rel K V} (ha : IsNew c1 h a va) (w : Le ∅ h h1)
    (hc : Coh Pm h1) (hb : ∃ o, RelIs h1 b c2 vb o ∧ h.axes.length ≤ o.x ∧ o.x < h1.axes.length) (hn1 : Fine T Dm c1)
    (hn2 : Fine T Dm c2) (op : MathOp)
    (hcc : MathOp.isForward op = true → (c1.isSignal = true → c2 ≠ .spectrum) ∧ (c1 = .spectrum → c2.isSignal = false)) :
    Sim Pm h1 (operator Pm Dm a (.obj b) op) (va.operation (.rel false vb) op) (IsNew c1) := by
  obtain ⟨oa, ha⟩ := ha
  obtain ⟨ob, hb, hge, -⟩ := hb
  obtain ⟨oa', ha', e⟩ := ha.le w
  have := ha.x.lt
  have hne : oa'.x ≠ ob.x := by rw [e]; exact (Nat.lt_of_lt_of_le this hge).ne
  have := sim_operator_rel hc ha' hb hn1 hn2 op hcc
  rwa [decide_eq_false hne] at this

/-- the operands of an operator are on two axis objects if the left one was made after the right one -/
theorem sim_operator_earlier {h1 : Heap K V} {a b : Loc} {c1 c2 : Cls} {va vb : Rel K V} (hb : IsNew c2 h b vb) (w : Le ∅ h h1)
    (hc : Coh Pm h1) (ha : ∃ o, RelIs h1 a c1 va o ∧ h.axes.length ≤ o.x ∧ o.x < h1.axes.length) (hn1 : Fine T Dm c1)
    (hn2 : Fine T Dm c2) (op : MathOp)
    (hcc : MathOp.isForward op = true → (c1.isSignal = true → c2 ≠ .spectrum) ∧ (c1 = .spectrum → c2.isSignal = false)) :
    Sim Pm h1 (operator Pm Dm a (.obj b) op) (va.operation (.rel false vb) op) (IsNew c1) := by
  obtain ⟨ob, hb⟩ := hb
  obtain ⟨oa, ha, hge, -⟩ := ha
  obtain ⟨ob', hb', e⟩ := hb.le w
  have := hb.x.lt
  have hne : oa.x ≠ ob'.x := by rw [e]; exact (Nat.lt_of_lt_of_le this hge).ne'
  have := sim_operator_rel hc ha hb' hn1 hn2 op hcc
  rwa [decide_eq_false hne] at this

theorem IsNew.later {c : Cls} {h' : Heap K V} {l : Loc} {v : Rel K V} (w : Le ∅ h h') (hr : IsNew c h l v) : IsNew c h' l v := by
  obtain ⟨o, ho⟩ := hr
  obtain ⟨o', ho', -⟩ := ho.le w
  exact ⟨o', ho'⟩

/-- reading a field of the axis of a relation -/
theorem Sim.axisOf {γ δ : Type} {r : Loc} {c : Cls} {v : Rel K V} (hr : IsNew c h r v) {f : RelObj → AxisObj K → HM K V γ}
    {x : Except Err δ} {R : Heap K V → γ → δ → Prop}
    (hf : ∀ o a, RelIs h r c v o → h.axes[o.x]? = some a → fields a = v.x → Sim Pm h (f o a) x R) :
    Sim Pm h (do let o ← getRel r; let a ← getAxis o.x; f o a) x R := by
  obtain ⟨o, ho⟩ := hr
  obtain ⟨a, ha, e⟩ := ho.x
  exact Sim.read (getRel_run ho.rel) (Sim.read (getAxis_run ha) (hf o a ho ha e))

/-! ## codes -/

theorem sim_zingerLoop (hL : ∀ n x, L.times n x = n * x) {r : Loc} {c : Cls} {v : Rel K V} (hn : c.isSignal = false) (ks : List ℕ) :
    ∀ {h : Heap K V} {acc : Loc} {va : Rel K V}, Coh Pm h → IsNew c h r v → IsNew c h acc va →
      Sim Pm h (zingerLoop Pm L Dm r ks acc) (ks.foldlM (fun sequence (k : ℕ) => do
        let shifted ← v.shift (v.x.stop * k)
        sequence.add (.rel false shifted)) va) (IsNew c) := by
  have gM := good_defaultMethods (P := Pm)
  have hf : Fine T Dm c := Fine.of_ne (by rintro rfl; simp [Cls.isSignal] at hn)
  induction ks with
  | nil => intro h acc va hc _ ha; exact sim_pure hc ha
  | cons k ks ih =>
    intro h acc va hc hr ha
    rw [List.foldlM_cons]
    simp only [bind_assoc]
    refine Sim.axisOf hr fun o a ho hax e => ?_
    have e1 : L.times k a.stop = v.x.stop * k := by rw [hL, ← e, mul_comm]; rfl
    rw [e1]
    refine ((sim_shift hc ho hn _).own (ownM_shift gM _ _)).bind fun s vs h1 w1 c1 hs => ?_
    refine (sim_operator_later ha w1 c1 hs hf hf .add fun _ => ⟨fun k => by simp [hn] at k, fun _ => hn⟩).bind
      fun acc' va' h2 w2 c2 ha' => ?_
    exact ih c2 (hr.later (w1.trans w2)) ha'

theorem sim_zingerRelation (hL : ∀ n x, L.times n x = n * x) (hc : Coh Pm h) {r : Loc} {c : Cls} {v : Rel K V} (hr : IsNew c h r v)
    (hn : c.isSignal = false) (n : ℤ) :
    Sim Pm h (zingerRelation Pm L Dm r n) (getCodeZingerRelation v n) (IsNew c) := by
  unfold zingerRelation getCodeZingerRelation
  split
  · exact sim_zingerLoop hL hn _ hc hr hr
  · exact sim_pure hc hr

/-- an entry of a code as an operand -/
def EntryIs : PyOperand V → V → Prop
  | .number a, v => a = v
  | .other (.num a), v => a = v
  | _, _ => False

theorem sim_operator_entry (hc : Coh Pm h) {r : Loc} {c : Cls} {v : Rel K V} (hr : IsNew c h r v) (hn : Fine T Dm c)
    (hcs : c ≠ .spectrum) {p : PyOperand V} {a : V} (hp : EntryIs p a) (op : MathOp) :
    Sim Pm h (operator Pm Dm r p op) (v.operation (.other (.num a)) op) (IsNew c) := by
  obtain ⟨o, ho⟩ := hr
  rcases p with _ | q | _
  · exact absurd hp id
  · cases hp; exact sim_operator_number hc ho hn _ op
  · rename_i w
    cases w with
    | num b => cases hp; exact sim_operator_other hc ho hn (w := .num _) (b := .num _) rfl op fun _ => hcs
    | arr l => exact absurd hp id
    | bad => exact absurd hp id

theorem sim_segmentsLoop (hL : ∀ n x, L.times n x = n * x) {base : Loc} {c : Cls} {v : Rel K V} (hn : c.isSignal = false)
    (hcs : c ≠ .spectrum) (es : List (PyOperand V)) :
    ∀ {h : Heap K V} {cnt : ℕ} {code : List V} {acc : Loc} {va : Rel K V}, List.Forall₂ EntryIs es code → Coh Pm h → IsNew c h base v →
      IsNew c h acc va →
      Sim Pm h (segmentsLoop Pm L Dm base cnt es acc) (codeSegmentsLoop v cnt code va) (IsNew c) := by
  have gM := good_defaultMethods (P := Pm)
  have hf : Fine T Dm c := Fine.of_ne (by rintro rfl; simp [Cls.isSignal] at hn)
  induction es with
  | nil => intro h cnt code acc va he hc _ ha; cases he; exact sim_pure hc ha
  | cons e es ih =>
    intro h cnt code acc va he hc hr ha
    obtain _ | ⟨he1, he2⟩ := he
    refine Sim.axisOf hr fun o a ho hax ea => ?_
    have e1 : (Pm).add (L.times cnt a.stop) a.sample = cnt * v.x.stop + v.x.sample := by
      rw [hL, ← ea]; rfl
    rw [e1]
    refine (sim_shift hc ho hn _).bind fun s vs h1 w1 c1 hs => ?_
    refine ((sim_operator_entry c1 hs hf hcs he1 .mul).own (ownM_operator gM _ _ _)).bind fun q vq h2 w2 c2 hq => ?_
    refine (sim_operator_later (ha.later w1) w2 c2 hq hf hf .add fun _ => ⟨fun k => by simp [hn] at k, fun _ => hn⟩).bind
      fun acc' va' h3 w3 c3 ha' => ?_
    exact ih he2 c3 (hr.later ((w1.trans w2).trans w3)) ha'

/-- a code object and its entries -/
def CodeIs (h : Heap K V) : HCode V → List V → Prop
  | .rel l _, y => ∃ c v, IsNew c h l v ∧ v.y = y
  | .arr l _, y => h.yarrs[l]? = some y
  | .list y, y' => y = y'

theorem entries_npEntry (f : Bool) (y : List V) : List.Forall₂ EntryIs (y.map (npEntry f)) y := by
  induction y with
  | nil => exact .nil
  | cons a y ih => exact .cons (by cases f <;> rfl) ih

theorem sim_codeEntries (hc : Coh Pm h) {code : HCode V} {y : List V} (hy : CodeIs h code y) :
    Sim Pm h (codeEntries code) (.ok y) (fun h' es y => h' = h ∧ List.Forall₂ EntryIs es y) := by
  cases code with
  | rel l f =>
    obtain ⟨c, v, ⟨o, ho⟩, rfl⟩ := hy
    exact Sim.read (a := o.y) (by unfold relY; rw [bind_of_ok (getRel_run ho.rel)]; rfl) (Sim.read (getY_run ho.y)
      (sim_pure hc ⟨rfl, entries_npEntry _ _⟩))
  | arr l f => exact Sim.read (getY_run hy) (sim_pure hc ⟨rfl, entries_npEntry _ _⟩)
  | list y' =>
    cases hy
    refine sim_pure hc ⟨rfl, ?_⟩
    induction y with
    | nil => exact .nil
    | cons a y ih => exact .cons rfl (ih)

end

section
variable {K : Type} [Field K] [LinearOrder K] [IsStrictOrderedRing K] [FloorRing K] [Star K] [PyPow K]
variable {T : Transcendental K K} {N : SweepNumbers K} {h : Heap K K} {L : LibPrims K K}

local notation "Tm" => SweepNumbers.over N T
local notation "Pm" => exactPrims (SweepNumbers.over N T)
local notation "Dm" => defaultMethods (exactPrims (SweepNumbers.over N T))
local notation "Gm" => exactGen (exactPrims (SweepNumbers.over N T)) N
local notation "Sm" => SweepNumbers.prims N (SweepNumbers.over N T)

/-- `Sweep(relation)` -/
theorem sim_sweep_of_rel (hc : Coh Pm h) {r : Loc} {c : Cls} {v : Rel K K} (hr : IsNew c h r v) :
    Sim Pm h (construct Pm Dm .sweep (.rel r) .absent) (Sweep.init Sm (.rel v) none none none none) SweepIs := by
  obtain ⟨o, ho⟩ := hr
  refine sim_construct_sweep (xa := .rel v) (ya := none) ?_
  unfold relInit
  refine Sim.read rfl ?_
  refine Sim.read (getRel_run ho.rel) ?_
  refine Sim.step (sim_axisCopy hc ho.x) fun ax h1 w1 c1 ra => ?_
  refine Sim.read (getY_run (yIs_le w1 ho.y)) ?_
  refine Sim.step (sim_newY c1 v.y) fun ly h2 w2 c2 ry => ?_
  obtain ⟨a, ha, e⟩ := ra.le w2
  exact sim_ok (safe_newRel _) c2 rfl ⟨mkRelObj .sweep h.config ax ly none, by simp, rfl, ⟨a, ha, e⟩, ry⟩

theorem sim_codeSweepSegments (hL : ∀ n x, L.times n x = n * x) (hc : Coh Pm h) {code : HCode K} {y : List K} (hy : CodeIs h code y)
    {base : Loc} {c : Cls} {v : Rel K K} (hr : IsNew c h base v) (hn : c.isSignal = false) (hcs : c ≠ .spectrum) :
    Sim Pm h (codeSweepSegments Pm L Dm code base) (getCodeSweepSegments Sm y v) SweepIs := by
  have hf : Fine Tm Dm c := Fine.of_ne (by rintro rfl; simp [Cls.isSignal] at hn)
  unfold codeSweepSegments getCodeSweepSegments
  refine Sim.step (sim_codeEntries hc hy) fun es h1 w1 c1 hes => ?_
  obtain ⟨rfl, hes⟩ := hes
  cases hes with
  | nil => exact sim_raise hc _
  | cons he hes =>
    unfold codeSegments
    simp only [bind_assoc]
    refine (sim_operator_entry hc hr hf hcs he .mul).bind fun acc va h2 w2 c2 ha => ?_
    refine (sim_segmentsLoop hL hn hcs _ hes c2 (hr.later w2) ha).bind fun acc va h3 w3 c3 ha => ?_
    exact sim_sweep_of_rel c3 ha

end

end SweepDesign.Mem
