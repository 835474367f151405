import Verif.Lemmas.Arith
import Verif.Lemmas.Phase
import Verif.Props.Relation
import Verif.Props.HeapRefine

/-!
# C88: relations whose axis no longer fits their samples

Assigning `start`, `end` or `sample` of an axis changes every relation on it. When the number of points changes, the samples
no longer fit. Which calls notice.
-/

set_option linter.unusedSectionVars false

namespace SweepDesign.Spec

variable {K : Type} [Field K] [LinearOrder K] [IsStrictOrderedRing K] [FloorRing K] {V : Type}

/-- the axis has `n` points and there are not `n` samples -/
def Unfit (r : Rel K V) (n : ℕ) : Prop := r.x.size = .ok n ∧ n ≠ r.y.length

/-- nothing is returned -/
def Raises {α : Type} (x : Except Err α) : Prop := ∃ e, x = .error e

end SweepDesign.Spec

namespace SweepDesign

open Spec

section
variable {K : Type} [Field K] [LinearOrder K] [IsStrictOrderedRing K] [FloorRing K]
variable {V : Type} [Field V] [Algebra K V] {r : Rel K V} {n : ℕ}

theorem raises_iff {α : Type} {x : Except Err α} : Raises x ↔ ∀ a, x ≠ .ok a := by
  cases x with
  | error e => simp [Raises]
  | ok a => simp [Raises]

theorem unfit_array (h : Unfit r n) : ∃ l, r.x.array = .ok l ∧ l.length = n := by
  have := h.1
  simp only [Axis.size] at this
  cases hx : r.x.array with
  | error e => rw [hx] at this; simp [Except.map] at this
  | ok l => rw [hx] at this; simp only [Except.map, Except.ok.injEq] at this; exact ⟨l, rfl, this⟩

theorem make_unfit {x : Axis K} {W : Type} {y : List W} (h1 : x.size = .ok n) (h2 : n ≠ y.length) :
    Rel.make x y = .error (.notEqual n y.length) := by
  unfold Rel.make
  rw [h1]
  simp only [Bind.bind, Except.bind]
  rw [if_pos h2]

theorem interp_unfit (h : Unfit r n) (x : Axis K) {l : List K} (hx : x.array = .ok l) : r.interpAxis x = .error .value := by
  obtain ⟨m, hm, hl⟩ := unfit_array h
  unfold Rel.interpAxis
  rw [hm, hx]
  simp only [Bind.bind, Except.bind, interp1d]
  rw [if_pos (by rw [hl]; exact h.2)]

theorem interp_raises (h : Unfit r n) (x : Axis K) : Raises (r.interpAxis x) := by
  cases hx : x.array with
  | ok l => exact ⟨_, interp_unfit h x hx⟩
  | error e =>
    obtain ⟨m, hm, -⟩ := unfit_array h
    exact ⟨e, by unfold Rel.interpAxis; rw [hm, hx]; rfl⟩

theorem shift_unfit (h : Unfit r n) (d : K) : r.shift d = .error (.notEqual n r.y.length) := by
  refine make_unfit ?_ h.2
  have := h.1
  rw [Axis.size_ok_iff] at this ⊢
  refine ⟨this.1, this.2.trans ?_⟩
  simp [Axis.steps]

/-! ## C88 -/

/-- `get_data`, `exp` and `shift` raise `NotEqualError` with the two sizes; `select_data` raises `IndexError`. -/
theorem C88_data (h : Unfit r n) :
    r.getData = .error (.notEqual n r.y.length) ∧
    (∀ e : V → V, r.exp e = .error (.notEqual n r.y.length)) ∧
    (∀ d, r.shift d = .error (.notEqual n r.y.length)) ∧
    (∀ a b, r.selectData a b = .error .index) := by
  refine ⟨?_, fun e => ?_, shift_unfit h, fun a b => ?_⟩
  · unfold Rel.getData
    rw [h.1]
    simp only [Bind.bind, Except.bind]
    rw [if_pos h.2]
  · have := make_unfit (n := n) (y := r.y.map e) h.1 (by simpa using h.2)
    simpa [Rel.exp] using this
  · obtain ⟨l, hl, hn⟩ := unfit_array h
    unfold Rel.selectData
    rw [hl]
    simp only [Bind.bind, Except.bind, maskSelect_self]
    split
    · rw [maskSelect, if_neg (by simpa [hn] using h.2)]
    · rfl

/-- Interpolation raises `ValueError`, whatever the new axis; so `equalize` of relations on two axis objects, the arithmetic
operators between them, `convolve` and `correlate` return nothing when one of the operands does not fit. -/
theorem C88_combine [DecidableEq V] [PyPow V] [Star V] (h : Unfit r n) (q : Rel K V) :
    (∀ (x : Axis K) l, x.array = .ok l → r.interpolateExtrapolate (.axis x) = .error .value) ∧
    (∀ x, Raises (r.interpolateExtrapolate x)) ∧
    Raises (Rel.equalize false r q) ∧ Raises (Rel.equalize false q r) ∧
    (∀ op, Raises (r.operation (.rel false q) op) ∧ Raises (q.operation (.rel false r) op)) ∧
    Raises (Rel.convolve r q) ∧ Raises (Rel.convolve q r) ∧ Raises (Rel.correlate r q) ∧ Raises (Rel.correlate q r) := by
  have e1 : ∀ p : Rel K V, Raises (Rel.equalize false r p) := by
    intro p
    obtain ⟨e, he⟩ := interp_raises h (commonX r.x p.x)
    exact ⟨e, by simp only [Rel.equalize, Bool.false_eq_true, if_false, he]; rfl⟩
  have e2 : ∀ p : Rel K V, Raises (Rel.equalize false p r) := by
    intro p
    obtain ⟨e, he⟩ := interp_raises h (commonX p.x r.x)
    simp only [Rel.equalize, Bool.false_eq_true, if_false]
    cases hp : p.interpAxis (commonX p.x r.x) with
    | error e' => exact ⟨e', rfl⟩
    | ok p' => exact ⟨e, by simp only [Bind.bind, Except.bind, he]⟩
  have c1 : ∀ p : Rel K V, Raises (Rel.alignForConv r p) := by
    intro p
    exact ⟨_, by unfold Rel.alignForConv; rw [shift_unfit h]; rfl⟩
  have c2 : ∀ p : Rel K V, Raises (Rel.alignForConv p r) := by
    intro p
    unfold Rel.alignForConv
    cases hp : p.shift (-p.x.start) with
    | error e => exact ⟨e, rfl⟩
    | ok p' => exact ⟨.notEqual n r.y.length, by simp only [Bind.bind, Except.bind, shift_unfit h]⟩
  refine ⟨fun x l hl => interp_unfit h x hl, ?_, e1 q, e2 q, fun op => ⟨?_, ?_⟩, ?_, ?_, ?_, ?_⟩
  · intro x
    cases x with
    | rel p => exact interp_raises h p.x
    | axis a => exact interp_raises h a
    | array l f =>
      simp only [Rel.interpolateExtrapolate]
      cases ha : axisFromArray l f false with
      | error e => exact ⟨e, rfl⟩
      | ok a => exact interp_raises h a
  · obtain ⟨e, he⟩ := e1 q
    exact ⟨e, by simp only [Rel.operation, he]; rfl⟩
  · obtain ⟨e, he⟩ := e2 q
    exact ⟨e, by simp only [Rel.operation, he]; rfl⟩
  · obtain ⟨e, he⟩ := c1 q
    exact ⟨e, by simp only [Rel.convolve, he]; rfl⟩
  · obtain ⟨e, he⟩ := c2 q
    exact ⟨e, by simp only [Rel.convolve, he]; rfl⟩
  · obtain ⟨e, he⟩ := c1 q
    exact ⟨e, by simp only [Rel.correlate, he]; rfl⟩
  · obtain ⟨e, he⟩ := c2 q
    exact ⟨e, by simp only [Rel.correlate, he]; rfl⟩

theorem finite_length [DecidableEq V] {l : List (Option V)} {y : List V} (h : finite l = .ok y) : y.length = l.length := by
  rw [(finite_ok_iff _ _).1 h, List.length_map]

/-- The arithmetic operators with a number return nothing. With an array, or with a relation on the same axis object, they return only
when numpy broadcasts the relation's one sample over as many values as the axis has points. `get_norm` raises `NotEqualError`. -/
theorem C88_arithmetic [DecidableEq V] [PyPow V] (h : Unfit r n) :
    (∀ c op, Raises (r.operation (.other (.num c)) op)) ∧
    (∀ l op q, r.operation (.other (.arr l)) op = .ok q → r.y.length = 1 ∧ l.length = n) ∧
    (∀ b op q, r.operation (.rel true b) op = .ok q → r.y.length = 1 ∧ b.y.length = n) ∧
    r.getNorm = .error (.notEqual n r.y.length) := by
  have mk : ∀ (y : List V) (q : Rel K V), Rel.make r.x y = .ok q → n = y.length := by
    intro y q hq
    by_contra hne
    rw [make_unfit h.1 hne] at hq
    cases hq
  have key : ∀ l op y q, mathOperation r.y (.arr l) op = .ok y → Rel.make r.x y = .ok q → r.y.length = 1 ∧ l.length = n := by
    intro l op y q hy hq
    have hn := mk y q hq
    unfold mathOperation at hy
    simp only [] at hy
    split at hy
    · rename_i hl
      have := finite_length hy
      simp only [List.length_zipWith, hl, min_self] at this
      exact absurd (hn.trans (this.trans hl.symm)) h.2
    · split at hy
      · have := finite_length hy
        rw [List.length_map] at this
        exact absurd (hn.trans this) h.2
      · rename_i c hc _ _ 
        have := finite_length hy
        rw [List.length_map] at this
        exact ⟨by rw [hc]; rfl, (hn.trans this).symm⟩
      · cases hy
  refine ⟨fun c op => raises_iff.2 fun q hq => ?_, fun l op q hq => ?_, fun b op q hq => ?_, ?_⟩
  · simp only [Rel.operation, except_bind_eq_ok] at hq
    obtain ⟨y, hy, hq⟩ := hq
    have := finite_length hy
    rw [List.length_map] at this
    exact h.2 ((mk y q hq).trans this)
  · simp only [Rel.operation, except_bind_eq_ok] at hq
    obtain ⟨y, hy, hq⟩ := hq
    exact key l op y q hy hq
  · simp only [Rel.operation, Rel.equalize, if_true, except_bind_eq_ok] at hq
    obtain ⟨p, hp, y, hy, hq⟩ := hq
    cases hp
    exact key b.y op y q hy hq
  · have hp : mathOperation r.y (.num 2) .pow = .ok (r.y.map fun a => a * a) := by
      simp only [mathOperation, MathOp.fn, PyPow.ppow_two]
      rw [← finite_map_some (r.y.map fun a => a * a), List.map_map]
      rfl
    unfold Rel.getNorm Rel.pow Rel.operation
    simp only [hp, Bind.bind, Except.bind]
    rw [make_unfit (n := n) h.1 (by simpa using h.2)]
    simp

/-- `integrate` and `diff` raise `NotEqualError` on an increasing axis of at least one step, unless the number of steps was rounded
from half way between two integers. -/
theorem C88_calculus (h : Unfit r n) (h1 : 1 ≤ (r.x.stop - r.x.start) / r.x.sample)
    (h2 : ¬ HalfInteger ((r.x.stop - r.x.start) / r.x.sample)) :
    r.integrate = .error (.notEqual (n - 1) (r.y.length - 1)) ∧ r.diff = .error (.notEqual (n - 1) (r.y.length - 1)) := by
  have hs := (Axis.size_ok_iff _ _).1 h.1
  have hp : (r.x.steps : ℤ) = pyRound ((r.x.stop - r.x.start) / r.x.sample) := by
    rw [Axis.steps_cast, abs_of_nonneg (by linarith)]
  have h0 : 0 < pyRound ((r.x.stop - r.x.start) / r.x.sample) := pyRound_pos_of_one_le h1
  have key : ∀ x : Axis K, x.sample = r.x.sample → (x.stop - x.start) / x.sample = (r.x.stop - r.x.start) / r.x.sample - 1 →
      x.size = .ok (n - 1) := by
    intro x hx hq
    rw [Axis.size_ok_iff]
    refine ⟨hx ▸ hs.1, ?_⟩
    have e : (x.steps : ℤ) = r.x.steps - 1 := by
      rw [Axis.steps_cast, hq, abs_of_nonneg (by linarith), hp]
      exact (pyRound_sub_one_iff _).2 h2
    have : n = r.x.steps + 1 := hs.2
    omega
  have hn : n - 1 ≠ r.y.length - 1 := by
    have : n = r.x.steps + 1 := hs.2
    have := h.2
    omega
  constructor
  · have := make_unfit (n := n - 1) (y := (cumTrapz r.y).map fun v => r.x.sample • v)
      (key { r.x with start := r.x.start + r.x.sample } rfl (by field_simp [hs.1]; ring)) (by simpa [cumTrapz_length] using hn)
    simpa [Rel.integrate, cumTrapz_length] using this
  · have := make_unfit (n := n - 1) (y := (npDiff r.y).map fun v => r.x.sample⁻¹ • v)
      (key { r.x with start := r.x.start + r.x.sample / 2, stop := r.x.stop - r.x.sample / 2 } rfl
        (by field_simp [hs.1]; ring)) (by simpa [npDiff_length] using hn)
    simpa [Rel.diff, npDiff_length] using this

/-- What does not notice: `len`, the largest and smallest sample, `Relation(r)`, `equalize` on one axis object, and
`r[v]` as long as the nearest axis point has a sample with its number. -/
theorem C88_silent (h : Unfit r n) (q : Rel K V) :
    r.len = .ok n ∧ Rel.init (.rel r) none = .ok r ∧ Rel.equalize true r q = .ok (r, q) ∧
    (∀ v t w, r.getItem v = .ok (t, w) → ∃ i : ℕ, ∃ l, r.x.array = .ok l ∧ l[i]? = some t ∧ r.y[i]? = some w) := by
  refine ⟨h.1, rfl, rfl, fun v t w hg => ?_⟩
  simp only [Rel.getItem, except_bind_eq_ok] at hg
  obtain ⟨l, hl, i, -, hg⟩ := hg
  split at hg
  · rename_i a b ha hb
    simp only [pure, Except.pure, Except.ok.injEq, Prod.mk.injEq] at hg
    exact ⟨i, l, hl, by rw [ha, hg.1], by rw [hb, hg.2]⟩
  · cases hg

end

/-! Signals and spectra -/

/-- `get_spectrum` of a signal that reaches 0, or with `is_start_zero`, raises `IndexError`. -/
theorem C88_get_spectrum (r : Rel ℝ ℝ) (n : ℕ) (h : Unfit r n) (z : Bool)
    (hz : z = true ∨ r.x.start ≤ 0 ∧ 0 ≤ r.x.stop) (k : ℤ) :
    r.getSpectrum .none z = .error .index ∧ r.getSpectrum (.int k) z = .error .index := by
  obtain ⟨l, hl, hn⟩ := unfit_array h
  have ht : reorderByTime r.x r.y = .error .index := by
    unfold reorderByTime
    rw [hl]
    simp only [Bind.bind, Except.bind, maskSelect]
    rw [if_neg (by simpa [hn] using h.2)]
  have hs : ∀ f, signal2spectrum r f z = calculateSpectrum r.x r.y f := by
    intro f
    unfold signal2spectrum
    rcases hz with rfl | ⟨h1, h2⟩
    · simp
    · simp [not_lt.2 h1, not_lt.2 h2]
  constructor
  · simp only [Rel.getSpectrum, hs, calculateSpectrum, SizeArg.size, ht]; rfl
  · simp only [Rel.getSpectrum, hs, calculateSpectrum, SizeArg.size, ht]; rfl

/-- A signal that starts after 0 with too few samples gets a spectrum: the one of the last points, the missing samples counting as
zeros. -/
theorem C88_get_spectrum_padded (r : Rel ℝ ℝ) (m : ℕ) (h0 : 0 < r.x.start) (hm : r.y.length ≤ m)
    (hz : ({ r.x with start := 0 } : Axis ℝ).size = .ok m) :
    r.getSpectrum .none = Rel.getSpectrum ⟨{ r.x with start := 0 }, List.replicate (m - r.y.length) 0 ++ r.y⟩ .none true := by
  have e : npZeros ((m : ℤ) - r.y.length) = .ok (List.replicate (m - r.y.length) 0) := by
    unfold npZeros
    rw [if_neg (by omega)]
    congr 2
    omega
  unfold Rel.getSpectrum signal2spectrum
  simp only [Bool.false_eq_true, if_false, if_pos h0, hz, if_true]
  simp only [Bind.bind, Except.bind, e]

/-- `get_signal` of a spectrum does not look at the number of axis points: with the same ends it returns the same signal. -/
theorem C88_get_signal (r q : Rel ℝ ℂ) (hy : r.y = q.y) (h1 : r.x.start = q.x.start) (h2 : r.x.stop = q.x.stop) (t : SizeArg)
    (t0 : Option ℝ) : r.getSignal t t0 = q.getSignal t t0 := by
  unfold Rel.getSignal spectrum2signal
  rw [hy, h1, h2]

/-- The amplitudes and the phases of a spectrum raise `NotEqualError`. -/
theorem C88_amp_phase (r : Rel ℝ ℂ) (n : ℕ) (h : Unfit r n) :
    r.getAmpSpectrum = .error (.notEqual n r.y.length) ∧ r.getPhaseSpectrum = .error (.notEqual n r.y.length) := by
  constructor
  · have := make_unfit (n := n) (y := r.y.map fun z => ‖z‖) h.1 (by simpa using h.2)
    simpa [Rel.getAmpSpectrum] using this
  · have := make_unfit (n := n) (y := unwrap (r.y.map npAngle)) h.1 (by simpa [unwrap_length] using h.2)
    simpa [Rel.getPhaseSpectrum, unwrap_length] using this

/-! Objects: whatever was done to the axis object before -/

section
open Mem HM

variable {K : Type} [Field K] [LinearOrder K] [IsStrictOrderedRing K] [FloorRing K]
variable {V : Type} [Field V] [Algebra K V] [Star V] [DecidableEq V] [PyPow V]
variable {T : Transcendental K V} {h : Heap K V}

/-- Calls on an object whose samples do not fit the current fields of its axis object. -/
theorem C88_objects (hc : Coh (exactPrims T) h) (a : Loc) (c : Cls) (v : Rel K V) (hv : valueAt h a = some (c, v))
    (hs : c = .sweep → Derives T) (n : ℕ) (hu : Unfit v n) :
    dataAt (exactPrims T) h a = .error (.notEqual n v.y.length) ∧
    outcome (relExp (exactPrims T) (defaultMethods (exactPrims T)) a) h = .error (.notEqual n v.y.length) ∧
    (∀ s e, outcome (relSelect (exactPrims T) (defaultMethods (exactPrims T)) a s e) h = .error .index) ∧
    (¬ SignalClass c → ∀ d, outcome (Mem.shift (exactPrims T) (defaultMethods (exactPrims T)) a d) h = .error (.notEqual n v.y.length)) ∧
    (∀ w op, Raises (outcome (Mem.operator (exactPrims T) (defaultMethods (exactPrims T)) a (.number w) op) h)) ∧
    (∀ x f, Raises (outcome (relInterp (exactPrims T) (defaultMethods (exactPrims T)) a (.array x f)) h)) ∧
    (Mem.getNorm (exactPrims T) (defaultMethods (exactPrims T)) a h).1 = .error (.notEqual n v.y.length) := by
  obtain ⟨a1, a2, a3, -, -, a6, a7, a8, a9, -⟩ := C73_one_object hc a c v hv hs
  obtain ⟨d1, d2, d3, d4⟩ := C88_data hu
  obtain ⟨n1, -, -, n4⟩ := C88_arithmetic hu
  obtain ⟨-, i2, -⟩ := C88_combine hu v
  refine ⟨by rw [a1, d1]; rfl, by rw [a3, d2]; rfl, fun s e => by rw [a2, d4]; rfl, fun h1 d => by rw [a7 h1, d3]; rfl,
    fun w op => ?_, fun x f => ?_, by rw [a9, n4]⟩
  · obtain ⟨e, he⟩ := n1 w op
    exact ⟨e, by rw [a8, he]; rfl⟩
  · obtain ⟨e, he⟩ := i2 (.array x f)
    exact ⟨e, by rw [a6, he]; rfl⟩

end

/-! Concrete cases -/

/-- the axis `0, 1, 2, 3` with three samples, as after `r.x.end = 3` -/
def unfitThree : Rel ℚ ℚ := ⟨⟨0, 3, 1⟩, [5, 7, 6]⟩

example : Unfit unfitThree 4 ∧ unfitThree.selectData (some 0) (some 1) = .error .index ∧
    unfitThree.getItem 1 = .ok (1, 7) ∧ unfitThree.getItem 3 = .error .index ∧
    unfitThree.integrate = .error (.notEqual 3 2) ∧ unfitThree.diff = .error (.notEqual 3 2) := by
  refine ⟨⟨?_, ?_⟩, ?_, ?_, ?_, ?_, ?_⟩ <;> decide +kernel

/-- two relations on one axis object (objects 0 and 1); after `x.end = 3` both do not fit -/
example :
    let M := Mem.defaultMethods Mem.ratPrims
    let h := Mem.runSteps Mem.ratPrims M (Mem.defaultConvMethods Mem.ratPrims M)
      [.call (.axisNew 0 2 1), .call (.construct .relation (.axis 0) (.list [5, 7, 6])),
       .call (.construct .relation (.axis 0) (.list [1, 1, 1])), .call (.operator 0 (.obj 1) .add), .edit (.setStop 0 3)]
      (Mem.emptyHeap ℚ ℚ)
    valueAt h 0 = some (.relation, ⟨⟨0, 3, 1⟩, [5, 7, 6]⟩) ∧ valueAt h 1 = some (.relation, ⟨⟨0, 3, 1⟩, [1, 1, 1]⟩) ∧
    (Mem.operator Mem.ratPrims M 0 (.obj 1) .add h).1 = .error (.notEqual 4 3) := by
  refine ⟨?_, ?_, ?_⟩ <;> decide +kernel

/-- broadcasting: one sample on an axis of three points plus three numbers -/
example : Unfit (⟨⟨0, 2, 1⟩, [5]⟩ : Rel ℚ ℚ) 3 ∧
    Rel.add (⟨⟨0, 2, 1⟩, [5]⟩ : Rel ℚ ℚ) (.other (.arr [1, 2, 3])) = .ok ⟨⟨0, 2, 1⟩, [6, 7, 8]⟩ := by
  refine ⟨⟨?_, ?_⟩, ?_⟩ <;> decide +kernel

/-- two and a half steps: three points, four samples, and `integrate` returns -/
example : Unfit (⟨⟨0, 5 / 2, 1⟩, [2, 4, 6, 8]⟩ : Rel ℚ ℚ) 3 ∧
    Rel.integrate (⟨⟨0, 5 / 2, 1⟩, [2, 4, 6, 8]⟩ : Rel ℚ ℚ) = .ok ⟨⟨1, 5 / 2, 1⟩, [3, 8, 15]⟩ := by
  refine ⟨⟨?_, ?_⟩, ?_⟩ <;> decide +kernel

end SweepDesign
