import Verif.Lemmas.Relation
import Verif.Py.Pow

/-!
# C07, C08, C10–C16: constructor, balance, window selection, indexing, integration, differentiation
-/

set_option linter.unusedSectionVars false

namespace SweepDesign
open Spec

variable {K : Type} [Field K] [LinearOrder K] [IsStrictOrderedRing K] [FloorRing K]

section
variable {V : Type}

/-- **C07.** The constructor's decision table. -/
theorem C07_constructor (y : List V) (y? : Option (List V)) (r : Rel K V) (a : Axis K) (l : List K) (f : Bool) :
    -- another relation: copied, the second argument is ignored
    Rel.init (.rel r) y? = .ok r ∧
    -- no y values
    Rel.init (.axis a : XArg K V) none = .error .badInput ∧
    Rel.init (.array l f : XArg K V) none = .error .badInput ∧
    -- an axis: accepted iff the sizes agree
    (∀ q, Rel.init (.axis a) (some y) = .ok q ↔ a.size = .ok y.length ∧ q.x = a ∧ q.y = y) ∧
    (∀ n, a.size = .ok n → n ≠ y.length → Rel.init (.axis a) (some y) = .error (.notEqual n y.length)) ∧
    (∀ e, a.size = .error e → Rel.init (.axis a) (some y) = .error e) ∧
    -- an array: converted first
    (∀ b, axisFromArray l f true = .ok b → Rel.init (.array l f) (some y) = Rel.init (.axis b) (some y)) ∧
    (∀ e, axisFromArray l f true = .error e → Rel.init (.array l f) (some y) = .error e) := by
  refine ⟨rfl, rfl, rfl, ?_, ?_, ?_, ?_, ?_⟩
  · intro q
    simp only [Rel.init, make_ok_iff]
    constructor
    · rintro ⟨h, rfl⟩; exact ⟨h, rfl, rfl⟩
    · rintro ⟨h, rfl, rfl⟩; exact ⟨h, rfl⟩
  · intro n h1 h2
    simp [Rel.init, Rel.make, h1, h2]
  · intro e h
    simp [Rel.init, Rel.make, h]
  · intro b h
    simp [Rel.init, h]
  · intro e h
    simp [Rel.init, h]

example : Rel.init (.axis ⟨0, 2, 1⟩) (some [5, 6, 7]) = .ok (⟨⟨0, 2, 1⟩, [5, 6, 7]⟩ : Rel ℚ ℚ) ∧
    Rel.init (.axis ⟨0, 2, 1⟩) (some [5, 6]) = (.error (.notEqual 3 2) : Except Err (Rel ℚ ℚ)) := by decide +kernel

end

section
variable {V : Type} [Field V] [Algebra K V] [DecidableEq V] [PyPow V] [Star V]

/-- The relations a program can obtain from the constructor and the operations of class `Relation`, without assigning
to `start`, `end` or `sample`. `e` is any entrywise function standing for the exponential. -/
inductive Spec.Built (e : V → V) : Rel K V → Prop
  | axis {a y q} : Rel.init (.axis a) (some y) = .ok q → Built e q
  | array {l f y q} : Rel.init (.array l f) (some y) = .ok q → Built e q
  | copy {r y q} : Built e r → Rel.init (.rel r) y = .ok q → Built e q
  | select {r a b q} : Built e r → r.selectData a b = .ok q → Built e q
  | slice {r a b q} : Built e r → r.getSlice a b = .ok q → Built e q
  | exp {r q} : Built e r → r.exp e = .ok q → Built e q
  | diff {r q} : Built e r → r.diff = .ok q → Built e q
  | integrate {r q} : Built e r → r.integrate = .ok q → Built e q
  | interp {r x q} : Built e r → r.interpolateExtrapolate x = .ok q → Built e q
  | shift {r d q} : Built e r → r.shift d = .ok q → Built e q
  | op {r o op q} : Built e r → r.operation o op = .ok q → Built e q
  | equalizeLeft {s r1 r2 q1 q2} : Built e r1 → Built e r2 → Rel.equalize s r1 r2 = .ok (q1, q2) → Built e q1
  | equalizeRight {s r1 r2 q1 q2} : Built e r1 → Built e r2 → Rel.equalize s r1 r2 = .ok (q1, q2) → Built e q2
  | correlate {r1 r2 q} : Built e r1 → Built e r2 → Rel.correlate r1 r2 = .ok q → Built e q
  | convolve {r1 r2 q} : Built e r1 → Built e r2 → Rel.convolve r1 r2 = .ok q → Built e q

/-- **C08.** Every relation obtained from the operations is balanced, and `get_data` on it succeeds with two arrays of
the same length. -/
theorem C08_built_balanced (e : V → V) (r : Rel K V) (h : Built e r) :
    Balanced r ∧ ∃ lx ly, r.getData = .ok (lx, ly) ∧ lx.length = ly.length := by
  have key : Balanced r := by
    induction h with
    | axis h => exact balanced_of_make h
    | array h =>
      simp only [Rel.init, except_bind_eq_ok] at h
      obtain ⟨_, -, h⟩ := h
      exact balanced_of_make h
    | copy _ h ih =>
      simp only [Rel.init, Except.ok.injEq] at h
      subst h; exact ih
    | select _ h => exact selectData_balanced h
    | slice _ h => exact selectData_balanced h
    | exp _ h => exact balanced_of_make h
    | diff _ h => exact balanced_of_make h
    | integrate _ h => exact balanced_of_make h
    | @interp r x q _ h =>
      cases x with
      | rel r => exact interpAxis_balanced h
      | axis a => exact interpAxis_balanced h
      | array l f =>
        simp only [Rel.interpolateExtrapolate, except_bind_eq_ok] at h
        obtain ⟨_, -, h⟩ := h
        exact interpAxis_balanced h
    | shift _ h => exact balanced_of_make h
    | @op r o op q _ h =>
      cases o with
      | rel s b =>
        simp only [Rel.operation, except_bind_eq_ok] at h
        obtain ⟨⟨_, _⟩, -, _, -, h⟩ := h
        exact balanced_of_make h
      | other o =>
        simp only [Rel.operation, except_bind_eq_ok] at h
        obtain ⟨_, -, h⟩ := h
        exact balanced_of_make h
    | @equalizeLeft s r1 r2 q1 q2 _ _ h ih1 ih2 =>
      unfold Rel.equalize at h
      split_ifs at h
      · simp only [Except.ok.injEq, Prod.mk.injEq] at h
        obtain ⟨rfl, rfl⟩ := h; exact ih1
      · simp only [except_bind_eq_ok, except_pure, Except.ok.injEq, Prod.mk.injEq] at h
        obtain ⟨_, h1, _, _, rfl, rfl⟩ := h
        exact interpAxis_balanced h1
    | @equalizeRight s r1 r2 q1 q2 _ _ h ih1 ih2 =>
      unfold Rel.equalize at h
      split_ifs at h
      · simp only [Except.ok.injEq, Prod.mk.injEq] at h
        obtain ⟨rfl, rfl⟩ := h; exact ih2
      · simp only [except_bind_eq_ok, except_pure, Except.ok.injEq, Prod.mk.injEq] at h
        obtain ⟨_, _, _, h1, rfl, rfl⟩ := h
        exact interpAxis_balanced h1
    | correlate _ _ h =>
      simp only [Rel.correlate, except_bind_eq_ok] at h
      obtain ⟨⟨_, _, _⟩, -, h⟩ := h
      exact balanced_of_make h
    | convolve _ _ h =>
      simp only [Rel.convolve, except_bind_eq_ok] at h
      obtain ⟨⟨_, _, _⟩, -, h⟩ := h
      exact balanced_of_make h
  refine ⟨key, ?_⟩
  obtain ⟨⟨lx, ly⟩, hd⟩ := (balanced_iff_getData r).1 key
  exact ⟨lx, ly, hd, ((getData_ok_iff _ _ _).1 hd).2.2⟩

/-- A program of the kind C08 quantifies over: build, integrate, differentiate. -/
example : Built (K := ℚ) (V := ℚ) id (⟨⟨3/2, 5/2, 1⟩, [7/2, 11/2]⟩ : Rel ℚ ℚ) := by
  have h1 : Rel.init (.axis ⟨0, 3, 1⟩) (some [1, 2, 5, 6]) = .ok (⟨⟨0, 3, 1⟩, [1, 2, 5, 6]⟩ : Rel ℚ ℚ) := by
    decide +kernel
  have h2 : (⟨⟨0, 3, 1⟩, [1, 2, 5, 6]⟩ : Rel ℚ ℚ).integrate = .ok ⟨⟨1, 3, 1⟩, [3/2, 5, 21/2]⟩ := by
    decide +kernel
  have h3 : (⟨⟨1, 3, 1⟩, [3/2, 5, 21/2]⟩ : Rel ℚ ℚ).diff = .ok ⟨⟨3/2, 5/2, 1⟩, [7/2, 11/2]⟩ := by
    decide +kernel
  exact .diff (.integrate (.axis h1) h2) h3

end

section
variable {V : Type}

/-- **C10.** `select_data` returns exactly the pairs in the window, in order, with unchanged positions and sample; it
raises `IndexError` iff the window contains no sample, and nothing else can happen. -/
theorem C10_select_window (r : Rel K V) (lx : List K) (ly : List V) (h : r.getData = .ok (lx, ly)) (a b : Option K) :
    let lo := a.getD r.x.start
    let hi := b.getD r.x.stop
    let w := (lx.zip ly).filter fun p => decide (lo ≤ p.1 ∧ p.1 ≤ hi)
    (w = [] → r.selectData a b = .error .index) ∧
    (w ≠ [] → ∃ q, r.selectData a b = .ok q ∧ q.x.sample = r.x.sample ∧
      q.getData = .ok (w.map Prod.fst, w.map Prod.snd)) := by
  intro lo hi w
  obtain ⟨hx, rfl, hlen⟩ := (getData_ok_iff _ _ _).1 h
  obtain ⟨hs, -⟩ := (r.x.array_ok_iff lx).1 hx
  have hsp := Axis.array_spaced hx
  set p : K → Bool := fun t => decide (lo ≤ t) && decide (t ≤ hi) with hp
  have hw : w = (lx.zip r.y).filter fun q => p q.1 := by
    simp only [w, hp, Bool.decide_and]
  have hw1 : w.map Prod.fst = lx.filter p := by rw [hw]; exact filter_zip_fst p lx r.y hlen
  have hm1 := maskSelect_self p lx
  have hm2 := maskSelect_snd p lx r.y hlen
  rw [← hw] at hm2
  have hlenw : (w.map Prod.fst).length = (w.map Prod.snd).length := by simp
  constructor
  · intro hnil
    have : lx.filter p = [] := by rw [← hw1, hnil]; rfl
    have hm1' : maskSelect (lx.map fun t => decide (lo ≤ t) && decide (t ≤ hi)) lx = .ok [] := by
      rw [← this]; exact hm1
    simp only [Rel.selectData, hx, except_bind_ok]
    rw [hm1']
    simp
  · intro hne
    have hne' : lx.filter p ≠ [] := by
      rw [← hw1]; simpa using hne
    obtain ⟨i, k, hik⟩ := filter_convex p lx (by
      intro i j k hi hj hk hij hjk h1 h2
      rw [hsp.2 i hi] at h1
      rw [hsp.2 k hk] at h2
      rw [hsp.2 j hj]
      simp only [hp, Bool.and_eq_true, decide_eq_true_eq] at h1 h2 ⊢
      have e1 : (i : K) < j := by exact_mod_cast hij
      have e2 : (j : K) < k := by exact_mod_cast hjk
      rcases le_total 0 r.x.step with hd | hd
      · constructor <;> nlinarith
      · constructor <;> nlinarith)
    set sel := lx.filter p with hsel
    have hselsp : EvenlySpaced sel (r.x.start + i * r.x.step) r.x.step sel.length := by
      refine ⟨rfl, ?_⟩
      intro j hj
      have e : sel[j] = ((lx.drop i).take k)[j]'(by rw [← hik]; exact hj) := by
        congr 1
      have hij : i + j < lx.length := by
        have := hj
        rw [hik] at this
        simp at this
        omega
      rw [e, List.getElem_take, List.getElem_drop, hsp.2 _ hij]
      push_cast
      ring
    have hpos : 1 ≤ sel.length := by
      have := List.length_pos_iff.2 hne'
      omega
    have hle : sel.length ≤ r.x.steps + 1 := by
      have := List.length_filter_le p lx
      rw [hsp.1] at this
      exact this
    have hst : Axis.steps (⟨r.x.start + i * r.x.step,
        r.x.start + i * r.x.step + ((sel.length : K) - 1) * r.x.step, r.x.sample⟩ : Axis K) + 1 = sel.length := by
      rw [steps_of_subrange r.x (sel.length - 1) (by omega)]
      · omega
      · rw [Nat.cast_sub hpos]; push_cast; ring
    have harr := spaced_array_of_steps hselsp hpos hs hst
    set nx : Axis K := ⟨r.x.start + i * r.x.step,
      r.x.start + i * r.x.step + ((sel.length : K) - 1) * r.x.step, r.x.sample⟩ with hnx
    have hsz : nx.size = .ok (w.map Prod.snd).length := by
      rw [Axis.size_of_array harr, ← hlenw, hw1]
    refine ⟨⟨nx, w.map Prod.snd⟩, ?_, rfl, ?_⟩
    · simp only [Rel.selectData, hx, except_bind_ok]
      have hm1' : maskSelect (lx.map fun t => decide (lo ≤ t) && decide (t ≤ hi)) lx = .ok sel := hm1
      have hm2' : maskSelect (lx.map fun t => decide (lo ≤ t) && decide (t ≤ hi)) r.y = .ok (w.map Prod.snd) := hm2
      rw [hm1', hm2']
      simp only [except_bind_ok, hselsp.head hpos, hselsp.last hpos]
      exact make_ok hsz
    · rw [getData_ok_iff]
      exact ⟨by rw [hw1]; exact harr, rfl, hlenw⟩

example : (⟨⟨0, 5, 2⟩, [7, 8, 9]⟩ : Rel ℚ ℚ).selectData (some 1) (some 6) = .ok ⟨⟨5/2, 5, 2⟩, [8, 9]⟩ ∧
    (⟨⟨0, 5, 2⟩, [7, 8, 9]⟩ : Rel ℚ ℚ).selectData (some 1) (some 2) = .error .index ∧
    (⟨⟨5/2, 5, 2⟩, [8, 9]⟩ : Rel ℚ ℚ).getData = .ok ([5/2, 5], [8, 9]) := by decide +kernel

/-- **C11.** No bounds on an increasing axis: the same data. -/
theorem C11_select_all (r : Rel K V) (lx : List K) (ly : List V) (h : r.getData = .ok (lx, ly))
    (hinc : r.x.start ≤ r.x.stop) :
    ∃ q, r.selectData none none = .ok q ∧ q.getData = r.getData := by
  obtain ⟨hx, rfl, hlen⟩ := (getData_ok_iff _ _ _).1 h
  have hsp := Axis.array_spaced hx
  have hstep : (r.x.steps : K) * r.x.step ≤ r.x.stop - r.x.start := by
    unfold Axis.step
    rcases Nat.eq_zero_or_pos r.x.steps with h0 | h0
    · simp [h0, hinc]
    · have : (r.x.steps : K) ≠ 0 := by exact_mod_cast h0.ne'
      exact le_of_eq (by field_simp)
  have hnn : 0 ≤ r.x.step := by
    unfold Axis.step
    have : 0 ≤ r.x.stop - r.x.start := by linarith
    positivity
  have hall : ((lx.zip r.y).filter fun p => decide (r.x.start ≤ p.1 ∧ p.1 ≤ r.x.stop)) = lx.zip r.y := by
    rw [List.filter_eq_self]
    intro p hp
    have := List.of_mem_zip hp
    obtain ⟨i, hi, hpi⟩ := List.mem_iff_getElem.1 this.1
    rw [← hpi, hsp.2 i hi]
    have hi' : (i : K) ≤ r.x.steps := by
      rw [hsp.1] at hi
      exact_mod_cast (by omega : i ≤ r.x.steps)
    simp only [decide_eq_true_eq]
    constructor
    · have : (0 : K) ≤ (i : K) * r.x.step := by positivity
      linarith
    · have : (i : K) * r.x.step ≤ r.x.steps * r.x.step := mul_le_mul_of_nonneg_right hi' hnn
      linarith
  obtain ⟨-, h2⟩ := C10_select_window r lx r.y h none none
  simp only [Option.getD_none] at h2
  rw [hall] at h2
  have hne : lx.zip r.y ≠ [] := by
    intro e
    have := congrArg List.length e
    rw [List.length_zip, hsp.1, ← hlen, hsp.1] at this
    simp at this
  obtain ⟨q, hq, -, hq2⟩ := h2 hne
  refine ⟨q, hq, ?_⟩
  rw [hq2, h, List.map_fst_zip (by omega), List.map_snd_zip (by omega)]

/-- **C11.** Selecting twice: the second window acts on what the first one left; the result is the selection of the
intersection, and if the intersection contains no sample both ways raise. -/
theorem C11_select_compose (r : Rel K V) (lx : List K) (ly : List V) (h : r.getData = .ok (lx, ly)) (a b c d : K) :
    (∀ q, r.selectData (some (max a c)) (some (min b d)) = .ok q →
      ∃ q1 q2, r.selectData (some a) (some b) = .ok q1 ∧ q1.selectData (some c) (some d) = .ok q2 ∧
        q2.getData = q.getData ∧ q2.x.sample = q.x.sample) ∧
    (r.selectData (some (max a c)) (some (min b d)) = .error .index →
      r.selectData (some a) (some b) = .error .index ∨
      ∃ q1, r.selectData (some a) (some b) = .ok q1 ∧ q1.selectData (some c) (some d) = .error .index) := by
  obtain ⟨-, -, hlen⟩ := (getData_ok_iff _ _ _).1 h
  obtain ⟨m1, m2⟩ := C10_select_window r lx ly h (some (max a c)) (some (min b d))
  obtain ⟨a1, a2⟩ := C10_select_window r lx ly h (some a) (some b)
  simp only [Option.getD_some] at m1 m2 a1 a2
  set w := (lx.zip ly).filter fun p => decide (max a c ≤ p.1 ∧ p.1 ≤ min b d) with hw
  set u := (lx.zip ly).filter fun p => decide (a ≤ p.1 ∧ p.1 ≤ b) with hu
  have hcomp : u.filter (fun p => decide (c ≤ p.1 ∧ p.1 ≤ d)) = w := by
    rw [hu, hw, List.filter_filter]
    apply List.filter_congr
    intro p _
    simp only [← Bool.decide_and, decide_eq_decide, max_le_iff, le_min_iff]
    tauto
  have hzip : (u.map Prod.fst).zip (u.map Prod.snd) = u :=
    (List.zip_of_prod rfl rfl).symm
  constructor
  · intro q hq
    have hwne : w ≠ [] := by
      intro e
      rw [m1 e] at hq
      simp at hq
    have hune : u ≠ [] := by
      intro e
      rw [e] at hcomp
      exact hwne hcomp.symm
    obtain ⟨q', h1, h2, h3⟩ := m2 hwne
    rw [hq] at h1
    simp only [Except.ok.injEq] at h1
    subst h1
    obtain ⟨q1, e1, e2, e3⟩ := a2 hune
    obtain ⟨-, n2⟩ := C10_select_window q1 _ _ e3 (some c) (some d)
    simp only [Option.getD_some] at n2
    rw [hzip, hcomp] at n2
    obtain ⟨q2, f1, f2, f3⟩ := n2 hwne
    exact ⟨q1, q2, e1, f1, by rw [f3, h3], by rw [f2, e2, h2]⟩
  · intro herr
    have hwnil : w = [] := by
      by_contra hne
      obtain ⟨q, hq, -⟩ := m2 hne
      rw [hq] at herr
      simp at herr
    by_cases hune : u = []
    · exact Or.inl (a1 hune)
    · obtain ⟨q1, e1, e2, e3⟩ := a2 hune
      obtain ⟨n1, -⟩ := C10_select_window q1 _ _ e3 (some c) (some d)
      simp only [Option.getD_some] at n1
      rw [hzip, hcomp] at n1
      exact Or.inr ⟨q1, e1, n1 hwnil⟩

/-- **C11.** Selecting the same window again changes nothing. -/
theorem C11_select_idempotent (r : Rel K V) (lx : List K) (ly : List V) (h : r.getData = .ok (lx, ly)) (a b : K)
    (q : Rel K V) (hq : r.selectData (some a) (some b) = .ok q) :
    ∃ q2, q.selectData (some a) (some b) = .ok q2 ∧ q2.getData = q.getData := by
  have := (C11_select_compose r lx ly h a b a b).1 q (by rwa [max_self, min_self])
  obtain ⟨q1, q2, e1, e2, e3, -⟩ := this
  rw [hq] at e1
  simp only [Except.ok.injEq] at e1
  subst e1
  exact ⟨q2, e2, e3⟩

example : (⟨⟨0, 4, 1⟩, [5, 6, 7, 8, 9]⟩ : Rel ℚ ℚ).selectData (some 1) (some 3) = .ok ⟨⟨1, 3, 1⟩, [6, 7, 8]⟩ ∧
    (⟨⟨1, 3, 1⟩, [6, 7, 8]⟩ : Rel ℚ ℚ).selectData (some 2) (some 9) = .ok ⟨⟨2, 3, 1⟩, [7, 8]⟩ ∧
    (⟨⟨0, 4, 1⟩, [5, 6, 7, 8, 9]⟩ : Rel ℚ ℚ).selectData (some 2) (some 3) = .ok ⟨⟨2, 3, 1⟩, [7, 8]⟩ := by
  decide +kernel

/-- **C12.** `r[v]` is the nearest sample, the first one on ties; a slice is `select_data`. -/
theorem C12_nearest_sample (r : Rel K V) (lx : List K) (ly : List V) (h : r.getData = .ok (lx, ly)) (v : K) :
    ∃ (i : ℕ) (hi : i < lx.length) (hi' : i < ly.length), r.getItem v = .ok (lx[i], ly[i]) ∧
      (∀ j (hj : j < lx.length), |lx[i] - v| ≤ |lx[j] - v|) ∧
      (∀ j (hj : j < lx.length), j < i → |lx[i] - v| < |lx[j] - v|) := by
  obtain ⟨hx, rfl, hlen⟩ := (getData_ok_iff _ _ _).1 h
  have hsp := Axis.array_spaced hx
  have hne : lx.map (fun t => |t - v|) ≠ [] := by
    intro e
    have := congrArg List.length e
    rw [List.length_map, hsp.1] at this
    simp at this
  obtain ⟨i, m, h1, h2, h3⟩ := argmin_spec _ hne
  have hi : i < lx.length := by
    by_contra hc
    rw [List.getElem?_eq_none (by simpa using hc)] at h2
    simp at h2
  have hi' : i < r.y.length := by omega
  have hm : m = |lx[i] - v| := by
    rw [List.getElem?_map, List.getElem?_eq_getElem hi] at h2
    simpa using h2.symm
  refine ⟨i, hi, hi', ?_, ?_, ?_⟩
  · simp only [Rel.getItem, hx, except_bind_ok, h1, List.getElem?_eq_getElem hi, List.getElem?_eq_getElem hi',
      except_pure]
  · intro j hj
    have := (h3 j (|lx[j] - v|) (by rw [List.getElem?_map, List.getElem?_eq_getElem hj]; rfl)).1
    rwa [hm] at this
  · intro j hj hji
    have := (h3 j (|lx[j] - v|) (by rw [List.getElem?_map, List.getElem?_eq_getElem hj]; rfl)).2 hji
    rwa [hm] at this

/-- **C12.** A slice `r[a:b]` returns exactly the pairs whose position lies in the window, a missing bound standing for the
end of the axis, as `select_data` does; `IndexError` if there are none. -/
theorem C12_slice (r : Rel K V) (lx : List K) (ly : List V) (h : r.getData = .ok (lx, ly)) (a b : Option K) :
    let lo := a.getD r.x.start
    let hi := b.getD r.x.stop
    let w := (lx.zip ly).filter fun p => decide (lo ≤ p.1 ∧ p.1 ≤ hi)
    r.getSlice a b = r.selectData a b ∧ (w = [] → r.getSlice a b = .error .index) ∧
    (w ≠ [] → ∃ q, r.getSlice a b = .ok q ∧ q.x.sample = r.x.sample ∧
      q.getData = .ok (w.map Prod.fst, w.map Prod.snd)) :=
  ⟨rfl, C10_select_window r lx ly h a b⟩

/-- a tie (2 is as near to 1 as to 3) goes to the lower index -/
example : (⟨⟨1, 5, 2⟩, [7, 8, 9]⟩ : Rel ℚ ℚ).getItem 2 = .ok (1, 7) ∧
    (⟨⟨1, 5, 2⟩, [7, 8, 9]⟩ : Rel ℚ ℚ).getItem 100 = .ok (5, 9) := by decide +kernel

end

section
variable {V : Type} [Field V] [Algebra K V]

/-- **C13.** `integrate` is the cumulative trapezoid rule with spacing `sample`. -/
theorem C13_integrate_values (r q : Rel K V) (h : r.integrate = .ok q) :
    q.x.start = r.x.start + r.x.sample ∧ q.x.stop = r.x.stop ∧ q.x.sample = r.x.sample ∧
    q.y.length + 1 = r.y.length ∧ q.x.size = .ok q.y.length ∧
    ∀ i (hi : i < q.y.length),
      q.y[i] = r.x.sample • ∑ j ∈ Finset.range (i + 1), (r.y.getD j 0 + r.y.getD (j + 1) 0) / 2 := by
  obtain ⟨h1, rfl⟩ := (make_ok_iff _ _ _).1 h
  refine ⟨rfl, rfl, rfl, ?_, h1, ?_⟩
  · obtain ⟨-, h2⟩ := (Axis.size_ok_iff _ _).1 h1
    simp only [List.length_map, cumTrapz_length] at h2 ⊢
    omega
  · intro i hi
    simp only [List.getElem_map]
    rw [cumTrapz_getElem]
    rfl

/-- **C14.** `diff` is the forward difference divided by `sample`. -/
theorem C14_diff_values (r q : Rel K V) (h : r.diff = .ok q) :
    q.x.start = r.x.start + r.x.sample / 2 ∧ q.x.stop = r.x.stop - r.x.sample / 2 ∧ q.x.sample = r.x.sample ∧
    q.y.length + 1 = r.y.length ∧ q.x.size = .ok q.y.length ∧ r.x.sample ≠ 0 ∧
    ∀ i (hi : i < q.y.length),
      q.y[i] = r.x.sample⁻¹ • (r.y.getD (i + 1) 0 - r.y.getD i 0) := by
  obtain ⟨h1, rfl⟩ := (make_ok_iff _ _ _).1 h
  obtain ⟨h3, h2⟩ := (Axis.size_ok_iff _ _).1 h1
  have hl : (npDiff r.y).length + 1 = r.y.length := by
    simp only [List.length_map, npDiff_length] at h2 ⊢
    omega
  refine ⟨rfl, rfl, rfl, by simpa using hl, h1, h3, ?_⟩
  intro i hi
  simp only [List.length_map] at hi
  simp only [List.getElem_map]
  rw [npDiff_getElem r.y i hi (by omega)]
  rw [getD_lt _ _ _ (by omega), getD_lt _ _ _ (by omega)]

example : (⟨⟨0, 6, 2⟩, [1, 2, 5, 6]⟩ : Rel ℚ ℚ).integrate = .ok ⟨⟨2, 6, 2⟩, [3, 10, 21]⟩ ∧
    (⟨⟨0, 6, 2⟩, [1, 2, 5, 6]⟩ : Rel ℚ ℚ).diff = .ok ⟨⟨1, 5, 2⟩, [1/2, 3/2, 1/2]⟩ := by decide +kernel

/-- **C15.** When `integrate` and `diff` accept a balanced relation. -/
theorem C15_accepted (r : Rel K V) (hb : Balanced r) :
    (0 < (r.x.stop - r.x.start) / r.x.sample → 2 ≤ r.y.length →
      (¬ HalfInteger ((r.x.stop - r.x.start) / r.x.sample) →
        (∃ q, r.integrate = .ok q) ∧ (∃ q, r.diff = .ok q)) ∧
      (HalfInteger ((r.x.stop - r.x.start) / r.x.sample) →
        (∃ m n, r.integrate = .error (.notEqual m n)) ∧ (∃ m n, r.diff = .error (.notEqual m n)))) ∧
    (r.y.length = 1 →
        (∃ m n, r.integrate = .error (.notEqual m n)) ∧ (∃ m n, r.diff = .error (.notEqual m n))) ∧
    ((r.x.stop - r.x.start) / r.x.sample < 0 →
        (∃ m n, r.integrate = .error (.notEqual m n)) ∧ (∃ m n, r.diff = .error (.notEqual m n))) := by
  obtain ⟨hs, hl⟩ := (balanced_iff r).1 hb
  obtain ⟨a1, a2, a3⟩ := make_shrunk r hb { r.x with start := r.x.start + r.x.sample }
    ((cumTrapz r.y).map fun v => r.x.sample • v) rfl (by ring) (by simp [cumTrapz_length]; omega)
  obtain ⟨b1, b2, b3⟩ := make_shrunk r hb
    { r.x with start := r.x.start + r.x.sample / 2, stop := r.x.stop - r.x.sample / 2 }
    ((npDiff r.y).map fun v => r.x.sample⁻¹ • v) rfl (by ring) (by simp [npDiff_length]; omega)
  refine ⟨?_, fun h => ⟨a2 h, b2 h⟩, fun h => ⟨a3 h, b3 h⟩⟩
  intro h1 h2
  exact ⟨fun h => ⟨⟨_, (a1 h1 h2).1 h⟩, ⟨_, (b1 h1 h2).1 h⟩⟩, fun h => ⟨(a1 h1 h2).2 h, (b1 h1 h2).2 h⟩⟩

/-- 2.5 gaps: balanced, but rejected by `integrate` -/
example : (⟨⟨0, 5, 2⟩, [1, 2, 5]⟩ : Rel ℚ ℚ).integrate = .error (.notEqual 3 2) ∧
    (⟨⟨0, 5, 2⟩, [1, 2, 5]⟩ : Rel ℚ ℚ).getData = .ok ([0, 5/2, 5], [1, 2, 5]) ∧
    (⟨⟨0, -4, 2⟩, [1, 2, 5]⟩ : Rel ℚ ℚ).diff = .error (.notEqual 4 2) ∧
    (⟨⟨0, -4, -2⟩, [1, 2, 5]⟩ : Rel ℚ ℚ).diff = .ok ⟨⟨-1, -3, -2⟩, [-1/2, -3/2]⟩ := by decide +kernel

/-- **C16.** Differentiating an integral averages neighbouring values. -/
theorem C16_diff_integrate (r q p : Rel K V) (h1 : r.integrate = .ok q) (h2 : q.diff = .ok p) :
    p.x.start = r.x.start + 3 / 2 * r.x.sample ∧ p.x.stop = r.x.stop - 1 / 2 * r.x.sample ∧
    p.x.sample = r.x.sample ∧ p.y.length + 2 = r.y.length ∧
    ∀ i (hi : i < p.y.length), p.y[i] = (r.y.getD (i + 1) 0 + r.y.getD (i + 2) 0) / 2 := by
  obtain ⟨a1, a2, a3, a4, -, a6⟩ := C13_integrate_values r q h1
  obtain ⟨b1, b2, b3, b4, -, b5, b6⟩ := C14_diff_values q p h2
  refine ⟨by rw [b1, a1, a3]; ring, by rw [b2, a2, a3]; ring, by rw [b3, a3], by omega, ?_⟩
  intro i hi
  rw [b6 i hi, getD_lt _ _ _ (by omega), getD_lt _ _ _ (by omega), a6, a6, a3,
    Finset.sum_range_succ _ (i + 1), ← smul_sub, add_sub_cancel_left, inv_smul_smul₀ (a3 ▸ b5)]

/-- **C16.** Integrating a derivative telescopes. -/
theorem C16_integrate_diff [CharZero V] (r q p : Rel K V) (h1 : r.diff = .ok q) (h2 : q.integrate = .ok p) :
    p.x.start = r.x.start + 3 / 2 * r.x.sample ∧ p.x.stop = r.x.stop - 1 / 2 * r.x.sample ∧
    p.x.sample = r.x.sample ∧ p.y.length + 2 = r.y.length ∧
    ∀ i (hi : i < p.y.length), p.y[i] =
      (r.y.getD (i + 1) 0 + r.y.getD (i + 2) 0) / 2 - (r.y.getD 0 0 + r.y.getD 1 0) / 2 := by
  obtain ⟨b1, b2, b3, b4, -, b5, b6⟩ := C14_diff_values r q h1
  obtain ⟨a1, a2, a3, a4, -, a6⟩ := C13_integrate_values q p h2
  refine ⟨by rw [a1, b1, b3]; ring, by rw [a2, b2]; ring, by rw [a3, b3], by omega, ?_⟩
  intro i hi
  have key : ∀ n, n + 1 < q.y.length → q.x.sample • ∑ j ∈ Finset.range (n + 1),
      (q.y.getD j 0 + q.y.getD (j + 1) 0) / 2 =
      (r.y.getD (n + 1) 0 + r.y.getD (n + 2) 0) / 2 - (r.y.getD 0 0 + r.y.getD 1 0) / 2 := by
    intro n
    have two : (2 : V) ≠ 0 := two_ne_zero
    have step : ∀ j, j + 1 < q.y.length → q.x.sample • ((q.y.getD j 0 + q.y.getD (j + 1) 0) / 2) =
        (r.y.getD (j + 2) 0 - r.y.getD j 0) / 2 := by
      intro j hj
      rw [getD_lt _ _ _ (by omega), getD_lt _ _ _ hj, b6, b6, ← smul_add, ← smul_div_assoc,
        smul_smul, b3, mul_inv_cancel₀ b5, one_smul]
      congr 1
      ring
    induction n with
    | zero =>
      intro hn
      rw [Finset.sum_range_succ, Finset.sum_range_zero, zero_add, step 0 hn]
      ring
    | succ n ih =>
      intro hn
      rw [Finset.sum_range_succ, smul_add, ih (by omega), step (n + 1) hn]
      ring
  rw [a6 i hi, key i (by omega)]

example : (⟨⟨0, 3, 1⟩, [1, 2, 5, 6]⟩ : Rel ℚ ℚ).integrate = .ok ⟨⟨1, 3, 1⟩, [3/2, 5, 21/2]⟩ ∧
    (⟨⟨1, 3, 1⟩, [3/2, 5, 21/2]⟩ : Rel ℚ ℚ).diff = .ok ⟨⟨3/2, 5/2, 1⟩, [7/2, 11/2]⟩ ∧
    (⟨⟨0, 3, 1⟩, [1, 2, 5, 6]⟩ : Rel ℚ ℚ).diff = .ok ⟨⟨1/2, 5/2, 1⟩, [1, 3, 1]⟩ ∧
    (⟨⟨1/2, 5/2, 1⟩, [1, 3, 1]⟩ : Rel ℚ ℚ).integrate = .ok ⟨⟨3/2, 5/2, 1⟩, [2, 4]⟩ := by decide +kernel

end

end SweepDesign
