import Verif.Model.Tables
import Verif.Props.Relation
import Verif.Props.Convolution
import Verif.Lemmas.ToComplex
import Verif.Lemmas.Spectral

/-!
# C150: samples given as a row, a column or a table
-/

set_option linter.unusedSectionVars false

namespace SweepDesign
open Spec

section
variable {K : Type} [Field K] [LinearOrder K] [IsStrictOrderedRing K] [FloorRing K]
variable {V : Type} [Field V] [Algebra K V] [DecidableEq V] [PyPow V]

/-- the relation with the same samples in an array of one dimension -/
def Spec.plain (r : Rel K V) : NRel K V := ⟨r.x, .vec r.y⟩

/-- the relation with the same samples in a row, an array of shape `(1, n)` -/
def Spec.inRow (r : Rel K V) : NRel K V := ⟨r.x, .mat r.y.length [r.y]⟩

/-- the relation with the same samples in a column, an array of shape `(n, 1)` -/
def Spec.inColumn (r : Rel K V) : NRel K V := ⟨r.x, .mat 1 (r.y.map fun v => [v])⟩

/-- a table of `m` rows and `n` columns -/
def Spec.IsTable (y : Nd V) (m n : ℕ) : Prop := ∃ rows, y = .mat n rows ∧ rows.length = m ∧ ∀ r ∈ rows, r.length = n

/-! ## Machinery -/

omit [Field V] [Algebra K V] [DecidableEq V] [PyPow V] in
theorem nmake_eq (x : Axis K) (y : Nd V) (l : List V) (g : Rel K V → NRel K V) (hs : y.size = l.length)
    (hg : g ⟨x, l⟩ = ⟨x, y⟩) : NRel.make x y = (Rel.make x l).map g := by
  unfold NRel.make Rel.make
  cases x.size with
  | error e => rfl
  | ok n =>
    simp only [except_bind_ok, hs]
    split
    · rfl
    · simp [Except.map, hg, pure, Except.pure]

omit [Algebra K V] in
theorem rowOp_eq (op : MathOp) (a b : List V) : rowOp op a b = mathOperation a (.arr b) op := by
  unfold rowOp bcast mathOperation
  by_cases h : a.length = b.length
  · simp [h]
  · simp only [h, if_false]
    rcases a with _ | ⟨a0, _ | ⟨a1, a⟩⟩ <;> rcases b with _ | ⟨b0, _ | ⟨b1, b⟩⟩ <;> simp_all

omit [Algebra K V] in
theorem length_of_finite {l : List (Option V)} {y : List V} (h : finite l = .ok y) : y.length = l.length := by
  rw [(finite_ok_iff _ _).1 h]; simp

omit [Algebra K V] in
theorem mathOperation_width (op : MathOp) (a b y : List V) (h : mathOperation a (.arr b) op = .ok y) :
    (a.length = b.length ∨ a.length = 1 ∨ b.length = 1) ∧ y.length = if a.length = 1 then b.length else a.length := by
  unfold mathOperation at h
  by_cases hl : a.length = b.length
  · simp only [hl, if_true] at h
    refine ⟨.inl hl, ?_⟩
    rw [length_of_finite h]
    simp [hl]
  · simp only [hl, if_false] at h
    rcases a with _ | ⟨a0, _ | ⟨a1, a⟩⟩ <;> rcases b with _ | ⟨b0, _ | ⟨b1, b⟩⟩ <;>
      simp_all <;> (have := length_of_finite h; simpa using this)

omit [Algebra K V] in
theorem tableOp_single (op : MathOp) (a b : List V) :
    tableOp op a.length [a] b.length [b] = (mathOperation a (.arr b) op).map fun y => .mat y.length [y] := by
  unfold tableOp
  by_cases hc : a.length = b.length ∨ a.length = 1 ∨ b.length = 1
  · rw [if_pos hc]
    have : bcast (rowOp op) [a] [b] = some [rowOp op a b] := by simp [bcast]
    rw [this, rowOp_eq]
    cases h : mathOperation a (.arr b) op with
    | error e => rfl
    | ok y =>
      have := (mathOperation_width op a b y h).2
      simp only [List.mapM_cons, List.mapM_nil, id, except_bind_ok, Except.map, pure, Except.pure, ← this]
  · rw [if_neg hc]
    cases h : mathOperation a (.arr b) op with
    | ok y => exact absurd (mathOperation_width op a b y h).1 hc
    | error e =>
      unfold mathOperation at h
      push Not at hc
      simp only [hc.1, if_false] at h
      rcases a with _ | ⟨a0, _ | ⟨a1, a⟩⟩ <;> rcases b with _ | ⟨b0, _ | ⟨b1, b⟩⟩ <;> simp_all [Except.map]

/-- what the constructor does after an array was computed -/
theorem nmake_bind (e : Except Err (List V)) (x : Axis K) (f : List V → Nd V) (g : Rel K V → NRel K V)
    (hs : ∀ l, (f l).size = l.length) (hg : ∀ l, g ⟨x, l⟩ = ⟨x, f l⟩) :
    ((e.map f) >>= NRel.make x) = (e >>= Rel.make x).map g := by
  cases e with
  | error e => rfl
  | ok l => exact nmake_eq x (f l) l g (hs l) (hg l)

theorem nselect_eq (x : Axis K) (y : Nd V) (l : List V) (f : List V → Nd V) (g : Rel K V → NRel K V)
    (hsel : ∀ mask, y.select mask = (maskSelect mask l).map f) (hs : ∀ l, (f l).size = l.length)
    (hg : ∀ x l, g ⟨x, l⟩ = ⟨x, f l⟩) (a b : Option K) :
    NRel.selectData ⟨x, y⟩ a b = (Rel.selectData ⟨x, l⟩ a b).map g := by
  unfold NRel.selectData Rel.selectData
  cases hx : x.array with
  | error e => rfl
  | ok t =>
    simp only [except_bind_ok]
    generalize t.map (fun t => decide (a.getD x.start ≤ t) && decide (t ≤ b.getD x.stop)) = mask
    cases maskSelect mask t with
    | error e => rfl
    | ok sel =>
      simp only [except_bind_ok]
      cases sel.head? with
      | none => rfl
      | some s =>
        cases sel.getLast? with
        | none => rfl
        | some e =>
          simp only [hsel]
          exact nmake_bind _ _ f g hs (fun l => hg _ l)

/-! ## C150 -/

/-- Samples in an array of one dimension: the model with tables is the model without. -/
theorem C150_plain (r : Rel K V) (e : V → V) (d c : K) (k : V) (a b : Option K) (ax : Axis K) (op : MathOp) :
    (plain r).integrate = r.integrate.map plain ∧ (plain r).diff = r.diff.map plain ∧
    (plain r).exp e = (r.exp e).map plain ∧ (plain r).shift d = (r.shift d).map plain ∧
    (plain r).selectData a b = (r.selectData a b).map plain ∧
    (plain r).interpAxis ax = (r.interpAxis ax).map plain ∧
    (plain r).operation (.num k) op = (r.operation (.other (.num k)) op).map plain ∧
    (plain r).getItem c = (r.getItem c).map (fun p => (p.1, .num p.2)) := by
  refine ⟨nmake_eq _ _ _ _ rfl rfl, nmake_eq _ _ _ _ rfl rfl, nmake_eq _ _ _ _ rfl rfl, nmake_eq _ _ _ _ rfl rfl, ?_, ?_, ?_, ?_⟩
  · exact nselect_eq _ _ _ .vec plain (fun _ => rfl) (fun _ => rfl) (fun _ _ => rfl) a b
  · unfold NRel.interpAxis Rel.interpAxis
    simp only [plain, interp1dNd]
    cases r.x.array with
    | error e => rfl
    | ok l =>
      cases ax.array with
      | error e => rfl
      | ok xs => exact nmake_bind _ _ .vec plain (fun _ => rfl) (fun _ => rfl)
  · exact nmake_bind _ _ .vec plain (fun _ => rfl) (fun _ => rfl)
  · unfold NRel.getItem Rel.getItem
    simp only [plain, Nd.item]
    cases r.x.array with
    | error e => rfl
    | ok l =>
      simp only [except_bind_ok]
      cases argmin (List.map (fun t => |t - c|) l) with
      | error e => rfl
      | ok i =>
        simp only [except_bind_ok]
        cases l[i]? <;> cases r.y[i]? <;> rfl

/-- A row: calculus, exponential, shift and arithmetic with numbers do what they do on the same samples in one dimension, and the result is
a row. -/
theorem C150_row (r : Rel K V) (e : V → V) (d : K) (k : V) (op : MathOp) :
    (inRow r).integrate = r.integrate.map inRow ∧ (inRow r).diff = r.diff.map inRow ∧
    (inRow r).exp e = (r.exp e).map inRow ∧ (inRow r).shift d = (r.shift d).map inRow ∧
    (inRow r).operation (.num k) op = (r.operation (.other (.num k)) op).map inRow := by
  refine ⟨nmake_eq _ _ _ _ ?_ ?_, nmake_eq _ _ _ _ ?_ ?_, nmake_eq _ _ _ _ ?_ ?_, nmake_eq _ _ _ _ ?_ ?_, ?_⟩
  · simp [inRow, Nd.cumTrapz, Nd.size, cumTrapz_length]
  · simp [inRow, Nd.cumTrapz, cumTrapz_length]
  · simp [inRow, Nd.diff, Nd.size, npDiff_length]
  · simp [inRow, Nd.diff, npDiff_length]
  · simp [inRow, Nd.map, Nd.size]
  · simp [inRow, Nd.map]
  · simp [inRow, Nd.size]
  · rfl
  · unfold NRel.operation Rel.operation
    simp only [inRow, mathOperationNd, mathOperation]
    cases h : finite (r.y.map fun a => op.fn a k) with
    | error e => simp [h]; rfl
    | ok y =>
      have hl := length_of_finite h
      simp only [List.mapM_cons, List.mapM_nil, h, except_bind_ok, except_pure]
      exact nmake_eq _ _ _ _ (by simp [Nd.size, hl]) (by simp [inRow, hl])

theorem row_interp (r : Rel K V) (ax : Axis K) (h : 2 ≤ r.y.length) :
    (inRow r).interpAxis ax = (r.interpAxis ax).map inRow := by
  unfold NRel.interpAxis Rel.interpAxis
  simp only [inRow]
  cases r.x.array with
  | error e => rfl
  | ok l =>
    simp only [except_bind_ok]
    cases ax.array with
    | error e => rfl
    | ok xs =>
      simp only [except_bind_ok, interp1dNd, interp1d]
      by_cases hl : l.length = r.y.length
      · rw [if_neg (by simpa using hl), if_neg (by omega)]
        simp only [List.mapM_cons, List.mapM_nil]
        rw [if_neg (by simpa using hl), if_neg (by omega)]
        exact nmake_eq _ _ _ _ (by simp [Nd.size]) (by simp [inRow])
      · rw [if_pos hl, if_pos hl]
        rfl

/-- A row of at least two samples is interpolated like the same samples in one dimension. -/
theorem C150_row_interpolated (r : Rel K V) (ax : Axis K) (h : 2 ≤ r.y.length) :
    (inRow r).interpAxis ax = (r.interpAxis ax).map inRow := row_interp r ax h

/-- A row of one sample is not: numpy gives nan where the same sample in one dimension is found again at its position. -/
theorem C150_row_of_one (r : Rel K V) (ax : Axis K) (l xs : List K) (hl : r.x.array = .ok l) (hx : ax.array = .ok xs) (h1 : l.length = 1)
    (h : r.y.length = 1) : (inRow r).interpAxis ax = .error .nonFinite ∧ ∃ q, r.interpAxis ax = .ok q ∧ q.x = ax := by
  constructor
  · unfold NRel.interpAxis
    simp only [inRow, hl, hx, except_bind_ok, interp1dNd]
    rw [if_neg (by omega), if_pos (by omega)]
    rfl
  · have hs : ax.sample ≠ 0 := fun h0 => by simp [Axis.array, h0] at hx
    obtain ⟨q, -, -, e1, e2, -⟩ := interpAxis_spec r l r.y ((getData_ok_iff _ _ _).2 ⟨hl, rfl, by omega⟩) ax hs
    exact ⟨q, e1, e2⟩

example : (inRow (⟨⟨0, 0, 1⟩, [3]⟩ : Rel ℚ ℚ)).interpAxis ⟨0, 1, 1⟩ = .error .nonFinite :=
  (C150_row_of_one ⟨⟨0, 0, 1⟩, [3]⟩ ⟨0, 1, 1⟩ [0] [0, 1] (by decide +kernel) (by decide +kernel) rfl rfl).1

theorem nequalize_eq (same : Bool) (r1 r2 : Rel K V) (g1 g2 : Rel K V → NRel K V) (hx1 : ∀ r, (g1 r).x = r.x)
    (hx2 : ∀ r, (g2 r).x = r.x) (h1 : same = false → ∀ ax, (g1 r1).interpAxis ax = (r1.interpAxis ax).map g1)
    (h2 : same = false → ∀ ax, (g2 r2).interpAxis ax = (r2.interpAxis ax).map g2) :
    NRel.equalize same (g1 r1) (g2 r2) = (Rel.equalize same r1 r2).map fun p => (g1 p.1, g2 p.2) := by
  unfold NRel.equalize Rel.equalize
  cases same with
  | true => rfl
  | false =>
    simp only [Bool.false_eq_true, if_false, hx1, hx2, h1 rfl, h2 rfl]
    cases r1.interpAxis (commonX r1.x r2.x) with
    | error e => rfl
    | ok q1 =>
      simp only [Except.map, except_bind_ok]
      cases r2.interpAxis (commonX r1.x r2.x) <;> rfl

theorem noperation_eq (same : Bool) (r1 r2 : Rel K V) (op : MathOp) (g1 g2 : Rel K V → NRel K V) (hx1 : ∀ r, (g1 r).x = r.x)
    (hx2 : ∀ r, (g2 r).x = r.x) (h1 : same = false → ∀ ax, (g1 r1).interpAxis ax = (r1.interpAxis ax).map g1)
    (h2 : same = false → ∀ ax, (g2 r2).interpAxis ax = (r2.interpAxis ax).map g2)
    (h : ∀ q1 q2, mathOperationNd (g1 q1).y (.arr (g2 q2).y) op = (mathOperation q1.y (.arr q2.y) op).map fun y => .mat y.length [y]) :
    (g1 r1).operation (.rel same (g2 r2)) op = (r1.operation (.rel same r2) op).map inRow := by
  unfold NRel.operation Rel.operation
  simp only
  rw [nequalize_eq same r1 r2 g1 g2 hx1 hx2 h1 h2]
  cases Rel.equalize same r1 r2 with
  | error e => rfl
  | ok p =>
    obtain ⟨q1, q2⟩ := p
    simp only [Except.map, except_bind_ok, hx1]
    have := h q1 q2
    simp only [Except.map] at this
    rw [this]
    exact nmake_bind (mathOperation q1.y (.arr q2.y) op) q1.x (fun y => .mat y.length [y]) inRow (fun l => by simp [Nd.size])
      (fun _ => rfl)

/-- Arithmetic of two rows, or of a row and a relation with ordinary samples, gives the row of the ordinary result. Rows on different axis
objects need two samples. -/
theorem C150_row_arithmetic (same : Bool) (r1 r2 : Rel K V) (op : MathOp)
    (h : same = false → 2 ≤ r1.y.length ∧ 2 ≤ r2.y.length) :
    (inRow r1).operation (.rel same (inRow r2)) op = (r1.operation (.rel same r2) op).map inRow ∧
    (inRow r1).operation (.rel same (plain r2)) op = (r1.operation (.rel same r2) op).map inRow ∧
    (plain r1).operation (.rel same (inRow r2)) op = (r1.operation (.rel same r2) op).map inRow := by
  have hp : ∀ (r : Rel K V) (ax : Axis K), (plain r).interpAxis ax = (r.interpAxis ax).map plain := fun r ax =>
    (C150_plain r id 0 0 0 none none ax .add).2.2.2.2.2.1
  refine ⟨noperation_eq same r1 r2 op inRow inRow (fun _ => rfl) (fun _ => rfl) (fun e ax => row_interp _ _ (h e).1)
      (fun e ax => row_interp _ _ (h e).2) fun q1 q2 => tableOp_single _ _ _,
    noperation_eq same r1 r2 op inRow plain (fun _ => rfl) (fun _ => rfl) (fun e ax => row_interp _ _ (h e).1)
      (fun e ax => hp _ _) fun q1 q2 => tableOp_single _ _ _,
    noperation_eq same r1 r2 op plain inRow (fun _ => rfl) (fun _ => rfl) (fun e ax => hp _ _)
      (fun e ax => row_interp _ _ (h e).2) fun q1 q2 => tableOp_single _ _ _⟩

/-- The norm of a row is an array with one number, the norm of the samples. -/
theorem C150_row_norm (r : Rel K V) : (inRow r).getNorm = r.getNorm.map fun v => .arr [v] := by
  unfold NRel.getNorm Rel.getNorm Rel.pow
  rw [(C150_row r id 0 2 .pow).2.2.2.2]
  cases r.operation (.other (.num 2)) .pow with
  | error e => rfl
  | ok q =>
    simp only [Except.map, except_bind_ok, NRel.oneIntegrate, Rel.oneIntegrate, NRel.getData, Rel.getData]
    simp only [inRow]
    cases hx : q.x.array with
    | error e => simp [Axis.size, hx, Except.map]
    | ok l =>
      rw [Axis.size_of_array hx]
      simp only [except_bind_ok, Nd.size, List.length_singleton, one_mul]
      by_cases hl : l.length = q.y.length
      · simp only [hl, ne_eq, not_true, if_false, except_bind_ok, except_pure, trapzNd]
        have hb : bcast (fun (d : K) (v : V) => d • v) (npDiff l) (List.zipWith (fun a b => (b + a) / 2) q.y q.y.tail) =
            some (List.zipWith (fun (d : K) (v : V) => d • v) (npDiff l) (List.zipWith (fun a b => (b + a) / 2) q.y q.y.tail)) := by
          unfold bcast
          rw [if_pos (by simp [npDiff_length, hl])]
        simp only [List.mapM_cons, List.mapM_nil, hb]
        rfl
      · simp only [ne_eq, hl, not_false_eq_true, if_true]
        rfl

theorem nselect_wrong (r : NRel K V) (a b : Option K) (l : List K) (hl : r.x.array = .ok l) (m n : ℕ) (ht : IsTable r.y m n)
    (h : l.length ≠ m) : r.selectData a b = .error .index := by
  obtain ⟨rows, hy, hm, -⟩ := ht
  unfold NRel.selectData
  simp only [hl, hy, except_bind_ok, Nd.select]
  have hw : maskSelect (l.map fun t => decide (a.getD r.x.start ≤ t) && decide (t ≤ b.getD r.x.stop)) rows = .error .index := by
    unfold maskSelect
    rw [if_neg (by simp [hm, h])]
  rw [hw]
  generalize hmask : (l.map fun t => decide (a.getD r.x.start ≤ t) && decide (t ≤ b.getD r.x.stop)) = mask
  have hlen : mask.length = l.length := by simp [← hmask]
  have hx : maskSelect mask l = .ok ((l.zip mask).filterMap fun p => if p.2 then some p.1 else none) := by
    unfold maskSelect
    rw [if_pos hlen]
  rw [hx]
  simp only [except_bind_ok]
  generalize (l.zip mask).filterMap (fun p => if p.2 then some p.1 else none) = s
  cases s.head? <;> cases s.getLast? <;> rfl

theorem ninterp_wrong (r : NRel K V) (ax : Axis K) (l xs : List K) (hl : r.x.array = .ok l) (hx : ax.array = .ok xs) (m n : ℕ)
    (ht : IsTable r.y m n) (h : l.length ≠ n) : r.interpAxis ax = .error .value := by
  obtain ⟨rows, hy, hm, -⟩ := ht
  unfold NRel.interpAxis
  simp only [hl, hx, hy, except_bind_ok, interp1dNd, if_pos h]
  rfl

/-- A row of two or more samples: selecting and slicing raise `IndexError`, whatever the borders. -/
theorem C150_row_not_selected (r : Rel K V) (a b : Option K) (l : List K) (hl : r.x.array = .ok l) (h : l.length ≠ 1) :
    (inRow r).selectData a b = .error .index :=
  nselect_wrong _ a b l hl 1 r.y.length ⟨[r.y], rfl, rfl, by simp⟩ h

/-- Looking up one value in a row gives the whole row if the first position is a nearest one, and `IndexError` otherwise. -/
theorem C150_row_item (r : Rel K V) (v t : K) (l : List K) (hl : r.x.array = .ok (t :: l)) :
    ((∀ u ∈ l, |t - v| ≤ |u - v|) → (inRow r).getItem v = .ok (t, .arr r.y)) ∧
    ((∃ u ∈ l, |u - v| < |t - v|) → (inRow r).getItem v = .error .index) := by
  obtain ⟨i, w, hi, hw, hmin⟩ := argmin_spec ((t :: l).map fun u => |u - v|) (by simp)
  have h0 := hmin 0 (|t - v|) (by simp)
  constructor
  · intro h
    have : i = 0 := by
      by_contra hne
      have := h0.2 (by omega)
      rcases i with _ | i
      · exact hne rfl
      · simp only [List.map_cons, List.getElem?_cons_succ, List.getElem?_map, Option.map_eq_some_iff] at hw
        obtain ⟨u, hu, rfl⟩ := hw
        exact absurd (h u (List.mem_of_getElem? hu)) (not_le.2 this)
    subst this
    simp only [NRel.getItem, inRow, Nd.item, hl, hi, except_bind_ok]
    rfl
  · rintro ⟨u, hu, hlt⟩
    obtain ⟨j, hj⟩ := List.mem_iff_getElem?.1 hu
    have hj' := (hmin (j + 1) (|u - v|) (by simp [hj])).1
    rcases i with _ | i
    · simp only [List.map_cons, List.getElem?_cons_zero, Option.some.injEq] at hw
      exact absurd (hw ▸ hj') (not_le.2 hlt)
    · simp only [NRel.getItem, inRow, Nd.item, hl, hi, except_bind_ok]
      simp only [List.getElem?_cons_succ, List.getElem?_nil, Option.map_none]
      cases l[i]? <;> rfl

theorem nconvolve_error (f : List V → List V → List V) (r1 r2 : Rel K V) (h1 : Spec.Balanced r1) (h2 : Spec.Balanced r2)
    (g1 g2 : Rel K V → NRel K V) (hx1 : ∀ r, (g1 r).x = r.x) (hx2 : ∀ r, (g2 r).x = r.x)
    (hs1 : ∀ d, (g1 r1).shift d = (r1.shift d).map g1) (hs2 : ∀ d, (g2 r2).shift d = (r2.shift d).map g2)
    (hi1 : ∀ ax, (g1 r1.zeroed).interpAxis ax = (r1.zeroed.interpAxis ax).map g1)
    (hi2 : ∀ ax, (g2 r2.zeroed).interpAxis ax = (r2.zeroed.interpAxis ax).map g2)
    (h : ∀ q1 q2, npConvNd f (g1 q1).y (g2 q2).y = .error .value) : (g1 r1).convolveBy f (g2 r2) = .error .value := by
  obtain ⟨q1, q2, he, -⟩ := alignForConv_eq r1 r2 h1 h2
  unfold NRel.convolveBy
  rw [hx1, hx2, hs1, hs2, shift_neg_start r1 h1, shift_neg_start r2 h2]
  simp only [Except.map, except_bind_ok]
  rw [nequalize_eq false r1.zeroed r2.zeroed g1 g2 hx1 hx2 (fun _ => hi1) (fun _ => hi2), he]
  simp only [Except.map, except_bind_ok, h]
  rfl

/-- Convolving or correlating a row, with a row or with ordinary samples, raises `ValueError`. -/
theorem C150_row_not_convolved (f : List V → List V → List V) (r1 r2 : Rel K V) (h1 : Spec.Balanced r1) (h2 : Spec.Balanced r2)
    (hl1 : 2 ≤ r1.y.length) (hl2 : 2 ≤ r2.y.length) :
    (inRow r1).convolveBy f (inRow r2) = .error .value ∧ (inRow r1).convolveBy f (plain r2) = .error .value ∧
    (plain r1).convolveBy f (inRow r2) = .error .value := by
  have ps : ∀ (r : Rel K V) (d : K), (plain r).shift d = (r.shift d).map plain := fun r d =>
    (C150_plain r id d 0 0 none none r.x .add).2.2.2.1
  have rs : ∀ (r : Rel K V) (d : K), (inRow r).shift d = (r.shift d).map inRow := fun r d => (C150_row r id d 0 .add).2.2.2.1
  have pi : ∀ (r : Rel K V) (ax : Axis K), (plain r).interpAxis ax = (r.interpAxis ax).map plain := fun r ax =>
    (C150_plain r id 0 0 0 none none ax .add).2.2.2.2.2.1
  refine ⟨?_, ?_, ?_⟩
  · exact nconvolve_error f r1 r2 h1 h2 inRow inRow (fun _ => rfl) (fun _ => rfl) (rs _) (rs _) (fun _ => row_interp _ _ hl1)
      (fun _ => row_interp _ _ hl2) fun _ _ => rfl
  · exact nconvolve_error f r1 r2 h1 h2 inRow plain (fun _ => rfl) (fun _ => rfl) (rs _) (ps _) (fun _ => row_interp _ _ hl1)
      (pi _) fun _ _ => rfl
  · exact nconvolve_error f r1 r2 h1 h2 plain inRow (fun _ => rfl) (fun _ => rfl) (ps _) (rs _) (pi _)
      (fun _ => row_interp _ _ hl2) fun _ _ => rfl

/-- Samples in an array of one dimension: arithmetic of two relations, the norm, convolution and correlation are those of
the model without tables. -/
theorem C150_plain_two (r1 r2 : Rel K V) (same : Bool) (op : MathOp) [Star V] :
    (plain r1).operation (.rel same (plain r2)) op = (r1.operation (.rel same r2) op).map plain ∧
    (plain r1).getNorm = r1.getNorm.map .num ∧
    (plain r1).convolveBy npConvolve (plain r2) = (r1.convolve r2).map plain ∧
    (plain r1).convolveBy npCorrelate (plain r2) = (r1.correlate r2).map plain := by
  have ps : ∀ (r : Rel K V) (d : K), (plain r).shift d = (r.shift d).map plain := fun r d =>
    (C150_plain r id d 0 0 none none r.x .add).2.2.2.1
  have pi : ∀ (r : Rel K V) (ax : Axis K), (plain r).interpAxis ax = (r.interpAxis ax).map plain := fun r ax =>
    (C150_plain r id 0 0 0 none none ax .add).2.2.2.2.2.1
  have conv : ∀ f : List V → List V → List V, (plain r1).convolveBy f (plain r2) =
      (Rel.alignForConv r1 r2 >>= fun p => Rel.make p.2.2 (f p.1.y p.2.1.y)).map plain := by
    intro f
    unfold NRel.convolveBy Rel.alignForConv
    rw [ps, ps]
    show (r1.shift (-r1.x.start)).map plain >>= _ = _
    cases r1.shift (-r1.x.start) with
    | error e => rfl
    | ok q1 =>
      simp only [Except.map, except_bind_ok]
      have hx : (plain r2).x.start = r2.x.start := rfl
      rw [hx]
      cases r2.shift (-r2.x.start) with
      | error e => rfl
      | ok q2 =>
        simp only [except_bind_ok]
        rw [nequalize_eq false q1 q2 plain plain (fun _ => rfl) (fun _ => rfl) (fun _ => pi _) (fun _ => pi _)]
        cases Rel.equalize false q1 q2 with
        | error e => rfl
        | ok p =>
          obtain ⟨p1, p2⟩ := p
          simp only [Except.map, except_bind_ok, except_pure]
          exact nmake_eq _ _ _ _ rfl rfl
  refine ⟨?_, ?_, conv _, conv _⟩
  · unfold NRel.operation Rel.operation
    simp only
    rw [nequalize_eq same r1 r2 plain plain (fun _ => rfl) (fun _ => rfl) (fun _ => pi _) (fun _ => pi _)]
    cases Rel.equalize same r1 r2 with
    | error e => rfl
    | ok p => exact nmake_bind _ _ .vec plain (fun _ => rfl) (fun _ => rfl)
  · unfold NRel.getNorm Rel.getNorm Rel.pow
    rw [(C150_plain r1 id 0 0 2 none none r1.x .pow).2.2.2.2.2.2.1]
    cases r1.operation (.other (.num 2)) .pow with
    | error e => rfl
    | ok q =>
      simp only [Except.map, except_bind_ok, NRel.oneIntegrate, Rel.oneIntegrate, NRel.getData, Rel.getData]
      simp only [plain]
      cases hx : q.x.array with
      | error e => simp [Axis.size, hx, Except.map]
      | ok l =>
        rw [Axis.size_of_array hx]
        simp only [except_bind_ok, Nd.size]
        by_cases hl : l.length = q.y.length
        · simp only [hl, ne_eq, not_true, if_false, except_bind_ok, except_pure, trapzNd]
          rfl
        · simp only [ne_eq, hl, not_false_eq_true, if_true]
          rfl

/-! ### Columns -/

theorem column_rows (l : List V) (f : V → Option V) :
    ((l.map fun v => [v]).mapM fun r => finite (r.map f)) = (finite (l.map f)).map fun y => y.map fun v => [v] := by
  induction l with
  | nil => rfl
  | cons a l ih =>
    rw [List.map_cons, List.mapM_cons, ih]
    unfold finite
    simp only [List.map_cons, List.map_nil, List.mapM_cons, List.mapM_nil, id]
    cases f a with
    | none => rfl
    | some b => cases (l.map f).mapM id <;> rfl

/-- A column: exponential, shift, arithmetic with numbers, selection and slicing do what they do on the same samples in one dimension, and the
result is a column; one value looked up is an array with one number. -/
theorem C150_column (r : Rel K V) (e : V → V) (d v : K) (k : V) (a b : Option K) (op : MathOp) :
    (inColumn r).exp e = (r.exp e).map inColumn ∧ (inColumn r).shift d = (r.shift d).map inColumn ∧
    (inColumn r).operation (.num k) op = (r.operation (.other (.num k)) op).map inColumn ∧
    (inColumn r).selectData a b = (r.selectData a b).map inColumn ∧
    (inColumn r).getItem v = (r.getItem v).map (fun p => (p.1, .arr [p.2])) := by
  refine ⟨nmake_eq _ _ _ _ ?_ ?_, nmake_eq _ _ _ _ ?_ ?_, ?_, ?_, ?_⟩
  · simp [inColumn, Nd.map, Nd.size]
  · simp [inColumn, Nd.map, Function.comp_def]
  · simp [inColumn, Nd.size]
  · rfl
  · unfold NRel.operation Rel.operation
    simp only [inColumn, mathOperationNd, mathOperation, column_rows]
    cases finite (r.y.map fun a => op.fn a k) with
    | error e => rfl
    | ok y => exact nmake_eq _ _ _ _ (by simp [Nd.size]) rfl
  · refine nselect_eq _ _ _ (fun l => .mat 1 (l.map fun v => [v])) inColumn (fun mask => ?_) (fun l => by simp [Nd.size])
      (fun _ _ => rfl) a b
    simp only [Nd.select, maskSelect_map]
    cases maskSelect mask r.y <;> rfl
  · unfold NRel.getItem Rel.getItem
    simp only [inColumn, Nd.item, List.getElem?_map]
    cases r.x.array with
    | error e => rfl
    | ok l =>
      simp only [except_bind_ok]
      cases argmin (List.map (fun t => |t - v|) l) with
      | error e => rfl
      | ok i =>
        simp only [except_bind_ok]
        cases l[i]? <;> cases r.y[i]? <;> rfl

theorem rowOp_one (op : MathOp) (a b : V) : rowOp op [a] [b] = finite [op.fn a b] := by simp [rowOp, bcast]

theorem mapM_singles (l : List (Option V)) :
    (l.map fun o => finite [o]).mapM id = (finite l).map fun y => y.map fun v => [v] := by
  induction l with
  | nil => rfl
  | cons a l ih =>
    rw [List.map_cons, List.mapM_cons, ih]
    unfold finite
    simp only [List.mapM_cons, List.mapM_nil, id]
    cases a with
    | none => rfl
    | some b => cases l.mapM id <;> rfl

theorem tableOp_columns (op : MathOp) (a b : List V) :
    tableOp op 1 (a.map fun v => [v]) 1 (b.map fun v => [v]) =
      (mathOperation a (.arr b) op).map fun y => .mat 1 (y.map fun v => [v]) := by
  have hb : bcast (rowOp op) (a.map fun v => [v]) (b.map fun v => [v]) =
      (bcast op.fn a b).map fun l => l.map fun o => finite [o] := by
    unfold bcast
    by_cases h : a.length = b.length
    · simp [h, List.map_zipWith, List.zipWith_map, rowOp_one]
    · simp only [List.length_map, h, if_false]
      rcases a with _ | ⟨a0, _ | ⟨a1, a⟩⟩ <;> rcases b with _ | ⟨b0, _ | ⟨b1, b⟩⟩ <;> simp_all [rowOp_one]
  unfold tableOp
  rw [if_pos (.inl rfl), hb, ← rowOp_eq, rowOp]
  cases bcast op.fn a b with
  | none => rfl
  | some l =>
    simp only [Option.map_some, mapM_singles]
    cases finite l <;> rfl

/-- Arithmetic of two columns on one axis object gives the column of the ordinary result. -/
theorem C150_column_arithmetic (r1 r2 : Rel K V) (op : MathOp) :
    (inColumn r1).operation (.rel true (inColumn r2)) op = (r1.operation (.rel true r2) op).map inColumn := by
  unfold NRel.operation Rel.operation NRel.equalize Rel.equalize
  simp only [if_true, except_bind_ok]
  show (tableOp op 1 (r1.y.map fun v => [v]) 1 (r2.y.map fun v => [v]) >>= NRel.make r1.x) = _
  rw [tableOp_columns]
  exact nmake_bind _ _ _ inColumn (fun l => by simp [Nd.size]) (fun _ => rfl)

/-- On two axis objects a column of two or more samples cannot be combined with anything: `ValueError`, on the left whatever the shape of the
right operand, on the right with ordinary samples and rows. -/
theorem C150_column_two_axes (r s : Rel K V) (op : MathOp) (hr : Spec.Balanced r) (hs : Spec.Balanced s) (h : 2 ≤ r.y.length) :
    (∀ y, (inColumn r).operation (.rel false ⟨s.x, y⟩) op = .error .value) ∧
    (plain s).operation (.rel false (inColumn r)) op = .error .value ∧
    (2 ≤ s.y.length → (inRow s).operation (.rel false (inColumn r)) op = .error .value) := by
  obtain ⟨⟨l, ly⟩, hd⟩ := (balanced_iff_getData r).1 hr
  obtain ⟨hl, rfl, hlen⟩ := (getData_ok_iff _ _ _).1 hd
  obtain ⟨⟨t, ty⟩, hd'⟩ := (balanced_iff_getData s).1 hs
  have hn : ∀ a b : Axis K, a.sample ≠ 0 → b.sample ≠ 0 → (commonX a b).sample ≠ 0 := by
    intro a b ha hb
    rw [commonX_eq]
    show min a.sample b.sample ≠ 0
    rcases min_choice a.sample b.sample with e | e <;> rw [e] <;> assumption
  have h1 := ((balanced_iff _).1 hr).1
  have h2 := ((balanced_iff _).1 hs).1
  have hw : ∀ ax : Axis K, ax.sample ≠ 0 → (inColumn r).interpAxis ax = .error .value := fun ax ha =>
    ninterp_wrong (inColumn r) ax l _ hl (ax.array_eq ha) r.y.length 1 ⟨_, rfl, by simp, by simp⟩ (by omega)
  obtain ⟨q, xs, ys, hq, -⟩ := interpAxis_spec s t ty hd' (commonX s.x r.x) (hn _ _ h2 h1)
  refine ⟨fun y => ?_, ?_, fun h3 => ?_⟩
  · unfold NRel.operation NRel.equalize
    simp only [Bool.false_eq_true, if_false]
    show ((inColumn r).interpAxis (commonX r.x s.x) >>= _) >>= _ = _
    rw [hw _ (hn _ _ h1 h2)]
    rfl
  · unfold NRel.operation NRel.equalize
    simp only [Bool.false_eq_true, if_false]
    show ((plain s).interpAxis (commonX s.x r.x) >>= _) >>= _ = _
    rw [(C150_plain s id 0 0 0 none none _ .add).2.2.2.2.2.1, hq]
    show (((inColumn r).interpAxis (commonX s.x r.x) >>= _) >>= _) = _
    rw [hw _ (hn _ _ h2 h1)]
    rfl
  · unfold NRel.operation NRel.equalize
    simp only [Bool.false_eq_true, if_false]
    show ((inRow s).interpAxis (commonX s.x r.x) >>= _) >>= _ = _
    rw [row_interp s _ h3, hq]
    show (((inColumn r).interpAxis (commonX s.x r.x) >>= _) >>= _) = _
    rw [hw _ (hn _ _ h2 h1)]
    rfl

/-- Neither can it be convolved or correlated: `ValueError`. -/
theorem C150_column_not_convolved (f : List V → List V → List V) (r s : Rel K V) (hr : Spec.Balanced r) (hs : Spec.Balanced s)
    (h : 2 ≤ r.y.length) :
    (inColumn r).convolveBy f (inColumn s) = .error .value ∧ (inColumn r).convolveBy f (plain s) = .error .value ∧
    (plain s).convolveBy f (inColumn r) = .error .value := by
  obtain ⟨q1, q2, -, -, -, -, hb1, hb2, hx1, hx2, -, hi⟩ := alignForConv_eq r s hr hs
  obtain ⟨⟨l, ly⟩, hd⟩ := (balanced_iff_getData _).1 (zeroed_balanced r hr)
  obtain ⟨hl, hly, hlen⟩ := (getData_ok_iff _ _ _).1 hd
  have hn : (commonX r.zeroed.x s.zeroed.x).sample ≠ 0 := by rw [← hx1]; exact ((balanced_iff _).1 hb1).1
  have hlen' : l.length = r.y.length := by rw [hlen, hly]; rfl
  have hw : (inColumn r.zeroed).interpAxis (commonX r.zeroed.x s.zeroed.x) = .error .value :=
    ninterp_wrong (inColumn r.zeroed) _ l _ hl (Axis.array_eq _ hn) r.y.length 1 ⟨_, rfl, by simp [Rel.zeroed], by simp⟩ (by omega)
  have cs : ∀ (r : Rel K V), Spec.Balanced r → (inColumn r).shift (-r.x.start) = .ok (inColumn r.zeroed) := fun r hr => by
    rw [(C150_column r id _ 0 0 none none .add).2.1, shift_neg_start r hr]; rfl
  have ps : (plain s).shift (-s.x.start) = .ok (plain s.zeroed) := by
    rw [(C150_plain s id _ 0 0 none none s.x .add).2.2.2.1, shift_neg_start s hs]; rfl
  have pi : (plain s.zeroed).interpAxis (commonX r.zeroed.x s.zeroed.x) = .ok (plain q2) := by
    rw [(C150_plain s.zeroed id 0 0 0 none none _ .add).2.2.2.2.2.1, hi]; rfl
  have left : ∀ t : NRel K V, t.x = s.zeroed.x → NRel.equalize false (inColumn r.zeroed) t = .error .value := by
    intro t ht
    unfold NRel.equalize
    simp only [Bool.false_eq_true, if_false, ht]
    show ((inColumn r.zeroed).interpAxis (commonX r.zeroed.x s.zeroed.x) >>= _) = _
    rw [hw]
    rfl
  have right : NRel.equalize false (plain s.zeroed) (inColumn r.zeroed) = .error .value := by
    unfold NRel.equalize
    simp only [Bool.false_eq_true, if_false]
    show ((plain s.zeroed).interpAxis (commonX s.zeroed.x r.zeroed.x) >>= _) = _
    rw [commonX_comm, pi]
    show ((inColumn r.zeroed).interpAxis (commonX s.zeroed.x r.zeroed.x) >>= _) = _
    rw [commonX_comm, hw]
    rfl
  refine ⟨?_, ?_, ?_⟩ <;> unfold NRel.convolveBy
  · show ((inColumn r).shift (-r.x.start) >>= fun _ => (inColumn s).shift (-s.x.start) >>= _) = _
    rw [cs r hr, cs s hs]
    simp only [except_bind_ok, left (inColumn s.zeroed) rfl]
    rfl
  · show ((inColumn r).shift (-r.x.start) >>= fun _ => (plain s).shift (-s.x.start) >>= _) = _
    rw [cs r hr, ps]
    simp only [except_bind_ok, left (plain s.zeroed) rfl]
    rfl
  · show ((plain s).shift (-s.x.start) >>= fun _ => (inColumn r).shift (-r.x.start) >>= _) = _
    rw [cs r hr, ps]
    simp only [except_bind_ok, right]
    rfl

theorem bcast_left {A B C : Type} (g : A → B → C) (c : A) (b : List B) (h : b.length ≠ 1) : bcast g [c] b = some (b.map (g c)) := by
  unfold bcast
  rw [if_neg (by simpa using Ne.symm h)]
  rcases b with _ | ⟨b0, _ | ⟨b1, b⟩⟩ <;> simp_all

theorem bcast_right {A B C : Type} (g : A → B → C) (a : List A) (c : B) (h : a.length ≠ 1) :
    bcast g a [c] = some (a.map fun x => g x c) := by
  unfold bcast
  rw [if_neg (by simpa using h)]

theorem mapM_oks {A B : Type} (l : List A) (q : A → B) : (l.map fun v => (Except.ok (q v) : Except Err B)).mapM id = .ok (l.map q) := by
  induction l with
  | nil => rfl
  | cons a l ih => rw [List.map_cons, List.mapM_cons, ih]; rfl

/-- A column and ordinary samples on one axis object: numpy makes the table of all pairs, and the constructor rejects it. -/
theorem C150_column_and_plain (r1 r2 : Rel K V) (op : MathOp) (n : ℕ) (hop : op = .add ∨ op = .sub ∨ op = .mul) (hn : 2 ≤ n)
    (h1 : r1.y.length = n) (h2 : r2.y.length = n) (hx : r1.x.size = .ok n) :
    (inColumn r1).operation (.rel true (plain r2)) op = .error (.notEqual n (n * n)) ∧
    (plain r1).operation (.rel true (inColumn r2)) op = .error (.notEqual n (n * n)) := by
  obtain ⟨g, hg⟩ : ∃ g : V → V → V, ∀ a b, op.fn a b = some (g a b) := by
    rcases hop with rfl | rfl | rfl
    · exact ⟨fun a b => a + b, fun _ _ => rfl⟩
    · exact ⟨fun a b => a - b, fun _ _ => rfl⟩
    · exact ⟨fun a b => a * b, fun _ _ => rfl⟩
  have hr1 : ∀ v, rowOp op [v] r2.y = .ok (r2.y.map fun w => g v w) := by
    intro v
    have : (r2.y.map fun x => op.fn v x) = (r2.y.map fun w => g v w).map some := by simp [hg, Function.comp_def]
    rw [rowOp, bcast_left _ _ _ (by omega), ← finite_map_some (r2.y.map fun w => g v w), ← this]
  have hr2 : ∀ v, rowOp op r1.y [v] = .ok (r1.y.map fun w => g w v) := by
    intro v
    have : (r1.y.map fun x => op.fn x v) = (r1.y.map fun w => g w v).map some := by simp [hg, Function.comp_def]
    rw [rowOp, bcast_right _ _ _ (by omega), ← finite_map_some (r1.y.map fun w => g w v), ← this]
  have t1 : mathOperationNd (inColumn r1).y (.arr (plain r2).y) op = .ok (.mat n (r1.y.map fun v => r2.y.map fun w => g v w)) := by
    show tableOp op 1 (r1.y.map fun v => [v]) r2.y.length [r2.y] = _
    unfold tableOp
    rw [if_pos (.inr (.inl rfl))]
    have : bcast (rowOp op) (r1.y.map fun v => [v]) [r2.y] = some (r1.y.map fun v => .ok (r2.y.map fun w => g v w)) := by
      rw [bcast_right _ _ _ (by simp; omega)]
      simp [hr1, Function.comp_def]
    rw [this]
    simp only [mapM_oks, except_bind_ok, if_true, h2]
    rfl
  have t2 : mathOperationNd (plain r1).y (.arr (inColumn r2).y) op = .ok (.mat n (r2.y.map fun v => r1.y.map fun w => g w v)) := by
    show tableOp op r1.y.length [r1.y] 1 (r2.y.map fun v => [v]) = _
    unfold tableOp
    rw [if_pos (.inr (.inr rfl))]
    have : bcast (rowOp op) [r1.y] (r2.y.map fun v => [v]) = some (r2.y.map fun v => .ok (r1.y.map fun w => g w v)) := by
      rw [bcast_left _ _ _ (by simp; omega)]
      simp [hr2, Function.comp_def]
    rw [this]
    simp only [mapM_oks, except_bind_ok, h1, if_neg (show n ≠ 1 by omega)]
    rfl
  have hne : n ≠ n * n := by nlinarith
  constructor
  · unfold NRel.operation NRel.equalize
    simp only [if_true, except_bind_ok, t1]
    show NRel.make r1.x _ = _
    simp [NRel.make, hx, Nd.size, h1, hne]
  · unfold NRel.operation NRel.equalize
    simp only [if_true, except_bind_ok, t2]
    show NRel.make r1.x _ = _
    simp [NRel.make, hx, Nd.size, h2, hne]

theorem trapz_no_columns (x : List K) (y : List V) (n : ℕ) (hx : x.length = n) :
    (3 ≤ n → y ≠ [] → trapzNd x (.mat 1 (y.map fun v => [v])) = .error .value) ∧
    (n = 2 → trapzNd x (.mat 1 (y.map fun v => [v])) = .ok (.arr (y.map fun _ => 0))) := by
  have hd : (npDiff x).length = n - 1 := by rw [npDiff_length, hx]
  constructor
  · intro hn hy
    obtain ⟨a, y, rfl⟩ := List.exists_cons_of_ne_nil hy
    obtain ⟨d0, d1, d, e⟩ : ∃ d0 d1 d, npDiff x = d0 :: d1 :: d := by
      rcases h : npDiff x with _ | ⟨d0, _ | ⟨d1, d⟩⟩ <;> simp [h] at hd <;> first | omega | exact ⟨_, _, _, rfl⟩
    simp [trapzNd, e, bcast]
  · intro hn
    obtain ⟨d0, e⟩ : ∃ d0, npDiff x = [d0] := by
      rcases h : npDiff x with _ | ⟨d0, _ | ⟨d1, d⟩⟩ <;> simp [h] at hd <;> first | omega | exact ⟨_, rfl⟩
    have : ((y.map fun v => [v]).mapM fun r : List V =>
        match bcast (fun (d : K) (v : V) => d • v) (npDiff x) (List.zipWith (fun a b => (b + a) / 2) r r.tail) with
        | some l => Except.ok l.sum
        | none => .error Err.value) = .ok (y.map fun _ => 0) := by
      rw [e]
      induction y with
      | nil => rfl
      | cons a y ih =>
        rw [List.map_cons, List.mapM_cons, ih]
        simp [bcast]
    exact congrArg (fun e => e >>= fun v => pure (NumOrArr.arr v)) this

/-- The norm of a column: `ValueError` with three or more samples, two zeros with two, though the same samples in one dimension have a
norm. -/
theorem C150_column_norm (r : Rel K V) (v : V) (h : r.getNorm = .ok v) :
    (3 ≤ r.y.length → (inColumn r).getNorm = .error .value) ∧ (r.y.length = 2 → (inColumn r).getNorm = .ok (.arr [0, 0])) := by
  unfold Rel.getNorm Rel.pow at h
  unfold NRel.getNorm
  rw [(C150_column r id 0 0 2 none none .pow).2.2.1]
  cases hq : r.operation (.other (.num 2)) .pow with
  | error e => rw [hq] at h; exact absurd h (by simp [bind, Except.bind])
  | ok q =>
    rw [hq] at h
    have hlen : q.y.length = r.y.length := by
      unfold Rel.operation at hq
      simp only [mathOperation] at hq
      cases hf : finite (r.y.map fun a => MathOp.pow.fn a 2) with
      | error e => rw [hf] at hq; simp [bind, Except.bind] at hq
      | ok y =>
        rw [hf] at hq
        have : q.y = y := by
          simp only [except_bind_ok, Rel.make] at hq
          cases hxs : r.x.size with
          | error e => simp [hxs, bind, Except.bind] at hq
          | ok n =>
            simp only [hxs, except_bind_ok] at hq
            split at hq
            · cases hq
            · cases hq; rfl
        rw [this, length_of_finite hf]
        simp
    simp only [Except.map, except_bind_ok, NRel.oneIntegrate, Rel.oneIntegrate, NRel.getData, Rel.getData] at h ⊢
    simp only [inColumn] at h ⊢
    cases hx : q.x.array with
    | error e => simp [Axis.size, hx, bind, Except.bind, Except.map] at h
    | ok l =>
      rw [Axis.size_of_array hx] at h ⊢
      simp only [except_bind_ok, Nd.size, List.length_map, mul_one] at h ⊢
      by_cases hl : l.length = q.y.length
      · simp only [hl, ne_eq, not_true, if_false, except_bind_ok, except_pure]
        obtain ⟨k1, k2⟩ := trapz_no_columns l q.y q.y.length hl
        constructor
        · intro h3
          rw [k1 (by omega) (by intro e; simp [e] at hlen; omega)]
          rfl
        · intro h3
          rw [k2 (by omega)]
          obtain ⟨a, b, e⟩ : ∃ a b, q.y = [a, b] := by
            rw [← hlen] at h3
            rcases hy : q.y with _ | ⟨d0, _ | ⟨d1, _ | ⟨d2, d⟩⟩⟩ <;> simp [hy] at h3; exact ⟨_, _, rfl⟩
          simp [NumOrArr.over, e, bind, Except.bind]
      · simp [hl, bind, Except.bind] at h

/-! ### Any table -/

/-- The constructor accepts samples of any shape as long as their number is the size of the axis. -/
theorem C150_constructor (x : Axis K) (y : Nd V) (m n : ℕ) (h : IsTable y m n) :
    NRel.make x y = .ok ⟨x, y⟩ ↔ x.size = .ok (m * n) := by
  obtain ⟨rows, rfl, hm, -⟩ := h
  unfold NRel.make
  cases x.size with
  | error e => simp [bind, Except.bind]
  | ok k =>
    simp only [except_bind_ok, Nd.size, hm]
    split <;> simp_all [pure, Except.pure]

/-- A table of `m` rows and `n` columns on an axis of `m * n` positions: with `n ≠ 1` nothing can be selected, with `m ≠ 1` nothing can be
interpolated. -/
theorem C150_table (r : NRel K V) (m n : ℕ) (ht : IsTable r.y m n) (a b : Option K) (ax : Axis K) (l xs : List K)
    (hl : r.x.array = .ok l) (hx : ax.array = .ok xs) (hs : l.length = m * n) (hm : 1 ≤ m) (hn : 1 ≤ n) :
    (n ≠ 1 → r.selectData a b = .error .index) ∧ (m ≠ 1 → r.interpAxis ax = .error .value) :=
  ⟨fun h => nselect_wrong r a b l hl m n ht fun e => h (by nlinarith),
    fun h => ninterp_wrong r ax l xs hl hx m n ht fun e => h (by nlinarith)⟩

/-- A table with two or more rows, hence also a column, on a whole axis has no integral and no derivative: each row loses one sample, the axis
loses only one. -/
theorem C150_table_calculus (r : NRel K V) (m n k : ℕ) (ht : IsTable r.y m n) (hs : 0 < r.x.sample)
    (hk : r.x.stop - r.x.start = k * r.x.sample) (hmn : m * n = k + 1) (hm : 2 ≤ m) (hn : 1 ≤ n) (hk1 : 1 ≤ k) :
    r.integrate = .error (.notEqual k (m * (n - 1))) ∧ r.diff = .error (.notEqual k (m * (n - 1))) := by
  obtain ⟨rows, hy, hrows, -⟩ := ht
  have hne : k ≠ m * (n - 1) := by
    obtain ⟨n, rfl⟩ : ∃ n', n = n' + 1 := ⟨n - 1, by omega⟩
    simp only [Nat.add_sub_cancel]
    have : m * (n + 1) = m * n + m := by ring
    omega
  obtain ⟨k, rfl⟩ : ∃ k', k = k' + 1 := ⟨k - 1, by omega⟩
  push_cast at hk
  constructor
  · unfold NRel.integrate
    have := Axis.size_of_array (array_whole { r.x with start := r.x.start + r.x.sample } k hs (by
      show r.x.stop - (r.x.start + r.x.sample) = _
      linear_combination hk))
    simp only [NRel.make, this, except_bind_ok, hy, Nd.cumTrapz, Nd.size, List.length_map, List.length_range, hrows]
    rw [if_pos hne]
  · unfold NRel.diff
    have := Axis.size_of_array (array_whole { r.x with start := r.x.start + r.x.sample / 2, stop := r.x.stop - r.x.sample / 2 } k hs (by
      show r.x.stop - r.x.sample / 2 - (r.x.start + r.x.sample / 2) = _
      linear_combination hk))
    simp only [NRel.make, this, except_bind_ok, hy, Nd.diff, Nd.size, List.length_map, List.length_range, hrows]
    rw [if_pos hne]

/-- `max` and `min` look at all entries, so a row and a column have those of the samples. -/
theorem C150_extremes {W : Type} [LinearOrder W] (r : Rel K W) :
    (inRow r).max = r.max ∧ (inColumn r).max = r.max ∧ (inRow r).min = r.min ∧ (inColumn r).min = r.min := by
  have hc : (r.y.map fun v => [v]).flatten = r.y := by
    induction r.y with
    | nil => rfl
    | cons a l ih => simp [ih]
  simp [NRel.max, NRel.min, Rel.max, Rel.min, inRow, inColumn, Nd.flat, hc]

end

/-! ### Signals -/

section

theorem column_flat (l : List ℝ) : (l.map fun v => [v]).flatten = l := by
  induction l with
  | nil => rfl
  | cons a l ih => simp [ih]

theorem reorder_column (t : Axis ℝ) (l : List ℝ) : reorderByTimeNd t (.mat 1 (l.map fun v => [v])) = reorderByTime t l := by
  unfold reorderByTimeNd reorderByTime
  cases t.array with
  | error e => rfl
  | ok ts =>
    simp only [except_bind_ok, Nd.select, maskSelect_map]
    cases maskSelect (ts.map fun v => decide (0 ≤ v)) l with
    | error e => rfl
    | ok a =>
      cases maskSelect (ts.map fun v => decide (v < 0)) l with
      | error e => rfl
      | ok b => simp [Except.map, Nd.flat, column_flat]

theorem reorder_vec (t : Axis ℝ) (l : List ℝ) : reorderByTimeNd t (.vec l) = reorderByTime t l := by
  unfold reorderByTimeNd reorderByTime
  cases t.array with
  | error e => rfl
  | ok ts =>
    simp only [except_bind_ok, Nd.select]
    cases maskSelect (ts.map fun v => decide (0 ≤ v)) l with
    | error e => rfl
    | ok a => cases maskSelect (ts.map fun v => decide (v < 0)) l <;> rfl

/-- A signal with its samples in an array of one dimension: the spectrum is that of the model without tables, also with the default
arguments. -/
theorem C150_plain_signal (r : Rel ℝ ℝ) (f : SizeArg) (z : Bool) :
    (plain r).getSpectrum f z = r.getSpectrum f z ∧ (plain r).getSpectrum = r.getSpectrum := by
  have hv : ∀ (f : SizeArg) (t : Axis ℝ) (l : List ℝ), calculateSpectrumNd t (.vec l) f = calculateSpectrum t l f := by
    intro f t l; unfold calculateSpectrumNd calculateSpectrum; rw [reorder_vec]; cases f <;> rfl
  have all : ∀ f z, (plain r).getSpectrum f z = r.getSpectrum f z := by
    intro f z
    unfold NRel.getSpectrum Rel.getSpectrum signal2spectrumNd signal2spectrum
    simp only [plain, hv, Nd.size, Nd.flat]
  exact ⟨all f z, all _ _⟩

/-- A signal with its samples in a column has the spectrum of the samples. -/
theorem C150_signal_column (r : Rel ℝ ℝ) (f : SizeArg) (z : Bool) : (inColumn r).getSpectrum f z = r.getSpectrum f z := by
  have hc : ∀ t : Axis ℝ, calculateSpectrumNd t (.mat 1 (r.y.map fun v => [v])) f = calculateSpectrum t r.y f := by
    intro t; unfold calculateSpectrumNd calculateSpectrum; rw [reorder_column]; cases f <;> rfl
  have hv : ∀ (t : Axis ℝ) (l : List ℝ), calculateSpectrumNd t (.vec l) f = calculateSpectrum t l f := by
    intro t l; unfold calculateSpectrumNd calculateSpectrum; rw [reorder_vec]; cases f <;> rfl
  unfold NRel.getSpectrum Rel.getSpectrum signal2spectrumNd signal2spectrum
  simp only [inColumn, hc, hv, Nd.size, Nd.flat, column_flat, List.length_map, mul_one]

/-- A signal with its samples in a row has the spectrum of the samples where the transform first adds zeros, that is for times that are all
positive or all negative, without `is_start_zero`. -/
theorem C150_signal_row (r : Rel ℝ ℝ) (f : SizeArg) (h : 0 < r.x.start ∨ r.x.stop < 0) :
    (inRow r).getSpectrum f false = r.getSpectrum f false := by
  have hv : ∀ (t : Axis ℝ) (l : List ℝ), calculateSpectrumNd t (.vec l) f = calculateSpectrum t l f := by
    intro t l; unfold calculateSpectrumNd calculateSpectrum; rw [reorder_vec]; cases f <;> rfl
  unfold NRel.getSpectrum Rel.getSpectrum signal2spectrumNd signal2spectrum
  simp only [inRow, hv, Nd.size, Nd.flat, Bool.false_eq_true, if_false, List.length_singleton, one_mul, List.flatten_cons,
    List.flatten_nil, List.append_nil]
  rcases h with h | h
  · simp only [h, if_true]
  · simp only [h, if_true]

/-- Everywhere else the transform of a row of two or more samples raises `IndexError`. -/
theorem C150_signal_row_fails (r : Rel ℝ ℝ) (f : SizeArg) (z : Bool) (size : Option ℤ) (l : List ℝ) (hf : f.size = .ok size)
    (hl : r.x.array = .ok l) (h1 : l.length ≠ 1) (h : z = true ∨ (r.x.start ≤ 0 ∧ 0 ≤ r.x.stop)) :
    (inRow r).getSpectrum f z = .error .index := by
  have hc : calculateSpectrumNd r.x (.mat r.y.length [r.y]) f = .error .index := by
    unfold calculateSpectrumNd reorderByTimeNd
    simp only [hf, hl, except_bind_ok, Nd.select]
    have : maskSelect (l.map fun v => decide (0 ≤ v)) [r.y] = .error .index := by
      unfold maskSelect
      rw [if_neg (by simpa using h1)]
    rw [this]
    rfl
  unfold NRel.getSpectrum signal2spectrumNd
  simp only [inRow]
  rcases h with rfl | ⟨ha, hb⟩
  · simp only [if_true, hc]; rfl
  · simp only [not_lt.2 ha, not_lt.2 hb, if_false, hc]
    split <;> rfl

end

/-! ### Concrete cases -/

section Examples

private abbrev four : Rel ℚ ℚ := ⟨⟨0, 3, 1⟩, [1, 5, 2, 8]⟩

private abbrev two : Rel ℚ ℚ := ⟨⟨0, 1, 1⟩, [1, 5]⟩

private abbrev square : NRel ℚ ℚ := ⟨⟨0, 3, 1⟩, .mat 2 [[1, 5], [2, 8]]⟩

-- two rows of two samples on an axis of four positions are a relation
example : NRel.make square.x square.y = .ok square := by decide +kernel
example : NRel.make (⟨0, 4, 1⟩ : Axis ℚ) square.y = .error (.notEqual 5 4) := by decide +kernel
example : IsTable square.y 2 2 := ⟨_, rfl, rfl, by decide⟩

-- ordinary samples
example : (plain two).convolveBy npConvolve (plain two) = .ok ⟨⟨-1, 1, 1⟩, .vec [1, 10, 25]⟩ ∧ (plain two).getNorm = .ok (.num 13) := by
  decide +kernel

-- a row keeps its calculus
example : (inRow four).integrate = .ok ⟨⟨1, 3, 1⟩, .mat 3 [[3, 13/2, 23/2]]⟩ := by decide +kernel
example : (inRow four).diff = .ok ⟨⟨1/2, 5/2, 1⟩, .mat 3 [[4, -3, 6]]⟩ := by decide +kernel
example : (inRow four).interpAxis ⟨0, 1, 1/2⟩ = .ok ⟨⟨0, 1, 1/2⟩, .mat 3 [[1, 3, 5]]⟩ := by decide +kernel
example : (inRow four).operation (.rel false (plain two)) .add = .ok ⟨⟨0, 3, 1⟩, .mat 4 [[2, 10, 2, 8]]⟩ := by decide +kernel
-- but loses selection, items beyond the first and convolution
example : (inRow four).selectData (some 0) (some 3) = .error .index := by decide +kernel
example : (inRow four).getItem 0 = .ok (0, .arr [1, 5, 2, 8]) ∧ (inRow four).getItem 2 = .error .index := by decide +kernel
example : (inRow four).convolveBy (fun a _ => a) (plain two) = .error .value := by decide +kernel

-- a column keeps selection and items
example : (inColumn four).selectData (some 1) (some 2) = .ok ⟨⟨1, 2, 1⟩, .mat 1 [[5], [2]]⟩ := by decide +kernel
example : (inColumn four).getItem 2 = .ok (2, .arr [2]) := by decide +kernel
example : (inColumn four).operation (.rel true (inColumn four)) .add = .ok ⟨⟨0, 3, 1⟩, .mat 1 [[2], [10], [4], [16]]⟩ := by decide +kernel
-- but loses calculus, interpolation and arithmetic with ordinary samples
example : (inColumn four).integrate = .error (.notEqual 3 0) ∧ (inColumn four).diff = .error (.notEqual 3 0) := by decide +kernel
example : (inColumn four).interpAxis ⟨0, 1, 1/2⟩ = .error .value := by decide +kernel
example : (inColumn four).operation (.rel false (plain two)) .add = .error .value ∧
    (plain two).operation (.rel false (inColumn four)) .add = .error .value := by decide +kernel
example : (inColumn four).convolveBy (fun a _ => a) (inColumn two) = .error .value := by decide +kernel
example : (inColumn four).operation (.rel true (plain four)) .add = .error (.notEqual 4 16) := by decide +kernel

-- the norm: a number, an array with this number, an error, and zeros for two samples
example : four.getNorm = .ok (123/2) ∧ (inRow four).getNorm = .ok (.arr [123/2]) ∧ (inColumn four).getNorm = .error .value ∧
    two.getNorm = .ok 13 ∧ (inColumn two).getNorm = .ok (.arr [0, 0]) := by decide +kernel

-- the table of two rows and two columns
example : square.integrate = .error (.notEqual 3 2) ∧ square.selectData none none = .error .index ∧
    square.interpAxis ⟨0, 1, 1/2⟩ = .error .value := by decide +kernel
example : square.getItem 1 = .ok (1, .arr [2, 8]) ∧ square.getItem 3 = .error .index := by decide +kernel
example : square.max = .ok 8 := by decide +kernel

-- a signal of three samples in a row: the spectrum exists at times 1, 2, 3 and not at times 0, 1, 2
example : (inRow (⟨⟨1, 3, 1⟩, [1, 5, 2]⟩ : Rel ℝ ℝ)).getSpectrum .none false = (⟨⟨1, 3, 1⟩, [1, 5, 2]⟩ : Rel ℝ ℝ).getSpectrum .none false :=
  C150_signal_row _ _ (.inl (by norm_num))
example : (inRow (⟨⟨0, 2, 1⟩, [1, 5, 2]⟩ : Rel ℝ ℝ)).getSpectrum .none false = .error .index :=
  C150_signal_row_fails _ _ _ none _ rfl (array_whole _ 2 (by norm_num) (by norm_num)) (by simp) (.inr ⟨by norm_num, by norm_num⟩)

end Examples

end SweepDesign
