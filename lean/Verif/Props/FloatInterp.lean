import Verif.Model.FloatValues
import Verif.Lemmas.Interp
import Verif.Props.FloatSelect

/-!
# C103: interpolation and arithmetic of samples in double precision
-/

set_option linter.unusedSectionVars false

namespace SweepDesign

open Spec

section
variable {K : Type} [Field K] [LinearOrder K] [IsStrictOrderedRing K] [FloorRing K]

/-! ## Machinery -/

theorem flInterpAt_count (x : List K) (t : K) (hx : x.Pairwise (· < ·)) (i : ℕ) (hi : i < x.length) (h1 : x[i] ≤ t)
    (h2 : ∀ h : i + 1 < x.length, t < x[i + 1]) : x.countP (fun s => decide (s ≤ t)) = i + 1 := by
  apply countP_split _ _ _ (by omega)
  · intro j hj hji
    exact decide_eq_true (le_trans (pairwise_lt_getElem_le hx hj (by omega) (by omega)) h1)
  · intro j hj hij
    exact decide_eq_false (not_le.2 (lt_of_lt_of_le (h2 (by omega)) (pairwise_lt_getElem_le hx (by omega) hj (by omega))))

theorem flInterpAt_sample (fl : K → K) (x y : List K) (hx : x.Pairwise (· < ·)) (hl : x.length = y.length) (i : ℕ)
    (hi : i < x.length) : flInterpAt fl x y x[i] = y[i] := by
  have hc := flInterpAt_count x x[i] hx i hi le_rfl fun h => pairwise_lt_getElem hx hi h (by omega)
  have hhead : x.head? = some x[0] := by rw [List.head?_eq_getElem?, List.getElem?_eq_getElem (by omega)]
  have hlast : x.getLast? = some x[x.length - 1] := by
    rw [List.getLast?_eq_getElem?, List.getElem?_eq_getElem (by omega)]
  unfold flInterpAt
  simp only [hhead, hlast, hc, Nat.add_sub_cancel]
  rw [if_neg (not_lt.2 (pairwise_lt_getElem_le hx (by omega) hi (by omega))),
    if_neg (not_lt.2 (pairwise_lt_getElem_le hx hi (by omega) (by omega))), at0_eq _ _ (by omega), at0_eq _ _ (by omega),
    if_pos rfl, ite_self]

theorem flInterpAt_outside (fl : K → K) (x y : List K) (t : K) (h : ¬ InRange x t) : flInterpAt fl x y t = 0 := by
  unfold flInterpAt
  split
  · rename_i x0 xl h0 hl
    by_cases a : t < x0
    · simp [a]
    · by_cases b : xl < t
      · simp [b]
      · exact absurd ⟨x0, List.mem_of_mem_head? h0, xl, List.mem_of_getLast? hl, not_lt.1 a, not_lt.1 b⟩ h
  · rfl

theorem flInterpAt_mid (fl : K → K) (x y : List K) (t : K) (hx : x.Pairwise (· < ·)) (hl : x.length = y.length)
    (i : ℕ) (hi : i + 1 < x.length) (h1 : x[i] < t) (h2 : t < x[i + 1]) :
    flInterpAt fl x y t = fl (fl (fl (fl (y[i + 1] - y[i]) / fl (x[i + 1] - x[i])) * fl (t - x[i])) + y[i]) := by
  have hc := flInterpAt_count x t hx i (by omega) h1.le fun h => h2
  have hhead : x.head? = some x[0] := by rw [List.head?_eq_getElem?, List.getElem?_eq_getElem (by omega)]
  have hlast : x.getLast? = some x[x.length - 1] := by
    rw [List.getLast?_eq_getElem?, List.getElem?_eq_getElem (by omega)]
  have hge : x[0] ≤ t := le_trans (pairwise_lt_getElem_le hx (by omega) (by omega) (by omega)) h1.le
  have hle : t ≤ x[x.length - 1] :=
    le_trans h2.le (pairwise_lt_getElem_le hx (by omega) (by omega) (by omega))
  unfold flInterpAt
  simp only [hhead, hlast, hc, Nat.add_sub_cancel]
  rw [if_neg (not_lt.2 hge), if_neg (not_lt.2 hle), if_neg (by omega), at0_eq _ _ (by omega), at0_eq _ _ (by omega),
    at0_eq _ _ (by omega), at0_eq _ _ (by omega), if_neg h1.ne]

theorem flInterp1d_inc (fl : K → K) (x y xs : List K) (hx : x.Pairwise (· < ·)) (hl : x.length = y.length) (h0 : x.length ≠ 0) :
    flInterp1d fl x y xs = .ok (xs.map (flInterpAt fl x y)) := by
  unfold flInterp1d
  rw [if_neg (by simp [hl]), if_neg h0]
  have hs : ((x.zip y).insertionSort fun p q => p.1 ≤ q.1) = x.zip y := by
    apply List.Pairwise.insertionSort_eq
    exact (zip_fst_pairwise hx).imp (fun h => h.le)
  simp only [hs]
  rw [List.map_fst_zip (by omega), List.map_snd_zip (by omega)]

/-- five roundings of a product with one divisor -/
theorem five_factors {u a b c d e : K} (hu : u ≤ 1 / 100) (ha : |a| ≤ u) (hb : |b| ≤ u) (hc : |c| ≤ u) (hd : |d| ≤ u)
    (he : |e| ≤ u) : 0 < 1 + e ∧ |(1 + a) * (1 + b) * (1 + c) * (1 + d) / (1 + e) - 1| ≤ 6 * u := by
  have hu0 : 0 ≤ u := (abs_nonneg _).trans ha
  have he' := abs_le.1 he
  have hpos : 0 < 1 + e := by linarith
  refine ⟨hpos, ?_⟩
  have t1 := two_factors ha hb
  have t2 := two_factors hc hd
  have hsq : u ^ 2 ≤ 1 / 100 * u := by rw [pow_two]; exact mul_le_mul_of_nonneg_right hu hu0
  set p := (1 + a) * (1 + b) - 1 with hp
  set q := (1 + c) * (1 + d) - 1 with hq
  have e1 : (1 + a) * (1 + b) * (1 + c) * (1 + d) / (1 + e) - 1 = (p + q + p * q - e) / (1 + e) := by
    rw [hp, hq]; field_simp; ring
  rw [e1, abs_div, abs_of_pos hpos, div_le_iff₀ hpos]
  have hp1 : |p| ≤ 201 / 100 * u := by linarith
  have hq1 : |q| ≤ 201 / 100 * u := by linarith
  have hpq : |p * q| ≤ 201 / 100 * u * (201 / 100 * u) := by
    rw [abs_mul]; exact mul_le_mul hp1 hq1 (abs_nonneg _) (by positivity)
  have hpq' : 201 / 100 * u * (201 / 100 * u) ≤ 5 / 100 * u := by nlinarith
  have hsum : |p + q + p * q - e| ≤ |p| + |q| + |p * q| + |e| := by
    have := abs_sub (p + q + p * q) e
    have := abs_add_le (p + q) (p * q)
    have := abs_add_le p q
    linarith
  have : 6 * u * (99 / 100) ≤ 6 * u * (1 + e) := mul_le_mul_of_nonneg_left (by linarith) (by positivity)
  linarith

/-- the error of one interpolated value -/
theorem flInterp_error {fl : K → K} {u : K} (hfl : RelErr fl u) (hu : u ≤ 1 / 100) (x0 x1 y0 y1 t : K) (h0 : x0 < t) (h1 : t < x1) :
    |fl (fl (fl (fl (y1 - y0) / fl (x1 - x0)) * fl (t - x0)) + y0) - (y0 + (t - x0) / (x1 - x0) * (y1 - y0))| ≤
      14 * u * max |y0| |y1| := by
  have hu0 := relErr_nonneg hfl
  obtain ⟨d1, b1, e1⟩ := hfl.factor (y1 - y0)
  obtain ⟨d2, b2, e2⟩ := hfl.factor (x1 - x0)
  obtain ⟨d3, b3, e3⟩ := hfl.factor (fl (y1 - y0) / fl (x1 - x0))
  obtain ⟨d4, b4, e4⟩ := hfl.factor (t - x0)
  obtain ⟨d5, b5, e5⟩ := hfl.factor (fl (fl (y1 - y0) / fl (x1 - x0)) * fl (t - x0))
  obtain ⟨d6, b6, e6⟩ := hfl.factor (fl (fl (fl (y1 - y0) / fl (x1 - x0)) * fl (t - x0)) + y0)
  obtain ⟨hpos, hf⟩ := five_factors hu b1 b3 b4 b5 b2
  have hd : 0 < x1 - x0 := by linarith
  set lam := (t - x0) / (x1 - x0) with hlam
  have l0 : 0 ≤ lam := by rw [hlam]; exact div_nonneg (by linarith) hd.le
  have l1 : lam ≤ 1 := by rw [hlam, div_le_one hd]; linarith
  set g := (1 + d1) * (1 + d3) * (1 + d4) * (1 + d5) / (1 + d2) - 1 with hg
  have hw : fl (fl (fl (y1 - y0) / fl (x1 - x0)) * fl (t - x0)) = lam * (y1 - y0) * (1 + g) := by
    rw [e5, e3, e1, e2, e4, hlam, hg]
    field_simp
    ring
  rw [e6, hw]
  set Y := max |y0| |y1| with hY
  have hY0 : |y0| ≤ Y := le_max_left _ _
  have hY1 : |y1| ≤ Y := le_max_right _ _
  have hYn : 0 ≤ Y := (abs_nonneg _).trans hY0
  have hz : |lam * (y1 - y0)| ≤ 2 * Y := by
    rw [abs_mul, abs_of_nonneg l0]
    have := abs_sub y1 y0
    calc lam * |y1 - y0| ≤ 1 * |y1 - y0| := mul_le_mul_of_nonneg_right l1 (abs_nonneg _)
      _ ≤ 2 * Y := by linarith
  have hv : |y0 + lam * (y1 - y0)| ≤ Y := by
    have e : y0 + lam * (y1 - y0) = (1 - lam) * y0 + lam * y1 := by ring
    rw [e]
    calc |(1 - lam) * y0 + lam * y1| ≤ |(1 - lam) * y0| + |lam * y1| := abs_add_le _ _
      _ = (1 - lam) * |y0| + lam * |y1| := by
          rw [abs_mul, abs_mul, abs_of_nonneg l0, abs_of_nonneg (by linarith : 0 ≤ 1 - lam)]
      _ ≤ (1 - lam) * Y + lam * Y := by
          have := mul_le_mul_of_nonneg_left hY0 (by linarith : 0 ≤ 1 - lam)
          have := mul_le_mul_of_nonneg_left hY1 l0
          linarith
      _ = Y := by ring
  set z := lam * (y1 - y0) with hzdef
  have e : (z * (1 + g) + y0) * (1 + d6) - (y0 + z) = z * g * (1 + d6) + (y0 + z) * d6 := by ring
  rw [e]
  have h6 : |1 + d6| ≤ 101 / 100 := by
    have := abs_le.1 b6
    rw [abs_le]; constructor <;> linarith
  have hA : |z * g * (1 + d6)| ≤ 2 * Y * (6 * u) * (101 / 100) := by
    rw [abs_mul, abs_mul]
    exact mul_le_mul (mul_le_mul hz hf (abs_nonneg _) (by positivity)) h6 (abs_nonneg _) (by positivity)
  have hB : |(y0 + z) * d6| ≤ Y * u := by
    rw [abs_mul]; exact mul_le_mul hv b6 (abs_nonneg _) hYn
  have := abs_add_le (z * g * (1 + d6)) ((y0 + z) * d6)
  have : 0 ≤ u * Y := mul_nonneg hu0 hYn
  linarith

theorem flRel_ok {fl : K → K} {x : Axis K} {l : List K} (hx : x.flArray fl = .ok l) {y : List K} (hl : l.length = y.length) :
    flRel fl x y = .ok ⟨x, y⟩ := by
  unfold flRel flMake
  rw [hx, except_bind_ok, if_neg (by simp [hl])]
  rfl

theorem finite_some (l : List K) : finite (l.map some) = .ok l := by
  unfold finite
  have : (l.map some).mapM id = some l := by
    induction l with
    | nil => rfl
    | cons a l ih => simp [ih]
  rw [this]

/-! ## C103 -/

/-- Interpolating on the own axis changes nothing, whatever the rounding, as long as the points of the axis are distinct. -/
theorem C103_own_axis (fl : K → K) (r : Rel K K) (l : List K) (h : r.x.flArray fl = .ok l) (hi : l.Pairwise (· < ·))
    (hl : l.length = r.y.length) (h0 : r.y ≠ []) : r.flInterpAxis fl r.x = .ok r := by
  have hne : l.length ≠ 0 := by rw [hl]; simpa using h0
  have e : l.map (flInterpAt fl l r.y) = r.y := by
    apply List.ext_getElem (by simp [hl])
    intro i h1 h2
    rw [List.getElem_map]
    exact flInterpAt_sample fl l r.y hi hl i (by omega)
  unfold Rel.flInterpAxis
  simp only [h, except_bind_ok, flInterp1d_inc fl l r.y l hi hl hne, e]
  exact flRel_ok h hl

/-- the exact result of one of the four operations -/
def _root_.SweepDesign.Spec.exactly : FlOp → K → K → K
  | .add, a, b => a + b
  | .sub, a, b => a - b
  | .mul, a, b => a * b
  | .truediv, a, b => a / b

/-- Relations whose axes have equal fields: each value of the result is the exact result for the two samples, rounded once. It
does not matter whether the axes are one object. -/
theorem C103_equal_axes (fl : K → K) (same : Bool) (r1 r2 : Rel K K) (l : List K) (hx : r1.x = r2.x) (h : r1.x.flArray fl = .ok l)
    (hi : l.Pairwise (· < ·)) (h1 : l.length = r1.y.length) (h2 : l.length = r2.y.length) (h0 : r1.y ≠ []) (op : FlOp)
    (hz : op = .truediv → ∀ b ∈ r2.y, b ≠ 0) :
    ∃ q, Rel.flOperation fl same r1 r2 op = .ok q ∧ q.x = r1.x ∧ q.y.length = r1.y.length ∧
      ∀ i (a : i < r1.y.length) (b : i < r2.y.length) (c : i < q.y.length), q.y[i] = fl (exactly op r1.y[i] r2.y[i]) := by
  have hc : commonX r1.x r2.x = r1.x := by rw [← hx]; unfold commonX; simp
  have h0' : r2.y ≠ [] := by
    intro e
    rw [e] at h2
    exact h0 (List.length_eq_zero_iff.1 (by rw [← h1, h2]; rfl))
  have he : Rel.flEqualize fl same r1 r2 = .ok (r1, r2) := by
    unfold Rel.flEqualize
    cases same with
    | true => rfl
    | false =>
      simp only [Bool.false_eq_true, if_false, hc]
      rw [C103_own_axis fl r1 l h hi h1 h0, except_bind_ok, hx, C103_own_axis fl r2 l (hx ▸ h) hi h2 h0', except_bind_ok]
      rfl
  have hy : List.zipWith (op.fn fl) r1.y r2.y = (List.zipWith (fun a b => fl (exactly op a b)) r1.y r2.y).map some := by
    apply List.ext_getElem (by simp)
    intro i g1 g2
    simp only [List.getElem_zipWith, List.getElem_map]
    cases op with
    | add => rfl
    | sub => rfl
    | mul => rfl
    | truediv =>
      have := hz rfl (r2.y[i]'(by simp at g1; omega)) (List.getElem_mem _)
      simp [FlOp.fn, exactly, this]
  refine ⟨⟨r1.x, List.zipWith (fun a b => fl (exactly op a b)) r1.y r2.y⟩, ?_, rfl, ?_, ?_⟩
  · unfold Rel.flOperation
    rw [he, except_bind_ok]
    simp only [hy, finite_some, except_bind_ok]
    exact flRel_ok h (by simp; omega)
  · simp; omega
  · intro i a b c
    simp

/-- Sums and products on any axes do not depend on the order of the operands. -/
theorem C103_commutative (fl : K → K) (r1 r2 q1 q2 : Rel K K) (h : Rel.flEqualize fl false r1 r2 = .ok (q1, q2)) :
    Rel.flOperation fl false r1 r2 .add = Rel.flOperation fl false r2 r1 .add ∧
    Rel.flOperation fl false r1 r2 .mul = Rel.flOperation fl false r2 r1 .mul := by
  have hx : ∀ {r : Rel K K} {a : Axis K} {q : Rel K K}, r.flInterpAxis fl a = .ok q → q.x = a := by
    intro r a q hq
    unfold Rel.flInterpAxis at hq
    simp only [except_bind_eq_ok] at hq
    obtain ⟨_, -, _, -, y, -, hq⟩ := hq
    unfold flRel flMake at hq
    cases hl : a.flArray fl with
    | error e => rw [hl] at hq; exact absurd hq (by simp [Except.map, Bind.bind, Except.bind])
    | ok l =>
      rw [hl, except_bind_ok] at hq
      split at hq
      · exact absurd hq (by simp [Except.map])
      · simp only [except_pure, Except.map, Except.ok.injEq] at hq
        rw [← hq]
  have h' : Rel.flEqualize fl false r2 r1 = .ok (q2, q1) ∧ q1.x = q2.x := by
    unfold Rel.flEqualize at h ⊢
    simp only [Bool.false_eq_true, if_false, except_bind_eq_ok] at h ⊢
    obtain ⟨a, ha, b, hb, e⟩ := h
    simp only [except_pure, Except.ok.injEq, Prod.mk.injEq] at e
    obtain ⟨rfl, rfl⟩ := e
    rw [commonX_comm r2.x r1.x]
    exact ⟨⟨_, hb, _, ha, rfl⟩, (hx ha).trans (hx hb).symm⟩
  obtain ⟨e, ex⟩ := h'
  unfold Rel.flOperation
  simp only [h, e, except_bind_ok, ex]
  rw [List.zipWith_comm_of_comm (f := FlOp.fn fl .add) (fun a b => by simp [FlOp.fn, add_comm]),
    List.zipWith_comm_of_comm (f := FlOp.fn fl .mul) (fun a b => by simp [FlOp.fn, mul_comm])]
  exact ⟨rfl, rfl⟩

/-- The values on another axis: at a sample the sample, outside zero, and between two samples the value on the line through them up to
`14 u` times the larger of the two. -/
theorem C103_values (fl : K → K) (u : K) (hfl : RelErr fl u) (hu : u ≤ 1 / 100) (r q : Rel K K) (a : Axis K) (l xs : List K)
    (hl : r.x.flArray fl = .ok l) (hi : l.Pairwise (· < ·)) (hxs : a.flArray fl = .ok xs) (hq : r.flInterpAxis fl a = .ok q) :
    q.x = a ∧ q.y.length = xs.length ∧ ∀ k (hk : k < xs.length) (hk' : k < q.y.length),
      (∀ i (h : i < l.length) (h' : i < r.y.length), l[i] = xs[k] → q.y[k] = r.y[i]) ∧
      (¬ InRange l xs[k] → q.y[k] = 0) ∧
      (∀ i (h : i + 1 < l.length) (h' : i + 1 < r.y.length), l[i] < xs[k] → xs[k] < l[i + 1] →
        |q.y[k] - (r.y[i] + (xs[k] - l[i]) / (l[i + 1] - l[i]) * (r.y[i + 1] - r.y[i]))| ≤
          14 * u * max |r.y[i]| |r.y[i + 1]|) := by
  unfold Rel.flInterpAxis at hq
  simp only [hl, hxs, except_bind_ok] at hq
  by_cases hlen : l.length = r.y.length
  swap
  · rw [flInterp1d, if_pos hlen] at hq
    exact absurd hq (by simp [Bind.bind, Except.bind])
  by_cases h0 : l.length = 0
  · rw [flInterp1d, if_neg (by simp [hlen]), if_pos h0] at hq
    exact absurd hq (by simp [Bind.bind, Except.bind])
  rw [flInterp1d_inc fl l r.y xs hi hlen h0, except_bind_ok, flRel_ok hxs (by simp)] at hq
  simp only [Except.ok.injEq] at hq
  subst hq
  refine ⟨rfl, by simp, fun k hk hk' => ⟨?_, ?_, ?_⟩⟩
  · intro i h h' e
    rw [List.getElem_map, ← e]
    exact flInterpAt_sample fl l r.y hi hlen i h
  · intro h
    rw [List.getElem_map]
    exact flInterpAt_outside fl l r.y _ h
  · intro i h h' h1 h2
    rw [List.getElem_map, flInterpAt_mid fl l r.y _ hi hlen i h h1 h2]
    exact flInterp_error hfl hu _ _ _ _ _ h1 h2

end

/-- The associative law fails for sums of doubles: `0.1 + 0.2 + 0.3`. -/
theorem C103_witness : ∃ r1 r2 r3 p q s t : Rel ℚ ℚ, (r1.x = ⟨0, 1, 1⟩ ∧ r2.x = r1.x ∧ r3.x = r1.x) ∧
    Rel.flOperation fl64 false r1 r2 .add = .ok p ∧ Rel.flOperation fl64 false p r3 .add = .ok q ∧
    Rel.flOperation fl64 false r2 r3 .add = .ok s ∧ Rel.flOperation fl64 false r1 s .add = .ok t ∧ q ≠ t := by
  refine ⟨⟨⟨0, 1, 1⟩, [fl64 (1/10), 1]⟩, ⟨⟨0, 1, 1⟩, [fl64 (2/10), 1]⟩, ⟨⟨0, 1, 1⟩, [fl64 (3/10), 1]⟩,
    ⟨⟨0, 1, 1⟩, [fl64 (fl64 (1/10) + fl64 (2/10)), 2]⟩, ⟨⟨0, 1, 1⟩, [fl64 (fl64 (fl64 (1/10) + fl64 (2/10)) + fl64 (3/10)), 3]⟩,
    ⟨⟨0, 1, 1⟩, [fl64 (fl64 (2/10) + fl64 (3/10)), 2]⟩, ⟨⟨0, 1, 1⟩, [fl64 (fl64 (1/10) + fl64 (fl64 (2/10) + fl64 (3/10))), 3]⟩,
    ⟨rfl, rfl, rfl⟩, ?_, ?_, ?_, ?_, ?_⟩ <;> decide +kernel

/-! Concrete cases -/

example : (⟨0, 1, 1/4⟩ : Axis ℚ).flArray fl64 = .ok [0, 1/4, 1/2, 3/4, 1] ∧
    Rel.flInterpAxis fl64 ⟨⟨0, 1, 1/2⟩, [1, 2, 4]⟩ ⟨0, 1, 1/4⟩ = .ok ⟨⟨0, 1, 1/4⟩, [1, 3/2, 2, 3, 4]⟩ ∧
    ([0, 1/2, 1] : List ℚ).Pairwise (· < ·) := by
  refine ⟨?_, ?_, ?_⟩ <;> decide +kernel

end SweepDesign
