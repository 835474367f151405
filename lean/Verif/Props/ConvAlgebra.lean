import Verif.Props.ConvSpectrum
import Verif.Props.Relation
import Mathlib.Algebra.Polynomial.Eval.Defs
import Mathlib.Algebra.Polynomial.Coeff
import Mathlib.Algebra.Polynomial.BigOperators

/-!
# C120: chains of convolutions; C121: correlation finds a delay
-/

set_option linter.unusedSectionVars false

namespace SweepDesign

/-- `r` fits its axis, which is `k` samples of length `s` long -/
def Spec.Whole {K V : Type} [Field K] [LinearOrder K] [IsStrictOrderedRing K] [FloorRing K] (r : Rel K V) (k : ℕ) (s : K) : Prop :=
  Spec.Balanced r ∧ r.x.sample = s ∧ r.x.stop - r.x.start = k * s

open Spec Polynomial

variable {K : Type} [Field K] [LinearOrder K] [IsStrictOrderedRing K] [FloorRing K]
variable {V : Type} [Field V] [Algebra K V]

/-- a list as the coefficients of a polynomial -/
noncomputable def coeffs (l : List V) : V[X] := ∑ i ∈ Finset.range l.length, C (l.getD i 0) * X ^ i

theorem coeff_coeffs (l : List V) (k : ℕ) : (coeffs l).coeff k = l.getD k 0 := by
  unfold coeffs
  simp only [finsetSum_coeff, coeff_C_mul, coeff_X_pow, mul_ite, mul_one, mul_zero]
  rw [Finset.sum_ite_eq]
  split_ifs with h
  · rfl
  · rw [getD_ge _ _ _ (by simpa using h)]

theorem coeffs_eval (l : List V) (z : V) : (coeffs l).eval z = ∑ i ∈ Finset.range l.length, l.getD i 0 * z ^ i := by
  unfold coeffs
  simp [eval_finsetSum]

theorem whole_length {r : Rel K V} {k : ℕ} {s : K} (hs : 0 < s) (h : Whole r k s) : r.y.length = k + 1 := by
  obtain ⟨hb, e1, e2⟩ := h
  rw [((balanced_iff r).1 hb).2]
  have : |(r.x.stop - r.x.start) / r.x.sample| = (k : K) := by
    rw [e1, e2, mul_div_assoc, div_self hs.ne', mul_one, Nat.abs_cast]
  simp only [Axis.steps, this, pyRound_natCast, Int.toNat_natCast]

theorem coeffs_convolve {r1 r2 : Rel K V} {k1 k2 : ℕ} {s : K} (hs : 0 < s) (h1 : Whole r1 k1 s) (h2 : Whole r2 k2 s) :
    ∃ c, r1.convolve r2 = .ok c ∧ c.x = ⟨-((max k1 k2 : ℕ) * s), (max k1 k2 : ℕ) * s, s⟩ ∧ Whole c (2 * max k1 k2) s ∧
      coeffs c.y = coeffs r1.y * coeffs r2.y := by
  obtain ⟨c, hc, e1, e2, e3, e4, e5⟩ := C28_values r1 r2 h1.1 h2.1 k1 k2 s hs h1.2.1 h2.2.1 h1.2.2 h2.2.2
  have hx : c.x = ⟨-((max k1 k2 : ℕ) * s), (max k1 k2 : ℕ) * s, s⟩ := by
    rcases hcx : c.x with ⟨a, b, d⟩
    rw [hcx] at e1 e2 e3
    simp only at e1 e2 e3
    rw [e1, e2, e3]
  refine ⟨c, hc, hx, ⟨?_, e3, ?_⟩, ?_⟩
  · unfold Rel.convolve at hc
    obtain ⟨p, -, hp⟩ := except_bind_eq_ok.1 hc
    obtain ⟨hsz, rfl⟩ := (make_ok_iff _ _ _).1 hp
    exact hsz
  · rw [hx]; push_cast; ring
  · ext k
    rw [coeff_mul, coeff_coeffs]
    simp only [coeff_coeffs]
    rcases Nat.lt_or_ge k c.y.length with h | h
    · rw [getD_lt _ _ _ h, e5 k h]
    · rw [getD_ge _ _ _ h]
      symm
      apply Finset.sum_eq_zero
      rintro ⟨i, j⟩ hij
      rw [Finset.mem_antidiagonal] at hij
      simp only at hij ⊢
      have l1 := whole_length hs h1
      have l2 := whole_length hs h2
      rcases Nat.lt_or_ge k1 i with hi | hi
      · rw [getD_ge r1.y i 0 (by omega), zero_mul]
      · rw [getD_ge r2.y j 0 (by omega), mul_zero]

theorem ext_coeffs {l m : List V} (hl : l.length = m.length) (h : coeffs l = coeffs m) : l = m := by
  apply List.ext_getElem hl
  intro i a b
  have := congrArg (fun p => p.coeff i) h
  simp only [coeff_coeffs] at this
  rwa [getD_lt _ _ _ a, getD_lt _ _ _ b] at this

/-- **C120** Three relations that last equally long: the order of the two convolutions does not matter. -/
theorem C120_associative (r1 r2 r3 : Rel K V) (k : ℕ) (s : K) (hs : 0 < s) (h1 : Whole r1 k s) (h2 : Whole r2 k s)
    (h3 : Whole r3 k s) :
    ∃ c12 c23 c, r1.convolve r2 = .ok c12 ∧ r2.convolve r3 = .ok c23 ∧ c12.convolve r3 = .ok c ∧ r1.convolve c23 = .ok c := by
  obtain ⟨c12, e1, -, w1, p1⟩ := coeffs_convolve hs h1 h2
  obtain ⟨c23, e2, -, w2, p2⟩ := coeffs_convolve hs h2 h3
  obtain ⟨c, e3, x3, w3, p3⟩ := coeffs_convolve hs w1 h3
  obtain ⟨d, e4, x4, w4, p4⟩ := coeffs_convolve hs h1 w2
  have hx : c.x = d.x := by
    rw [x3, x4, max_comm]
  have hy : c.y = d.y := by
    refine ext_coeffs ?_ (by rw [p3, p4, p1, p2, mul_assoc])
    rw [whole_length hs w3, whole_length hs w4, max_comm]
  have hcd : c = d := by
    cases c; cases d
    simp only at hx hy
    subst hx hy
    rfl
  exact ⟨c12, c23, c, e1, e2, e3, hcd ▸ e4⟩

example : ((⟨⟨0, 1, 1⟩, [1, 2]⟩ : Rel ℚ ℚ).convolve ⟨⟨5, 6, 1⟩, [3, 4]⟩ >>= fun c => c.convolve ⟨⟨-1, 0, 1⟩, [1, -1]⟩) =
      .ok ⟨⟨-2, 2, 1⟩, [3, 7, -2, -8, 0]⟩ ∧
    ((⟨⟨5, 6, 1⟩, [3, 4]⟩ : Rel ℚ ℚ).convolve ⟨⟨-1, 0, 1⟩, [1, -1]⟩ >>= fun c => (⟨⟨0, 1, 1⟩, [1, 2]⟩ : Rel ℚ ℚ).convolve c) =
      .ok ⟨⟨-2, 2, 1⟩, [3, 7, -2, -8, 0]⟩ := by
  refine ⟨?_, ?_⟩ <;> decide +kernel

/-- **C120** Any durations: the samples of both are, counted from the beginning, the sums of `y1[i] * y2[j] * y3[l]` over `i + j + l = n`
(hence the same, up to zeros at the end), but the axes begin at different places. -/
theorem C120_chain (r1 r2 r3 : Rel K V) (k1 k2 k3 : ℕ) (s : K) (hs : 0 < s) (h1 : Whole r1 k1 s) (h2 : Whole r2 k2 s)
    (h3 : Whole r3 k3 s) :
    ∃ c12 c23 c d, r1.convolve r2 = .ok c12 ∧ r2.convolve r3 = .ok c23 ∧ c12.convolve r3 = .ok c ∧ r1.convolve c23 = .ok d ∧
      c.x.start = -(max (2 * max k1 k2) k3 * s) ∧ d.x.start = -(max k1 (2 * max k2 k3) * s) ∧ c.x.sample = s ∧ d.x.sample = s ∧
      c.y.length = 2 * max (2 * max k1 k2) k3 + 1 ∧ d.y.length = 2 * max k1 (2 * max k2 k3) + 1 ∧
      ∀ n, (c.y.getD n 0 = ∑ p ∈ Finset.antidiagonal n, ∑ q ∈ Finset.antidiagonal p.1,
          r1.y.getD q.1 0 * r2.y.getD q.2 0 * r3.y.getD p.2 0) ∧ d.y.getD n 0 = c.y.getD n 0 := by
  obtain ⟨c12, e1, -, w1, p1⟩ := coeffs_convolve hs h1 h2
  obtain ⟨c23, e2, -, w2, p2⟩ := coeffs_convolve hs h2 h3
  obtain ⟨c, e3, x3, w3, p3⟩ := coeffs_convolve hs w1 h3
  obtain ⟨d, e4, x4, w4, p4⟩ := coeffs_convolve hs h1 w2
  refine ⟨c12, c23, c, d, e1, e2, e3, e4, by rw [x3], by rw [x4], w3.2.1, w4.2.1, whole_length hs w3,
    whole_length hs w4, fun n => ⟨?_, ?_⟩⟩
  · rw [← coeff_coeffs, p3, p1, coeff_mul]
    apply Finset.sum_congr rfl
    intro p _
    rw [coeff_mul, Finset.sum_mul]
    simp only [coeff_coeffs]
  · rw [← coeff_coeffs, ← coeff_coeffs, p3, p4, p1, p2, mul_assoc]

/-- **C120** With different durations the two axes differ: convolving the long relation last gives `[-4, 4]`, convolving it first gives
`[-8, 8]`. -/
theorem C120_axes_witness :
    ((⟨⟨0, 1, 1⟩, [1, 2]⟩ : Rel ℚ ℚ).convolve ⟨⟨0, 1, 1⟩, [3, 4]⟩ >>= fun c => c.convolve ⟨⟨0, 4, 1⟩, [1, 0, 0, 0, 1]⟩) =
      .ok ⟨⟨-4, 4, 1⟩, [3, 10, 8, 0, 3, 10, 8, 0, 0]⟩ ∧
    ((⟨⟨0, 1, 1⟩, [3, 4]⟩ : Rel ℚ ℚ).convolve ⟨⟨0, 4, 1⟩, [1, 0, 0, 0, 1]⟩ >>= fun c =>
        (⟨⟨0, 1, 1⟩, [1, 2]⟩ : Rel ℚ ℚ).convolve c) =
      .ok ⟨⟨-8, 8, 1⟩, [3, 10, 8, 0, 3, 10, 8, 0, 0, 0, 0, 0, 0, 0, 0, 0, 0]⟩ := by
  refine ⟨?_, ?_⟩ <;> decide +kernel

/-- **C120** The power sum of a convolution is the product of the power sums of the operands, for any number `z`; with `z = 1`, the sum of
its samples is the product of the sums. -/
theorem C120_power_sums (r1 r2 : Rel K V) (k1 k2 : ℕ) (s : K) (hs : 0 < s) (h1 : Whole r1 k1 s) (h2 : Whole r2 k2 s) :
    ∃ c, r1.convolve r2 = .ok c ∧
      (∀ z : V, ∑ i ∈ Finset.range c.y.length, c.y.getD i 0 * z ^ i =
        (∑ i ∈ Finset.range r1.y.length, r1.y.getD i 0 * z ^ i) * ∑ i ∈ Finset.range r2.y.length, r2.y.getD i 0 * z ^ i) ∧
      c.y.sum = r1.y.sum * r2.y.sum := by
  obtain ⟨c, e, -, -, p⟩ := coeffs_convolve hs h1 h2
  have key : ∀ z : V, ∑ i ∈ Finset.range c.y.length, c.y.getD i 0 * z ^ i =
      (∑ i ∈ Finset.range r1.y.length, r1.y.getD i 0 * z ^ i) * ∑ i ∈ Finset.range r2.y.length, r2.y.getD i 0 * z ^ i := by
    intro z
    rw [← coeffs_eval, p, eval_mul, coeffs_eval, coeffs_eval]
  have hsum : ∀ l : List V, l.sum = ∑ i ∈ Finset.range l.length, l.getD i 0 * (1 : V) ^ i := by
    intro l
    simp only [one_pow, mul_one]
    rw [← sum_map_range]
    have : (List.range l.length).map (fun i => l.getD i 0) = l := by
      apply List.ext_getElem (by simp)
      intro i a b
      rw [List.getElem_map, List.getElem_range, getD_lt _ _ _ b]
    rw [this]
  exact ⟨c, e, key, by rw [hsum, hsum, hsum, key]⟩

/-- the differences as a polynomial -/
theorem coeffs_diff {r q : Rel K V} {k : ℕ} {s : K} (hs : 0 < s) (h : Whole r k s) (hq : r.diff = .ok q) (h0 : r.y.getD 0 0 = 0)
    (hk : r.y.getD k 0 = 0) : X * coeffs q.y = (1 - X) * coeffs r.y * C (algebraMap K V s⁻¹) := by
  obtain ⟨-, -, -, e1, -, -, e2⟩ := C14_diff_values r q hq
  have l := whole_length hs h
  ext n
  rcases n with _ | n
  · simp only [coeff_X_mul_zero, coeff_mul_C, sub_mul, one_mul, coeff_sub, sub_zero, coeff_coeffs, h0, zero_mul]
  · rw [coeff_X_mul, coeff_mul_C, sub_mul, one_mul, coeff_sub, coeff_X_mul]
    simp only [coeff_coeffs]
    rcases Nat.lt_or_ge n q.y.length with hn | hn
    · rw [getD_lt _ _ _ hn, e2 n hn, h.2.1, Algebra.smul_def, mul_comm]
    · rw [getD_ge q.y n 0 hn, getD_ge r.y (n + 1) 0 (by omega)]
      rcases Nat.eq_or_lt_of_le (show k ≤ n by omega) with rfl | hn'
      · rw [hk]; simp
      · rw [getD_ge r.y n 0 (by omega)]; simp

/-- **C120** Differences and convolution: if the first operand is zero at both ends, the difference of the convolution has the samples of the
convolution of the difference, counted from the beginning (up to zeros at the end). -/
theorem C120_diff (r1 r2 : Rel K V) (k1 k2 : ℕ) (s : K) (hs : 0 < s) (h1 : Whole r1 k1 s) (h2 : Whole r2 k2 s) (hk : 1 ≤ k1)
    (h0 : r1.y.getD 0 0 = 0) (hl : r1.y.getD k1 0 = 0) :
    ∃ c q d p, r1.convolve r2 = .ok c ∧ c.diff = .ok q ∧ r1.diff = .ok d ∧ d.convolve r2 = .ok p ∧
      ∀ n, q.y.getD n 0 = p.y.getD n 0 := by
  have hdiff : ∀ (r : Rel K V) (k : ℕ), Whole r k s → 1 ≤ k → ∃ q, r.diff = .ok q ∧ Whole q (k - 1) s := by
    intro r k h hk
    have hst : (r.x.stop - s / 2) - (r.x.start + s / 2) = ((k - 1 : ℕ) : K) * s := by
      rw [Nat.cast_sub hk, sub_mul, ← h.2.2]; push_cast; ring
    have hl := whole_length hs h
    have hsz : Axis.size (⟨r.x.start + r.x.sample / 2, r.x.stop - r.x.sample / 2, r.x.sample⟩ : Axis K) =
        .ok ((npDiff r.y).map fun v => r.x.sample⁻¹ • v).length := by
      rw [Axis.size_eq _ (by rw [h.2.1]; exact hs.ne')]
      congr 1
      simp only [Axis.steps, h.2.1, hst, mul_div_assoc, div_self hs.ne', mul_one, Nat.abs_cast, pyRound_natCast, Int.toNat_natCast,
        List.length_map, npDiff_length]
      omega
    exact ⟨_, make_ok hsz, hsz, h.2.1, by simp only [h.2.1]; exact hst⟩
  obtain ⟨c, e1, x1, w1, p1⟩ := coeffs_convolve hs h1 h2
  obtain ⟨q, e2, w2⟩ := hdiff c _ w1 (by omega)
  obtain ⟨d, e3, w3⟩ := hdiff r1 k1 h1 hk
  obtain ⟨p, e4, x4, w4, p4⟩ := coeffs_convolve hs w3 h2
  refine ⟨c, q, d, p, e1, e2, e3, e4, ?_⟩
  have l1 := whole_length hs h1
  have l2 := whole_length hs h2
  have c0 : c.y.getD 0 0 = 0 := by
    rw [← coeff_coeffs, p1, mul_coeff_zero, coeff_coeffs, h0, zero_mul]
  have ck : c.y.getD (2 * max k1 k2) 0 = 0 := by
    rw [← coeff_coeffs, p1, coeff_mul]
    apply Finset.sum_eq_zero
    rintro ⟨i, j⟩ hij
    rw [Finset.mem_antidiagonal] at hij
    simp only [coeff_coeffs] at hij ⊢
    rcases Nat.lt_trichotomy i k1 with hi | rfl | hi
    · rw [getD_ge r2.y j 0 (by omega), mul_zero]
    · rw [hl, zero_mul]
    · rw [getD_ge r1.y i 0 (by omega), zero_mul]
  have f1 := coeffs_diff hs w1 e2 c0 ck
  have f2 := coeffs_diff hs h1 e3 h0 hl
  have f3 : X * coeffs q.y = X * coeffs p.y := by
    rw [f1, p1, p4, ← mul_assoc X, f2]; ring
  intro n
  have := congrArg (fun p => p.coeff (n + 1)) f3
  simpa only [coeff_X_mul, coeff_coeffs] using this

example : ((⟨⟨0, 2, 1⟩, [0, 3, 0]⟩ : Rel ℚ ℚ).convolve ⟨⟨0, 2, 1⟩, [1, 2, 5]⟩ >>= Rel.diff) =
      .ok ⟨⟨-3/2, 3/2, 1⟩, [3, 3, 9, -15]⟩ ∧
    ((⟨⟨0, 2, 1⟩, [0, 3, 0]⟩ : Rel ℚ ℚ).diff >>= fun d => d.convolve ⟨⟨0, 2, 1⟩, [1, 2, 5]⟩) =
      .ok ⟨⟨-2, 2, 1⟩, [3, 3, 9, -15, 0]⟩ := by
  refine ⟨?_, ?_⟩ <;> decide +kernel

example : Whole (⟨⟨5, 7, 1⟩, [1, 2, 3]⟩ : Rel ℚ ℚ) 2 1 := ⟨(by decide +kernel : Axis.size _ = _), rfl, by norm_num⟩

section Delay
variable [StarRing K] [TrivialStar K]

omit [FloorRing K] [StarRing K] [TrivialStar K] in
/-- away from lag zero the autocorrelation of values that are not all zero is strictly below its peak -/
theorem abs_sum_zext_lt (a : List K) (ha : ∃ v ∈ a, v ≠ 0) (k : ℤ) (hk : k ≠ 0) :
    |∑ m ∈ Finset.range a.length, zext a (m + k) * a.getD m 0| < ∑ m ∈ Finset.range a.length, a.getD m 0 ^ 2 := by
  have hex : ∃ n, a.getD n 0 ≠ 0 := by
    obtain ⟨v, hv, h0⟩ := ha
    obtain ⟨n, hn, rfl⟩ := List.mem_iff_getElem.1 hv
    exact ⟨n, by rwa [getD_lt _ _ _ hn]⟩
  classical
  set n0 := Nat.find hex with hn0
  have h0 : a.getD n0 0 ≠ 0 := Nat.find_spec hex
  have hlt : ∀ m, m < n0 → a.getD m 0 = 0 := fun m hm => not_not.1 (Nat.find_min hex hm)
  have hl : n0 < a.length := by
    by_contra hc
    exact h0 (getD_ge _ _ _ (by omega))
  set b := a.set n0 0 with hb
  have hbl : b.length = a.length := by simp [hb]
  have hbd : ∀ m, b.getD m 0 = if m = n0 then 0 else a.getD m 0 := by
    intro m
    rcases Nat.lt_or_ge m a.length with h | h
    · rw [getD_lt b m 0 (by omega), getD_lt a m 0 h]
      simp only [hb, List.getElem_set]
      simp only [eq_comm]
    · rw [getD_ge b m 0 (by omega), getD_ge a m 0 h]; simp
  have hbs : ∑ m ∈ Finset.range a.length, b.getD m 0 ^ 2 < ∑ m ∈ Finset.range a.length, a.getD m 0 ^ 2 := by
    apply Finset.sum_lt_sum
    · intro m _
      rw [hbd]
      split_ifs
      · simpa using sq_nonneg (a.getD m 0)
      · exact le_rfl
    · refine ⟨n0, by simpa using hl, ?_⟩
      rw [hbd, if_pos rfl]
      simpa using (sq_nonneg (a.getD n0 0)).lt_of_ne (by simpa using (pow_ne_zero 2 h0).symm)
  have amgm : ∀ f g : ℕ → K, |∑ m ∈ Finset.range a.length, f m * g m| ≤
      (∑ m ∈ Finset.range a.length, f m ^ 2 + ∑ m ∈ Finset.range a.length, g m ^ 2) / 2 := by
    intro f g
    calc |∑ m ∈ Finset.range a.length, f m * g m| ≤ ∑ m ∈ Finset.range a.length, |f m * g m| := Finset.abs_sum_le_sum_abs _ _
      _ ≤ ∑ m ∈ Finset.range a.length, (f m ^ 2 + g m ^ 2) / 2 := by
          apply Finset.sum_le_sum
          intro m _
          rw [abs_le]
          constructor <;> nlinarith [sq_nonneg (f m + g m), sq_nonneg (f m - g m)]
      _ = _ := by rw [← Finset.sum_div, Finset.sum_add_distrib]
  have s1 := sum_zext_sq_le a a.length k
  have s2 := sum_zext_sq_le b a.length k
  rw [hbl] at s2
  rcases lt_or_gt_of_ne hk with hneg | hpos
  · have e : ∑ m ∈ Finset.range a.length, zext a (m + k) * a.getD m 0 =
        ∑ m ∈ Finset.range a.length, zext a (m + k) * b.getD m 0 := by
      apply Finset.sum_congr rfl
      intro m _
      rw [hbd]
      split_ifs with hm
      · have : zext a (m + k) = 0 := by
          unfold zext
          split_ifs with h
          · exact hlt _ (by omega)
          · rfl
        rw [this]; ring
      · rfl
    rw [e]
    have := amgm (fun m => zext a (m + k)) (fun m => b.getD m 0)
    linarith
  · have e : ∑ m ∈ Finset.range a.length, zext a (m + k) * a.getD m 0 =
        ∑ m ∈ Finset.range a.length, zext b (m + k) * a.getD m 0 := by
      apply Finset.sum_congr rfl
      intro m _
      unfold zext
      rw [if_pos (by omega), if_pos (by omega), hbd]
      split_ifs with hm
      · rw [hlt m (by omega)]; ring
      · rfl
    rw [e]
    have := amgm (fun m => zext b (m + k)) (fun m => a.getD m 0)
    linarith

/-- **C121** The correlation of a recording with the relation it contains, `d` samples late and `a` times as strong, has its peak
at the time `d * s`, and nowhere else. -/
theorem C121_delay (q r : Rel K K) (k m d : ℕ) (a s : K) (hs : 0 < s) (hr : Whole r k s) (hq : Whole q m s) (hd : k + d ≤ m)
    (hv : ∀ i (h : i < q.y.length), q.y[i] = a * zext r.y (i - d)) :
    ∃ c l, q.correlate r = .ok c ∧ c.x.array = .ok l ∧ l.length = c.y.length ∧ l[m + d]? = some (d * s) ∧
      c.y[m + d]? = some (a * ∑ i ∈ Finset.range r.y.length, r.y.getD i 0 ^ 2) ∧
      (a ≠ 0 → (∃ v ∈ r.y, v ≠ 0) → ∀ (j : ℕ) (v : K), j ≠ m + d → c.y[j]? = some v →
        |v| < |a| * ∑ i ∈ Finset.range r.y.length, r.y.getD i 0 ^ 2) := by
  obtain ⟨c, hc, x1, x2, x3, hl, e⟩ := C29_values q r hq.1 hr.1 m k s hs hq.2.1 hr.2.1 hq.2.2 hr.2.2
  have hmk : max m k = m := max_eq_left (by omega)
  rw [hmk] at x1 x2 hl
  have lr := whole_length hs hr
  have lq := whole_length hs hq
  have hz : ∀ t : ℤ, zext q.y t = a * zext r.y (t - d) := by
    intro t
    rcases lt_or_ge t 0 with h | h
    · rw [zext_neg _ _ h, zext_neg _ _ (by omega), mul_zero]
    · rcases lt_or_ge t (q.y.length : ℤ) with h' | h'
      · obtain ⟨n, rfl⟩ := Int.eq_ofNat_of_zero_le h
        have hn : n < q.y.length := by exact_mod_cast h'
        rw [← hv n hn]
        unfold zext
        rw [if_pos (Int.natCast_nonneg n), Int.toNat_natCast, getD_lt _ _ _ hn]
      · rw [zext_ge _ _ h', zext_ge _ _ (by omega), mul_zero]
  have hval : ∀ j (h : j < c.y.length), c.y[j] =
      a * ∑ i ∈ Finset.range r.y.length, zext r.y (i + ((j : ℤ) - m - d)) * r.y.getD i 0 := by
    intro j h
    rw [e j h, hmk, Finset.mul_sum]
    symm
    apply Finset.sum_subset_zero_on_sdiff
    · intro i hi
      simp only [Finset.mem_range] at hi ⊢
      omega
    · intro i hi
      simp only [Finset.mem_sdiff, Finset.mem_range] at hi
      rw [getD_ge r.y i 0 (by omega)]; simp
    · intro i _
      rw [hz, star_trivial, show (i : ℤ) + ((j : ℤ) - m) - d = i + ((j : ℤ) - m - d) by ring]; ring
  have hs0 : c.x.sample ≠ 0 := by rw [x3]; exact hs.ne'
  have hst : c.x.steps = 2 * m := by
    have : (c.x.stop - c.x.start) / c.x.sample = ((2 * m : ℕ) : K) := by
      rw [x1, x2, x3]; field_simp; push_cast; ring
    simp only [Axis.steps, this, Nat.abs_cast, pyRound_natCast, Int.toNat_natCast]
  obtain ⟨l, hla⟩ : ∃ l, c.x.array = .ok l := ⟨_, c.x.array_eq hs0⟩
  obtain ⟨ll, lv⟩ := Axis.array_spaced hla
  refine ⟨c, l, hc, hla, by omega, ?_, ?_, ?_⟩
  · rw [List.getElem?_eq_getElem (by omega), lv _ (by omega)]
    rcases Nat.eq_zero_or_pos m with hm | hm
    · have : d = 0 := by omega
      subst hm this
      simp [x1]
    · have hstep : c.x.step = s := by
        have hm' : (m : K) ≠ 0 := by exact_mod_cast hm.ne'
        simp only [Axis.step, hst]
        rw [x1, x2]
        push_cast
        field_simp
        ring
      rw [hstep, x1]
      push_cast
      congr 1
      ring
  · rw [List.getElem?_eq_getElem (by omega), hval _ (by omega)]
    congr 2
    apply Finset.sum_congr rfl
    intro i hi
    rw [show (i : ℤ) + (((m + d : ℕ) : ℤ) - m - d) = i by push_cast; ring]
    simp [zext, sq]
  · intro ha hr0 j v hj hjv
    obtain ⟨hjl, rfl⟩ := List.getElem?_eq_some_iff.1 hjv
    rw [hval j hjl, abs_mul]
    exact mul_lt_mul_of_pos_left (abs_sum_zext_lt r.y hr0 _ (by omega)) (abs_pos.2 ha)

end Delay

/-- **C121** The same for `Signal.correlate` of signals that begin at zero. -/
theorem C121_signal_delay (q r : Rel ℝ ℝ) (k m d : ℕ) (a s : ℝ) (hs : 0 < s) (hr : Whole r k s) (hq : Whole q m s)
    (hk : 1 ≤ k) (hd : k + d ≤ m) (s1 : q.x.start = 0) (s2 : r.x.start = 0)
    (hv : ∀ i (h : i < q.y.length), q.y[i] = a * zext r.y (i - d)) :
    ∃ c l, q.signalCorrelate r = .ok c ∧ c.x.array = .ok l ∧ l.length = c.y.length ∧ l[m + d]? = some (d * s) ∧
      c.y[m + d]? = some (a * ∑ i ∈ Finset.range r.y.length, r.y.getD i 0 ^ 2) ∧
      (a ≠ 0 → (∃ v ∈ r.y, v ≠ 0) → ∀ (j : ℕ) (v : ℝ), j ≠ m + d → c.y[j]? = some v →
        |v| < |a| * ∑ i ∈ Finset.range r.y.length, r.y.getD i 0 ^ 2) := by
  have hpos : ∀ (p : Rel ℝ ℝ) (n : ℕ), Whole p n s → 1 ≤ n → p.x.start < p.x.stop := by
    intro p n h hn
    have : (0 : ℝ) < n * s := mul_pos (by exact_mod_cast hn) hs
    rw [← h.2.2] at this
    linarith
  rw [(signalConvolve_zero q r hq.1 hr.1 (by rw [whole_length hs hq]; omega) (by rw [whole_length hs hr]; omega) s1 s2
    (hpos q m hq (by omega)) (hpos r k hr hk)).2]
  exact C121_delay q r k m d a s hs hr hq hd hv

example : (⟨⟨10, 14, 1⟩, [0, 0, 4, -2, 0]⟩ : Rel ℚ ℚ).correlate ⟨⟨0, 1, 1⟩, [2, -1]⟩ =
      .ok ⟨⟨-4, 4, 1⟩, [0, 0, 0, 0, 0, -4, 10, -4, 0]⟩ := by decide +kernel

example : ∀ i (h : i < [0, 0, 4, -2, 0].length), ([0, 0, 4, -2, 0] : List ℚ)[i] = 2 * zext [2, -1] ((i : ℤ) - (2 : ℕ)) := by
  decide +kernel

end SweepDesign
