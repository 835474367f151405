import Verif.Props.Arithmetic
import Verif.Props.Convolution
import Mathlib.Order.Bounds.Basic
import Mathlib.Analysis.SpecialFunctions.Pow.NNReal

/-!
# Largest and smallest values, and energy (C114)

`max` and `min` of a relation, what resampling, arithmetic, integration, convolution and correlation can make of them, and
the inequalities `get_norm` satisfies.
-/

set_option linter.unusedSectionVars false

namespace SweepDesign

open Spec

section
variable {K : Type} [Field K] [LinearOrder K] [IsStrictOrderedRing K] [FloorRing K]

theorem foldl_max_spec (l : List K) (a : K) : l.foldl max a ∈ a :: l ∧ ∀ b ∈ a :: l, b ≤ l.foldl max a := by
  induction l generalizing a with
  | nil => simp
  | cons c l ih =>
    obtain ⟨h1, h2⟩ := ih (max a c)
    simp only [List.foldl_cons]
    constructor
    · rcases List.mem_cons.1 h1 with h | h
      · rw [h]; rcases max_choice a c with h | h <;> rw [h] <;> simp
      · exact List.mem_cons_of_mem _ (List.mem_cons_of_mem _ h)
    · intro b hb
      have h3 := h2 (max a c) (by simp)
      rcases List.mem_cons.1 hb with rfl | hb
      · exact (le_max_left _ _).trans h3
      rcases List.mem_cons.1 hb with rfl | hb
      · exact (le_max_right _ _).trans h3
      · exact h2 b (List.mem_cons_of_mem _ hb)

theorem foldl_min_spec (l : List K) (a : K) : l.foldl min a ∈ a :: l ∧ ∀ b ∈ a :: l, l.foldl min a ≤ b := by
  induction l generalizing a with
  | nil => simp
  | cons c l ih =>
    obtain ⟨h1, h2⟩ := ih (min a c)
    simp only [List.foldl_cons]
    constructor
    · rcases List.mem_cons.1 h1 with h | h
      · rw [h]; rcases min_choice a c with h | h <;> rw [h] <;> simp
      · exact List.mem_cons_of_mem _ (List.mem_cons_of_mem _ h)
    · intro b hb
      have h3 := h2 (min a c) (by simp)
      rcases List.mem_cons.1 hb with rfl | hb
      · exact h3.trans (min_le_left _ _)
      rcases List.mem_cons.1 hb with rfl | hb
      · exact h3.trans (min_le_right _ _)
      · exact h2 b (List.mem_cons_of_mem _ hb)

/-- **C114** `max()` and `min()` are the greatest and the least of the samples, whatever the axis is; without samples they
raise `ValueError`. -/
theorem C114_max_min (r : Rel K K) :
    (r.y = [] → r.max = .error .value ∧ r.min = .error .value) ∧
    (r.y ≠ [] → ∃ M m, r.max = .ok M ∧ r.min = .ok m ∧ IsGreatest {a | a ∈ r.y} M ∧ IsLeast {a | a ∈ r.y} m) := by
  obtain ⟨x, y⟩ := r
  cases y with
  | nil => exact ⟨fun _ => ⟨rfl, rfl⟩, fun h => absurd rfl h⟩
  | cons a l =>
    refine ⟨fun h => by simp at h, fun _ => ⟨_, _, rfl, rfl, ?_, ?_⟩⟩
    · exact ⟨(foldl_max_spec l a).1, fun b hb => (foldl_max_spec l a).2 b hb⟩
    · exact ⟨(foldl_min_spec l a).1, fun b hb => (foldl_min_spec l a).2 b hb⟩

theorem max_bounds {r : Rel K K} {M : K} (h : r.max = .ok M) : M ∈ r.y ∧ ∀ a ∈ r.y, a ≤ M := by
  obtain ⟨x, y⟩ := r
  cases y with
  | nil => simp [Rel.max, npMax] at h
  | cons a l =>
    obtain rfl := Except.ok.inj h
    exact foldl_max_spec l a

theorem min_bounds {r : Rel K K} {m : K} (h : r.min = .ok m) : m ∈ r.y ∧ ∀ a ∈ r.y, m ≤ a := by
  obtain ⟨x, y⟩ := r
  cases y with
  | nil => simp [Rel.min, npMin] at h
  | cons a l =>
    obtain rfl := Except.ok.inj h
    exact foldl_min_spec l a

theorem interpolant_extremes (r : Rel K K) (lx ly : List K) (h : r.getData = .ok (lx, ly)) (m M t v : K)
    (hM : r.max = .ok M) (hm : r.min = .ok m) (hv : IsInterpolant lx ly t v) : min 0 m ≤ v ∧ v ≤ max 0 M := by
  obtain ⟨hx, rfl, hlen⟩ := (getData_ok_iff _ _ _).1 h
  by_cases hr : InRange lx t
  · obtain ⟨h1, h2⟩ := interpolant_bounds r lx r.y h m M t v
      (fun a ha => ⟨(min_bounds hm).2 a ha, (max_bounds hM).2 a ha⟩) hr hv
    exact ⟨(min_le_right _ _).trans h1, h2.trans (le_max_right _ _)⟩
  · rw [hv.outside hr]
    exact ⟨min_le_left _ _, le_max_left _ _⟩

/-- **C114** Resampling never leaves the range of the samples together with zero: the largest value of the result is at
most the largest sample, or zero, and the smallest is at least the smallest sample, or zero. -/
theorem C114_resampled (r : Rel K K) (hb : Balanced r) (a : Axis K) (q : Rel K K)
    (hq : r.interpolateExtrapolate (.axis a) = .ok q) (m M m' M' : K) (hM : r.max = .ok M) (hm : r.min = .ok m)
    (hM' : q.max = .ok M') (hm' : q.min = .ok m') : min 0 m ≤ m' ∧ M' ≤ max 0 M := by
  obtain ⟨⟨lx, ly⟩, hd⟩ := (balanced_iff_getData r).1 hb
  have hs : a.sample ≠ 0 := by
    intro h0
    simp only [Rel.interpolateExtrapolate, Rel.interpAxis, Axis.array_zero a h0] at hq
    obtain ⟨l, hl⟩ : ∃ l, r.x.array = .ok l := ⟨lx, ((getData_ok_iff _ _ _).1 hd).1⟩
    simp [hl, except_bind_ok, except_bind_error] at hq
  obtain ⟨q', xs, ys, h1, -, h3, h4⟩ := C20_piecewise_linear r lx ly hd a hs
  obtain rfl := Except.ok.inj (hq.symm.trans h1)
  obtain ⟨-, rfl, hlen⟩ := (getData_ok_iff _ _ _).1 h3
  have key : ∀ v ∈ q.y, min 0 m ≤ v ∧ v ≤ max 0 M := by
    intro v hv
    obtain ⟨i, hi, rfl⟩ := List.getElem_of_mem hv
    exact interpolant_extremes r lx ly hd m M _ _ hM hm (h4 i (by omega) hi)
  exact ⟨(key _ (min_bounds hm').1).1, (key _ (max_bounds hM').1).2⟩

variable [PyPow K]

/-- **C114** The largest and smallest values of a sum, a difference and a product of two relations on any axes. -/
theorem C114_arithmetic (r1 r2 q : Rel K K) (h1 : Balanced r1) (h2 : Balanced r2) (m1 M1 m2 M2 m M : K)
    (hm1 : r1.min = .ok m1) (hM1 : r1.max = .ok M1) (hm2 : r2.min = .ok m2) (hM2 : r2.max = .ok M2)
    (hm : q.min = .ok m) (hM : q.max = .ok M) :
    (r1.add (.rel false r2) = .ok q → min 0 m1 + min 0 m2 ≤ m ∧ M ≤ max 0 M1 + max 0 M2) ∧
    (r1.sub (.rel false r2) = .ok q → min 0 m1 - max 0 M2 ≤ m ∧ M ≤ max 0 M1 - min 0 m2) ∧
    (r1.mul (.rel false r2) = .ok q →
      ∀ v ∈ q.y, |v| ≤ max |m1| |M1| * max |m2| |M2|) := by
  obtain ⟨⟨l1, y1⟩, d1⟩ := (balanced_iff_getData r1).1 h1
  obtain ⟨⟨l2, y2⟩, d2⟩ := (balanced_iff_getData r2).1 h2
  have key : ∀ op, r1.operation (.rel false r2) op = .ok q → ∀ v ∈ q.y, ∃ v1 v2, OpResult op v1 v2 v ∧
      (min 0 m1 ≤ v1 ∧ v1 ≤ max 0 M1) ∧ (min 0 m2 ≤ v2 ∧ v2 ≤ max 0 M2) := by
    intro op hq v hv
    obtain ⟨-, -, -, xs, hd, hi⟩ := (C25_different_axes r1 r2 l1 l2 y1 y2 d1 d2 op).1 q hq
    obtain ⟨-, -, hlen⟩ := (getData_ok_iff _ _ _).1 hd
    obtain ⟨i, hi', rfl⟩ := List.getElem_of_mem hv
    obtain ⟨v1, v2, i1, i2, ho⟩ := hi i (by omega) hi'
    exact ⟨v1, v2, ho, interpolant_extremes r1 l1 y1 d1 m1 M1 _ _ hM1 hm1 i1,
      interpolant_extremes r2 l2 y2 d2 m2 M2 _ _ hM2 hm2 i2⟩
  refine ⟨fun hq => ?_, fun hq => ?_, fun hq v hv => ?_⟩
  · obtain ⟨v1, v2, ho, ⟨a1, a2⟩, b1, b2⟩ := key .add hq m (min_bounds hm).1
    obtain ⟨w1, w2, ho', ⟨c1, c2⟩, e1, e2⟩ := key .add hq M (max_bounds hM).1
    simp only [OpResult] at ho ho'
    subst ho ho'
    exact ⟨add_le_add a1 b1, add_le_add c2 e2⟩
  · obtain ⟨v1, v2, ho, ⟨a1, a2⟩, b1, b2⟩ := key .sub hq m (min_bounds hm).1
    obtain ⟨w1, w2, ho', ⟨c1, c2⟩, e1, e2⟩ := key .sub hq M (max_bounds hM).1
    simp only [OpResult] at ho ho'
    subst ho ho'
    exact ⟨sub_le_sub a1 b2, sub_le_sub c2 e1⟩
  · obtain ⟨v1, v2, ho, ⟨a1, a2⟩, b1, b2⟩ := key .mul hq v hv
    simp only [OpResult] at ho
    subst ho
    have habs : ∀ m M w : K, min 0 m ≤ w → w ≤ max 0 M → |w| ≤ max |m| |M| := by
      intro m M w h1 h2
      rw [abs_le]
      constructor
      · rcases le_total 0 m with h | h
        · rw [min_eq_left h] at h1
          exact (neg_nonpos.2 (le_max_of_le_left (abs_nonneg m))).trans h1
        · rw [min_eq_right h] at h1
          have := le_max_left |m| |M|
          rw [abs_of_nonpos h] at this ⊢
          linarith
      · rcases le_total 0 M with h | h
        · rw [max_eq_right h] at h2
          exact h2.trans ((le_abs_self M).trans (le_max_right _ _))
        · rw [max_eq_left h] at h2
          exact h2.trans (le_max_of_le_left (abs_nonneg m))
    rw [abs_mul]
    exact mul_le_mul (habs _ _ _ a1 a2) (habs _ _ _ b1 b2) (abs_nonneg _) (le_max_of_le_left (abs_nonneg _))

/-- the largest value of the sum, 4, is less than 3 + 2; resampling on half the step keeps to the range -/
example : Rel.make ⟨0, 2, 1⟩ [1, 3, -2] = .ok (⟨⟨0, 2, 1⟩, [1, 3, -2]⟩ : Rel ℚ ℚ) ∧
    Rel.make ⟨1, 3, 1⟩ [1, 2, -5] = .ok (⟨⟨1, 3, 1⟩, [1, 2, -5]⟩ : Rel ℚ ℚ) ∧
    (⟨⟨0, 2, 1⟩, [1, 3, -2]⟩ : Rel ℚ ℚ).max = .ok 3 ∧ (⟨⟨1, 3, 1⟩, [1, 2, -5]⟩ : Rel ℚ ℚ).max = .ok 2 ∧
    (⟨⟨0, 2, 1⟩, [1, 3, -2]⟩ : Rel ℚ ℚ).add (.rel false ⟨⟨1, 3, 1⟩, [1, 2, -5]⟩) = .ok ⟨⟨0, 3, 1⟩, [1, 4, 0, -5]⟩ ∧
    (⟨⟨0, 2, 1⟩, [1, 3, -2]⟩ : Rel ℚ ℚ).interpolateExtrapolate (.axis ⟨-1/2, 2, 1/2⟩) =
      .ok ⟨⟨-1/2, 2, 1/2⟩, [0, 1, 2, 3, 1/2, -2]⟩ := by
  decide +kernel

/-! ## Integrals -/

omit [PyPow K] in
theorem oneIntegrate_sum (r : Rel K K) (hb : Balanced r) :
    r.oneIntegrate = .ok (∑ j ∈ Finset.range (r.y.length - 1), r.x.step * ((r.y.getD j 0 + r.y.getD (j + 1) 0) / 2)) := by
  obtain ⟨⟨lx, ly⟩, hd⟩ := (balanced_iff_getData r).1 hb
  obtain ⟨hx, rfl, hlen⟩ := (getData_ok_iff _ _ _).1 hd
  have hsp := Axis.array_spaced hx
  simp only [Rel.oneIntegrate, hd, except_bind_ok, except_pure, Except.ok.injEq]
  rw [trapz_eq _ _ hlen]
  apply Finset.sum_congr rfl
  intro j hj
  have hj' : j < r.y.length - 1 := Finset.mem_range.1 hj
  rw [getD_lt lx _ _ (by omega), getD_lt lx _ _ (by omega), hsp.2 _ (by omega), hsp.2 _ (by omega), smul_eq_mul]
  push_cast
  ring

theorem integrate_sum (r q : Rel K K) (hq : r.integrate = .ok q) (i : ℕ) (hi : i < q.y.length) :
    i + 1 < r.y.length ∧ q.y[i] = r.x.sample * ∑ j ∈ Finset.range (i + 1), (at0 r.y j + at0 r.y (j + 1)) / 2 := by
  obtain ⟨-, rfl⟩ := (make_ok_iff _ _ _).1 hq
  simp only [List.length_map, cumTrapz_length] at hi
  refine ⟨by omega, ?_⟩
  simp only [List.getElem_map, cumTrapz_getElem, smul_eq_mul]

/-- **C114** The integral lies between the smallest and the largest sample times the length of the axis. -/
theorem C114_mean (r : Rel K K) (hb : Balanced r) (h2 : 2 ≤ r.y.length) (hinc : r.x.start < r.x.stop) (m M I : K)
    (hm : r.min = .ok m) (hM : r.max = .ok M) (hI : r.oneIntegrate = .ok I) :
    m * (r.x.stop - r.x.start) ≤ I ∧ I ≤ M * (r.x.stop - r.x.start) := by
  rw [oneIntegrate_sum r hb] at hI
  obtain rfl := Except.ok.inj hI
  have hlen : r.y.length = r.x.steps + 1 := ((balanced_iff r).1 hb).2
  have hn : (0 : K) < r.x.steps := by
    have : 0 < r.x.steps := by omega
    exact_mod_cast this
  have hstep : 0 < r.x.step := div_pos (sub_pos.2 hinc) hn
  have hT : (r.x.steps : K) * r.x.step = r.x.stop - r.x.start := by
    unfold Axis.step
    field_simp
  have hterm : ∀ j ∈ Finset.range (r.y.length - 1), r.x.step * m ≤ r.x.step * ((r.y.getD j 0 + r.y.getD (j + 1) 0) / 2) ∧
      r.x.step * ((r.y.getD j 0 + r.y.getD (j + 1) 0) / 2) ≤ r.x.step * M := by
    intro j hj
    have hj' : j < r.y.length - 1 := Finset.mem_range.1 hj
    rw [getD_lt r.y _ _ (by omega), getD_lt r.y _ _ (by omega)]
    have a1 := (min_bounds hm).2 r.y[j] (List.getElem_mem _)
    have a2 := (min_bounds hm).2 r.y[j + 1] (List.getElem_mem _)
    have a3 := (max_bounds hM).2 r.y[j] (List.getElem_mem _)
    have a4 := (max_bounds hM).2 r.y[j + 1] (List.getElem_mem _)
    exact ⟨mul_le_mul_of_nonneg_left (by linarith) hstep.le, mul_le_mul_of_nonneg_left (by linarith) hstep.le⟩
  have hc : ((r.y.length - 1 : ℕ) : K) = r.x.steps := by rw [hlen]; simp
  constructor
  · have := Finset.sum_le_sum fun j hj => (hterm j hj).1
    simp only [Finset.sum_const, Finset.card_range, nsmul_eq_mul, hc] at this
    rw [← hT]
    linarith
  · have := Finset.sum_le_sum fun j hj => (hterm j hj).2
    simp only [Finset.sum_const, Finset.card_range, nsmul_eq_mul, hc] at this
    rw [← hT]
    linarith

/-- **C114** Integration keeps order: of two relations on the same increasing axis, the one that is nowhere larger has the
integral that is nowhere larger, at every sample and altogether. -/
theorem C114_order (r1 r2 : Rel K K) (h1 : Balanced r1) (h2 : Balanced r2) (hx : r1.x = r2.x) (hs : 0 < r1.x.sample)
    (hinc : r1.x.start ≤ r1.x.stop)
    (hle : ∀ i (a : i < r1.y.length) (b : i < r2.y.length), r1.y[i] ≤ r2.y[i]) :
    (∀ I1 I2, r1.oneIntegrate = .ok I1 → r2.oneIntegrate = .ok I2 → I1 ≤ I2) ∧
    (∀ q1 q2, r1.integrate = .ok q1 → r2.integrate = .ok q2 →
      q1.x = q2.x ∧ q1.y.length = q2.y.length ∧
      ∀ i (a : i < q1.y.length) (b : i < q2.y.length), q1.y[i] ≤ q2.y[i]) := by
  have hl : r1.y.length = r2.y.length := balanced_length_eq h1 h2 hx
  constructor
  · intro I1 I2 e1 e2
    rw [oneIntegrate_sum r1 h1] at e1
    rw [oneIntegrate_sum r2 h2] at e2
    obtain rfl := Except.ok.inj e1
    obtain rfl := Except.ok.inj e2
    have hstep : 0 ≤ r1.x.step := div_nonneg (sub_nonneg.2 hinc) (Nat.cast_nonneg _)
    rw [← hl, ← hx]
    apply Finset.sum_le_sum
    intro j hj
    have hj' : j < r1.y.length - 1 := Finset.mem_range.1 hj
    rw [getD_lt r1.y _ _ (by omega), getD_lt r1.y _ _ (by omega), getD_lt r2.y _ _ (by omega), getD_lt r2.y _ _ (by omega)]
    have a1 := hle j (by omega) (by omega)
    have a2 := hle (j + 1) (by omega) (by omega)
    exact mul_le_mul_of_nonneg_left (by linarith) hstep
  · intro q1 q2 e1 e2
    have l1 : q1.x = { r1.x with start := r1.x.start + r1.x.sample } ∧ q1.y.length = r1.y.length - 1 := by
      obtain ⟨-, rfl⟩ := (make_ok_iff _ _ _).1 e1
      exact ⟨rfl, by simp [cumTrapz_length]⟩
    have l2 : q2.x = { r2.x with start := r2.x.start + r2.x.sample } ∧ q2.y.length = r2.y.length - 1 := by
      obtain ⟨-, rfl⟩ := (make_ok_iff _ _ _).1 e2
      exact ⟨rfl, by simp [cumTrapz_length]⟩
    refine ⟨by rw [l1.1, l2.1, hx], by rw [l1.2, l2.2, hl], fun i a b => ?_⟩
    rw [(integrate_sum r1 q1 e1 i a).2, (integrate_sum r2 q2 e2 i b).2, ← hx]
    apply mul_le_mul_of_nonneg_left _ hs.le
    apply Finset.sum_le_sum
    intro j hj
    have hj' : j < i + 1 := Finset.mem_range.1 hj
    rw [at0_eq _ _ (by omega), at0_eq _ _ (by omega), at0_eq _ _ (by omega), at0_eq _ _ (by omega)]
    have a1 := hle j (by omega) (by omega)
    have a2 := hle (j + 1) (by omega) (by omega)
    linarith

/-- **C114** The integral of a relation without negative samples has none and nowhere falls. -/
theorem C114_rising (r q : Rel K K) (hs : 0 < r.x.sample) (hpos : ∀ a ∈ r.y, 0 ≤ a) (hq : r.integrate = .ok q) :
    (∀ v ∈ q.y, 0 ≤ v) ∧ q.y.Pairwise (· ≤ ·) := by
  have hterm : ∀ j, 0 ≤ (at0 r.y j + at0 r.y (j + 1)) / 2 := by
    intro j
    have : ∀ j, 0 ≤ at0 r.y j := by
      intro j
      by_cases h : j < r.y.length
      · rw [at0_eq _ _ h]; exact hpos _ (List.getElem_mem _)
      · rw [at0_of_le _ _ (by omega)]
    exact div_nonneg (add_nonneg (this j) (this (j + 1))) (by norm_num)
  constructor
  · intro v hv
    obtain ⟨i, hi, rfl⟩ := List.getElem_of_mem hv
    rw [(integrate_sum r q hq i hi).2]
    exact mul_nonneg hs.le (Finset.sum_nonneg fun j _ => hterm j)
  · rw [List.pairwise_iff_getElem]
    intro i j hi hj hij
    rw [(integrate_sum r q hq i hi).2, (integrate_sum r q hq j hj).2]
    apply mul_le_mul_of_nonneg_left _ hs.le
    exact Finset.sum_le_sum_of_subset_of_nonneg (by intro k hk; simp at hk ⊢; omega) fun k _ _ => hterm k

example : (⟨⟨0, 3, 1⟩, [1, 3, 0, 2]⟩ : Rel ℚ ℚ).integrate = .ok ⟨⟨1, 3, 1⟩, [2, 7/2, 9/2]⟩ ∧
    (⟨⟨0, 3, 1⟩, [1, 3, 0, 2]⟩ : Rel ℚ ℚ).oneIntegrate = .ok (9/2) ∧
    (⟨⟨0, 3, 1⟩, [1, 2, -4, 2]⟩ : Rel ℚ ℚ).integrate = .ok ⟨⟨1, 3, 1⟩, [3/2, 1/2, -1/2]⟩ := by decide +kernel

end

/-! ## Energy -/

section
variable {K : Type} [Field K] [LinearOrder K] [IsStrictOrderedRing K] [FloorRing K]
variable {V : Type} [Field V] [Algebra K V] [DecidableEq V] [PyPow V]

/-- **C114** The parallelogram law of `get_norm`, for two relations on equal axes. -/
theorem C114_parallelogram (same same' : Bool) (r1 r2 s d : Rel K V) (h1 : Balanced r1) (h2 : Balanced r2)
    (hx : r1.x = r2.x) (hs : r1.add (.rel same r2) = .ok s) (hd : r1.sub (.rel same' r2) = .ok d) :
    ∃ n1 n2 ns nd, r1.getNorm = .ok n1 ∧ r2.getNorm = .ok n2 ∧ s.getNorm = .ok ns ∧ d.getNorm = .ok nd ∧
      ns + nd = 2 * n1 + 2 * n2 := by
  obtain ⟨⟨lx, ly⟩, hd1⟩ := (balanced_iff_getData r1).1 h1
  obtain ⟨hlx, rfl, hlen⟩ := (getData_ok_iff _ _ _).1 hd1
  have hl : r1.y.length = r2.y.length := balanced_length_eq h1 h2 hx
  have hs' : s = ⟨r1.x, List.zipWith (· + ·) r1.y r2.y⟩ := by
    rw [Rel.add, operation_equal_axes same r1 r2 .add h1 h2 hx] at hs
    have : List.zipWith (MathOp.fn .add) r1.y r2.y = (List.zipWith (· + ·) r1.y r2.y).map some := zipWith_some _ _ _
    rw [this, finite_map_some] at hs
    exact (Except.ok.inj hs).symm
  have hd' : d = ⟨r1.x, List.zipWith (· - ·) r1.y r2.y⟩ := by
    rw [Rel.sub, operation_equal_axes same' r1 r2 .sub h1 h2 hx] at hd
    have : List.zipWith (MathOp.fn .sub) r1.y r2.y = (List.zipWith (· - ·) r1.y r2.y).map some := zipWith_some _ _ _
    rw [this, finite_map_some] at hd
    exact (Except.ok.inj hd).symm
  subst hs' hd'
  have g2 : r2.getData = .ok (lx, r2.y) := (getData_ok_iff _ _ _).2 ⟨hx ▸ hlx, rfl, by omega⟩
  have gs : (⟨r1.x, List.zipWith (· + ·) r1.y r2.y⟩ : Rel K V).getData = .ok (lx, List.zipWith (· + ·) r1.y r2.y) :=
    (getData_ok_iff _ _ _).2 ⟨hlx, rfl, by simp; omega⟩
  have gd : (⟨r1.x, List.zipWith (· - ·) r1.y r2.y⟩ : Rel K V).getData = .ok (lx, List.zipWith (· - ·) r1.y r2.y) :=
    (getData_ok_iff _ _ _).2 ⟨hlx, rfl, by simp; omega⟩
  refine ⟨_, _, _, _, getNorm_eq r1 lx _ hd1, getNorm_eq r2 lx _ g2, getNorm_eq _ lx _ gs, getNorm_eq _ lx _ gd, ?_⟩
  have e1 : (List.zipWith (· + ·) r1.y r2.y).length = r1.y.length := by simp; omega
  have e2 : (List.zipWith (· - ·) r1.y r2.y).length = r1.y.length := by simp; omega
  rw [e1, e2, ← hl, ← hx, ← smul_add, mul_smul_comm, mul_smul_comm, ← smul_add, ← Finset.sum_add_distrib,
    Finset.mul_sum, Finset.mul_sum, ← Finset.sum_add_distrib]
  congr 1
  apply Finset.sum_congr rfl
  intro j hj
  have hj' : j < r1.y.length - 1 := Finset.mem_range.1 hj
  have p1 : ∀ i, i < r1.y.length → (List.zipWith (· + ·) r1.y r2.y).getD i 0 = r1.y.getD i 0 + r2.y.getD i 0 := by
    intro i hi
    rw [getD_lt _ _ _ (by omega), getD_lt _ _ _ hi, getD_lt _ _ _ (by omega), List.getElem_zipWith]
  have p2 : ∀ i, i < r1.y.length → (List.zipWith (· - ·) r1.y r2.y).getD i 0 = r1.y.getD i 0 - r2.y.getD i 0 := by
    intro i hi
    rw [getD_lt _ _ _ (by omega), getD_lt _ _ _ hi, getD_lt _ _ _ (by omega), List.getElem_zipWith]
  rw [p1 j (by omega), p1 (j + 1) (by omega), p2 j (by omega), p2 (j + 1) (by omega), ← smul_add, mul_smul_comm,
    mul_smul_comm, ← smul_add]
  congr 1
  ring

end

/-- the weight of sample `i` of `n` in a trapezoid sum -/
noncomputable def energyWeight (n i : ℕ) : ℝ := ((if i + 1 < n then 1 else 0) + (if 0 < i then 1 else 0)) / 2

theorem energyWeight_nonneg (n i : ℕ) : 0 ≤ energyWeight n i := by
  unfold energyWeight
  split_ifs <;> norm_num

theorem getNorm_weights [PyPow ℝ] (r : Rel ℝ ℝ) (hb : Balanced r) :
    r.getNorm = .ok (r.x.sample⁻¹ * r.x.step *
      ∑ i ∈ Finset.range r.y.length, energyWeight r.y.length i * r.y.getD i 0 ^ 2) := by
  obtain ⟨⟨lx, ly⟩, hd⟩ := (balanced_iff_getData r).1 hb
  obtain ⟨hx, rfl, hlen⟩ := (getData_ok_iff _ _ _).1 hd
  have hsp := Axis.array_spaced hx
  rw [getNorm_eq r lx r.y hd, smul_eq_mul, mul_assoc]
  congr 2
  have hterm : ∀ j ∈ Finset.range (r.y.length - 1),
      (lx.getD (j + 1) 0 - lx.getD j 0) • ((r.y.getD j 0 ^ 2 + r.y.getD (j + 1) 0 ^ 2) / 2) =
      r.x.step * ((r.y.getD j 0 ^ 2 + r.y.getD (j + 1) 0 ^ 2) / 2) := by
    intro j hj
    have hj' : j < r.y.length - 1 := Finset.mem_range.1 hj
    rw [getD_lt lx _ _ (by omega), getD_lt lx _ _ (by omega), hsp.2 _ (by omega), hsp.2 _ (by omega), smul_eq_mul]
    push_cast
    ring
  rw [Finset.sum_congr rfl hterm, ← Finset.mul_sum]
  congr 1
  obtain ⟨n, hn⟩ : ∃ n, r.y.length = n + 1 := ⟨r.x.steps, ((balanced_iff r).1 hb).2⟩
  rw [hn, Nat.add_sub_cancel]
  generalize hf : (fun i => r.y.getD i 0 ^ 2) = f
  have hf' : ∀ i, r.y.getD i 0 ^ 2 = f i := fun i => by rw [← hf]
  simp only [hf', energyWeight, add_div, add_mul, Finset.sum_add_distrib]
  congr 1
  · rw [Finset.sum_range_succ]
    simp only [lt_irrefl, if_false, zero_div, zero_mul, add_zero]
    exact Finset.sum_congr rfl fun i hi => by
      rw [if_pos (by have := Finset.mem_range.1 hi; omega)]; ring
  · rw [Finset.sum_range_succ']
    simp only [lt_irrefl, if_false, zero_div, zero_mul, add_zero, Nat.succ_pos, if_true]
    exact Finset.sum_congr rfl fun i _ => by ring

/-- **C114** The triangle inequality of the square root of `get_norm`. -/
theorem C114_triangle [PyPow ℝ] (same : Bool) (r1 r2 s : Rel ℝ ℝ) (h1 : Balanced r1) (h2 : Balanced r2)
    (hx : r1.x = r2.x) (hinc : r1.x.start ≤ r1.x.stop) (hp : 0 < r1.x.sample) (hs : r1.add (.rel same r2) = .ok s) :
    ∃ n1 n2 ns, r1.getNorm = .ok n1 ∧ r2.getNorm = .ok n2 ∧ s.getNorm = .ok ns ∧
      √ns ≤ √n1 + √n2 := by
  have hl : r1.y.length = r2.y.length := balanced_length_eq h1 h2 hx
  have hs' : s = ⟨r1.x, List.zipWith (· + ·) r1.y r2.y⟩ := by
    rw [Rel.add, operation_equal_axes same r1 r2 .add h1 h2 hx] at hs
    have : List.zipWith (MathOp.fn .add) r1.y r2.y = (List.zipWith (· + ·) r1.y r2.y).map some := zipWith_some _ _ _
    rw [this, finite_map_some] at hs
    exact (Except.ok.inj hs).symm
  subst hs'
  have e1 : (List.zipWith (· + ·) r1.y r2.y).length = r1.y.length := by simp; omega
  have hbs : Balanced (⟨r1.x, List.zipWith (· + ·) r1.y r2.y⟩ : Rel ℝ ℝ) := by
    rw [balanced_iff] at h1 ⊢
    exact ⟨h1.1, by rw [e1]; exact h1.2⟩
  have n1 := getNorm_weights r1 h1
  have n2 := getNorm_weights r2 h2
  have ns := getNorm_weights _ hbs
  rw [← hx, ← hl] at n2
  simp only [e1] at ns
  refine ⟨_, _, _, n1, n2, ns, ?_⟩
  have hw : 0 ≤ r1.x.sample⁻¹ * r1.x.step := by
    apply mul_nonneg (inv_nonneg.2 hp.le)
    exact div_nonneg (sub_nonneg.2 hinc) (Nat.cast_nonneg _)
  have hrw : ∑ i ∈ Finset.range r1.y.length, energyWeight r1.y.length i *
      (List.zipWith (· + ·) r1.y r2.y).getD i 0 ^ 2 = ∑ i ∈ Finset.range r1.y.length, energyWeight r1.y.length i *
      (r1.y.getD i 0 + r2.y.getD i 0) ^ 2 := by
    apply Finset.sum_congr rfl
    intro i hi
    have hi' := Finset.mem_range.1 hi
    rw [getD_lt _ _ _ (by omega), getD_lt _ _ _ hi', getD_lt _ _ _ (by omega), List.getElem_zipWith]
  rw [hrw]
  have hpos : ∀ f : ℕ → ℝ, 0 ≤ ∑ i ∈ Finset.range r1.y.length, energyWeight r1.y.length i * f i ^ 2 := fun f =>
    Finset.sum_nonneg fun i _ => mul_nonneg (energyWeight_nonneg _ _) (sq_nonneg _)
  rw [Real.sqrt_mul hw, Real.sqrt_mul hw, Real.sqrt_mul hw, ← mul_add]
  apply mul_le_mul_of_nonneg_left _ (Real.sqrt_nonneg _)
  rw [Real.sqrt_le_left (add_nonneg (Real.sqrt_nonneg _) (Real.sqrt_nonneg _)), add_sq,
    Real.sq_sqrt (hpos fun i => r1.y.getD i 0), Real.sq_sqrt (hpos fun i => r2.y.getD i 0), mul_assoc,
    ← Real.sqrt_mul (hpos fun i => r1.y.getD i 0)]
  have hcs := Finset.sum_mul_sq_le_sq_mul_sq (Finset.range r1.y.length)
    (fun i => √(energyWeight r1.y.length i) * r1.y.getD i 0) (fun i => √(energyWeight r1.y.length i) * r2.y.getD i 0)
  simp only [mul_pow, Real.sq_sqrt (energyWeight_nonneg _ _)] at hcs
  have hcr : ∑ i ∈ Finset.range r1.y.length, √(energyWeight r1.y.length i) * r1.y.getD i 0 *
      (√(energyWeight r1.y.length i) * r2.y.getD i 0) =
      ∑ i ∈ Finset.range r1.y.length, energyWeight r1.y.length i * (r1.y.getD i 0 * r2.y.getD i 0) := by
    apply Finset.sum_congr rfl
    intro i _
    rw [mul_mul_mul_comm, Real.mul_self_sqrt (energyWeight_nonneg _ _)]
  rw [hcr] at hcs
  have hle := Real.le_sqrt_of_sq_le hcs
  have hexp : ∑ i ∈ Finset.range r1.y.length, energyWeight r1.y.length i * (r1.y.getD i 0 + r2.y.getD i 0) ^ 2 =
      ∑ i ∈ Finset.range r1.y.length, energyWeight r1.y.length i * r1.y.getD i 0 ^ 2 +
      2 * ∑ i ∈ Finset.range r1.y.length, energyWeight r1.y.length i * (r1.y.getD i 0 * r2.y.getD i 0) +
      ∑ i ∈ Finset.range r1.y.length, energyWeight r1.y.length i * r2.y.getD i 0 ^ 2 := by
    rw [Finset.mul_sum, ← Finset.sum_add_distrib, ← Finset.sum_add_distrib]
    exact Finset.sum_congr rfl fun i _ => by ring
  rw [hexp]
  linarith

/-! ## Convolution and correlation -/

section
variable {K : Type} [Field K] [LinearOrder K] [IsStrictOrderedRing K] [FloorRing K]

theorem getD_beyond {V : Type} [Zero V] (l : List V) (i : ℕ) (h : l.length ≤ i) : l.getD i 0 = 0 := by
  simp [h]

theorem sum_getD_eq {V W : Type} [Zero V] [AddCommMonoid W] (f : V → W) (hf0 : f 0 = 0) (l : List V) (n : ℕ)
    (hn : l.length ≤ n) : ∑ i ∈ Finset.range n, f (l.getD i 0) = (l.map f).sum := by
  induction l generalizing n with
  | nil => simp [hf0]
  | cons a l ih =>
    obtain ⟨m, rfl⟩ : ∃ m, n = m + 1 := ⟨n - 1, by simp at hn; omega⟩
    rw [Finset.sum_range_succ', List.map_cons, List.sum_cons, ← ih m (by simpa using hn), add_comm]
    simp

theorem sum_getD_le {V : Type} [Zero V] (f : V → K) (hf0 : f 0 = 0) (hf : ∀ b, 0 ≤ f b) (l : List V) (n : ℕ) :
    ∑ i ∈ Finset.range n, f (l.getD i 0) ≤ (l.map f).sum := by
  rw [← sum_getD_eq f hf0 l (max n l.length) (le_max_right _ _)]
  exact Finset.sum_le_sum_of_subset_of_nonneg (Finset.range_mono (le_max_left _ _)) fun i _ _ => hf _

/-- **C114** No value of a convolution is larger than the largest absolute sample of one operand times the sum of the
absolute samples of the other. -/
theorem C114_convolve (r1 r2 c : Rel K K) (h1 : Balanced r1) (h2 : Balanced r2) (k1 k2 : ℕ) (s : K) (hs : 0 < s)
    (s1 : r1.x.sample = s) (s2 : r2.x.sample = s) (d1 : r1.x.stop - r1.x.start = k1 * s)
    (d2 : r2.x.stop - r2.x.start = k2 * s) (hc : r1.convolve r2 = .ok c) (A : K) (hA : ∀ a ∈ r1.y, |a| ≤ A) :
    ∀ v ∈ c.y, |v| ≤ A * (r2.y.map fun b => |b|).sum := by
  obtain ⟨c', hc', -, -, -, -, hv⟩ := C28_values r1 r2 h1 h2 k1 k2 s hs s1 s2 d1 d2
  obtain rfl := Except.ok.inj (hc.symm.trans hc')
  have hA0 : 0 ≤ A := by
    obtain ⟨a, ha⟩ : ∃ a, a ∈ r1.y := List.exists_mem_of_length_pos (by rw [((balanced_iff r1).1 h1).2]; omega)
    exact (abs_nonneg a).trans (hA a ha)
  have hAd : ∀ i, |r1.y.getD i 0| ≤ A := by
    intro i
    by_cases hi : i < r1.y.length
    · rw [getD_lt _ _ _ hi]; exact hA _ (List.getElem_mem _)
    · rw [getD_beyond _ _ (by omega), abs_zero]; exact hA0
  intro v hm
  obtain ⟨k, hk, rfl⟩ := List.getElem_of_mem hm
  rw [hv k hk, Finset.Nat.sum_antidiagonal_eq_sum_range_succ (fun i j => r1.y.getD i 0 * r2.y.getD j 0)]
  calc |∑ i ∈ Finset.range (k + 1), r1.y.getD i 0 * r2.y.getD (k - i) 0|
      ≤ ∑ i ∈ Finset.range (k + 1), |r1.y.getD i 0 * r2.y.getD (k - i) 0| := Finset.abs_sum_le_sum_abs _ _
    _ ≤ ∑ i ∈ Finset.range (k + 1), A * |r2.y.getD (k - i) 0| := by
        apply Finset.sum_le_sum
        intro i _
        rw [abs_mul]
        exact mul_le_mul_of_nonneg_right (hAd i) (abs_nonneg _)
    _ = A * ∑ i ∈ Finset.range (k + 1), |r2.y.getD i 0| := by
        rw [← Finset.mul_sum]
        congr 1
        exact Finset.sum_range_reflect (fun i => |r2.y.getD i 0|) (k + 1)
    _ ≤ A * (r2.y.map fun b => |b|).sum := by
        apply mul_le_mul_of_nonneg_left _ hA0
        exact sum_getD_le (fun b => |b|) (by simp) (fun b => abs_nonneg b) r2.y (k + 1)

/-- **C114** The sum of the values of a convolution is the product of the sums of the samples. -/
theorem C114_convolve_sum {V : Type} [Field V] [Algebra K V] (r1 r2 c : Rel K V) (h1 : Balanced r1) (h2 : Balanced r2)
    (k1 k2 : ℕ) (s : K) (hs : 0 < s)
    (s1 : r1.x.sample = s) (s2 : r2.x.sample = s) (d1 : r1.x.stop - r1.x.start = k1 * s)
    (d2 : r2.x.stop - r2.x.start = k2 * s) (hc : r1.convolve r2 = .ok c) :
    c.y.sum = r1.y.sum * r2.y.sum := by
  obtain ⟨c', hc', -, -, -, hl, hv⟩ := C28_values r1 r2 h1 h2 k1 k2 s hs s1 s2 d1 d2
  obtain rfl := Except.ok.inj (hc.symm.trans hc')
  have hn : ∀ (r : Rel K V) (k : ℕ), Balanced r → r.x.sample = s → r.x.stop - r.x.start = k * s → r.y.length = k + 1 := by
    intro r k hb e1 e2
    have := (balanced_iff r).1 hb
    rw [this.2, Nat.add_right_cancel_iff, Axis.steps_eq_iff, ← pyRound_eq_iff, e1, e2, mul_div_cancel_right₀ _ hs.ne',
      abs_of_nonneg (Nat.cast_nonneg k), pyRound_natCast]
  have l1 := hn r1 k1 h1 s1 d1
  have l2 := hn r2 k2 h2 s2 d2
  have e0 := list_sum_eq c.y
  rw [e0, hl]
  have hterm : ∀ k ∈ Finset.range (2 * max k1 k2 + 1), c.y.getD k 0 =
      ∑ p ∈ Finset.antidiagonal k, r1.y.getD p.1 0 * r2.y.getD p.2 0 := by
    intro k hk
    have hk' := Finset.mem_range.1 hk
    rw [getD_lt _ _ _ (by omega), hv k (by omega)]
  rw [Finset.sum_congr rfl hterm, list_sum_eq r1.y, list_sum_eq r2.y, l1, l2, Finset.sum_mul_sum, ← Finset.sum_product',
    Finset.sum_sigma']
  symm
  apply Finset.sum_of_injOn (fun p => (⟨p.1 + p.2, p⟩ : Σ _ : ℕ, ℕ × ℕ))
  · intro p _ q _ h
    simp only [Sigma.mk.injEq] at h
    exact eq_of_heq h.2
  · intro p hp
    simp only [Finset.coe_product, Set.mem_prod, Finset.mem_coe, Finset.mem_range] at hp
    simp only [Finset.coe_sigma, Set.mem_sigma_iff, Finset.mem_coe, Finset.mem_range, Finset.mem_antidiagonal, and_true]
    have := le_max_left k1 k2
    have := le_max_right k1 k2
    omega
  · rintro ⟨k, p⟩ hp hnp
    simp only [Finset.mem_sigma, Finset.mem_range, Finset.mem_antidiagonal] at hp
    simp only [Set.mem_image, Finset.mem_coe, Finset.mem_product, Finset.mem_range, not_exists, not_and] at hnp
    have : ¬ (p.1 < k1 + 1 ∧ p.2 < k2 + 1) := by
      intro h
      exact hnp p h (by rw [← hp.2])
    change r1.y.getD p.1 0 * r2.y.getD p.2 0 = 0
    rcases Nat.lt_or_ge p.1 (k1 + 1) with h | h
    · rw [getD_beyond r2.y _ (by omega), mul_zero]
    · rw [getD_beyond r1.y _ (by omega), zero_mul]
  · intro p _
    rfl

/-- **C114** The square of a value of a correlation is at most the product of the sums of squares of the samples. -/
theorem C114_correlate [StarRing K] [TrivialStar K] (r1 r2 c : Rel K K) (h1 : Balanced r1) (h2 : Balanced r2) (k1 k2 : ℕ)
    (s : K) (hs : 0 < s) (s1 : r1.x.sample = s) (s2 : r2.x.sample = s) (d1 : r1.x.stop - r1.x.start = k1 * s)
    (d2 : r2.x.stop - r2.x.start = k2 * s) (hc : r1.correlate r2 = .ok c) :
    ∀ v ∈ c.y, v ^ 2 ≤ (r1.y.map fun a => a ^ 2).sum * (r2.y.map fun a => a ^ 2).sum := by
  obtain ⟨c', hc', -, -, -, -, hv⟩ := C29_values r1 r2 h1 h2 k1 k2 s hs s1 s2 d1 d2
  obtain rfl := Except.ok.inj (hc.symm.trans hc')
  intro v hm
  obtain ⟨j, hj, rfl⟩ := List.getElem_of_mem hm
  rw [hv j hj]
  simp only [star_trivial]
  refine (Finset.sum_mul_sq_le_sq_mul_sq _ _ _).trans ?_
  have a1 := sum_zext_sq_le r1.y (max k1 k2 + 1) ((j : ℤ) - max k1 k2)
  rw [sum_getD_eq (fun a : K => a ^ 2) (by norm_num) r1.y _ le_rfl] at a1
  have a2 := sum_getD_le (fun a : K => a ^ 2) (by norm_num) (fun b => sq_nonneg b) r2.y (max k1 k2 + 1)
  exact mul_le_mul a1 a2 (Finset.sum_nonneg fun i _ => sq_nonneg _)
    (List.sum_nonneg fun a ha => by obtain ⟨b, -, rfl⟩ := List.mem_map.1 ha; exact sq_nonneg b)

/-- the norms of the two relations are 19 and 3, of their sum 24 and of their difference 20 -/
example : (⟨⟨0, 2, 1⟩, [2, 3, 4]⟩ : Rel ℚ ℚ).getNorm = .ok 19 ∧ (⟨⟨0, 2, 1⟩, [0, -1, 2]⟩ : Rel ℚ ℚ).getNorm = .ok 3 ∧
    (⟨⟨0, 2, 1⟩, [2, 2, 6]⟩ : Rel ℚ ℚ).getNorm = .ok 24 ∧ (⟨⟨0, 2, 1⟩, [2, 4, 2]⟩ : Rel ℚ ℚ).getNorm = .ok 20 := by
  decide +kernel

/-- a convolution: the sum of its values is 6 · (-9), none is larger than 3 · 11; a correlation: 23² ≤ 14 · 41 -/
example : (⟨⟨1, 3, 1⟩, [1, 2, 3]⟩ : Rel ℚ ℚ).convolve ⟨⟨0, 1, 1⟩, [1, -10]⟩ = .ok ⟨⟨-2, 2, 1⟩, [1, -8, -17, -30, 0]⟩ ∧
    (⟨⟨1, 3, 1⟩, [1, 2, 3]⟩ : Rel ℚ ℚ).correlate ⟨⟨0, 1, 1⟩, [4, 5]⟩ = .ok ⟨⟨-2, 2, 1⟩, [0, 5, 14, 23, 12]⟩ := by
  decide +kernel

end

end SweepDesign
