import Verif.Props.SweepEnergy
import Verif.Props.Convolution
import Verif.Props.Relation

/-!
# C163: the norm and the correlation at lag zero
-/

set_option linter.unusedSectionVars false

namespace SweepDesign
open Spec

section
variable {K : Type} [Field K] [LinearOrder K] [IsStrictOrderedRing K] [FloorRing K] [PyPow K]

/-- the sum of the trapezoids over equal steps is the sum of the samples less half the ends -/
theorem trapezoids_sum (f : ℕ → K) (k : ℕ) :
    ∑ j ∈ Finset.range k, (f j + f (j + 1)) / 2 = ∑ j ∈ Finset.range (k + 1), f j - (f 0 + f k) / 2 := by
  induction k with
  | zero => simp
  | succ k ih =>
    rw [Finset.sum_range_succ, ih, Finset.sum_range_succ _ (k + 1)]
    ring

/-- the norm over whole steps -/
theorem norm_whole (r : Rel K K) (hb : Spec.Balanced r) (k : ℕ) (hs : 0 < r.x.sample) (hw : r.x.stop - r.x.start = k * r.x.sample) :
    r.y.length = k + 1 ∧ r.getNorm = .ok (∑ j ∈ Finset.range (k + 1), r.y.getD j 0 ^ 2 - (r.y.getD 0 0 ^ 2 + r.y.getD k 0 ^ 2) / 2) := by
  obtain ⟨⟨lx, ly⟩, hd⟩ := (balanced_iff_getData r).1 hb
  obtain ⟨hx, hy, hlen⟩ := (getData_ok_iff _ _ _).1 hd
  rw [array_whole r.x k hs hw, Except.ok.injEq] at hx
  subst hx
  have hl : r.y.length = k + 1 := by rw [← hy]; simpa using hlen.symm
  subst hy
  refine ⟨hl, ?_⟩
  rw [getNorm_eq _ _ _ hd, hl, Nat.add_sub_cancel, Except.ok.injEq, ← trapezoids_sum (fun j => r.y.getD j 0 ^ 2), smul_eq_mul, Finset.mul_sum]
  apply Finset.sum_congr rfl
  intro j hj
  rw [Finset.mem_range] at hj
  rw [getD_lt _ _ _ (by simp; omega), getD_lt _ _ _ (by simp; omega)]
  simp only [List.getElem_map, List.getElem_range, smul_eq_mul]
  have := hs.ne'
  push_cast
  field_simp
  ring

/-- the value found at lag zero of a correlation -/
theorem item_zero (c : Rel K K) (k : ℕ) (s : K) (hs : 0 < s) (h1 : c.x.start = -(k * s)) (h2 : c.x.stop = k * s) (h3 : c.x.sample = s)
    (hl : c.y.length = 2 * k + 1) : c.getItem 0 = .ok (0, c.y.getD k 0) := by
  have ha := array_whole c.x (2 * k) (by rw [h3]; exact hs) (by rw [h1, h2, h3]; push_cast; ring)
  have hd : c.getData = .ok (_, c.y) := (getData_ok_iff _ _ _).2 ⟨ha, rfl, by simp [hl]⟩
  obtain ⟨i, hi, hi', e, hm, -⟩ := C12_nearest_sample c _ _ hd 0
  have hk : k < ((List.range (2 * k + 1)).map fun i : ℕ => c.x.start + (i : K) * c.x.sample).length := by simp; omega
  have := hm k hk
  simp only [List.getElem_map, List.getElem_range, h1, h3, sub_zero, neg_add_cancel, abs_zero] at this
  have h0 := abs_eq_zero.1 (le_antisymm this (abs_nonneg _))
  have hik : i = k := by
    have : ((i : K) - k) * s = 0 := by rw [← h0]; ring
    rcases mul_eq_zero.1 this with h | h
    · exact_mod_cast sub_eq_zero.1 h
    · exact absurd h hs.ne'
  subst hik
  rw [e, getD_lt _ _ _ hi']
  simp only [List.getElem_map, List.getElem_range, h1, h3, neg_add_cancel]

variable [StarRing K] [TrivialStar K]

/-- **C163.** The correlation of two relations of `k` steps at lag zero is the sum of the products of their samples. -/
theorem C163_lag_zero (r1 r2 : Rel K K) (b1 : Spec.Balanced r1) (b2 : Spec.Balanced r2) (k : ℕ) (s : K) (hs : 0 < s)
    (s1 : r1.x.sample = s) (s2 : r2.x.sample = s) (w1 : r1.x.stop - r1.x.start = k * s) (w2 : r2.x.stop - r2.x.start = k * s) :
    ∃ c, r1.correlate r2 = .ok c ∧ c.getItem 0 = .ok (0, ∑ j ∈ Finset.range (k + 1), r1.y.getD j 0 * r2.y.getD j 0) := by
  obtain ⟨c, hc, e1, e2, e3, e4, e5⟩ := C29_values r1 r2 b1 b2 k k s hs s1 s2 w1 w2
  simp only [max_self] at e1 e2 e4 e5
  refine ⟨c, hc, ?_⟩
  rw [item_zero c k s hs e1 e2 e3 e4, getD_lt _ _ _ (by omega), e5 k (by omega)]
  have hl := (norm_whole r1 b1 k (s1 ▸ hs) (by rw [w1, s1])).1
  congr 2
  apply Finset.sum_congr rfl
  intro j hj
  rw [Finset.mem_range] at hj
  rw [sub_self, add_zero, star_trivial, zext_natCast]

/-- **C163.** At lag zero the autocorrelation is the norm plus half the squares of the first and the last sample, and no value of it is larger. -/
theorem C163_norm (r : Rel K K) (hb : Spec.Balanced r) (k : ℕ) (hs : 0 < r.x.sample) (hw : r.x.stop - r.x.start = k * r.x.sample) :
    ∃ c v w, r.correlate r = .ok c ∧ r.getNorm = .ok v ∧ c.getItem 0 = .ok (0, w) ∧
      w = v + (r.y.getD 0 0 ^ 2 + r.y.getD k 0 ^ 2) / 2 ∧ ∀ u ∈ c.y, |u| ≤ w := by
  obtain ⟨hl, hn⟩ := norm_whole r hb k hs hw
  obtain ⟨c, hc, e⟩ := C163_lag_zero r r hb hb k _ hs rfl rfl hw hw
  obtain ⟨a1, -, a3⟩ := C29_autocorrelation r c hb hc
  obtain ⟨a4, a5⟩ := a3 (by omega)
  refine ⟨c, _, _, hc, hn, e, ?_, ?_⟩
  · simp only [← sq]
    ring
  · intro u hu
    refine (a5 u hu).trans (le_of_eq ?_)
    rw [a4, hl]
    simp only [sq]

/-- **C163.** The norms of a sum and of a difference: the norms add up to twice the norms of the parts, and differ by what the correlation
shows at lag zero. -/
theorem C163_sum (same : Bool) (r1 r2 : Rel K K) (b1 : Spec.Balanced r1) (b2 : Spec.Balanced r2) (hx : r1.x = r2.x) (k : ℕ)
    (hs : 0 < r1.x.sample) (hw : r1.x.stop - r1.x.start = k * r1.x.sample) :
    ∃ p m c v1 v2 vp vm w, r1.add (.rel same r2) = .ok p ∧ r1.sub (.rel same r2) = .ok m ∧ r1.correlate r2 = .ok c ∧
      r1.getNorm = .ok v1 ∧ r2.getNorm = .ok v2 ∧ p.getNorm = .ok vp ∧ m.getNorm = .ok vm ∧ c.getItem 0 = .ok (0, w) ∧
      vp + vm = 2 * (v1 + v2) ∧
      vp - vm = 4 * w - 2 * (r1.y.getD 0 0 * r2.y.getD 0 0 + r1.y.getD k 0 * r2.y.getD k 0) := by
  obtain ⟨l1, n1⟩ := norm_whole r1 b1 k hs hw
  obtain ⟨l2, n2⟩ := norm_whole r2 b2 k (hx ▸ hs) (by rw [← hx, hw])
  obtain ⟨c, hc, e⟩ := C163_lag_zero r1 r2 b1 b2 k _ hs rfl (by rw [hx]) hw (by rw [← hx, hw])
  have hp : r1.add (.rel same r2) = .ok ⟨r1.x, List.zipWith (· + ·) r1.y r2.y⟩ := by
    unfold Rel.add
    have e : List.zipWith (MathOp.fn .add) r1.y r2.y = (List.zipWith (· + ·) r1.y r2.y).map some := zipWith_some (fun a b : K => a + b) _ _
    rw [operation_equal_axes same r1 r2 _ b1 b2 hx, e, finite_map_some]
    rfl
  have hm : r1.sub (.rel same r2) = .ok ⟨r1.x, List.zipWith (· - ·) r1.y r2.y⟩ := by
    unfold Rel.sub
    have e : List.zipWith (MathOp.fn .sub) r1.y r2.y = (List.zipWith (· - ·) r1.y r2.y).map some := zipWith_some (fun a b : K => a - b) _ _
    rw [operation_equal_axes same r1 r2 _ b1 b2 hx, e, finite_map_some]
    rfl
  have hsize : ∀ y : List K, y.length = k + 1 → Spec.Balanced (⟨r1.x, y⟩ : Rel K K) := by
    intro y hy
    exact (balanced_iff_getData _).2 ⟨_, (getData_ok_iff _ _ _).2 ⟨array_whole r1.x k hs hw, rfl, by simp [hy]⟩⟩
  obtain ⟨-, np⟩ := norm_whole _ (hsize (List.zipWith (· + ·) r1.y r2.y) (by simp [l1, l2])) k hs hw
  obtain ⟨-, nm⟩ := norm_whole _ (hsize (List.zipWith (· - ·) r1.y r2.y) (by simp [l1, l2])) k hs hw
  have zp : ∀ j ≤ k, (List.zipWith (· + ·) r1.y r2.y).getD j 0 = r1.y.getD j 0 + r2.y.getD j 0 := by
    intro j hj
    rw [getD_lt _ _ _ (by simp; omega), getD_lt _ _ _ (by omega), getD_lt _ _ _ (by omega), List.getElem_zipWith]
  have zm : ∀ j ≤ k, (List.zipWith (· - ·) r1.y r2.y).getD j 0 = r1.y.getD j 0 - r2.y.getD j 0 := by
    intro j hj
    rw [getD_lt _ _ _ (by simp; omega), getD_lt _ _ _ (by omega), getD_lt _ _ _ (by omega), List.getElem_zipWith]
  refine ⟨_, _, c, _, _, _, _, _, hp, hm, hc, n1, n2, np, nm, e, ?_, ?_⟩
  · simp only [zp 0 (by omega), zp k le_rfl, zm 0 (by omega), zm k le_rfl]
    have : ∑ j ∈ Finset.range (k + 1), (List.zipWith (· + ·) r1.y r2.y).getD j 0 ^ 2 +
        ∑ j ∈ Finset.range (k + 1), (List.zipWith (· - ·) r1.y r2.y).getD j 0 ^ 2 =
        2 * (∑ j ∈ Finset.range (k + 1), r1.y.getD j 0 ^ 2 + ∑ j ∈ Finset.range (k + 1), r2.y.getD j 0 ^ 2) := by
      rw [← Finset.sum_add_distrib, ← Finset.sum_add_distrib, Finset.mul_sum]
      apply Finset.sum_congr rfl
      intro j hj
      rw [Finset.mem_range] at hj
      rw [zp j (by omega), zm j (by omega)]
      ring
    linear_combination this
  · simp only [zp 0 (by omega), zp k le_rfl, zm 0 (by omega), zm k le_rfl]
    have : ∑ j ∈ Finset.range (k + 1), (List.zipWith (· + ·) r1.y r2.y).getD j 0 ^ 2 -
        ∑ j ∈ Finset.range (k + 1), (List.zipWith (· - ·) r1.y r2.y).getD j 0 ^ 2 =
        4 * ∑ j ∈ Finset.range (k + 1), r1.y.getD j 0 * r2.y.getD j 0 := by
      rw [← Finset.sum_sub_distrib, Finset.mul_sum]
      apply Finset.sum_congr rfl
      intro j hj
      rw [Finset.mem_range] at hj
      rw [zp j (by omega), zm j (by omega)]
      ring
    linear_combination this

end

/-- the samples 1, 2, 3: the norm is 9, the autocorrelation has the peak 14 -/
example [PyPow ℝ] : ∃ c, (⟨⟨0, 2, 1⟩, [1, 2, 3]⟩ : Rel ℝ ℝ).correlate ⟨⟨0, 2, 1⟩, [1, 2, 3]⟩ = .ok c ∧
    (⟨⟨0, 2, 1⟩, [1, 2, 3]⟩ : Rel ℝ ℝ).getNorm = .ok 9 ∧ c.getItem 0 = .ok (0, 14) ∧ ∀ u ∈ c.y, |u| ≤ 14 := by
  have hw : (2 : ℝ) - 0 = (2 : ℕ) * 1 := by norm_num
  have hb : Spec.Balanced (⟨⟨0, 2, 1⟩, [1, 2, 3]⟩ : Rel ℝ ℝ) :=
    (balanced_iff_getData _).2 ⟨_, (getData_ok_iff _ _ _).2 ⟨array_whole ⟨0, 2, 1⟩ 2 one_pos hw, rfl, rfl⟩⟩
  obtain ⟨-, hn⟩ := norm_whole _ hb 2 one_pos hw
  obtain ⟨c, v, w, h1, h2, h3, h4, h5⟩ := C163_norm _ hb 2 one_pos hw
  obtain rfl : v = 9 := by
    rw [hn] at h2
    simp only [Except.ok.injEq] at h2
    rw [← h2]
    norm_num [Finset.sum_range_succ]
  norm_num at h4
  subst h4
  exact ⟨c, h1, h2, h3, h5⟩

/-- the samples 1, 2, 3 and 1, 0, -1: the norms 9 and 1, the product sum -2, the norms of sum and difference 8 and 12 -/
example [PyPow ℝ] : ∃ p m c, (⟨⟨0, 2, 1⟩, [1, 2, 3]⟩ : Rel ℝ ℝ).add (.rel false ⟨⟨0, 2, 1⟩, [1, 0, -1]⟩) = .ok p ∧
    (⟨⟨0, 2, 1⟩, [1, 2, 3]⟩ : Rel ℝ ℝ).sub (.rel false ⟨⟨0, 2, 1⟩, [1, 0, -1]⟩) = .ok m ∧
    (⟨⟨0, 2, 1⟩, [1, 2, 3]⟩ : Rel ℝ ℝ).correlate ⟨⟨0, 2, 1⟩, [1, 0, -1]⟩ = .ok c ∧ c.getItem 0 = .ok (0, -2) ∧
    p.getNorm = .ok 8 ∧ m.getNorm = .ok 12 := by
  have hw : (2 : ℝ) - 0 = (2 : ℕ) * 1 := by norm_num
  have hb : ∀ a b c : ℝ, Spec.Balanced (⟨⟨0, 2, 1⟩, [a, b, c]⟩ : Rel ℝ ℝ) := fun a b c =>
    (balanced_iff_getData _).2 ⟨_, (getData_ok_iff _ _ _).2 ⟨array_whole ⟨0, 2, 1⟩ 2 one_pos hw, rfl, rfl⟩⟩
  obtain ⟨p, m, c, v1, v2, vp, vm, w, h1, h2, h3, h4, h5, h6, h7, h8, h9, h10⟩ :=
    C163_sum false _ _ (hb 1 2 3) (hb 1 0 (-1)) rfl 2 one_pos hw
  obtain ⟨c', e1, e2⟩ := C163_lag_zero _ _ (hb 1 2 3) (hb 1 0 (-1)) 2 1 one_pos rfl rfl hw hw
  obtain rfl : c = c' := by rw [h3] at e1; simpa using e1
  rw [(norm_whole _ (hb 1 2 3) 2 one_pos hw).2, Except.ok.injEq] at h4
  rw [(norm_whole _ (hb 1 0 (-1)) 2 one_pos hw).2, Except.ok.injEq] at h5
  rw [h8, Except.ok.injEq, Prod.mk.injEq] at e2
  obtain ⟨-, rfl⟩ := e2
  norm_num [Finset.sum_range_succ] at h4 h5 h10 h8
  subst h4 h5
  obtain rfl : vp = 8 := by linarith
  obtain rfl : vm = 12 := by linarith
  exact ⟨p, m, c, h1, h2, h3, h8, h6, h7⟩

/-- **C163.** The peak of the autocorrelation of a linear sweep of `k` steps without taper is half of `k` up to the bound of C162 and one. -/
theorem C163_sweep [PyPow ℝ] (P : SweepPrims ℝ) (hsin : P.sin = Real.sin) (hpi : P.pi = Real.pi) (t : Axis ℝ) (h0 : t.start = 0)
    (hs : 0 < t.sample) (k : ℕ) (hk : 1 ≤ k) (hT : t.stop = k * t.sample) (fs fe : ℝ) (hfs : 0 < fs) (hfe : 0 < fe) (s : Sweep ℝ)
    (h : getLinearSweep P (.axis t) fs fe none = .ok s) :
    ∃ c w, s.rel.correlate s.rel = .ok c ∧ c.getItem 0 = .ok (0, w) ∧ (∀ u ∈ c.y, |u| ≤ w) ∧
      |w - k / 2| ≤ 1 + 1 / (4 * Real.pi * min fs fe * t.sample) +
        (2 * Real.pi * |fe - fs| / t.stop + 8 * Real.pi ^ 2 * max fs fe ^ 2) * t.sample * t.stop / 12 := by
  obtain ⟨c1, -, -, c4, -, c6, c7⟩ := C51_closed_form P hsin hpi t h0 hs k hk hT fs fe none s h
  obtain ⟨v, e1, e2⟩ := C162_energy P hsin hpi t h0 hs k hk hT fs fe hfs hfe s h
  have hw : t.stop - t.start = k * t.sample := by rw [hT, h0, sub_zero]
  have hb : Spec.Balanced s.rel :=
    (balanced_iff_getData _).2 ⟨_, (getData_ok_iff _ _ _).2 ⟨by rw [c1]; exact array_whole t k hs hw, rfl, by simp [c4]⟩⟩
  obtain ⟨c, v', w, a1, a2, a3, a4, a5⟩ := C163_norm s.rel hb k (by rw [c1]; exact hs) (by rw [c1]; exact hw)
  obtain rfl : v = v' := by rw [e1] at a2; simpa using a2
  refine ⟨c, w, a1, a3, a5, ?_⟩
  have hy : ∀ i ≤ k, s.rel.y.getD i 0 ^ 2 ≤ 1 := by
    intro i hi
    have hA : s.amplitudeTime.y.getD i 0 = 1 := by
      simp only [tukeyAT, Except.ok.injEq] at c6
      rw [← c6, getD_lt _ _ _ (by simp; omega)]
      simp
    rw [(c7 i hi).2, hA, one_mul]
    exact Real.sin_sq_le_one _
  have y0 := hy 0 (by omega)
  have yk := hy k le_rfl
  have p0 := sq_nonneg (s.rel.y.getD 0 0)
  have pk := sq_nonneg (s.rel.y.getD k 0)
  have hd : |w - v| ≤ 1 := by rw [a4, abs_le]; constructor <;> linarith
  have := abs_sub_le w v (k / 2)
  linarith

/-- ten seconds from 1 Hz up to 100 Hz at a tenth of a millisecond: the peak is 50000 within 3000 -/
example [PyPow ℝ] : ∃ s c w, getLinearSweep realPrims (.axis ⟨0, 10, 1 / 10000⟩) 1 100 none = .ok s ∧ s.rel.correlate s.rel = .ok c ∧
    c.getItem 0 = .ok (0, w) ∧ |w - 50000| ≤ 3000 := by
  obtain ⟨s, hs⟩ := C51_succeeds realPrims ⟨0, 10, 1 / 10000⟩ rfl (by norm_num) 100000 (by norm_num) (by norm_num) 1 100 none
    fun r _ _ => realPrims_works r
  obtain ⟨c, w, h1, h2, -, h3⟩ := C163_sweep realPrims rfl rfl ⟨0, 10, 1 / 10000⟩ rfl (by norm_num) 100000 (by norm_num) (by norm_num) 1 100
    one_pos (by norm_num) s hs
  refine ⟨s, c, w, hs, h1, h2, ?_⟩
  rw [min_eq_left (by norm_num), max_eq_right (by norm_num)] at h3
  have p1 := Real.two_le_pi
  have p2 := Real.pi_le_four
  have p3 : Real.pi ^ 2 ≤ 16 := by nlinarith
  have a1 : 1 / (4 * Real.pi * 1 * (1 / 10000)) ≤ 10000 / 8 := by
    rw [div_le_div_iff₀ (by positivity) (by norm_num)]
    linarith
  norm_num at h3 a1 ⊢
  linarith

end SweepDesign
