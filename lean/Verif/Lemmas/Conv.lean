import Verif.Lemmas.Arith
import Mathlib.Algebra.BigOperators.NatAntidiagonal
import Mathlib.Algebra.Star.BigOperators
import Mathlib.Algebra.Order.BigOperators.Group.Finset
import Mathlib.Algebra.Order.Interval.Set.Instances
import Mathlib.Data.Int.Interval
import Mathlib.Algebra.BigOperators.Field

/-! # Convolution and correlation -/

set_option linter.unusedSectionVars false
set_option linter.unnecessarySeqFocus false

namespace SweepDesign
open Spec

section Lists
variable {V : Type} [CommSemiring V]

theorem npConvolve_length (a v : List V) : (npConvolve a v).length = a.length + v.length - 1 := by
  simp [npConvolve]

theorem sum_map_range (f : ℕ → V) (n : ℕ) : ((List.range n).map f).sum = ∑ i ∈ Finset.range n, f i := by
  induction n with
  | zero => simp
  | succ n ih => simp [List.range_succ, Finset.sum_range_succ, ih]

theorem npConvolve_getElem (a v : List V) (k : ℕ) (h : k < (npConvolve a v).length) :
    (npConvolve a v)[k] = ∑ p ∈ Finset.antidiagonal k, a.getD p.1 0 * v.getD p.2 0 := by
  simp only [npConvolve, List.getElem_map, List.getElem_range, sum_map_range, at0]
  rw [Finset.Nat.sum_antidiagonal_eq_sum_range_succ (fun i j => a.getD i 0 * v.getD j 0)]

theorem npConvolve_comm (a v : List V) : npConvolve a v = npConvolve v a := by
  apply List.ext_getElem
  · rw [npConvolve_length, npConvolve_length, add_comm]
  · intro k h1 h2
    rw [npConvolve_getElem, npConvolve_getElem, ← Finset.Nat.sum_antidiagonal_swap]
    apply Finset.sum_congr rfl
    intro p _
    simp [mul_comm]

theorem getD_reverse (l : List V) (t : ℕ) (h : t < l.length) : l.reverse.getD t 0 = l.getD (l.length - 1 - t) 0 := by
  rw [getD_lt _ _ _ (by simpa using h), getD_lt _ _ _ (by omega), List.getElem_reverse]

theorem zext_natCast (l : List V) (i : ℕ) : zext l (i : ℤ) = l.getD i 0 := by
  simp [zext]

theorem zext_neg (l : List V) (i : ℤ) (h : i < 0) : zext l i = 0 := by
  simp [zext, not_le.2 h]

theorem zext_ge (l : List V) (i : ℤ) (h : (l.length : ℤ) ≤ i) : zext l i = 0 := by
  unfold zext
  split_ifs with h0
  · exact getD_ge _ _ _ (by omega)
  · rfl

theorem npCorrelate_anti [Star V] (a v : List V) (k : ℕ) (h : k < (npCorrelate a v).length) :
    (npCorrelate a v)[k] = ∑ p ∈ Finset.antidiagonal k, a.getD p.1 0 * ((v.map star).reverse).getD p.2 0 := by
  simp only [npCorrelate]
  rw [npConvolve_getElem]

/-- correlation by lag -/
theorem npCorrelate_getElem [StarRing V] (a v : List V) (hv : v ≠ []) (j : ℕ)
    (h : j < (npCorrelate a v).length) :
    (npCorrelate a v)[j] = ∑ m ∈ Finset.range v.length,
      zext a (m + j - (v.length - 1)) * star (v.getD m 0) := by
  have hn : 0 < v.length := List.length_pos_iff.2 hv
  set n := v.length with hnd
  set w := (v.map star).reverse with hw
  have hwl : w.length = n := by simp [hw, hnd]
  have hwd : ∀ t, t < n → w.getD t 0 = star (v.getD (n - 1 - t) 0) := by
    intro t ht
    rw [hw, getD_reverse _ _ (by simpa using ht), List.length_map, getD_lt _ _ _ (by simp; omega), List.getElem_map,
      getD_lt _ _ _ (by omega)]
  rw [npCorrelate_anti, ← hw, Finset.Nat.sum_antidiagonal_eq_sum_range_succ (fun i j => a.getD i 0 * w.getD j 0)]
  have e1 : ∑ i ∈ Finset.range j.succ, a.getD i 0 * w.getD (j - i) 0 =
      ∑ i ∈ (Finset.range j.succ).filter (fun i => j < i + n), a.getD i 0 * w.getD (j - i) 0 := by
    symm
    apply Finset.sum_filter_of_ne
    intro i _ hne
    by_contra hc
    apply hne
    rw [getD_ge w _ _ (by omega), mul_zero]
  have e2 : ∑ m ∈ Finset.range n, zext a (m + j - ((n : ℤ) - 1)) * star (v.getD m 0) =
      ∑ m ∈ (Finset.range n).filter (fun m => n - 1 ≤ m + j), zext a (m + j - ((n : ℤ) - 1)) * star (v.getD m 0) := by
    symm
    apply Finset.sum_filter_of_ne
    intro m _ hne
    by_contra hc
    apply hne
    rw [zext_neg _ _ (by omega), zero_mul]
  rw [e1, e2]
  apply Finset.sum_nbij' (fun i => i + n - 1 - j) (fun m => m + j + 1 - n)
  · intro i hi
    simp only [Finset.mem_filter, Finset.mem_range] at hi ⊢
    omega
  · intro i hi
    simp only [Finset.mem_filter, Finset.mem_range] at hi ⊢
    omega
  · intro i hi
    simp only [Finset.mem_filter, Finset.mem_range] at hi ⊢
    omega
  · intro i hi
    simp only [Finset.mem_filter, Finset.mem_range] at hi ⊢
    omega
  · intro i hi
    simp only [Finset.mem_filter, Finset.mem_range] at hi
    rw [hwd _ (by omega)]
    have h1 : ((i + n - 1 - j : ℕ) : ℤ) + j - ((n : ℤ) - 1) = (i : ℤ) := by omega
    rw [h1, zext_natCast]
    congr 3
    omega

theorem npCorrelate_length [Star V] (a v : List V) : (npCorrelate a v).length = a.length + v.length - 1 := by
  simp [npCorrelate, npConvolve_length]

/-- swapping the arguments of a correlation of lists of equal length -/
theorem npCorrelate_swap [StarRing V] (a v : List V) (h : a.length = v.length) :
    npCorrelate v a = ((npCorrelate a v).map star).reverse := by
  rcases Nat.eq_zero_or_pos a.length with h0 | h0
  · have ha : a = [] := List.length_eq_zero_iff.1 h0
    have hv : v = [] := List.length_eq_zero_iff.1 (h ▸ h0)
    subst ha; subst hv; rfl
  apply List.ext_getElem
  · simp [npCorrelate_length, add_comm]
  intro k h1 h2
  rw [List.getElem_reverse, List.getElem_map]
  simp only [List.length_map]
  rw [npCorrelate_anti, npCorrelate_anti, star_sum]
  have hk : k < 2 * a.length - 1 := by
    rw [npCorrelate_length] at h1; omega
  rw [npCorrelate_length]
  -- both sides as sums over `range`
  have key : ∀ (x y : List V), x.length = a.length → y.length = a.length → ∀ k, k < 2 * a.length - 1 →
      ∑ p ∈ Finset.antidiagonal k, x.getD p.1 0 * ((y.map star).reverse).getD p.2 0 =
      ∑ p ∈ (Finset.range a.length ×ˢ Finset.range a.length).filter (fun p => p.1 + a.length = p.2 + k + 1),
        x.getD p.1 0 * star (y.getD p.2 0) := by
    intro x y hx hy k hk
    have e1 : ∑ p ∈ Finset.antidiagonal k, x.getD p.1 0 * ((y.map star).reverse).getD p.2 0 =
        ∑ p ∈ (Finset.antidiagonal k).filter (fun p => p.1 < a.length ∧ p.2 < a.length),
          x.getD p.1 0 * ((y.map star).reverse).getD p.2 0 := by
      symm
      apply Finset.sum_filter_of_ne
      intro p _ hne
      constructor
      · by_contra hc
        exact hne (by rw [getD_ge x _ _ (by omega), zero_mul])
      · by_contra hc
        exact hne (by rw [getD_ge ((y.map star).reverse) _ _ (by simp; omega), mul_zero])
    rw [e1]
    apply Finset.sum_nbij' (fun p => (p.1, a.length - 1 - p.2)) (fun p => (p.1, a.length - 1 - p.2))
    · rintro ⟨i, j⟩ hp
      simp only [Finset.mem_filter, Finset.mem_antidiagonal, Finset.mem_product, Finset.mem_range] at hp ⊢
      omega
    · rintro ⟨i, j⟩ hp
      simp only [Finset.mem_filter, Finset.mem_antidiagonal, Finset.mem_product, Finset.mem_range] at hp ⊢
      omega
    · rintro ⟨i, j⟩ hp
      simp only [Finset.mem_filter, Finset.mem_antidiagonal, Prod.mk.injEq, true_and] at hp ⊢
      omega
    · rintro ⟨i, j⟩ hp
      simp only [Finset.mem_filter, Finset.mem_product, Finset.mem_range, Prod.mk.injEq, true_and] at hp ⊢
      omega
    · rintro ⟨i, j⟩ hp
      simp only [Finset.mem_filter, Finset.mem_antidiagonal] at hp
      simp only
      rw [getD_reverse _ _ (by simp; omega), List.length_map, getD_lt (y.map star) _ _ (by simp; omega),
        List.getElem_map, getD_lt y _ _ (by omega)]
      simp only [hy]
  rw [key v a h.symm rfl k hk, ← star_sum, key a v rfl h.symm _ (by omega), star_sum]
  apply Finset.sum_nbij' Prod.swap Prod.swap
  · rintro ⟨i, j⟩ hp
    simp only [Finset.mem_filter, Finset.mem_product, Finset.mem_range, Prod.swap_prod_mk] at hp ⊢
    omega
  · rintro ⟨i, j⟩ hp
    simp only [Finset.mem_filter, Finset.mem_product, Finset.mem_range, Prod.swap_prod_mk] at hp ⊢
    omega
  · rintro ⟨i, j⟩ _; rfl
  · rintro ⟨i, j⟩ _; rfl
  · rintro ⟨i, j⟩ _
    simp [mul_comm]

end Lists

section Peak
variable {K : Type} [Field K] [LinearOrder K] [IsStrictOrderedRing K]

theorem sum_zext_sq_le (a : List K) (n : ℕ) (k : ℤ) :
    ∑ m ∈ Finset.range n, zext a (m + k) ^ 2 ≤ ∑ m ∈ Finset.range a.length, a.getD m 0 ^ 2 := by
  have h1 : ∑ m ∈ Finset.range n, zext a (m + k) ^ 2 =
      ∑ m ∈ (Finset.range n).filter (fun m : ℕ => 0 ≤ (m : ℤ) + k ∧ (m : ℤ) + k < a.length), zext a (m + k) ^ 2 := by
    symm
    apply Finset.sum_filter_of_ne
    intro m _ hne
    constructor
    · by_contra hc
      exact hne (by rw [zext_neg _ _ (by omega)]; ring)
    · by_contra hc
      exact hne (by rw [zext_ge _ _ (by omega)]; ring)
  rw [h1]
  have h2 : ∑ m ∈ (Finset.range n).filter (fun m : ℕ => 0 ≤ (m : ℤ) + k ∧ (m : ℤ) + k < a.length), zext a (m + k) ^ 2 =
      ∑ i ∈ ((Finset.range n).filter (fun m : ℕ => 0 ≤ (m : ℤ) + k ∧ (m : ℤ) + k < a.length)).image
        (fun m : ℕ => ((m : ℤ) + k).toNat), a.getD i 0 ^ 2 := by
    rw [Finset.sum_image]
    · apply Finset.sum_congr rfl
      intro m hm
      simp only [Finset.mem_filter] at hm
      simp [zext, hm.2.1]
    · intro x hx y hy hxy
      simp only [Finset.coe_filter, Set.mem_ofPred_eq] at hx hy
      simp only at hxy
      omega
  rw [h2]
  apply Finset.sum_le_sum_of_subset_of_nonneg
  · intro i hi
    simp only [Finset.mem_image, Finset.mem_filter] at hi
    obtain ⟨m, hm, rfl⟩ := hi
    simp only [Finset.mem_range]
    omega
  · intro i _ _
    positivity

theorem abs_sum_zext_le (a : List K) (k : ℤ) :
    |∑ m ∈ Finset.range a.length, zext a (m + k) * a.getD m 0| ≤ ∑ m ∈ Finset.range a.length, a.getD m 0 ^ 2 := by
  have h1 := sum_zext_sq_le a a.length k
  calc |∑ m ∈ Finset.range a.length, zext a (m + k) * a.getD m 0|
      ≤ ∑ m ∈ Finset.range a.length, |zext a (m + k) * a.getD m 0| := Finset.abs_sum_le_sum_abs _ _
    _ ≤ ∑ m ∈ Finset.range a.length, (zext a (m + k) ^ 2 + a.getD m 0 ^ 2) / 2 := by
        apply Finset.sum_le_sum
        intro m _
        rw [abs_le]
        constructor
        · nlinarith [sq_nonneg (zext a (m + k) + a.getD m 0)]
        · nlinarith [sq_nonneg (zext a (m + k) - a.getD m 0)]
    _ = (∑ m ∈ Finset.range a.length, zext a (m + k) ^ 2 + ∑ m ∈ Finset.range a.length, a.getD m 0 ^ 2) / 2 := by
        rw [← Finset.sum_add_distrib, Finset.sum_div]
    _ ≤ _ := by linarith

end Peak

section Rel
variable {K : Type} [Field K] [LinearOrder K] [IsStrictOrderedRing K] [FloorRing K]

theorem commonX_eq (x y : Axis K) :
    commonX x y = ⟨min x.start y.start, max x.stop y.stop, min x.sample y.sample⟩ := by
  unfold commonX
  congr 1
  · simp [min_def]
  · simp only [max_def]
    split_ifs <;> first | rfl | exact le_antisymm ‹_› ‹_› | (exfalso; linarith)
  · simp [min_def]

theorem commonX_comm (x y : Axis K) : commonX x y = commonX y x := by
  rw [commonX_eq, commonX_eq, min_comm, max_comm, min_comm x.sample]

variable {V : Type} [Field V] [Algebra K V]

theorem shift_ok (r : Rel K V) (hb : Balanced r) (d : K) :
    r.shift d = .ok ⟨{ r.x with start := r.x.start + d, stop := r.x.stop + d }, r.y⟩ := by
  obtain ⟨hs, hl⟩ := (balanced_iff r).1 hb
  apply make_ok
  rw [Axis.size_eq _ (by exact hs), hl]
  congr 2
  simp only [Axis.steps, add_sub_add_right_eq_sub]

/-- the relation shifted to start at zero -/
def Rel.zeroed (r : Rel K V) : Rel K V := ⟨⟨0, r.x.stop - r.x.start, r.x.sample⟩, r.y⟩

theorem zeroed_balanced (r : Rel K V) (hb : Balanced r) : Balanced r.zeroed := by
  rw [balanced_iff] at *
  simpa [Rel.zeroed, Axis.steps] using hb

theorem shift_neg_start (r : Rel K V) (hb : Balanced r) : r.shift (-r.x.start) = .ok r.zeroed := by
  rw [shift_ok r hb]
  simp [Rel.zeroed, sub_eq_add_neg]

/-- everything about the alignment step -/
theorem alignForConv_eq (r1 r2 : Rel K V) (h1 : Balanced r1) (h2 : Balanced r2) :
    ∃ q1 q2, Rel.equalize false r1.zeroed r2.zeroed = .ok (q1, q2) ∧
      Rel.equalize false r2.zeroed r1.zeroed = .ok (q2, q1) ∧
      Rel.alignForConv r1 r2 = .ok (q1, q2, ⟨-(commonX r1.zeroed.x r2.zeroed.x).stop,
        (commonX r1.zeroed.x r2.zeroed.x).stop, (commonX r1.zeroed.x r2.zeroed.x).sample⟩) ∧
      Rel.alignForConv r2 r1 = .ok (q2, q1, ⟨-(commonX r1.zeroed.x r2.zeroed.x).stop,
        (commonX r1.zeroed.x r2.zeroed.x).stop, (commonX r1.zeroed.x r2.zeroed.x).sample⟩) ∧
      Balanced q1 ∧ Balanced q2 ∧ q1.x = commonX r1.zeroed.x r2.zeroed.x ∧ q2.x = commonX r1.zeroed.x r2.zeroed.x ∧
      r1.zeroed.interpAxis (commonX r1.zeroed.x r2.zeroed.x) = .ok q1 ∧
      r2.zeroed.interpAxis (commonX r1.zeroed.x r2.zeroed.x) = .ok q2 := by
  have b1 := zeroed_balanced r1 h1
  have b2 := zeroed_balanced r2 h2
  have hs1 := ((balanced_iff _).1 b1).1
  have hs2 := ((balanced_iff _).1 b2).1
  obtain ⟨⟨l1, y1⟩, d1⟩ := (balanced_iff_getData _).1 b1
  obtain ⟨⟨l2, y2⟩, d2⟩ := (balanced_iff_getData _).1 b2
  have hc := sample_min_ne_zero hs1 hs2
  obtain ⟨q1, xs, ys, a1, a2, a3, a4, a5, -⟩ := interpAxis_spec r1.zeroed l1 y1 d1 _ hc
  obtain ⟨q2, xs2, ys2, c1, c2, c3, c4, c5, -⟩ := interpAxis_spec r2.zeroed l2 y2 d2 _ hc
  have e1 : Rel.equalize false r1.zeroed r2.zeroed = .ok (q1, q2) := by simp [Rel.equalize, a1, c1]
  have e2 : Rel.equalize false r2.zeroed r1.zeroed = .ok (q2, q1) := by
    simp [Rel.equalize, commonX_comm r2.zeroed.x r1.zeroed.x, a1, c1]
  refine ⟨q1, q2, e1, e2, ?_, ?_, (balanced_iff_getData _).2 ⟨_, a5⟩, (balanced_iff_getData _).2 ⟨_, c5⟩, a2, c2, a1, c1⟩
  · simp [Rel.alignForConv, shift_neg_start r1 h1, shift_neg_start r2 h2, e1, a2]
  · simp [Rel.alignForConv, shift_neg_start r1 h1, shift_neg_start r2 h2, e2, c2]

theorem Spec.IsInterpolant.linear {lx : List K} {y1 y2 : List V} {t : K} {v1 v2 : V} (c : V)
    (hl : y1.length = y2.length) (h1 : IsInterpolant lx y1 t v1) (h2 : IsInterpolant lx y2 t v2) :
    IsInterpolant lx (List.zipWith (fun a b => c * a + b) y1 y2) t (c * v1 + v2) where
  outside h := by rw [h1.outside h, h2.outside h, mul_zero, add_zero]
  sample i h h' e := by
    simp only [List.length_zipWith] at h'
    rw [List.getElem_zipWith, ← h1.sample i h (by omega) e, ← h2.sample i h (by omega) e]
  between i h h' e1 e2 := by
    simp only [List.length_zipWith] at h'
    rw [List.getElem_zipWith, List.getElem_zipWith, h1.between i h (by omega) e1 e2, h2.between i h (by omega) e1 e2,
      mul_add, mul_smul_comm, add_add_add_comm, ← smul_add]
    congr 2
    ring

/-- interpolation is linear in the values -/
theorem interpAxis_linear (x nx : Axis K) (y1 y2 : List V) (c : V) (q1 q2 : Rel K V)
    (b1 : Balanced (⟨x, y1⟩ : Rel K V)) (b2 : Balanced (⟨x, y2⟩ : Rel K V)) (hs : nx.sample ≠ 0)
    (h1 : Rel.interpAxis ⟨x, y1⟩ nx = .ok q1) (h2 : Rel.interpAxis ⟨x, y2⟩ nx = .ok q2) :
    Rel.interpAxis ⟨x, List.zipWith (fun a b => c * a + b) y1 y2⟩ nx =
      .ok ⟨nx, List.zipWith (fun a b => c * a + b) q1.y q2.y⟩ := by
  have hl : y1.length = y2.length := balanced_length_eq b1 b2 rfl
  have b3 : Balanced (⟨x, List.zipWith (fun a b => c * a + b) y1 y2⟩ : Rel K V) := by
    rw [balanced_iff] at *
    simpa [← hl] using b1
  obtain ⟨⟨l1, z1⟩, d1⟩ := (balanced_iff_getData _).1 b1
  obtain ⟨hx, hz, hlen⟩ := (getData_ok_iff _ _ _).1 d1
  have hz' : z1 = y1 := hz
  rw [hz'] at d1 hlen
  clear hz hz' z1
  have d2 : (⟨x, y2⟩ : Rel K V).getData = .ok (l1, y2) := (getData_ok_iff _ _ _).2 ⟨hx, rfl, by simpa [← hl] using hlen⟩
  have d3 : (⟨x, List.zipWith (fun a b => c * a + b) y1 y2⟩ : Rel K V).getData =
      .ok (l1, List.zipWith (fun a b => c * a + b) y1 y2) :=
    (getData_ok_iff _ _ _).2 ⟨hx, rfl, by simpa [← hl] using hlen⟩
  obtain ⟨p1, xs, ys1, a1, a2, a3, a4, a5, a6⟩ := interpAxis_spec _ l1 _ d1 nx hs
  obtain ⟨p2, xs2, ys2, e1, e2, e3, e4, e5, e6⟩ := interpAxis_spec _ l1 _ d2 nx hs
  obtain ⟨p3, xs3, ys3, f1, f2, f3, f4, f5, f6⟩ := interpAxis_spec _ l1 _ d3 nx hs
  rw [a3] at e3 f3
  simp only [Except.ok.injEq] at e3 f3
  subst e3; subst f3
  rw [a1] at h1
  rw [e1] at h2
  simp only [Except.ok.injEq] at h1 h2
  subst h1; subst h2
  have g1 := ((getData_ok_iff _ _ _).1 a5).2.2
  have g2 := ((getData_ok_iff _ _ _).1 e5).2.2
  have g3 := ((getData_ok_iff _ _ _).1 f5).2.2
  rw [f1]
  congr 1
  refine Rel.ext' f2 ?_
  simp only [f4, a4, e4]
  apply List.ext_getElem
  · simp; omega
  · intro i i1 i2
    rw [List.getElem_zipWith]
    exact IsInterpolant.unique (by simpa [← hl] using hlen) (Axis.array_monotone hx) (f6 i (by omega) i1)
      (IsInterpolant.linear c hl (a6 i (by omega) (by omega)) (e6 i (by omega) (by omega)))

/-- whole-multiple axes: the aligned operand is the zero-padded operand -/
theorem interp_padded (y : List V) (k m : ℕ) (s : K) (hs : 0 < s) (_hk : k ≤ m) (hl : y.length = k + 1) (q : Rel K V)
    (hq : Rel.interpAxis ⟨⟨0, k * s, s⟩, y⟩ ⟨0, m * s, s⟩ = .ok q) :
    q.x = ⟨0, m * s, s⟩ ∧ q.y = (List.range (m + 1)).map fun i => y.getD i 0 := by
  have st : ∀ n : ℕ, Axis.steps (⟨0, n * s, s⟩ : Axis K) = n := by
    intro n
    have : |((n : K) * s - 0) / s| = n := by
      rw [sub_zero, mul_div_assoc, div_self hs.ne', mul_one, Nat.abs_cast]
    simp only [Axis.steps, this, pyRound_natCast, Int.toNat_natCast]
  have sp : ∀ n : ℕ, Axis.array (⟨0, n * s, s⟩ : Axis K) = .ok ((List.range (n + 1)).map fun i : ℕ => (i : K) * s) := by
    intro n
    rw [Axis.array_eq _ (by exact hs.ne'), st]
    congr 1
    apply List.ext_getElem
    · simp [linspace_length]
    · intro i h1 h2
      rw [linspace_getElem]
      simp only [List.getElem_map, List.getElem_range]
      rcases Nat.eq_zero_or_pos n with h0 | h0
      · subst h0
        simp at h2
        subst h2
        simp
      · have : (n : K) ≠ 0 := by exact_mod_cast h0.ne'
        simp only [Nat.cast_add, Nat.cast_one, add_sub_cancel_right, sub_zero, zero_add]
        field_simp
  have d : (⟨⟨0, k * s, s⟩, y⟩ : Rel K V).getData = .ok ((List.range (k + 1)).map fun i : ℕ => (i : K) * s, y) := by
    rw [getData_ok_iff]
    exact ⟨sp k, rfl, by simp [hl]⟩
  obtain ⟨q', xs, ys, a1, a2, a3, a4, a5, a6⟩ := interpAxis_spec _ _ _ d (⟨0, m * s, s⟩ : Axis K) (by exact hs.ne')
  rw [a1] at hq
  simp only [Except.ok.injEq] at hq
  subst hq
  refine ⟨a2, ?_⟩
  rw [sp m] at a3
  simp only [Except.ok.injEq] at a3
  subst a3
  have hlen := ((getData_ok_iff _ _ _).1 a5).2.2
  simp at hlen
  rw [a4]
  apply List.ext_getElem
  · simp; omega
  intro i h1 h2
  have hint := a6 i (by simp; omega) h1
  simp only [List.getElem_map, List.getElem_range] at hint ⊢
  rcases Nat.lt_or_ge i (k + 1) with hi | hi
  · rw [hint.sample i (by simpa using hi) (by omega) (by simp), getD_lt _ _ _ (by omega)]
  · rw [getD_ge _ _ _ (by omega)]
    apply hint.outside
    rintro ⟨u, hu, w, hw, h3, h4⟩
    simp only [List.mem_map, List.mem_range] at hw
    obtain ⟨j, hj, rfl⟩ := hw
    have : (i : K) ≤ j := le_of_mul_le_mul_right h4 hs
    have : i ≤ j := by exact_mod_cast this
    omega

theorem getD_map_range (f : ℕ → V) (n i : ℕ) (h : i < n) : ((List.range n).map f).getD i 0 = f i := by
  rw [getD_lt _ _ _ (by simpa using h)]
  simp

theorem getD_padded (y : List V) (m i : ℕ) (h : y.length ≤ m) :
    ((List.range m).map fun i => y.getD i 0).getD i 0 = y.getD i 0 := by
  rcases Nat.lt_or_ge i m with hi | hi
  · exact getD_map_range _ _ _ hi
  · rw [getD_ge _ _ _ (by simpa using hi), getD_ge _ _ _ (by omega)]

end Rel

section Round
variable {K : Type} [Field K] [LinearOrder K] [IsStrictOrderedRing K] [FloorRing K]

/-- when rounding commutes with doubling -/
theorem pyRound_two_mul (q : K) : pyRound (2 * q) = 2 * pyRound q ↔ Int.fract q ≤ 1 / 4 ∨ 3 / 4 ≤ Int.fract q := by
  have hf0 := Int.fract_nonneg q
  have hf1 := Int.fract_lt_one q
  have hq : q = ⌊q⌋ + Int.fract q := (Int.floor_add_fract q).symm
  set m := ⌊q⌋
  set f := Int.fract q
  have A : ∀ (t : K) (n : ℤ), |t - n| < 1 / 2 → pyRound t = n := fun t n => pyRound_of_lt
  constructor
  · intro h
    by_contra hc
    push Not at hc
    obtain ⟨h1, h2⟩ := hc
    have e1 : pyRound (2 * q) = 2 * m + 1 := by
      apply A
      rw [hq, abs_lt]
      push_cast
      constructor <;> linarith
    omega
  · intro h
    rcases h with h | h
    · have e1 : pyRound q = m := by
        apply A
        rw [hq, abs_lt]
        constructor <;> linarith
      rw [e1, pyRound_eq_iff]
      refine ⟨?_, fun _ => even_two_mul m⟩
      rw [hq, abs_le]
      push_cast
      constructor <;> linarith
    · have e1 : pyRound q = m + 1 := by
        apply A
        rw [hq, abs_lt]
        push_cast
        constructor <;> linarith
      rw [e1, pyRound_eq_iff]
      refine ⟨?_, fun _ => even_two_mul (m + 1)⟩
      rw [hq, abs_le]
      push_cast
      constructor <;> linarith

end Round

end SweepDesign
