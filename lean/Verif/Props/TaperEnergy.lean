import Verif.Props.EnergyPeak

/-!
# C166: what a taper takes from a linear sweep
-/

set_option linter.unusedSectionVars false

namespace SweepDesign
open Spec

/-- how many of the first `k + 1` multiples of `s` are not above `q` -/
theorem few_below (k : ℕ) {s q : ℝ} (hs : 0 < s) (hq : 0 ≤ q) :
    ∑ j ∈ Finset.range (k + 1), (if (j : ℝ) * s ≤ q then (1 : ℝ) else 0) ≤ q / s + 1 := by
  have hn : ∀ j : ℕ, (j : ℝ) * s ≤ q ↔ j ≤ ⌊q / s⌋₊ := fun j => by
    rw [Nat.le_floor_iff (by positivity), le_div_iff₀ hs]
  simp only [hn]
  rw [← Finset.sum_filter, Finset.sum_const, nsmul_eq_mul, mul_one]
  have hsub : (Finset.range (k + 1)).filter (fun j => j ≤ ⌊q / s⌋₊) ⊆ Finset.range (⌊q / s⌋₊ + 1) := by
    intro j hj
    rw [Finset.mem_filter] at hj
    rw [Finset.mem_range]
    omega
  have hc := Finset.card_le_card hsub
  rw [Finset.card_range] at hc
  have h1 : (((Finset.range (k + 1)).filter (fun j => j ≤ ⌊q / s⌋₊)).card : ℝ) ≤ ⌊q / s⌋₊ + 1 := by exact_mod_cast hc
  have := Nat.floor_le (show 0 ≤ q / s by positivity)
  linarith

/-- **C166.** A sweep with and without taper: no sample becomes larger in absolute value or changes its sign, samples more than the taper
away from both ends are the same, and the norm becomes smaller by at most twice the number of samples in the taper. -/
theorem C166_taper [PyPow ℝ] (P : SweepPrims ℝ) (hsin : P.sin = Real.sin) (hpi : P.pi = Real.pi) (t : Axis ℝ) (h0 : t.start = 0)
    (hs : 0 < t.sample) (k : ℕ) (hk : 1 ≤ k) (hT : t.stop = k * t.sample) (fs fe tt : ℝ) (htt : 0 ≤ tt) (p q : Sweep ℝ)
    (hp : getLinearSweep P (.axis t) fs fe none = .ok p) (hq : getLinearSweep P (.axis t) fs fe (some tt) = .ok q) :
    q.rel.y.length = k + 1 ∧ p.rel.y.length = k + 1 ∧
    (∀ i ≤ k, |q.rel.y.getD i 0| ≤ |p.rel.y.getD i 0| ∧ 0 ≤ q.rel.y.getD i 0 * p.rel.y.getD i 0 ∧
      (tt < i * t.sample → tt < (k - i : ℕ) * t.sample → q.rel.y.getD i 0 = p.rel.y.getD i 0)) ∧
    ∃ v w, p.rel.getNorm = .ok v ∧ q.rel.getNorm = .ok w ∧ w ≤ v ∧ v - w ≤ 2 * (tt / t.sample + 1) := by
  obtain ⟨a1, -, -, a4, -, a6, a7⟩ := C51_closed_form P hsin hpi t h0 hs k hk hT fs fe none p hp
  obtain ⟨b1, -, -, b4, -, b6, b7⟩ := C51_closed_form P hsin hpi t h0 hs k hk hT fs fe (some tt) q hq
  have hw : t.stop - t.start = k * t.sample := by rw [hT, h0, sub_zero]
  have hbal : ∀ r : Rel ℝ ℝ, r.x = t → r.y.length = k + 1 → Spec.Balanced r := fun r e1 e2 =>
    (balanced_iff_getData _).2 ⟨_, (getData_ok_iff _ _ _).2 ⟨by rw [e1]; exact array_whole t k hs hw, rfl, by simp [e2]⟩⟩
  obtain ⟨w1, w2⟩ := (C52_shape _ _ _).1 _ b6
  rw [List.length_map, List.length_range] at w1
  have hA : ∀ i ≤ k, p.amplitudeTime.y.getD i 0 = 1 := by
    intro i hi
    simp only [tukeyAT, Except.ok.injEq] at a6
    rw [← a6, getD_lt _ _ _ (by simp; omega)]
    simp
  have hB : ∀ i ≤ k, 0 ≤ q.amplitudeTime.y.getD i 0 ∧ q.amplitudeTime.y.getD i 0 ≤ 1 := by
    intro i hi
    rw [getD_lt _ _ _ (by omega)]
    exact w2 _ (List.getElem_mem _)
  have hpq : ∀ i ≤ k, q.rel.y.getD i 0 = q.amplitudeTime.y.getD i 0 * p.rel.y.getD i 0 := by
    intro i hi
    rw [(a7 i hi).2, (b7 i hi).2, hA i hi, one_mul]
  have hp1 : ∀ i ≤ k, p.rel.y.getD i 0 ^ 2 ≤ 1 := by
    intro i hi
    rw [(a7 i hi).2, hA i hi, one_mul]
    exact Real.sin_sq_le_one _
  have hinc : ((List.range (k + 1)).map fun i : ℕ => (i : ℝ) * t.sample).Pairwise (· < ·) := by
    rw [List.pairwise_map]
    refine List.pairwise_lt_range.imp fun {a b} hab => ?_
    exact mul_lt_mul_of_pos_right (by exact_mod_cast hab) hs
  have hplat : ∀ i ≤ k, tt < i * t.sample → tt < (k - i : ℕ) * t.sample → q.rel.y.getD i 0 = p.rel.y.getD i 0 := by
    intro i hi h1 h2
    rw [hpq i hi, (C52_plateau _ tt hinc i (by simp; omega) (by simpa using h1) _).1 (by simpa using h2) b6, one_mul]
  refine ⟨b4, a4, fun i hi => ⟨?_, ?_, hplat i hi⟩, ?_⟩
  · rw [hpq i hi, abs_mul, abs_of_nonneg (hB i hi).1]
    exact mul_le_of_le_one_left (abs_nonneg _) (hB i hi).2
  · rw [hpq i hi, mul_assoc]
    exact mul_nonneg (hB i hi).1 (mul_self_nonneg _)
  obtain ⟨-, n1⟩ := norm_whole p.rel (hbal _ a1 a4) k (by rw [a1]; exact hs) (by rw [a1]; exact hw)
  obtain ⟨-, n2⟩ := norm_whole q.rel (hbal _ b1 b4) k (by rw [b1]; exact hs) (by rw [b1]; exact hw)
  set d : ℕ → ℝ := fun j => p.rel.y.getD j 0 ^ 2 - q.rel.y.getD j 0 ^ 2 with hd
  have hd0 : ∀ j ≤ k, 0 ≤ d j ∧ d j ≤ 1 := by
    intro j hj
    have e : d j = (1 - q.amplitudeTime.y.getD j 0 ^ 2) * p.rel.y.getD j 0 ^ 2 := by
      rw [hd]
      simp only
      rw [hpq j hj]
      ring
    obtain ⟨g1, g2⟩ := hB j hj
    have g3 : q.amplitudeTime.y.getD j 0 ^ 2 ≤ 1 := by nlinarith
    have g4 := sq_nonneg (q.amplitudeTime.y.getD j 0)
    have g5 := sq_nonneg (p.rel.y.getD j 0)
    have g6 := hp1 j hj
    rw [e]
    exact ⟨mul_nonneg (by linarith) g5, mul_le_one₀ (by linarith) g5 g6⟩
  have htr := trapezoids_sum d k
  have hdiff : (∑ j ∈ Finset.range (k + 1), p.rel.y.getD j 0 ^ 2 - (p.rel.y.getD 0 0 ^ 2 + p.rel.y.getD k 0 ^ 2) / 2) -
      (∑ j ∈ Finset.range (k + 1), q.rel.y.getD j 0 ^ 2 - (q.rel.y.getD 0 0 ^ 2 + q.rel.y.getD k 0 ^ 2) / 2) =
      ∑ j ∈ Finset.range (k + 1), d j - (d 0 + d k) / 2 := by
    simp only [hd, Finset.sum_sub_distrib]
    ring
  have hnon : 0 ≤ ∑ j ∈ Finset.range k, (d j + d (j + 1)) / 2 := by
    refine Finset.sum_nonneg fun j hj => ?_
    rw [Finset.mem_range] at hj
    have := (hd0 j (by omega)).1
    have := (hd0 (j + 1) (by omega)).1
    linarith
  have hsum : ∑ j ∈ Finset.range (k + 1), d j ≤ 2 * (tt / t.sample + 1) := by
    have hle : ∀ j ∈ Finset.range (k + 1), d j ≤ (if (j : ℝ) * t.sample ≤ tt then (1 : ℝ) else 0) +
        (if ((k + 1 - 1 - j : ℕ) : ℝ) * t.sample ≤ tt then (1 : ℝ) else 0) := by
      intro j hj
      rw [Finset.mem_range] at hj
      have hj' : j ≤ k := by omega
      rw [Nat.add_sub_cancel]
      by_cases c1 : (j : ℝ) * t.sample ≤ tt
      · rw [if_pos c1]
        have : (0 : ℝ) ≤ if ((k - j : ℕ) : ℝ) * t.sample ≤ tt then (1 : ℝ) else 0 := by split_ifs <;> norm_num
        have := (hd0 j hj').2
        linarith
      · by_cases c2 : ((k - j : ℕ) : ℝ) * t.sample ≤ tt
        · rw [if_neg c1, if_pos c2]
          have := (hd0 j hj').2
          linarith
        · rw [if_neg c1, if_neg c2, hd]
          simp only
          rw [hplat j hj' (not_le.1 c1) (not_le.1 c2)]
          norm_num
    refine (Finset.sum_le_sum hle).trans ?_
    rw [Finset.sum_add_distrib,
      Finset.sum_range_reflect (fun j : ℕ => if (j : ℝ) * t.sample ≤ tt then (1 : ℝ) else 0) (k + 1)]
    have := few_below k hs htt
    linarith
  have e0 := (hd0 0 (by omega)).1
  have ek := (hd0 k le_rfl).1
  exact ⟨_, _, n1, n2, by linarith, by linarith⟩

/-- ten seconds with tapers of half a second at a millisecond: the energy falls by at most 1002 of about 5000 -/
example [PyPow ℝ] : ∃ p q v w, getLinearSweep realPrims (.axis ⟨0, 10, 1 / 1000⟩) 1 100 none = .ok p ∧
    getLinearSweep realPrims (.axis ⟨0, 10, 1 / 1000⟩) 1 100 (some (1 / 2)) = .ok q ∧ p.rel.getNorm = .ok v ∧ q.rel.getNorm = .ok w ∧
    w ≤ v ∧ v ≤ w + 1002 ∧ q.rel.y.getD 5000 0 = p.rel.y.getD 5000 0 := by
  obtain ⟨p, hp⟩ := C51_succeeds realPrims ⟨0, 10, 1 / 1000⟩ rfl (by norm_num) 10000 (by norm_num) (by norm_num) 1 100 none
    fun r _ _ => realPrims_works r
  obtain ⟨q, hq⟩ := C51_succeeds realPrims ⟨0, 10, 1 / 1000⟩ rfl (by norm_num) 10000 (by norm_num) (by norm_num) 1 100 (some (1 / 2))
    fun r _ _ => realPrims_works r
  obtain ⟨-, -, h1, v, w, h2, h3, h4, h5⟩ := C166_taper realPrims rfl rfl ⟨0, 10, 1 / 1000⟩ rfl (by norm_num) 10000 (by norm_num)
    (by norm_num) 1 100 (1 / 2) (by norm_num) p q hp hq
  refine ⟨p, q, v, w, hp, hq, h2, h3, h4, ?_, (h1 5000 (by norm_num)).2.2 (by norm_num) (by norm_num)⟩
  norm_num at h5
  linarith

end SweepDesign
