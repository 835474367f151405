import Verif.Model.Prepared
import Verif.Lemmas.Sweep

set_option linter.unusedSectionVars false

/-!
# The Tukey window
-/

namespace SweepDesign

open Spec

/-- the rising side of the window -/
noncomputable def riseAt (m : ℕ) (alpha : ℝ) (n : ℕ) : ℝ :=
  1 / 2 * (1 + Real.cos (Real.pi * (-1 + 2 * (n : ℝ) / alpha / ((m : ℝ) - 1))))

noncomputable def fallAt (m : ℕ) (alpha : ℝ) (n : ℕ) : ℝ :=
  1 / 2 * (1 + Real.cos (Real.pi * (-2 / alpha + 1 + 2 * (n : ℝ) / alpha / ((m : ℝ) - 1))))

theorem half_one_add_cos (x : ℝ) : 0 ≤ 1 / 2 * (1 + Real.cos x) ∧ 1 / 2 * (1 + Real.cos x) ≤ 1 := by
  have := Real.neg_one_le_cos x
  have := Real.cos_le_one x
  constructor <;> linarith

theorem fall_eq_rise {m : ℕ} {alpha : ℝ} (ha : 0 < alpha) {n : ℕ} (hn : n < m) (hm : 2 ≤ m) :
    fallAt m alpha n = riseAt m alpha (m - 1 - n) := by
  unfold fallAt riseAt
  rw [← Real.cos_neg]
  congr 3
  have h1 : ((m : ℝ) - 1) ≠ 0 := by
    have : (2 : ℝ) ≤ m := by exact_mod_cast hm
    intro h; linarith
  have h2 : ((m - 1 - n : ℕ) : ℝ) = (m : ℝ) - 1 - n := by
    rw [Nat.cast_sub (by omega), Nat.cast_sub (by omega)]; push_cast; ring
  rw [h2]
  field_simp
  ring

theorem width_bound {m : ℕ} {alpha : ℝ} (ha : 0 < alpha) (h1 : alpha < 1) (hm : 2 ≤ m) :
    2 * ⌊alpha * ((m : ℝ) - 1) / 2⌋₊ + 2 ≤ m := by
  have h2 : (2 : ℝ) ≤ m := by exact_mod_cast hm
  have h3 := Nat.floor_le (show 0 ≤ alpha * ((m : ℝ) - 1) / 2 by
    apply div_nonneg (mul_nonneg ha.le (by linarith)) (by norm_num))
  have h4 : alpha * ((m : ℝ) - 1) < 1 * ((m : ℝ) - 1) := mul_lt_mul_of_pos_right h1 (by linarith)
  have : (2 * ⌊alpha * ((m : ℝ) - 1) / 2⌋₊ + 1 : ℝ) < m := by linarith
  have : 2 * ⌊alpha * ((m : ℝ) - 1) / 2⌋₊ + 1 < m := by exact_mod_cast this
  omega

theorem tukey_mid {m : ℕ} {alpha : ℝ} (hm : 2 ≤ m) (ha : 0 < alpha) (h1 : alpha < 1) :
    tukey m alpha = (List.range m).map fun i =>
      if i ≤ ⌊alpha * ((m : ℝ) - 1) / 2⌋₊ then riseAt m alpha i
      else if i < m - ⌊alpha * ((m : ℝ) - 1) / 2⌋₊ - 1 then 1 else fallAt m alpha i := by
  have hw := width_bound ha h1 hm
  unfold tukey
  rw [if_neg (by omega), if_neg (not_le.2 ha), if_neg (not_le.2 h1)]
  simp only
  set w := ⌊alpha * ((m : ℝ) - 1) / 2⌋₊
  apply List.ext_getElem
  · simp; omega
  · intro i hi hj
    simp only [List.length_map, List.length_range] at hj
    rw [List.getElem_map, List.getElem_range]
    by_cases c1 : i ≤ w
    · rw [if_pos c1, List.getElem_append_left (by simp; omega), List.getElem_append_left (by simp; omega)]
      simp [riseAt]
    · rw [if_neg c1]
      by_cases c2 : i < m - w - 1
      · rw [if_pos c2, List.getElem_append_left (by simp; omega), List.getElem_append_right (by simp; omega)]
        simp
      · rw [if_neg c2, List.getElem_append_right (by simp; omega)]
        simp only [List.getElem_map, List.getElem_drop, List.getElem_range, fallAt]
        have e : (m - w - 1 + (i - (List.map (fun n : ℕ => 1 / 2 * (1 + Real.cos (Real.pi *
            (-1 + 2 * (n : ℝ) / alpha / ((m : ℝ) - 1))))) (List.take (w + 1) (List.range m)) ++
              List.map (fun _ => 1) (List.drop (w + 1) (List.take (m - w - 1) (List.range m)))).length)) = i := by
          simp only [List.length_append, List.length_map, List.length_take, List.length_drop, List.length_range]
          omega
        rw [e]

theorem hann_getElem {m : ℕ} (hm : 2 ≤ m) (i : ℕ) (h : i < (hann m).length) :
    (hann m)[i] = 1 / 2 * (1 + Real.cos (-Real.pi + i * (2 * Real.pi / ((m : ℝ) - 1)))) := by
  have h' : hann m = (linspace (-Real.pi) Real.pi m).map fun v => 1 / 2 + 1 / 2 * Real.cos v := by
    unfold hann; exact if_neg (by omega)
  simp only [h'] at h ⊢
  rw [List.getElem_map, (evenlySpaced_linspace _ _ _).2 i (by simpa using h)]
  rw [show Real.pi - -Real.pi = 2 * Real.pi by ring]
  ring

theorem hann_length (m : ℕ) : (hann m).length = m := by
  unfold hann
  split
  · simp
  · rw [List.length_map, linspace_length]

theorem tukey_length (m : ℕ) (alpha : ℝ) : (tukey m alpha).length = m := by
  by_cases h1 : m ≤ 1
  · unfold tukey; rw [if_pos h1]; simp
  by_cases h2 : alpha ≤ 0
  · unfold tukey; rw [if_neg h1, if_pos h2]; simp
  by_cases h3 : 1 ≤ alpha
  · unfold tukey; rw [if_neg h1, if_neg h2, if_pos h3, hann_length]
  · rw [tukey_mid (by omega) (not_le.1 h2) (not_le.1 h3)]; simp

theorem tukey_hann {m : ℕ} {alpha : ℝ} (hm : 2 ≤ m) (h : 1 ≤ alpha) : tukey m alpha = hann m := by
  unfold tukey; rw [if_neg (by omega), if_neg (by linarith), if_pos h]

theorem tukey_ones {m : ℕ} {alpha : ℝ} (h : m ≤ 1 ∨ alpha ≤ 0) : tukey m alpha = List.replicate m 1 := by
  unfold tukey
  by_cases h1 : m ≤ 1
  · rw [if_pos h1]
  · rw [if_neg h1, if_pos (by tauto)]

theorem tukey_bounds (m : ℕ) (alpha : ℝ) : ∀ v ∈ tukey m alpha, 0 ≤ v ∧ v ≤ 1 := by
  intro v hv
  by_cases h1 : m ≤ 1
  · rw [tukey_ones (Or.inl h1)] at hv
    rw [List.eq_of_mem_replicate hv]; norm_num
  by_cases h2 : alpha ≤ 0
  · rw [tukey_ones (Or.inr h2)] at hv
    rw [List.eq_of_mem_replicate hv]; norm_num
  by_cases h3 : 1 ≤ alpha
  · rw [tukey_hann (by omega) h3] at hv
    obtain ⟨i, hi, rfl⟩ := List.getElem_of_mem hv
    rw [hann_getElem (by omega)]
    exact half_one_add_cos _
  · rw [tukey_mid (by omega) (not_le.1 h2) (not_le.1 h3)] at hv
    obtain ⟨i, -, rfl⟩ := List.mem_map.1 hv
    split
    · exact half_one_add_cos _
    · split
      · norm_num
      · exact half_one_add_cos _

theorem tukey_symm (m : ℕ) (alpha : ℝ) : (tukey m alpha).reverse = tukey m alpha := by
  by_cases h1 : m ≤ 1
  · rw [tukey_ones (Or.inl h1)]; simp
  by_cases h2 : alpha ≤ 0
  · rw [tukey_ones (Or.inr h2)]; simp
  have hm : 2 ≤ m := by omega
  have hm1 : ((m : ℝ) - 1) ≠ 0 := by
    have : (2 : ℝ) ≤ m := by exact_mod_cast hm
    intro h; linarith
  by_cases h3 : 1 ≤ alpha
  · rw [tukey_hann (by omega) h3]
    apply List.ext_getElem (by simp)
    intro i hi hj
    rw [List.getElem_reverse, hann_getElem hm, hann_getElem hm, hann_length]
    rw [hann_length] at hj
    congr 2
    rw [← Real.cos_neg]
    congr 1
    rw [Nat.cast_sub (by omega), Nat.cast_sub (by omega)]
    field_simp
    push_cast
    ring
  · have ha := not_le.1 h2
    have h1 := not_le.1 h3
    have hw := width_bound ha h1 hm
    rw [tukey_mid hm ha h1]
    set w := ⌊alpha * ((m : ℝ) - 1) / 2⌋₊
    apply List.ext_getElem (by simp)
    intro i hi hj
    simp only [List.length_map, List.length_range] at hj
    rw [List.getElem_reverse]
    simp only [List.getElem_map, List.getElem_range, List.length_map, List.length_range]
    by_cases c1 : i ≤ w
    · rw [if_neg (by omega), if_neg (by omega), if_pos c1, fall_eq_rise ha (by omega) hm,
        show m - 1 - (m - 1 - i) = i by omega]
    · by_cases c2 : i < m - w - 1
      · rw [if_neg (by omega), if_pos (by omega), if_neg c1, if_pos c2]
      · rw [if_pos (by omega), if_neg c1, if_neg c2, fall_eq_rise ha hj hm]

theorem tukey_head {m : ℕ} {alpha : ℝ} (hm : 2 ≤ m) (ha : 0 < alpha) : (tukey m alpha).head? = some 0 := by
  rw [List.head?_eq_getElem?]
  by_cases h3 : 1 ≤ alpha
  · rw [tukey_hann hm h3, List.getElem?_eq_getElem (by rw [hann_length]; omega), hann_getElem hm]
    simp
  · rw [tukey_mid hm ha (not_le.1 h3), List.getElem?_eq_getElem (by simp; omega)]
    simp [riseAt]

/-- between the tapered ends the window is 1 -/
theorem tukey_plateau {m c i : ℕ} (hc : c ≤ i) (hi : i + c < m) :
    (tukey m ((c : ℝ) * 2 / m)).getD i 0 = 1 := by
  rcases Nat.eq_zero_or_pos c with rfl | hpos
  · rw [tukey_ones (Or.inr (by simp)), getD_lt _ _ _ (by simp; omega)]
    simp
  · have hmR : (0 : ℝ) < m := by exact_mod_cast (by omega : 0 < m)
    have hcR : (0 : ℝ) < c := by exact_mod_cast hpos
    have hcm : (c : ℝ) * 2 < m := by exact_mod_cast (by omega : c * 2 < m)
    have ha : 0 < (c : ℝ) * 2 / m := by positivity
    have h1 : (c : ℝ) * 2 / m < 1 := by rwa [div_lt_one hmR]
    have hw : ⌊(c : ℝ) * 2 / m * ((m : ℝ) - 1) / 2⌋₊ < c := by
      rw [Nat.floor_lt (by
        have : (1 : ℝ) ≤ m := by exact_mod_cast (by omega : 1 ≤ m)
        apply div_nonneg (mul_nonneg ha.le (by linarith)) (by norm_num))]
      have : (c : ℝ) * 2 / m * ((m : ℝ) - 1) / 2 = c - c / m := by field_simp
      rw [this]
      have : 0 < (c : ℝ) / m := by positivity
      linarith
    rw [tukey_mid (by omega) ha h1, getD_lt _ _ _ (by simp; omega)]
    simp only [List.getElem_map, List.getElem_range]
    rw [if_neg (by omega), if_pos (by omega)]

end SweepDesign
