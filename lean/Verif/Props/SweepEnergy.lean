import Verif.Props.Accuracy
import Verif.Props.Prepared

/-!
# C162: the energy of a linear sweep
-/

set_option linter.unusedSectionVars false

namespace SweepDesign
open Spec Real

noncomputable section

/-- the phase of a linear sweep from `f0` to `f1` over the time `T` -/
def Spec.chirpPhase (f0 f1 T t : ℝ) : ℝ := 2 * π * (f0 * t + (f1 - f0) * t ^ 2 / (2 * T))

section
variable {f0 f1 T : ℝ}

/-- the frequency -/
def Spec.chirpFrequency (f0 f1 T t : ℝ) : ℝ := f0 + (f1 - f0) * t / T

theorem chirpPhase_deriv (t : ℝ) : HasDerivAt (chirpPhase f0 f1 T) (2 * π * chirpFrequency f0 f1 T t) t := by
  have h : HasDerivAt (fun t : ℝ => 2 * π * (f0 * t + (f1 - f0) * t ^ 2 / (2 * T)))
      (2 * π * (f0 * 1 + (f1 - f0) * (((2 : ℕ) : ℝ) * t ^ (2 - 1) * 1) / (2 * T))) t :=
    (((hasDerivAt_id t).const_mul f0).add ((((hasDerivAt_id t).pow 2).const_mul (f1 - f0)).div_const (2 * T))).const_mul (2 * π)
  refine h.congr_deriv ?_
  rw [chirpFrequency]
  rcases eq_or_ne T 0 with rfl | hT
  · simp
  · field_simp
    norm_num
    ring

theorem chirpFrequency_deriv (t : ℝ) : HasDerivAt (chirpFrequency f0 f1 T) ((f1 - f0) / T) t := by
  have h : HasDerivAt (fun t : ℝ => f0 + (f1 - f0) * t / T) ((f1 - f0) * 1 / T) t :=
    (((hasDerivAt_id t).const_mul (f1 - f0)).div_const T).const_add f0
  exact h.congr_deriv (by ring)

theorem chirpFrequency_between (hT : 0 < T) {t : ℝ} (ht : t ∈ Set.Icc 0 T) :
    min f0 f1 ≤ chirpFrequency f0 f1 T t ∧ chirpFrequency f0 f1 T t ≤ max f0 f1 := by
  have h0 : 0 ≤ t / T := div_nonneg ht.1 hT.le
  have h1 : t / T ≤ 1 := (div_le_one hT).2 ht.2
  have e : chirpFrequency f0 f1 T t = (1 - t / T) * f0 + t / T * f1 := by rw [chirpFrequency]; ring
  rw [e]
  have a1 := min_le_left f0 f1
  have a2 := min_le_right f0 f1
  have b1 := le_max_left f0 f1
  have b2 := le_max_right f0 f1
  constructor <;> nlinarith

/-- the oscillating half of the square of a linear sweep adds up to little -/
theorem chirp_integral (h0 : 0 < f0) (h1 : 0 < f1) (hT : 0 < T) :
    |∫ t in (0 : ℝ)..T, cos (2 * chirpPhase f0 f1 T t)| ≤ 1 / (2 * π * min f0 f1) := by
  have hm : 0 < min f0 f1 := lt_min h0 h1
  have hp := pi_pos
  set F := chirpFrequency f0 f1 T with hF
  have hcont : Continuous fun t => cos (2 * chirpPhase f0 f1 T t) := by unfold chirpPhase; fun_prop
  have hpos : ∀ t ∈ Set.Icc 0 T, 0 < F t := fun t ht => hm.trans_le (chirpFrequency_between hT ht).1
  have dF : ∀ t ∈ Set.Icc 0 T, HasDerivAt (fun t => 1 / (4 * π * F t)) (-((f1 - f0) / T) / (4 * π * F t ^ 2)) t := by
    intro t ht
    have hne : 4 * π * F t ≠ 0 := by have := hpos t ht; positivity
    have h := ((chirpFrequency_deriv (f0 := f0) (f1 := f1) (T := T) t).const_mul (4 * π)).inv hne
    simp only [one_div]
    refine h.congr_deriv ?_
    change -(4 * π * ((f1 - f0) / T)) / (4 * π * F t) ^ 2 = _
    have := (hpos t ht).ne'
    have hT' := hT.ne'
    field_simp
  have dG : ∀ t ∈ Set.Icc 0 T, HasDerivAt (fun t => (∫ u in (0 : ℝ)..t, cos (2 * chirpPhase f0 f1 T u)) -
      (sin (2 * chirpPhase f0 f1 T t) * (1 / (4 * π * F t)) - sin (2 * chirpPhase f0 f1 T 0) * (1 / (4 * π * F 0))))
      (sin (2 * chirpPhase f0 f1 T t) * (((f1 - f0) / T) / (4 * π * F t ^ 2))) t := by
    intro t ht
    have i1 := intervalIntegral.integral_hasDerivAt_right (hcont.intervalIntegrable 0 t) (hcont.stronglyMeasurableAtFilter _ _) hcont.continuousAt
    have s1 := ((chirpPhase_deriv (f0 := f0) (f1 := f1) (T := T) t).const_mul 2).sin
    refine (i1.sub ((s1.mul (dF t ht)).sub_const _)).congr_deriv ?_
    have := (hpos t ht).ne'
    field_simp
    ring
  have habs : ∀ t, |sin (2 * chirpPhase f0 f1 T t)| ≤ 1 := fun t => abs_sin_le_one _
  have m0 : (0 : ℝ) ∈ Set.Icc 0 T := ⟨le_rfl, hT.le⟩
  have mT : T ∈ Set.Icc (0 : ℝ) T := ⟨hT.le, le_rfl⟩
  have q0 : 0 < 1 / (4 * π * F 0) := by have := hpos 0 m0; positivity
  have qT : 0 < 1 / (4 * π * F T) := by have := hpos T mT; positivity
  have top : ∀ t ∈ Set.Icc 0 T, 1 / (4 * π * F t) ≤ 1 / (4 * π * min f0 f1) := by
    intro t ht
    apply one_div_le_one_div_of_le (by positivity)
    exact mul_le_mul_of_nonneg_left (chirpFrequency_between hT ht).1 (by positivity)
  have key : |(∫ u in (0 : ℝ)..T, cos (2 * chirpPhase f0 f1 T u)) -
      (sin (2 * chirpPhase f0 f1 T T) * (1 / (4 * π * F T)) - sin (2 * chirpPhase f0 f1 T 0) * (1 / (4 * π * F 0)))| ≤
      |1 / (4 * π * F 0) - 1 / (4 * π * F T)| := by
    rcases le_total f0 f1 with h | h
    · have hd : 0 ≤ (f1 - f0) / T := div_nonneg (by linarith) hT.le
      refine (grows_at_most (ψ := fun t => 1 / (4 * π * F 0) - 1 / (4 * π * F t))
        (ψ' := fun t => ((f1 - f0) / T) / (4 * π * F t ^ 2)) hT.le (fun t ht => ⟨dG t ht, ?_, ?_⟩) (by simp) (by simp)).trans (le_abs_self _)
      · exact ((dF t ht).const_sub _).congr_deriv (by ring)
      · have h2 : 0 ≤ ((f1 - f0) / T) / (4 * π * F t ^ 2) := by have := hpos t ht; positivity
        rw [abs_mul, abs_of_nonneg h2]
        exact mul_le_of_le_one_left h2 (habs t)
    · have hd : 0 ≤ -((f1 - f0) / T) := by rw [← neg_div]; exact div_nonneg (by linarith) hT.le
      refine (grows_at_most (ψ := fun t => 1 / (4 * π * F t) - 1 / (4 * π * F 0))
        (ψ' := fun t => -((f1 - f0) / T) / (4 * π * F t ^ 2)) hT.le (fun t ht => ⟨dG t ht, ?_, ?_⟩) (by simp) (by simp)).trans ?_
      · exact (dF t ht).sub_const _
      · have h2 : 0 ≤ -((f1 - f0) / T) / (4 * π * F t ^ 2) := by have := hpos t ht; positivity
        rw [abs_mul, ← abs_neg (((f1 - f0) / T) / (4 * π * F t ^ 2)), ← neg_div, abs_of_nonneg h2]
        exact mul_le_of_le_one_left h2 (habs t)
      · rw [abs_sub_comm]
        exact le_abs_self _
  have b0 : |sin (2 * chirpPhase f0 f1 T 0) * (1 / (4 * π * F 0))| ≤ 1 / (4 * π * F 0) := by
    rw [abs_mul, abs_of_pos q0]
    exact mul_le_of_le_one_left q0.le (habs 0)
  have bT : |sin (2 * chirpPhase f0 f1 T T) * (1 / (4 * π * F T))| ≤ 1 / (4 * π * F T) := by
    rw [abs_mul, abs_of_pos qT]
    exact mul_le_of_le_one_left qT.le (habs T)
  have e : 1 / (2 * π * min f0 f1) = 2 * (1 / (4 * π * min f0 f1)) := by field_simp; norm_num
  have t0 := top 0 m0
  have tT := top T mT
  rw [e]
  have k' := abs_le.1 key
  have b0' := abs_le.1 b0
  have bT' := abs_le.1 bT
  rcases abs_cases (1 / (4 * π * F 0) - 1 / (4 * π * F T)) with ⟨c, -⟩ | ⟨c, -⟩ <;> rw [c] at k' <;> rw [abs_le] <;> constructor <;> linarith [k'.1, k'.2]

theorem chirp_energy (h0 : 0 < f0) (h1 : 0 < f1) (hT : 0 < T) :
    |(∫ t in (0 : ℝ)..T, sin (chirpPhase f0 f1 T t) ^ 2) - T / 2| ≤ 1 / (4 * π * min f0 f1) := by
  have hcont : Continuous fun t => cos (2 * chirpPhase f0 f1 T t) := by unfold chirpPhase; fun_prop
  have e : ∫ t in (0 : ℝ)..T, sin (chirpPhase f0 f1 T t) ^ 2 = T / 2 - (∫ t in (0 : ℝ)..T, cos (2 * chirpPhase f0 f1 T t)) / 2 := by
    have : ∀ t, sin (chirpPhase f0 f1 T t) ^ 2 = 1 / 2 - cos (2 * chirpPhase f0 f1 T t) / 2 := by
      intro t
      rw [cos_two_mul, cos_sq']
      ring
    simp only [this]
    rw [intervalIntegral.integral_sub (by simp) ((hcont.div_const 2).intervalIntegrable _ _),
      intervalIntegral.integral_const, smul_eq_mul, intervalIntegral.integral_div (2 : ℝ) (fun t => cos (2 * chirpPhase f0 f1 T t))]
    ring
  have hi := chirp_integral h0 h1 hT
  have hm : 0 < min f0 f1 := lt_min h0 h1
  have hp := pi_pos
  have e2 : 1 / (4 * π * min f0 f1) = 1 / (2 * π * min f0 f1) / 2 := by field_simp; norm_num
  rw [e, sub_sub_cancel_left, abs_neg, abs_div, abs_two, e2]
  linarith

end

/-- **C162.** The norm of a linear sweep of `k` steps without taper, between positive frequencies in either order, is half the number of
steps up to what the lowest frequency leaves at the ends and the trapezoids miss at the highest. -/
theorem C162_energy [PyPow ℝ] (P : SweepPrims ℝ) (hsin : P.sin = Real.sin) (hpi : P.pi = Real.pi) (t : Axis ℝ) (h0 : t.start = 0)
    (hs : 0 < t.sample) (k : ℕ) (hk : 1 ≤ k) (hT : t.stop = k * t.sample) (fs fe : ℝ) (hfs : 0 < fs) (hfe : 0 < fe) (s : Sweep ℝ)
    (h : getLinearSweep P (.axis t) fs fe none = .ok s) :
    ∃ v, s.rel.getNorm = .ok v ∧ |v - k / 2| ≤ 1 / (4 * π * min fs fe * t.sample) +
      (2 * π * |fe - fs| / t.stop + 8 * π ^ 2 * max fs fe ^ 2) * t.sample * t.stop / 12 := by
  obtain ⟨c1, -, -, c4, -, c6, c7⟩ := C51_closed_form P hsin hpi t h0 hs k hk hT fs fe none s h
  have hkR : (0 : ℝ) < k := by exact_mod_cast hk
  have hTpos : 0 < t.stop := by rw [hT]; positivity
  have hw : t.stop - t.start = k * t.sample := by rw [hT, h0, sub_zero]
  have hp := pi_pos
  have ha : ∀ i ≤ k, s.amplitudeTime.y.getD i 0 = 1 := by
    intro i hi
    simp only [tukeyAT, Except.ok.injEq] at c6
    rw [← c6, getD_lt _ _ _ (by simp; omega)]
    simp
  have hsam : SamplesOf s.rel fun u => sin (chirpPhase fs fe t.stop u) := by
    refine ⟨_, (getData_ok_iff _ _ _).2 ⟨by rw [c1]; exact array_whole t k hs hw, ?_, by simp⟩⟩
    apply List.ext_getElem (by simp [c4])
    intro i a b
    have hi : i ≤ k := by omega
    have := (c7 i hi).2
    rw [getD_lt _ _ _ (by omega), ha i hi, one_mul] at this
    simp only [List.getElem_map, List.getElem_range]
    rw [this, h0, zero_add, chirpPhase]
  have hb : BendsAtMost (2 * π * |fe - fs| / t.stop + 8 * π ^ 2 * max fs fe ^ 2) (fun u => sin (chirpPhase fs fe t.stop u) ^ 2)
      (fun u => 2 * π * chirpFrequency fs fe t.stop u * sin (2 * chirpPhase fs fe t.stop u)) s.rel.x.start s.rel.x.stop := by
    refine ⟨fun u => 2 * π * ((fe - fs) / t.stop) * sin (2 * chirpPhase fs fe t.stop u) +
      2 * π * chirpFrequency fs fe t.stop u * (cos (2 * chirpPhase fs fe t.stop u) * (2 * (2 * π * chirpFrequency fs fe t.stop u))),
      fun u hu => ⟨?_, ?_, ?_⟩⟩
    · refine ((chirpPhase_deriv u).sin.pow 2).congr_deriv ?_
      change _ = 2 * π * chirpFrequency fs fe t.stop u * sin (2 * chirpPhase fs fe t.stop u)
      rw [sin_two_mul]
      norm_num
      ring
    · exact ((chirpFrequency_deriv u).const_mul (2 * π)).mul ((chirpPhase_deriv u).const_mul 2).sin
    · rw [c1, h0, Set.uIcc_of_le hTpos.le] at hu
      obtain ⟨g1, g2⟩ := chirpFrequency_between (f0 := fs) (f1 := fe) hTpos hu
      have hm : 0 < min fs fe := lt_min hfs hfe
      set F := chirpFrequency fs fe t.stop u
      have hF : F ^ 2 ≤ max fs fe ^ 2 := pow_le_pow_left₀ (by linarith) g2 2
      refine (abs_add_le _ _).trans (add_le_add ?_ ?_)
      · rw [abs_mul, abs_mul, abs_div, abs_of_pos hTpos, abs_of_pos (by positivity : 0 < 2 * π)]
        refine (mul_le_of_le_one_right (by positivity) (abs_sin_le_one _)).trans (le_of_eq (by ring))
      · have e : 2 * π * F * (cos (2 * chirpPhase fs fe t.stop u) * (2 * (2 * π * F))) = 8 * π ^ 2 * F ^ 2 * cos (2 * chirpPhase fs fe t.stop u) := by
          ring
        rw [e, abs_mul, abs_of_nonneg (by positivity : 0 ≤ 8 * π ^ 2 * F ^ 2)]
        refine (mul_le_of_le_one_right (by positivity) (abs_cos_le_one _)).trans ?_
        exact mul_le_mul_of_nonneg_left hF (by positivity)
  obtain ⟨v, e1, e2⟩ := C129_norm s.rel (fun u => sin (chirpPhase fs fe t.stop u)) _ k (by rw [c1]; exact hs) (by rw [c1]; exact hw) hsam _ hb
  refine ⟨v, e1, ?_⟩
  rw [c1, h0, sub_zero] at e2
  have en := chirp_energy hfs hfe hTpos
  have hm : 0 < min fs fe := lt_min hfs hfe
  have e3 : |(∫ u in (0 : ℝ)..t.stop, sin (chirpPhase fs fe t.stop u) ^ 2) / t.sample - k / 2| ≤ 1 / (4 * π * min fs fe * t.sample) := by
    have : (k : ℝ) / 2 = t.stop / 2 / t.sample := by rw [hT]; field_simp
    rw [this, ← sub_div, abs_div, abs_of_pos hs, ← div_div]
    exact div_le_div_of_nonneg_right en hs.le
  have := abs_sub_le v ((∫ u in (0 : ℝ)..t.stop, sin (chirpPhase fs fe t.stop u) ^ 2) / t.sample) (k / 2)
  linarith

/-- ten seconds from 1 Hz up to 100 Hz, and down again, at a millisecond: the square adds up to 5000 within 1500 samples -/
example [PyPow ℝ] (fs fe : ℝ) (hf : fs = 1 ∧ fe = 100 ∨ fs = 100 ∧ fe = 1) :
    ∃ s v, getLinearSweep realPrims (.axis ⟨0, 10, 1 / 1000⟩) fs fe none = .ok s ∧ s.rel.getNorm = .ok v ∧ |v - 5000| ≤ 1500 := by
  obtain ⟨s, hs⟩ := C51_succeeds realPrims ⟨0, 10, 1 / 1000⟩ rfl (by norm_num) 10000 (by norm_num) (by norm_num) fs fe none
    fun r _ _ => realPrims_works r
  have hfs : 0 < fs := by rcases hf with ⟨rfl, -⟩ | ⟨rfl, -⟩ <;> norm_num
  have hfe : 0 < fe := by rcases hf with ⟨-, rfl⟩ | ⟨-, rfl⟩ <;> norm_num
  have hmin : min fs fe = 1 := by rcases hf with ⟨rfl, rfl⟩ | ⟨rfl, rfl⟩ <;> norm_num
  have hmax : max fs fe = 100 := by rcases hf with ⟨rfl, rfl⟩ | ⟨rfl, rfl⟩ <;> norm_num
  have habs : |fe - fs| = 99 := by rcases hf with ⟨rfl, rfl⟩ | ⟨rfl, rfl⟩ <;> norm_num
  obtain ⟨v, h1, h2⟩ := C162_energy realPrims rfl rfl ⟨0, 10, 1 / 1000⟩ rfl (by norm_num) 10000 (by norm_num) (by norm_num) fs fe hfs hfe s hs
  refine ⟨s, v, hs, h1, ?_⟩
  rw [hmin, hmax, habs] at h2
  have p1 := two_le_pi
  have p2 := pi_le_four
  have p3 : π ^ 2 ≤ 16 := by nlinarith
  have a1 : 1 / (4 * π * 1 * (1 / 1000)) ≤ 1000 / 8 := by
    rw [div_le_div_iff₀ (by positivity) (by norm_num)]
    linarith
  norm_num at h2 a1 ⊢
  linarith

end

end SweepDesign
