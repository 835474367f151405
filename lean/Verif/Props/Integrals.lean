import Verif.Props.SineWaves
import Verif.Props.FourierSum
import Verif.Props.Convolution

/-!
# C161: sums that stand for integrals

`convolve`, `correlate` and `get_spectrum` add up products of samples. Times the sample this is an integral up to terms that vanish with
the sample.
-/

set_option linter.unusedSectionVars false

namespace SweepDesign
open Spec Real

noncomputable section

/-- between `a` and `b` the function is at most `M` in modulus and changes by at most `L` per unit -/
structure Spec.Tame (f : ℝ → ℝ) (a b M L : ℝ) : Prop where
  rate : 0 ≤ L
  bounded : ∀ t ∈ Set.Icc a b, |f t| ≤ M
  changes : ∀ t ∈ Set.Icc a b, ∀ u ∈ Set.Icc a b, |f t - f u| ≤ L * |t - u|

section
variable {E : Type} [NormedAddCommGroup E] [NormedSpace ℝ E] [CompleteSpace E]

theorem cell_near (F : ℝ → E) (c s L : ℝ) (hs : 0 ≤ s) (hc : ContinuousOn F (Set.Icc c (c + s)))
    (hF : ∀ t ∈ Set.Icc c (c + s), ‖F c - F t‖ ≤ L * |c - t|) : ‖s • F c - ∫ t in c..c + s, F t‖ ≤ L * s ^ 2 / 2 := by
  have hi : IntervalIntegrable F MeasureTheory.volume c (c + s) :=
    ContinuousOn.intervalIntegrable (by rwa [Set.uIcc_of_le (by linarith)])
  have e : s • F c - ∫ t in c..c + s, F t = ∫ t in c..c + s, (F c - F t) := by
    rw [intervalIntegral.integral_sub (by simp) hi, intervalIntegral.integral_const, add_sub_cancel_left]
  rw [e]
  have hg : ∫ t in c..c + s, L * (t - c) = L * s ^ 2 / 2 := by
    rw [intervalIntegral.integral_const_mul, intervalIntegral.integral_sub (by simp) (by simp), integral_id, intervalIntegral.integral_const,
      smul_eq_mul]
    ring
  rw [← hg]
  refine intervalIntegral.norm_integral_le_of_norm_le (by linarith) (Filter.Eventually.of_forall fun t ht => ?_)
    (Continuous.intervalIntegrable (by fun_prop) _ _)
  refine (hF t ⟨ht.1.le, ht.2⟩).trans (le_of_eq ?_)
  rw [abs_sub_comm, abs_of_nonneg (by linarith [ht.1])]

theorem sum_near (F : ℝ → E) (a s L : ℝ) (hs : 0 ≤ s) (hL : 0 ≤ L) (n : ℕ)
    (hF : ∀ t ∈ Set.Icc a (a + n * s), ∀ u ∈ Set.Icc a (a + n * s), ‖F t - F u‖ ≤ L * |t - u|) :
    ‖s • ∑ j ∈ Finset.range (n + 1), F (a + j * s) - ∫ t in a..a + n * s, F t‖ ≤ L * s * (n * s) / 2 + s * ‖F (a + n * s)‖ := by
  have hc : ContinuousOn F (Set.Icc a (a + n * s)) := by
    refine (LipschitzOnWith.of_dist_le_mul (K := ⟨L, hL⟩) fun t ht u hu => ?_).continuousOn
    rw [dist_eq_norm, dist_eq_norm]
    exact hF t ht u hu
  have hsub : ∀ j < n, Set.Icc (a + j * s) (a + j * s + s) ⊆ Set.Icc a (a + n * s) := by
    intro j hj t ht
    have h1 : ((j : ℝ) + 1) ≤ n := by exact_mod_cast hj
    have h0 : (0 : ℝ) ≤ j := by positivity
    exact ⟨by nlinarith [ht.1], by nlinarith [ht.2]⟩
  have hadj := intervalIntegral.sum_integral_adjacent_intervals (f := F) (μ := MeasureTheory.volume) (a := fun j : ℕ => a + j * s) (n := n)
    (fun j hj => ContinuousOn.intervalIntegrable (by
      rw [Set.uIcc_of_le (by push_cast; nlinarith)]
      refine hc.mono (Set.Subset.trans (fun t ht => ?_) (hsub j hj))
      exact ⟨ht.1, ht.2.trans (le_of_eq (by push_cast; ring))⟩))
  simp only [Nat.cast_zero, zero_mul, add_zero] at hadj
  rw [← hadj, Finset.sum_range_succ, smul_add, add_sub_right_comm, Finset.smul_sum, ← Finset.sum_sub_distrib]
  refine (norm_add_le _ _).trans (add_le_add ?_ ?_)
  · refine (norm_sum_le _ _).trans ?_
    have : ∀ j ∈ Finset.range n, ‖s • F (a + j * s) - ∫ t in a + j * s..a + ((j + 1 : ℕ) : ℝ) * s, F t‖ ≤ L * s ^ 2 / 2 := by
      intro j hj
      have hj := Finset.mem_range.1 hj
      rw [show a + ((j + 1 : ℕ) : ℝ) * s = a + j * s + s by push_cast; ring]
      exact cell_near F _ s L hs (hc.mono (hsub j hj)) fun t ht =>
        hF _ (hsub j hj ⟨le_rfl, by linarith⟩) _ (hsub j hj ht)
    refine (Finset.sum_le_sum this).trans (le_of_eq ?_)
    rw [Finset.sum_const, Finset.card_range, nsmul_eq_mul]
    ring
  · rw [norm_smul, Real.norm_eq_abs, abs_of_nonneg hs]

end

/-- **C161.** The spectrum of a signal, times the sample, is its Fourier integral up to a term that vanishes with the sample. -/
theorem C161_spectrum {r : Rel ℝ ℝ} {k : ℕ} {f : ℝ → ℝ} (h : SampledOn r k f) {M L : ℝ} (hf : Tame f r.x.start r.x.stop M L) (a : ℤ)
    (ha : r.x.start = a * r.x.sample) (N : ℕ) (hN : (N : ℤ) = max (a + k) 0 - min a 0 + 1) :
    ∃ sp lf lv, r.getSpectrum = .ok sp ∧ sp.getData = .ok (lf, lv) ∧ lf.length = N / 2 + 1 ∧ lv.length = N / 2 + 1 ∧
      ∀ i (h1 : i < lf.length) (h2 : i < lv.length), lf[i] = i / (N * r.x.sample) ∧
        ‖(r.x.sample : ℂ) * lv[i] - ∫ t in r.x.start..r.x.stop, (f t : ℂ) * Complex.exp (-(2 * π * Complex.I * ((lf[i] * t : ℝ) : ℂ)))‖ ≤
          (L + 2 * π * lf[i] * M) * r.x.sample * (r.x.stop - r.x.start) / 2 + M * r.x.sample := by
  have hs := h.rising
  have hk := h.two
  have hw := h.whole
  obtain ⟨hl, hv⟩ := samples_whole hs h.whole h.samples
  obtain ⟨⟨lx, ly⟩, hd⟩ := (balanced_iff_getData r).1 h.balanced
  obtain ⟨hx, rfl, hlen⟩ := (getData_ok_iff _ _ _).1 hd
  rw [array_whole r.x k hs hw, Except.ok.injEq] at hx
  obtain ⟨sp, lf, lv, e1, e2, e3, e4, e5⟩ := C69_fourier_sum r lx r.y hd r.x.sample hs a (a + k) (by omega) rfl ha
    (by push_cast; linarith) N hN
  refine ⟨sp, lf, lv, e1, e2, e3, e4, fun i h1 h2 => ⟨(e5 i h1 h2).1, ?_⟩⟩
  rw [(e5 i h1 h2).2, hl]
  have hf0 : 0 ≤ lf[i] := by rw [(e5 i h1 h2).1]; positivity
  set φ := lf[i]
  set F : ℝ → ℂ := fun t => (f t : ℂ) * Complex.exp (-(2 * π * Complex.I * ((φ * t : ℝ) : ℂ))) with hF
  have hn : ∀ t : ℝ, ‖Complex.exp (-(2 * π * Complex.I * ((φ * t : ℝ) : ℂ)))‖ = 1 := by
    intro t
    rw [show -(2 * π * Complex.I * ((φ * t : ℝ) : ℂ)) = ((-(2 * π * (φ * t)) : ℝ) : ℂ) * Complex.I by push_cast; ring,
      Complex.norm_exp_ofReal_mul_I]
  have hM : 0 ≤ M := (abs_nonneg _).trans (hf.bounded r.x.start ⟨le_rfl, by rw [← sub_nonneg, hw]; positivity⟩)
  have hsum : ∑ j ∈ Finset.range (k + 1), ((r.y.getD j 0 : ℝ) : ℂ) * Complex.exp (-(2 * π * Complex.I * ((φ * lx.getD j 0 : ℝ) : ℂ))) =
      ∑ j ∈ Finset.range (k + 1), F (r.x.start + j * r.x.sample) := by
    refine Finset.sum_congr rfl fun j hj => ?_
    have hj := Finset.mem_range.1 hj
    have ht : lx.getD j 0 = r.x.start + j * r.x.sample := by
      rw [← hx]
      simp [List.getD, hj]
    rw [hv j (by omega), ht]
  have hstop : r.x.stop = r.x.start + k * r.x.sample := by linarith
  rw [hsum, hstop]
  have key := sum_near F r.x.start r.x.sample (L + 2 * π * φ * M) hs.le (by have := hf.rate; have := pi_pos; positivity) k (by
    rw [← hstop]
    intro t ht u hu
    have e : F t - F u = ((f t - f u : ℝ) : ℂ) * Complex.exp (-(2 * π * Complex.I * ((φ * t : ℝ) : ℂ))) +
        (f u : ℂ) * (Complex.exp (-(2 * π * Complex.I * ((φ * u : ℝ) : ℂ))) *
          (Complex.exp (Complex.I * ((2 * π * φ * (u - t) : ℝ) : ℂ)) - 1)) := by
      rw [mul_sub, ← Complex.exp_add, show -(2 * π * Complex.I * ((φ * u : ℝ) : ℂ)) + Complex.I * ((2 * π * φ * (u - t) : ℝ) : ℂ) =
        -(2 * π * Complex.I * ((φ * t : ℝ) : ℂ)) by push_cast; ring, hF]
      push_cast
      ring
    rw [e, add_mul]
    refine (norm_add_le _ _).trans (add_le_add ?_ ?_)
    · rw [norm_mul, hn, mul_one, Complex.norm_real]
      exact hf.changes t ht u hu
    · rw [norm_mul, norm_mul, hn, one_mul, Complex.norm_real]
      refine (mul_le_mul (hf.bounded u hu) (Real.norm_exp_I_mul_ofReal_sub_one_le) (norm_nonneg _) hM).trans (le_of_eq ?_)
      rw [Real.norm_eq_abs, abs_mul, abs_of_nonneg (by have := pi_pos; positivity : 0 ≤ 2 * π * φ), abs_sub_comm]
      ring)
  rw [Complex.real_smul] at key
  refine key.trans (add_le_add (le_of_eq (by ring)) ?_)
  rw [mul_comm, hF]
  refine mul_le_mul_of_nonneg_right ?_ hs.le
  simp only
  rw [norm_mul, hn, mul_one, Complex.norm_real, ← hstop]
  exact hf.bounded _ ⟨by rw [hstop]; nlinarith [(by positivity : (0 : ℝ) ≤ k * r.x.sample)], le_rfl⟩

theorem product_changes {f g : ℝ → ℝ} {M1 L1 M2 L2 x x' y y' d : ℝ} (h1 : |f x| ≤ M1) (h2 : |g y'| ≤ M2)
    (h3 : |f x - f x'| ≤ L1 * d) (h4 : |g y - g y'| ≤ L2 * d) : |f x * g y - f x' * g y'| ≤ (M1 * L2 + M2 * L1) * d := by
  have e : f x * g y - f x' * g y' = f x * (g y - g y') + g y' * (f x - f x') := by ring
  have p1 := mul_le_mul h1 h4 (abs_nonneg _) ((abs_nonneg _).trans h1)
  have p2 := mul_le_mul h2 h3 (abs_nonneg _) ((abs_nonneg _).trans h2)
  rw [e]
  refine (abs_add_le _ _).trans ?_
  rw [abs_mul, abs_mul]
  linarith

variable {r1 r2 : Rel ℝ ℝ} {k1 k2 : ℕ} {f g : ℝ → ℝ} {s M1 L1 M2 L2 : ℝ}

/-- **C161.** Value `k` of `convolve` stands at `-E + k s` on the axis of the result, but it is the convolution at the time `a₁ + a₂ + k s`:
times the sample it is the integral of `f t g (τ - t)` over all `t` with both functions given, up to a term that vanishes with the sample. -/
theorem C161_convolve (h1 : SampledOn r1 k1 f) (h2 : SampledOn r2 k2 g) (s1 : r1.x.sample = s) (s2 : r2.x.sample = s)
    (t1 : Tame f r1.x.start r1.x.stop M1 L1) (t2 : Tame g r2.x.start r2.x.stop M2 L2) :
    ∃ c, r1.convolve r2 = .ok c ∧ c.x.start = -(max k1 k2 * s) ∧ c.x.sample = s ∧ c.y.length = 2 * max k1 k2 + 1 ∧
      ∀ k (hk : k < c.y.length),
      (k1 + k2 < k → c.y[k] = 0) ∧
      (k ≤ k1 + k2 → ∀ τ, τ = r1.x.start + r2.x.start + k * s →
        |s * c.y[k] - ∫ t in max r1.x.start (τ - r2.x.stop)..min r1.x.stop (τ - r2.x.start), f t * g (τ - t)| ≤
          (M1 * L2 + M2 * L1) * s * (min r1.x.stop (τ - r2.x.start) - max r1.x.start (τ - r2.x.stop)) / 2 + M1 * M2 * s) := by
  subst s1
  have hs := h1.rising
  have w1 := h1.whole
  have w2 := h2.whole
  rw [s2] at w2
  obtain ⟨l1, v1⟩ := samples_whole hs w1 h1.samples
  obtain ⟨l2, v2⟩ := samples_whole h2.rising h2.whole h2.samples
  rw [s2] at v2
  obtain ⟨c, e1, e2, -, e4, e5, e6⟩ := C28_values r1 r2 h1.balanced h2.balanced k1 k2 r1.x.sample hs rfl s2 w1 w2
  set s := r1.x.sample
  refine ⟨c, e1, e2, e4, e5, fun k hk => ?_⟩
  have hsum : c.y[k] = ∑ i ∈ Finset.range (k + 1), r1.y.getD i 0 * r2.y.getD (k - i) 0 := by
    rw [e6 k hk, Finset.Nat.sum_antidiagonal_eq_sum_range_succ fun i j => r1.y.getD i 0 * r2.y.getD j 0]
  have hz : ∀ i, i ≤ k → (k1 < i ∨ k2 < k - i) → r1.y.getD i 0 * r2.y.getD (k - i) 0 = 0 := by
    rintro i hi (h | h)
    · rw [getD_ge r1.y i 0 (by omega), zero_mul]
    · rw [getD_ge r2.y (k - i) 0 (by omega), mul_zero]
  constructor
  · intro h
    rw [hsum]
    exact Finset.sum_eq_zero fun i hi => hz i (by have := Finset.mem_range.1 hi; omega) (by have := Finset.mem_range.1 hi; omega)
  · rintro hkk τ rfl
    set τ := r1.x.start + r2.x.start + k * s with hτ
    obtain ⟨n, hn⟩ : ∃ n, min k k1 = (k - k2) + n := ⟨min k k1 - (k - k2), by omega⟩
    have hlo : max r1.x.start (τ - r2.x.stop) = r1.x.start + ((k - k2 : ℕ) : ℝ) * s := by
      have e : τ - r2.x.stop = r1.x.start + ((k : ℝ) - k2) * s := by rw [hτ]; linarith
      rw [e]
      rcases le_total k k2 with h | h
      · have h' : (k : ℝ) ≤ k2 := by exact_mod_cast h
        rw [Nat.sub_eq_zero_of_le h, max_eq_left (by nlinarith)]
        simp
      · have h' : (k2 : ℝ) ≤ k := by exact_mod_cast h
        rw [Nat.cast_sub h, max_eq_right (by nlinarith)]
    have hhi : min r1.x.stop (τ - r2.x.start) = r1.x.start + ((k - k2 : ℕ) : ℝ) * s + n * s := by
      have e : τ - r2.x.start = r1.x.start + (k : ℝ) * s := by rw [hτ]; ring
      have e' : r1.x.stop = r1.x.start + (k1 : ℝ) * s := by linarith
      have e'' : (((k - k2 : ℕ) : ℝ) + n) = ((min k k1 : ℕ) : ℝ) := by rw [hn]; push_cast; ring
      rw [add_assoc, ← add_mul, e'', e, e', min_add_add_left, Nat.cast_min, min_mul_of_nonneg _ _ hs.le, min_comm]
    have hsum2 : c.y[k] = ∑ j ∈ Finset.range (n + 1), f (r1.x.start + ((k - k2 : ℕ) : ℝ) * s + j * s) *
        g (τ - (r1.x.start + ((k - k2 : ℕ) : ℝ) * s + j * s)) := by
      have h3 : ∑ i ∈ Finset.range (k + 1), r1.y.getD i 0 * r2.y.getD (k - i) 0 =
          ∑ i ∈ Finset.Ico (k - k2) (k - k2 + (n + 1)), r1.y.getD i 0 * r2.y.getD (k - i) 0 := by
        symm
        apply Finset.sum_subset
        · intro i hi
          have := Finset.mem_Ico.1 hi
          exact Finset.mem_range.2 (by omega)
        · intro i hi hi'
          have := Finset.mem_range.1 hi
          rw [Finset.mem_Ico] at hi'
          exact hz i (by omega) (by omega)
      rw [hsum, h3, Finset.sum_Ico_eq_sum_range, Nat.add_sub_cancel_left]
      refine Finset.sum_congr rfl fun j hj => ?_
      have hj := Finset.mem_range.1 hj
      rw [v1 _ (by omega), v2 _ (by omega), Nat.cast_sub (by omega)]
      congr 2
      · push_cast; ring
      · rw [hτ]; push_cast; ring
    have hin : ∀ t ∈ Set.Icc (r1.x.start + ((k - k2 : ℕ) : ℝ) * s) (r1.x.start + ((k - k2 : ℕ) : ℝ) * s + n * s),
        t ∈ Set.Icc r1.x.start r1.x.stop ∧ τ - t ∈ Set.Icc r2.x.start r2.x.stop := by
      intro t ht
      rw [← hhi, ← hlo] at ht
      have a1 := max_le_iff.1 ht.1
      have a2 := le_min_iff.1 ht.2
      exact ⟨⟨a1.1, a2.1⟩, ⟨by linarith [a2.2], by linarith [a1.2]⟩⟩
    have hn0 : (0 : ℝ) ≤ n * s := by positivity
    have hM1 : 0 ≤ M1 := (abs_nonneg _).trans (t1.bounded _ (hin _ ⟨le_rfl, by linarith⟩).1)
    have hM2 : 0 ≤ M2 := (abs_nonneg _).trans (t2.bounded _ (hin _ ⟨le_rfl, by linarith⟩).2)
    have key := sum_near (fun t => f t * g (τ - t)) (r1.x.start + ((k - k2 : ℕ) : ℝ) * s) s (M1 * L2 + M2 * L1) hs.le
      (by have := t1.rate; have := t2.rate; positivity) n (by
        intro t ht u hu
        have h3 := t2.changes _ (hin t ht).2 _ (hin u hu).2
        rw [show τ - t - (τ - u) = -(t - u) by ring, abs_neg] at h3
        exact product_changes (t1.bounded _ (hin t ht).1) (t2.bounded _ (hin u hu).2) (t1.changes _ (hin t ht).1 _ (hin u hu).1) h3)
    rw [hlo, hhi, hsum2, add_sub_cancel_left]
    rw [smul_eq_mul, Real.norm_eq_abs, Real.norm_eq_abs] at key
    refine key.trans (add_le_add le_rfl ?_)
    rw [mul_comm]
    refine mul_le_mul_of_nonneg_right ?_ hs.le
    have hend := hin _ (⟨by linarith, le_rfl⟩ : r1.x.start + ((k - k2 : ℕ) : ℝ) * s + n * s ∈ Set.Icc _ _)
    rw [abs_mul]
    exact mul_le_mul (t1.bounded _ hend.1) (t2.bounded _ hend.2) (abs_nonneg _) hM1

/-- **C161.** The value of `correlate` at the lag `l s` on the axis of the result is, times the sample, the integral of `f (t + λ) g t` with
`λ = a₁ - a₂ + l s`, over all `t` with both functions given, up to a term that vanishes with the sample. -/
theorem C161_correlate (h1 : SampledOn r1 k1 f) (h2 : SampledOn r2 k2 g) (s1 : r1.x.sample = s) (s2 : r2.x.sample = s)
    (t1 : Tame f r1.x.start r1.x.stop M1 L1) (t2 : Tame g r2.x.start r2.x.stop M2 L2) :
    ∃ c, r1.correlate r2 = .ok c ∧ c.x.start = -(max k1 k2 * s) ∧ c.x.sample = s ∧ c.y.length = 2 * max k1 k2 + 1 ∧
      ∀ j (hj : j < c.y.length) (l : ℤ), l = j - max k1 k2 →
      (k1 < l ∨ l < -k2 → c.y[j] = 0) ∧
      (-k2 ≤ l → l ≤ k1 → ∀ d, d = r1.x.start - r2.x.start + l * s →
        |s * c.y[j] - ∫ t in max r2.x.start (r1.x.start - d)..min r2.x.stop (r1.x.stop - d), f (t + d) * g t| ≤
          (M1 * L2 + M2 * L1) * s * (min r2.x.stop (r1.x.stop - d) - max r2.x.start (r1.x.start - d)) / 2 + M1 * M2 * s) := by
  subst s1
  have hs := h1.rising
  have w1 := h1.whole
  have w2 := h2.whole
  rw [s2] at w2
  obtain ⟨l1, v1⟩ := samples_whole hs w1 h1.samples
  obtain ⟨l2, v2⟩ := samples_whole h2.rising h2.whole h2.samples
  rw [s2] at v2
  obtain ⟨c, e1, e2, -, e4, e5, e6⟩ := C29_values r1 r2 h1.balanced h2.balanced k1 k2 r1.x.sample hs rfl s2 w1 w2
  set s := r1.x.sample
  refine ⟨c, e1, e2, e4, e5, fun j hj l hl => ?_⟩
  have hsum : c.y[j] = ∑ i ∈ Finset.range (max k1 k2 + 1), zext r1.y (i + l) * r2.y.getD i 0 := by
    rw [e6 j hj, hl]
    simp only [star_trivial, Nat.cast_max]
  have hz : ∀ i : ℕ, ((i : ℤ) + l < 0 ∨ (k1 : ℤ) < i + l ∨ k2 < i) → zext r1.y (i + l) * r2.y.getD i 0 = 0 := by
    rintro i (h | h | h)
    · rw [zext, if_neg (by omega), zero_mul]
    · rw [zext, if_pos (by omega), getD_ge r1.y _ 0 (by omega), zero_mul]
    · rw [getD_ge r2.y i 0 (by omega), mul_zero]
  constructor
  · intro h
    rw [hsum]
    exact Finset.sum_eq_zero fun i hi => hz i (by omega)
  · rintro b1 b2 d rfl
    set d := r1.x.start - r2.x.start + l * s with hd
    obtain ⟨n, hn⟩ : ∃ n : ℕ, min (k2 : ℤ) (k1 - l) = (-l).toNat + n := ⟨(min (k2 : ℤ) (k1 - l) - (-l).toNat).toNat, by omega⟩
    have hlo : max r2.x.start (r1.x.start - d) = r2.x.start + ((-l).toNat : ℝ) * s := by
      have e : r1.x.start - d = r2.x.start + (-(l : ℝ)) * s := by rw [hd]; ring
      rw [e]
      rcases le_total l 0 with h | h
      · have h' : (l : ℝ) ≤ 0 := by exact_mod_cast h
        have e2 : (((-l).toNat : ℕ) : ℝ) = -(l : ℝ) := by
          have : (((-l).toNat : ℕ) : ℤ) = -l := by omega
          exact_mod_cast this
        rw [e2, max_eq_right (by nlinarith)]
      · have h' : (0 : ℝ) ≤ l := by exact_mod_cast h
        rw [show (-l).toNat = 0 by omega, max_eq_left (by nlinarith)]
        simp
    have hhi : min r2.x.stop (r1.x.stop - d) = r2.x.start + ((-l).toNat : ℝ) * s + n * s := by
      have e : r1.x.stop - d = r2.x.start + ((k1 : ℝ) - l) * s := by rw [hd]; linarith
      have e' : r2.x.stop = r2.x.start + (k2 : ℝ) * s := by linarith
      have e'' : (((-l).toNat : ℝ) + n) = min (k2 : ℝ) (k1 - l) := by
        have : ((((-l).toNat : ℤ) + n : ℤ) : ℝ) = ((min (k2 : ℤ) (k1 - l) : ℤ) : ℝ) := by rw [hn]
        push_cast at this
        exact this
      rw [add_assoc, ← add_mul, e'', e, e', min_add_add_left, min_mul_of_nonneg _ _ hs.le]
    have hsum2 : c.y[j] = ∑ j ∈ Finset.range (n + 1), f (r2.x.start + ((-l).toNat : ℝ) * s + j * s + d) *
        g (r2.x.start + ((-l).toNat : ℝ) * s + j * s) := by
      have h3 : ∑ i ∈ Finset.range (max k1 k2 + 1), zext r1.y (i + l) * r2.y.getD i 0 =
          ∑ i ∈ Finset.Ico (-l).toNat ((-l).toNat + (n + 1)), zext r1.y (i + l) * r2.y.getD i 0 := by
        symm
        apply Finset.sum_subset
        · intro i hi
          have := Finset.mem_Ico.1 hi
          exact Finset.mem_range.2 (by omega)
        · intro i hi hi'
          rw [Finset.mem_Ico] at hi'
          exact hz i (by omega)
      rw [hsum, h3, Finset.sum_Ico_eq_sum_range, Nat.add_sub_cancel_left]
      refine Finset.sum_congr rfl fun i hi => ?_
      have hi := Finset.mem_range.1 hi
      rw [zext, if_pos (by omega), v1 _ (by omega), v2 _ (by omega)]
      have e : (((((-l).toNat + i : ℕ) : ℤ) + l).toNat : ℝ) = ((-l).toNat : ℝ) + i + l := by
        have : (((((-l).toNat + i : ℕ) : ℤ) + l).toNat : ℤ) = ((-l).toNat : ℤ) + i + l := by omega
        exact_mod_cast this
      rw [e]
      congr 2
      · rw [hd]; ring
      · push_cast; ring
    have hin : ∀ t ∈ Set.Icc (r2.x.start + ((-l).toNat : ℝ) * s) (r2.x.start + ((-l).toNat : ℝ) * s + n * s),
        t + d ∈ Set.Icc r1.x.start r1.x.stop ∧ t ∈ Set.Icc r2.x.start r2.x.stop := by
      intro t ht
      rw [← hhi, ← hlo] at ht
      have a1 := max_le_iff.1 ht.1
      have a2 := le_min_iff.1 ht.2
      exact ⟨⟨by linarith [a1.2], by linarith [a2.2]⟩, ⟨a1.1, a2.1⟩⟩
    have hn0 : (0 : ℝ) ≤ n * s := by positivity
    have hM1 : 0 ≤ M1 := (abs_nonneg _).trans (t1.bounded _ (hin _ ⟨le_rfl, by linarith⟩).1)
    have hM2 : 0 ≤ M2 := (abs_nonneg _).trans (t2.bounded _ (hin _ ⟨le_rfl, by linarith⟩).2)
    have key := sum_near (fun t => f (t + d) * g t) (r2.x.start + ((-l).toNat : ℝ) * s) s (M1 * L2 + M2 * L1) hs.le
      (by have := t1.rate; have := t2.rate; positivity) n (by
        intro t ht u hu
        have h3 := t1.changes _ (hin t ht).1 _ (hin u hu).1
        rw [add_sub_add_right_eq_sub] at h3
        exact product_changes (t1.bounded _ (hin t ht).1) (t2.bounded _ (hin u hu).2) h3 (t2.changes _ (hin t ht).2 _ (hin u hu).2))
    rw [hlo, hhi, hsum2, add_sub_cancel_left]
    rw [smul_eq_mul, Real.norm_eq_abs, Real.norm_eq_abs] at key
    refine key.trans (add_le_add le_rfl ?_)
    rw [mul_comm]
    refine mul_le_mul_of_nonneg_right ?_ hs.le
    have hend := hin _ (⟨by linarith, le_rfl⟩ : r2.x.start + ((-l).toNat : ℝ) * s + n * s ∈ Set.Icc _ _)
    rw [abs_mul]
    exact mul_le_mul (t1.bounded _ hend.1) (t2.bounded _ hend.2) (abs_nonneg _) hM1

/-! ## the triangle and the rectangle of the tutorial (cell 41) -/

/-- samples of a function on the axis of the cell, `ArrayAxis(-1., 1., 0.001)` -/
def Spec.tutorialShape (f : ℝ → ℝ) : Rel ℝ ℝ := ⟨⟨-1, 1, 1 / 1000⟩, (List.range 2001).map fun i : ℕ => f (-1 + (i : ℝ) * (1 / 1000))⟩

theorem tutorialShape_sampled (f : ℝ → ℝ) : SampledOn (tutorialShape f) 2000 f where
  rising := by norm_num [tutorialShape]
  whole := by norm_num [tutorialShape]
  two := by norm_num
  samples := by
    refine ⟨_, (getData_ok_iff _ _ _).2 ⟨array_whole _ 2000 (by norm_num [tutorialShape]) (by norm_num [tutorialShape]), ?_, by simp⟩⟩
    simp only [tutorialShape, List.map_map, Function.comp_def]

theorem triangle_tame : Tame (fun t => 1 - |t|) (-1) 1 1 1 where
  rate := by norm_num
  bounded t ht := by
    have := abs_le.2 ht
    rw [abs_of_nonneg (by linarith)]
    linarith [abs_nonneg t]
  changes t _ u _ := by
    rw [sub_sub_sub_cancel_left, one_mul, abs_sub_comm]
    exact abs_abs_sub_abs_le _ _

theorem rectangle_tame : Tame (fun _ => 1) (-1) 1 1 0 where
  rate := le_rfl
  bounded t _ := by simp
  changes t _ u _ := by simp

/-- **C161.** The middle value of the convolution of the tutorial: between 998 and 1002, a thousand times the integral, which is 1. -/
theorem C161_tutorial : ∃ c, (tutorialShape fun t => 1 - |t|).convolve (tutorialShape fun _ => 1) = .ok c ∧ c.y.length = 4001 ∧
    ∀ h : 2000 < c.y.length, |c.y[2000] - 1000| ≤ 2 := by
  obtain ⟨c, e1, -, -, e2, e3⟩ := C161_convolve (s := 1 / 1000) (tutorialShape_sampled fun t => 1 - |t|) (tutorialShape_sampled fun _ => 1) rfl rfl
    triangle_tame rectangle_tame
  refine ⟨c, e1, by rw [e2]; norm_num, fun h => ?_⟩
  have key := (e3 2000 h).2 (by norm_num) 0 (by norm_num [tutorialShape])
  have hi : ∫ t in (-1 : ℝ)..1, (1 - |t|) * 1 = 1 := by
    have i1 : IntervalIntegrable (fun t : ℝ => (1 - |t|) * 1) MeasureTheory.volume (-1) 0 := Continuous.intervalIntegrable (by fun_prop) _ _
    have i2 : IntervalIntegrable (fun t : ℝ => (1 - |t|) * 1) MeasureTheory.volume 0 1 := Continuous.intervalIntegrable (by fun_prop) _ _
    rw [← intervalIntegral.integral_add_adjacent_intervals i1 i2]
    have j1 : ∫ t in (-1 : ℝ)..0, (1 - |t|) * 1 = ∫ t in (-1 : ℝ)..0, (1 + t) := by
      refine intervalIntegral.integral_congr fun t ht => ?_
      rw [Set.uIcc_of_le (by norm_num)] at ht
      simp only [abs_of_nonpos ht.2]
      ring
    have j2 : ∫ t in (0 : ℝ)..1, (1 - |t|) * 1 = ∫ t in (0 : ℝ)..1, (1 - t) := by
      refine intervalIntegral.integral_congr fun t ht => ?_
      rw [Set.uIcc_of_le (by norm_num)] at ht
      simp only [abs_of_nonneg ht.1]
      ring
    rw [j1, j2, intervalIntegral.integral_add (by simp) (by simp), intervalIntegral.integral_sub (by simp) (by simp)]
    simp only [integral_id, intervalIntegral.integral_const, smul_eq_mul]
    norm_num
  have x1 : (tutorialShape fun t => 1 - |t|).x = ⟨-1, 1, 1 / 1000⟩ := rfl
  have x2 : (tutorialShape fun _ => 1).x = ⟨-1, 1, 1 / 1000⟩ := rfl
  rw [x1, x2] at key
  norm_num at key
  norm_num at hi
  rw [hi] at key
  have := abs_le.1 key
  exact abs_le.2 ⟨by linarith [this.1], by linarith [this.2]⟩

example := C161_correlate (s := 1 / 1000) (tutorialShape_sampled fun t => 1 - |t|) (tutorialShape_sampled fun _ => 1) rfl rfl
  triangle_tame rectangle_tame
example := C161_spectrum (tutorialShape_sampled fun t => 1 - |t|) triangle_tame (-1000) (by norm_num [tutorialShape]) 2001 (by norm_num)

end

end SweepDesign
