import Verif.Model.Hilbert
import Verif.Lemmas.Fourier
import Verif.Lemmas.Phase
import Verif.Props.Sweep

/-!
# C75: the descriptions derived from the samples of a sweep
-/

set_option linter.unusedSectionVars false

namespace SweepDesign
open Spec Complex

/-- the analytic signal of the first `n` values of `a` -/
noncomputable def analytic (n : ℕ) (a : ℕ → ℝ) (j : ℕ) : ℂ :=
  (∑ k ∈ Finset.range n, (hilbertWeight n k : ℂ) * dft n a k * unitRoot n (j * k)) / n

theorem hilbert_eq (y : List ℝ) (h : y ≠ []) :
    hilbert y = .ok ((List.range y.length).map (analytic y.length (at0 y))) := by
  unfold hilbert
  rw [if_neg h]
  congr 1
  refine List.map_congr_left fun j _ => ?_
  unfold analytic dft unitRoot
  congr 1
  refine Finset.sum_congr rfl fun k _ => ?_
  congr 1
  · congr 1
    refine Finset.sum_congr rfl fun l _ => ?_
    congr 2
    push_cast
    rw [mul_neg, neg_div]

/-- the kernel of the transform -/
noncomputable def hilbertKernel (n : ℕ) (d : ℤ) : ℂ :=
  (∑ k ∈ Finset.range n, (hilbertWeight n k : ℂ) * unitRoot n (d * k)) / n

theorem analytic_kernel (n : ℕ) (a : ℕ → ℝ) (j : ℕ) :
    analytic n a j = ∑ l ∈ Finset.range n, (a l : ℂ) * hilbertKernel n (j - l) := by
  unfold analytic hilbertKernel dft
  rw [Finset.sum_div]
  simp_rw [Finset.mul_sum, Finset.sum_mul, Finset.sum_div]
  rw [Finset.sum_comm]
  refine Finset.sum_congr rfl fun l _ => ?_
  rw [Finset.mul_sum]
  refine Finset.sum_congr rfl fun k _ => ?_
  rw [show ((j : ℤ) - l) * k = -(l * k) + j * k by ring, unitRoot_add]
  ring

theorem hilbertWeight_pair (n k : ℕ) (h0 : 0 < k) (hk : k < n) : hilbertWeight n k + hilbertWeight n (n - k) = 2 := by
  unfold hilbertWeight
  rcases lt_trichotomy (2 * k) n with h | h | h
  · rw [if_neg (by omega), if_pos h, if_neg (by omega), if_neg (by omega)]; norm_num
  · rw [if_pos (by omega), if_pos (by omega)]; norm_num
  · rw [if_neg (by omega), if_neg (by omega), if_neg (by omega), if_pos (by omega)]; norm_num

theorem hilbertKernel_re (n : ℕ) (hn : 0 < n) (d : ℤ) : (hilbertKernel n d).re = if (n : ℤ) ∣ d then 1 else 0 := by
  obtain ⟨m, rfl⟩ : ∃ m, n = m + 1 := ⟨n - 1, by omega⟩
  have hn' : ((m + 1 : ℕ) : ℂ) ≠ 0 := by exact_mod_cast hn.ne'
  have hconj : (starRingEnd ℂ) (hilbertKernel (m + 1) d) =
      (∑ k ∈ Finset.range (m + 1), (hilbertWeight (m + 1) k : ℂ) * unitRoot (m + 1) (-(d * k))) / (m + 1 : ℕ) := by
    unfold hilbertKernel
    rw [map_div₀, map_sum, map_natCast]
    congr 1
    refine Finset.sum_congr rfl fun k _ => ?_
    rw [map_mul, unitRoot_conj, conj_ofReal]
  have hrefl : ∑ k ∈ Finset.range m, (hilbertWeight (m + 1) (k + 1) : ℂ) * unitRoot (m + 1) (-(d * ((k + 1 : ℕ) : ℤ))) =
      ∑ k ∈ Finset.range m, (hilbertWeight (m + 1) (m + 1 - (k + 1)) : ℂ) * unitRoot (m + 1) (d * ((k + 1 : ℕ) : ℤ)) := by
    rw [← Finset.sum_range_reflect]
    refine Finset.sum_congr rfl fun k hk => ?_
    have hk' := Finset.mem_range.1 hk
    rw [show m - 1 - k + 1 = m + 1 - (k + 1) by omega]
    congr 1
    rw [show -(d * ((m + 1 - (k + 1) : ℕ) : ℤ)) = d * ((k + 1 : ℕ) : ℤ) + ((m + 1 : ℕ) : ℤ) * (-d) by
      rw [Nat.cast_sub (by omega)]; push_cast; ring, unitRoot_add, unitRoot_period (m + 1) hn, mul_one]
  have hsum : hilbertKernel (m + 1) d + (starRingEnd ℂ) (hilbertKernel (m + 1) d) =
      2 * (∑ k ∈ Finset.range (m + 1), unitRoot (m + 1) (d * k)) / (m + 1 : ℕ) := by
    rw [hconj]
    unfold hilbertKernel
    rw [← add_div]
    congr 1
    rw [Finset.sum_range_succ', Finset.sum_range_succ' _ m, hrefl, Finset.sum_range_succ' _ m]
    have h0 : hilbertWeight (m + 1) 0 = 1 := by simp [hilbertWeight]
    simp only [Nat.cast_zero, mul_zero, neg_zero, unitRoot_zero, h0]
    rw [mul_add, Finset.mul_sum, add_add_add_comm, ← Finset.sum_add_distrib]
    congr 1
    · refine Finset.sum_congr rfl fun k hk => ?_
      have hk' := Finset.mem_range.1 hk
      rw [← add_mul, ← ofReal_add, hilbertWeight_pair (m + 1) (k + 1) (by omega) (by omega)]
      simp
    · norm_num
  rw [unitRoot_sum (m + 1) hn, add_conj] at hsum
  split_ifs at hsum ⊢ with h
  · rw [mul_div_assoc, div_self hn', mul_one] at hsum
    have : (2 * (hilbertKernel (m + 1) d).re : ℝ) = 2 := by exact_mod_cast hsum
    linarith
  · simpa using hsum

/-- the real part of the analytic signal is the signal -/
theorem analytic_re (n : ℕ) (a : ℕ → ℝ) (j : ℕ) (hj : j < n) : (analytic n a j).re = a j := by
  rw [analytic_kernel, re_sum, Finset.sum_eq_single j]
  · rw [re_ofReal_mul, hilbertKernel_re n (by omega), if_pos (by simp), mul_one]
  · intro l hl hne
    have hl' := Finset.mem_range.1 hl
    rw [re_ofReal_mul, hilbertKernel_re n (by omega), if_neg, mul_zero]
    intro hd
    have := Int.eq_zero_of_abs_lt_dvd hd (by rw [abs_lt]; omega)
    omega
  · intro h
    exact absurd (Finset.mem_range.2 hj) h

/-- the transform of one frequency -/
theorem kernel_root (n : ℕ) (hn : 0 < n) (m j : ℕ) (hm : m < n) :
    ∑ l ∈ Finset.range n, unitRoot n (m * l) * hilbertKernel n (j - l) = hilbertWeight n m * unitRoot n (m * j) := by
  have hn' : (n : ℂ) ≠ 0 := by exact_mod_cast hn.ne'
  unfold hilbertKernel
  simp_rw [mul_div_assoc', ← Finset.sum_div, Finset.mul_sum]
  rw [Finset.sum_comm, div_eq_iff hn']
  rw [Finset.sum_eq_single m]
  · have : ∀ l ∈ Finset.range n, unitRoot n (m * l) * ((hilbertWeight n m : ℂ) * unitRoot n (((j : ℤ) - l) * m)) =
        hilbertWeight n m * unitRoot n (m * j) := by
      intro l _
      rw [show ((j : ℤ) - l) * m = m * j + -(m * l) by ring, unitRoot_add,
        show unitRoot n (m * l) * ((hilbertWeight n m : ℂ) * (unitRoot n (m * j) * unitRoot n (-(m * l)))) =
          hilbertWeight n m * unitRoot n (m * j) * (unitRoot n (m * l) * unitRoot n (-(m * l))) by ring,
        ← unitRoot_add, add_neg_cancel, unitRoot_zero, mul_one]
    rw [Finset.sum_congr rfl this]
    simp [mul_comm]
  · intro k hk hne
    have hk' := Finset.mem_range.1 hk
    have : ∀ l ∈ Finset.range n, unitRoot n (m * l) * ((hilbertWeight n k : ℂ) * unitRoot n (((j : ℤ) - l) * k)) =
        hilbertWeight n k * unitRoot n (j * k) * unitRoot n (((m : ℤ) - k) * l) := by
      intro l _
      rw [show ((j : ℤ) - l) * k = j * k + -(k * l) by ring, unitRoot_add,
        show ((m : ℤ) - k) * l = m * l + -(k * l) by ring, unitRoot_add]
      ring
    rw [Finset.sum_congr rfl this, ← Finset.mul_sum, unitRoot_sum n hn, if_neg, mul_zero]
    intro hd
    have := Int.eq_zero_of_abs_lt_dvd hd (by rw [abs_lt]; omega)
    omega
  · intro h
    exact absurd (Finset.mem_range.2 hm) h

/-- the analytic signal of a tone with `m` periods in `n` samples -/
theorem analytic_tone (n m j : ℕ) (hm0 : 0 < m) (hm : 2 * m < n) (C : ℂ) (a : ℕ → ℝ)
    (ha : ∀ l < n, a l = (C * unitRoot n (m * l)).re) : analytic n a j = C * unitRoot n (m * j) := by
  have hn : 0 < n := by omega
  rw [analytic_kernel]
  have h1 : ∀ l ∈ Finset.range n, (a l : ℂ) * hilbertKernel n (j - l) =
      C / 2 * (unitRoot n (m * l) * hilbertKernel n (j - l)) +
      (starRingEnd ℂ) C / 2 * (unitRoot n (((n - m : ℕ) : ℤ) * l) * hilbertKernel n (j - l)) := by
    intro l hl
    rw [ha l (Finset.mem_range.1 hl), re_eq_add_conj, map_mul, unitRoot_conj]
    rw [show (((n - m : ℕ) : ℤ) * l) = -(m * l) + n * l by rw [Nat.cast_sub (by omega)]; ring, unitRoot_add,
      unitRoot_period n hn]
    ring
  rw [Finset.sum_congr rfl h1, Finset.sum_add_distrib, ← Finset.mul_sum, ← Finset.mul_sum, kernel_root n hn m j (by omega),
    kernel_root n hn (n - m) j (by omega)]
  have w1 : hilbertWeight n m = 2 := by
    unfold hilbertWeight; rw [if_neg (by omega), if_pos hm]
  have w2 : hilbertWeight n (n - m) = 0 := by
    unfold hilbertWeight; rw [if_neg (by omega), if_neg (by omega)]
  rw [w1, w2]
  push_cast
  ring

theorem getAT_eq (r : Rel ℝ ℝ) (h : Balanced r) :
    getAT r = .ok ⟨r.x, (List.range r.y.length).map fun j => ‖analytic r.y.length (at0 r.y) j‖⟩ := by
  have hne : r.y ≠ [] := by
    have := ((balanced_iff r).1 h).2
    intro h0
    rw [h0] at this
    simp at this
  unfold getAT
  rw [hilbert_eq r.y hne]
  simp only [except_bind_ok, List.map_map]
  rw [make_ok (by simpa using (show r.x.size = .ok r.y.length from h))]
  rfl

theorem getFT_eq (r : Rel ℝ ℝ) (h : Balanced r) :
    getFT r = .ok ⟨r.x, 0 :: (npDiff (unwrap ((List.range r.y.length).map fun j =>
      (analytic r.y.length (at0 r.y) j).arg))).map fun d => d / (2 * Real.pi) / r.x.sample⟩ := by
  have hne : r.y ≠ [] := by
    have := ((balanced_iff r).1 h).2
    intro h0
    rw [h0] at this
    simp at this
  unfold getFT
  rw [hilbert_eq r.y hne]
  simp only [except_bind_ok, List.map_map]
  rw [make_ok]
  · rfl
  · have hpos : 0 < r.y.length := List.length_pos_iff.2 hne
    have hl : (0 :: (npDiff (unwrap ((List.range r.y.length).map (npAngle ∘ analytic r.y.length (at0 r.y))))).map
        fun d => d / (2 * Real.pi) / r.x.sample).length = r.y.length := by
      simp [npDiff_length, unwrap_length]
      omega
    rw [hl]
    exact h

/-- **C75.** The envelope derived from the samples is on the same axis and is nowhere smaller than the modulus of the
samples. -/
theorem C75_envelope (r : Rel ℝ ℝ) (h : Balanced r) :
    ∃ a, getAT r = .ok a ∧ a.x = r.x ∧ a.y.length = r.y.length ∧
      ∀ i (h1 : i < r.y.length) (h2 : i < a.y.length), |r.y[i]| ≤ a.y[i] := by
  refine ⟨_, getAT_eq r h, rfl, by simp, fun i h1 h2 => ?_⟩
  simp only [List.getElem_map, List.getElem_range]
  have := analytic_re r.y.length (at0 r.y) i h1
  rw [at0_eq _ _ h1] at this
  rw [← this]
  exact abs_re_le_norm _

/-- **C75.** The frequencies derived from the samples start with 0 and do not exceed half the sampling frequency. -/
theorem C75_frequency (r : Rel ℝ ℝ) (h : Balanced r) :
    ∃ f, getFT r = .ok f ∧ f.x = r.x ∧ f.y.length = r.y.length ∧ f.y.head? = some 0 ∧
      ∀ v ∈ f.y, |v| ≤ 1 / (2 * |r.x.sample|) := by
  have hs := ((balanced_iff r).1 h).1
  have hpos : 0 < r.y.length := by have := ((balanced_iff r).1 h).2; omega
  refine ⟨_, getFT_eq r h, rfl, ?_, rfl, ?_⟩
  · simp [npDiff_length, unwrap_length]
    omega
  · have hsp : 0 < |r.x.sample| := abs_pos.2 hs
    intro v hv
    rcases List.mem_cons.1 hv with rfl | hv
    · simp only [abs_zero]; positivity
    · obtain ⟨d, hd, rfl⟩ := List.mem_map.1 hv
      obtain ⟨i, hi, rfl⟩ := List.getElem_of_mem hd
      have hi' := hi
      rw [npDiff_length] at hi'
      have hpi := Real.pi_pos
      rw [npDiff_getElem _ i hi (by omega), abs_div, abs_div, abs_of_pos (by positivity : (0 : ℝ) < 2 * Real.pi)]
      have hj := unwrap_jump _ i (by omega : i + 1 < (unwrap ((List.range r.y.length).map fun j =>
        (analytic r.y.length (at0 r.y) j).arg)).length)
      rw [div_le_div_iff₀ hsp (by positivity), one_mul, div_mul_eq_mul_div, div_le_iff₀ (by positivity)]
      nlinarith

/-- **C75.** For a tone `A cos(2π m i / n + φ)`, `A > 0`, with a whole number `m` of periods in the `n` samples and
`0 < m < n / 2`, the derived descriptions are exact: the envelope is `A` everywhere, the frequency is 0 at the first
sample and `m / (n * sample)` at the others. -/
theorem C75_tone (r : Rel ℝ ℝ) (h : Balanced r) (n m : ℕ) (hn : r.y.length = n) (hm0 : 0 < m) (hm : 2 * m < n) (A φ : ℝ)
    (hA : 0 < A) (hy : ∀ i (h1 : i < r.y.length), r.y[i] = A * Real.cos (2 * Real.pi * m * i / n + φ)) :
    ∃ a f, getAT r = .ok a ∧ getFT r = .ok f ∧ a.y = List.replicate n A ∧
      f.y = 0 :: List.replicate (n - 1) (m / (n * r.x.sample)) := by
  have hn0 : (n : ℝ) ≠ 0 := by
    have : 0 < n := by omega
    exact_mod_cast this.ne'
  have hnc : (n : ℂ) ≠ 0 := by exact_mod_cast hn0
  set C : ℂ := A * exp (φ * I) with hC
  have hz : ∀ j, analytic n (at0 r.y) j = C * unitRoot n (m * j) := by
    intro j
    refine analytic_tone n m j hm0 hm C _ fun l hl => ?_
    rw [at0_eq _ _ (by omega), hy l (by omega), hC]
    have : (A : ℂ) * exp (φ * I) * unitRoot n (m * l) =
        A * exp (((2 * Real.pi * m * l / n + φ : ℝ) : ℂ) * I) := by
      unfold unitRoot
      rw [mul_assoc, ← exp_add]
      congr 2
      push_cast
      field_simp
      ring
    rw [this, re_ofReal_mul, exp_ofReal_mul_I_re]
  have hpolar : ∀ j, analytic n (at0 r.y) j = A * exp (((2 * Real.pi * m * j / n + φ : ℝ) : ℂ) * I) := by
    intro j
    rw [hz j, hC]
    unfold unitRoot
    rw [mul_assoc, ← exp_add]
    congr 2
    push_cast
    field_simp
    ring
  refine ⟨_, _, getAT_eq r h, getFT_eq r h, ?_, ?_⟩
  · subst hn
    refine List.ext_getElem (by simp) fun i h1 h2 => ?_
    simp only [List.getElem_map, List.getElem_range, List.getElem_replicate]
    rw [hpolar i, norm_mul, norm_exp_ofReal_mul_I, mul_one, norm_real, Real.norm_of_nonneg hA.le]
  · simp only [List.cons.injEq, true_and]
    subst hn
    refine List.ext_getElem (by simp [npDiff_length, unwrap_length]) fun i h1 h2 => ?_
    have h1' : i < (npDiff (unwrap ((List.range r.y.length).map fun j =>
      (analytic r.y.length (at0 r.y) j).arg))).length := by simpa using h1
    have h3 : i + 1 < (unwrap ((List.range r.y.length).map fun j => (analytic r.y.length (at0 r.y) j).arg)).length := by
      rw [npDiff_length] at h1'
      omega
    have h4 : i + 1 < r.y.length := by simpa [unwrap_length] using h3
    rw [List.getElem_map, npDiff_getElem _ i h1' h3, List.getElem_replicate]
    set p := (List.range r.y.length).map fun j => (analytic r.y.length (at0 r.y) j).arg with hp
    have hj := unwrap_jump p i h3
    obtain ⟨k1, e1⟩ := unwrap_congruent p (i + 1) h3 (by rw [hp]; simpa using h4)
    obtain ⟨k0, e0⟩ := unwrap_congruent p i (by omega) (by rw [hp]; simp; omega)
    have harg : ∀ j : ℕ, ∃ k : ℤ, (analytic r.y.length (at0 r.y) j).arg =
        2 * Real.pi * m * j / r.y.length + φ + k * (2 * Real.pi) := by
      intro j
      refine ⟨-toIocDiv Real.two_pi_pos (-Real.pi) (2 * Real.pi * m * j / r.y.length + φ), ?_⟩
      rw [hpolar j, arg_real_mul _ hA, arg_exp_mul_I, toIocMod, zsmul_eq_mul]
      push_cast
      ring
    obtain ⟨c1, d1⟩ := harg (i + 1)
    obtain ⟨c0, d0⟩ := harg i
    have p1 : ∀ j (hj : j < p.length), p[j] = (analytic r.y.length (at0 r.y) j).arg := by
      intro j hj
      simp [hp]
    rw [p1, d1] at e1
    rw [p1, d0] at e0
    set θ : ℝ := 2 * Real.pi * m / r.y.length with hθ
    have hnp : (0 : ℝ) < r.y.length := by
      have : 0 < r.y.length := by omega
      exact_mod_cast this
    have hmr : (0 : ℝ) < m := by exact_mod_cast hm0
    have hmn : 2 * (m : ℝ) < r.y.length := by exact_mod_cast hm
    have hpi := Real.pi_pos
    have hθ0 : 0 < θ := by rw [hθ]; positivity
    have hθ1 : θ < Real.pi := by rw [hθ, div_lt_iff₀ hnp]; nlinarith
    have hd : (unwrap p)[i + 1] - (unwrap p)[i] = θ + ((c1 + k1 - c0 - k0 : ℤ) : ℝ) * (2 * Real.pi) := by
      rw [e1, e0, hθ]
      push_cast
      field_simp
      ring
    have hk : c1 + k1 - c0 - k0 = 0 := by
      rw [hd, abs_le] at hj
      obtain ⟨l, u⟩ := hj
      have u' : ((c1 + k1 - c0 - k0 : ℤ) : ℝ) < 1 := by nlinarith
      have l' : (-1 : ℝ) < ((c1 + k1 - c0 - k0 : ℤ) : ℝ) := by nlinarith
      have u'' : c1 + k1 - c0 - k0 < 1 := by exact_mod_cast u'
      have l'' : -1 < c1 + k1 - c0 - k0 := by exact_mod_cast l'
      omega
    have hs := ((balanced_iff r).1 h).1
    rw [hd, hk, hθ]
    push_cast
    field_simp
    ring

theorem analytic_scale (n : ℕ) (a b : ℕ → ℝ) (c : ℝ) (h : ∀ l < n, b l = c * a l) (j : ℕ) :
    analytic n b j = c * analytic n a j := by
  rw [analytic_kernel, analytic_kernel, Finset.mul_sum]
  refine Finset.sum_congr rfl fun l hl => ?_
  rw [h l (Finset.mem_range.1 hl)]
  push_cast
  ring

/-- **C75.** Multiplying the samples by `c` multiplies the envelope by `|c|`; for `c > 0` the frequencies stay the same. -/
theorem C75_scaling (r q : Rel ℝ ℝ) (h : Balanced r) (c : ℝ) (hx : q.x = r.x) (hy : q.y = r.y.map (c * ·)) :
    (∃ a, getAT r = .ok a ∧ getAT q = .ok ⟨a.x, a.y.map (|c| * ·)⟩) ∧
    (0 < c → ∃ f, getFT r = .ok f ∧ getFT q = .ok f) := by
  have hq : Balanced q := by
    show q.x.size = .ok q.y.length
    rw [hx, hy, List.length_map]
    exact h
  have hl : q.y.length = r.y.length := by rw [hy, List.length_map]
  have ha : ∀ j, analytic q.y.length (at0 q.y) j = c * analytic r.y.length (at0 r.y) j := by
    intro j
    rw [hl]
    refine analytic_scale _ _ _ c (fun l hlt => ?_) j
    rw [at0_eq _ _ (by omega), at0_eq _ _ hlt]
    simp [hy]
  refine ⟨⟨_, getAT_eq r h, ?_⟩, fun hc => ⟨_, getFT_eq r h, ?_⟩⟩
  · rw [getAT_eq q hq, hl]
    simp only [← hl, ha, hx, List.map_map]
    congr 2
    refine List.map_congr_left fun j _ => ?_
    simp
  · rw [getFT_eq q hq]
    simp only [ha, arg_real_mul _ hc, hx]
    rw [hl]

theorem hilbert_ok {y : List ℝ} {z : List ℂ} (h : hilbert y = .ok z) : z.length = y.length := by
  by_cases h0 : y = []
  · simp [hilbert, h0] at h
  · rw [hilbert_eq y h0] at h
    cases h
    simp

theorem getAT_balanced {r a : Rel ℝ ℝ} (h : getAT r = .ok a) : Balanced r := by
  unfold getAT at h
  rw [except_bind_eq_ok] at h
  obtain ⟨z, hz, h⟩ := h
  have := ((make_ok_iff _ _ _).1 h).1
  rw [List.length_map, hilbert_ok hz] at this
  exact this

theorem getFT_balanced {r a : Rel ℝ ℝ} (h : getFT r = .ok a) : Balanced r := by
  unfold getFT at h
  rw [except_bind_eq_ok] at h
  obtain ⟨z, hz, h⟩ := h
  have hn : 0 < r.y.length := by
    rcases List.eq_nil_or_concat r.y with h0 | ⟨l, b, h0⟩
    · simp [hilbert, h0] at hz
    · simp [h0]
  have := ((make_ok_iff _ _ _).1 h).1
  rw [List.length_cons, List.length_map, npDiff_length, unwrap_length, List.length_map, hilbert_ok hz,
    Nat.sub_add_cancel hn] at this
  exact this

/-- **C75.** A sweep built without an amplitude description has an envelope on its own axis which bounds its samples; built
without a frequency description it has frequencies up to half the sampling frequency. -/
theorem C75_sweep (P : SweepPrims ℝ) (hA : P.getAT = getAT) (hF : P.getFT = getFT) (x : XArg ℝ ℝ) (y : Option (List ℝ))
    (ft at' aps : Option (Rel ℝ ℝ)) (s : Sweep ℝ) (h : Sweep.init P x y ft at' aps = .ok s) :
    (at' = none → s.amplitudeTime.x = s.rel.x ∧ s.amplitudeTime.y.length = s.rel.y.length ∧
      ∀ i (h1 : i < s.rel.y.length) (h2 : i < s.amplitudeTime.y.length), |s.rel.y[i]| ≤ s.amplitudeTime.y[i]) ∧
    (ft = none → s.frequencyTime.x = s.rel.x ∧ s.frequencyTime.y.length = s.rel.y.length ∧
      s.frequencyTime.y.head? = some 0 ∧ ∀ v ∈ s.frequencyTime.y, |v| ≤ 1 / (2 * |s.rel.x.sample|)) := by
  obtain ⟨-, hf, ha, -⟩ := sweepInit_ok h
  refine ⟨fun h0 => ?_, fun h0 => ?_⟩
  · subst h0
    have ha' : getAT s.rel = .ok s.amplitudeTime := hA ▸ ha
    obtain ⟨a', e, p⟩ := C75_envelope s.rel (getAT_balanced ha')
    rw [e] at ha'
    cases ha'
    exact p
  · subst h0
    have hf' : getFT s.rel = .ok s.frequencyTime := hF ▸ hf
    obtain ⟨f', e, p⟩ := C75_frequency s.rel (getFT_balanced hf')
    rw [e] at hf'
    cases hf'
    exact p

/-- C75 on a concrete tone: one period of a cosine with amplitude 3 in 4 samples at 1/2 s is recognised as amplitude 3 and
frequency 1/2 Hz -/
example : ∃ a f, getAT ⟨⟨0, 3 / 2, 1 / 2⟩, [3, 0, -3, 0]⟩ = .ok a ∧ getFT ⟨⟨0, 3 / 2, 1 / 2⟩, [3, 0, -3, 0]⟩ = .ok f ∧
    a.y = [3, 3, 3, 3] ∧ f.y = [0, 1 / 2, 1 / 2, 1 / 2] := by
  have hb : Balanced (⟨⟨0, 3 / 2, 1 / 2⟩, [3, 0, -3, 0]⟩ : Rel ℝ ℝ) := by
    rw [balanced_iff]
    have : pyRound (3 : ℝ) = 3 := by simpa using pyRound_natCast (K := ℝ) 3
    norm_num [Axis.steps, this]
    rfl
  obtain ⟨a, f, h1, h2, h3, h4⟩ := C75_tone ⟨⟨0, 3 / 2, 1 / 2⟩, [3, 0, -3, 0]⟩ hb 4 1 rfl (by norm_num) (by norm_num) 3 0
    (by norm_num) (by
      intro i hi
      have hi' : i < 4 := hi
      interval_cases i
      · simp
      · have : 2 * Real.pi * (1 : ℕ) * (1 : ℕ) / (4 : ℕ) + 0 = Real.pi / 2 := by push_cast; ring
        simp only [this, Real.cos_pi_div_two]
        simp
      · have : 2 * Real.pi * (1 : ℕ) * (2 : ℕ) / (4 : ℕ) + 0 = Real.pi := by push_cast; ring
        simp only [this, Real.cos_pi]
        simp
      · have : 2 * Real.pi * (1 : ℕ) * (3 : ℕ) / (4 : ℕ) + 0 = Real.pi / 2 + Real.pi := by push_cast; ring
        simp only [this, Real.cos_add_pi, Real.cos_pi_div_two]
        simp)
  refine ⟨a, f, h1, h2, by rw [h3]; rfl, ?_⟩
  rw [h4]
  norm_num
  rfl

/-- a sweep with these descriptions exists: the hypotheses of `C75_sweep` are met -/
example : ∃ s, Sweep.init { realPrims with getFT := getFT, getAT := getAT } (.axis ⟨0, 3 / 2, 1 / 2⟩) (some [3, 0, -3, 0])
    none none none = .ok s := by
  have hb : Balanced (⟨⟨0, 3 / 2, 1 / 2⟩, [3, 0, -3, 0]⟩ : Rel ℝ ℝ) := by
    rw [balanced_iff]
    have : pyRound (3 : ℝ) = 3 := by simpa using pyRound_natCast (K := ℝ) 3
    norm_num [Axis.steps, this]
    rfl
  obtain ⟨d, g, h1, h2⟩ := realPrims_works ⟨⟨0, 3 / 2, 1 / 2⟩, [3, 0, -3, 0]⟩
  obtain ⟨a, ha, _⟩ := C75_envelope _ hb
  obtain ⟨f, hf, _⟩ := C75_frequency _ hb
  refine ⟨⟨⟨⟨0, 3 / 2, 1 / 2⟩, [3, 0, -3, 0]⟩, f, a, g, none⟩, ?_⟩
  unfold Sweep.init
  rw [init_axis, make_ok (y := [3, 0, -3, 0]) hb]
  simp only [except_bind_ok, orDerive, ha, hf, h1, h2]
  rfl

end SweepDesign
