import Verif.Lemmas.Fourier
import Verif.Lemmas.Spectral

set_option linter.unusedSectionVars false

/-!
# The spectrum of an inverse transform
-/

namespace SweepDesign

open Finset

theorem conj_sum_hermitian (F : ℕ → ℂ) (n : ℕ) (h0 : (starRingEnd ℂ) (F 0) = F 0)
    (h : ∀ k, 0 < k → k < n → (starRingEnd ℂ) (F k) = F (n - k)) :
    (starRingEnd ℂ) (∑ k ∈ range n, F k) = ∑ k ∈ range n, F k := by
  cases n with
  | zero => simp
  | succ m =>
    rw [map_sum, sum_range_succ', sum_range_succ' F, h0]
    congr 1
    rw [← sum_range_reflect]
    refine sum_congr rfl fun k hk => ?_
    have := mem_range.1 hk
    rw [h _ (by omega) (by omega)]
    congr 1
    omega

/-- the two-sided spectrum `irfft` really uses: real at 0 and at half the length -/
noncomputable def twoSided (s : List ℂ) (n k : ℕ) : ℂ :=
  if k = 0 ∨ 2 * k = n then (((at0 s k).re : ℝ) : ℂ) else hermitianExt s n k

theorem twoSided_conj (s : List ℂ) (n k : ℕ) (h0 : 0 < k) (hk : k < n) :
    (starRingEnd ℂ) (twoSided s n k) = twoSided s n (n - k) := by
  unfold twoSided hermitianExt
  by_cases h : 2 * k = n
  · have e : n - k = k := by omega
    rw [e, if_pos (.inr h), if_pos (.inr h), Complex.conj_ofReal]
  · have c1 : ¬ (k = 0 ∨ 2 * k = n) := by omega
    have c2 : ¬ (n - k = 0 ∨ 2 * (n - k) = n) := by omega
    rw [if_neg c1, if_neg c2]
    by_cases h2 : 2 * k ≤ n
    · have c3 : ¬ 2 * (n - k) ≤ n := by omega
      rw [if_pos h2, if_neg c3, show n - (n - k) = k by omega]
    · have c3 : 2 * (n - k) ≤ n := by omega
      rw [if_neg h2, if_pos c3, Complex.conj_conj]

theorem unitRoot_half (n k : ℕ) (h : 2 * k = n) (hn : 0 < n) (j : ℤ) :
    (starRingEnd ℂ) (unitRoot n (j * k)) = unitRoot n (j * k) := by
  rw [unitRoot_conj]
  have : unitRoot n (j * k) = unitRoot n (-(j * k)) * unitRoot n (n * j) := by
    rw [← unitRoot_add]
    congr 1
    rw [← h]; push_cast; ring
  rw [this, unitRoot_period n hn, mul_one]

theorem irfft_twoSided (s : List ℂ) (n : ℕ) (hn : 0 < n) (size : Option ℤ)
    (hs : size.getD (2 * ((s.length : ℤ) - 1)) = n) :
    ∃ w, irfft s size = .ok w ∧ w.length = n ∧
      ∀ j < n, ((at0 w j : ℝ) : ℂ) = (∑ k ∈ range n, twoSided s n k * unitRoot n (j * k)) / n := by
  unfold irfft
  rw [hs]
  have h1 : ¬ ((n : ℤ) < 1) := by omega
  rw [if_neg h1]
  simp only [Int.toNat_natCast]
  refine ⟨_, rfl, by simp, fun j hj => ?_⟩
  rw [at0_eq _ _ (by simpa using hj)]
  simp only [List.getElem_map, List.getElem_range]
  have hu : ∀ k : ℕ, Complex.exp (2 * Real.pi * Complex.I * (j * k : ℕ) / (n : ℂ)) = unitRoot n (j * k) := by
    intro k
    unfold unitRoot
    push_cast
    rfl
  have hre : ∀ k ∈ range n, (hermitianExt s n k * Complex.exp (2 * Real.pi * Complex.I * (j * k : ℕ) / (n : ℂ))).re =
      (twoSided s n k * unitRoot n (j * k)).re := by
    intro k hk
    rw [hu]
    unfold twoSided
    split
    · rename_i h
      have hconj : (starRingEnd ℂ) (unitRoot n (j * k)) = unitRoot n (j * k) := by
        rcases h with rfl | h
        · simp [unitRoot_zero]
        · exact unitRoot_half n k h hn j
      have hi : (unitRoot n (j * k)).im = 0 := Complex.conj_eq_iff_im.1 hconj
      have hh : hermitianExt s n k = at0 s k := by
        unfold hermitianExt
        rw [if_pos (by omega)]
      rw [hh, Complex.mul_re, Complex.mul_re, hi]
      simp
    · rfl
  rw [sum_congr rfl hre, ← Complex.re_sum]
  have hreal : (starRingEnd ℂ) (∑ k ∈ range n, twoSided s n k * unitRoot n (j * k)) =
      ∑ k ∈ range n, twoSided s n k * unitRoot n (j * k) := by
    refine conj_sum_hermitian _ n ?_ fun k h0 hk => ?_
    · simp [twoSided, unitRoot_zero]
    · rw [map_mul, twoSided_conj s n k h0 hk, unitRoot_conj]
      congr 1
      rw [show ((j : ℤ) * ((n - k : ℕ) : ℤ)) = -(j * k) + n * j by rw [Nat.cast_sub hk.le]; ring, unitRoot_add,
        unitRoot_period n hn, mul_one]
  rw [Complex.ofReal_div, Complex.conj_eq_iff_re.1 hreal, Complex.ofReal_natCast]

/-- the transform of `irfft s n`: the values of `s`, without the imaginary parts at 0 and at half the length -/
theorem dft_irfft (s : List ℂ) (n : ℕ) (hn : 0 < n) (size : Option ℤ)
    (hs : size.getD (2 * ((s.length : ℤ) - 1)) = n) :
    ∃ w, irfft s size = .ok w ∧ w.length = n ∧ ∀ k < n, dft n (at0 w) k = twoSided s n k := by
  obtain ⟨w, h1, h2, h3⟩ := irfft_twoSided s n hn size hs
  refine ⟨w, h1, h2, fun k hk => ?_⟩
  have hnC : (n : ℂ) ≠ 0 := by exact_mod_cast hn.ne'
  unfold dft
  have : ∀ j ∈ range n, ((at0 w j : ℝ) : ℂ) * unitRoot n (-(j * k)) =
      ∑ l ∈ range n, twoSided s n l * unitRoot n ((l - k) * j) / n := by
    intro j hj
    rw [h3 j (mem_range.1 hj), div_mul_eq_mul_div, sum_mul, sum_div]
    refine sum_congr rfl fun l _ => ?_
    rw [mul_assoc, ← unitRoot_add]
    congr 3
    ring
  rw [sum_congr rfl this, sum_comm]
  have : ∀ l ∈ range n, ∑ j ∈ range n, twoSided s n l * unitRoot n ((l - k) * j) / n =
      if l = k then twoSided s n k else 0 := by
    intro l hl
    rw [← sum_div, ← mul_sum, unitRoot_sum n hn]
    have hl' := mem_range.1 hl
    by_cases h : l = k
    · rw [if_pos h, if_pos (by rw [h]; simp), h]
      field_simp
    · rw [if_neg h, if_neg, mul_zero, zero_div]
      intro hd
      obtain ⟨c, hc⟩ := hd
      have : (c : ℤ) = 0 := by
        rcases lt_trichotomy c 0 with h0 | h0 | h0
        · nlinarith
        · exact h0
        · nlinarith
      rw [this] at hc
      omega
  rw [sum_congr rfl this, sum_ite_eq' (range n) k, if_pos (mem_range.2 hk)]

end SweepDesign
