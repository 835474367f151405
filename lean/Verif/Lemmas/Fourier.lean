import Verif.Py.Fft
import Verif.Lemmas.Arith
import Mathlib.Analysis.SpecialFunctions.Complex.Log
import Mathlib.Algebra.BigOperators.Field
import Mathlib.Algebra.Field.GeomSum
import Mathlib.RingTheory.RootsOfUnity.Complex

/-! # The real discrete Fourier transform and its inverse -/

set_option linter.unusedSectionVars false
set_option linter.unnecessarySeqFocus false

namespace SweepDesign

open Complex Finset

/-- `e^{2πi m/n}` -/
noncomputable def unitRoot (n : ℕ) (m : ℤ) : ℂ := exp (2 * Real.pi * I * m / n)

theorem unitRoot_add (n : ℕ) (a b : ℤ) : unitRoot n (a + b) = unitRoot n a * unitRoot n b := by
  unfold unitRoot
  rw [← exp_add]
  congr 1
  push_cast
  ring

theorem unitRoot_zero (n : ℕ) : unitRoot n 0 = 1 := by simp [unitRoot]

theorem unitRoot_conj (n : ℕ) (a : ℤ) : (starRingEnd ℂ) (unitRoot n a) = unitRoot n (-a) := by
  unfold unitRoot
  rw [← exp_conj]
  congr 1
  have h2 : (starRingEnd ℂ) 2 = 2 := map_ofNat _ 2
  simp [map_div₀, h2]

theorem unitRoot_mul_nat (n : ℕ) (a : ℤ) (k : ℕ) : unitRoot n (a * k) = unitRoot n a ^ k := by
  unfold unitRoot
  rw [← exp_nat_mul]
  congr 1
  push_cast
  ring

theorem unitRoot_period (n : ℕ) (hn : 0 < n) (a : ℤ) : unitRoot n (n * a) = 1 := by
  unfold unitRoot
  rw [exp_eq_one_iff]
  refine ⟨a, ?_⟩
  have : (n : ℂ) ≠ 0 := by exact_mod_cast hn.ne'
  push_cast
  field_simp

theorem unitRoot_eq_one_iff (n : ℕ) (hn : 0 < n) (a : ℤ) : unitRoot n a = 1 ↔ (n : ℤ) ∣ a := by
  constructor
  · intro h
    unfold unitRoot at h
    rw [exp_eq_one_iff] at h
    obtain ⟨k, hk⟩ := h
    refine ⟨k, ?_⟩
    have hn' : (n : ℂ) ≠ 0 := by exact_mod_cast hn.ne'
    have hpi : (2 * Real.pi * I : ℂ) ≠ 0 := two_pi_I_ne_zero
    have : (a : ℂ) = n * k := by
      have h2 : (2 * Real.pi * I : ℂ) * a = (2 * Real.pi * I : ℂ) * (n * k) := by
        field_simp at hk
        linear_combination (2 * Real.pi * I : ℂ) * hk
      exact mul_left_cancel₀ hpi h2
    exact_mod_cast this
  · rintro ⟨k, rfl⟩
    exact unitRoot_period n hn k

theorem unitRoot_sum (n : ℕ) (hn : 0 < n) (a : ℤ) :
    ∑ k ∈ range n, unitRoot n (a * k) = if (n : ℤ) ∣ a then (n : ℂ) else 0 := by
  simp_rw [unitRoot_mul_nat]
  split
  · rename_i h
    rw [(unitRoot_eq_one_iff n hn a).2 h]
    simp
  · rename_i h
    have h1 : unitRoot n a ≠ 1 := fun e => h ((unitRoot_eq_one_iff n hn a).1 e)
    rw [geom_sum_eq h1, ← unitRoot_mul_nat, mul_comm a, unitRoot_period n hn]
    simp

/-- The full two-sided transform of the first `n` values of `a`. -/
noncomputable def dft (n : ℕ) (a : ℕ → ℝ) (k : ℤ) : ℂ := ∑ j ∈ range n, (a j : ℂ) * unitRoot n (-(j * k))

theorem dft_conj (n : ℕ) (hn : 0 < n) (a : ℕ → ℝ) (k : ℤ) :
    (starRingEnd ℂ) (dft n a (n - k)) = dft n a k := by
  unfold dft
  rw [map_sum]
  refine sum_congr rfl fun j _ => ?_
  rw [map_mul, conj_ofReal, unitRoot_conj]
  congr 1
  rw [show -(-((j : ℤ) * ((n : ℤ) - k))) = (n : ℤ) * j + -(j * k) by ring, unitRoot_add, unitRoot_period n hn, one_mul]

/-- inversion, with a twist by `m` positions -/
theorem dft_inverse (n : ℕ) (hn : 0 < n) (a : ℕ → ℝ) (m j : ℤ) :
    ∑ k ∈ range n, dft n a k * unitRoot n (-(k * m)) * unitRoot n (j * k) =
      n * (a ((j - m) % n).toNat : ℂ) := by
  unfold dft
  simp_rw [sum_mul]
  rw [sum_comm]
  have hn' : (0 : ℤ) < n := by exact_mod_cast hn
  have hl0 : 0 ≤ (j - m) % n := Int.emod_nonneg _ hn'.ne'
  have hl1 : (j - m) % n < n := Int.emod_lt_of_pos _ hn'
  have key : ∀ l ∈ range n, ∑ k ∈ range n,
      (a l : ℂ) * unitRoot n (-(l * (k : ℤ))) * unitRoot n (-(k * m)) * unitRoot n (j * k) =
      if l = ((j - m) % n).toNat then n * (a l : ℂ) else 0 := by
    intro l hl
    have hl' : (l : ℤ) < n := by exact_mod_cast mem_range.1 hl
    have : ∀ k : ℕ, (a l : ℂ) * unitRoot n (-(l * (k : ℤ))) * unitRoot n (-(k * m)) * unitRoot n (j * k) =
        (a l : ℂ) * unitRoot n ((j - m - l) * k) := by
      intro k
      rw [show (j - m - l) * (k : ℤ) = -(l * (k : ℤ)) + (-(k * m)) + j * k by ring, unitRoot_add, unitRoot_add]
      ring
    simp_rw [this]
    rw [← mul_sum, unitRoot_sum n hn]
    have hiff : ((n : ℤ) ∣ j - m - l) ↔ l = ((j - m) % n).toNat := by
      constructor
      · intro h
        have h1 : (l : ℤ) % n = (j - m) % n := Int.modEq_iff_dvd.2 h
        rw [Int.emod_eq_of_lt (by positivity) hl'] at h1
        omega
      · intro h
        have h1 : (l : ℤ) = (j - m) % n := by omega
        rw [h1]
        exact Int.dvd_self_sub_emod
    by_cases h : l = ((j - m) % n).toNat
    · rw [if_pos (hiff.2 h), if_pos h]; ring
    · rw [if_neg (fun e => h (hiff.1 e)), if_neg h]; ring
  rw [sum_congr rfl key, sum_ite_eq' (range n)]
  rw [if_pos]
  rw [mem_range]
  omega

theorem rfft_eq (a : List ℝ) (n : ℕ) (hn : 0 < n) (size : Option ℤ) (hs : size.getD a.length = n) :
    rfft a size = .ok ((List.range (n / 2 + 1)).map fun k : ℕ => dft n (at0 a) k) := by
  unfold rfft
  rw [hs]
  have h1 : ¬ ((n : ℤ) < 1) := by omega
  rw [if_neg h1]
  simp only [Int.toNat_natCast]
  congr 1
  refine List.map_congr_left fun k _ => ?_
  unfold dft unitRoot
  refine sum_congr rfl fun j _ => ?_
  congr 2
  push_cast
  rw [mul_neg, neg_div]

/-- The inverse transform of a twisted transform is a rotation of the data. -/
theorem irfft_dft (a : ℕ → ℝ) (n : ℕ) (hn : 0 < n) (m : ℤ) (s : List ℂ) (size : Option ℤ)
    (hs : size.getD (2 * ((s.length : ℤ) - 1)) = n)
    (h : ∀ k : ℕ, 2 * k ≤ n → at0 s k = dft n a k * unitRoot n (-(k * m))) :
    irfft s size = .ok ((List.range n).map fun j : ℕ => a ((j - m) % n).toNat) := by
  unfold irfft
  rw [hs]
  have h1 : ¬ ((n : ℤ) < 1) := by omega
  rw [if_neg h1]
  simp only [Int.toNat_natCast]
  congr 1
  refine List.map_congr_left fun j _ => ?_
  have hH : ∀ k ∈ range n, hermitianExt s n k = dft n a k * unitRoot n (-(k * m)) := by
    intro k hk
    have hk' := mem_range.1 hk
    unfold hermitianExt
    split
    · exact h k ‹_›
    · rw [h (n - k) (by omega), map_mul, unitRoot_conj]
      rw [show ((n - k : ℕ) : ℤ) = (n : ℤ) - k by omega, dft_conj n hn]
      congr 1
      rw [show - -(((n : ℤ) - k) * m) = n * m + -(k * m) by ring, unitRoot_add, unitRoot_period n hn, one_mul]
  have hn' : (n : ℝ) ≠ 0 := by exact_mod_cast hn.ne'
  rw [div_eq_iff hn']
  rw [← Complex.re_sum]
  have : ∑ k ∈ range n, hermitianExt s n k * exp (2 * Real.pi * I * (j * k : ℕ) / (n : ℂ)) =
      n * (a ((j - m) % n).toNat : ℂ) := by
    rw [← dft_inverse n hn a m j]
    refine sum_congr rfl fun k hk => ?_
    rw [hH k hk]
    congr 1
  rw [this, ← ofReal_natCast, ← ofReal_mul, ofReal_re]
  ring

end SweepDesign
