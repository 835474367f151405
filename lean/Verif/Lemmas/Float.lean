import Verif.Model.FloatAxis
import Verif.Lemmas.Round
import Verif.Lemmas.Axis
import Mathlib.Tactic.Linarith
import Mathlib.Tactic.FieldSimp
import Mathlib.Tactic.Positivity
import Mathlib.Tactic.Ring
import Mathlib.Tactic.NormNum

/-! # Rounding errors -/

set_option linter.unusedSectionVars false

namespace SweepDesign

namespace Spec

/-- Every result of `fl` has relative error at most `u` (specification of rounded arithmetic). -/
def RelErr {K : Type} [Field K] [LinearOrder K] (fl : K → K) (u : K) : Prop := ∀ q, |fl q - q| ≤ u * |q|

end Spec

open Spec

section
variable {K : Type} [Field K] [LinearOrder K] [IsStrictOrderedRing K] [FloorRing K]

theorem Spec.RelErr.factor {fl : K → K} {u : K} (h : RelErr fl u) (q : K) : ∃ d, |d| ≤ u ∧ fl q = q * (1 + d) := by
  by_cases h0 : q = 0
  · refine ⟨0, ?_, ?_⟩
    · have := h 1
      have h1 : 0 ≤ |fl 1 - 1| := abs_nonneg _
      rw [abs_one, mul_one] at this
      rw [abs_zero]; linarith
    · have := h q
      rw [h0, abs_zero, mul_zero, sub_zero] at this
      have := abs_eq_zero.1 (le_antisymm this (abs_nonneg _))
      rw [h0, this, zero_mul]
  · refine ⟨(fl q - q) / q, ?_, ?_⟩
    · rw [abs_div, div_le_iff₀ (abs_pos.2 h0)]
      exact h q
    · field_simp
      ring

theorem relErr_nonneg {fl : K → K} {u : K} (h : RelErr fl u) : 0 ≤ u := by
  have := h 1
  rw [abs_one, mul_one] at this
  exact (abs_nonneg _).trans this

theorem pyRound_of_near {q : K} {k : ℤ} (h : |q - k| < 1 / 2) : pyRound q = k :=
  nearestEven_unique (pyRound_spec q) ⟨h.le, fun e => absurd e h.ne⟩

/-- two roundings -/
theorem two_factors {u a b : K} (ha : |a| ≤ u) (hb : |b| ≤ u) : |(1 + a) * (1 + b) - 1| ≤ 2 * u + u ^ 2 := by
  have e : (1 + a) * (1 + b) - 1 = a + b + a * b := by ring
  rw [e]
  calc |a + b + a * b| ≤ |a + b| + |a * b| := abs_add_le _ _
    _ ≤ |a| + |b| + |a| * |b| := by rw [abs_mul]; linarith [abs_add_le a b]
    _ ≤ u + u + u * u := by
        have := mul_le_mul ha hb (abs_nonneg _) ((abs_nonneg _).trans ha)
        linarith
    _ = 2 * u + u ^ 2 := by ring

theorem three_factors {u a b c : K} (hu : u ≤ 1 / 100) (ha : |a| ≤ u) (hb : |b| ≤ u) (hc : |c| ≤ u) :
    |(1 + a) * (1 + b) * (1 + c) - 1| ≤ 31 / 10 * u := by
  have h2 := two_factors ha hb
  have hu0 : 0 ≤ u := (abs_nonneg _).trans ha
  have e : (1 + a) * (1 + b) * (1 + c) - 1 = ((1 + a) * (1 + b) - 1) + c + ((1 + a) * (1 + b) - 1) * c := by ring
  rw [e]
  have h3 : |((1 + a) * (1 + b) - 1) * c| ≤ (2 * u + u ^ 2) * u := by
    rw [abs_mul]
    exact mul_le_mul h2 hc (abs_nonneg _) (by positivity)
  have h4 := abs_add_le (((1 + a) * (1 + b) - 1) + c) (((1 + a) * (1 + b) - 1) * c)
  have h5 := abs_add_le ((1 + a) * (1 + b) - 1) c
  have h6 : u ^ 2 ≤ 1 / 100 * u := by rw [pow_two]; exact mul_le_mul_of_nonneg_right hu hu0
  have h7 : (2 * u + u ^ 2) * u ≤ 201 / 100 * (1 / 100) * u := by
    calc (2 * u + u ^ 2) * u ≤ (2 * u + 1 / 100 * u) * u := mul_le_mul_of_nonneg_right (by linarith) hu0
      _ = 201 / 100 * u ^ 2 := by ring
      _ ≤ 201 / 100 * (1 / 100 * u) := by linarith
      _ = _ := by ring
  linarith

theorem flLinspace_length (fl : K → K) (a b : K) (n : ℕ) : (flLinspace fl a b n).length = n := by
  unfold flLinspace
  simp only
  split <;> simp

theorem flArray_ok {fl : K → K} {a : Axis K} {l : List K} (h : a.flArray fl = .ok l) :
    a.sample ≠ 0 ∧ l = flLinspace fl a.start a.stop l.length := by
  unfold Axis.flArray at h
  by_cases hs : a.sample = 0
  · simp [hs] at h
  · rw [if_neg hs, Except.ok.injEq] at h
    refine ⟨hs, ?_⟩
    have : l.length = (pyRound |fl (fl (a.stop - a.start) / a.sample)|).toNat + 1 := by
      rw [← h, flLinspace_length]
    rw [this, h]

/-- a point of the rounded `linspace` before the last -/
theorem flLinspace_getElem {fl : K → K} {u : K} (hfl : RelErr fl u) (hu : u ≤ 1 / 100) (a b : K) (n i : ℕ) (hi : i < n)
    (h : i < (flLinspace fl a b (n + 1)).length) :
    ∃ d e, |d| ≤ 31 / 10 * u ∧ |e| ≤ u ∧ (flLinspace fl a b (n + 1))[i] = (a + i * ((b - a) / n) * (1 + d)) * (1 + e) := by
  obtain ⟨d1, h1, e1⟩ := hfl.factor (b - a)
  have hn : ((n + 1 : ℕ) : K) - 1 = n := by push_cast; ring
  have hn0 : (n : K) ≠ 0 := by exact_mod_cast (by omega : n ≠ 0)
  obtain ⟨d2, h2, e2⟩ := hfl.factor (fl (b - a) / n)
  have hval : (flLinspace fl a b (n + 1))[i] = if fl (fl (b - a) / n) = 0 then fl (fl (fl ((i : K) / n) * fl (b - a)) + a)
      else fl (fl ((i : K) * fl (fl (b - a) / n)) + a) := by
    unfold flLinspace
    simp only [hn, if_neg (show ¬ n + 1 ≤ 1 by omega), List.getElem_map, List.getElem_range,
      if_neg (show ¬ i + 1 = n + 1 by omega)]
  rw [hval]
  by_cases h0 : fl (fl (b - a) / n) = 0
  · rw [if_pos h0]
    have hd1 := abs_le.1 h1
    have hd2 := abs_le.1 h2
    rw [e2] at h0
    rcases mul_eq_zero.1 h0 with h0 | h0
    · have hz : fl (b - a) = 0 := by
        rcases div_eq_zero_iff.1 h0 with h | h
        · exact h
        · exact absurd h hn0
      rw [hz, mul_zero]
      have hba : b - a = 0 := by
        rw [e1] at hz
        rcases mul_eq_zero.1 hz with h | h
        · exact h
        · exfalso; linarith
      obtain ⟨d3, h3, e3⟩ := hfl.factor (0 : K)
      rw [e3, zero_mul, zero_add]
      obtain ⟨d4, h4, e4⟩ := hfl.factor a
      refine ⟨0, d4, ?_, h4, ?_⟩
      · rw [abs_zero]; have := relErr_nonneg hfl; positivity
      · rw [e4, hba]; ring
    · exfalso; linarith
  · rw [if_neg h0]
    obtain ⟨d3, h3, e3⟩ := hfl.factor ((i : K) * fl (fl (b - a) / n))
    obtain ⟨d4, h4, e4⟩ := hfl.factor (fl ((i : K) * fl (fl (b - a) / n)) + a)
    refine ⟨(1 + d1) * (1 + d2) * (1 + d3) - 1, d4, three_factors hu h1 h2 h3, h4, ?_⟩
    rw [e4, e3, e2, e1]
    field_simp
    ring

end

/-! ## double precision -/

theorem log2_bounds (n : ℕ) (hn : n ≠ 0) : 2 ^ Nat.log2 n ≤ n ∧ n < 2 ^ (Nat.log2 n + 1) :=
  ⟨Nat.log2_self_le hn, Nat.lt_log2_self⟩

theorem binExp_bounds (q : ℚ) (hq : q ≠ 0) : (2 : ℚ) ^ binExp q ≤ |q| ∧ |q| < (2 : ℚ) ^ (binExp q + 1) := by
  obtain ⟨n1, n2⟩ := log2_bounds q.num.natAbs (by simpa using hq)
  obtain ⟨d1, d2⟩ := log2_bounds q.den q.den_nz
  set a := Nat.log2 q.num.natAbs with ha
  set b := Nat.log2 q.den with hb
  have hden : (0 : ℚ) < q.den := by exact_mod_cast q.den_pos
  have habs : |q| = (q.num.natAbs : ℚ) / q.den := by
    conv_lhs => rw [← Rat.num_div_den q]
    rw [abs_div, Nat.abs_cast, Nat.cast_natAbs, Int.cast_abs]
  have n1' : ((2 : ℚ) ^ a) ≤ q.num.natAbs := by exact_mod_cast n1
  have n2' : (q.num.natAbs : ℚ) < (2 : ℚ) ^ (a + 1) := by exact_mod_cast n2
  have d1' : ((2 : ℚ) ^ b) ≤ q.den := by exact_mod_cast d1
  have d2' : (q.den : ℚ) < (2 : ℚ) ^ (b + 1) := by exact_mod_cast d2
  have two : (2 : ℚ) ≠ 0 := two_ne_zero
  have up : |q| < (2 : ℚ) ^ ((a : ℤ) - b + 1) := by
    rw [habs, div_lt_iff₀ hden]
    calc (q.num.natAbs : ℚ) < (2 : ℚ) ^ (a + 1) := n2'
      _ = (2 : ℚ) ^ ((a : ℤ) - b + 1) * (2 : ℚ) ^ b := by
          rw [← zpow_natCast, ← zpow_natCast, ← zpow_add₀ two]
          congr 1; push_cast; ring
      _ ≤ _ := mul_le_mul_of_nonneg_left d1' (zpow_pos two_pos _).le
  have low : (2 : ℚ) ^ ((a : ℤ) - b - 1) ≤ |q| := by
    rw [habs, le_div_iff₀ hden]
    calc (2 : ℚ) ^ ((a : ℤ) - b - 1) * q.den ≤ (2 : ℚ) ^ ((a : ℤ) - b - 1) * (2 : ℚ) ^ (b + 1) :=
          mul_le_mul_of_nonneg_left d2'.le (zpow_pos two_pos _).le
      _ = (2 : ℚ) ^ a := by
          rw [← zpow_natCast, ← zpow_natCast, ← zpow_add₀ two]
          congr 1; push_cast; ring
      _ ≤ _ := n1'
  unfold binExp
  simp only [← ha, ← hb]
  split
  · rename_i h
    exact ⟨low, by rw [sub_add_cancel]; exact h⟩
  · rename_i h
    exact ⟨not_lt.1 h, up⟩

/-- double precision has relative error at most `2^-53` -/
theorem fl64_relErr : RelErr fl64 ((2 : ℚ) ^ (-53 : ℤ)) := by
  intro q
  by_cases hq : q = 0
  · simp [fl64, hq]
  · obtain ⟨h1, -⟩ := binExp_bounds q hq
    have hp : (0 : ℚ) < (2 : ℚ) ^ (binExp q - 52) := zpow_pos two_pos _
    have e : fl64 q - q = ((pyRound (q / (2 : ℚ) ^ (binExp q - 52)) : ℚ) - q / (2 : ℚ) ^ (binExp q - 52)) *
        (2 : ℚ) ^ (binExp q - 52) := by
      unfold fl64
      rw [if_neg hq]
      field_simp
    rw [e, abs_mul, abs_of_pos hp, abs_sub_comm]
    have h2 := abs_sub_pyRound_le (q / (2 : ℚ) ^ (binExp q - 52))
    calc |q / (2 : ℚ) ^ (binExp q - 52) - (pyRound (q / (2 : ℚ) ^ (binExp q - 52)) : ℚ)| * (2 : ℚ) ^ (binExp q - 52)
        ≤ 1 / 2 * (2 : ℚ) ^ (binExp q - 52) := mul_le_mul_of_nonneg_right h2 hp.le
      _ = (2 : ℚ) ^ (-53 : ℤ) * (2 : ℚ) ^ binExp q := by
          have : (1 / 2 : ℚ) = (2 : ℚ) ^ (-1 : ℤ) := by norm_num
          rw [this, ← zpow_add₀ two_ne_zero, ← zpow_add₀ two_ne_zero]
          congr 1; ring
      _ ≤ _ := mul_le_mul_of_nonneg_left h1 (zpow_pos two_pos _).le

end SweepDesign
