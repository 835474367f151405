import Verif.Model.FloatCodes
import Verif.Lemmas.Float
import Verif.Props.Codes
import Verif.Props.Exceptions
import Mathlib.Analysis.SpecialFunctions.Log.Base
import Mathlib.Analysis.SpecialFunctions.Log.Deriv
import Mathlib.Analysis.Complex.ExponentialBounds

/-!
# C117: m-sequences with the logarithm of the C library

`get_m_sequence_code` and `get_relation_m_sequence` find the number of bits with a floating point logarithm. It is the right
one for every length whose predecessor is no power of two; for `2^k + 1` it is `k` or `k + 1`.
-/

set_option linter.unusedSectionVars false

namespace SweepDesign

open Spec

/-- What is assumed of the logarithm `ln` of the C library and of the rounding `fl` of a division: relative errors of at most
`u ≤ 2^-50` (a few units in the last place), and that 1 is not rounded. -/
structure Spec.LibLog (ln fl : ℝ → ℝ) (u : ℝ) : Prop where
  small : u ≤ 2 ^ (-50 : ℤ)
  log : ∀ n : ℕ, 1 ≤ n → |ln n - Real.log n| ≤ u * Real.log n
  div : RelErr fl u
  one : fl 1 = 1

/-- three relative errors together -/
theorem three_errors {u d1 d2 d3 : ℝ} (hu : u ≤ 2 ^ (-50 : ℤ)) (h1 : |d1| ≤ u) (h2 : |d2| ≤ u) (h3 : |d3| ≤ u) :
    0 < 1 + d2 ∧ |(1 + d1) / (1 + d2) * (1 + d3) - 1| ≤ 2 ^ (-47 : ℤ) := by
  norm_num at hu ⊢
  obtain ⟨a1, b1⟩ := abs_le.1 h1
  obtain ⟨a2, b2⟩ := abs_le.1 h2
  obtain ⟨a3, b3⟩ := abs_le.1 h3
  have hp : 0 < 1 + d2 := by linarith
  refine ⟨hp, ?_⟩
  have h13 : |d1 * d3| ≤ u := by
    rw [abs_mul]
    have := mul_le_mul h1 h3 (abs_nonneg _) (le_trans (abs_nonneg _) h1)
    nlinarith [abs_nonneg d1]
  obtain ⟨a4, b4⟩ := abs_le.1 h13
  rw [show (1 + d1) / (1 + d2) * (1 + d3) - 1 = (d1 + d3 + d1 * d3 - d2) / (1 + d2) by field_simp; ring, abs_div, abs_of_pos hp,
    div_le_iff₀ hp, abs_le]
  constructor <;> nlinarith

variable {ln fl : ℝ → ℝ} {u : ℝ}

/-- the computed logarithm to base 2 -/
theorem lib_log2 (h : LibLog ln fl u) (n : ℕ) (hn : 1 ≤ n) :
    |fl (ln n / ln 2) - Real.logb 2 n| ≤ 2 ^ (-47 : ℤ) * Real.logb 2 n := by
  have hl2 : 0 < Real.log 2 := Real.log_pos (by norm_num)
  have hln : 0 ≤ Real.log n := Real.log_natCast_nonneg n
  have hx : 0 ≤ Real.logb 2 n := Real.logb_nonneg (by norm_num) (by exact_mod_cast hn)
  have factor : ∀ m : ℕ, 1 ≤ m → ∃ d, |d| ≤ u ∧ ln m = Real.log m * (1 + d) := by
    intro m hm
    have h0 := h.log m hm
    have hu : 0 ≤ u := relErr_nonneg h.div
    rcases (Real.log_natCast_nonneg m).eq_or_lt with e | hpos
    · refine ⟨0, by simpa using hu, ?_⟩
      rw [← e] at h0 ⊢
      simpa using h0
    · refine ⟨(ln m - Real.log m) / Real.log m, ?_, by field_simp; ring⟩
      rw [abs_div, abs_of_pos hpos, div_le_iff₀ hpos]
      exact h0
  obtain ⟨d1, e1, f1⟩ := factor n hn
  obtain ⟨d2, e2, f2⟩ := factor 2 (by norm_num)
  obtain ⟨d3, e3, f3⟩ := h.div.factor (ln n / ln 2)
  obtain ⟨hp, he⟩ := three_errors h.small e1 e2 e3
  push_cast at f2
  have : fl (ln n / ln 2) - Real.logb 2 n = ((1 + d1) / (1 + d2) * (1 + d3) - 1) * Real.logb 2 n := by
    rw [f3, f1, f2, Real.logb]
    field_simp
  rw [this, abs_mul, abs_of_nonneg hx]
  exact mul_le_mul_of_nonneg_right he hx

/-- two different whole numbers have logarithms at least this far apart -/
theorem logb_gap (a b : ℕ) (ha : 1 ≤ a) (hab : a < b) : (1 : ℝ) / b ≤ Real.logb 2 b - Real.logb 2 a := by
  have ha' : (0 : ℝ) < a := by exact_mod_cast ha
  have hb' : (0 : ℝ) < b := by exact_mod_cast (by omega : 0 < b)
  have h1 := Real.one_sub_inv_le_log_of_pos (div_pos hb' ha')
  rw [Real.log_div hb'.ne' ha'.ne'] at h1
  have hl2 : 0 < Real.log 2 := Real.log_pos (by norm_num)
  have hl2' : Real.log 2 ≤ 1 := by linarith [Real.log_two_lt_d9]
  have h2 : (1 : ℝ) / b ≤ 1 - ((b : ℝ) / a)⁻¹ := by
    rw [inv_div, le_sub_iff_add_le, ← add_div, div_le_one hb']
    exact_mod_cast (by omega : 1 + a ≤ b)
  have h3 : 0 ≤ Real.log b - Real.log a := le_trans (by positivity) (h2.trans h1)
  unfold Real.logb
  rw [← sub_div, le_div_iff₀ hl2]
  calc (1 : ℝ) / b * Real.log 2 ≤ 1 / b * 1 := mul_le_mul_of_nonneg_left hl2' (by positivity)
    _ ≤ _ := by rw [mul_one]; exact h2.trans h1

theorem logb_two_pow (k : ℕ) : Real.logb 2 ((2 ^ k : ℕ) : ℝ) = k := by
  rw [Nat.cast_pow, Nat.cast_two, Real.logb_pow, Real.logb_self_eq_one (by norm_num), mul_one]

/-- **C117** The number of bits of `n ≤ 2^32`, not a power of two: the `k` with `2^(k-1) < n < 2^k`. -/
theorem C117_bits (h : LibLog ln fl u) (n k : ℕ) (h1 : 2 ^ k < n) (h2 : n < 2 ^ (k + 1)) (hk : k < 32) :
    flCeilLog2 ln fl n = .ok (k + 1) := by
  have hn : 1 ≤ n := by omega
  have he := abs_le.1 (lib_log2 h n hn)
  have g1 := logb_gap (2 ^ k) n Nat.one_le_two_pow h1
  have g2 := logb_gap n (2 ^ (k + 1)) hn h2
  rw [logb_two_pow] at g1 g2
  have hb : (1 : ℝ) / 2 ^ 32 ≤ 1 / ((2 ^ (k + 1) : ℕ) : ℝ) := by
    apply one_div_le_one_div_of_le (by positivity)
    push_cast
    exact pow_le_pow_right₀ (by norm_num) hk
  have hb' : 1 / ((2 ^ (k + 1) : ℕ) : ℝ) ≤ 1 / (n : ℝ) :=
    one_div_le_one_div_of_le (by exact_mod_cast hn) (by exact_mod_cast h2.le)
  have hk' : (k : ℝ) + 1 ≤ 32 := by exact_mod_cast (by omega : k + 1 ≤ 32)
  generalize (1 : ℝ) / ((2 ^ (k + 1) : ℕ) : ℝ) = w at g2 hb hb'
  push_cast at g2
  rw [show (2 : ℝ) ^ (-47 : ℤ) = 1 / 2 ^ 47 by norm_num] at he
  have hv1 : (k : ℝ) < fl (ln n / ln 2) := by
    norm_num at hb
    linarith [he.1]
  have hv2 : fl (ln n / ln 2) ≤ k + 1 := by
    norm_num at hb
    linarith [he.2]
  unfold flCeilLog2
  rw [if_neg (by omega), Int.cast_natCast]
  have : ⌈fl (ln n / ln 2)⌉ = (k : ℤ) + 1 := by
    rw [Int.ceil_eq_iff]
    push_cast
    exact ⟨by linarith, hv2⟩
  rw [this]
  rfl

/-- **C117** The number of bits of a power of two: the exponent or one more. -/
theorem C117_bits_power (h : LibLog ln fl u) (k : ℕ) (hk : k ≤ 32) :
    flCeilLog2 ln fl ((2 ^ k : ℕ) : ℤ) = .ok k ∨ 2 ≤ k ∧ flCeilLog2 ln fl ((2 ^ k : ℕ) : ℤ) = .ok (k + 1) := by
  have hn : 1 ≤ 2 ^ k := Nat.one_le_two_pow
  have he := abs_le.1 (lib_log2 h (2 ^ k) hn)
  rw [logb_two_pow] at he
  have hk' : (k : ℝ) ≤ 32 := by exact_mod_cast hk
  have unf : ∀ m : ℤ, ⌈fl (ln ((2 ^ k : ℕ) : ℝ) / ln 2)⌉ = m → flCeilLog2 ln fl ((2 ^ k : ℕ) : ℤ) = .ok m.toNat := by
    intro m hm
    unfold flCeilLog2
    rw [if_neg (by omega), Int.cast_natCast, hm]
  rcases (show k = 0 ∨ k = 1 ∨ 2 ≤ k by omega) with rfl | rfl | h2
  · left
    have hz : fl (ln ((2 ^ 0 : ℕ) : ℝ) / ln 2) = 0 := by
      norm_num at he ⊢
      linarith [he.1, he.2]
    exact unf 0 (by rw [hz, Int.ceil_zero])
  · left
    have hl2 : ln 2 ≠ 0 := by
      have h0 := abs_le.1 (h.log 2 (by norm_num))
      have hs := h.small
      have hl2 : 0 < Real.log 2 := Real.log_pos (by norm_num)
      norm_num at h0 hs
      intro hc
      rw [hc] at h0
      nlinarith [h0.1]
    have hz : fl (ln ((2 ^ 1 : ℕ) : ℝ) / ln 2) = 1 := by
      rw [pow_one, Nat.cast_two, div_self hl2, h.one]
    exact unf 1 (by rw [hz, Int.ceil_one])
  · norm_num at he
    rcases le_or_gt (fl (ln ((2 ^ k : ℕ) : ℝ) / ln 2)) k with hc | hc
    · left
      refine unf k ?_
      rw [Int.ceil_eq_iff]
      push_cast at hc ⊢
      exact ⟨by nlinarith [he.1], hc⟩
    · right
      refine ⟨h2, unf ((k + 1 : ℕ) : ℤ) ?_⟩
      rw [Int.ceil_eq_iff]
      push_cast at hc ⊢
      exact ⟨by linarith, by nlinarith [he.2]⟩

/-- **C117** More than `2^32`: more than 32 bits. -/
theorem C117_bits_large (h : LibLog ln fl u) (n : ℕ) (hn : 2 ^ 32 < n) :
    ∃ k, 32 < k ∧ flCeilLog2 ln fl n = .ok k := by
  have he := abs_le.1 (lib_log2 h n (by omega))
  have hge : Real.logb 2 ((2 ^ 32 + 1 : ℕ) : ℝ) ≤ Real.logb 2 n :=
    Real.logb_le_logb_of_le (by norm_num) (by positivity) (by exact_mod_cast hn)
  have g := logb_gap (2 ^ 32) (2 ^ 32 + 1) (by norm_num) (by norm_num)
  rw [logb_two_pow] at g
  norm_num at g hge he
  have hv : (32 : ℝ) < fl (ln n / ln 2) := by nlinarith [he.1]
  refine ⟨⌈fl (ln n / ln 2)⌉.toNat, ?_, ?_⟩
  · have : 32 < ⌈fl (ln n / ln 2)⌉ := Int.lt_ceil.2 (by exact_mod_cast hv)
    omega
  · unfold flCeilLog2
    rw [if_neg (by omega), Int.cast_natCast]

/-- the exact number of bits, where rounding does no harm -/
theorem bits_same (h : LibLog ln fl u) (n : ℤ) (hn : n ≤ 2 ^ 32) (hp : ∀ k : ℕ, 2 ≤ k → k ≤ 32 → n ≠ 2 ^ k) :
    flCeilLog2 ln fl n = ceilLog2 n := by
  rcases le_or_gt n 0 with h0 | h0
  · unfold flCeilLog2 ceilLog2
    rw [if_pos h0, if_pos h0]
  obtain ⟨m, rfl⟩ : ∃ m : ℕ, n = m := ⟨n.toNat, by omega⟩
  have hm : m ≠ 0 := by omega
  have hc : ceilLog2 (m : ℤ) = .ok (Nat.clog 2 m) := by
    unfold ceilLog2
    rw [if_neg (by omega), Int.toNat_natCast]
  have l1 := Nat.pow_log_le_self 2 hm
  have l2 := Nat.lt_pow_succ_log_self (by norm_num : 1 < 2) m
  rcases l1.eq_or_lt with e | hlt
  · have hk2 : Nat.log 2 m < 2 := by
      by_contra hk2
      have hk32 : Nat.log 2 m ≤ 32 := by
        by_contra hk
        have : 2 ^ 33 ≤ 2 ^ Nat.log 2 m := Nat.pow_le_pow_right (by norm_num) (by omega)
        omega
      exact hp _ (by omega) hk32 (by exact_mod_cast e.symm)
    have hb := C117_bits_power h (Nat.log 2 m) (by omega)
    rw [e] at hb
    rcases hb with hb | ⟨hb, -⟩
    · rw [hb, hc, ← e, Nat.log_pow (by norm_num), Nat.clog_pow _ _ (by norm_num)]
    · omega
  · have hk : Nat.log 2 m < 32 := by
      by_contra hk
      have : 2 ^ 32 ≤ 2 ^ Nat.log 2 m := Nat.pow_le_pow_right (by norm_num) (by omega)
      omega
    rw [C117_bits h m _ hlt l2 hk, hc]
    have c1 : Nat.clog 2 m ≤ Nat.log 2 m + 1 := Nat.clog_le_of_le_pow l2.le
    have c2 : Nat.log 2 m < Nat.clog 2 m := by
      by_contra hcon
      have h1 := Nat.le_pow_clog (by norm_num : 1 < 2) m
      have h2 : 2 ^ Nat.clog 2 m ≤ 2 ^ Nat.log 2 m := Nat.pow_le_pow_right (by norm_num) (by omega)
      omega
    congr 1
    omega

theorem start_of_bits (rand : ℕ → ℤ) (k : ℕ) (hk : 1 ≤ k) :
    ∃ st, fixStart ((List.range k).map rand) = .ok st ∧ st.length = k ∧ ¬ ∀ v ∈ st, v = 0 := by
  obtain ⟨st, f1, f2, f3, -⟩ := fixStart_ok ((List.range k).map rand) (by
    intro h
    have := congrArg List.length h
    simp only [List.length_map, List.length_range, List.length_nil] at this
    omega)
  exact ⟨st, f1, by simpa using f2, f3⟩

section
variable {V : Type} (mls : ℕ → List ℤ → List V) (rand : ℕ → ℤ)

/-- **C117** `get_m_sequence_code(L)` in floating point: what the exact logarithm gives, or the same exception, for every `L`
but the numbers `2^k + 1` with `2 ≤ k ≤ 32`. -/
theorem C117_code (h : LibLog ln fl u) (L : ℤ) (hL : ∀ k : ℕ, 2 ≤ k → k ≤ 32 → L ≠ 2 ^ k + 1) (isFull : Bool) :
    flMSequenceCode ln fl mls rand L isFull = getMSequenceCode mls rand L isFull := by
  rcases le_or_gt (L - 1) (2 ^ 32) with h32 | h32
  · unfold flMSequenceCode getMSequenceCode
    rw [bits_same h (L - 1) h32 fun k h1 h2 hc => hL k h1 h2 (by omega)]
  · rw [C113_long_code mls rand isFull L (by omega)]
    obtain ⟨k, hk, e⟩ := C117_bits_large h (L - 1).toNat (by omega)
    have hc : (((L - 1).toNat : ℕ) : ℤ) = L - 1 := by omega
    rw [hc] at e
    obtain ⟨st, f1, f2, -⟩ := start_of_bits rand k (by omega)
    simp only [flMSequenceCode, e, except_bind_ok, f1, maxLenSeq_error mls k st (.inr hk), except_bind_error]

/-- **C117** `get_m_sequence_code(2^k + 1)` returns either what the exact logarithm gives, `2^k - 1` values, or `2^k` values. -/
theorem C117_code_power (h : LibLog ln fl u) (hm : FullPeriod mls) (k : ℕ) (h2 : 2 ≤ k) (h31 : k ≤ 31) :
    ∃ l, flMSequenceCode ln fl mls rand (2 ^ k + 1) false = .ok l ∧
      (getMSequenceCode mls rand (2 ^ k + 1) false = .ok l ∧ l.length = 2 ^ k - 1 ∨ l.length = 2 ^ k) := by
  have hL : (2 : ℤ) ^ k + 1 - 1 = ((2 ^ k : ℕ) : ℤ) := by push_cast; ring
  have hpos : 1 ≤ 2 ^ k := Nat.one_le_two_pow
  have run : ∀ b, 2 ≤ b → b ≤ 32 → flCeilLog2 ln fl ((2 ^ k : ℕ) : ℤ) = .ok b →
      ∃ st, fixStart ((List.range b).map rand) = .ok st ∧ maxLenSeq mls b st = .ok (mls b st) ∧
        flMSequenceCode ln fl mls rand (2 ^ k + 1) false = .ok ((mls b st).take (2 ^ k)) := by
    intro b hb2 hb32 e
    obtain ⟨st, f1, f2, f3⟩ := start_of_bits rand b (by omega)
    have hmls := maxLenSeq_ok mls b st hb2 hb32 f2 f3
    refine ⟨st, f1, hmls, ?_⟩
    simp only [flMSequenceCode, hL, e, except_bind_ok, f1, hmls, Bool.false_eq_true, if_false, except_pure, Int.toNat_natCast]
  rcases C117_bits_power h k (by omega) with e | ⟨-, e⟩
  · obtain ⟨st, f1, hmls, hr⟩ := run k h2 (by omega) e
    refine ⟨_, hr, .inl ⟨?_, ?_⟩⟩
    · have hc : ceilLog2 ((2 ^ k : ℕ) : ℤ) = .ok k := by
        unfold ceilLog2
        rw [if_neg (by omega), Int.toNat_natCast, Nat.clog_pow _ _ (by norm_num)]
      simp only [getMSequenceCode, hL, hc, except_bind_ok, f1, hmls, Bool.false_eq_true, if_false, except_pure,
        Int.toNat_natCast]
    · rw [List.length_take, hm]
      omega
  · obtain ⟨st, f1, hmls, hr⟩ := run (k + 1) (by omega) (by omega) e
    refine ⟨_, hr, .inr ?_⟩
    rw [List.length_take, hm, pow_succ]
    omega

/-- **C117** For `k = 32` it returns what the exact logarithm gives, `2^32 - 1` values, or raises `ValueError`: there are no sequences
of 33 bits. -/
theorem C117_code_last (h : LibLog ln fl u) (hm : FullPeriod mls) (k : ℕ) (hk : k = 32) :
    (∃ l, flMSequenceCode ln fl mls rand (2 ^ k + 1) false = .ok l ∧ getMSequenceCode mls rand (2 ^ k + 1) false = .ok l ∧
      l.length = 2 ^ k - 1) ∨ flMSequenceCode ln fl mls rand (2 ^ k + 1) false = .error .value := by
  have hL : (2 : ℤ) ^ k + 1 - 1 = ((2 ^ k : ℕ) : ℤ) := by push_cast; ring
  have hpos : 1 ≤ 2 ^ k := Nat.one_le_two_pow
  rcases C117_bits_power h k (by omega) with e | ⟨-, e⟩
  · left
    obtain ⟨st, f1, f2, f3⟩ := start_of_bits rand k (by omega)
    have hmls := maxLenSeq_ok mls k st (by omega) (by omega) f2 f3
    have hc : ceilLog2 ((2 ^ k : ℕ) : ℤ) = .ok k := by
      unfold ceilLog2
      rw [if_neg (by omega), Int.toNat_natCast, Nat.clog_pow _ _ (by norm_num)]
    refine ⟨(mls k st).take (2 ^ k), ?_, ?_, ?_⟩
    · simp only [flMSequenceCode, hL, e, except_bind_ok, f1, hmls, Bool.false_eq_true, if_false, except_pure, Int.toNat_natCast]
    · simp only [getMSequenceCode, hL, hc, except_bind_ok, f1, hmls, Bool.false_eq_true, if_false, except_pure,
        Int.toNat_natCast]
    · rw [List.length_take, hm]
      omega
  · right
    obtain ⟨st, f1, f2, f3⟩ := start_of_bits rand (k + 1) (by omega)
    simp only [flMSequenceCode, hL, e, except_bind_ok, f1, maxLenSeq_error mls (k + 1) st (.inr (by omega)), except_bind_error]

/-- **C117** Without `is_full` never `L` values, for any `L`, logarithm, rounding and any sequences. -/
theorem C117_never (L : ℤ) (l : List V) (hl : flMSequenceCode ln fl mls rand L false = .ok l) : (l.length : ℤ) ≠ L := by
  rcases le_or_gt (L - 1) 0 with h0 | h0
  · simp [flMSequenceCode, flCeilLog2, h0, except_bind_error] at hl
  · simp only [flMSequenceCode, flCeilLog2, if_neg (not_le.mpr h0), except_bind_ok, except_bind_eq_ok] at hl
    obtain ⟨start, -, m, -, hm⟩ := hl
    replace hm : m.take (L - 1).toNat = l := by simpa using hm
    have : l.length ≤ (L - 1).toNat := by rw [← hm]; exact List.length_take_le _ _
    omega

/-- **C117** The lengths, whatever the rounding: `L - 1`, or `L - 2` if `L - 1` is a power of two. -/
theorem C117_length (h : LibLog ln fl u) (hm : FullPeriod mls) (L : ℕ) (hL : 4 ≤ L) (h32 : L ≤ 2 ^ 32) :
    ∃ l, flMSequenceCode ln fl mls rand L false = .ok l ∧
      (l.length = L - 1 ∨ l.length = L - 2 ∧ ∃ k, L - 1 = 2 ^ k) := by
  by_cases hp : ∃ k, L - 1 = 2 ^ k
  · obtain ⟨k, hk⟩ := hp
    have h2 : 2 ≤ k := by
      by_contra hc
      have : 2 ^ k ≤ 2 ^ 1 := Nat.pow_le_pow_right (by norm_num) (by omega)
      omega
    have h31 : k ≤ 31 := by
      by_contra hc
      have : 2 ^ 32 ≤ 2 ^ k := Nat.pow_le_pow_right (by norm_num) (by omega)
      omega
    obtain ⟨l, h1, h2⟩ := C117_code_power mls rand h hm k h2 h31
    have hLk : L = 2 ^ k + 1 := by omega
    refine ⟨l, by rw [hLk]; push_cast; exact h1, ?_⟩
    rcases h2 with ⟨-, h2⟩ | h2
    · exact .inr ⟨by omega, k, hk⟩
    · exact .inl (by omega)
  · obtain ⟨l, k, h1, -, -, -, h5, -⟩ := C61_code_length mls hm rand L hL (by omega)
    refine ⟨l, ?_, .inl ?_⟩
    · rw [C117_code mls rand h L fun k _ _ hc => hp ⟨k, ?_⟩, h1]
      have : L = 2 ^ k + 1 := by exact_mod_cast hc
      omega
    · rw [h5, if_neg fun hc => hp ⟨k, hc⟩]

variable {K : Type} [Field K] [LinearOrder K] [IsStrictOrderedRing K] [FloorRing K]

/-- **C117** `get_relation_m_sequence` without a start sequence in floating point: what the exact logarithm gives, or the same
exception, on every axis but those of `2^k + 1` points with `2 ≤ k ≤ 32`. -/
theorem C117_relation (h : LibLog ln fl u) (t : Axis K)
    (ht : ∀ n, t.size = .ok n → ∀ k, 2 ≤ k → k ≤ 32 → n ≠ 2 ^ k + 1) (isFull : Bool) :
    flRelationMSequence ln fl mls rand t isFull = getRelationMSequence mls rand t isFull := by
  cases hn : t.size with
  | error e => simp only [flRelationMSequence, getRelationMSequence, hn, except_bind_error]
  | ok n =>
    rcases le_or_gt n (2 ^ 32 + 1) with h32 | h32
    · unfold flRelationMSequence getRelationMSequence
      rw [hn, except_bind_ok, except_bind_ok, bits_same h ((n : ℤ) - 1) (by omega) fun k h1 h2 hc => ht n hn k h1 h2 ?_]
      have : (n : ℤ) = 2 ^ k + 1 := by omega
      exact_mod_cast this
    · rw [(C113_relation_m_sequence mls rand t isFull).1 n hn (.inr (.inr h32))]
      obtain ⟨k, hk, e⟩ := C117_bits_large h (n - 1) (by omega)
      have hc : ((n - 1 : ℕ) : ℤ) = n - 1 := by omega
      rw [hc] at e
      obtain ⟨st, f1, f2, -⟩ := start_of_bits rand k (by omega)
      simp only [flRelationMSequence, hn, e, except_bind_ok, f1, relationOfMSequence,
        maxLenSeq_error mls st.length st (.inr (by omega)), except_bind_error]

/-- **C117** On an axis of `2^k + 1` points it raises `NotEqualError`, as with the exact logarithm, or succeeds: then it has
one bit more. -/
theorem C117_relation_power (h : LibLog ln fl u) (hm : FullPeriod mls) (t : Axis K) (k : ℕ) (h2 : 2 ≤ k) (h31 : k ≤ 31)
    (ht : t.size = .ok (2 ^ k + 1)) :
    flRelationMSequence ln fl mls rand t false = .error (.notEqual (2 ^ k + 1) (2 ^ k - 1)) ∨
    ∃ r, flRelationMSequence ln fl mls rand t false = .ok r ∧ r.x = t ∧ r.y.length = 2 ^ k + 1 := by
  have hL : (((2 ^ k + 1 : ℕ)) : ℤ) - 1 = ((2 ^ k : ℕ) : ℤ) := by push_cast; ring
  have h4 : 2 ^ 2 ≤ 2 ^ k := Nat.pow_le_pow_right (by norm_num) h2
  have run : ∀ b, 2 ≤ b → b ≤ 32 → flCeilLog2 ln fl ((2 ^ k : ℕ) : ℤ) = .ok b →
      ∃ st, flRelationMSequence ln fl mls rand t false = Rel.make t ((mls b st).take (2 ^ k + 1)) := by
    intro b hb2 hb32 e
    obtain ⟨st, f1, f2, f3⟩ := start_of_bits rand b (by omega)
    have hmls := maxLenSeq_ok mls b st hb2 hb32 f2 f3
    refine ⟨st, ?_⟩
    simp only [flRelationMSequence, ht, hL, e, except_bind_ok, f1, relationOfMSequence, f2, hmls, Bool.false_eq_true, if_false]
  rcases C117_bits_power h k (by omega) with e | ⟨-, e⟩
  · left
    obtain ⟨st, hr⟩ := run k h2 (by omega) e
    have hlen : ((mls k st).take (2 ^ k + 1)).length = 2 ^ k - 1 := by
      rw [List.length_take, hm]
      omega
    rw [hr]
    unfold Rel.make
    rw [ht, except_bind_ok, hlen, if_pos (by omega)]
  · right
    obtain ⟨st, hr⟩ := run (k + 1) (by omega) (by omega) e
    have hlen : ((mls (k + 1) st).take (2 ^ k + 1)).length = 2 ^ k + 1 := by
      rw [List.length_take, hm, pow_succ]
      omega
    rw [hr]
    exact ⟨⟨t, _⟩, by unfold Rel.make; rw [ht, except_bind_ok, hlen, if_neg (not_not.2 rfl), except_pure], rfl, hlen⟩

/-- **C117** On an axis of `2^32 + 1` points it raises, `NotEqualError` as with the exact logarithm or `ValueError`. -/
theorem C117_relation_last (h : LibLog ln fl u) (hm : FullPeriod mls) (t : Axis K) (k : ℕ) (hk : k = 32)
    (ht : t.size = .ok (2 ^ k + 1)) :
    flRelationMSequence ln fl mls rand t false = .error (.notEqual (2 ^ k + 1) (2 ^ k - 1)) ∨
    flRelationMSequence ln fl mls rand t false = .error .value := by
  have hL : (((2 ^ k + 1 : ℕ)) : ℤ) - 1 = ((2 ^ k : ℕ) : ℤ) := by push_cast; ring
  have hpos : 1 ≤ 2 ^ k := Nat.one_le_two_pow
  rcases C117_bits_power h k (by omega) with e | ⟨-, e⟩
  · left
    obtain ⟨st, f1, f2, f3⟩ := start_of_bits rand k (by omega)
    have hmls := maxLenSeq_ok mls k st (by omega) (by omega) f2 f3
    have hlen : ((mls k st).take (2 ^ k + 1)).length = 2 ^ k - 1 := by
      rw [List.length_take, hm]
      omega
    simp only [flRelationMSequence, ht, hL, e, except_bind_ok, f1, relationOfMSequence, f2, hmls, Bool.false_eq_true, if_false]
    unfold Rel.make
    rw [ht, except_bind_ok, hlen, if_pos (by omega)]
  · right
    obtain ⟨st, f1, f2, f3⟩ := start_of_bits rand (k + 1) (by omega)
    simp only [flRelationMSequence, ht, hL, e, except_bind_ok, f1, relationOfMSequence,
      maxLenSeq_error mls st.length st (.inr (by omega)), except_bind_error]

end

/-! ## Double precision -/

/-- a double, without bounds on the exponent -/
def Spec.IsDouble (v : ℝ) : Prop := ∃ m e : ℤ, |m| < 2 ^ 53 ∧ v = m * 2 ^ e

/-- no double is nearer to `x` than `v` -/
def Spec.CorrectlyRounded (v x : ℝ) : Prop := IsDouble v ∧ ∀ w, IsDouble w → |v - x| ≤ |w - x|

/-- `log 2`, to 70 binary digits -/
def log2Sum : ℚ := ∑ i ∈ Finset.range 70, (1 / 2) ^ (i + 1) / ((i : ℚ) + 1)

theorem log2_near : |Real.log 2 - (log2Sum : ℝ)| ≤ 1 / 2 ^ 70 := by
  have h := Real.abs_log_sub_add_sum_range_le (x := 1 / 2) (by rw [abs_of_pos] <;> norm_num) 70
  have e : Real.log (1 - 1 / 2) = - Real.log 2 := by
    rw [show (1 : ℝ) - 1 / 2 = 2⁻¹ by norm_num, Real.log_inv]
  have e2 : (∑ i ∈ Finset.range 70, (1 / 2 : ℝ) ^ (i + 1) / ((i : ℝ) + 1)) = (log2Sum : ℝ) := by
    unfold log2Sum
    push_cast
    rfl
  rw [e, e2, abs_of_pos (show (0 : ℝ) < 1 / 2 by norm_num)] at h
  rw [abs_sub_comm, sub_eq_add_neg]
  refine h.trans ?_
  norm_num

/-- significands and exponents of the doubles nearest to `log 2`, `2 log 2`, .., `32 log 2` -/
def logDoubles : List (ℤ × ℤ) :=
  [(6243314768165359, -53), (6243314768165359, -52), (4682486076124019, -51), (6243314768165359, -51), (7804143460206699, -51),
   (4682486076124019, -50), (5462900422144689, -50), (6243314768165359, -50), (7023729114186029, -50), (7804143460206699, -50),
   (8584557806227369, -50), (4682486076124019, -49), (5072693249134354, -49), (5462900422144689, -49), (5853107595155024, -49),
   (6243314768165359, -49), (6633521941175694, -49), (7023729114186029, -49), (7413936287196364, -49), (7804143460206699, -49),
   (8194350633217034, -49), (8584557806227369, -49), (8974764979237704, -49), (4682486076124019, -48), (4877589662629187, -48),
   (5072693249134354, -48), (5267796835639522, -48), (5462900422144689, -48), (5658004008649857, -48), (5853107595155024, -48),
   (6048211181660192, -48), (6243314768165359, -48)]

/-- the `k`-th of them -/
def logDouble (k : ℕ) : ℚ := ((logDoubles.getD (k - 1) (0, 0)).1 : ℚ) * 2 ^ (logDoubles.getD (k - 1) (0, 0)).2

theorem logDoubles_near : ∀ k : ℕ, k < 33 → 1 ≤ k →
    2 ^ 52 < (logDoubles.getD (k - 1) (0, 0)).1 ∧ (logDoubles.getD (k - 1) (0, 0)).1 < 2 ^ 53 ∧
      |logDouble k - k * log2Sum| + k * (1 / 2 ^ 70) < 2 ^ (logDoubles.getD (k - 1) (0, 0)).2 / 2 := by
  decide +kernel

theorem logDoubles_quotient : ∀ k : ℕ, k < 33 → 1 ≤ k →
    ⌈fl64 (logDouble k / logDouble 1)⌉ = if k = 29 ∨ k = 31 then (k : ℤ) + 1 else k := by
  decide +kernel

theorem nearest_unique (v x : ℝ) (m e : ℤ) (hm1 : 2 ^ 52 < m) (hx : |m * (2 : ℝ) ^ e - x| < 2 ^ e / 2) (hv : IsDouble v)
    (hb : |v - x| ≤ |m * (2 : ℝ) ^ e - x|) : v = m * 2 ^ e := by
  obtain ⟨m', e', hm', rfl⟩ := hv
  have he0 : (0 : ℝ) < 2 ^ e := by positivity
  have hd : |(m' : ℝ) * 2 ^ e' - m * 2 ^ e| < 2 ^ e := by
    calc |(m' : ℝ) * 2 ^ e' - m * 2 ^ e| = |(m' * 2 ^ e' - x) - (m * 2 ^ e - x)| := by ring_nf
      _ ≤ |(m' : ℝ) * 2 ^ e' - x| + |m * 2 ^ e - x| := abs_sub _ _
      _ < 2 ^ e := by linarith
  rcases le_or_gt e e' with hle | hlt
  · obtain ⟨d, rfl⟩ : ∃ d : ℕ, e' = e + d := ⟨(e' - e).toNat, by omega⟩
    rw [zpow_add₀ (by norm_num), zpow_natCast, show (m' : ℝ) * (2 ^ e * 2 ^ d) - m * 2 ^ e = ((m' * 2 ^ d - m : ℤ) : ℝ) * 2 ^ e by
      push_cast; ring, abs_mul, abs_of_pos he0] at hd
    have h1 : |((m' * 2 ^ d - m : ℤ) : ℝ)| < 1 := by
      by_contra hc
      nlinarith
    have h2 : m' * 2 ^ d - m = 0 := by
      rw [← Int.abs_lt_one_iff]
      exact_mod_cast h1
    rw [zpow_add₀ (by norm_num), zpow_natCast, show m = m' * 2 ^ d by omega]
    push_cast
    ring
  · exfalso
    have h1 : (2 : ℝ) ^ e' ≤ 2 ^ (e - 1) := zpow_le_zpow_right₀ (by norm_num) (by omega)
    rw [zpow_sub₀ (by norm_num), zpow_one] at h1
    have h2 : (m' : ℝ) ≤ 2 ^ 53 := by exact_mod_cast (le_of_lt (abs_lt.1 hm').2)
    have h3 : (m : ℝ) ≥ 2 ^ 52 + 1 := by exact_mod_cast hm1
    have h4 : (m' : ℝ) * 2 ^ e' ≤ 2 ^ 53 * (2 ^ e / 2) :=
      mul_le_mul h2 h1 (by positivity) (by positivity)
    have h5 := (abs_lt.1 hd).1
    nlinarith

theorem correctlyRounded_unique (v x : ℝ) (m e : ℤ) (hm1 : 2 ^ 52 < m) (hm2 : m < 2 ^ 53)
    (hx : |m * (2 : ℝ) ^ e - x| < 2 ^ e / 2) (hv : CorrectlyRounded v x) : v = m * 2 ^ e :=
  nearest_unique v x m e hm1 hx hv.1 (hv.2 (m * 2 ^ e) ⟨m, e, by rw [abs_of_pos (by omega)]; exact hm2, rfl⟩)

theorem logDouble_cast (j : ℕ) : (((logDoubles.getD (j - 1) (0, 0)).1 : ℤ) : ℝ) * 2 ^ (logDoubles.getD (j - 1) (0, 0)).2 =
    (logDouble j : ℝ) := by
  unfold logDouble
  push_cast
  rfl

theorem logDouble_near (j : ℕ) (h1 : 1 ≤ j) (h32 : j ≤ 32) :
    |(logDouble j : ℝ) - Real.log ((2 ^ j : ℕ) : ℝ)| < 2 ^ (logDoubles.getD (j - 1) (0, 0)).2 / 2 := by
  have a3 := (Rat.cast_lt (K := ℝ)).2 (logDoubles_near j (by omega) h1).2.2
  have hlog : Real.log ((2 ^ j : ℕ) : ℝ) = j * Real.log 2 := by push_cast; rw [Real.log_pow]
  have hn := log2_near
  push_cast at a3
  rw [hlog]
  calc |(logDouble j : ℝ) - j * Real.log 2| = |((logDouble j : ℝ) - j * log2Sum) - j * (Real.log 2 - log2Sum)| := by
        ring_nf
    _ ≤ |(logDouble j : ℝ) - j * log2Sum| + |j * (Real.log 2 - (log2Sum : ℝ))| := abs_sub _ _
    _ ≤ |(logDouble j : ℝ) - j * log2Sum| + j * (1 / 2 ^ 70) := by
        rw [abs_mul, abs_of_nonneg (Nat.cast_nonneg (α := ℝ) j)]
        have := mul_le_mul_of_nonneg_left hn (Nat.cast_nonneg (α := ℝ) j)
        linarith
    _ < _ := a3

/-- **C117** In double precision, if the logarithms of the powers of two are correctly rounded: the number of bits of `2^k`, for
`1 ≤ k ≤ 32`, is `k` except for `k = 29` and `k = 31`, where it is one more. -/
theorem C117_double (hln : ∀ k : ℕ, 1 ≤ k → k ≤ 32 → CorrectlyRounded (ln ((2 ^ k : ℕ) : ℝ)) (Real.log ((2 ^ k : ℕ) : ℝ)))
    (hfl : ∀ q : ℚ, fl q = fl64 q) (k : ℕ) (h1 : 1 ≤ k) (h32 : k ≤ 32) :
    flCeilLog2 ln fl ((2 ^ k : ℕ) : ℤ) = .ok (if k = 29 ∨ k = 31 then k + 1 else k) := by
  have val : ∀ j : ℕ, 1 ≤ j → j ≤ 32 → ln ((2 ^ j : ℕ) : ℝ) = (logDouble j : ℝ) := by
    intro j hj1 hj2
    obtain ⟨a1, a2, -⟩ := logDoubles_near j (by omega) hj1
    rw [correctlyRounded_unique _ _ _ _ a1 a2 (by rw [logDouble_cast]; exact logDouble_near j hj1 hj2) (hln j hj1 hj2),
      logDouble_cast]
  have v1 := val 1 (by norm_num) (by norm_num)
  rw [pow_one, Nat.cast_two] at v1
  unfold flCeilLog2
  have hpos : 1 ≤ 2 ^ k := Nat.one_le_two_pow
  rw [if_neg (by omega), Int.cast_natCast, val k h1 h32, v1, ← Rat.cast_div, hfl, Rat.ceil_cast,
    logDoubles_quotient k (by omega) h1]
  split_ifs <;> simp

/-- **C117** So `get_m_sequence_code(2**29 + 1)` computes a sequence of 30 bits and returns `2^29` of its values, one more than
`get_m_sequence_code` with the exact logarithm, and an axis of `2^29 + 1` points, refused with it, is accepted. -/
theorem C117_double_29 {V K : Type} [Field K] [LinearOrder K] [IsStrictOrderedRing K] [FloorRing K]
    (hln : ∀ k : ℕ, 1 ≤ k → k ≤ 32 → CorrectlyRounded (ln ((2 ^ k : ℕ) : ℝ)) (Real.log ((2 ^ k : ℕ) : ℝ)))
    (hfl : ∀ q : ℚ, fl q = fl64 q) (mls : ℕ → List ℤ → List V) (hm : FullPeriod mls) (rand : ℕ → ℤ) :
    (∃ l, flMSequenceCode ln fl mls rand (2 ^ 29 + 1) false = .ok l ∧ l.length = 2 ^ 29) ∧
    (∃ l, getMSequenceCode mls rand (2 ^ 29 + 1) false = .ok l ∧ l.length = 2 ^ 29 - 1) ∧
    ∀ t : Axis K, t.size = .ok (2 ^ 29 + 1) →
      (∃ r, flRelationMSequence ln fl mls rand t false = .ok r ∧ r.x = t ∧ r.y.length = 2 ^ 29 + 1) ∧
      ∃ y, getRelationMSequence mls rand t false = .error (.notEqual (2 ^ 29 + 1) y) := by
  have e := C117_double hln hfl 29 (by norm_num) (by norm_num)
  rw [if_pos (.inl rfl)] at e
  obtain ⟨st, f1, f2, f3⟩ := start_of_bits rand 30 (by norm_num)
  have hmls := maxLenSeq_ok mls 30 st (by norm_num) (by norm_num) f2 f3
  have hlen := hm 30 st
  refine ⟨⟨(mls 30 st).take (2 ^ 29), ?_, ?_⟩, ?_, fun t ht => ⟨⟨⟨t, (mls 30 st).take (2 ^ 29 + 1)⟩, ?_, rfl, ?_⟩, ?_⟩⟩
  · have hL : (2 : ℤ) ^ 29 + 1 - 1 = ((2 ^ 29 : ℕ) : ℤ) := by norm_num
    unfold flMSequenceCode
    rw [hL, e, except_bind_ok, f1, except_bind_ok, hmls, except_bind_ok, if_neg (by simp), Int.toNat_natCast, except_pure]
  · rw [List.length_take, hlen]
    norm_num
  · obtain ⟨l, k, h1, h2, h3, -, h5, -⟩ := C61_code_length mls hm rand (2 ^ 29 + 1) (by norm_num) (by norm_num)
    have hk : k = 29 := by
      have a := h3 29 (by norm_num)
      have b : ¬ k < 29 := by
        intro hc
        have : 2 ^ k ≤ 2 ^ 28 := Nat.pow_le_pow_right (by norm_num) (by omega)
        norm_num at h2 this
        omega
      omega
    subst hk
    refine ⟨l, by simpa using h1, ?_⟩
    norm_num at h5 ⊢
    exact h5
  · have hL : ((2 ^ 29 + 1 : ℕ) : ℤ) - 1 = ((2 ^ 29 : ℕ) : ℤ) := by norm_num
    unfold flRelationMSequence relationOfMSequence
    rw [ht, except_bind_ok, hL, e, except_bind_ok, f1, except_bind_ok, f2, hmls, except_bind_ok, if_neg (by simp), except_bind_ok]
    unfold Rel.make
    rw [ht, except_bind_ok, if_neg, except_pure]
    rw [List.length_take, hlen]
    norm_num
  · rw [List.length_take, hlen]
    norm_num
  · obtain ⟨y, -, hy⟩ := (C61_relation mls hm rand t (2 ^ 29 + 1) ht (by norm_num) (by norm_num)).2 ⟨29, .inr rfl⟩
    exact ⟨y, hy⟩

/-! ## Cases -/

open Classical in
/-- a logarithm that is correctly rounded on the powers of two -/
noncomputable def roundedLog (x : ℝ) : ℝ :=
  if ∃ k : ℕ, 1 ≤ k ∧ k ≤ 32 ∧ x = 2 ^ k then (logDouble (Nat.log 2 ⌊x⌋₊) : ℝ) else Real.log x

open Classical in
/-- double rounding of rational numbers -/
noncomputable def flRat (x : ℝ) : ℝ := if h : ∃ q : ℚ, (q : ℝ) = x then (fl64 h.choose : ℝ) else x

theorem flRat_eq (q : ℚ) : flRat q = fl64 q := by
  have h : ∃ p : ℚ, (p : ℝ) = (q : ℝ) := ⟨q, rfl⟩
  unfold flRat
  rw [dif_pos h, Rat.cast_inj.1 h.choose_spec]

theorem roundedLog_correct (k : ℕ) (h1 : 1 ≤ k) (h32 : k ≤ 32) :
    CorrectlyRounded (roundedLog ((2 ^ k : ℕ) : ℝ)) (Real.log ((2 ^ k : ℕ) : ℝ)) := by
  have e : roundedLog ((2 ^ k : ℕ) : ℝ) = (logDouble k : ℝ) := by
    unfold roundedLog
    rw [if_pos ⟨k, h1, h32, by push_cast; rfl⟩, Nat.floor_natCast, Nat.log_pow (by norm_num)]
  obtain ⟨a1, a2, -⟩ := logDoubles_near k (by omega) h1
  rw [e]
  refine ⟨⟨_, _, by rw [abs_of_pos (by omega)]; exact a2, (logDouble_cast k).symm⟩, fun w hw => ?_⟩
  by_contra hc
  have hn := logDouble_near k h1 h32
  rw [← logDouble_cast] at hc hn
  have := nearest_unique w _ _ _ a1 hn hw (le_of_lt (not_le.1 hc))
  rw [this] at hc
  exact hc le_rfl

example : flCeilLog2 roundedLog flRat ((2 ^ 29 : ℕ) : ℤ) = .ok 30 :=
  C117_double roundedLog_correct flRat_eq 29 (by norm_num) (by norm_num)

/-- the exact logarithm and no rounding -/
example : LibLog Real.log id 0 :=
  ⟨by norm_num, fun n _ => by simp, fun q => by simp, rfl⟩

/-- a logarithm with an error in the last place: it gives one bit more for `2^29` -/
noncomputable def slightLog (x : ℝ) : ℝ := if x = 2 ^ 29 then Real.log x * (1 + 2 ^ (-51 : ℤ)) else Real.log x

theorem slightLog_lib : LibLog slightLog id (2 ^ (-50 : ℤ)) := by
  refine ⟨le_rfl, fun n hn => ?_, fun q => by simp, rfl⟩
  have h0 : 0 ≤ Real.log n := Real.log_natCast_nonneg n
  unfold slightLog
  split_ifs
  · rw [show Real.log n * (1 + 2 ^ (-51 : ℤ)) - Real.log n = 2 ^ (-51 : ℤ) * Real.log n by ring, abs_of_nonneg (by positivity)]
    exact mul_le_mul_of_nonneg_right (by norm_num) h0
  · rw [sub_self, abs_zero]
    positivity

example : flCeilLog2 slightLog id ((2 ^ 29 : ℕ) : ℤ) = .ok 30 ∧ flCeilLog2 slightLog id ((2 ^ 28 : ℕ) : ℤ) = .ok 28 ∧
    flCeilLog2 slightLog id 1000 = .ok 10 := by
  have hl2 : Real.log 2 ≠ 0 := (Real.log_pos (by norm_num)).ne'
  have n2 : slightLog 2 = Real.log 2 := by
    unfold slightLog
    rw [if_neg (by norm_num)]
  refine ⟨?_, ?_, ?_⟩
  · have : slightLog ((2 ^ 29 : ℕ) : ℝ) / slightLog 2 = 29 * (1 + 2 ^ (-51 : ℤ)) := by
      rw [n2]
      unfold slightLog
      rw [if_pos (by norm_num), Nat.cast_pow, Nat.cast_two, Real.log_pow]
      field_simp
      norm_num
    unfold flCeilLog2
    rw [if_neg (by norm_num), Int.cast_natCast, this, id]
    congr 1
    have : ⌈(29 : ℝ) * (1 + 2 ^ (-51 : ℤ))⌉ = 30 := by
      rw [Int.ceil_eq_iff]
      norm_num
    rw [this]
    rfl
  · have : slightLog ((2 ^ 28 : ℕ) : ℝ) / slightLog 2 = 28 := by
      rw [n2]
      unfold slightLog
      rw [if_neg (by norm_num), Nat.cast_pow, Nat.cast_two, Real.log_pow]
      field_simp
      norm_num
    unfold flCeilLog2
    rw [if_neg (by norm_num), Int.cast_natCast, this, id]
    congr 1
    have : ⌈(28 : ℝ)⌉ = 28 := by
      rw [Int.ceil_eq_iff]
      norm_num
    rw [this]
    rfl
  · exact C117_bits slightLog_lib 1000 9 (by norm_num) (by norm_num) (by norm_num)

end SweepDesign
