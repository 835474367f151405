import Verif.Props.ConvAlgebra
import Verif.Props.MSeq

/-!
# C125: the correlation of a repeated code with one period of it
-/

set_option linter.unusedSectionVars false

namespace SweepDesign
open Spec

section
variable {K : Type} [Field K] [LinearOrder K] [IsStrictOrderedRing K] [FloorRing K] [StarRing K] [TrivialStar K]

/-- **C125** A code of `N` numbers, repeated `p` times, correlated with one period of it: at the lags from 0 to `p - 1` periods, where the one
period lies wholly inside the repeated code, the values are those of the correlation round the circle. -/
theorem C125_circular (code : List K) (p : ℕ) (hp : 1 ≤ p) (hc : code ≠ []) (q r : Rel K K) (s : K) (hs : 0 < s)
    (hq : Whole q (p * code.length - 1) s) (hr : Whole r (code.length - 1) s) (yq : q.y = getCodeZinger code p) (yr : r.y = code) :
    ∃ c l, q.correlate r = .ok c ∧ c.x.array = .ok l ∧ l.length = c.y.length ∧
      ∀ j ≤ (p - 1) * code.length, l[p * code.length - 1 + j]? = some (j * s) ∧
        c.y[p * code.length - 1 + j]? =
          some (∑ i ∈ Finset.range code.length, code.getD i 0 * code.getD ((i + j) % code.length) 0) := by
  have hN : 0 < code.length := List.length_pos_iff.2 hc
  have hpN : code.length ≤ p * code.length := Nat.le_mul_of_pos_left _ hp
  obtain ⟨c, hcor, x1, x2, x3, hl, e⟩ := C29_values q r hq.1 hr.1 _ _ s hs hq.2.1 hr.2.1 hq.2.2 hr.2.2
  have hmax : max (p * code.length - 1) (code.length - 1) = p * code.length - 1 := max_eq_left (by omega)
  rw [hmax] at x1 x2 hl
  set M := p * code.length - 1 with hM
  obtain ⟨z1, z2, -⟩ := C59_repeat code (p : ℤ)
  simp only [Int.toNat_natCast] at z1 z2
  have hs0 : c.x.sample ≠ 0 := by rw [x3]; exact hs.ne'
  have hst : c.x.steps = 2 * M := by
    have : (c.x.stop - c.x.start) / c.x.sample = ((2 * M : ℕ) : K) := by
      rw [x1, x2, x3]; field_simp; push_cast; ring
    simp only [Axis.steps, this, Nat.abs_cast, pyRound_natCast, Int.toNat_natCast]
  obtain ⟨l, hla⟩ : ∃ l, c.x.array = .ok l := ⟨_, c.x.array_eq hs0⟩
  obtain ⟨ll, lv⟩ := Axis.array_spaced hla
  refine ⟨c, l, hcor, hla, by omega, fun j hj => ⟨?_, ?_⟩⟩
  · have hjM : M + j < l.length := by
      rw [ll, hst]
      have : (p - 1) * code.length + code.length = p * code.length := by rw [← Nat.succ_mul]; congr 1; omega
      omega
    rw [List.getElem?_eq_getElem hjM, lv _ hjM]
    rcases Nat.eq_zero_or_pos M with hm | hm
    · have h2 : l.length = 1 := by rw [ll, hst, hm]
      have : j = 0 := by omega
      subst this
      rw [x1, hm]
      simp
    · have hstep : c.x.step = s := by
        have hm' : (M : K) ≠ 0 := by exact_mod_cast hm.ne'
        simp only [Axis.step, hst]
        rw [x1, x2]
        push_cast
        field_simp
        ring
      rw [hstep, x1]
      push_cast
      congr 1
      ring
  · have hper : (p - 1) * code.length + code.length = p * code.length := by rw [← Nat.succ_mul]; congr 1; omega
    have hjc : M + j < c.y.length := by rw [hl]; omega
    rw [List.getElem?_eq_getElem hjc, e _ hjc, hmax]
    congr 1
    symm
    apply Finset.sum_subset_zero_on_sdiff
    · intro i hi
      simp only [Finset.mem_range] at hi ⊢
      omega
    · intro i hi
      simp only [Finset.mem_sdiff, Finset.mem_range] at hi
      rw [yr, getD_ge code i 0 (by omega)]; simp
    · intro i hi
      have hi' := Finset.mem_range.1 hi
      have h1 : i + j < p * code.length := by omega
      have h2 : (i + j) % code.length < code.length := Nat.mod_lt _ hN
      rw [show (i : ℤ) + (((M + j : ℕ) : ℤ) - (M : ℕ)) = ((i + j : ℕ) : ℤ) by push_cast; ring, yq, yr]
      have hz : zext (getCodeZinger code p) ((i + j : ℕ) : ℤ) = code.getD ((i + j) % code.length) 0 := by
        have := z2 (i + j) h1
        rw [List.getElem?_eq_getElem (by omega), List.getElem?_eq_getElem h2] at this
        unfold zext
        rw [if_pos (by omega), Int.toNat_natCast, getD_lt _ _ _ (by omega), getD_lt _ _ _ h2]
        exact Option.some.inj this
      rw [hz, star_trivial, mul_comm]

/-- **C125** The signs of the full m-sequence of `get_m_sequence_code(L)`, repeated `p` times by `get_code_zinger` and correlated with one
period: the length of the period at its multiples, and -1 at every other lag from 0 to `p - 1` periods. -/
theorem C125_m_sequence (rand : ℕ → ℤ) (L : ℤ) (k : ℕ) (hL : 2 ≤ L) (hk : k = Nat.clog 2 (L - 1).toNat) (h2 : 2 ≤ k) (h32 : k ≤ 32) :
    ∃ m code : List ℤ, getMSequenceCode scipyMls rand L true = .ok m ∧ code = m.map (fun v => 1 - 2 * v) ∧
      ∀ (p : ℕ), 1 ≤ p → ∀ (q r : Rel K K) (s : K), 0 < s → Whole q (p * (2 ^ k - 1) - 1) s → Whole r (2 ^ k - 1 - 1) s →
        q.y = (getCodeZinger code p).map (fun v : ℤ => (v : K)) → r.y = code.map (fun v : ℤ => (v : K)) →
        ∃ c l, q.correlate r = .ok c ∧ c.x.array = .ok l ∧ l.length = c.y.length ∧
          ∀ j ≤ (p - 1) * (2 ^ k - 1), l[p * (2 ^ k - 1) - 1 + j]? = some (j * s) ∧
            c.y[p * (2 ^ k - 1) - 1 + j]? = some (if (2 ^ k - 1) ∣ j then (2 : K) ^ k - 1 else -1) := by
  obtain ⟨m, hm, ml, mv, -, mc, -⟩ := C97_code rand L k hL hk h2 h32
  refine ⟨m, _, hm, rfl, fun p hp q r s hs hq hr yq yr => ?_⟩
  set code : List ℤ := m.map fun v => 1 - 2 * v with hcode
  have hN : 0 < 2 ^ k - 1 := by
    have : 2 ^ 2 ≤ 2 ^ k := Nat.pow_le_pow_right (by norm_num) h2
    omega
  have hcl : code.length = 2 ^ k - 1 := by simp [hcode, ml]
  have hcl' : (code.map fun v : ℤ => (v : K)).length = 2 ^ k - 1 := by simp [hcl]
  have hrep : (getCodeZinger code p).map (fun v : ℤ => (v : K)) = getCodeZinger (code.map fun v : ℤ => (v : K)) p := by
    simp [getCodeZinger, pyRepeat, List.map_flatten]
  obtain ⟨c, l, e1, e2, e3, e4⟩ := C125_circular (code.map fun v : ℤ => (v : K)) p hp (by
      intro h0
      rw [h0] at hcl'
      simp at hcl'
      omega) q r s hs (by rw [hcl']; exact hq) (by rw [hcl']; exact hr)
    (by rw [yq, hrep]) yr
  rw [hcl'] at e4
  refine ⟨c, l, e1, e2, e3, fun j hj => ⟨(e4 j hj).1, ?_⟩⟩
  rw [(e4 j hj).2]
  congr 1
  have hget : ∀ i < 2 ^ k - 1, (code.map fun v : ℤ => (v : K)).getD i 0 = ((1 - 2 * at0 m i : ℤ) : K) := by
    intro i hi
    rw [getD_lt _ _ _ (by omega), List.getElem_map, at0_eq _ _ (by omega)]
    simp [hcode]
  have hsum : ∑ i ∈ Finset.range (2 ^ k - 1), (code.map fun v : ℤ => (v : K)).getD i 0 *
      (code.map fun v : ℤ => (v : K)).getD ((i + j) % (2 ^ k - 1)) 0 =
      ((∑ i ∈ Finset.range m.length, (1 - 2 * at0 m i) * (1 - 2 * at0 m ((i + j) % m.length)) : ℤ) : K) := by
    rw [ml, Int.cast_sum]
    apply Finset.sum_congr rfl
    intro i hi
    rw [hget i (Finset.mem_range.1 hi), hget _ (Nat.mod_lt _ hN)]
    push_cast
    ring
  rw [hsum]
  split_ifs with hd
  · have hone : ∀ i ∈ Finset.range m.length, (1 - 2 * at0 m i) * (1 - 2 * at0 m ((i + j) % m.length)) = 1 := by
      intro i hi
      have hi' := Finset.mem_range.1 hi
      have : (i + j) % m.length = i := by
        obtain ⟨d, rfl⟩ := hd
        rw [ml, Nat.add_mul_mod_self_left, Nat.mod_eq_of_lt (by omega)]
      rw [this, at0_eq _ _ hi']
      rcases mv _ (List.getElem_mem hi') with h | h <;> rw [h] <;> norm_num
    rw [Finset.sum_congr rfl hone]
    simp only [Finset.sum_const, Finset.card_range, ml, nsmul_eq_mul, mul_one]
    rw [Int.cast_natCast, Nat.cast_sub (by omega)]
    push_cast
    ring
  · rw [mc j hd]
    norm_num

end

/-- the seven signs of the code with three bits, repeated twice, and one period of it: 7 at lag 0 and lag 7, -1 between -/
example : getMSequenceCode scipyMls (fun _ => 1) 8 true = .ok [1, 1, 1, 0, 1, 0, 0] ∧ (3 = Nat.clog 2 (8 - 1 : ℤ).toNat) ∧
    getCodeZinger [-1, -1, -1, 1, -1, 1, 1] 2 = [-1, -1, -1, 1, -1, 1, 1, -1, -1, -1, 1, -1, 1, (1 : ℤ)] ∧
    (⟨⟨0, 13, 1⟩, [-1, -1, -1, 1, -1, 1, 1, -1, -1, -1, 1, -1, 1, 1]⟩ : Rel ℚ ℚ).correlate ⟨⟨0, 6, 1⟩, [-1, -1, -1, 1, -1, 1, 1]⟩ =
      .ok ⟨⟨-13, 13, 1⟩, [0, 0, 0, 0, 0, 0, 0, -1, -2, -1, 0, 1, 0, 7, -1, -1, -1, -1, -1, -1, 7, 0, 1, 0, -1, -2, -1]⟩ := by
  refine ⟨?_, ?_, ?_, ?_⟩ <;> decide +kernel

example : Whole (⟨⟨0, 13, 1⟩, [-1, -1, -1, 1, -1, 1, 1, -1, -1, -1, 1, -1, 1, 1]⟩ : Rel ℚ ℚ) (2 * 7 - 1) 1 ∧
    Whole (⟨⟨0, 6, 1⟩, [-1, -1, -1, 1, -1, 1, 1]⟩ : Rel ℚ ℚ) (7 - 1) 1 :=
  ⟨⟨(by decide +kernel : Axis.size _ = _), rfl, by norm_num⟩, (by decide +kernel : Axis.size _ = _), rfl, by norm_num⟩

end SweepDesign
