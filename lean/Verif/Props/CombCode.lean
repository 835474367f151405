import Verif.Props.FlatCode

/-!
# C169: the amplitude spectrum of a repeated code
-/

set_option linter.unusedSectionVars false

namespace SweepDesign
open Spec

noncomputable section

theorem sum_range_blocks {M : Type} [AddCommMonoid M] (f : ℕ → M) (p N : ℕ) :
    ∑ j ∈ Finset.range (p * N), f j = ∑ b ∈ Finset.range p, ∑ c ∈ Finset.range N, f (b * N + c) := by
  induction p with
  | zero => simp
  | succ p ih => rw [Nat.succ_mul, Finset.sum_range_add, ih, Finset.sum_range_succ]

theorem unitRoot_cancel (p N : ℕ) (hp : 0 < p) (a : ℤ) : unitRoot (p * N) (p * a) = unitRoot N a := by
  unfold unitRoot
  congr 1
  have : (p : ℂ) ≠ 0 := by exact_mod_cast hp.ne'
  rcases Nat.eq_zero_or_pos N with rfl | hN
  · simp
  have : (N : ℂ) ≠ 0 := by exact_mod_cast hN.ne'
  push_cast
  field_simp

/-- the transform of a repeated list -/
theorem dft_repeated (code : List ℝ) (p : ℕ) (hp : 0 < p) (hc : 0 < code.length) (k : ℕ) :
    ∑ j ∈ Finset.range (p * code.length), (((getCodeZinger code p).getD j 0 : ℝ) : ℂ) *
      unitRoot (p * code.length) (-((j : ℤ) * (k : ℤ))) =
    (∑ c ∈ Finset.range code.length, ((code.getD c 0 : ℝ) : ℂ) * unitRoot (p * code.length) (-((c : ℤ) * (k : ℤ)))) *
      if p ∣ k then (p : ℂ) else 0 := by
  obtain ⟨z1, z2, -⟩ := C59_repeat code (p : ℤ)
  simp only [Int.toNat_natCast] at z1 z2
  have hget : ∀ b < p, ∀ c < code.length, (getCodeZinger code p).getD (b * code.length + c) 0 = code.getD c 0 := by
    intro b hb c hc'
    have hlt : b * code.length + c < p * code.length := by
      have : (b + 1) * code.length ≤ p * code.length := Nat.mul_le_mul_right _ hb
      rw [Nat.succ_mul] at this
      omega
    rw [List.getD_eq_getElem?_getD, z2 _ hlt, show (b * code.length + c) % code.length = c by rw [mul_comm b, Nat.mul_add_mod, Nat.mod_eq_of_lt hc'], ← List.getD_eq_getElem?_getD]
  rw [sum_range_blocks]
  have e : ∀ b ∈ Finset.range p, ∑ c ∈ Finset.range code.length, (((getCodeZinger code p).getD (b * code.length + c) 0 : ℝ) : ℂ) *
      unitRoot (p * code.length) (-(((b * code.length + c : ℕ) : ℤ) * (k : ℤ))) =
      (∑ c ∈ Finset.range code.length, ((code.getD c 0 : ℝ) : ℂ) * unitRoot (p * code.length) (-((c : ℤ) * (k : ℤ)))) *
        unitRoot p (-(k : ℤ) * b) := by
    intro b hb
    rw [Finset.sum_mul]
    refine Finset.sum_congr rfl fun c hc' => ?_
    rw [hget b (Finset.mem_range.1 hb) c (Finset.mem_range.1 hc'), mul_assoc]
    congr 1
    rw [← unitRoot_cancel code.length p hc (-(k : ℤ) * b), mul_comm code.length p, ← unitRoot_add]
    congr 1
    push_cast
    ring
  rw [Finset.sum_congr rfl e, ← Finset.mul_sum, unitRoot_sum p hp]
  have : ((p : ℤ) ∣ -(k : ℤ)) ↔ p ∣ k := by rw [dvd_neg, Int.natCast_dvd_natCast]
  simp only [this]

/-- **C169.** The signal of a code repeated `p` times by `get_code_zinger`, on an axis that contains zero, has amplitude zero at every
frequency that is not a frequency of one period, and `p` times the amplitude of one period at those. -/
theorem C169_comb (code : List ℝ) (hc : 2 ≤ code.length) (p : ℕ) (hp : 1 ≤ p) (s : ℝ) (hs : 0 < s) (a b a' b' : ℤ) (ha : a ≤ 0)
    (hb : 0 ≤ b) (ha' : a' ≤ 0) (hb' : 0 ≤ b') (hab : b - a + 1 = p * code.length) (hab' : b' - a' + 1 = code.length) :
    ∃ r r' q q' lf la lf' la', Rel.make ⟨a * s, b * s, s⟩ (getCodeZinger code p) = .ok r ∧ Rel.make ⟨a' * s, b' * s, s⟩ code = .ok r' ∧
      r.signalAmplitude = .ok q ∧ r'.signalAmplitude = .ok q' ∧ q.getData = .ok (lf, la) ∧ q'.getData = .ok (lf', la') ∧
      la.length = p * code.length / 2 + 1 ∧ la'.length = code.length / 2 + 1 ∧
      (∀ i (h : i < la.length), ¬ p ∣ i → la[i] = 0) ∧
      ∀ l (h' : l < la'.length) (g' : l < lf'.length), ∃ (h : p * l < la.length) (g : p * l < lf.length),
        lf[p * l] = lf'[l] ∧ la[p * l] = p * la'[l] := by
  have made : ∀ (y : List ℝ) (a b : ℤ), 2 ≤ y.length → b - a + 1 = y.length →
      Rel.make ⟨a * s, b * s, s⟩ y = .ok ⟨⟨a * s, b * s, s⟩, y⟩ ∧ ∃ lt, (⟨⟨a * s, b * s, s⟩, y⟩ : Rel ℝ ℝ).getData = .ok (lt, y) := by
    intro y a b hy h
    have harr := array_whole (⟨a * s, b * s, s⟩ : Axis ℝ) (y.length - 1) hs (by
      have : ((y.length - 1 : ℕ) : ℤ) = b - a := by omega
      have : ((y.length - 1 : ℕ) : ℝ) = b - a := by exact_mod_cast this
      simp only
      rw [this]; ring)
    have hl : y.length - 1 + 1 = y.length := by omega
    refine ⟨(make_ok_iff _ _ _).2 ⟨?_, rfl⟩, _, (getData_ok_iff _ _ _).2 ⟨harr, rfl, by simp [hl]⟩⟩
    rw [Axis.size, harr]
    simp [Except.map, hl]
  have hN : 0 < code.length := by omega
  have hzl : (getCodeZinger code p).length = p * code.length := by simpa using (C59_repeat code (p : ℤ)).1
  have hpN : code.length ≤ p * code.length := Nat.le_mul_of_pos_left _ hp
  obtain ⟨m1, lt, d1⟩ := made (getCodeZinger code p) a b (by omega) (by rw [hzl, hab]; push_cast; rfl)
  obtain ⟨m2, lt', d2⟩ := made code a' b' hc hab'
  obtain ⟨q, lf, la, e1, e2, e3, e4, e5⟩ := amplitude_whole _ _ _ d1 s hs a b ha hb (by
    have : (code.length : ℤ) ≤ p * code.length := by exact_mod_cast hpN
    omega) rfl rfl rfl
  obtain ⟨q', lf', la', f1, f2, f3, f4, f5⟩ := amplitude_whole _ _ _ d2 s hs a' b' ha' hb' (by omega) rfl rfl rfl
  rw [hzl] at e3 e4
  simp only [hzl] at e5
  refine ⟨_, _, q, q', lf, la, lf', la', m1, m2, e1, f1, e2, f2, e4, f4, fun i h hi => ?_, fun l h' g' => ?_⟩
  · rw [(e5 i (by omega) h).2, dft_repeated code p hp hN, if_neg hi, mul_zero, norm_zero]
  · have hl : p * l ≤ p * code.length / 2 := by
      have h1 : 2 * l ≤ code.length := by omega
      have : p * (2 * l) ≤ p * code.length := Nat.mul_le_mul_left _ h1
      rw [Nat.le_div_iff_mul_le (by norm_num)]
      calc p * l * 2 = p * (2 * l) := by ring
        _ ≤ _ := this
    have h1 : p * l < la.length := by omega
    have h2 : p * l < lf.length := by omega
    refine ⟨h1, h2, ?_, ?_⟩
    · rw [(e5 _ h2 h1).1, (f5 l g' h').1]
      have : (p : ℝ) ≠ 0 := by exact_mod_cast (by omega : p ≠ 0)
      have : (code.length : ℝ) ≠ 0 := by exact_mod_cast hN.ne'
      push_cast
      field_simp
    · rw [(e5 _ h2 h1).2, (f5 l g' h').2, dft_repeated code p hp hN, if_pos (dvd_mul_right _ _), norm_mul, Complex.norm_natCast, mul_comm]
      congr 2
      refine Finset.sum_congr rfl fun c _ => ?_
      rw [show -((c : ℤ) * ((p * l : ℕ) : ℤ)) = p * (-((c : ℤ) * l)) by push_cast; ring, unitRoot_cancel p _ hp]

end

/-- the default code of four signs, repeated three times at -2 .. 9: seven frequencies, of which 0, 3 and 6 can be heard -/
example : ∃ (r q : Rel ℝ ℝ) (lf la : List ℝ), Rel.make ⟨((-2 : ℤ) : ℝ) * 1, ((9 : ℤ) : ℝ) * 1, 1⟩ (getCodeZinger [-1, -1, -1, (1 : ℝ)] 3) = .ok r ∧
    r.signalAmplitude = .ok q ∧ q.getData = .ok (lf, la) ∧ la.length = 7 ∧ ∀ i (h : i < la.length), ¬ 3 ∣ i → la[i] = 0 := by
  obtain ⟨r, r', q, q', lf, la, lf', la', h1, -, h3, -, h5, -, h7, -, h9, -⟩ := C169_comb [-1, -1, -1, (1 : ℝ)] (by simp) 3 (by norm_num) 1 one_pos
    (-2) 9 0 3 (by norm_num) (by norm_num) le_rfl (by norm_num) (by simp) (by simp)
  exact ⟨r, q, lf, la, h1, h3, h5, by rw [h7]; rfl, h9⟩

end SweepDesign
