import Verif.Lemmas.MSeq
import Verif.Lemmas.Relation
import Verif.Props.Codes

/-!
# C97: the code of `get_m_sequence_code` is a maximal length sequence
-/

set_option linter.unusedSectionVars false

namespace SweepDesign

open Spec Polynomial

/-! ## counting in the ring of the register -/

section
variable (n : ℕ) (taps : List ℕ) (hn : 2 ≤ n) (htaps : ∀ t ∈ taps, t < n)
  (hord : orderOf (AdjoinRoot.root (mlsPoly n taps)) = 2 ^ n - 1)

/-- the basis of the powers of the root -/
noncomputable def mlsBasis : PowerBasis (ZMod 2) (MlsRing n taps) :=
  AdjoinRoot.powerBasis' (mlsPoly_monic n (by omega) taps htaps)

theorem mlsBasis_dim : (mlsBasis n taps hn htaps).dim = n := by
  unfold mlsBasis
  rw [AdjoinRoot.powerBasis'_dim, mlsPoly_natDegree n (by omega) taps htaps]

include hn htaps in
theorem mlsRing_card : Nat.card (MlsRing n taps) = 2 ^ n := by
  have : Module.Free (ZMod 2) (MlsRing n taps) := Module.Free.of_basis (mlsBasis n taps hn htaps).basis
  have : Module.Finite (ZMod 2) (MlsRing n taps) := (mlsBasis n taps hn htaps).finite
  rw [Module.natCard_eq_pow_finrank (K := ZMod 2), (mlsBasis n taps hn htaps).finrank, mlsBasis_dim, Nat.card_zmod]

include hn htaps in
theorem mlsRing_finite : Finite (MlsRing n taps) :=
  Nat.finite_of_card_ne_zero (by rw [mlsRing_card n taps hn htaps]; positivity)

theorem mlsRing_add_self (r : MlsRing n taps) : r + r = 0 := by
  rw [← two_smul (ZMod 2) r, show (2 : ZMod 2) = 0 from by decide, zero_smul]

theorem root_pow_n : AdjoinRoot.root (mlsPoly n taps) ^ n =
    1 + (taps.map fun t => AdjoinRoot.root (mlsPoly n taps) ^ t).sum := by
  have h : AdjoinRoot.mk (mlsPoly n taps) (X ^ n + tapsPoly taps) = 0 := AdjoinRoot.mk_self
  have h2 : AdjoinRoot.mk (mlsPoly n taps) (tapsPoly taps) =
      1 + (taps.map fun t => AdjoinRoot.root (mlsPoly n taps) ^ t).sum := by
    unfold tapsPoly
    rw [map_add, map_one, map_list_sum, List.map_map]
    congr 3
  rw [map_add, map_pow, AdjoinRoot.mk_X, h2] at h
  set a := AdjoinRoot.root (mlsPoly n taps) ^ n
  set b := 1 + (taps.map fun t => AdjoinRoot.root (mlsPoly n taps) ^ t).sum
  calc a = a + (b + b) := by rw [mlsRing_add_self, add_zero]
    _ = (a + b) + b := by ring
    _ = b := by rw [h, zero_add]

include hn htaps hord

theorem mlsRing_nontrivial : Nontrivial (MlsRing n taps) := by
  have := mlsRing_finite n taps hn htaps
  rw [← Finite.one_lt_card_iff_nontrivial, mlsRing_card n taps hn htaps]
  exact Nat.one_lt_two_pow (by omega)

theorem two_pow_gt : 3 ≤ 2 ^ n - 1 := by
  have : 2 ^ 2 ≤ 2 ^ n := Nat.pow_le_pow_right (by norm_num) hn
  omega

theorem root_isUnit : IsUnit (AdjoinRoot.root (mlsPoly n taps)) := by
  have h3 := two_pow_gt n taps hn htaps hord
  refine IsUnit.of_pow_eq_one (n := 2 ^ n - 1) ?_ (by omega)
  rw [← hord]
  exact pow_orderOf_eq_one _

theorem root_pow_ne_zero (t : ℕ) : AdjoinRoot.root (mlsPoly n taps) ^ t ≠ 0 := by
  have := mlsRing_nontrivial n taps hn htaps hord
  exact ((root_isUnit n taps hn htaps hord).pow t).ne_zero

theorem root_pow_injOn (s t : ℕ) (hs : s < 2 ^ n - 1) (ht : t < 2 ^ n - 1)
    (h : AdjoinRoot.root (mlsPoly n taps) ^ s = AdjoinRoot.root (mlsPoly n taps) ^ t) : s = t := by
  apply pow_injOn_Iio_orderOf _ _ h
  · rw [hord]; exact hs
  · rw [hord]; exact ht

/-- the powers of the root are all elements but zero -/
theorem root_pow_image [Fintype (MlsRing n taps)] [DecidableEq (MlsRing n taps)] :
    (Finset.range (2 ^ n - 1)).image (fun t => AdjoinRoot.root (mlsPoly n taps) ^ t) = Finset.univ.erase 0 := by
  apply Finset.eq_of_subset_of_card_le
  · intro r hr
    obtain ⟨t, -, rfl⟩ := Finset.mem_image.1 hr
    exact Finset.mem_erase.2 ⟨root_pow_ne_zero n taps hn htaps hord t, Finset.mem_univ _⟩
  · rw [Finset.card_image_of_injOn, Finset.card_erase_of_mem (Finset.mem_univ _), Finset.card_range, Finset.card_univ,
      ← Nat.card_eq_fintype_card, mlsRing_card n taps hn htaps]
    intro s hs t ht hst
    exact root_pow_injOn n taps hn htaps hord s t (by simpa using hs) (by simpa using ht) hst

theorem exists_root_pow (r : MlsRing n taps) (hr : r ≠ 0) :
    ∃ t < 2 ^ n - 1, AdjoinRoot.root (mlsPoly n taps) ^ t = r := by
  classical
  have := mlsRing_finite n taps hn htaps
  have := Fintype.ofFinite (MlsRing n taps)
  have hm : r ∈ (Finset.range (2 ^ n - 1)).image (fun t => AdjoinRoot.root (mlsPoly n taps) ^ t) := by
    rw [root_pow_image n taps hn htaps hord]
    exact Finset.mem_erase.2 ⟨hr, Finset.mem_univ _⟩
  obtain ⟨t, ht, e⟩ := Finset.mem_image.1 hm
  exact ⟨t, Finset.mem_range.1 ht, e⟩

/-- the number 0 or 1 -/
def z2i (v : ZMod 2) : ℤ := if v = 1 then 1 else 0

/-- signs of a linear functional over a period -/
theorem sum_signs (ψ : MlsRing n taps →ₗ[ZMod 2] ZMod 2) (hψ : ψ ≠ 0) :
    ∑ t ∈ Finset.range (2 ^ n - 1), (1 - 2 * z2i (ψ (AdjoinRoot.root (mlsPoly n taps) ^ t))) = -1 := by
  classical
  have := mlsRing_finite n taps hn htaps
  have := Fintype.ofFinite (MlsRing n taps)
  obtain ⟨r0, h0⟩ : ∃ r0, ψ r0 = 1 := by
    by_contra hc
    push Not at hc
    apply hψ
    ext r
    rw [LinearMap.zero_apply]
    have h1 := hc r
    generalize ψ r = v at h1
    revert h1
    revert v
    decide
  have hall : ∑ r : MlsRing n taps, (1 - 2 * z2i (ψ r)) = 0 := by
    have h1 : ∑ r : MlsRing n taps, (1 - 2 * z2i (ψ (r + r0))) = ∑ r : MlsRing n taps, (1 - 2 * z2i (ψ r)) :=
      Equiv.sum_comp (Equiv.addRight r0) (fun r => 1 - 2 * z2i (ψ r))
    have h2 : ∀ r : MlsRing n taps, 1 - 2 * z2i (ψ (r + r0)) = -(1 - 2 * z2i (ψ r)) := by
      intro r
      rw [map_add, h0]
      generalize ψ r = v
      revert v
      decide
    rw [Finset.sum_congr rfl fun r _ => h2 r, Finset.sum_neg_distrib] at h1
    linarith
  have hsplit := Finset.add_sum_erase Finset.univ (fun r : MlsRing n taps => 1 - 2 * z2i (ψ r)) (Finset.mem_univ 0)
  have hz : (1 : ℤ) - 2 * z2i (ψ 0) = 1 := by rw [map_zero]; decide
  simp only [hz, hall] at hsplit
  rw [← root_pow_image n taps hn htaps hord, Finset.sum_image] at hsplit
  · linarith
  · intro s hs t ht hst
    exact root_pow_injOn n taps hn htaps hord s t (by simpa using hs) (by simpa using ht) hst

end

/-! ## the output of the register -/

/-- a bit as a number of the field -/
def b2z (b : Bool) : ZMod 2 := if b then 1 else 0

theorem b2z_xor (a b : Bool) : b2z (xor a b) = b2z a + b2z b := by
  cases a <;> cases b <;> decide

theorem b2z_decide (v : ZMod 2) : b2z (decide (v = 1)) = v := by
  revert v; decide

section
variable (n : ℕ) (taps : List ℕ) (ψ : MlsRing n taps →ₗ[ZMod 2] ZMod 2)

theorem feedback_eq (htaps : ∀ t ∈ taps, t < n) (hn : 1 ≤ n) (w : List Bool) (t0 : ℕ)
    (h : ∀ i < n, ψ (AdjoinRoot.root (mlsPoly n taps) ^ (t0 + i)) = b2z (w.getD i false)) :
    b2z (mlsFeedback taps w) = ψ (AdjoinRoot.root (mlsPoly n taps) ^ (t0 + n)) := by
  rw [pow_add, root_pow_n, mul_add, mul_one, map_add]
  have h0 : ψ (AdjoinRoot.root (mlsPoly n taps) ^ t0) = b2z (w.getD 0 false) := h 0 (by omega)
  rw [h0]
  unfold mlsFeedback
  generalize w.getD 0 false = b
  have key : ∀ l : List ℕ, (∀ t ∈ l, t < n) → ∀ b,
      b2z (l.foldl (fun f t => xor f (w.getD t false)) b) = b2z b +
        ψ (AdjoinRoot.root (mlsPoly n taps) ^ t0 * (l.map fun t => AdjoinRoot.root (mlsPoly n taps) ^ t).sum) := by
    intro l
    induction l with
    | nil => intro _ b; simp
    | cons t l ih =>
      intro hl b
      rw [List.foldl_cons, ih (fun s hs => hl s (by simp [hs])), b2z_xor, List.map_cons, List.sum_cons, mul_add, map_add,
        ← pow_add, h t (hl t (by simp)), add_assoc]
  exact key taps htaps b

theorem mlsRegister_eq (htaps : ∀ t ∈ taps, t < n) (hn : 1 ≤ n) (L : ℕ) (w : List Bool) (hw : w.length = n) (t0 : ℕ)
    (h : ∀ i < n, ψ (AdjoinRoot.root (mlsPoly n taps) ^ (t0 + i)) = b2z (w.getD i false)) :
    mlsRegister taps L w = (List.range L).map fun t => decide (ψ (AdjoinRoot.root (mlsPoly n taps) ^ (t0 + t)) = 1) := by
  induction L generalizing w t0 with
  | zero => rfl
  | succ L ih =>
    rw [List.range_succ_eq_map, List.map_cons, List.map_map]
    simp only [mlsRegister]
    congr 1
    · rw [h 0 (by omega)]
      cases w.getD 0 false <;> decide
    · rw [ih _ (by simp; omega) (t0 + 1)]
      · refine List.map_congr_left fun t _ => ?_
        simp only [Function.comp]
        rw [show t0 + 1 + t = t0 + (t + 1) by omega]
      · intro i hi
        rcases Nat.lt_or_ge i (n - 1) with hlt | hge
        · rw [show t0 + 1 + i = t0 + (i + 1) by omega, h (i + 1) (by omega)]
          congr 1
          rw [List.getD, List.getD, List.getElem?_append_left (by simp; omega)]
          cases w with
          | nil => simp at hw; omega
          | cons a w => simp
        · have hi' : i = n - 1 := by omega
          rw [show t0 + 1 + i = t0 + n by omega, ← feedback_eq n taps ψ htaps hn w t0 h]
          congr 1
          rw [List.getD, List.getElem?_append_right (by simp; omega)]
          simp [hi', hw]

end

/-- the functional that belongs to a state -/
theorem exists_functional (n : ℕ) (taps : List ℕ) (hn : 2 ≤ n) (htaps : ∀ t ∈ taps, t < n) (w : ℕ → ZMod 2) :
    ∃ ψ : MlsRing n taps →ₗ[ZMod 2] ZMod 2, ∀ i < n, ψ (AdjoinRoot.root (mlsPoly n taps) ^ i) = w i := by
  refine ⟨(mlsBasis n taps hn htaps).basis.constr (ZMod 2) fun i => w i, fun i hi => ?_⟩
  have hgen : (mlsBasis n taps hn htaps).gen = AdjoinRoot.root (mlsPoly n taps) := rfl
  have := (mlsBasis n taps hn htaps).basis.constr_basis (ZMod 2) (fun i => w i)
    ⟨i, by rw [mlsBasis_dim]; exact hi⟩
  rw [(mlsBasis n taps hn htaps).basis_eq_pow, hgen] at this
  exact this

/-- two functionals that agree on the first powers agree -/
theorem functional_ext (n : ℕ) (taps : List ℕ) (hn : 2 ≤ n) (htaps : ∀ t ∈ taps, t < n)
    (ψ χ : MlsRing n taps →ₗ[ZMod 2] ZMod 2)
    (h : ∀ i < n, ψ (AdjoinRoot.root (mlsPoly n taps) ^ i) = χ (AdjoinRoot.root (mlsPoly n taps) ^ i)) : ψ = χ := by
  apply (mlsBasis n taps hn htaps).basis.ext
  intro i
  have hgen : (mlsBasis n taps hn htaps).gen = AdjoinRoot.root (mlsPoly n taps) := rfl
  rw [(mlsBasis n taps hn htaps).basis_eq_pow, hgen]
  exact h i (lt_of_lt_of_eq i.2 (mlsBasis_dim n taps hn htaps))

/-- scipy's sequence in terms of a functional -/
theorem scipyMls_eq (n : ℕ) (h2 : 2 ≤ n) (h32 : n ≤ 32) (state : List ℤ) (hlen : state.length = n)
    (hne : ∃ v ∈ state, v ≠ 0) :
    ∃ ψ : MlsRing n (mlsTaps n) →ₗ[ZMod 2] ZMod 2, ψ ≠ 0 ∧
      (∀ i < n, ψ (AdjoinRoot.root (mlsPoly n (mlsTaps n)) ^ i) = if state.getD i 0 ≠ 0 then 1 else 0) ∧
      scipyMls n state = (List.range (2 ^ n - 1)).map fun t => z2i (ψ (AdjoinRoot.root (mlsPoly n (mlsTaps n)) ^ t)) := by
  have htaps := mlsTaps_lt n h2 h32
  obtain ⟨ψ, hψ⟩ := exists_functional n (mlsTaps n) h2 htaps (fun i => if state.getD i 0 ≠ 0 then 1 else 0)
  refine ⟨ψ, ?_, hψ, ?_⟩
  · rintro rfl
    obtain ⟨v, hv, hv0⟩ := hne
    obtain ⟨i, hi, rfl⟩ := List.getElem_of_mem hv
    have := hψ i (by omega)
    rw [getD_lt _ _ _ hi, if_pos hv0] at this
    simp at this
  · unfold scipyMls
    rw [mlsInner_eq (mlsTaps n) n htaps _ _ 0 (by simp [hlen]) (by omega), List.rotate_zero,
      mlsRegister_eq n (mlsTaps n) ψ htaps (by omega) _ _ (by simp [hlen]) 0 ?_, List.map_map]
    · refine List.map_congr_left fun t _ => ?_
      simp only [Function.comp, zero_add, decide_eq_true_eq]
      rfl
    · intro i hi
      rw [zero_add, hψ i hi]
      have hi' : i < state.length := by omega
      rw [getD_lt _ _ _ hi', getD_lt _ _ _ (by simpa using hi'), List.getElem_map]
      unfold b2z
      by_cases hz : state[i] = 0 <;> simp [hz]

/-! ## C97 -/

theorem list_range_sum (f : ℕ → ℤ) (N : ℕ) : ((List.range N).map f).sum = ∑ t ∈ Finset.range N, f t := by
  induction N with
  | zero => simp
  | succ N ih => rw [List.range_succ, List.map_append, List.sum_append, ih, Finset.sum_range_succ]; simp

theorem mlsInner_length (taps : List ℕ) (nbits length : ℕ) (state : List Bool) (idx : ℕ) :
    (mlsInner taps nbits length state idx).length = length := by
  induction length generalizing state idx with
  | zero => rfl
  | succ length ih => simp [mlsInner, ih]

/-- **C97** scipy's sequence meets the contract of C61. -/
theorem C97_full_period : FullPeriod scipyMls := by
  intro n s
  unfold scipyMls
  rw [List.length_map, mlsInner_length]

/-- **C97** The sequence has `2 ^ n - 1` entries, all of them 0 or 1, begins with the state, and each later entry is the sum
modulo 2 of the entry `n` places and the entries `n - tap` places before. -/
theorem C97_recurrence (n : ℕ) (h2 : 2 ≤ n) (h32 : n ≤ 32) (state : List ℤ) (hlen : state.length = n)
    (hne : ∃ v ∈ state, v ≠ 0) :
    let s := scipyMls n state
    s.length = 2 ^ n - 1 ∧ (∀ v ∈ s, v = 0 ∨ v = 1) ∧
    (∀ i < n, at0 s i = if state.getD i 0 ≠ 0 then 1 else 0) ∧
    (∀ t, t + n < 2 ^ n - 1 → at0 s (t + n) = (at0 s t + ((mlsTaps n).map fun k => at0 s (t + k)).sum) % 2) := by
  intro s
  obtain ⟨ψ, hψ0, hψ, hs⟩ := scipyMls_eq n h2 h32 state hlen hne
  have htaps := mlsTaps_lt n h2 h32
  have hslen : s.length = 2 ^ n - 1 := by simp only [s, hs, List.length_map, List.length_range]
  have hat : ∀ t < 2 ^ n - 1, at0 s t = z2i (ψ (AdjoinRoot.root (mlsPoly n (mlsTaps n)) ^ t)) := by
    intro t ht
    rw [at0_eq _ _ (by omega)]
    simp only [s, hs, List.getElem_map, List.getElem_range]
  refine ⟨hslen, ?_, ?_, ?_⟩
  · intro v hv
    simp only [s, hs] at hv
    obtain ⟨t, -, rfl⟩ := List.mem_map.1 hv
    unfold z2i
    split_ifs
    · exact Or.inr rfl
    · exact Or.inl rfl
  · intro i hi
    have h3 : i + 1 < 2 ^ n := lt_of_le_of_lt hi Nat.lt_two_pow_self
    rw [hat i (by omega), hψ i hi]
    split_ifs <;> decide
  · intro t ht
    have hsum : ψ (AdjoinRoot.root (mlsPoly n (mlsTaps n)) ^ (t + n)) =
        ψ (AdjoinRoot.root (mlsPoly n (mlsTaps n)) ^ t) +
          ((mlsTaps n).map fun k => ψ (AdjoinRoot.root (mlsPoly n (mlsTaps n)) ^ (t + k))).sum := by
      rw [pow_add, root_pow_n, mul_add, mul_one, map_add]
      congr 1
      have : ∀ l : List ℕ, ψ (AdjoinRoot.root (mlsPoly n (mlsTaps n)) ^ t *
          (l.map fun k => AdjoinRoot.root (mlsPoly n (mlsTaps n)) ^ k).sum) =
          (l.map fun k => ψ (AdjoinRoot.root (mlsPoly n (mlsTaps n)) ^ (t + k))).sum := by
        intro l
        induction l with
        | nil => simp
        | cons k l ih => rw [List.map_cons, List.sum_cons, mul_add, map_add, ih, ← pow_add, List.map_cons, List.sum_cons]
      exact this _
    rw [hat _ ht, hsum, hat t (by omega)]
    have hmap : ((mlsTaps n).map fun k => at0 s (t + k)) =
        ((mlsTaps n).map fun k => z2i (ψ (AdjoinRoot.root (mlsPoly n (mlsTaps n)) ^ (t + k)))) :=
      List.map_congr_left fun k hk => hat _ (by have := htaps k hk; omega)
    rw [hmap]
    generalize ψ (AdjoinRoot.root (mlsPoly n (mlsTaps n)) ^ t) = a
    clear hmap hsum
    have key : ∀ (l : List ℕ) (f : ℕ → ZMod 2) (a : ZMod 2), z2i (a + (l.map f).sum) = (z2i a + (l.map fun k => z2i (f k)).sum) % 2 := by
      intro l f
      induction l with
      | nil => intro a; simp only [List.map_nil, List.sum_nil, add_zero]; revert a; decide
      | cons k l ih =>
        intro a
        rw [List.map_cons, List.sum_cons, ← add_assoc, ih (a + f k), List.map_cons, List.sum_cons]
        have : z2i (a + f k) % 2 = (z2i a + z2i (f k)) % 2 := by
          generalize f k = b
          revert a b
          decide
        omega
    exact key _ _ a

/-- **C97** It has `2 ^ (n - 1)` ones. -/
theorem C97_balance (n : ℕ) (h2 : 2 ≤ n) (h32 : n ≤ 32) (state : List ℤ) (hlen : state.length = n)
    (hne : ∃ v ∈ state, v ≠ 0) :
    (scipyMls n state).sum = 2 ^ (n - 1) := by
  obtain ⟨ψ, hψ0, hψ, hs⟩ := scipyMls_eq n h2 h32 state hlen hne
  have h := sum_signs n (mlsTaps n) h2 (mlsTaps_lt n h2 h32) (orderOf_mls n h2 h32) ψ hψ0
  rw [Finset.sum_sub_distrib, ← Finset.mul_sum, Finset.sum_const, Finset.card_range, nsmul_eq_mul, mul_one] at h
  have hsum : (scipyMls n state).sum =
      ∑ t ∈ Finset.range (2 ^ n - 1), z2i (ψ (AdjoinRoot.root (mlsPoly n (mlsTaps n)) ^ t)) := by
    rw [hs]
    exact list_range_sum _ _
  rw [hsum]
  have hp : (2 : ℤ) ^ n = 2 * 2 ^ (n - 1) := by
    conv_lhs => rw [show n = (n - 1) + 1 by omega]
    rw [pow_succ]; ring
  have hc : ((2 ^ n - 1 : ℕ) : ℤ) = 2 ^ n - 1 := by
    rw [Nat.cast_sub Nat.one_le_two_pow]; push_cast; ring
  rw [hc, hp] at h
  linarith

/-- **C97** The correlation of its signs (0 as 1, 1 as -1) with themselves, moved round the period by `k` places, is -1
unless `k` is a multiple of the period. -/
theorem C97_autocorrelation (n : ℕ) (h2 : 2 ≤ n) (h32 : n ≤ 32) (state : List ℤ) (hlen : state.length = n)
    (hne : ∃ v ∈ state, v ≠ 0) (k : ℕ) (hk : ¬ (2 ^ n - 1) ∣ k) :
    let s := scipyMls n state
    ∑ t ∈ Finset.range s.length, (1 - 2 * at0 s t) * (1 - 2 * at0 s ((t + k) % s.length)) = -1 := by
  intro s
  obtain ⟨ψ, hψ0, hψ, hs⟩ := scipyMls_eq n h2 h32 state hlen hne
  have htaps := mlsTaps_lt n h2 h32
  have hord := orderOf_mls n h2 h32
  have hN := two_pow_gt n (mlsTaps n) h2 htaps hord
  have hslen : s.length = 2 ^ n - 1 := by simp only [s, hs, List.length_map, List.length_range]
  set x := AdjoinRoot.root (mlsPoly n (mlsTaps n)) with hx
  have hat : ∀ t < 2 ^ n - 1, at0 s t = z2i (ψ (x ^ t)) := by
    intro t ht
    rw [at0_eq _ _ (by omega)]
    simp only [s, hs, List.getElem_map, List.getElem_range]
  have hne1 : 1 + x ^ k ≠ 0 := by
    intro h
    apply hk
    rw [← hord, orderOf_dvd_iff_pow_eq_one]
    calc x ^ k = x ^ k + (1 + 1) := by rw [mlsRing_add_self, add_zero]
      _ = (1 + x ^ k) + 1 := by ring
      _ = 1 := by rw [h, zero_add]
  obtain ⟨j, -, hj⟩ := exists_root_pow n (mlsTaps n) h2 htaps hord (1 + x ^ k) hne1
  have hunit : IsUnit (1 + x ^ k) := by rw [← hj]; exact (root_isUnit n (mlsTaps n) h2 htaps hord).pow j
  set χ : MlsRing n (mlsTaps n) →ₗ[ZMod 2] ZMod 2 := ψ.comp (LinearMap.mulLeft (ZMod 2) (1 + x ^ k)) with hχ
  have hχ0 : χ ≠ 0 := by
    intro h
    apply hψ0
    ext r
    obtain ⟨v, hv⟩ := hunit.exists_right_inv
    have := congrArg (fun f => f (v * r)) h
    simp only [hχ, LinearMap.comp_apply, LinearMap.mulLeft_apply, LinearMap.zero_apply, ← mul_assoc, hv, one_mul] at this
    rw [this, LinearMap.zero_apply]
  rw [← sum_signs n (mlsTaps n) h2 htaps hord χ hχ0, hslen]
  refine Finset.sum_congr rfl fun t ht => ?_
  have ht' := Finset.mem_range.1 ht
  rw [hat t ht', hat _ (Nat.mod_lt _ (by omega))]
  have hmod : x ^ ((t + k) % (2 ^ n - 1)) = x ^ (t + k) := by rw [← hord, pow_mod_orderOf]
  have hval : χ (x ^ t) = ψ (x ^ t) + ψ (x ^ (t + k)) := by
    simp only [hχ, LinearMap.comp_apply, LinearMap.mulLeft_apply]
    rw [← map_add]
    congr 1
    rw [pow_add]; ring
  rw [hmod, hval]
  generalize ψ (x ^ t) = a
  generalize ψ (x ^ (t + k)) = b
  revert a b
  decide

/-- **C97** Every pattern of `n` bits except the zeros appears at exactly one place of the period. -/
theorem C97_windows (n : ℕ) (h2 : 2 ≤ n) (h32 : n ≤ 32) (state : List ℤ) (hlen : state.length = n)
    (hne : ∃ v ∈ state, v ≠ 0) (w : ℕ → ℤ) (hw : ∀ i < n, w i = 0 ∨ w i = 1) (hw1 : ∃ i < n, w i = 1) :
    let s := scipyMls n state
    ∃! t, t < s.length ∧ ∀ i < n, at0 s ((t + i) % s.length) = w i := by
  intro s
  obtain ⟨ψ, hψ0, hψ, hs⟩ := scipyMls_eq n h2 h32 state hlen hne
  have htaps := mlsTaps_lt n h2 h32
  have hord := orderOf_mls n h2 h32
  have hN := two_pow_gt n (mlsTaps n) h2 htaps hord
  have hslen : s.length = 2 ^ n - 1 := by simp only [s, hs, List.length_map, List.length_range]
  have hfin := mlsRing_finite n (mlsTaps n) h2 htaps
  set x := AdjoinRoot.root (mlsPoly n (mlsTaps n)) with hx
  have hat : ∀ t i, at0 s ((t + i) % s.length) = z2i (ψ (x ^ t * x ^ i)) := by
    intro t i
    have hlt : (t + i) % (2 ^ n - 1) < 2 ^ n - 1 := Nat.mod_lt _ (by omega)
    rw [hslen, at0_eq _ _ (by omega)]
    simp only [s, hs, List.getElem_map, List.getElem_range]
    rw [← pow_add]
    have hmod : x ^ ((t + i) % (2 ^ n - 1)) = x ^ (t + i) := by rw [← hord, pow_mod_orderOf]
    rw [hmod]
  -- the bits of the window at `r`
  let F : MlsRing n (mlsTaps n) → (Fin n → ZMod 2) := fun r i => ψ (r * x ^ (i : ℕ))
  have hinj : Function.Injective F := by
    intro r r' h
    by_contra hrr
    have hne0 : r + r' ≠ 0 := by
      intro h0
      apply hrr
      calc r = r + (r' + r') := by rw [mlsRing_add_self, add_zero]
        _ = (r + r') + r' := by ring
        _ = r' := by rw [h0, zero_add]
    obtain ⟨j, -, hj⟩ := exists_root_pow n (mlsTaps n) h2 htaps hord (r + r') hne0
    have hunit : IsUnit (r + r') := by rw [← hj]; exact (root_isUnit n (mlsTaps n) h2 htaps hord).pow j
    have hz : ψ.comp (LinearMap.mulLeft (ZMod 2) (r + r')) = 0 := by
      apply functional_ext n (mlsTaps n) h2 htaps
      intro i hi
      have := congrFun h ⟨i, hi⟩
      simp only [F] at this
      simp only [LinearMap.comp_apply, LinearMap.mulLeft_apply, LinearMap.zero_apply]
      rw [add_mul, map_add, ← hx, this]
      generalize ψ (r' * x ^ i) = b
      revert b
      decide
    apply hψ0
    ext q
    obtain ⟨v, hv⟩ := hunit.exists_right_inv
    have := congrArg (fun f => f (v * q)) hz
    simp only [LinearMap.comp_apply, LinearMap.mulLeft_apply, LinearMap.zero_apply, ← mul_assoc, hv, one_mul] at this
    rw [this, LinearMap.zero_apply]
  have hbij : Function.Bijective F := by
    have := Fintype.ofFinite (MlsRing n (mlsTaps n))
    rw [Fintype.bijective_iff_injective_and_card]
    refine ⟨hinj, ?_⟩
    rw [← Nat.card_eq_fintype_card, mlsRing_card n (mlsTaps n) h2 htaps]
    simp [ZMod.card]
  have hpat : ∀ t, (∀ i < n, at0 s ((t + i) % s.length) = w i) ↔ F (x ^ t) = fun i : Fin n => if w i = 1 then 1 else 0 := by
    intro t
    constructor
    · intro h
      funext i
      have := h i i.2
      rw [hat] at this
      simp only [F]
      rw [← this]
      generalize ψ (x ^ t * x ^ (i : ℕ)) = b
      revert b
      decide
    · intro h i hi
      have := congrFun h ⟨i, hi⟩
      simp only [F] at this
      rw [hat, this]
      rcases hw i hi with e | e <;> rw [e] <;> decide
  obtain ⟨r, hr⟩ := hbij.2 fun i : Fin n => if w i = 1 then 1 else 0
  have hr0 : r ≠ 0 := by
    rintro rfl
    obtain ⟨i, hi, hi1⟩ := hw1
    have := congrFun hr ⟨i, hi⟩
    simp only [F, zero_mul, map_zero, hi1, if_true] at this
    exact zero_ne_one this
  obtain ⟨t, ht, hxt⟩ := exists_root_pow n (mlsTaps n) h2 htaps hord r hr0
  refine ⟨t, ⟨by omega, (hpat t).2 (by rw [hxt, hr])⟩, ?_⟩
  rintro t' ⟨ht', h'⟩
  have h1 := (hpat t').1 h'
  apply root_pow_injOn n (mlsTaps n) h2 htaps hord t' t (by omega) ht
  rw [hxt]
  exact hinj (h1.trans hr.symm)

/-- **C97** `get_m_sequence_code(L, is_full=True)`, whatever the random numbers, returns such a sequence: with
`k = ceil(log2(L - 1))` between 2 and 32 it has `2 ^ k - 1` values 0 and 1, of which `2 ^ (k - 1)` are 1, and its signs have
correlation -1 with themselves moved round by anything but a multiple of the period. -/
theorem C97_code (rand : ℕ → ℤ) (L : ℤ) (k : ℕ) (hL : 2 ≤ L) (hk : k = Nat.clog 2 (L - 1).toNat) (h2 : 2 ≤ k) (h32 : k ≤ 32) :
    ∃ s, getMSequenceCode scipyMls rand L true = .ok s ∧ s.length = 2 ^ k - 1 ∧ (∀ v ∈ s, v = 0 ∨ v = 1) ∧
      s.sum = 2 ^ (k - 1) ∧
      (∀ j, ¬ (2 ^ k - 1) ∣ j →
        ∑ t ∈ Finset.range s.length, (1 - 2 * at0 s t) * (1 - 2 * at0 s ((t + j) % s.length)) = -1) ∧
      getMSequenceCode scipyMls rand L false = .ok (s.take (L - 1).toNat) := by
  have hlog : ceilLog2 (L - 1) = .ok k := by
    unfold ceilLog2
    rw [if_neg (by omega), hk]
  obtain ⟨a, l, hal⟩ : ∃ a l, (List.range k).map rand = a :: l := by
    obtain ⟨m, rfl⟩ : ∃ m, k = m + 1 := ⟨k - 1, by omega⟩
    exact ⟨_, _, by rw [List.range_succ_eq_map, List.map_cons]⟩
  have hlen : (a :: l).length = k := by rw [← hal]; simp
  obtain ⟨st, hst, hst1, hst2⟩ : ∃ st, fixStart ((List.range k).map rand) = .ok st ∧ st.length = k ∧ ∃ v ∈ st, v ≠ 0 := by
    rw [hal]
    simp only [fixStart]
    split_ifs with h
    · exact ⟨_, rfl, by simpa using hlen, 1, by simp, one_ne_zero⟩
    · refine ⟨_, rfl, hlen, ?_⟩
      push Not at h
      exact h
  have hm : maxLenSeq scipyMls k st = .ok (scipyMls k st) := by
    unfold maxLenSeq
    rw [if_neg (by omega), if_neg (by simpa using hst1), if_neg (by push Not; exact hst2)]
  obtain ⟨r1, r2, -, -⟩ := C97_recurrence k h2 h32 st hst1 hst2
  refine ⟨scipyMls k st, ?_, r1, r2, C97_balance k h2 h32 st hst1 hst2,
    fun j hj => C97_autocorrelation k h2 h32 st hst1 hst2 j hj, ?_⟩
  · unfold getMSequenceCode
    rw [hlog, except_bind_ok, hst, except_bind_ok, hm, except_bind_ok, if_pos rfl, except_pure]
  · unfold getMSequenceCode
    rw [hlog, except_bind_ok, hst, except_bind_ok, hm, except_bind_ok, if_neg (by simp), except_pure]

/-- **C97** A start sequence of -1 and 1, as the documentation of `get_relation_m_sequence` asks for, has no influence: all of them
give the sequence of the start with only ones, whose values are 0 and 1. -/
theorem C97_sign_start {K : Type} [Field K] [LinearOrder K] [IsStrictOrderedRing K] [FloorRing K] (t : Axis K) (start : List ℤ)
    (h : ∀ v ∈ start, v = -1 ∨ v = 1) (isFull : Bool) :
    (getRelationMSequenceFrom scipyMls t start isFull).1 =
      (getRelationMSequenceFrom scipyMls t (List.replicate start.length 1) isFull).1 := by
  have hne : ∀ v ∈ start, v ≠ 0 := fun v hv => by rcases h v hv with e | e <;> rw [e] <;> decide
  have hmls : scipyMls start.length start = scipyMls start.length (List.replicate start.length 1) := by
    unfold scipyMls
    congr 2
    rw [List.map_replicate]
    apply List.ext_getElem
    · simp
    · intro i h1 h2
      have hi : i < start.length := by simpa using h1
      simp [hne start[i] (List.getElem_mem hi)]
  unfold getRelationMSequenceFrom
  cases hk : (do let n ← t.size; ceilLog2 ((n : ℤ) - 1) : Except Err ℕ) with
  | error e => rfl
  | ok k =>
    cases start with
    | nil => rfl
    | cons a l =>
      have ha : ¬ ∀ v ∈ a :: l, v = 0 := fun hc => hne a (by simp) (hc a (by simp))
      have h1 : ¬ ∀ v ∈ (1 : ℤ) :: List.replicate l.length 1, v = 0 := fun hc => one_ne_zero (hc 1 (by simp))
      have e1 : fixStart (a :: l) = .ok (a :: l) := by simp only [fixStart, if_neg ha]
      have e2 : fixStart (List.replicate (a :: l).length 1) = .ok (List.replicate (a :: l).length 1) := by
        rw [List.length_cons, List.replicate_succ]
        simp only [fixStart, if_neg h1]
      have m1 : ¬ ∀ v ∈ List.replicate (a :: l).length (1 : ℤ), v = 0 := by
        rw [List.length_cons, List.replicate_succ]; exact h1
      simp only [e1, e2]
      unfold relationOfMSequence maxLenSeq
      rw [List.length_replicate, if_neg ha, if_neg m1, hmls]

example : scipyMls 3 [-1, 1, -1] = [1, 1, 1, 0, 1, 0, 0] := by decide +kernel

/-- the register of three bits -/
example : scipyMls 3 [1, 0, 0] = [1, 0, 0, 1, 1, 1, 0] := by decide +kernel

example : (scipyMls 5 [0, 1, 1, 0, 7]).sum = 16 := C97_balance 5 (by norm_num) (by norm_num) [0, 1, 1, 0, 7] rfl (by simp)

/-- a code of 63 values for `length_code = 50` -/
example (rand : ℕ → ℤ) : ∃ s, getMSequenceCode scipyMls rand 50 true = .ok s ∧ s.length = 63 ∧ s.sum = 32 := by
  obtain ⟨s, h1, h2, -, h3, -⟩ := C97_code rand 50 6 (by norm_num) (by decide +kernel) (by norm_num) (by norm_num)
  exact ⟨s, h1, by simpa using h2, by simpa using h3⟩

end SweepDesign
