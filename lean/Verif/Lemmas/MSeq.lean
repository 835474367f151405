import Verif.Model.MSeq
import Mathlib.RingTheory.AdjoinRoot
import Mathlib.Data.ZMod.Basic
import Mathlib.GroupTheory.OrderOfElement
import Mathlib.NumberTheory.LucasLehmer
import Mathlib.Tactic.NormNum.Prime
import Mathlib.FieldTheory.Finiteness
import Mathlib.Algebra.CharP.Two

/-!
# Shift registers over the field with two elements
-/

set_option linter.unusedSectionVars false

namespace SweepDesign

/-! ## the ring buffer is a shift register -/

/-- the feedback of a shift register that holds `w`, oldest entry first -/
def mlsFeedback (taps : List ℕ) (w : List Bool) : Bool :=
  taps.foldl (fun f t => xor f (w.getD t false)) (w.getD 0 false)

/-- the sequence a shift register puts out -/
def mlsRegister (taps : List ℕ) : ℕ → List Bool → List Bool
  | 0, _ => []
  | length + 1, w => w.getD 0 false :: mlsRegister taps length (w.tail ++ [mlsFeedback taps w])

theorem rotate_getD (w : List Bool) (i t : ℕ) (ht : t < w.length) :
    (w.rotate i).getD t false = w.getD ((t + i) % w.length) false := by
  have h1 : t < (w.rotate i).length := by simpa using ht
  have h2 : (t + i) % w.length < w.length := Nat.mod_lt _ (by omega)
  simp only [List.getD, List.getElem?_eq_getElem h1, List.getElem?_eq_getElem h2, List.getElem_rotate, Option.getD_some]

theorem rotate_set (w : List Bool) (i : ℕ) (hi : i < w.length) (b : Bool) :
    (w.set i b).rotate ((i + 1) % w.length) = (w.rotate i).tail ++ [b] := by
  apply List.ext_getElem
  · simp; omega
  · intro k h1 h2
    have hk : k < w.length := by simpa using h1
    rw [List.getElem_rotate, List.getElem_append]
    simp only [List.length_set, List.length_tail, List.length_rotate]
    by_cases hlast : k < w.length - 1
    · rw [dif_pos hlast, List.getElem_tail, List.getElem_rotate, List.getElem_set_ne]
      · congr 1
        rw [Nat.add_mod, Nat.mod_mod, ← Nat.add_mod]
        congr 1
        omega
      · rw [Nat.add_mod, Nat.mod_mod, ← Nat.add_mod]
        intro h
        have h1 : k + (i + 1) < 2 * w.length := by omega
        rcases Nat.lt_or_ge (k + (i + 1)) w.length with h2 | h2
        · rw [Nat.mod_eq_of_lt h2] at h; omega
        · rw [Nat.mod_eq_sub_mod h2, Nat.mod_eq_of_lt (by omega)] at h; omega
    · have hk' : k = w.length - 1 := by omega
      rw [dif_neg hlast]
      have : (k + (i + 1) % w.length) % w.length = i := by
        rw [Nat.add_mod, Nat.mod_mod, ← Nat.add_mod, hk', show w.length - 1 + (i + 1) = i + w.length by omega,
          Nat.add_mod_right, Nat.mod_eq_of_lt hi]
      simp only [this, List.getElem_set_self, List.getElem_singleton]

theorem mlsInner_eq (taps : List ℕ) (nbits : ℕ) (htaps : ∀ t ∈ taps, t < nbits) (length : ℕ) (w : List Bool) (idx : ℕ)
    (hw : w.length = nbits) (hidx : idx < nbits) :
    mlsInner taps nbits length w idx = mlsRegister taps length (w.rotate idx) := by
  induction length generalizing w idx with
  | zero => rfl
  | succ length ih =>
    subst hw
    have h0 : (w.rotate idx).getD 0 false = w.getD idx false := by
      rw [rotate_getD w idx 0 (by omega), zero_add, Nat.mod_eq_of_lt hidx]
    have hf : taps.foldl (fun f t => xor f (w.getD ((t + idx) % w.length) false)) (w.getD idx false) =
        mlsFeedback taps (w.rotate idx) := by
      unfold mlsFeedback
      rw [h0]
      generalize w.getD idx false = b
      clear ih h0
      induction taps generalizing b with
      | nil => rfl
      | cons t taps iht =>
        rw [List.foldl_cons, List.foldl_cons, rotate_getD w idx t (htaps t (by simp))]
        exact iht (fun s hs => htaps s (by simp [hs])) _
    simp only [mlsInner, mlsRegister]
    rw [h0, hf, ih (w.set idx (mlsFeedback taps (w.rotate idx))) ((idx + 1) % w.length) (by simp)
      (Nat.mod_lt _ (by omega)), rotate_set w idx hidx]

/-! ## the ring of a shift register -/

open Polynomial

/-- the feedback as a polynomial -/
noncomputable def tapsPoly (taps : List ℕ) : (ZMod 2)[X] := 1 + (taps.map fun t => X ^ t).sum

/-- the characteristic polynomial of the register -/
noncomputable def mlsPoly (n : ℕ) (taps : List ℕ) : (ZMod 2)[X] := X ^ n + tapsPoly taps

theorem tapsPoly_degree (n : ℕ) (hn : 1 ≤ n) (taps : List ℕ) (h : ∀ t ∈ taps, t < n) : (tapsPoly taps).degree < n := by
  unfold tapsPoly
  refine (degree_add_le _ _).trans_lt (max_lt ?_ ?_)
  · rw [degree_one]; exact_mod_cast hn
  · induction taps with
    | nil => simp
    | cons t taps ih =>
      rw [List.map_cons, List.sum_cons]
      refine (degree_add_le _ _).trans_lt (max_lt ?_ (ih fun s hs => h s (by simp [hs])))
      rw [degree_X_pow]
      exact_mod_cast h t (by simp)

theorem mlsPoly_monic (n : ℕ) (hn : 1 ≤ n) (taps : List ℕ) (h : ∀ t ∈ taps, t < n) : (mlsPoly n taps).Monic :=
  monic_X_pow_add (tapsPoly_degree n hn taps h)

theorem mlsPoly_natDegree (n : ℕ) (hn : 1 ≤ n) (taps : List ℕ) (h : ∀ t ∈ taps, t < n) : (mlsPoly n taps).natDegree = n := by
  have : (mlsPoly n taps).degree = n := by
    unfold mlsPoly
    rw [degree_add_eq_left_of_degree_lt (by rw [degree_X_pow]; exact tapsPoly_degree n hn taps h), degree_X_pow]
  exact natDegree_eq_of_degree_eq_some this

/-- the bits of a number as a polynomial -/
noncomputable def bitPoly (a : ℕ) : (ZMod 2)[X] := ∑ i ∈ Finset.range 64, if a.testBit i then X ^ i else 0

theorem bitPoly_xor (a b : ℕ) : bitPoly (a ^^^ b) = bitPoly a + bitPoly b := by
  unfold bitPoly
  rw [← Finset.sum_add_distrib]
  refine Finset.sum_congr rfl fun i _ => ?_
  rw [Nat.testBit_xor]
  cases a.testBit i <;> cases b.testBit i <;> simp [CharTwo.add_self_eq_zero]

theorem bitPoly_two_pow (t : ℕ) (ht : t < 64) : bitPoly (2 ^ t) = X ^ t := by
  unfold bitPoly
  rw [Finset.sum_eq_single t]
  · simp
  · intro i _ hi
    rw [Nat.testBit_two_pow_of_ne hi.symm]
    simp
  · intro h
    exact absurd (Finset.mem_range.2 ht) h

theorem bitPoly_double (a : ℕ) (ha : a < 2 ^ 63) : bitPoly (2 * a) = X * bitPoly a := by
  unfold bitPoly
  rw [Finset.sum_range_succ' _ 63, Finset.sum_range_succ _ 63, Nat.testBit_lt_two_pow ha, mul_add, Finset.mul_sum]
  simp only [Nat.testBit_zero, Bool.false_eq_true, if_false, mul_zero, add_zero]
  rw [show decide (2 * a % 2 = 1) = false by simp]
  simp only [Bool.false_eq_true, if_false, add_zero]
  refine Finset.sum_congr rfl fun i _ => ?_
  have : (2 * a).testBit (i + 1) = a.testBit i := by
    rw [Nat.testBit_succ]
    simp
  rw [this]
  split_ifs
  · rw [pow_succ, mul_comm]
  · simp

theorem bitPoly_one : bitPoly 1 = 1 := by
  have := bitPoly_two_pow 0 (by norm_num)
  simpa using this

theorem bitPoly_zero : bitPoly 0 = 0 := by
  simp [bitPoly]

theorem bitPoly_degree (n a : ℕ) (ha : a < 2 ^ n) : (bitPoly a).degree < n := by
  unfold bitPoly
  refine lt_of_le_of_lt (degree_sum_le _ _) ?_
  refine (Finset.sup_lt_iff (WithBot.bot_lt_coe n)).2 fun i _ => ?_
  split_ifs with h
  · rw [degree_X_pow]
    have : i < n := by
      by_contra hc
      rw [Nat.testBit_lt_two_pow (lt_of_lt_of_le ha (Nat.pow_le_pow_right (by norm_num) (not_lt.1 hc)))] at h
      simp at h
    exact WithBot.coe_lt_coe.2 this
  · rw [degree_zero]
    exact WithBot.bot_lt_coe n

theorem bitPoly_mod_succ (b i : ℕ) (hi : i < 64) :
    bitPoly (b % 2 ^ (i + 1)) = bitPoly (b % 2 ^ i) + if b.testBit i then X ^ i else 0 := by
  have : b % 2 ^ (i + 1) = (b % 2 ^ i) ^^^ (if b.testBit i then 2 ^ i else 0) := by
    apply Nat.eq_of_testBit_eq
    intro j
    rw [Nat.testBit_xor, Nat.testBit_mod_two_pow, Nat.testBit_mod_two_pow]
    rcases Nat.lt_trichotomy j i with e | e | e
    · rw [decide_eq_true (by omega), decide_eq_true e]
      split_ifs
      · rw [Nat.testBit_two_pow_of_ne (by omega)]; simp
      · simp
    · subst e
      rw [decide_eq_true (by omega), decide_eq_false (by omega)]
      split_ifs with h
      · simp [h]
      · simp [h]
    · rw [decide_eq_false (by omega), decide_eq_false (by omega)]
      split_ifs
      · rw [Nat.testBit_two_pow_of_ne (by omega)]; simp
      · simp
  rw [this, bitPoly_xor]
  split_ifs
  · rw [bitPoly_two_pow i hi]
  · rw [bitPoly_zero]

/-! ### computing in the ring with the bits of numbers -/

def gfDouble (n p a : ℕ) : ℕ := if (2 * a).testBit n then (2 * a) ^^^ p else 2 * a

/-- `f a`; the kernel computes `a` before it enters `f` -/
def strictly {α : Type} (a : ℕ) (f : ℕ → α) : α :=
  match a with
  | 0 => f 0
  | k + 1 => f (k + 1)

theorem strictly_eq {α : Type} (a : ℕ) (f : ℕ → α) : strictly a f = f a := by
  cases a <;> rfl

def gfMulAux (n p a b : ℕ) : ℕ → ℕ → ℕ
  | 0, acc => acc
  | i + 1, acc => strictly (if b.testBit i then gfDouble n p acc ^^^ a else gfDouble n p acc) (gfMulAux n p a b i)

def gfMul (n p a b : ℕ) : ℕ := gfMulAux n p a b n 0

def gfPow (n p : ℕ) : ℕ → ℕ → ℕ → ℕ → ℕ
  | 0, _, _, acc => acc
  | fuel + 1, b, e, acc =>
    strictly (gfMul n p b b) fun b' => strictly (if e % 2 = 1 then gfMul n p acc b else acc) (gfPow n p fuel b' (e / 2))

/-- the bits of the characteristic polynomial -/
def mlsMask (n : ℕ) (taps : List ℕ) : ℕ := taps.foldl (fun m t => m ^^^ 2 ^ t) (2 ^ n ^^^ 1)

theorem mlsMask_poly (n : ℕ) (hn : n < 64) (taps : List ℕ) (h : ∀ t ∈ taps, t < n) :
    bitPoly (mlsMask n taps) = mlsPoly n taps := by
  have : ∀ m, bitPoly (taps.foldl (fun m t => m ^^^ 2 ^ t) m) = bitPoly m + (taps.map fun t => (X : (ZMod 2)[X]) ^ t).sum := by
    induction taps with
    | nil => simp
    | cons t taps ih =>
      intro m
      rw [List.foldl_cons, ih (fun s hs => h s (by simp [hs])), bitPoly_xor,
        bitPoly_two_pow t (by have := h t (by simp); omega), List.map_cons, List.sum_cons, add_assoc]
  unfold mlsMask mlsPoly tapsPoly
  rw [this, bitPoly_xor, bitPoly_two_pow n hn, bitPoly_one, add_assoc]

section
variable (n : ℕ) (taps : List ℕ)

/-- the ring of the register -/
abbrev MlsRing := AdjoinRoot (mlsPoly n taps)

noncomputable def bitEl (a : ℕ) : MlsRing n taps := AdjoinRoot.mk _ (bitPoly a)

variable (hn : 1 ≤ n) (hn' : n ≤ 32) (htaps : ∀ t ∈ taps, t < n)
include hn hn' htaps

theorem gfDouble_spec (a : ℕ) (ha : a < 2 ^ n) :
    gfDouble n (mlsMask n taps) a < 2 ^ n ∧
    bitEl n taps (gfDouble n (mlsMask n taps) a) = AdjoinRoot.root _ * bitEl n taps a := by
  have ha' : a < 2 ^ 63 := lt_of_lt_of_le ha (Nat.pow_le_pow_right (by norm_num) (by omega))
  have hb : 2 * a < 2 ^ (n + 1) := by rw [pow_succ]; omega
  have hd : bitEl n taps (2 * a) = AdjoinRoot.root _ * bitEl n taps a := by
    unfold bitEl
    rw [bitPoly_double a ha', map_mul, AdjoinRoot.mk_X]
  have hmask : ∀ j, n ≤ j → (mlsMask n taps).testBit j = decide (j = n) := by
    intro j hj
    have hfold : ∀ m, (taps.foldl (fun m t => m ^^^ 2 ^ t) m).testBit j = m.testBit j := by
      clear hd
      induction taps with
      | nil => simp
      | cons t taps ih =>
        intro m
        rw [List.foldl_cons, ih (fun s hs => htaps s (by simp [hs])), Nat.testBit_xor,
          Nat.testBit_two_pow_of_ne (by have := htaps t (by simp); omega)]
        simp
    unfold mlsMask
    rw [hfold, Nat.testBit_xor, Nat.testBit_two_pow, show (1 : ℕ) = 2 ^ 0 by norm_num, Nat.testBit_two_pow_of_ne (by omega)]
    simp [eq_comm]
  unfold gfDouble
  split_ifs with h
  · refine ⟨Nat.lt_pow_two_of_testBit _ fun j hj => ?_, ?_⟩
    · rw [Nat.testBit_xor, hmask j hj]
      rcases Nat.eq_or_lt_of_le hj with e | e
      · subst e; simp [h]
      · rw [Nat.testBit_lt_two_pow (lt_of_lt_of_le hb (Nat.pow_le_pow_right (by norm_num) e))]
        simp; omega
    · unfold bitEl at *
      rw [bitPoly_xor, map_add, hd, mlsMask_poly n (by omega) taps htaps, AdjoinRoot.mk_self, add_zero]
  · refine ⟨Nat.lt_pow_two_of_testBit _ fun j hj => ?_, hd⟩
    rcases Nat.eq_or_lt_of_le hj with e | e
    · subst e; simpa using h
    · exact Nat.testBit_lt_two_pow (lt_of_lt_of_le hb (Nat.pow_le_pow_right (by norm_num) e))

theorem gfMulAux_spec (a b : ℕ) (ha : a < 2 ^ n) (i acc : ℕ) (hi : i ≤ n) (hacc : acc < 2 ^ n) :
    gfMulAux n (mlsMask n taps) a b i acc < 2 ^ n ∧
    bitEl n taps (gfMulAux n (mlsMask n taps) a b i acc) =
      bitEl n taps acc * AdjoinRoot.root _ ^ i + bitEl n taps a * bitEl n taps (b % 2 ^ i) := by
  induction i generalizing acc with
  | zero =>
    refine ⟨hacc, ?_⟩
    have : bitEl n taps (b % 2 ^ 0) = 0 := by
      unfold bitEl
      rw [pow_zero, Nat.mod_one, bitPoly_zero, map_zero]
    rw [this, pow_zero, mul_one, mul_zero, add_zero]
    rfl
  | succ i ih =>
    obtain ⟨d1, d2⟩ := gfDouble_spec n taps hn hn' htaps acc hacc
    have hmod : bitEl n taps (b % 2 ^ (i + 1)) =
        bitEl n taps (b % 2 ^ i) + if b.testBit i then AdjoinRoot.root _ ^ i else 0 := by
      unfold bitEl
      rw [bitPoly_mod_succ b i (by omega), map_add]
      congr 1
      split_ifs
      · rw [map_pow, AdjoinRoot.mk_X]
      · rw [map_zero]
    simp only [gfMulAux, strictly_eq]
    rw [hmod]
    split_ifs with h
    · obtain ⟨e1, e2⟩ := ih (gfDouble n (mlsMask n taps) acc ^^^ a) (by omega) (Nat.xor_lt_two_pow d1 ha)
      refine ⟨e1, ?_⟩
      have : bitEl n taps (gfDouble n (mlsMask n taps) acc ^^^ a) = AdjoinRoot.root _ * bitEl n taps acc + bitEl n taps a := by
        rw [← d2]
        unfold bitEl
        rw [bitPoly_xor, map_add]
      rw [e2, this]
      ring
    · obtain ⟨e1, e2⟩ := ih (gfDouble n (mlsMask n taps) acc) (by omega) d1
      refine ⟨e1, ?_⟩
      rw [e2, d2]
      ring

theorem gfMul_spec (a b : ℕ) (ha : a < 2 ^ n) (hb : b < 2 ^ n) :
    gfMul n (mlsMask n taps) a b < 2 ^ n ∧
    bitEl n taps (gfMul n (mlsMask n taps) a b) = bitEl n taps a * bitEl n taps b := by
  obtain ⟨h1, h2⟩ := gfMulAux_spec n taps hn hn' htaps a b ha n 0 le_rfl (by positivity)
  refine ⟨h1, ?_⟩
  unfold gfMul
  rw [h2, Nat.mod_eq_of_lt hb]
  have : bitEl n taps 0 = 0 := by unfold bitEl; rw [bitPoly_zero, map_zero]
  rw [this, zero_mul, zero_add]

theorem gfPow_spec (fuel b e acc : ℕ) (hb : b < 2 ^ n) (hacc : acc < 2 ^ n) (he : e < 2 ^ fuel) :
    gfPow n (mlsMask n taps) fuel b e acc < 2 ^ n ∧
    bitEl n taps (gfPow n (mlsMask n taps) fuel b e acc) = bitEl n taps acc * bitEl n taps b ^ e := by
  induction fuel generalizing b e acc with
  | zero =>
    have : e = 0 := by simpa using he
    subst this
    exact ⟨hacc, by simp [gfPow]⟩
  | succ fuel ih =>
    obtain ⟨b1, b2⟩ := gfMul_spec n taps hn hn' htaps b b hb hb
    obtain ⟨a1, a2⟩ := gfMul_spec n taps hn hn' htaps acc b hacc hb
    have he' : e / 2 < 2 ^ fuel := by rw [pow_succ] at he; omega
    simp only [gfPow, strictly_eq]
    split_ifs with h
    · obtain ⟨h1, h2⟩ := ih (gfMul n (mlsMask n taps) b b) (e / 2) (gfMul n (mlsMask n taps) acc b) b1 a1 he'
      refine ⟨h1, ?_⟩
      rw [h2, a2, b2, mul_assoc, ← pow_two, ← pow_mul, ← pow_succ']
      congr 2
      omega
    · obtain ⟨h1, h2⟩ := ih (gfMul n (mlsMask n taps) b b) (e / 2) acc b1 hacc he'
      refine ⟨h1, ?_⟩
      rw [h2, b2, ← pow_two, ← pow_mul]
      congr 2
      omega

theorem bitEl_injective (a b : ℕ) (ha : a < 2 ^ n) (hb : b < 2 ^ n) (h : bitEl n taps a = bitEl n taps b) : a = b := by
  have hm := mlsPoly_monic n hn taps htaps
  have hdeg : (mlsPoly n taps).degree = n := by
    rw [degree_eq_natDegree hm.ne_zero, mlsPoly_natDegree n hn taps htaps]
  have h0 : bitPoly (a ^^^ b) = 0 := by
    apply eq_zero_of_dvd_of_degree_lt (p := mlsPoly n taps)
    · rw [← AdjoinRoot.mk_eq_zero, bitPoly_xor, map_add]
      have h' : AdjoinRoot.mk (mlsPoly n taps) (bitPoly a) = AdjoinRoot.mk (mlsPoly n taps) (bitPoly b) := h
      rw [h', ← map_add, CharTwo.add_self_eq_zero, map_zero]
    · rw [hdeg]
      exact bitPoly_degree n _ (Nat.xor_lt_two_pow ha hb)
  have hbits : ∀ j, (a ^^^ b).testBit j = false := by
    intro j
    rcases Nat.lt_or_ge j n with hj | hj
    · have hc := congrArg (fun q => q.coeff j) h0
      unfold bitPoly at hc
      simp only [finsetSum_coeff, coeff_zero] at hc
      rw [Finset.sum_eq_single j] at hc
      · by_contra hne
        rw [Bool.not_eq_false] at hne
        rw [if_pos hne, coeff_X_pow_self] at hc
        exact one_ne_zero hc
      · intro i _ hij
        split_ifs
        · rw [coeff_X_pow, if_neg hij.symm]
        · rw [coeff_zero]
      · intro hmem
        exact absurd (Finset.mem_range.2 (by omega)) hmem
    · exact Nat.testBit_lt_two_pow (lt_of_lt_of_le (Nat.xor_lt_two_pow ha hb) (Nat.pow_le_pow_right (by norm_num) hj))
  apply Nat.eq_of_testBit_eq
  intro j
  have := hbits j
  rw [Nat.testBit_xor] at this
  simpa using this

/-- if the powers computed with bits say so, the root has order `2 ^ n - 1` -/
theorem orderOf_root (factors : List ℕ) (hf : factors.prod = 2 ^ n - 1) (hprime : ∀ q ∈ factors, q.Prime)
    (hn2 : 2 ≤ n)
    (h1 : gfPow n (mlsMask n taps) 32 2 (2 ^ n - 1) 1 = 1)
    (h2 : ∀ q ∈ factors, gfPow n (mlsMask n taps) 32 2 ((2 ^ n - 1) / q) 1 ≠ 1) :
    orderOf (AdjoinRoot.root (mlsPoly n taps)) = 2 ^ n - 1 := by
  have h4 : 2 ^ 2 ≤ 2 ^ n := Nat.pow_le_pow_right (by norm_num) hn2
  have hmax : 2 ^ n ≤ 2 ^ 32 := Nat.pow_le_pow_right (by norm_num) hn'
  have hx : bitEl n taps 2 = AdjoinRoot.root (mlsPoly n taps) := by
    unfold bitEl
    have := bitPoly_two_pow 1 (by norm_num)
    rw [pow_one, pow_one] at this
    rw [this, AdjoinRoot.mk_X]
  have hone : bitEl n taps 1 = 1 := by
    unfold bitEl
    rw [bitPoly_one, map_one]
  have hpow : ∀ e, e < 2 ^ 32 → bitEl n taps (gfPow n (mlsMask n taps) 32 2 e 1) = AdjoinRoot.root (mlsPoly n taps) ^ e := by
    intro e he
    have := (gfPow_spec n taps hn hn' htaps 32 2 e 1 (by omega) (by omega) he).2
    rw [this, hone, one_mul, hx]
  apply orderOf_eq_of_pow_and_pow_div_prime (by omega)
  · rw [← hpow _ (by omega), h1, hone]
  · intro q hq hdvd hc
    have hmem : q ∈ factors := by
      rw [← hf] at hdvd
      obtain ⟨f, hfm, hqf⟩ := (Nat.Prime.prime hq).dvd_prod_iff.1 hdvd
      rwa [(Nat.prime_dvd_prime_iff_eq hq (hprime f hfm)).1 hqf]
    have hlt : (2 ^ n - 1) / q < 2 ^ 32 := lt_of_le_of_lt (Nat.div_le_self _ _) (by omega)
    have hg := (gfPow_spec n taps hn hn' htaps 32 2 ((2 ^ n - 1) / q) 1 (by omega) (by omega) hlt).1
    rw [← hpow _ hlt, ← hone] at hc
    exact h2 q hmem (bitEl_injective n taps hn hn' htaps _ _ hg (by omega) hc)

end

/-! ### the taps of scipy -/

/-- the prime factors of `2 ^ n - 1` -/
def mersenneFactors : ℕ → List ℕ
  | 2 => [3] | 3 => [7] | 4 => [3, 5] | 5 => [31] | 6 => [3, 3, 7] | 7 => [127] | 8 => [3, 5, 17]
  | 9 => [7, 73] | 10 => [3, 11, 31] | 11 => [23, 89] | 12 => [3, 3, 5, 7, 13] | 13 => [8191]
  | 14 => [3, 43, 127] | 15 => [7, 31, 151] | 16 => [3, 5, 17, 257] | 17 => [131071]
  | 18 => [3, 3, 3, 7, 19, 73] | 19 => [524287] | 20 => [3, 5, 5, 11, 31, 41] | 21 => [7, 7, 127, 337]
  | 22 => [3, 23, 89, 683] | 23 => [47, 178481] | 24 => [3, 3, 5, 7, 13, 17, 241] | 25 => [31, 601, 1801]
  | 26 => [3, 2731, 8191] | 27 => [7, 73, 262657] | 28 => [3, 5, 29, 43, 113, 127] | 29 => [233, 1103, 2089]
  | 30 => [3, 3, 7, 11, 31, 151, 331] | 31 => [2147483647] | 32 => [3, 5, 17, 257, 65537]
  | _ => []

theorem mersenne31_prime : Nat.Prime 2147483647 :=
  lucas_lehmer_sufficiency 31 (by norm_num) (by norm_num)

theorem mersenneFactors_prime (n : ℕ) (h2 : 2 ≤ n) (h32 : n ≤ 32) : ∀ q ∈ mersenneFactors n, q.Prime := by
  have h31 := mersenne31_prime
  interval_cases n <;> simp only [mersenneFactors, List.mem_cons, List.not_mem_nil, or_false, forall_eq_or_imp, forall_eq] <;>
    first | exact h31 | norm_num

theorem mersenneFactors_prod (n : ℕ) (h2 : 2 ≤ n) (h32 : n ≤ 32) : (mersenneFactors n).prod = 2 ^ n - 1 := by
  interval_cases n <;> simp [mersenneFactors]

theorem mlsTaps_lt (n : ℕ) (h2 : 2 ≤ n) (h32 : n ≤ 32) : ∀ t ∈ mlsTaps n, t < n := by
  interval_cases n <;> decide

/-- the powers for every register size -/
def mlsCheck (n : ℕ) : Bool :=
  gfPow n (mlsMask n (mlsTaps n)) 32 2 (2 ^ n - 1) 1 == 1 &&
  (mersenneFactors n).all fun q => gfPow n (mlsMask n (mlsTaps n)) 32 2 ((2 ^ n - 1) / q) 1 != 1

theorem mlsCheck_true (n : ℕ) (h2 : 2 ≤ n) (h32 : n ≤ 32) : mlsCheck n = true := by
  interval_cases n <;> decide +kernel

theorem orderOf_mls (n : ℕ) (h2 : 2 ≤ n) (h32 : n ≤ 32) : orderOf (AdjoinRoot.root (mlsPoly n (mlsTaps n))) = 2 ^ n - 1 := by
  have h := mlsCheck_true n h2 h32
  unfold mlsCheck at h
  rw [Bool.and_eq_true, beq_iff_eq, List.all_eq_true] at h
  refine orderOf_root n (mlsTaps n) (by omega) h32 (mlsTaps_lt n h2 h32) (mersenneFactors n) (mersenneFactors_prod n h2 h32)
    (mersenneFactors_prime n h2 h32) h2 h.1 ?_
  intro q hq
  have := h.2 q hq
  simpa using this

end SweepDesign
