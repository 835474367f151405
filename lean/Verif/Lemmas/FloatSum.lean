import Verif.Lemmas.Float
import Mathlib.Algebra.BigOperators.Ring.Finset
import Mathlib.Algebra.Order.BigOperators.Group.List
import Mathlib.Algebra.Order.BigOperators.Group.Finset

/-!
# Error bounds for sums and products with rounding
-/

set_option linter.unusedSectionVars false

namespace SweepDesign

open Spec

section
variable {K : Type} [Field K] [LinearOrder K] [IsStrictOrderedRing K] [FloorRing K]

/-- `b` was computed for `a` with at most `k` roundings on the way; `S` is the sum of the absolute values of the terms of `a` -/
structure Close (u : K) (k : ℕ) (a b S : K) : Prop where
  bound : |a| ≤ S
  err : |b - a| ≤ ((1 + u) ^ k - 1) * S

variable {fl : K → K} {u : K}

theorem pow_mono (hu : 0 ≤ u) {k m : ℕ} (h : k ≤ m) : (1 + u) ^ k ≤ (1 + u) ^ m :=
  pow_le_pow_right₀ (by linarith) h

theorem one_le_pow_u (hu : 0 ≤ u) (k : ℕ) : 1 ≤ (1 + u) ^ k := one_le_pow₀ (by linarith)

theorem Close.nonneg {k : ℕ} {a b S : K} (h : Close u k a b S) : 0 ≤ S := (abs_nonneg _).trans h.bound

theorem Close.exact (hu : 0 ≤ u) (k : ℕ) (a : K) : Close u k a a |a| :=
  ⟨le_rfl, by rw [sub_self, abs_zero]; exact mul_nonneg (by linarith [one_le_pow_u hu k]) (abs_nonneg _)⟩

theorem Close.mono (hu : 0 ≤ u) {k m : ℕ} {a b S T : K} (h : Close u k a b S) (hk : k ≤ m) (hS : S ≤ T) : Close u m a b T :=
  ⟨h.bound.trans hS, h.err.trans (mul_le_mul (by linarith [pow_mono hu hk]) hS h.nonneg (by linarith [one_le_pow_u hu m]))⟩

theorem Close.size {k : ℕ} {a b S : K} (h : Close u k a b S) : |b| ≤ (1 + u) ^ k * S := by
  have e : b = (b - a) + a := by ring
  rw [e]
  have := abs_add_le (b - a) a
  have := h.bound
  have := h.err
  linarith

theorem Close.round (hfl : RelErr fl u) {k : ℕ} {a b S : K} (h : Close u k a b S) : Close u (k + 1) a (fl b) S := by
  refine ⟨h.bound, ?_⟩
  have hu := relErr_nonneg hfl
  have e : fl b - a = (fl b - b) + (b - a) := by ring
  rw [e]
  have h1 := abs_add_le (fl b - b) (b - a)
  have h2 := hfl b
  have h3 := mul_le_mul_of_nonneg_left h.size hu
  have h4 := h.err
  have e2 : ((1 + u) ^ (k + 1) - 1) * S = u * ((1 + u) ^ k * S) + ((1 + u) ^ k - 1) * S := by rw [pow_succ]; ring
  linarith

theorem Close.add (hu : 0 ≤ u) {k m : ℕ} {a b S a' b' S' : K} (h : Close u k a b S) (h' : Close u m a' b' S') :
    Close u (max k m) (a + a') (b + b') (S + S') := by
  have g := h.mono hu (le_max_left k m) le_rfl
  have g' := h'.mono hu (le_max_right k m) le_rfl
  refine ⟨(abs_add_le _ _).trans (add_le_add g.bound g'.bound), ?_⟩
  have e : b + b' - (a + a') = (b - a) + (b' - a') := by ring
  rw [e, mul_add]
  exact (abs_add_le _ _).trans (add_le_add g.err g'.err)

theorem Close.mul (hu : 0 ≤ u) {k m : ℕ} {a b S a' b' S' : K} (h : Close u k a b S) (h' : Close u m a' b' S') :
    Close u (k + m) (a * a') (b * b') (S * S') := by
  refine ⟨by rw [abs_mul]; exact mul_le_mul h.bound h'.bound (abs_nonneg _) h.nonneg, ?_⟩
  have e : b * b' - a * a' = (b - a) * b' + a * (b' - a') := by ring
  rw [e]
  have h1 : |(b - a) * b'| ≤ (((1 + u) ^ k - 1) * S) * ((1 + u) ^ m * S') := by
    rw [abs_mul]
    exact mul_le_mul h.err h'.size (abs_nonneg _) (mul_nonneg (by linarith [one_le_pow_u hu k]) h.nonneg)
  have h2 : |a * (b' - a')| ≤ S * (((1 + u) ^ m - 1) * S') := by
    rw [abs_mul]
    exact mul_le_mul h.bound h'.err (abs_nonneg _) h.nonneg
  have e2 : ((1 + u) ^ (k + m) - 1) * (S * S') =
      (((1 + u) ^ k - 1) * S) * ((1 + u) ^ m * S') + S * (((1 + u) ^ m - 1) * S') := by rw [pow_add]; ring
  rw [e2]
  exact (abs_add_le _ _).trans (add_le_add h1 h2)

theorem Close.scale {k : ℕ} {a b S : K} (h : Close u k a b S) (c : K) : Close u k (a * c) (b * c) (S * |c|) := by
  refine ⟨by rw [abs_mul]; exact mul_le_mul_of_nonneg_right h.bound (abs_nonneg _), ?_⟩
  rw [← sub_mul, abs_mul, ← mul_assoc]
  exact mul_le_mul_of_nonneg_right h.err (abs_nonneg _)

theorem Close.div {k : ℕ} {a b S : K} (h : Close u k a b S) (c : K) : Close u k (a / c) (b / c) (S / |c|) := by
  have := h.scale c⁻¹
  rwa [abs_inv, ← div_eq_mul_inv, ← div_eq_mul_inv, ← div_eq_mul_inv] at this

/-- `k` roundings make an error of at most `2 k u`, as long as this is at most 1 -/
theorem gamma_bound (hu : 0 ≤ u) (k : ℕ) (hk : 2 * (k * u) ≤ 1) : (1 + u) ^ k - 1 ≤ 2 * (k * u) := by
  have key : ∀ m : ℕ, m ≤ k → (1 + u) ^ m * (1 - m * u) ≤ 1 := by
    intro m
    induction m with
    | zero => intro _; simp
    | succ m ih =>
      intro hm
      have h1 := ih (by omega)
      have h2 : (1 + u) * (1 - (m + 1 : ℕ) * u) ≤ 1 - m * u := by
        have e : (1 + u) * (1 - ((m + 1 : ℕ) : K) * u) = 1 - m * u - (m + 1) * (u * u) := by push_cast; ring
        rw [e]
        have : 0 ≤ ((m : K) + 1) * (u * u) := by positivity
        linarith
      calc (1 + u) ^ (m + 1) * (1 - (m + 1 : ℕ) * u) = (1 + u) ^ m * ((1 + u) * (1 - (m + 1 : ℕ) * u)) := by
            rw [pow_succ]; ring
        _ ≤ (1 + u) ^ m * (1 - m * u) := mul_le_mul_of_nonneg_left h2 (by positivity)
        _ ≤ 1 := h1
  have h := key k le_rfl
  set x : K := k * u with hx
  have hx0 : 0 ≤ x := by positivity
  have hpos : 0 < 1 - x := by linarith
  have h1 : (1 + u) ^ k ≤ 1 / (1 - x) := by rw [le_div_iff₀ hpos]; exact h
  have h2 : 1 / (1 - x) ≤ 1 + 2 * x := by
    rw [div_le_iff₀ hpos]
    nlinarith
  linarith

/-! ## Sums in any order -/

/-- `s` is a sum of the terms, computed with rounded additions in some order and with some placement of the parentheses -/
inductive Spec.Summed (fl : K → K) : List K → K → Prop
  | one (a : K) : Summed fl [a] a
  | add {l m : List K} {s t : K} : Summed fl l s → Summed fl m t → Summed fl (l ++ m) (fl (s + t))
  | perm {l m : List K} {s : K} : l.Perm m → Summed fl l s → Summed fl m s

theorem Summed.pos {l : List K} {s : K} (h : Summed fl l s) : 0 < l.length := by
  induction h with
  | one a => simp
  | add _ _ h1 h2 => rw [List.length_append]; omega
  | perm hp _ h => rw [← hp.length_eq]; exact h

/-- how far a computed sum is from the exact sum of the exact terms `f`, when the terms themselves went through `k` roundings -/
theorem Summed.close (hfl : RelErr fl u) (k : ℕ) {l : List K} {s : K} (h : Summed fl l s) :
    ∀ (f S : List K), f.length = l.length → S.length = l.length →
      (∀ i (h1 : i < f.length) (h2 : i < l.length) (h3 : i < S.length), Close u k f[i] l[i] S[i]) →
      Close u (k + (l.length - 1)) f.sum s S.sum := by
  have hu := relErr_nonneg hfl
  -- carried as triples, so that permutations act on all three lists
  suffices H : ∀ w : List (K × K × K), w.map (fun p => p.2.1) = l → (∀ p ∈ w, Close u k p.1 p.2.1 p.2.2) →
      Close u (k + (l.length - 1)) (w.map fun p => p.1).sum s (w.map fun p => p.2.2).sum by
    intro f S hf hS hc
    have hz : ∀ {i}, i < l.length → i < (l.zip S).length := fun h => by simp; omega
    have e1 : (f.zip (l.zip S)).map (fun p => p.1) = f := List.map_fst_zip (by simp; omega)
    have e2 : (f.zip (l.zip S)).map (fun p => p.2) = l.zip S := List.map_snd_zip (by simp; omega)
    have e3 : (f.zip (l.zip S)).map (fun p => p.2.1) = l := by
      have : (f.zip (l.zip S)).map (fun p => p.2.1) = ((f.zip (l.zip S)).map (fun p => p.2)).map Prod.fst := by
        rw [List.map_map]; rfl
      rw [this, e2, List.map_fst_zip (by omega)]
    have e4 : (f.zip (l.zip S)).map (fun p => p.2.2) = S := by
      have : (f.zip (l.zip S)).map (fun p => p.2.2) = ((f.zip (l.zip S)).map (fun p => p.2)).map Prod.snd := by
        rw [List.map_map]; rfl
      rw [this, e2, List.map_snd_zip (by omega)]
    have := H (f.zip (l.zip S)) e3 (by
      intro p hp
      obtain ⟨i, hi, rfl⟩ := List.mem_iff_getElem.1 hp
      simp only [List.length_zip] at hi
      simp only [List.getElem_zip]
      exact hc i (by omega) (by omega) (by omega))
    rwa [e1, e4] at this
  induction h with
  | one a =>
    intro w hw hc
    obtain ⟨p, rfl, rfl⟩ := List.map_eq_singleton_iff.1 hw
    simpa using hc p (by simp)
  | @add l m s t h1 h2 ih1 ih2 =>
    intro w hw hc
    obtain ⟨w1, w2, rfl, e1, e2⟩ := List.map_eq_append_iff.1 hw
    have c1 := ih1 w1 e1 fun p hp => hc p (by simp [hp])
    have c2 := ih2 w2 e2 fun p hp => hc p (by simp [hp])
    have p1 := Summed.pos h1
    have p2 := Summed.pos h2
    have := (c1.add hu c2).round hfl
    rw [List.map_append, List.map_append, List.sum_append, List.sum_append]
    refine this.mono hu ?_ le_rfl
    rw [List.length_append]
    omega
  | @perm l m s hp h ih =>
    intro w hw hc
    subst hw
    obtain ⟨w', hw', e⟩ : ∃ w' : List (K × K × K), w'.Perm w ∧ w'.map (fun p => p.2.1) = l := by
      have : ∀ {l m : List K}, l.Perm m → ∀ w : List (K × K × K), w.map (fun p => p.2.1) = m →
          ∃ w' : List (K × K × K), w'.Perm w ∧ w'.map (fun p => p.2.1) = l := by
        intro l m hp
        induction hp with
        | nil => intro w hw; exact ⟨w, List.Perm.refl _, hw⟩
        | cons x _ ih =>
          intro w hw
          obtain ⟨p, w1, rfl, rfl, e⟩ := List.map_eq_cons_iff.1 hw
          obtain ⟨w', h1, h2⟩ := ih w1 e
          exact ⟨p :: w', h1.cons p, by simp [h2]⟩
        | swap x y l' =>
          intro w hw
          obtain ⟨p, w1, rfl, hp, e⟩ := List.map_eq_cons_iff.1 hw
          obtain ⟨q, w2, rfl, hq, e'⟩ := List.map_eq_cons_iff.1 e
          exact ⟨q :: p :: w2, List.Perm.swap _ _ _, by rw [List.map_cons, List.map_cons, hp, hq, e']⟩
        | trans _ _ ih1 ih2 =>
          intro w hw
          obtain ⟨w1, a1, b1⟩ := ih2 w hw
          obtain ⟨w2, a2, b2⟩ := ih1 w1 b1
          exact ⟨w2, a2.trans a1, b2⟩
      exact this hp w rfl
    have := ih w' e fun p hp => hc p (hw'.subset hp)
    rw [(hw'.map _).sum_eq, (hw'.map _).sum_eq] at this
    rwa [hp.length_eq] at this

end

end SweepDesign
