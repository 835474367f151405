import Verif.Spec.Relation
import Verif.Lemmas.Axis
import Mathlib.Algebra.BigOperators.Group.Finset.Basic
import Mathlib.Algebra.BigOperators.Fin
import Mathlib.Algebra.BigOperators.Intervals
import Mathlib.Tactic.Abel
import Mathlib.Tactic.Module
import Mathlib.Tactic.LinearCombination

/-! # Facts about the constructor, masks, prefix sums and argmin -/

set_option linter.unusedSectionVars false
set_option linter.unnecessarySeqFocus false

namespace SweepDesign
open Spec

section ExceptLemmas
variable {α β : Type}

@[simp] theorem except_pure (a : α) : (pure a : Except Err α) = .ok a := rfl
@[simp] theorem except_bind_ok (a : α) (f : α → Except Err β) : ((Except.ok a : Except Err α) >>= f) = f a := rfl
@[simp] theorem except_bind_error (e : Err) (f : α → Except Err β) :
    ((Except.error e : Except Err α) >>= f) = .error e := rfl

theorem except_bind_eq_ok {x : Except Err α} {f : α → Except Err β} {b : β} :
    (x >>= f) = .ok b ↔ ∃ a, x = .ok a ∧ f a = .ok b := by
  cases x <;> simp

end ExceptLemmas

section
variable {K : Type} [Field K] [LinearOrder K] [IsStrictOrderedRing K] [FloorRing K] {V : Type}

theorem make_eq (x : Axis K) (y : List V) (h : x.sample ≠ 0) :
    Rel.make x y = if x.steps + 1 = y.length then .ok ⟨x, y⟩ else .error (.notEqual (x.steps + 1) y.length) := by
  simp only [Rel.make, x.size_eq h, except_bind_ok, except_pure, ne_eq, ite_not]

theorem make_ok_iff (x : Axis K) (y : List V) (q : Rel K V) :
    Rel.make x y = .ok q ↔ x.size = .ok y.length ∧ q = ⟨x, y⟩ := by
  unfold Rel.make
  cases hx : x.size with
  | error e => simp
  | ok n =>
    by_cases h : n = y.length
    · subst h; simp [eq_comm]
    · simp [h]

theorem make_ok {x : Axis K} {y : List V} (h : x.size = .ok y.length) : Rel.make x y = .ok ⟨x, y⟩ :=
  (make_ok_iff _ _ _).2 ⟨h, rfl⟩

theorem make_error_iff (x : Axis K) (y : List V) (h : x.sample ≠ 0) :
    (∃ m n, Rel.make x y = .error (.notEqual m n)) ↔ x.size ≠ .ok y.length := by
  rw [make_eq x y h, x.size_eq h]
  split_ifs with h1 <;> simp [h1]

theorem balanced_of_make {x : Axis K} {y : List V} {q : Rel K V} (h : Rel.make x y = .ok q) : Balanced q := by
  obtain ⟨h1, rfl⟩ := (make_ok_iff _ _ _).1 h
  exact h1

theorem balanced_iff (r : Rel K V) : Balanced r ↔ r.x.sample ≠ 0 ∧ r.y.length = r.x.steps + 1 :=
  r.x.size_ok_iff _

theorem getData_ok_iff (r : Rel K V) (lx : List K) (ly : List V) :
    r.getData = .ok (lx, ly) ↔ r.x.array = .ok lx ∧ ly = r.y ∧ lx.length = ly.length := by
  unfold Rel.getData
  cases ha : r.x.array with
  | error e => simp [Axis.size, ha, Except.map]
  | ok a =>
    simp only [Axis.size_of_array ha, except_bind_ok, except_pure, ne_eq, ite_not]
    by_cases h : a.length = r.y.length
    · simp only [h, if_true, Except.ok.injEq, Prod.mk.injEq]
      constructor
      · rintro ⟨rfl, rfl⟩; exact ⟨rfl, rfl, h⟩
      · rintro ⟨rfl, rfl, h2⟩; exact ⟨rfl, rfl⟩
    · simp only [h, if_false, reduceCtorEq, false_iff, not_and, Except.ok.injEq]
      rintro rfl rfl h3
      exact h h3

theorem balanced_iff_getData (r : Rel K V) : Balanced r ↔ ∃ d, r.getData = .ok d := by
  constructor
  · intro h
    obtain ⟨hs, hl⟩ := (balanced_iff r).1 h
    exact ⟨(linspace r.x.start r.x.stop (r.x.steps + 1), r.y),
      (getData_ok_iff _ _ _).2 ⟨r.x.array_eq hs, rfl, by rw [linspace_length, hl]⟩⟩
  · rintro ⟨⟨lx, ly⟩, h⟩
    obtain ⟨h1, rfl, h2⟩ := (getData_ok_iff _ _ _).1 h
    unfold Balanced
    rw [Axis.size_of_array h1, h2]

end

section Mask
variable {α β : Type}

theorem maskSelect_self (p : α → Bool) (l : List α) : maskSelect (l.map p) l = .ok (l.filter p) := by
  simp only [maskSelect, List.length_map, if_true]
  congr 1
  induction l with
  | nil => rfl
  | cons a l ih =>
    simp only [List.map_cons, List.zip_cons_cons, List.filterMap_cons, List.filter_cons]
    cases p a <;> simp [ih]

theorem maskSelect_snd (p : α → Bool) (l : List α) (y : List β) (h : l.length = y.length) :
    maskSelect (l.map p) y = .ok (((l.zip y).filter fun q => p q.1).map Prod.snd) := by
  simp only [maskSelect, List.length_map, h, if_true]
  congr 1
  induction l generalizing y with
  | nil => simp
  | cons a l ih =>
    cases y with
    | nil => simp at h
    | cons b y =>
      simp only [List.map_cons, List.zip_cons_cons, List.filterMap_cons, List.filter_cons]
      have := ih y (by simpa using h)
      cases p a <;> simp [this]

theorem filter_zip_fst (p : α → Bool) (l : List α) (y : List β) (h : l.length = y.length) :
    ((l.zip y).filter fun q => p q.1).map Prod.fst = l.filter p := by
  induction l generalizing y with
  | nil => simp
  | cons a l ih =>
    cases y with
    | nil => simp at h
    | cons b y =>
      simp only [List.zip_cons_cons, List.filter_cons]
      have := ih y (by simpa using h)
      cases p a <;> simp [this]

/-- a predicate that is downward closed along the list selects a prefix -/
theorem filter_prefix (p : α → Bool) (l : List α)
    (h : ∀ j k (hj : j < l.length) (hk : k < l.length), j < k → p l[k] = true → p l[j] = true) :
    ∃ k, l.filter p = l.take k := by
  induction l with
  | nil => exact ⟨0, rfl⟩
  | cons a l ih =>
    have h' : ∀ j k (hj : j < l.length) (hk : k < l.length), j < k → p l[k] = true → p l[j] = true := by
      intro j k hj hk hjk hp
      exact h (j + 1) (k + 1) (by simpa using hj) (by simpa using hk) (by omega) (by simpa using hp)
    cases ha : p a with
    | true =>
      obtain ⟨k, hk⟩ := ih h'
      exact ⟨k + 1, by simp [ha, hk]⟩
    | false =>
      refine ⟨0, ?_⟩
      simp only [List.take_zero, List.filter_eq_nil_iff]
      intro b hb hpb
      rw [List.mem_iff_getElem] at hb
      obtain ⟨i, hi, rfl⟩ := hb
      cases i with
      | zero => simp [ha] at hpb
      | succ i =>
        have := h 0 (i + 1) (by simp) hi (by omega) hpb
        simp [ha] at this

/-- a predicate that is convex along the list selects a contiguous block -/
theorem filter_convex (p : α → Bool) (l : List α)
    (h : ∀ i j k (hi : i < l.length) (hj : j < l.length) (hk : k < l.length), i < j → j < k →
      p l[i] = true → p l[k] = true → p l[j] = true) :
    ∃ i k, l.filter p = (l.drop i).take k := by
  induction l with
  | nil => exact ⟨0, 0, rfl⟩
  | cons a l ih =>
    cases ha : p a with
    | false =>
      obtain ⟨i, k, hik⟩ := ih (by
        intro i j k hi hj hk hij hjk hp hq
        exact h (i + 1) (j + 1) (k + 1) (by simpa using hi) (by simpa using hj) (by simpa using hk) (by omega)
          (by omega) (by simpa using hp) (by simpa using hq))
      exact ⟨i + 1, k, by simp [ha, hik]⟩
    | true =>
      obtain ⟨k, hk⟩ := filter_prefix p (a :: l) (by
        intro j k hj hk hjk hp
        cases j with
        | zero => simpa using ha
        | succ j => exact h 0 (j + 1) k (by simp) hj hk (by omega) hjk (by simpa using ha) hp)
      exact ⟨0, k, by simpa using hk⟩

end Mask

section Argmin
variable {K : Type} [LinearOrder K]

theorem argminFrom_spec (l : List K) (i0 : ℕ) (best : ℕ × K) (full : List K)
    (hfull : full.drop i0 = l) (hb : best.1 < i0) (hb' : full[best.1]? = some best.2)
    (hmin : ∀ j, j < i0 → ∀ v, full[j]? = some v → best.2 ≤ v ∧ (j < best.1 → best.2 < v)) :
    ∃ v, full[argminFrom i0 best l]? = some v ∧
      ∀ j w, full[j]? = some w → v ≤ w ∧ (j < argminFrom i0 best l → v < w) := by
  induction l generalizing i0 best with
  | nil =>
    refine ⟨best.2, hb', ?_⟩
    intro j w hw
    have : full.length ≤ i0 := by simpa using hfull
    have hj : j < full.length := by
      by_contra hc
      rw [List.getElem?_eq_none (by omega)] at hw
      simp at hw
    exact hmin j (by omega) w hw
  | cons a l ih =>
    have hlt : i0 < full.length := by
      by_contra hc
      rw [List.drop_eq_nil_of_le (by omega)] at hfull
      simp at hfull
    have ha : full[i0]? = some a := by
      have := congrArg List.head? hfull
      simpa [List.head?_drop] using this
    have hd : full.drop (i0 + 1) = l := by
      have := congrArg List.tail hfull
      simpa [List.tail_drop] using this
    unfold argminFrom
    split_ifs with h
    · apply ih (i0 + 1) (i0, a) hd (by simp) ha
      intro j hj v hv
      rcases Nat.lt_or_ge j i0 with h1 | h1
      · have := (hmin j h1 v hv).1
        exact ⟨(lt_of_lt_of_le h this).le, fun _ => lt_of_lt_of_le h this⟩
      · have : j = i0 := by omega
        subst this
        rw [ha] at hv
        simp only [Option.some.injEq] at hv
        subst hv
        exact ⟨le_refl _, fun h => absurd h (lt_irrefl _)⟩
    · apply ih (i0 + 1) best hd (by omega) hb'
      intro j hj v hv
      rcases Nat.lt_or_ge j i0 with h1 | h1
      · exact hmin j h1 v hv
      · have : j = i0 := by omega
        subst this
        rw [ha] at hv
        simp only [Option.some.injEq] at hv
        subst hv
        exact ⟨not_lt.1 h, fun h2 => absurd h2 (by omega)⟩

theorem argmin_spec (l : List K) (h : l ≠ []) :
    ∃ i v, argmin l = .ok i ∧ l[i]? = some v ∧ ∀ j w, l[j]? = some w → v ≤ w ∧ (j < i → v < w) := by
  match l, h with
  | a :: l, _ =>
    obtain ⟨v, h1, h2⟩ := argminFrom_spec l 1 (0, a) (a :: l) (by simp) (by simp) (by simp) (by
      intro j hj v hv
      have : j = 0 := by omega
      subst this
      simp at hv
      subst hv
      exact ⟨le_refl _, fun h => absurd h (lt_irrefl _)⟩)
    exact ⟨_, v, rfl, h1, h2⟩

end Argmin

section Sums
variable {V : Type}

theorem cumsumFrom_length [Add V] (acc : V) (l : List V) : (cumsumFrom acc l).length = l.length := by
  induction l generalizing acc with
  | nil => rfl
  | cons a l ih => simp [cumsumFrom, ih]

theorem cumsumFrom_getElem [AddCommMonoid V] (acc : V) (l : List V) (i : ℕ) (h : i < (cumsumFrom acc l).length)
    (f : ℕ → V) (hf : ∀ j (hj : j < l.length), l[j] = f j) :
    (cumsumFrom acc l)[i] = acc + ∑ j ∈ Finset.range (i + 1), f j := by
  induction l generalizing acc i f with
  | nil => simp [cumsumFrom] at h
  | cons a l ih =>
    have h0 : a = f 0 := hf 0 (by simp)
    cases i with
    | zero => simp [cumsumFrom, h0]
    | succ i =>
      simp only [cumsumFrom, List.getElem_cons_succ]
      rw [ih (acc + a) i _ (fun j => f (j + 1)) (fun j hj => hf (j + 1) (by simpa using hj))]
      rw [Finset.sum_range_succ' f (i + 1), h0]
      abel

theorem cumTrapz_length [Field V] (y : List V) : (cumTrapz y).length = y.length - 1 := by
  simp [cumTrapz, cumsum, cumsumFrom_length]

theorem cumTrapz_getElem [Field V] (y : List V) (i : ℕ) (h : i < (cumTrapz y).length) :
    (cumTrapz y)[i] = ∑ j ∈ Finset.range (i + 1), (at0 y j + at0 y (j + 1)) / 2 := by
  unfold cumTrapz cumsum at *
  rw [cumsumFrom_getElem _ _ _ _ (fun j => (at0 y j + at0 y (j + 1)) / 2), zero_add]
  intro j hj
  have hj' : j + 1 < y.length := by simp at hj; omega
  simp only [List.getElem_zipWith, List.getElem_tail, at0, List.getD_eq_getElem?_getD,
    List.getElem?_eq_getElem hj', List.getElem?_eq_getElem (by omega : j < y.length), Option.getD_some]
  ring

theorem getD_lt (l : List V) (i : ℕ) (d : V) (h : i < l.length) : l.getD i d = l[i] := by
  simp [h]

theorem at0_eq [Zero V] (l : List V) (i : ℕ) (h : i < l.length) : at0 l i = l[i] := by
  simp [at0, h]

theorem at0_of_le [Zero V] (l : List V) (i : ℕ) (h : l.length ≤ i) : at0 l i = 0 := by
  simp [at0, h]

end Sums

section More
variable {K : Type} [Field K] [LinearOrder K] [IsStrictOrderedRing K] [FloorRing K]

section
variable {V : Type} [Field V] [Algebra K V]

theorem selectData_balanced {r q : Rel K V} {a b : Option K} (h : r.selectData a b = .ok q) : Balanced q := by
  simp only [Rel.selectData, except_bind_eq_ok] at h
  obtain ⟨l, -, m, -, h⟩ := h
  split at h
  · simp only [except_bind_eq_ok] at h
    obtain ⟨y, -, h⟩ := h
    exact balanced_of_make h
  · simp at h

theorem interpAxis_balanced {r q : Rel K V} {x : Axis K} (h : r.interpAxis x = .ok q) : Balanced q := by
  simp only [Rel.interpAxis, except_bind_eq_ok] at h
  obtain ⟨_, -, _, -, _, -, h⟩ := h
  exact balanced_of_make h

end

variable {V : Type}

theorem steps_of_subrange (r : Axis K) (k : ℕ) (hk : k ≤ r.steps) (s e : K)
    (he : e - s = k * r.step) : Axis.steps (⟨s, e, r.sample⟩ : Axis K) = k := by
  rw [Axis.steps_eq_iff]
  have hN := (r.steps_eq_iff _).1 rfl
  simp only [he]
  rcases Nat.eq_zero_or_pos r.steps with h0 | h0
  · have : k = 0 := by omega
    subst this
    simp only [Nat.cast_zero, zero_mul, zero_div, abs_zero]
    rw [← pyRound_eq_iff]
    simpa using pyRound_intCast (K := K) 0
  · have hNK : (0 : K) < r.steps := by exact_mod_cast h0
    have e1 : |(k : K) * r.step / r.sample| = (k / r.steps) * |(r.stop - r.start) / r.sample| := by
      unfold Axis.step
      rw [show (k : K) * ((r.stop - r.start) / r.steps) / r.sample
          = (k / r.steps) * ((r.stop - r.start) / r.sample) by ring, abs_mul, abs_of_nonneg]
      positivity
    rw [e1]
    set q := |(r.stop - r.start) / r.sample| with hq
    rcases hk.lt_or_eq with h | h
    · have hlt : (k : K) / r.steps < 1 := by
        rw [div_lt_one hNK]; exact_mod_cast h
      have hnn : (0 : K) ≤ (k : K) / r.steps := by positivity
      rw [← pyRound_eq_iff]
      apply pyRound_of_lt
      have : (k : K) / r.steps * q - ((k : ℤ) : K) = (k / r.steps) * (q - ((r.steps : ℤ) : K)) := by
        push_cast
        field_simp
      rw [this, abs_mul, abs_of_nonneg hnn]
      have hb := hN.1
      have : (k : K) / r.steps * |q - ((r.steps : ℤ) : K)| ≤ k / r.steps * (1 / 2) :=
        mul_le_mul_of_nonneg_left hb hnn
      linarith
    · rw [h, div_self hNK.ne', one_mul]
      exact hN

/-- acceptance of an axis whose range shrank by one sample -/
theorem make_shrunk (r : Rel K V) (hb : Balanced r) (x : Axis K) (y : List V) (hxs : x.sample = r.x.sample)
    (hx : x.stop - x.start = r.x.stop - r.x.start - r.x.sample) (hy : y.length + 1 = r.y.length) :
    (0 < (r.x.stop - r.x.start) / r.x.sample → 2 ≤ r.y.length →
      (¬ HalfInteger ((r.x.stop - r.x.start) / r.x.sample) → Rel.make x y = .ok ⟨x, y⟩) ∧
      (HalfInteger ((r.x.stop - r.x.start) / r.x.sample) → ∃ m n, Rel.make x y = .error (.notEqual m n))) ∧
    (r.y.length = 1 → ∃ m n, Rel.make x y = .error (.notEqual m n)) ∧
    ((r.x.stop - r.x.start) / r.x.sample < 0 → ∃ m n, Rel.make x y = .error (.notEqual m n)) := by
  obtain ⟨hs, hl⟩ := (balanced_iff r).1 hb
  have hs' : x.sample ≠ 0 := by rw [hxs]; exact hs
  have hmk := make_eq x y hs'
  have hq : (x.stop - x.start) / x.sample = (r.x.stop - r.x.start) / r.x.sample - 1 := by
    rw [hxs, hx, sub_div (r.x.stop - r.x.start), div_self hs]
  set q := (r.x.stop - r.x.start) / r.x.sample with hqd
  have hN := r.x.steps_cast
  have hM := x.steps_cast
  rw [← hqd] at hN
  rw [hq] at hM
  refine ⟨?_, ?_, ?_⟩
  · intro hpos h2
    rw [abs_of_pos hpos] at hN
    have hM' : (x.steps : ℤ) = pyRound q - 1 ↔ ¬ HalfInteger q := by
      rcases le_or_gt 1 q with h1 | h1
      · rw [hM, abs_of_nonneg (by linarith)]
        exact pyRound_sub_one_iff q
      · -- q < 1 but rounds to at least one
        have hge : 1 ≤ pyRound q := by rw [← hN]; omega
        have hlt : |q - pyRound q| ≤ 1 / 2 := abs_sub_pyRound_le q
        have hgeK : (1 : K) ≤ pyRound q := by exact_mod_cast hge
        rw [abs_of_nonpos (by linarith)] at hlt
        have hq2 : (1 : K) / 2 ≤ q := by linarith
        have hne : q ≠ 1 / 2 := by
          intro e
          have : pyRound q = 0 := by
            have := pyRound_half (K := K) 0
            simpa [e] using this
          omega
        have hgt : (1 : K) / 2 < q := lt_of_le_of_ne hq2 (Ne.symm hne)
        have h1' : pyRound q = 1 := by
          apply pyRound_of_lt
          push_cast
          rw [abs_of_nonpos (by linarith)]
          linarith
        have h0' : pyRound |q - 1| = 0 := by
          apply pyRound_of_lt
          push_cast
          rw [sub_zero, abs_abs, abs_of_nonpos (by linarith)]
          linarith
        have hnh : ¬ HalfInteger q := by
          rintro ⟨n, hn⟩
          have e1 : (0 : K) < n := by linarith
          have e2 : (n : K) < 1 := by linarith
          have e3 : (0 : ℤ) < n := by exact_mod_cast e1
          have e4 : n < 1 := by exact_mod_cast e2
          omega
        rw [hM, h0', h1']
        simp [hnh]
    constructor
    · intro hnh
      rw [hmk, if_pos]
      have := hM'.2 hnh
      omega
    · intro hh
      rw [hmk, if_neg]
      · exact ⟨_, _, rfl⟩
      · intro e
        have : (x.steps : ℤ) = pyRound q - 1 := by omega
        exact hM'.1 this hh
  · intro h1
    rw [hmk, if_neg (by omega)]
    exact ⟨_, _, rfl⟩
  · intro hneg
    rw [hmk, if_neg]
    · exact ⟨_, _, rfl⟩
    · intro e
      have e1 : pyRound |q - 1| = pyRound |q| - 1 := by omega
      have a1 := abs_le.1 (abs_sub_pyRound_le |q - 1|)
      have a2 := abs_le.1 (abs_sub_pyRound_le |q|)
      rw [e1] at a1
      rw [abs_of_neg (by linarith : q - 1 < 0)] at a1
      rw [abs_of_neg hneg] at a1 a2
      push_cast at a1
      linarith

end More

end SweepDesign
