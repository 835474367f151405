import Verif.Lemmas.Relation
import Verif.Model.Aprior

set_option linter.unusedSectionVars false

/-!
# Running sums and products, masks of increasing arrays
-/

namespace SweepDesign

section
variable {V : Type}

theorem cumsumFrom_step [AddCommMonoid V] (acc : V) (l : List V) (i : ℕ) (h : i < l.length) :
    (acc :: cumsumFrom acc l)[i + 1]'(by simp [cumsumFrom_length]; omega) =
      (acc :: cumsumFrom acc l)[i]'(by simp [cumsumFrom_length]; omega) + l[i] := by
  induction l generalizing acc i with
  | nil => simp at h
  | cons a l ih =>
    cases i with
    | zero => simp [cumsumFrom]
    | succ i => simpa [cumsumFrom] using ih (acc + a) i (by simpa using h)

theorem cumsum_cons [AddCommMonoid V] (a : V) (l : List V) : cumsum (a :: l) = a :: cumsumFrom a l := by
  simp [cumsum, cumsumFrom]

theorem cumsumFrom_append [AddCommMonoid V] (acc d : V) (l m : List V) :
    cumsumFrom acc (l ++ m) = cumsumFrom acc l ++ cumsumFrom ((acc :: cumsumFrom acc l).getLastD d) m := by
  induction l generalizing acc with
  | nil => simp [cumsumFrom]
  | cons a l ih => simp [cumsumFrom, ih (acc + a)]

theorem cumprodFrom_length [Mul V] (acc : V) (l : List V) : (cumprodFrom acc l).length = l.length := by
  induction l generalizing acc with
  | nil => rfl
  | cons a l ih => simp [cumprodFrom, ih]

theorem cumprodFrom_step [CommMonoid V] (acc : V) (l : List V) (i : ℕ) (h : i < l.length) :
    (acc :: cumprodFrom acc l)[i + 1]'(by simp [cumprodFrom_length]; omega) =
      (acc :: cumprodFrom acc l)[i]'(by simp [cumprodFrom_length]; omega) * l[i] := by
  induction l generalizing acc i with
  | nil => simp at h
  | cons a l ih =>
    cases i with
    | zero => simp [cumprodFrom]
    | succ i => simpa [cumprodFrom] using ih (acc * a) i (by simpa using h)

theorem cumprod_cons_one [CommMonoid V] (l : List V) : cumprod (1 :: l) = 1 :: cumprodFrom 1 l := by
  simp [cumprod, cumprodFrom]

end

section
variable {K : Type} [Field K] [LinearOrder K] [IsStrictOrderedRing K]

theorem cumsumFrom_monotone (acc : K) (l : List K) (h : ∀ v ∈ l, 0 ≤ v) : (acc :: cumsumFrom acc l).Pairwise (· ≤ ·) := by
  induction l generalizing acc with
  | nil => simp [cumsumFrom]
  | cons a l ih =>
    have h1 := ih (acc + a) fun v hv => h v (List.mem_cons_of_mem _ hv)
    have h2 := h a (by simp)
    rw [cumsumFrom]
    refine List.pairwise_cons.2 ⟨fun v hv => ?_, h1⟩
    rcases List.mem_cons.1 hv with rfl | hv
    · linarith
    · have := (List.pairwise_cons.1 h1).1 v hv
      linarith

theorem cumprodFrom_nonneg (acc : K) (l : List K) (ha : 0 ≤ acc) (h : ∀ v ∈ l, 0 ≤ v) : ∀ v ∈ cumprodFrom acc l, 0 ≤ v := by
  induction l generalizing acc with
  | nil => simp [cumprodFrom]
  | cons a l ih =>
    have h0 : 0 ≤ acc * a := mul_nonneg ha (h a (by simp))
    intro v hv
    rw [cumprodFrom] at hv
    rcases List.mem_cons.1 hv with rfl | hv
    · exact h0
    · exact ih (acc * a) h0 (fun v hv => h v (List.mem_cons_of_mem _ hv)) v hv

theorem npDiv_ok {a b l : List K} (h : npDiv a b = .ok l) : (∀ v ∈ b, v ≠ 0) ∧ l = List.zipWith (· / ·) a b := by
  unfold npDiv at h
  split at h
  · simp at h
  · rename_i hz
    simp only [Except.ok.injEq] at h
    exact ⟨fun v hv e => hz (e ▸ hv), h.symm⟩

theorem npDiv_eq {a b : List K} (h : ∀ v ∈ b, v ≠ 0) : npDiv a b = .ok (List.zipWith (· / ·) a b) := by
  unfold npDiv
  exact if_neg fun hz => h 0 hz rfl

/-- masks of an increasing array are a front and a back part -/
theorem mask_increasing (c : K) : ∀ (f a : List K), f.length = a.length → f.Pairwise (· < ·) →
    ∃ m, m ≤ f.length ∧ (f.filter fun v => v ≤ c) = f.take m ∧ maskBy (fun v => v ≤ c) f a = a.take m ∧
      maskBy (fun v => decide (c < v)) f a = a.drop m ∧ ∀ i (h : i < f.length), f[i] ≤ c ↔ i < m
  | [], [], _, _ => ⟨0, by simp, by simp, by simp [maskBy], by simp [maskBy], by simp⟩
  | x :: f, y :: a, hl, hp => by
    obtain ⟨hx, hp⟩ := List.pairwise_cons.1 hp
    by_cases hc : x ≤ c
    · obtain ⟨m, h0, h1, h2, h3, h4⟩ := mask_increasing c f a (by simpa using hl) hp
      refine ⟨m + 1, by simpa using h0, ?_, ?_, ?_, ?_⟩
      · simp [hc, h1]
      · simpa [maskBy, hc] using h2
      · simpa [maskBy, not_lt.2 hc] using h3
      · intro i hi
        cases i with
        | zero => simp [hc]
        | succ i => simpa using h4 i (by simpa using hi)
    · have hall : ∀ v ∈ x :: f, ¬ v ≤ c := by
        intro v hv
        rcases List.mem_cons.1 hv with rfl | hv
        · exact hc
        · have := hx v hv; intro h; exact hc (this.le.trans h)
      have hz : ∀ q ∈ (x :: f).zip (y :: a), ¬ q.1 ≤ c := fun q hq => hall _ (List.of_mem_zip hq).1
      refine ⟨0, by simp, ?_, ?_, ?_, ?_⟩
      · rw [List.take_zero, List.filter_eq_nil_iff]
        intro v hv
        simpa using hall v hv
      · rw [maskBy, List.take_zero, List.map_eq_nil_iff, List.filter_eq_nil_iff]
        intro q hq
        simpa using hz q hq
      · rw [maskBy, List.drop_zero, List.filter_eq_self.2 (fun q hq => by simpa using hz q hq)]
        rw [← List.unzip_snd, List.unzip_zip hl]
      · intro i hi
        have := hall _ (List.getElem_mem hi)
        simp only [Nat.not_lt_zero, iff_false]
        exact this

end

end SweepDesign
