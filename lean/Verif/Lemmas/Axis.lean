import Verif.Model.Axis
import Verif.Lemmas.Round

/-! # Facts about `linspace`, `npDiff`, `npMin` and `Axis.array` -/

set_option linter.unusedSectionVars false
set_option linter.unnecessarySeqFocus false

namespace SweepDesign
open Spec

section Lin
variable {K : Type} [Field K]

theorem linspace_length (a b : K) (n : ℕ) : (linspace a b n).length = n := by
  unfold linspace
  dsimp only
  split_ifs <;> simp

end Lin

section
variable {K : Type} [Field K] [LinearOrder K] [IsStrictOrderedRing K]

theorem linspace_getElem (a b : K) (n i : ℕ) (h : i < (linspace a b n).length) :
    (linspace a b n)[i] = a + i * ((b - a) / ((n : K) - 1)) := by
  have hi : i < n := by rwa [linspace_length] at h
  by_cases hn : n ≤ 1
  · have h1 : n = 1 := by omega
    have h0 : i = 0 := by omega
    subst h1 h0
    simp [linspace]
  · have h2 : (1 : K) < n := by exact_mod_cast (by omega : 1 < n)
    simp only [linspace, hn, if_false, List.getElem_map, List.getElem_range]
    split_ifs with h3
    · have h4 : (i : K) = n - 1 := by rw [← h3]; push_cast; ring
      rw [h4]
      have : (n : K) - 1 ≠ 0 := by linarith
      field_simp
      ring
    · ring

theorem linspace_one (a b : K) : linspace a b 1 = [a] := by simp [linspace]

theorem evenlySpaced_linspace (a b : K) (n : ℕ) :
    EvenlySpaced (linspace a b n) a ((b - a) / ((n : K) - 1)) n :=
  ⟨linspace_length a b n, fun i h => linspace_getElem a b n i h⟩


theorem Spec.EvenlySpaced.ext {l m : List K} {a d : K} {n : ℕ} (h1 : EvenlySpaced l a d n) (h2 : EvenlySpaced m a d n) :
    l = m := by
  apply List.ext_getElem (h1.1.trans h2.1.symm)
  intro i hi hj
  rw [h1.2 i hi, h2.2 i hj]

theorem Spec.EvenlySpaced.pairwise_lt {l : List K} {a d : K} {n : ℕ} (h : EvenlySpaced l a d n) (hd : 0 < d) :
    l.Pairwise (· < ·) := by
  rw [List.pairwise_iff_getElem]
  intro i j hi hj hij
  rw [h.2 i hi, h.2 j hj]
  have : (i : K) < j := by exact_mod_cast hij
  nlinarith

theorem Spec.EvenlySpaced.pairwise_gt {l : List K} {a d : K} {n : ℕ} (h : EvenlySpaced l a d n) (hd : d < 0) :
    l.Pairwise (· > ·) := by
  rw [List.pairwise_iff_getElem]
  intro i j hi hj hij
  rw [h.2 i hi, h.2 j hj]
  have : (i : K) < j := by exact_mod_cast hij
  nlinarith


theorem npDiff_length {V : Type} [Sub V] (l : List V) : (npDiff l).length = l.length - 1 := by
  simp [npDiff]


theorem npDiff_getElem {V : Type} [Sub V] (l : List V) (i : ℕ) (h : i < (npDiff l).length)
    (h1 : i + 1 < l.length) : (npDiff l)[i] = l[i + 1] - l[i] := by
  simp [npDiff]


theorem npMin_replicate (d : K) (n : ℕ) : npMin (List.replicate (n + 1) d) = .ok d := by
  simp only [List.replicate_succ, npMin]
  congr 1
  induction n with
  | zero => rfl
  | succ n ih => simp only [List.replicate_succ, List.foldl_cons, min_self, ih]


theorem Spec.EvenlySpaced.npDiff_eq {l : List K} {a d : K} {n : ℕ} (h : EvenlySpaced l a d n) :
    npDiff l = List.replicate (n - 1) d := by
  apply List.ext_getElem
  · rw [npDiff_length, h.1, List.length_replicate]
  · intro i h1 h2
    have h3 : i + 1 < l.length := by rw [npDiff_length] at h1; omega
    rw [npDiff_getElem l i h1 h3, h.2 _ h3, h.2 i (by omega), List.getElem_replicate]
    push_cast
    ring


theorem Spec.EvenlySpaced.actualSample {l : List K} {a d : K} {n : ℕ} (h : EvenlySpaced l a d n) (hn : 2 ≤ n) :
    getActualSample l = .ok d := by
  unfold getActualSample
  rw [h.npDiff_eq, show n - 1 = (n - 2) + 1 by omega, npMin_replicate]


theorem Spec.EvenlySpaced.head {l : List K} {a d : K} {n : ℕ} (h : EvenlySpaced l a d n) (hn : 1 ≤ n) :
    l.head? = some a := by
  have h0 : 0 < l.length := by rw [h.1]; omega
  rw [List.head?_eq_getElem?, List.getElem?_eq_getElem h0, h.2 0 h0]
  simp


theorem Spec.EvenlySpaced.last {l : List K} {a d : K} {n : ℕ} (h : EvenlySpaced l a d n) (hn : 1 ≤ n) :
    l.getLast? = some (a + ((n : K) - 1) * d) := by
  have h0 : l.length - 1 < l.length := by rw [h.1]; omega
  rw [List.getLast?_eq_getElem?, List.getElem?_eq_getElem h0, h.2 _ h0, h.1]
  rw [Nat.cast_sub hn]
  simp

end

section
variable {K : Type} [Field K] [LinearOrder K] [IsStrictOrderedRing K] [FloorRing K]

/-- number of gaps of an axis -/
def Axis.steps (a : Axis K) : ℕ := (pyRound |(a.stop - a.start) / a.sample|).toNat

/-- length of one gap (zero for a one-point axis) -/
def Axis.step (a : Axis K) : K := (a.stop - a.start) / a.steps

theorem Axis.steps_cast (a : Axis K) : (a.steps : ℤ) = pyRound |(a.stop - a.start) / a.sample| :=
  Int.toNat_of_nonneg (pyRound_nonneg (abs_nonneg _))

theorem Axis.steps_eq_iff (a : Axis K) (n : ℕ) :
    a.steps = n ↔ NearestEven |(a.stop - a.start) / a.sample| (n : ℤ) := by
  rw [← pyRound_eq_iff, ← a.steps_cast]
  exact_mod_cast Iff.rfl

theorem Axis.array_eq (a : Axis K) (h : a.sample ≠ 0) :
    a.array = .ok (linspace a.start a.stop (a.steps + 1)) := by
  simp [Axis.array, h, Axis.steps]

theorem Axis.array_zero (a : Axis K) (h : a.sample = 0) : a.array = .error .zeroDivision := by
  simp [Axis.array, h]

theorem Axis.size_eq (a : Axis K) (h : a.sample ≠ 0) : a.size = .ok (a.steps + 1) := by
  simp [Axis.size, a.array_eq h, Except.map, linspace_length]

theorem Axis.size_zero (a : Axis K) (h : a.sample = 0) : a.size = .error .zeroDivision := by
  simp [Axis.size, a.array_zero h, Except.map]

theorem Axis.size_ok_iff (a : Axis K) (n : ℕ) : a.size = .ok n ↔ a.sample ≠ 0 ∧ n = a.steps + 1 := by
  by_cases h : a.sample = 0
  · simp [a.size_zero h, h]
  · simp [a.size_eq h, h, eq_comm]

theorem Axis.array_ok_iff (a : Axis K) (l : List K) :
    a.array = .ok l ↔ a.sample ≠ 0 ∧ l = linspace a.start a.stop (a.steps + 1) := by
  by_cases h : a.sample = 0
  · simp [a.array_zero h, h]
  · simp [a.array_eq h, h, eq_comm]

theorem Axis.array_spaced {a : Axis K} {l : List K} (h : a.array = .ok l) :
    EvenlySpaced l a.start a.step (a.steps + 1) := by
  obtain ⟨-, rfl⟩ := (a.array_ok_iff l).1 h
  have := evenlySpaced_linspace a.start a.stop (a.steps + 1)
  simpa [Axis.step] using this

theorem Axis.size_of_array {a : Axis K} {l : List K} (h : a.array = .ok l) : a.size = .ok l.length := by
  simp [Axis.size, h, Except.map]

/-- An axis `a, a + d, ...` described by its ends and a sample that rounds to the right count reproduces the array. -/
theorem spaced_array_of_steps {x : List K} {a d s : K} {n : ℕ} (hx : EvenlySpaced x a d n) (hn : 1 ≤ n) (hs : s ≠ 0)
    (h : (Axis.steps ⟨a, a + ((n : K) - 1) * d, s⟩) + 1 = n) :
    (⟨a, a + ((n : K) - 1) * d, s⟩ : Axis K).array = .ok x := by
  have ha := Axis.array_eq (⟨a, a + ((n : K) - 1) * d, s⟩ : Axis K) hs
  rw [h] at ha
  rw [ha]
  have hsp := Axis.array_spaced ha
  rw [h] at hsp
  rcases Nat.lt_or_ge n 2 with h2 | h2
  · have h1 : n = 1 := by omega
    subst h1
    congr 1
    apply List.ext_getElem
    · rw [linspace_length, hx.1]
    · intro i hi hj
      have : i = 0 := by rw [hx.1] at hj; omega
      subst this
      rw [hsp.2 0 hi, hx.2 0 hj]
      simp
  · have hstep : Axis.step (⟨a, a + ((n : K) - 1) * d, s⟩ : Axis K) = d := by
      unfold Axis.step
      have h3 : ((Axis.steps ⟨a, a + ((n : K) - 1) * d, s⟩ : ℕ) : K) = n - 1 := by
        rw [eq_sub_iff_add_eq]; exact_mod_cast h
      rw [h3]
      have : (n : K) - 1 ≠ 0 := by
        have : (1 : K) < n := by exact_mod_cast h2
        linarith
      field_simp
      ring
    rw [hstep] at hsp
    exact congrArg _ (hsp.ext hx)

theorem pyRound_pos_of_one_le {q : K} (h : 1 ≤ q) : 0 < pyRound q := by
  have := abs_le.1 (abs_sub_pyRound_le q)
  have h1 : (0 : K) < pyRound q := by linarith
  exact_mod_cast h1

theorem roundStep_ok {d : K} (hd : 0 < d) : ∃ s, roundStep d = .ok s ∧ 0 < s ∧ RoundedStep d s := by
  by_cases h : d < 1
  · have hp : 0 < pyRound (1 / d) := pyRound_pos_of_one_le (by rw [le_div_iff₀ hd]; linarith)
    refine ⟨1 / (pyRound (1 / d) : K), ?_, ?_, Or.inl ⟨h, _, pyRound_spec _, rfl⟩⟩
    · simp [roundStep, h, hd.ne', -one_div, hp.ne']
    · have : (0 : K) < pyRound (1 / d) := by exact_mod_cast hp
      positivity
  · have hp : 0 < pyRound d := pyRound_pos_of_one_le (by linarith)
    refine ⟨(pyRound d : K), ?_, ?_, Or.inr ⟨by linarith, _, pyRound_spec _, rfl⟩⟩
    · simp [roundStep, h]
    · exact_mod_cast hp

theorem RoundedStep.unique {d s t : K} (h1 : RoundedStep d s) (h2 : RoundedStep d t) : s = t := by
  rcases h1 with ⟨a, k, hk, rfl⟩ | ⟨a, k, hk, rfl⟩ <;> rcases h2 with ⟨b, m, hm, rfl⟩ | ⟨b, m, hm, rfl⟩
  · rw [nearestEven_unique hk hm]
  · linarith
  · linarith
  · rw [nearestEven_unique hk hm]

theorem Axis.ext' {x y : Axis K} (h1 : x.start = y.start) (h2 : x.stop = y.stop) (h3 : x.sample = y.sample) :
    x = y := by
  cases x; cases y; simp_all

end

end SweepDesign
