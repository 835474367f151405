import Verif.Lemmas.Float
import Verif.Lemmas.Spectral
import Verif.Props.FourierSum

/-!
# C92–C94: axes in double precision
-/

set_option linter.unusedSectionVars false

namespace SweepDesign

open Spec

section
variable {K : Type} [Field K] [LinearOrder K] [IsStrictOrderedRing K] [FloorRing K]

/-! ## C92: the points of an axis -/

/-- **C92** Without rounding the rounded model is the exact one. -/
theorem C92_exact (a : Axis K) : a.flArray id = a.array := by
  unfold Axis.flArray Axis.array
  by_cases hs : a.sample = 0
  · simp [hs]
  · rw [if_neg hs, if_neg hs]
    congr 1
    simp only [id]
    unfold flLinspace linspace
    simp only [id]
    split
    · rfl
    · refine List.map_congr_left fun i hi => ?_
      split
      · rfl
      · split
        · rename_i h
          rw [h, mul_zero, zero_add, add_eq_right]
          rcases div_eq_zero_iff.1 h with h | h
          · rw [h, mul_zero]
          · rw [h, div_zero, zero_mul]
        · rfl

/-- **C92** If the quotient `|end - start| / |sample|` is near enough to the integer `k`, the rounded computation counts
`k + 1` points, like the exact one. -/
theorem C92_size (fl : K → K) (u : K) (hfl : RelErr fl u) (a : Axis K) (hs : a.sample ≠ 0) (k : ℕ)
    (hk : |(|(a.stop - a.start) / a.sample| - k)| + |(a.stop - a.start) / a.sample| * (2 * u + u ^ 2) < 1 / 2) :
    ∃ l, a.flArray fl = .ok l ∧ l.length = k + 1 ∧ a.size = .ok (k + 1) := by
  obtain ⟨d1, h1, e1⟩ := hfl.factor (a.stop - a.start)
  obtain ⟨d2, h2, e2⟩ := hfl.factor (fl (a.stop - a.start) / a.sample)
  set q := (a.stop - a.start) / a.sample with hq
  have hQ : fl (fl (a.stop - a.start) / a.sample) = q * ((1 + d1) * (1 + d2)) := by
    rw [e2, e1, hq]; ring
  have hu := relErr_nonneg hfl
  have hdiff : |(|q * ((1 + d1) * (1 + d2))| - |q|)| ≤ |q| * (2 * u + u ^ 2) := by
    refine (abs_abs_sub_abs_le _ _).trans ?_
    have : q * ((1 + d1) * (1 + d2)) - q = q * ((1 + d1) * (1 + d2) - 1) := by ring
    rw [this, abs_mul]
    exact mul_le_mul_of_nonneg_left (two_factors h1 h2) (abs_nonneg _)
  have hround : pyRound |fl (fl (a.stop - a.start) / a.sample)| = (k : ℤ) := by
    apply pyRound_of_near
    rw [hQ]
    have e : |q * ((1 + d1) * (1 + d2))| - ((k : ℤ) : K) =
        (|q * ((1 + d1) * (1 + d2))| - |q|) + (|q| - k) := by push_cast; ring
    rw [e]
    have := abs_add_le (|q * ((1 + d1) * (1 + d2))| - |q|) (|q| - k)
    linarith
  have hround' : pyRound |q| = (k : ℤ) := by
    apply pyRound_of_near
    have : 0 ≤ |q| * (2 * u + u ^ 2) := by positivity
    push_cast
    linarith
  refine ⟨_, by unfold Axis.flArray; rw [if_neg hs], ?_, ?_⟩
  · rw [flLinspace_length, hround]; simp
  · rw [Axis.size_eq _ hs]
    unfold Axis.steps
    rw [← hq, hround']
    simp

/-- **C92** The points of an axis in rounded arithmetic: the last is `end`, the first `start` (if `start` is a number the
arithmetic can represent), and each is within `8 u M` of its exact position, where `M` bounds `|start|` and `|end|`. -/
theorem C92_points (fl : K → K) (u : K) (hfl : RelErr fl u) (hu : u ≤ 1 / 100) (a : Axis K) (l : List K)
    (h : a.flArray fl = .ok l) (n : ℕ) (hn : 1 ≤ n) (hl : l.length = n + 1) (M : K) (h1 : |a.start| ≤ M) (h2 : |a.stop| ≤ M) :
    l.getLast? = some a.stop ∧ (fl a.start = a.start → l.head? = some a.start) ∧
    ∀ i (hi : i < l.length), |l[i] - (a.start + i * ((a.stop - a.start) / n))| ≤ 8 * u * M := by
  obtain ⟨hs, hla⟩ := flArray_ok h
  rw [hl] at hla
  have hu0 := relErr_nonneg hfl
  have hM : 0 ≤ M := (abs_nonneg _).trans h1
  have hnK : (0 : K) < n := by exact_mod_cast hn
  have hlast : ∀ (hi : n < l.length), l[n] = a.stop := by
    intro hi
    have : l[n] = (flLinspace fl a.start a.stop (n + 1))[n]'(by rw [flLinspace_length]; omega) := by
      simp only [← hla]
    rw [this]
    unfold flLinspace
    simp only [if_neg (show ¬ n + 1 ≤ 1 by omega), List.getElem_map, List.getElem_range, if_true]
  refine ⟨?_, ?_, ?_⟩
  · rw [List.getLast?_eq_getElem?, hl, Nat.add_sub_cancel, List.getElem?_eq_getElem (by omega), hlast]
  · intro hst
    rw [List.head?_eq_getElem?, List.getElem?_eq_getElem (by omega)]
    have : l[0] = (flLinspace fl a.start a.stop (n + 1))[0]'(by rw [flLinspace_length]; omega) := by
      simp only [← hla]
    rw [this]
    have h0 : fl 0 = 0 := by
      obtain ⟨d, -, e⟩ := hfl.factor (0 : K)
      rw [e, zero_mul]
    unfold flLinspace
    simp only [if_neg (show ¬ n + 1 ≤ 1 by omega), List.getElem_map, List.getElem_range,
      if_neg (show ¬ 0 + 1 = n + 1 by omega), Nat.cast_zero, zero_div, zero_mul, h0, zero_add, hst, ite_self]
  · intro i hi
    rcases Nat.lt_or_ge i n with hlt | hge
    · obtain ⟨d, e, hd, he, hv⟩ := flLinspace_getElem hfl hu a.start a.stop n i hlt (by rw [flLinspace_length]; omega)
      have : l[i] = (flLinspace fl a.start a.stop (n + 1))[i]'(by rw [flLinspace_length]; omega) := by
        simp only [← hla]
      rw [this, hv]
      set t := (i : K) * ((a.stop - a.start) / n) with ht
      have hi0 : (0 : K) ≤ i := Nat.cast_nonneg _
      have hin : (i : K) ≤ n := by exact_mod_cast hlt.le
      set c := (i : K) / n with hc
      have hc0 : 0 ≤ c := by positivity
      have hc1 : c ≤ 1 := by rw [hc, div_le_one hnK]; exact hin
      have htc : t = c * (a.stop - a.start) := by rw [ht, hc]; field_simp
      have hab := abs_sub a.stop a.start
      have htM : |t| ≤ 2 * M := by
        rw [htc, abs_mul, abs_of_nonneg hc0]
        calc c * |a.stop - a.start| ≤ 1 * |a.stop - a.start| := mul_le_mul_of_nonneg_right hc1 (abs_nonneg _)
          _ ≤ 2 * M := by linarith
      have hw : |a.start + t| ≤ M := by
        have e1 : a.start + t = (1 - c) * a.start + c * a.stop := by rw [htc]; ring
        rw [e1]
        calc |(1 - c) * a.start + c * a.stop| ≤ |(1 - c) * a.start| + |c * a.stop| := abs_add_le _ _
          _ = (1 - c) * |a.start| + c * |a.stop| := by
              rw [abs_mul, abs_mul, abs_of_nonneg hc0, abs_of_nonneg (by linarith : 0 ≤ 1 - c)]
          _ ≤ (1 - c) * M + c * M := by
              have := mul_le_mul_of_nonneg_left h1 (by linarith : 0 ≤ 1 - c)
              have := mul_le_mul_of_nonneg_left h2 hc0
              linarith
          _ = M := by ring
      have e2 : (a.start + t * (1 + d)) * (1 + e) - (a.start + t) = t * d * (1 + e) + (a.start + t) * e := by ring
      rw [e2]
      have he1 : |1 + e| ≤ 101 / 100 := by
        have := abs_le.1 he
        rw [abs_le]; constructor <;> linarith
      have hA : |t * d * (1 + e)| ≤ 2 * M * (31 / 10 * u) * (101 / 100) := by
        rw [abs_mul, abs_mul]
        apply mul_le_mul _ he1 (abs_nonneg _) (by positivity)
        exact mul_le_mul htM hd (abs_nonneg _) (by positivity)
      have hB : |(a.start + t) * e| ≤ M * u := by
        rw [abs_mul]
        exact mul_le_mul hw he (abs_nonneg _) hM
      have := abs_add_le (t * d * (1 + e)) ((a.start + t) * e)
      have huM : 0 ≤ u * M := mul_nonneg hu0 hM
      linarith
    · have : i = n := by omega
      subst this
      rw [hlast hi]
      have : a.start + (i : K) * ((a.stop - a.start) / i) = a.stop := by field_simp; ring
      rw [this, sub_self, abs_zero]
      positivity

/-- **C92** The points are strictly increasing as long as the spacing exceeds `16 u M`. -/
theorem C92_increasing (fl : K → K) (u : K) (hfl : RelErr fl u) (hu : u ≤ 1 / 100) (a : Axis K) (l : List K)
    (h : a.flArray fl = .ok l) (n : ℕ) (hn : 1 ≤ n) (hl : l.length = n + 1) (M : K) (h1 : |a.start| ≤ M) (h2 : |a.stop| ≤ M)
    (hgap : 16 * u * M < (a.stop - a.start) / n) : l.Pairwise (· < ·) := by
  obtain ⟨-, -, hp⟩ := C92_points fl u hfl hu a l h n hn hl M h1 h2
  have hM : 0 ≤ M := (abs_nonneg _).trans h1
  have hpos : 0 ≤ 16 * u * M := by have := relErr_nonneg hfl; positivity
  rw [List.pairwise_iff_getElem]
  intro i j hi hj hij
  have a1 := abs_le.1 (hp i hi)
  have a2 := abs_le.1 (hp j hj)
  have hd : (1 : K) ≤ j - i := by
    have : (i : K) + 1 ≤ j := by exact_mod_cast hij
    linarith
  have : (a.stop - a.start) / n ≤ ((j : K) - i) * ((a.stop - a.start) / n) := by
    calc (a.stop - a.start) / n = 1 * ((a.stop - a.start) / n) := by ring
      _ ≤ _ := mul_le_mul_of_nonneg_right hd (by linarith)
  have e : ((j : K) - i) * ((a.stop - a.start) / n) = j * ((a.stop - a.start) / n) - i * ((a.stop - a.start) / n) := by ring
  linarith [a1.1, a1.2, a2.1, a2.2]

/-! ## C93: the step of an array -/

theorem npMin_mem (l : List K) (h : l ≠ []) : ∃ m, npMin l = .ok m ∧ m ∈ l := by
  match l, h with
  | a :: l, h' =>
    refine ⟨_, rfl, ?_⟩
    clear h h'
    induction l generalizing a with
    | nil => simp
    | cons b l ih =>
      rw [List.foldl_cons]
      rcases le_total a b with hab | hab
      · rw [min_eq_left hab]
        rcases List.mem_cons.1 (ih a) with h | h
        · rw [h]; simp
        · exact List.mem_cons_of_mem _ (List.mem_cons_of_mem _ h)
      · rw [min_eq_right hab]
        rcases List.mem_cons.1 (ih b) with h | h
        · rw [h]; simp
        · exact List.mem_cons_of_mem _ (List.mem_cons_of_mem _ h)

/-- the measured step of noisy, nearly evenly spaced positions -/
theorem flActualSample_near {fl : K → K} {u : K} (hfl : RelErr fl u) (x : List K) (a e d : K) (hd : 0 ≤ d) (hx : 2 ≤ x.length)
    (hpos : ∀ i (hi : i < x.length), |x[i] - (a + i * d)| ≤ e) :
    ∃ dx, flActualSample fl x = .ok dx ∧ |dx - d| ≤ 2 * e + u * (d + 2 * e) := by
  have hne : (npDiff x).map fl ≠ [] := by
    intro h0
    have := congrArg List.length h0
    rw [List.length_map, npDiff_length] at this
    simp at this
    omega
  obtain ⟨m, h1, h2⟩ := npMin_mem _ hne
  refine ⟨m, h1, ?_⟩
  obtain ⟨v, hv, rfl⟩ := List.mem_map.1 h2
  obtain ⟨i, hi, rfl⟩ := List.getElem_of_mem hv
  have hi' : i + 1 < x.length := by rw [npDiff_length] at hi; omega
  have hval : (npDiff x)[i] = x[i + 1] - x[i] := by simp [npDiff]
  rw [hval]
  have p1 := abs_le.1 (hpos i (by omega))
  have p2 := abs_le.1 (hpos (i + 1) hi')
  push_cast at p2
  have hD : |x[i + 1] - x[i] - d| ≤ 2 * e := by
    rw [abs_le]
    constructor <;> linarith [p1.1, p1.2, p2.1, p2.2]
  have hDa : |x[i + 1] - x[i]| ≤ d + 2 * e := by
    have := abs_le.1 hD
    rw [abs_le]
    constructor <;> linarith [this.1, this.2]
  have hf := hfl (x[i + 1] - x[i])
  have hu := relErr_nonneg hfl
  have := mul_le_mul_of_nonneg_left hDa hu
  have e1 : fl (x[i + 1] - x[i]) - d = (fl (x[i + 1] - x[i]) - (x[i + 1] - x[i])) + (x[i + 1] - x[i] - d) := by ring
  rw [e1]
  have := abs_add_le (fl (x[i + 1] - x[i]) - (x[i + 1] - x[i])) (x[i + 1] - x[i] - d)
  linarith

theorem flAxisFromArray_eq {fl : K → K} {x : List K} {dx s : K} (hx : 2 ≤ x.length) (h1 : flActualSample fl x = .ok dx)
    (h2 : flRoundStep fl dx = .ok s) :
    flAxisFromArray fl x = .ok ⟨x[0], x[x.length - 1], s⟩ := by
  unfold flAxisFromArray
  rw [h1, except_bind_ok, h2, except_bind_ok, List.head?_eq_getElem?, List.getLast?_eq_getElem?,
    List.getElem?_eq_getElem (by omega), List.getElem?_eq_getElem (by omega)]
  rfl

/-- **C93** Positions that deviate by at most `e` from `a, a + 1/N, a + 2/N, ...`: if `e` and the rounding unit `u` are small
enough for `N`, the step of the axis is exactly the number `1/N` of the arithmetic, untouched by the noise. -/
theorem C93_reciprocal (fl : K → K) (u : K) (hfl : RelErr fl u) (x : List K) (a e : K) (N : ℕ) (hN : 2 ≤ N)
    (hx : 2 ≤ x.length) (hpos : ∀ i (hi : i < x.length), |x[i] - (a + i * (1 / N))| ≤ e)
    (hsmall : 8 * (N : K) ^ 2 * (2 * e + u * (1 / N + 2 * e)) ≤ 1) :
    flAxisFromArray fl x = .ok ⟨x[0], x[x.length - 1], fl (1 / N)⟩ := by
  have hNK : (2 : K) ≤ N := by exact_mod_cast hN
  have hN0 : (0 : K) < N := by linarith
  obtain ⟨dx, h1, h2⟩ := flActualSample_near hfl x a e (1 / N) (by positivity) hx hpos
  have he : 0 ≤ e := (abs_nonneg _).trans (hpos 0 (by omega))
  have hu := relErr_nonneg hfl
  set δ := 2 * e + u * (1 / N + 2 * e) with hδ
  have hδ0 : 0 ≤ δ := by positivity
  have hNδ : 16 * (N * δ) ≤ 1 := by
    have : 2 * (N * δ) ≤ N * (N * δ) := mul_le_mul_of_nonneg_right hNK (by positivity)
    have e1 : 8 * (N : K) ^ 2 * δ = 8 * (N * (N * δ)) := by ring
    rw [e1] at hsmall
    linarith
  have huN : 8 * (u * N) ≤ 1 := by
    have e1 : 8 * (N : K) ^ 2 * δ = 8 * (u * N) + 8 * (N : K) ^ 2 * (2 * e + u * (2 * e)) := by
      rw [hδ]; field_simp; ring
    have : 0 ≤ 8 * (N : K) ^ 2 * (2 * e + u * (2 * e)) := by positivity
    linarith
  have hd := abs_le.1 h2
  have hNdx : |N * dx - 1| ≤ N * δ := by
    have : (N : K) * dx - 1 = N * (dx - 1 / N) := by field_simp
    rw [this, abs_mul, abs_of_pos hN0]
    exact mul_le_mul_of_nonneg_left h2 hN0.le
  have hNdx' := abs_le.1 hNdx
  have hlow : 15 / 16 ≤ N * dx := by linarith [hNdx'.1]
  have hdx0 : 0 < dx := by
    by_contra hc
    have : N * dx ≤ 0 := mul_nonpos_of_nonneg_of_nonpos hN0.le (not_lt.1 hc)
    linarith
  have hdx1 : dx < 1 := by
    have : 2 * dx ≤ N * dx := mul_le_mul_of_nonneg_right hNK hdx0.le
    linarith [hNdx'.2]
  have hinv : |1 / dx - N| ≤ 2 / 15 := by
    have e1 : 1 / dx - N = (1 - N * dx) / dx := by field_simp
    rw [e1, abs_div, abs_of_pos hdx0, div_le_iff₀ hdx0, abs_sub_comm]
    have h3 : N * δ ≤ 2 / 15 * dx := by
      have h4 : N * (N * δ) ≤ N * (2 / 15 * dx) := by
        have e2 : 8 * (N : K) ^ 2 * δ = 8 * (N * (N * δ)) := by ring
        rw [e2] at hsmall
        linarith
      exact le_of_mul_le_mul_left h4 hN0
    linarith
  have hround : pyRound (fl (1 / dx)) = (N : ℤ) := by
    apply pyRound_of_near
    have hf := hfl (1 / dx)
    have hinv' := abs_le.1 hinv
    have hle : |1 / dx| ≤ N + 2 / 15 := by
      rw [abs_of_pos (by positivity)]; linarith [hinv'.2]
    have h5 : u * |1 / dx| ≤ u * (N + 2 / 15) := mul_le_mul_of_nonneg_left hle hu
    have h6 : u * (N + 2 / 15) ≤ 2 / 15 := by
      have : u * 2 ≤ u * N := mul_le_mul_of_nonneg_left hNK hu
      linarith
    have e1 : fl (1 / dx) - ((N : ℤ) : K) = (fl (1 / dx) - 1 / dx) + (1 / dx - N) := by push_cast; ring
    rw [e1]
    have := abs_add_le (fl (1 / dx) - 1 / dx) (1 / dx - N)
    linarith
  refine flAxisFromArray_eq hx h1 ?_
  unfold flRoundStep
  rw [if_pos hdx1, if_neg hdx0.ne', hround, if_neg (by exact_mod_cast (by omega : N ≠ 0))]
  simp

/-- **C93** The same for a whole step `D`. -/
theorem C93_whole (fl : K → K) (u : K) (hfl : RelErr fl u) (hone : fl 1 = 1) (x : List K) (a e : K) (D : ℕ) (hD : 1 ≤ D)
    (hx : 2 ≤ x.length) (hpos : ∀ i (hi : i < x.length), |x[i] - (a + i * D)| ≤ e)
    (hsmall : 8 * (2 * e + u * (D + 2 * e)) ≤ 1) :
    flAxisFromArray fl x = .ok ⟨x[0], x[x.length - 1], D⟩ := by
  have hDK : (1 : K) ≤ D := by exact_mod_cast hD
  obtain ⟨dx, h1, h2⟩ := flActualSample_near hfl x a e D (by positivity) hx hpos
  have he : 0 ≤ e := (abs_nonneg _).trans (hpos 0 (by omega))
  have hu := relErr_nonneg hfl
  set δ := 2 * e + u * (D + 2 * e) with hδ
  have hd := abs_le.1 h2
  have hu8 : 8 * u ≤ 1 := by
    have : u * 1 ≤ u * (D + 2 * e) := mul_le_mul_of_nonneg_left (by linarith) hu
    linarith
  refine flAxisFromArray_eq hx h1 ?_
  unfold flRoundStep
  by_cases hlt : dx < 1
  · have hD1 : D = 1 := by
      have : (D : K) < 2 := by linarith [hd.1]
      have : D < 2 := by exact_mod_cast this
      omega
    subst hD1
    have hdx0 : 7 / 8 ≤ dx := by push_cast at hd; linarith [hd.1]
    have hpos' : 0 < dx := by linarith
    have hround : pyRound (fl (1 / dx)) = (1 : ℤ) := by
      apply pyRound_of_near
      have hf := hfl (1 / dx)
      have hi1 : 1 / dx ≤ 8 / 7 := by rw [div_le_iff₀ hpos']; linarith
      have hi0 : 1 ≤ 1 / dx := by rw [le_div_iff₀ hpos']; linarith
      rw [abs_of_pos (by positivity : 0 < 1 / dx)] at hf
      have h5 : u * (1 / dx) ≤ u * (8 / 7) := mul_le_mul_of_nonneg_left hi1 hu
      have hf' := abs_le.1 hf
      rw [Int.cast_one, abs_lt]
      constructor <;> linarith [hf'.1, hf'.2]
    rw [if_pos hlt, if_neg hpos'.ne', hround, if_neg one_ne_zero]
    simp [hone]
  · rw [if_neg hlt]
    congr 1
    have hround : pyRound dx = (D : ℤ) := by
      apply pyRound_of_near
      push_cast
      rw [abs_lt]
      constructor <;> linarith [hd.1, hd.2]
    rw [hround]
    simp

/-- **C93** Under the conditions of `C93_reciprocal`, and if there are not more than `1 / (16 u)` positions, the axis has
as many points as there are positions: the constructor of a relation accepts the array. -/
theorem C93_accepted (fl : K → K) (u : K) (hfl : RelErr fl u) (x : List K) (a e : K) (N : ℕ) (hN : 2 ≤ N)
    (hx : 2 ≤ x.length) (hpos : ∀ i (hi : i < x.length), |x[i] - (a + i * (1 / N))| ≤ e)
    (hsmall : 8 * (N : K) ^ 2 * (2 * e + u * (1 / N + 2 * e)) ≤ 1) (hlen : 16 * u * x.length ≤ 1) :
    ∃ ax l, flAxisFromArray fl x = .ok ax ∧ ax.flArray fl = .ok l ∧ l.length = x.length := by
  rw [C93_reciprocal fl u hfl x a e N hN hx hpos hsmall]
  have hNK : (2 : K) ≤ N := by exact_mod_cast hN
  have hN0 : (0 : K) < N := by linarith
  have he : 0 ≤ e := (abs_nonneg _).trans (hpos 0 (by omega))
  have hu := relErr_nonneg hfl
  obtain ⟨n, hn⟩ : ∃ n, x.length = n + 1 := ⟨x.length - 1, by omega⟩
  have hn1 : (1 : K) ≤ n := by exact_mod_cast (by omega : 1 ≤ n)
  have hun : 16 * (u * n) + 16 * u ≤ 1 := by
    rw [hn] at hlen; push_cast at hlen; linarith
  have hun' : u ≤ u * n := by
    calc u = u * 1 := by ring
      _ ≤ u * n := mul_le_mul_of_nonneg_left hn1 hu
  have he16 : 16 * (2 * e * N) ≤ 1 := by
    have h1 : 8 * (N : K) ^ 2 * (2 * e) ≤ 1 := by
      have : 0 ≤ 8 * (N : K) ^ 2 * (u * (1 / N + 2 * e)) := by positivity
      linarith
    have h2 : 2 * (2 * e * N) ≤ N * (2 * e * N) := mul_le_mul_of_nonneg_right hNK (by positivity)
    have e1 : 8 * (N : K) ^ 2 * (2 * e) = 8 * (N * (2 * e * N)) := by ring
    linarith
  obtain ⟨d, hd, ed⟩ := hfl.factor (1 / (N : K))
  have hd' := abs_le.1 hd
  have hd1 : 31 / 32 ≤ 1 + d := by linarith [hd'.1]
  have hs : fl (1 / (N : K)) ≠ 0 := by
    rw [ed]
    have : (0 : K) < 1 / N * (1 + d) := mul_pos (by positivity) (by linarith)
    exact this.ne'
  set th := (N : K) * (x[x.length - 1] - x[0]) - n with hth
  have hth1 : |th| ≤ 2 * e * N := by
    have p1 := abs_le.1 (hpos 0 (by omega))
    have p2 := abs_le.1 (hpos (x.length - 1) (by omega))
    have ecast : ((x.length - 1 : ℕ) : K) = n := by rw [hn]; simp
    rw [ecast] at p2
    push_cast at p1
    have e1 : th = N * ((x[x.length - 1] - (a + n * (1 / N))) - (x[0] - (a + 0 * (1 / N)))) := by
      rw [hth]; field_simp; ring
    rw [e1, abs_mul, abs_of_pos hN0, mul_comm]
    refine mul_le_mul_of_nonneg_right ?_ hN0.le
    rw [abs_le]
    constructor <;> linarith [p1.1, p1.2, p2.1, p2.2]
  have hq : (x[x.length - 1] - x[0]) / fl (1 / (N : K)) = (n + th) / (1 + d) := by
    rw [ed, hth]
    have : 1 + d ≠ 0 := by linarith
    field_simp
    ring
  have hth2 := abs_le.1 hth1
  have hqn : |(n + th) / (1 + d) - n| ≤ 1 / 7 := by
    have h0 : (0 : K) < 1 + d := by linarith
    have e1 : (n + th) / (1 + d) - n = (th - n * d) / (1 + d) := by
      have : 1 + d ≠ 0 := h0.ne'
      field_simp; ring
    rw [e1, abs_div, abs_of_pos h0, div_le_iff₀ h0]
    have h1 : |n * d| ≤ n * u := by
      rw [abs_mul, abs_of_nonneg (by linarith : (0 : K) ≤ n)]
      exact mul_le_mul_of_nonneg_left hd (by linarith)
    have h2 := abs_sub th (n * d)
    linarith
  have hqpos : 0 ≤ (n + th) / (1 + d) := div_nonneg (by linarith [hth2.1]) (by linarith)
  obtain ⟨l, l1, l2, -⟩ := C92_size fl u hfl ⟨x[0], x[x.length - 1], fl (1 / (N : K))⟩ hs n (by
    simp only [hq, abs_of_nonneg hqpos]
    have hq' := abs_le.1 hqn
    have hle : (n + th) / (1 + d) ≤ n + 1 / 7 := by linarith [hq'.2]
    have hu2 : 2 * u + u ^ 2 ≤ 33 / 16 * u := by
      have : u * u ≤ 1 / 16 * u := mul_le_mul_of_nonneg_right (by linarith) hu
      rw [pow_two]; linarith
    have h3 : (n + th) / (1 + d) * (2 * u + u ^ 2) ≤ (n + 1 / 7) * (33 / 16 * u) := by
      apply mul_le_mul hle hu2 (by positivity) (by linarith)
    have e2 : ((n : K) + 1 / 7) * (33 / 16 * u) = 33 / 16 * (u * n) + 33 / 112 * u := by ring
    rw [e2] at h3
    linarith)
  exact ⟨_, l, rfl, l1, by rw [l2, hn]⟩

end

/-! ### double precision -/

/-- **C92** Double precision: if `end` is within a quarter of a step of `start + k * sample` and `k ≤ 2^49`, the axis has `k + 1`
points. -/
theorem C92_size_double (a : Axis ℚ) (hs : a.sample ≠ 0) (k : ℕ) (hk : k ≤ 2 ^ 49)
    (h : |a.stop - (a.start + k * a.sample)| ≤ |a.sample| / 4) :
    ∃ l, a.flArray fl64 = .ok l ∧ l.length = k + 1 := by
  have hs0 : 0 < |a.sample| := abs_pos.2 hs
  have hq : |(a.stop - a.start) / a.sample - k| ≤ 1 / 4 := by
    have e : (a.stop - a.start) / a.sample - k = (a.stop - (a.start + k * a.sample)) / a.sample := by
      field_simp; ring
    rw [e, abs_div, div_le_iff₀ hs0]
    linarith
  have hk0 : (0 : ℚ) ≤ k := Nat.cast_nonneg _
  have hk1 : (k : ℚ) ≤ 2 ^ 49 := by exact_mod_cast hk
  have h2 : |(|(a.stop - a.start) / a.sample| - k)| ≤ 1 / 4 := by
    have := abs_abs_sub_abs_le ((a.stop - a.start) / a.sample) k
    rw [Nat.abs_cast] at this
    linarith
  have h3 : |(a.stop - a.start) / a.sample| ≤ 2 ^ 49 + 1 / 4 := by
    have := abs_le.1 h2
    linarith [this.2]
  obtain ⟨l, l1, l2, -⟩ := C92_size fl64 _ fl64_relErr a hs k (by
    have h4 : |(a.stop - a.start) / a.sample| * (2 * (2 : ℚ) ^ (-53 : ℤ) + ((2 : ℚ) ^ (-53 : ℤ)) ^ 2) ≤
        (2 ^ 49 + 1 / 4) * (2 * (2 : ℚ) ^ (-53 : ℤ) + ((2 : ℚ) ^ (-53 : ℤ)) ^ 2) :=
      mul_le_mul_of_nonneg_right h3 (by norm_num)
    have h5 : ((2 : ℚ) ^ 49 + 1 / 4) * (2 * (2 : ℚ) ^ (-53 : ℤ) + ((2 : ℚ) ^ (-53 : ℤ)) ^ 2) < 1 / 4 := by norm_num
    linarith)
  exact ⟨l, l1, l2⟩

/-- **C93** Double precision: up to 65536 positions per unit, up to `2^40` of them, each within `2^-37` of its place (the
rounding error of positions up to 65536): the step is the double nearest to `1/N` and the array is accepted. -/
theorem C93_double (x : List ℚ) (a : ℚ) (N : ℕ) (hN : 2 ≤ N) (hN' : N ≤ 2 ^ 16) (hx : 2 ≤ x.length) (hx' : x.length ≤ 2 ^ 40)
    (hpos : ∀ i (hi : i < x.length), |x[i] - (a + i * (1 / N))| ≤ 2 ^ (-37 : ℤ)) :
    ∃ ax l, flAxisFromArray fl64 x = .ok ax ∧ ax.sample = fl64 (1 / N) ∧ ax.flArray fl64 = .ok l ∧ l.length = x.length := by
  have hNQ : (2 : ℚ) ≤ N := by exact_mod_cast hN
  have hNQ' : (N : ℚ) ≤ 2 ^ 16 := by exact_mod_cast hN'
  have hlen : (x.length : ℚ) ≤ 2 ^ 40 := by exact_mod_cast hx'
  have hsmall : 8 * (N : ℚ) ^ 2 * (2 * (2 : ℚ) ^ (-37 : ℤ) + (2 : ℚ) ^ (-53 : ℤ) * (1 / N + 2 * (2 : ℚ) ^ (-37 : ℤ))) ≤ 1 := by
    have h1 : (1 : ℚ) / N ≤ 1 / 2 := by
      apply one_div_le_one_div_of_le <;> linarith
    have h2 : (N : ℚ) ^ 2 ≤ (2 ^ 16) ^ 2 := by
      apply pow_le_pow_left₀ <;> linarith
    calc 8 * (N : ℚ) ^ 2 * (2 * (2 : ℚ) ^ (-37 : ℤ) + (2 : ℚ) ^ (-53 : ℤ) * (1 / N + 2 * (2 : ℚ) ^ (-37 : ℤ)))
        ≤ 8 * (2 ^ 16) ^ 2 * (2 * (2 : ℚ) ^ (-37 : ℤ) + (2 : ℚ) ^ (-53 : ℤ) * (1 / 2 + 2 * (2 : ℚ) ^ (-37 : ℤ))) := by
          apply mul_le_mul
          · linarith
          · have : (2 : ℚ) ^ (-53 : ℤ) * (1 / N + 2 * (2 : ℚ) ^ (-37 : ℤ)) ≤
                (2 : ℚ) ^ (-53 : ℤ) * (1 / 2 + 2 * (2 : ℚ) ^ (-37 : ℤ)) :=
              mul_le_mul_of_nonneg_left (by linarith) (by norm_num)
            linarith
          · have : (0 : ℚ) ≤ 1 / N := by positivity
            have h3 : (0 : ℚ) ≤ (2 : ℚ) ^ (-53 : ℤ) * (1 / N + 2 * (2 : ℚ) ^ (-37 : ℤ)) :=
              mul_nonneg (by norm_num) (add_nonneg this (by norm_num))
            have h4 : (0 : ℚ) ≤ 2 * (2 : ℚ) ^ (-37 : ℤ) := by norm_num
            linarith
          · norm_num
      _ ≤ 1 := by norm_num
  obtain ⟨ax, l, h1, h2, h3⟩ := C93_accepted fl64 _ fl64_relErr x a _ N hN hx hpos hsmall (by
    have : 16 * (2 : ℚ) ^ (-53 : ℤ) * x.length ≤ 16 * (2 : ℚ) ^ (-53 : ℤ) * 2 ^ 40 :=
      mul_le_mul_of_nonneg_left hlen (by norm_num)
    have h5 : 16 * (2 : ℚ) ^ (-53 : ℤ) * 2 ^ 40 ≤ 1 := by norm_num
    linarith)
  refine ⟨ax, l, h1, ?_, h2, h3⟩
  rw [C93_reciprocal fl64 _ fl64_relErr x a _ N hN hx hpos hsmall, Except.ok.injEq] at h1
  rw [← h1]

/-- twelve times, a microsecond apart, as seconds since 1970 -/
def microseconds : List ℚ := (List.range 12).map fun i => fl64 (1600000000 + fl64 ((i : ℚ) / 1000000))

/-- **C93** The bounds matter: of twelve times a microsecond apart, given in seconds since 1970, the rounded step is 2^-20, and
the axis has thirteen points. -/
theorem C93_witness : microseconds.length = 12 ∧
    ∃ ax, flAxisFromArray fl64 microseconds = .ok ax ∧ ax.sample = 1 / 2 ^ 20 ∧
      (ax.flArray fl64).map List.length = .ok 13 := by
  refine ⟨by decide, ⟨1600000000, 3355443200000023 / 2097152, 1 / 1048576⟩, ?_, ?_, ?_⟩
  · decide +kernel
  · norm_num
  · decide +kernel

/-! ## C94: the sample at time zero -/

section
variable {K : Type} [Field K] [LinearOrder K] [IsStrictOrderedRing K] [FloorRing K]

theorem maskSelect_threshold {V : Type} (t : List K) (y : List V) (hl : t.length = y.length) (m : ℕ)
    (h1 : ∀ i (hi : i < t.length), i < m → t[i] < 0) (h2 : ∀ i (hi : i < t.length), m ≤ i → 0 ≤ t[i]) :
    maskSelect (t.map fun v => decide (0 ≤ v)) y = .ok (y.drop m) ∧
    maskSelect (t.map fun v => decide (v < 0)) y = .ok (y.take m) := by
  induction t generalizing y m with
  | nil =>
    have : y = [] := List.length_eq_zero_iff.1 hl.symm
    subst this
    simp [maskSelect]
  | cons v t ih =>
    cases y with
    | nil => simp at hl
    | cons b y =>
      rw [List.map_cons, List.map_cons]
      cases m with
      | zero =>
        obtain ⟨i1, i2⟩ := ih y (by simpa using hl) 0 (by omega)
          (fun i hi _ => h2 (i + 1) (by simpa using hi) (by omega))
        have h0 : 0 ≤ v := h2 0 (by simp) le_rfl
        rw [decide_eq_true h0, decide_eq_false (not_lt.2 h0)]
        exact ⟨maskSelect_cons_true _ _ _ _ i1, maskSelect_cons_false _ _ _ _ i2⟩
      | succ m =>
        obtain ⟨i1, i2⟩ := ih y (by simpa using hl) m
          (fun i hi hm => h1 (i + 1) (by simpa using hi) (by omega))
          (fun i hi hm => h2 (i + 1) (by simpa using hi) (by omega))
        have h0 : v < 0 := h1 0 (by simp) (by omega)
        rw [decide_eq_false (not_le.2 h0), decide_eq_true h0]
        exact ⟨maskSelect_cons_false _ _ _ _ i1, maskSelect_cons_true _ _ _ _ i2⟩

/-- **C94** Let point `m` of the axis be (within the given bound) at time zero. In rounded arithmetic the samples before it always go
behind, the samples after it always go in front; sample `m` itself goes in front if its rounded time is not negative, and
behind otherwise. -/
theorem C94_reorder {V : Type} (fl : K → K) (u : K) (hfl : RelErr fl u) (hu : u ≤ 1 / 100) (a : Axis K) (l : List K)
    (h : a.flArray fl = .ok l) (n : ℕ) (hn : 1 ≤ n) (hl : l.length = n + 1) (M : K) (h1 : |a.start| ≤ M) (h2 : |a.stop| ≤ M)
    (m : ℕ) (hm : m < l.length) (hzero : |a.start + m * ((a.stop - a.start) / n)| + 8 * u * M < (a.stop - a.start) / n)
    (y : List V) (hy : y.length = l.length) :
    (0 ≤ l[m] → flReorderByTime fl a y = .ok (y.drop m ++ y.take m)) ∧
    (l[m] < 0 → flReorderByTime fl a y = .ok (y.drop (m + 1) ++ y.take (m + 1))) := by
  obtain ⟨-, -, hp⟩ := C92_points fl u hfl hu a l h n hn hl M h1 h2
  set d := (a.stop - a.start) / n with hd
  have hM : 0 ≤ M := (abs_nonneg _).trans h1
  have hpos : 0 ≤ 8 * u * M := by have := relErr_nonneg hfl; positivity
  have hd0 : 0 < d := lt_of_le_of_lt (add_nonneg (abs_nonneg _) hpos) hzero
  have hz1 := le_abs_self (a.start + m * d)
  have hz2 := neg_abs_le (a.start + m * d)
  have hneg : ∀ i (hi : i < l.length), i < m → l[i] < 0 := by
    intro i hi hlt
    have p := abs_le.1 (hp i hi)
    have hc : (i : K) + 1 ≤ m := by exact_mod_cast hlt
    have := mul_le_mul_of_nonneg_right hc hd0.le
    linarith [p.2]
  have hge : ∀ i (hi : i < l.length), m < i → 0 ≤ l[i] := by
    intro i hi hlt
    have p := abs_le.1 (hp i hi)
    have hc : (m : K) + 1 ≤ i := by exact_mod_cast hlt
    have := mul_le_mul_of_nonneg_right hc hd0.le
    linarith [p.1]
  constructor
  · intro h0
    obtain ⟨i1, i2⟩ := maskSelect_threshold l y hy.symm m hneg (fun i hi hmi => by
      rcases Nat.eq_or_lt_of_le hmi with e | e
      · subst e; exact h0
      · exact hge i hi e)
    unfold flReorderByTime
    rw [h, except_bind_ok, i1, except_bind_ok, i2, except_bind_ok, except_pure]
  · intro h0
    obtain ⟨i1, i2⟩ := maskSelect_threshold l y hy.symm (m + 1) (fun i hi hmi => by
      rcases Nat.eq_or_lt_of_le (Nat.le_of_lt_succ hmi) with e | e
      · subst e; exact h0
      · exact hneg i hi e) (fun i hi hmi => hge i hi (by omega))
    unfold flReorderByTime
    rw [h, except_bind_ok, i1, except_bind_ok, i2, except_bind_ok, except_pure]

/-- **C92** If the arithmetic represents the length, the spacing, its multiples and the points of an axis, the rounded points are
the exact ones. -/
theorem C92_representable (fl : K → K) (a : Axis K) (hs : a.sample ≠ 0) (n : ℕ)
    (hn : |(a.stop - a.start) / a.sample| = n) (h1 : fl (a.stop - a.start) = a.stop - a.start)
    (h2 : fl ((a.stop - a.start) / a.sample) = (a.stop - a.start) / a.sample)
    (h3 : fl ((a.stop - a.start) / n) = (a.stop - a.start) / n) (h4 : a.start ≠ a.stop)
    (h5 : ∀ i < n, fl (i * ((a.stop - a.start) / n)) = i * ((a.stop - a.start) / n))
    (h6 : ∀ i < n, fl (i * ((a.stop - a.start) / n) + a.start) = i * ((a.stop - a.start) / n) + a.start) :
    a.flArray fl = a.array := by
  unfold Axis.flArray Axis.array
  rw [if_neg hs, if_neg hs]
  rw [h1, h2]
  congr 1
  rw [hn, pyRound_natCast]
  simp only [Int.toNat_natCast]
  unfold flLinspace linspace
  have hcast : (((n + 1 : ℕ) : K)) - 1 = n := by push_cast; ring
  simp only [hcast, h1, h3]
  split
  · rfl
  · rename_i hn1
    have hnK : (n : K) ≠ 0 := by exact_mod_cast (by omega : n ≠ 0)
    have hstep : (a.stop - a.start) / n ≠ 0 := div_ne_zero (sub_ne_zero.2 h4.symm) hnK
    refine List.map_congr_left fun i hi => ?_
    rw [if_neg hstep]
    split
    · rfl
    · rename_i hi2
      have hi' : i < n := by have := List.mem_range.1 hi; omega
      rw [h5 i hi', h6 i hi']

end

/-- **C94** In double precision the axis from -0.1 to 0.5 in steps of 0.1 has its second point at -2^-56 instead of 0, and its
sample is counted as a negative time. -/
theorem C94_witness (y0 y1 y2 y3 y4 y5 y6 : ℝ) :
    (Axis.flArray fl64 ⟨-fl64 (1 / 10), 1 / 2, fl64 (1 / 10)⟩).map (fun l : List ℚ => (l.length, l[1]?)) =
      .ok (7, some (-(1 / 2 ^ 56) : ℚ)) ∧
    flReorderByTime fl64 ⟨-fl64 (1 / 10), 1 / 2, fl64 (1 / 10)⟩ [y0, y1, y2, y3, y4, y5, y6] =
      .ok [y2, y3, y4, y5, y6, y0, y1] := by
  have h : Axis.flArray fl64 ⟨-fl64 (1 / 10), 1 / 2, fl64 (1 / 10)⟩ =
      .ok (flLinspace fl64 (-fl64 (1 / 10)) (1 / 2) 7) := by decide +kernel
  have m1 : ((flLinspace fl64 (-fl64 (1 / 10)) (1 / 2) 7).map fun v => decide (0 ≤ v)) =
      [false, false, true, true, true, true, true] := by decide +kernel
  have m2 : ((flLinspace fl64 (-fl64 (1 / 10)) (1 / 2) 7).map fun v => decide (v < 0)) =
      [true, true, false, false, false, false, false] := by decide +kernel
  refine ⟨by decide +kernel, ?_⟩
  unfold flReorderByTime
  rw [h, except_bind_ok, m1, m2]
  rfl

/-- **C94** What this does to the spectrum: each value is multiplied by `exp (2 π i k / n)`, as if the signal had been moved by
one sample. -/
theorem C94_spectrum (y : List ℝ) (n m : ℕ) (hy : y.length = n) (hm : m < n) (k : ℤ) :
    dft n (at0 (y.drop (m + 1) ++ y.take (m + 1))) k = unitRoot n k * dft n (at0 (y.drop m ++ y.take m)) k := by
  rw [← List.rotate_eq_drop_append_take (by omega), ← List.rotate_eq_drop_append_take (by omega),
    dft_rotate y n _ hy (by omega), dft_rotate y n _ hy (by omega), Finset.mul_sum]
  refine Finset.sum_congr rfl fun i _ => ?_
  rw [mul_left_comm, ← unitRoot_add]
  congr 2
  push_cast
  ring

/-! ### concrete cases -/

/-- the axis from 0 to 1 in steps of 0.1 in double precision: eleven points, the fourth of them not 3/10 but the double next
to the nearest double -/
example : ∃ l, Axis.flArray fl64 ⟨0, 1, fl64 (1 / 10)⟩ = .ok l ∧ l.length = 11 :=
  C92_size_double ⟨0, 1, fl64 (1 / 10)⟩ (by decide +kernel) 10 (by norm_num) (by decide +kernel)

example : (Axis.flArray fl64 ⟨0, 1, fl64 (1 / 10)⟩).map (fun l => decide (l[3]? = some (fl64 (3 / 10)))) = .ok false := by
  decide +kernel

example : (flLinspace fl64 0 1 11).Pairwise (· < ·) :=
  C92_increasing fl64 _ fl64_relErr (by norm_num) ⟨0, 1, fl64 (1 / 10)⟩ _ (by decide +kernel) 10 (by norm_num)
    (flLinspace_length _ _ _ _) 1 (by norm_num) (by norm_num) (by norm_num)

example : Axis.flArray fl64 ⟨-1, 1, 1 / 4⟩ = .ok [-1, -3 / 4, -1 / 2, -1 / 4, 0, 1 / 4, 1 / 2, 3 / 4, 1] := by
  rw [C92_representable fl64 ⟨-1, 1, 1 / 4⟩ (by norm_num) 8] <;> decide +kernel

/-- eleven doubles nearest to 0, 0.1, ..., 1 -/
example : ∃ ax l, flAxisFromArray fl64 ((List.range 11).map fun i => fl64 ((i : ℚ) / 10)) = .ok ax ∧
    ax.sample = fl64 (1 / 10) ∧ ax.flArray fl64 = .ok l ∧ l.length = 11 := by
  obtain ⟨ax, l, h1, h2, h3, h4⟩ := C93_double ((List.range 11).map fun i => fl64 ((i : ℚ) / 10)) 0 10 (by norm_num)
    (by norm_num) (by simp) (by simp) (by decide +kernel)
  exact ⟨ax, l, h1, by simpa using h2, h3, by simpa using h4⟩

/-- positions three apart, each off by up to a hundredth -/
example : flAxisFromArray fl64 [0, 301 / 100, 599 / 100, 9] = .ok ⟨0, 9, 3⟩ :=
  C93_whole fl64 _ fl64_relErr (by decide +kernel) [0, 301 / 100, 599 / 100, 9] 0 (1 / 100) 3 (by norm_num) (by simp)
    (by decide +kernel) (by norm_num)

/-- the axis of `C94_witness` meets the hypotheses of `C94_reorder` -/
example (y : List ℝ) (hy : y.length = 7) :
    flReorderByTime fl64 ⟨-fl64 (1 / 10), 1 / 2, fl64 (1 / 10)⟩ y = .ok (y.drop 2 ++ y.take 2) :=
  (C94_reorder fl64 _ fl64_relErr (by norm_num) ⟨-fl64 (1 / 10), 1 / 2, fl64 (1 / 10)⟩
    (flLinspace fl64 (-fl64 (1 / 10)) (1 / 2) 7) (by decide +kernel) 6 (by norm_num) (flLinspace_length _ _ _ _) (1 / 2)
    (by decide +kernel) (by decide +kernel) 1 (by rw [flLinspace_length]; norm_num) (by decide +kernel) y
    (by rw [hy, flLinspace_length])).2 (by decide +kernel)

end SweepDesign
