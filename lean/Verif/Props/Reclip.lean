import Verif.Props.Correction

/-!
# Repeating the soft clip (C152)

`get_correction_for_source` applies `soft_clip` in pass number `cnt` of its loop `cnt` times to the same array, with the coefficient
`coefficient_function(cnt)`. The first column, from which the factor of a row is made, never changes: so the repetition only
multiplies the exponent. What pass after pass does to the rows follows.
-/

set_option linter.unusedSectionVars false

namespace SweepDesign

open Spec

/-- `result` is got from `data` by `n` calls of `soft_clip`, each on the result of the one before -/
inductive Spec.ClippedTimes (limits percent coefficient : ℝ) : ℕ → List (ℝ × ℝ) → List (ℝ × ℝ) → Prop
  | zero (data) : ClippedTimes limits percent coefficient 0 data data
  | succ (n : ℕ) (data next result : List (ℝ × ℝ)) (h : softClip data limits percent coefficient = .ok next)
      (hs : ClippedTimes limits percent coefficient n next result) : ClippedTimes limits percent coefficient (n + 1) data result

/-- the factor of a row depends on the first entry only, and its power on the coefficient -/
theorem clip_factor (L p : ℝ) (hl : 0 < L) (hp : 0 ≤ p) (a : ℝ) :
    ∃ g : ℝ, 0 < g ∧ (∀ c b, softClipRow L p c (a, b) = .ok (a, g ^ c * b)) ∧ (|a| ≤ L * p → g = 1) ∧
      (L * p < |a| → L ≤ |a| → g * |a| = L) ∧ (L * p < |a| → |a| < L → 1 < g ∧ g * |a| ≤ L) := by
  obtain ⟨g, h0, h1, h2, h3, h4⟩ := softClipRow_factor L p 1 (a, 1) hl (.inl hp)
  refine ⟨g, h0, fun c b => ?_, h2, h3, h4⟩
  obtain ⟨g', k0, k1, -⟩ := softClipRow_factor L p c (a, b) hl (.inl hp)
  by_cases e1 : |a| ≤ L * p
  · rw [h2 e1, Real.one_rpow, one_mul]
    unfold softClipRow
    simp only [if_pos e1]
  have hpos : 0 < |a| := lt_of_le_of_lt (by positivity) (not_le.1 e1)
  simp only [Real.rpow_one, mul_one] at h1
  unfold softClipRow at h1 ⊢
  simp only [if_neg e1, if_neg hpos.ne'] at h1 ⊢
  by_cases e2 : L ≤ |a|
  · simp only [if_pos e2, softScale] at h1 ⊢
    have hq : 0 < L / |a| := by positivity
    rw [ppow_pos _ _ hq] at h1 ⊢
    simp only [Real.rpow_one, mul_one, Except.ok.injEq, Prod.mk.injEq, true_and] at h1
    rw [h1]
  · simp only [if_neg e2, softScale] at h1 ⊢
    have hc := compression_gt (x := |a| - L * p) (s := L - L * p) (by linarith [not_le.1 e1]) (by linarith [not_le.1 e2])
    have hq : 0 < (L * p + (L - L * p) * Real.sin (Real.pi / 2 * (|a| - L * p) / (L - L * p))) / |a| := by
      apply div_pos _ hpos
      linarith
    rw [ppow_pos _ _ hq] at h1 ⊢
    simp only [Real.rpow_one, mul_one, Except.ok.injEq, Prod.mk.injEq, true_and] at h1
    rw [h1]

/-- the factor as a function of the first entry -/
theorem clip_factors (L p : ℝ) (hl : 0 < L) (hp : 0 ≤ p) :
    ∃ g : ℝ → ℝ, (∀ a, 0 < g a) ∧ (∀ c (data : List (ℝ × ℝ)), data ≠ [] →
        softClip data L p c = .ok (data.map fun d => (d.1, g d.1 ^ c * d.2))) ∧
      (∀ a, |a| ≤ L * p → g a = 1) ∧ (∀ a, L * p < |a| → L ≤ |a| → g a * |a| = L) ∧
      (∀ a, L * p < |a| → |a| < L → 1 < g a ∧ g a * |a| ≤ L) := by
  choose g h0 h1 h2 h3 h4 using clip_factor L p hl hp
  refine ⟨g, h0, fun c data hd => ?_, h2, h3, h4⟩
  unfold softClip
  rw [if_neg hd]
  clear hd
  induction data with
  | nil => rfl
  | cons d data ih =>
    rw [List.mapM_cons, show softClipRow L p c d = .ok (d.1, g d.1 ^ c * d.2) from h1 d.1 c d.2, except_bind_ok, ih]
    rfl

/-- **C152** With a positive limit and a percentage that is not negative, `n` calls of `soft_clip` in a row with coefficient `c` give
exactly what one call with coefficient `c * n` gives. -/
theorem C152_repeated (L p c : ℝ) (hl : 0 < L) (hp : 0 ≤ p) (n : ℕ) (data result : List (ℝ × ℝ)) (hd : data ≠ []) :
    ClippedTimes L p c n data result ↔ softClip data L p (c * n) = .ok result := by
  obtain ⟨g, h0, h1, -⟩ := clip_factors L p hl hp
  rw [h1 _ _ hd, Except.ok.injEq]
  induction n generalizing data with
  | zero =>
    constructor
    · rintro ⟨⟩
      simp
    · rintro rfl
      have : (data.map fun d => (d.1, g d.1 ^ (c * ((0 : ℕ) : ℝ)) * d.2)) = data := by simp
      rw [this]
      exact .zero _
  | succ n ih =>
    have hd' : (data.map fun d => (d.1, g d.1 ^ c * d.2)) ≠ [] := by simpa using hd
    have e : ((data.map fun d => (d.1, g d.1 ^ c * d.2)).map fun d => (d.1, g d.1 ^ (c * (n : ℝ)) * d.2)) =
        data.map fun d => (d.1, g d.1 ^ (c * ((n + 1 : ℕ) : ℝ)) * d.2) := by
      rw [List.map_map]
      apply List.map_congr_left
      intro d _
      simp only [Function.comp, Prod.mk.injEq, true_and]
      rw [← mul_assoc, ← Real.rpow_add (h0 _)]
      push_cast
      ring_nf
    constructor
    · rintro ⟨⟩
      rename_i next h hs
      rw [h1 _ _ hd, Except.ok.injEq] at h
      subst h
      rw [← (ih _ hd').1 hs, e]
    · intro h
      refine .succ n data _ result (h1 _ _ hd) ((ih _ hd').2 ?_)
      rw [e, h]

/-- the repeated call of the loop, as calls of `soft_clip` -/
theorem softClipTimes_iff (L p c : ℝ) (n : ℕ) (data result : List (ℝ × ℝ)) :
    softClipTimes L p c n data = .ok result ↔ ClippedTimes L p c n data result := by
  induction n generalizing data with
  | zero =>
    simp only [softClipTimes, Except.ok.injEq]
    exact ⟨by rintro rfl; exact .zero _, by rintro ⟨⟩; rfl⟩
  | succ n ih =>
    simp only [softClipTimes, except_bind_eq_ok, ih]
    exact ⟨fun ⟨a, h1, h2⟩ => .succ n data a result h1 h2, by rintro ⟨⟩; exact ⟨_, ‹_›, ‹_›⟩⟩

/-- **C152** Pass number `n` of the loop of `get_correction_for_source`: the force it makes is the second column of one call of
`soft_clip` with the coefficient `coefficient_function(n) * n`, which with the default coefficient function is `n * n`. -/
theorem C152_pass (emd : Emd) (c : CorrArgs) (L : ℝ) (hl : 0 < L) (hp : 0 ≤ c.limitsPercent) (time : Axis ℝ) (window : Rel ℝ ℝ)
    (rows result : List (ℝ × ℝ)) (hd : rows ≠ []) (n : ℕ)
    (hr : softClip rows L c.limitsPercent (c.coefficientFunction n * n) = .ok result) :
    correctionPass emd c L time window rows n = (do
      let force ← Rel.make time (result.map Prod.snd)
      let a ← force.integrate
      let b ← a.integrate
      let d ← b.truediv (.other (.num c.reactionMass))
      let imf ← firstIMF emd d
      imf.mul (.rel false window)) := by
  have h := (softClipTimes_iff L c.limitsPercent (c.coefficientFunction n) n rows result).2
    ((C152_repeated L c.limitsPercent _ hl hp n rows result hd).2 hr)
  unfold correctionPass
  rw [h, except_bind_ok]
  rcases Rel.make time (result.map Prod.snd) with e | f
  · rfl
  simp only [except_bind_ok, displacementOf]
  rcases f.integrate with e | a
  · rfl
  simp only [except_bind_ok]
  rcases a.integrate with e | b
  · rfl
  rfl

/-- **C152** What pass after pass does to a row with the default coefficient function: rows up to `limit * percent` and rows exactly
at the limit stay; rows beyond the limit go to zero; rows strictly in between grow beyond every bound. -/
theorem C152_passes (L p : ℝ) (hl : 0 < L) (hp : 0 ≤ p) (data : List (ℝ × ℝ)) (i : ℕ) (hi : i < data.length) :
    (|data[i].1| ≤ L * p ∨ |data[i].1| = L → ∀ n : ℕ, ∃ result, softClip data L p (n * n) = .ok result ∧
      result[i]? = some data[i]) ∧
    (L * p < |data[i].1| → L < |data[i].1| → ∀ ε > 0, ∃ N : ℕ, ∀ n ≥ N, ∃ result b, softClip data L p (n * n) = .ok result ∧
      result[i]? = some (data[i].1, b) ∧ |b| < ε) ∧
    (L * p < |data[i].1| → |data[i].1| < L → data[i].2 ≠ 0 → ∀ B, ∃ N : ℕ, ∀ n ≥ N, ∃ result b,
      softClip data L p (n * n) = .ok result ∧ result[i]? = some (data[i].1, b) ∧ B < |b|) := by
  have hd : data ≠ [] := by rintro rfl; simp at hi
  obtain ⟨g, h0, h1, h2, h3, h4⟩ := clip_factors L p hl hp
  have hget : ∀ n : ℕ, (data.map fun d => (d.1, g d.1 ^ ((n : ℝ) * n) * d.2))[i]? =
      some (data[i].1, g data[i].1 ^ ((n : ℝ) * n) * data[i].2) := by
    intro n
    rw [List.getElem?_map, List.getElem?_eq_getElem hi]
    rfl
  have hpow : ∀ n : ℕ, g data[i].1 ^ ((n : ℝ) * n) = g data[i].1 ^ (n * n) := by
    intro n
    rw [← Nat.cast_mul, Real.rpow_natCast]
  refine ⟨fun h n => ⟨_, h1 _ _ hd, ?_⟩, fun a1 a2 ε hε => ?_, fun a1 a2 a3 B => ?_⟩
  · have hg : g data[i].1 = 1 := by
      by_cases e : |data[i].1| ≤ L * p
      · exact h2 _ e
      · rcases h with h | h
        · exact absurd h e
        · have := h3 _ (not_le.1 e) h.ge
          rw [h] at this
          exact mul_right_cancel₀ hl.ne' (by rw [this, one_mul])
    rw [hget, hg, Real.one_rpow, one_mul]
  · have hpos : 0 < |data[i].1| := hl.trans a2
    have hg : g data[i].1 < 1 := by
      have := h3 _ a1 a2.le
      by_contra hc
      nlinarith [not_lt.1 hc]
    obtain ⟨N, hN⟩ := exists_pow_lt_of_lt_one (div_pos hε (by positivity : 0 < |data[i].2| + 1)) hg
    refine ⟨N + 1, fun n hn => ⟨_, _, h1 _ _ hd, hget n, ?_⟩⟩
    have hle : g data[i].1 ^ (n * n) ≤ g data[i].1 ^ N :=
      pow_le_pow_of_le_one (h0 _).le hg.le (by nlinarith)
    rw [hpow, abs_mul, abs_of_pos (pow_pos (h0 _) _)]
    calc g data[i].1 ^ (n * n) * |data[i].2| ≤ g data[i].1 ^ N * (|data[i].2| + 1) :=
          mul_le_mul hle (by linarith) (abs_nonneg _) (pow_pos (h0 _) _).le
      _ < ε := by rwa [lt_div_iff₀ (by positivity)] at hN
  · have hg : 1 < g data[i].1 := (h4 _ a1 a2).1
    obtain ⟨N, hN⟩ := pow_unbounded_of_one_lt (B / |data[i].2|) hg
    refine ⟨N + 1, fun n hn => ⟨_, _, h1 _ _ hd, hget n, ?_⟩⟩
    have hle : g data[i].1 ^ N ≤ g data[i].1 ^ (n * n) := pow_le_pow_right₀ hg.le (by nlinarith)
    rw [hpow, abs_mul, abs_of_pos (pow_pos (h0 _) _)]
    rw [div_lt_iff₀ (abs_pos.2 a3)] at hN
    exact hN.trans_le (mul_le_mul_of_nonneg_right hle (abs_nonneg _))

/-- limit 1, percent 1/2: a row with displacement 1/4 stays, one with 4 is divided by 4 in the first pass and by 4 ^ 4 in the
second, one with 3/4 grows in every pass -/
example : softClip [(1/4, 5), (4, 5)] 1 (1/2) (1 * (1 : ℕ)) = .ok [(1/4, 5), (4, 5/4)] ∧
    softClip [(1/4, 5), (4, 5)] 1 (1/2) (2 * (2 : ℕ)) = .ok [(1/4, 5), (4, 5/256)] ∧
    ClippedTimes 1 (1/2) 2 2 [(1/4, 5), (4, 5)] [(1/4, 5), (4, 5/256)] ∧
    ∃ N : ℕ, ∀ n ≥ N, ∃ result b, softClip [(3/4, 5)] 1 (1/2) (n * n) = .ok result ∧ result[0]? = some (3/4, b) ∧ 1000 < |b| := by
  have hrow : ∀ m : ℕ, softClip [(1/4, 5), (4, 5)] 1 (1/2) ((m : ℝ) * (m : ℕ)) = .ok [(1/4, 5), (4, (1/4) ^ (m * m) * 5)] := by
    intro m
    have h1 : ¬ |(4 : ℝ)| ≤ 1 * (1/2) := by norm_num
    have h2 : (1 : ℝ) ≤ |(4 : ℝ)| := by norm_num
    have h3 : |(1/4 : ℝ)| ≤ 1 * (1/2) := by norm_num [abs_of_pos]
    have h4 : |(4 : ℝ)| ≠ 0 := by norm_num
    have h5 : |(4 : ℝ)| = 4 := by norm_num
    unfold softClip
    simp only [List.mapM_cons, List.mapM_nil, softClipRow, if_neg h1, if_pos h2, if_pos h3, if_neg h4, softScale]
    rw [h5, ppow_pos _ _ (by norm_num : (0 : ℝ) < 1 / 4), ← Nat.cast_mul, Real.rpow_natCast]
    rfl
  have h1 : softClip [(1/4, 5), (4, 5)] 1 (1/2) (1 * (1 : ℕ)) = .ok [(1/4, 5), (4, 5/4)] := by
    have := hrow 1
    norm_num at this ⊢
    exact this
  have h2 : softClip [(1/4, 5), (4, 5)] 1 (1/2) (2 * (2 : ℕ)) = .ok [(1/4, 5), (4, 5/256)] := by
    have := hrow 2
    norm_num at this ⊢
    exact this
  refine ⟨h1, h2, (C152_repeated 1 (1/2) 2 one_pos (by norm_num) 2 _ _ (by simp)).2 h2, ?_⟩
  exact (C152_passes 1 (1/2) one_pos (by norm_num) [(3/4, 5)] 0 (by simp)).2.2 (by norm_num [abs_of_pos])
    (by norm_num [abs_of_pos]) (by norm_num) 1000

end SweepDesign
