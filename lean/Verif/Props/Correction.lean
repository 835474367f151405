import Verif.Model.Correction
import Verif.Props.Prepared
import Verif.Lemmas.Grid
import Mathlib.Analysis.SpecialFunctions.Trigonometric.Bounds
import Mathlib.Analysis.SpecialFunctions.Pow.Real

set_option linter.unusedSectionVars false

/-!
# Properties of the sweep corrections: C63, C64, C65, C72
-/

namespace SweepDesign

open Spec

/-! ## C63 -/

theorem ppow_pos (a b : ℝ) (h : 0 < a) : PyPow.ppow a b = some (a ^ b) := by
  simp only [PyPow.ppow]
  rw [if_neg]
  rintro (⟨h0, -⟩ | ⟨h0, -⟩) <;> linarith

/-- the sine lies above its chord on the quarter period -/
theorem compression_gt {x s : ℝ} (h0 : 0 < x) (h1 : x < s) : x < s * Real.sin (Real.pi / 2 * x / s) := by
  have hs : 0 < s := by linarith
  have hp := Real.pi_pos
  have h2 : x / s < 1 := (div_lt_one hs).2 h1
  have h3 := Real.mul_lt_sin (x := Real.pi / 2 * x / s) (by positivity) (by
    rw [mul_div_assoc]
    nlinarith)
  have h4 : 2 / Real.pi * (Real.pi / 2 * x / s) = x / s := by field_simp
  rw [h4] at h3
  have := mul_lt_mul_of_pos_left h3 hs
  rwa [mul_div_cancel₀ _ hs.ne'] at this

theorem compression_le {x s : ℝ} (h0 : 0 < s) : s * Real.sin (Real.pi / 2 * x / s) ≤ s := by
  have := Real.sin_le_one (Real.pi / 2 * x / s)
  nlinarith

/-- what happens to one row, for a positive limit and a displacement that is not zero or a percentage that is not negative:
the value is multiplied by `g ^ coefficient` with a positive factor `g` -/
theorem softClipRow_factor (limits percent coefficient : ℝ) (d : ℝ × ℝ) (hl : 0 < limits) (hp : 0 ≤ percent ∨ d.1 ≠ 0) :
    ∃ g : ℝ, 0 < g ∧ softClipRow limits percent coefficient d = .ok (d.1, g ^ coefficient * d.2) ∧
      (|d.1| ≤ limits * percent → g = 1) ∧ (limits * percent < |d.1| → limits ≤ |d.1| → g * |d.1| = limits) ∧
      (limits * percent < |d.1| → |d.1| < limits → 1 < g ∧ g * |d.1| ≤ limits) := by
  by_cases h1 : |d.1| ≤ limits * percent
  · refine ⟨1, one_pos, ?_, fun _ => rfl, fun h => absurd h1 (not_le.2 h), fun h => absurd h1 (not_le.2 h)⟩
    unfold softClipRow
    simp only [if_pos h1, Real.one_rpow, one_mul]
  have h1' := not_le.1 h1
  have hpos : 0 < |d.1| := by
    rcases hp with h | h
    · exact lt_of_le_of_lt (by positivity) h1'
    · exact abs_pos.2 h
  by_cases h2 : limits ≤ |d.1|
  · have hg : 0 < limits / |d.1| := by positivity
    refine ⟨limits / |d.1|, hg, ?_, fun h => absurd h h1, fun _ _ => div_mul_cancel₀ _ hpos.ne',
      fun _ h => absurd h2 (not_le.2 h)⟩
    unfold softClipRow
    simp only [if_neg h1, if_pos h2, if_neg hpos.ne', softScale, ppow_pos _ _ hg]
  · have h2' := not_le.1 h2
    set scale := limits - limits * percent with hsc
    have hc := compression_gt (x := |d.1| - limits * percent) (s := scale) (by linarith) (by linarith)
    have hc2 := compression_le (x := |d.1| - limits * percent) (s := scale) (by linarith)
    set comp := scale * Real.sin (Real.pi / 2 * (|d.1| - limits * percent) / scale) with hcm
    have hg1 : 1 < (limits * percent + comp) / |d.1| := (one_lt_div hpos).2 (by linarith)
    refine ⟨(limits * percent + comp) / |d.1|, by linarith, ?_, fun h => absurd h h1, fun _ h => absurd h h2,
      fun _ _ => ⟨hg1, ?_⟩⟩
    · unfold softClipRow
      simp only [if_neg h1, if_neg h2, if_neg hpos.ne', softScale, ← hsc, ← hcm, ppow_pos _ _ (by linarith : 0 < (limits * percent + comp) / |d.1|)]
    · rw [div_mul_cancel₀ _ hpos.ne']
      linarith

theorem softScale_fst {f c : ℝ} {d r : ℝ × ℝ} (h : softScale f c d = .ok r) : r.1 = d.1 := by
  unfold softScale at h
  split at h
  · cases h; rfl
  · cases h

/-- **C63** The first column is never changed, whatever the parameters; nor is the number of rows. -/
theorem C63_first_column (limits percent coefficient : ℝ) (data result : List (ℝ × ℝ))
    (h : softClip data limits percent coefficient = .ok result) : result.map Prod.fst = data.map Prod.fst := by
  unfold softClip at h
  split at h
  · cases h
  · clear * - h
    induction data generalizing result with
    | nil =>
      simp only [List.mapM_nil, except_pure, Except.ok.injEq] at h
      rw [← h]
    | cons d data ih =>
      simp only [List.mapM_cons, except_bind_eq_ok, except_pure, Except.ok.injEq] at h
      obtain ⟨r, h1, rs, h2, rfl⟩ := h
      rw [List.map_cons, List.map_cons, ih rs h2]
      congr 1
      unfold softClipRow at h1
      simp only at h1
      split at h1
      · cases h1; rfl
      split at h1
      · split at h1
        · cases h1
        · exact softScale_fst h1
      · split at h1
        · cases h1
        · exact softScale_fst h1

/-- **C63** One row, with a positive limit and a percentage that is not negative: no exception, the sign of the second
entry is kept, and the row is unchanged if `|first| ≤ limit * percent`. -/
theorem C63_row (limits percent coefficient : ℝ) (d : ℝ × ℝ) (hl : 0 < limits) (hp : 0 ≤ percent) :
    ∃ r, softClipRow limits percent coefficient d = .ok r ∧ r.1 = d.1 ∧ SignType.sign r.2 = SignType.sign d.2 ∧
      (|d.1| ≤ limits * percent → r = d) := by
  obtain ⟨g, h1, h2, h3, -⟩ := softClipRow_factor limits percent coefficient d hl (.inl hp)
  have hg : 0 < g ^ coefficient := Real.rpow_pos_of_pos h1 _
  refine ⟨_, h2, rfl, ?_, fun h => ?_⟩
  · simp only [sign_mul, sign_pos hg, one_mul]
  · rw [h3 h, Real.one_rpow, one_mul]

/-- **C63** With coefficient 1 the displacement scaled like the force stays inside the limit; beyond the limit it is the
limit. (`first * (new second) / second`, written without division) -/
theorem C63_limit (limits percent : ℝ) (d : ℝ × ℝ) (hl : 0 < limits) (hp : 0 ≤ percent) (hp1 : percent ≤ 1) :
    ∃ r, softClipRow limits percent 1 d = .ok r ∧ |d.1 * r.2| ≤ limits * |d.2| ∧
      (limits ≤ |d.1| → |d.1 * r.2| = limits * |d.2|) := by
  obtain ⟨g, h1, h2, h3, h4, h5⟩ := softClipRow_factor limits percent 1 d hl (.inl hp)
  have key : |d.1 * (g ^ (1 : ℝ) * d.2)| = g * |d.1| * |d.2| := by
    rw [Real.rpow_one, abs_mul, abs_mul, abs_of_pos h1]; ring
  have h6 : limits * percent ≤ limits := by nlinarith
  refine ⟨_, h2, ?_, fun h => ?_⟩
  · rw [key]
    apply mul_le_mul_of_nonneg_right _ (abs_nonneg _)
    rcases le_or_gt |d.1| (limits * percent) with h | h
    · rw [h3 h, one_mul]; linarith
    · rcases le_or_gt limits |d.1| with h' | h'
      · rw [h4 h h']
      · exact (h5 h h').2
  · rw [key]
    rcases le_or_gt |d.1| (limits * percent) with h' | h'
    · rw [h3 h', one_mul, le_antisymm (by linarith) h]
    · rw [h4 h' h]

/-- **C63** Strictly between `limit * percent` and `limit` the row is amplified, for every positive coefficient. -/
theorem C63_amplified (limits percent coefficient : ℝ) (d : ℝ × ℝ) (hp : 0 ≤ percent) (hc : 0 < coefficient)
    (h1 : limits * percent < |d.1|) (h2 : |d.1| < limits) (hd : d.2 ≠ 0) :
    ∃ r, softClipRow limits percent coefficient d = .ok r ∧ |d.2| < |r.2| := by
  have hl : 0 < limits := lt_of_le_of_lt (abs_nonneg _) h2
  obtain ⟨g, a1, a2, -, -, a5⟩ := softClipRow_factor limits percent coefficient d hl (.inl hp)
  have hg : 1 < g ^ coefficient := Real.one_lt_rpow (a5 h1 h2).1 hc
  refine ⟨_, a2, ?_⟩
  simp only [abs_mul, abs_of_pos (by linarith : 0 < g ^ coefficient)]
  have := abs_pos.2 hd
  nlinarith

/-- **C63** Beyond the limit the row is attenuated, for every positive coefficient. -/
theorem C63_attenuated (limits percent coefficient : ℝ) (d : ℝ × ℝ) (hl : 0 < limits) (hp : 0 ≤ percent) (hp1 : percent ≤ 1)
    (hc : 0 < coefficient) (h : limits < |d.1|) (hd : d.2 ≠ 0) :
    ∃ r, softClipRow limits percent coefficient d = .ok r ∧ |r.2| < |d.2| := by
  have hlp : limits * percent < |d.1| := by nlinarith
  obtain ⟨g, a1, a2, -, a4, -⟩ := softClipRow_factor limits percent coefficient d hl (.inl hp)
  have a4 := a4 hlp h.le
  have hg1 : g < 1 := by
    by_contra hge
    have := not_lt.1 hge
    nlinarith
  have hg : g ^ coefficient < 1 := Real.rpow_lt_one a1.le hg1 hc
  have hg0 : 0 < g ^ coefficient := Real.rpow_pos_of_pos a1 _
  refine ⟨_, a2, ?_⟩
  simp only [abs_mul, abs_of_pos hg0]
  have := abs_pos.2 hd
  nlinarith

/-- **C63** The whole array: with a positive limit and a percentage that is not negative there is an exception only if there
is no row. -/
theorem C63_succeeds (data : List (ℝ × ℝ)) (limits percent coefficient : ℝ) (hl : 0 < limits) (hp : 0 ≤ percent) :
    (data = [] → softClip data limits percent coefficient = .error .value) ∧
    (data ≠ [] → ∃ result, softClip data limits percent coefficient = .ok result ∧ result.length = data.length ∧
      ∀ i (h : i < data.length) (h' : i < result.length), softClipRow limits percent coefficient data[i] = .ok result[i]) := by
  refine ⟨fun h => by unfold softClip; rw [if_pos h], fun h => ?_⟩
  have : ∃ result, data.mapM (softClipRow limits percent coefficient) = .ok result ∧ result.length = data.length ∧
      ∀ i (h : i < data.length) (h' : i < result.length),
        softClipRow limits percent coefficient data[i] = .ok result[i] := by
    clear h
    induction data with
    | nil => exact ⟨[], rfl, rfl, fun i h => absurd h (by simp)⟩
    | cons d data ih =>
      obtain ⟨rs, e1, e2, e3⟩ := ih
      obtain ⟨r, e4, -⟩ := C63_row limits percent coefficient d hl hp
      refine ⟨r :: rs, by simp [List.mapM_cons, e1, e4, except_bind_ok, except_pure], by simp [e2], ?_⟩
      intro i h h'
      cases i with
      | zero => exact e4
      | succ i => exact e3 i (by simpa using h) (by simpa using h')
  unfold softClip
  rw [if_neg h]
  exact this

/-- **C63** The positive limit is needed: with a negative limit and coefficient 1 every row with a displacement changes its
sign. -/
theorem C63_negative_limit (limits percent : ℝ) (d : ℝ × ℝ) (hl : limits < 0) (hp : 0 ≤ percent) (hd : d.1 ≠ 0) :
    ∃ r, softClipRow limits percent 1 d = .ok r ∧ SignType.sign r.2 = - SignType.sign d.2 := by
  have hpos : 0 < |d.1| := abs_pos.2 hd
  have h1 : ¬ |d.1| ≤ limits * percent := by nlinarith
  have h2 : limits ≤ |d.1| := by linarith
  have hneg : limits / |d.1| < 0 := div_neg_of_neg_of_pos hl hpos
  refine ⟨(d.1, limits / |d.1| * d.2), ?_, ?_⟩
  · unfold softClipRow
    simp only [if_neg h1, if_pos h2, if_neg hpos.ne', softScale, PyPow.ppow]
    rw [if_neg]
    · rw [Real.rpow_one]
    · rintro (⟨-, h⟩ | ⟨-, h⟩)
      · linarith
      · exact h ⟨1, by norm_num⟩
  · simp only [sign_mul, sign_neg hneg]
    rw [neg_one_mul]

/-- limit 1, percentage 1/2: a row below, one between (amplified to `1/2 + sin(π/4)/2` over `3/4`), one above -/
example : softClipRow 1 (1 / 2) 1 (1 / 4, 5) = .ok (1 / 4, 5) ∧
    (∃ r, softClipRow 1 (1 / 2) 1 (3 / 4, 5) = .ok r ∧ |(5 : ℝ)| < |r.2|) ∧
    (∃ r, softClipRow 1 (1 / 2) 1 (-4, 5) = .ok r ∧ |-4 * r.2| = 1 * |(5 : ℝ)|) := by
  refine ⟨?_, ?_, ?_⟩
  · obtain ⟨r, h1, -, -, h4⟩ := C63_row 1 (1 / 2) 1 (1 / 4, 5) one_pos (by norm_num)
    rw [h1, h4 (by norm_num [abs_of_pos])]
  · exact C63_amplified 1 (1 / 2) 1 (3 / 4, 5) (by norm_num) one_pos (by norm_num [abs_of_pos]) (by norm_num [abs_of_pos])
      (by norm_num)
  · obtain ⟨r, h1, -, h3⟩ := C63_limit 1 (1 / 2) (-4, 5) one_pos (by norm_num) (by norm_num)
    exact ⟨r, h1, h3 (by norm_num)⟩

/-! ## C64: the loop -/

theorem correctionLoop_iff (pass : ℕ → Except Err (Rel ℝ ℝ)) (L : ℝ) (lim : Option ℤ) (fuel cnt p : ℕ) (d : Rel ℝ ℝ) :
    correctionLoop pass L lim fuel cnt = .ok (some (p, d)) ↔
      cnt < p ∧ p ≤ cnt + fuel ∧ pass p = .ok d ∧
      (∀ i, cnt < i → i < p → ∃ d', pass i = .ok d' ∧ ¬ (∀ v ∈ d'.y, |v| < L) ∧ ∀ k, lim = some k → (i : ℤ) + 1 ≤ k) ∧
      ((∀ v ∈ d.y, |v| < L) ∨ ∃ k, lim = some k ∧ k < (p : ℤ) + 1) := by
  induction fuel generalizing cnt with
  | zero =>
    simp only [correctionLoop, Except.ok.injEq, reduceCtorEq, false_iff]
    omega
  | succ fuel ih =>
    simp only [correctionLoop, except_bind_eq_ok]
    constructor
    · rintro ⟨d', h1, h2⟩
      split at h2
      · rename_i hin
        simp only [except_pure, Except.ok.injEq, Option.some.injEq, Prod.mk.injEq] at h2
        obtain ⟨rfl, rfl⟩ := h2
        exact ⟨by omega, by omega, h1, fun i a b => absurd a (by omega), .inl hin⟩
      · split at h2
        · rename_i hin hk
          simp only [except_pure, Except.ok.injEq, Option.some.injEq, Prod.mk.injEq] at h2
          obtain ⟨rfl, rfl⟩ := h2
          obtain ⟨k, hk1, hk2⟩ := hk
          exact ⟨by omega, by omega, h1, fun i a b => absurd a (by omega), .inr ⟨k, hk1, by push_cast; omega⟩⟩
        · rename_i hin hk
          obtain ⟨a1, a2, a3, a4, a5⟩ := (ih (cnt + 1)).1 h2
          refine ⟨by omega, by omega, a3, fun i b1 b2 => ?_, a5⟩
          rcases Nat.lt_or_ge (cnt + 1) i with h | h
          · exact a4 i h b2
          · obtain rfl : i = cnt + 1 := by omega
            refine ⟨d', h1, hin, fun k hk' => ?_⟩
            by_contra hc
            exact hk ⟨k, hk', by push_cast at hc; omega⟩
    · rintro ⟨a1, a2, a3, a4, a5⟩
      rcases Nat.lt_or_ge (cnt + 1) p with h | h
      · obtain ⟨d', b1, b2, b3⟩ := a4 (cnt + 1) (by omega) h
        refine ⟨d', b1, ?_⟩
        rw [if_neg b2, if_neg]
        · exact (ih (cnt + 1)).2 ⟨h, by omega, a3, fun i c1 c2 => a4 i (by omega) c2, a5⟩
        · rintro ⟨k, hk1, hk2⟩
          have := b3 k hk1
          push_cast at this
          omega
      · obtain rfl : p = cnt + 1 := by omega
        refine ⟨d, a3, ?_⟩
        by_cases hin : ∀ v ∈ d.y, |v| < L
        · rw [if_pos hin]; rfl
        · rw [if_neg hin, if_pos]
          · rfl
          · rcases a5 with h | ⟨k, hk1, hk2⟩
            · exact absurd h hin
            · exact ⟨k, hk1, by push_cast at hk2; omega⟩

/-- with a bound on the iterations the loop is over after `max 1 k` passes -/
theorem correctionLoop_ends (pass : ℕ → Except Err (Rel ℝ ℝ)) (L : ℝ) (k : ℤ) (fuel cnt : ℕ)
    (h1 : k ≤ cnt + fuel) (h2 : 0 < fuel) : correctionLoop pass L (some k) fuel cnt ≠ .ok none := by
  induction fuel generalizing cnt with
  | zero => omega
  | succ fuel ih =>
    intro h
    simp only [correctionLoop, except_bind_eq_ok] at h
    obtain ⟨d, -, h⟩ := h
    split at h
    · cases h
    · split at h
      · cases h
      · rename_i hk
        have : ¬ ((cnt : ℤ) + 1 + 1 > k) := fun hc => hk ⟨k, rfl, hc⟩
        exact ih (cnt + 1) (by push_cast at h1 ⊢; omega) (by push_cast at h1; omega) h

theorem correctionLoop_stable (pass : ℕ → Except Err (Rel ℝ ℝ)) (L : ℝ) (lim : Option ℤ) (fuel more cnt : ℕ)
    (h : correctionLoop pass L lim fuel cnt ≠ .ok none) :
    correctionLoop pass L lim (fuel + more) cnt = correctionLoop pass L lim fuel cnt := by
  induction fuel generalizing cnt with
  | zero => exact absurd rfl h
  | succ fuel ih =>
    rw [show fuel + 1 + more = (fuel + more) + 1 by omega]
    simp only [correctionLoop] at h ⊢
    cases hp : pass (cnt + 1) with
    | error e => simp only [except_bind_error]
    | ok d =>
      simp only [hp, except_bind_ok] at h ⊢
      split
      · rfl
      · rename_i hin
        rw [if_neg hin] at h
        split
        · rfl
        · rename_i hk
          rw [if_neg hk] at h
          exact ih _ h

/-- the calls before the loop and the arguments the loop gets -/
theorem correction_unfold (emd : Emd) (signal : Rel ℝ ℝ) (c : CorrArgs) (L : ℝ) (hl : c.limits = some L) :
    (∃ e, ∀ fuel, getCorrectionForSource emd signal c fuel = .error e) ∨
    ∃ pass, ∀ fuel, getCorrectionForSource emd signal c fuel =
      (do
        let out ← correctionLoop pass L c.limitIteration fuel 0
        match out with
        | none => pure none
        | some (p, d) => do
          let f ← forceOf d c.reactionMass
          pure (some (p, f))) := by
  unfold getCorrectionForSource
  simp only [hl]
  cases h1 : Axis.array { signal.x with start := signal.x.start + 2 * signal.x.sample } with
  | error e => exact .inl ⟨e, fun fuel => by simp only [except_bind_error]⟩
  | ok t =>
    simp only [except_bind_ok]
    cases h2 : tukeyAT t (some (signal.x.stop * c.windowPercent)) .left with
    | error e => exact .inl ⟨e, fun fuel => by simp only [except_bind_error]⟩
    | ok w =>
      simp only [except_bind_ok]
      cases h3 : Rel.make { signal.x with start := signal.x.start + 2 * signal.x.sample } w with
      | error e => exact .inl ⟨e, fun fuel => by simp only [except_bind_error]⟩
      | ok window =>
        simp only [except_bind_ok]
        cases h4 : displacementOf signal c.reactionMass with
        | error e => exact .inl ⟨e, fun fuel => by simp only [except_bind_error]⟩
        | ok disp =>
          simp only [except_bind_ok]
          cases h5 : firstIMF emd disp with
          | error e => exact .inl ⟨e, fun fuel => by simp only [except_bind_error]⟩
          | ok imf =>
            simp only [except_bind_ok]
            cases h6 : imf.mul (.rel false window) with
            | error e => exact .inl ⟨e, fun fuel => by simp only [except_bind_error]⟩
            | ok imf0 =>
              simp only [except_bind_ok]
              by_cases h7 : imf0.y.length ≠ signal.y.tail.dropLast.length
              · exact .inl ⟨.value, fun fuel => by rw [if_pos h7]⟩
              · exact .inr ⟨correctionPass emd c L { signal.x with start := signal.x.start + 2 * signal.x.sample } window
                  (imf0.y.zip signal.y.tail.dropLast), fun fuel => by rw [if_neg h7]; rfl⟩

/-- **C64** With `limit_iteration = k` the loop ends within `max 1 k` passes, whatever the decomposition does, for all
signals and arguments. -/
theorem C64_bounded (emd : Emd) (signal : Rel ℝ ℝ) (c : CorrArgs) (L : ℝ) (hl : c.limits = some L) (k : ℤ)
    (hk : c.limitIteration = some k) :
    (∀ fuel : ℕ, 0 < fuel → k ≤ fuel → getCorrectionForSource emd signal c fuel ≠ .ok none) ∧
    (∀ fuel p f, getCorrectionForSource emd signal c fuel = .ok (some (p, f)) → 1 ≤ p ∧ (p : ℤ) ≤ max 1 k) := by
  rcases correction_unfold emd signal c L hl with ⟨e, he⟩ | ⟨pass, hp⟩
  · exact ⟨fun fuel _ _ h => (by rw [he] at h; cases h), fun fuel p f h => (by rw [he] at h; cases h)⟩
  · refine ⟨fun fuel h1 h2 h => ?_, fun fuel p f h => ?_⟩
    · rw [hp, hk] at h
      have := correctionLoop_ends pass L k fuel 0 (by push_cast; omega) h1
      cases hc : correctionLoop pass L (some k) fuel 0 with
      | error e => rw [hc] at h; cases h
      | ok out =>
        rw [hc, except_bind_ok] at h
        match out with
        | none => exact this hc
        | some (p, d) =>
          simp only [except_bind_eq_ok] at h
          obtain ⟨f, -, h⟩ := h
          cases h
    · rw [hp] at h
      simp only [except_bind_eq_ok] at h
      obtain ⟨out, h1, h2⟩ := h
      match out with
      | none => cases h2
      | some (p', d) =>
        simp only [except_bind_eq_ok, except_pure, Except.ok.injEq, Option.some.injEq, Prod.mk.injEq] at h2
        obtain ⟨f', -, rfl, rfl⟩ := h2
        obtain ⟨a1, -, -, a4, -⟩ := (correctionLoop_iff _ _ _ _ _ _ _).1 h1
        refine ⟨by omega, ?_⟩
        rcases Nat.lt_or_ge 1 p' with h | h
        · obtain ⟨-, -, -, b⟩ := a4 (p' - 1) (by omega) (by omega)
          have := b k hk
          rw [le_max_iff]
          right
          omega
        · rw [le_max_iff]
          left
          exact_mod_cast h

/-- **C64** The loop is left before the last allowed pass only if every displacement is strictly inside the limit: the
result is the second derivative of such a displacement. Without `limit_iteration` this is the only way out. -/
theorem C64_early (emd : Emd) (signal : Rel ℝ ℝ) (c : CorrArgs) (L : ℝ) (hl : c.limits = some L) (fuel p : ℕ) (f : Rel ℝ ℝ)
    (h : getCorrectionForSource emd signal c fuel = .ok (some (p, f))) (hp : ∀ k, c.limitIteration = some k → (p : ℤ) < k) :
    ∃ d a b : Rel ℝ ℝ, (∀ v ∈ d.y, |v| < L) ∧ d.diff = .ok a ∧ a.diff = .ok b ∧ b.mul (.other (.num c.reactionMass)) = .ok f := by
  rcases correction_unfold emd signal c L hl with ⟨e, he⟩ | ⟨pass, hps⟩
  · rw [he] at h; cases h
  · rw [hps] at h
    simp only [except_bind_eq_ok] at h
    obtain ⟨out, h1, h2⟩ := h
    match out with
    | none => cases h2
    | some (p', d) =>
      simp only [except_bind_eq_ok, except_pure, Except.ok.injEq, Option.some.injEq, Prod.mk.injEq] at h2
      obtain ⟨f', h3, rfl, rfl⟩ := h2
      obtain ⟨-, -, -, -, a5⟩ := (correctionLoop_iff _ _ _ _ _ _ _).1 h1
      simp only [forceOf, except_bind_eq_ok] at h3
      obtain ⟨a, b1, b, b2, b3⟩ := h3
      refine ⟨d, a, b, ?_, b1, b2, b3⟩
      rcases a5 with h | ⟨k, hk1, hk2⟩
      · exact h
      · have := hp k hk1
        omega

/-- **C64** (the bound on passes used by the model does not matter) Once the call has ended, more passes allowed change
nothing. -/
theorem C64_stable (emd : Emd) (signal : Rel ℝ ℝ) (c : CorrArgs) (fuel more : ℕ)
    (h : getCorrectionForSource emd signal c fuel ≠ .ok none) :
    getCorrectionForSource emd signal c (fuel + more) = getCorrectionForSource emd signal c fuel := by
  cases hl : c.limits with
  | none => simp only [getCorrectionForSource, hl]
  | some L =>
    rcases correction_unfold emd signal c L hl with ⟨e, he⟩ | ⟨pass, hp⟩
    · rw [he, he]
    · rw [hp] at h
      rw [hp, hp, correctionLoop_stable]
      intro hc
      rw [hc] at h
      exact h rfl

/-! ## C64: the shape of the result -/

/-- the decomposition returns at least one array, all of the length of the given one -/
def Spec.KeepsLength (emd : Emd) : Prop := ∀ y, ∃ imf rest, emd y = .ok (imf :: rest) ∧ ∀ l ∈ imf :: rest, l.length = y.length

theorem mapM_make (x : Axis ℝ) (l : List (List ℝ)) (h : ∀ y ∈ l, Balanced (⟨x, y⟩ : Rel ℝ ℝ)) :
    (l.mapM fun k => Rel.make x k) = .ok (l.map fun k => (⟨x, k⟩ : Rel ℝ ℝ)) := by
  induction l with
  | nil => rfl
  | cons y l ih =>
    rw [List.mapM_cons, make_ok (h y (by simp)), except_bind_ok, ih (fun z hz => h z (by simp [hz])), except_bind_ok]
    rfl

theorem grid_firstIMF {emd : Emd} (he : KeepsLength emd) {r : Rel ℝ ℝ} {o s : ℝ} (hs : 0 < s) {k : ℤ} {n : ℕ}
    (h : OnGrid r o s k n) : ∃ q, firstIMF emd r = .ok q ∧ OnGrid q o s k n ∧ ∃ rest, emd r.y = .ok (q.y :: rest) := by
  obtain ⟨imf, rest, h1, h2⟩ := he r.y
  have hb : ∀ l ∈ imf :: rest, OnGrid (⟨r.x, l⟩ : Rel ℝ ℝ) o s k n := fun l hl => ⟨h.1, by rw [h2 l hl, h.2]⟩
  refine ⟨⟨r.x, imf⟩, ?_, hb imf (by simp), rest, h1⟩
  simp only [firstIMF, getIMFsEmd, h1, except_bind_ok]
  rw [mapM_make _ _ fun y hy => (hb y hy).balanced hs, except_bind_ok]
  rfl

theorem grid_displacement {r : Rel ℝ ℝ} {o s : ℝ} (hs : 0 < s) {k : ℤ} {n : ℕ} (h : OnGrid r o s k (n + 2)) (m : ℝ)
    (hm : m ≠ 0) : ∃ q, displacementOf r m = .ok q ∧ OnGrid q o s (k + 2) n := by
  obtain ⟨a, h1, h2⟩ := grid_integrate hs (n := n + 1) h
  obtain ⟨b, h3, h4⟩ := grid_integrate hs h2
  obtain ⟨q, h5, h6, -⟩ := grid_div_num hs h4 m hm
  refine ⟨q, ?_, by rwa [show k + 1 + 1 = k + 2 by ring] at h6⟩
  simp only [displacementOf, h1, h3, except_bind_ok, h5]

theorem grid_force {r : Rel ℝ ℝ} {o s : ℝ} (hs : 0 < s) {k : ℤ} {n : ℕ} (h : OnGrid r o s k (n + 2)) (m : ℝ) :
    ∃ q, forceOf r m = .ok q ∧ OnGrid q o s (k + 1) n := by
  obtain ⟨a, b, h1, h2, h3⟩ := grid_diff_diff hs h
  obtain ⟨q, h5, h6, -⟩ := grid_mul_num hs h3 m
  refine ⟨q, ?_, h6⟩
  simp only [forceOf, h1, h2, except_bind_ok, h5]

theorem grid_tukey {x : Axis ℝ} {o s : ℝ} (hs : 0 < s) {k : ℤ} {n : ℕ}
    (h : x = ⟨o + k * s, o + (k + n) * s, s⟩) (tt : ℝ) (loc : Location) :
    ∃ t w, x.array = .ok t ∧ tukeyAT t (some tt) loc = .ok w ∧ Rel.make x w = .ok ⟨x, w⟩ ∧ OnGrid (⟨x, w⟩ : Rel ℝ ℝ) o s k n := by
  have hg : OnGrid (⟨x, List.replicate (n + 1) 0⟩ : Rel ℝ ℝ) o s k n := ⟨h, by simp⟩
  have ht := hg.array hs
  obtain ⟨c1, c2, -⟩ := C52_shape ((List.range (n + 1)).map fun i : ℕ => o + (k + i) * s) (some tt) loc
  obtain ⟨w, hw⟩ := c2 (.inl (by simp))
  have hg' : OnGrid (⟨x, w⟩ : Rel ℝ ℝ) o s k n := ⟨h, by simpa using (c1 w hw).1⟩
  exact ⟨_, w, ht, hw, make_ok (hg'.balanced hs), hg'⟩

theorem softClipTimes_ok (L p co : ℝ) (hl : 0 < L) (hp : 0 ≤ p) (n : ℕ) (data : List (ℝ × ℝ)) (hd : data ≠ []) :
    ∃ r, softClipTimes L p co n data = .ok r ∧ r.length = data.length := by
  induction n generalizing data with
  | zero => exact ⟨data, rfl, rfl⟩
  | succ n ih =>
    obtain ⟨r, h1, h2, -⟩ := (C63_succeeds data L p co hl hp).2 hd
    obtain ⟨r', h3, h4⟩ := ih r (by
      intro h
      rw [h] at h2
      exact hd (List.length_eq_zero_iff.1 h2.symm))
    exact ⟨r', by simp only [softClipTimes, h1, except_bind_ok, h3], by rw [h4, h2]⟩

theorem grid_pass {emd : Emd} (he : KeepsLength emd) (c : CorrArgs) (L : ℝ) (hL : 0 < L) (hp : 0 ≤ c.limitsPercent)
    (hm : c.reactionMass ≠ 0) {o s : ℝ} (hs : 0 < s) {k : ℤ} {n : ℕ} (window : Rel ℝ ℝ) (hw : OnGrid window o s k (n + 2))
    (dArray : List (ℝ × ℝ)) (hd : dArray.length = n + 3) (cnt : ℕ) :
    ∃ q imf, correctionPass emd c L window.x window dArray cnt = .ok q ∧ OnGrid q o s k (n + 2) ∧
      OnGrid imf o s (k + 2) n ∧ (∃ y rest, emd y = .ok (imf.y :: rest)) ∧
      ∀ j : ℤ, zext q.y (j - k) = zext imf.y (j - (k + 2)) * zext window.y (j - k) := by
  obtain ⟨r, h1, h2⟩ := softClipTimes_ok L c.limitsPercent (c.coefficientFunction cnt) hL hp cnt dArray (by
    rintro rfl; simp at hd)
  have hf : OnGrid (⟨window.x, r.map Prod.snd⟩ : Rel ℝ ℝ) o s k (n + 2) := ⟨hw.1, by rw [List.length_map, h2, hd]⟩
  obtain ⟨disp, h3, h4⟩ := grid_displacement hs hf c.reactionMass hm
  obtain ⟨imf, h5, h6, rest, h7⟩ := grid_firstIMF he hs h4
  obtain ⟨q, h8, h9, h10⟩ := grid_mul hs h6 hw
  have hk : min (k + 2) k = k := by omega
  rw [hk] at h9 h10
  have hn : (max (k + 2 + (n : ℤ)) (k + ((n + 2 : ℕ) : ℤ)) - k).toNat = n + 2 := by push_cast; omega
  rw [hn] at h9
  refine ⟨q, imf, ?_, h9, h6, ⟨_, rest, h7⟩, h10⟩
  simp only [correctionPass, h1, except_bind_ok, make_ok (hf.balanced hs), h3, h5, h8]

/-- everything before and inside the loop succeeds on a signal with `n + 5` samples -/
theorem correction_grid {emd : Emd} (he : KeepsLength emd) (signal : Rel ℝ ℝ) (c : CorrArgs) (hm : c.reactionMass ≠ 0)
    (n : ℕ) (hs : 0 < signal.x.sample) (hx : signal.x.stop = signal.x.start + (n + 4) * signal.x.sample)
    (hy : signal.y.length = n + 5) :
    ∃ window imf0 : Rel ℝ ℝ, ∃ dArray : List (ℝ × ℝ), ∃ t : List ℝ,
      OnGrid window signal.x.start signal.x.sample 2 (n + 2) ∧
      OnGrid imf0 signal.x.start signal.x.sample 2 (n + 2) ∧ dArray.length = n + 3 ∧
      tukeyAT t (some (signal.x.stop * c.windowPercent)) .left = .ok window.y ∧ window.x.array = .ok t ∧
      (∀ fuel, getCorrectionForSource emd signal c fuel = match c.limits with
        | none => do
          let f ← forceOf imf0 c.reactionMass
          pure (some (0, f))
        | some limits => do
          let out ← correctionLoop (correctionPass emd c limits window.x window dArray) limits c.limitIteration fuel 0
          match out with
          | none => pure none
          | some (p, d) => do
            let f ← forceOf d c.reactionMass
            pure (some (p, f))) := by
  have hg : OnGrid signal signal.x.start signal.x.sample 0 (n + 2 + 2) := by
    refine ⟨?_, by rw [hy]⟩
    rcases hxx : signal.x with ⟨a, b, d⟩
    rw [hxx] at hx
    simp only [Axis.mk.injEq, and_true] at hx ⊢
    rw [hx]
    push_cast
    exact ⟨by ring, by ring⟩
  have hnt : (⟨signal.x.start + 2 * signal.x.sample, signal.x.stop, signal.x.sample⟩ : Axis ℝ) =
      ⟨signal.x.start + ((2 : ℤ) : ℝ) * signal.x.sample,
        signal.x.start + (((2 : ℤ) : ℝ) + ((n + 2 : ℕ) : ℝ)) * signal.x.sample, signal.x.sample⟩ := by
    rw [hx]
    simp only [Axis.mk.injEq, and_true]
    push_cast
    exact ⟨by ring, by ring⟩
  obtain ⟨t, w, h1, h2, h3, h4⟩ := grid_tukey hs hnt (signal.x.stop * c.windowPercent) .left
  obtain ⟨disp, h5, h6⟩ := grid_displacement hs hg c.reactionMass hm
  rw [zero_add] at h6
  obtain ⟨imf, h7, h8, -⟩ := grid_firstIMF he hs h6
  obtain ⟨imf0, h9, h10, -⟩ := grid_mul hs h8 h4
  have hn : (max (2 + ((n + 2 : ℕ) : ℤ)) (2 + ((n + 2 : ℕ) : ℤ)) - 2).toNat = n + 2 := by push_cast; omega
  rw [min_self, hn] at h10
  have hlen : ¬ imf0.y.length ≠ signal.y.tail.dropLast.length := by
    rw [h10.2, List.length_dropLast, List.length_tail, hy]; omega
  refine ⟨_, imf0, imf0.y.zip signal.y.tail.dropLast, t, h4, h10, ?_, h2, h1, fun fuel => ?_⟩
  · rw [List.length_zip, h10.2, List.length_dropLast, List.length_tail, hy]; omega
  · simp only [getCorrectionForSource, h1, except_bind_ok, h2, h3, h5, h7, h9, if_neg hlen]
    cases c.limits <;> rfl

/-- **C64** The result of a call on a signal of `n ≥ 5` samples with any decomposition that keeps the length lives on
`[start + 3 * sample, end - sample]` with four samples less. -/
theorem C64_shape {emd : Emd} (he : KeepsLength emd) (signal : Rel ℝ ℝ) (c : CorrArgs) (hm : c.reactionMass ≠ 0)
    (hl : ∀ L, c.limits = some L → 0 < L) (hp : 0 ≤ c.limitsPercent) (n : ℕ) (hn : 5 ≤ n) (hs : 0 < signal.x.sample)
    (hx : signal.x.stop = signal.x.start + ((n : ℝ) - 1) * signal.x.sample) (hy : signal.y.length = n) (fuel p : ℕ)
    (f : Rel ℝ ℝ) (h : getCorrectionForSource emd signal c fuel = .ok (some (p, f))) :
    f.x = ⟨signal.x.start + 3 * signal.x.sample, signal.x.stop - signal.x.sample, signal.x.sample⟩ ∧ f.y.length = n - 4 ∧
      Balanced f := by
  obtain ⟨n, rfl⟩ : ∃ m, n = m + 5 := ⟨n - 5, by omega⟩
  have hx' : signal.x.stop = signal.x.start + (n + 4) * signal.x.sample := by
    rw [hx]; push_cast; ring
  obtain ⟨window, imf0, dArray, t, h1, h2, h3, -, -, h4⟩ := correction_grid he signal c hm n hs hx' hy
  rw [h4] at h
  have hfin : ∀ d : Rel ℝ ℝ, OnGrid d signal.x.start signal.x.sample 2 (n + 2) → forceOf d c.reactionMass = .ok f →
      f.x = ⟨signal.x.start + 3 * signal.x.sample, signal.x.stop - signal.x.sample, signal.x.sample⟩ ∧
        f.y.length = n + 5 - 4 ∧ Balanced f := by
    intro d hd hf
    obtain ⟨q, e1, e2⟩ := grid_force hs hd c.reactionMass
    rw [e1, Except.ok.injEq] at hf
    subst hf
    refine ⟨?_, by rw [e2.2]; omega, e2.balanced hs⟩
    rw [e2.1, hx']
    simp only [Axis.mk.injEq, and_true]
    push_cast
    exact ⟨by ring, by ring⟩
  cases hlim : c.limits with
  | none =>
    rw [hlim] at h
    simp only [except_bind_eq_ok, except_pure, Except.ok.injEq, Option.some.injEq, Prod.mk.injEq] at h
    obtain ⟨f', h5, -, rfl⟩ := h
    exact hfin _ h2 h5
  | some L =>
    rw [hlim] at h
    simp only [except_bind_eq_ok] at h
    obtain ⟨out, h5, h6⟩ := h
    match out with
    | none => cases h6
    | some (p', d) =>
      simp only [except_bind_eq_ok, except_pure, Except.ok.injEq, Option.some.injEq, Prod.mk.injEq] at h6
      obtain ⟨f', h7, -, rfl⟩ := h6
      obtain ⟨-, -, a3, -, -⟩ := (correctionLoop_iff _ _ _ _ _ _ _).1 h5
      obtain ⟨q, -, e1, e2, -⟩ := grid_pass he c L (hl L hlim) hp hm hs window h1 dArray h3 p'
      rw [e1, Except.ok.injEq] at a3
      subst a3
      exact hfin _ e2 h7

/-- **C64** On such signals nothing raises: with `limit_iteration = k` (or without limits) there is a result. -/
theorem C64_succeeds {emd : Emd} (he : KeepsLength emd) (signal : Rel ℝ ℝ) (c : CorrArgs) (hm : c.reactionMass ≠ 0)
    (hl : ∀ L, c.limits = some L → 0 < L) (hp : 0 ≤ c.limitsPercent) (n : ℕ) (hn : 5 ≤ n) (hs : 0 < signal.x.sample)
    (hx : signal.x.stop = signal.x.start + ((n : ℝ) - 1) * signal.x.sample) (hy : signal.y.length = n) (k : ℤ)
    (hk : c.limitIteration = some k) (fuel : ℕ) (h0 : 0 < fuel) (hf : k ≤ fuel) :
    ∃ p f, getCorrectionForSource emd signal c fuel = .ok (some (p, f)) := by
  obtain ⟨n, rfl⟩ : ∃ m, n = m + 5 := ⟨n - 5, by omega⟩
  have hx' : signal.x.stop = signal.x.start + (n + 4) * signal.x.sample := by
    rw [hx]; push_cast; ring
  obtain ⟨window, imf0, dArray, t, h1, h2, h3, -, -, h4⟩ := correction_grid he signal c hm n hs hx' hy
  rw [h4]
  cases hlim : c.limits with
  | none =>
    obtain ⟨q, e1, -⟩ := grid_force hs h2 c.reactionMass
    exact ⟨0, q, by simp only [e1, except_bind_ok, except_pure]⟩
  | some L =>
    have hpass : ∀ cnt, ∃ q, correctionPass emd c L window.x window dArray cnt = .ok q ∧
        OnGrid q signal.x.start signal.x.sample 2 (n + 2) := fun cnt => by
      obtain ⟨q, -, e1, e2, -⟩ := grid_pass he c L (hl L hlim) hp hm hs window h1 dArray h3 cnt
      exact ⟨q, e1, e2⟩
    have hloop : ∀ (fuel cnt : ℕ), ∃ out,
        correctionLoop (correctionPass emd c L window.x window dArray) L c.limitIteration fuel cnt = .ok out := by
      intro fuel
      induction fuel with
      | zero => exact fun cnt => ⟨none, rfl⟩
      | succ fuel ih =>
        intro cnt
        obtain ⟨q, e1, -⟩ := hpass (cnt + 1)
        simp only [correctionLoop, e1, except_bind_ok]
        split
        · exact ⟨_, rfl⟩
        · split
          · exact ⟨_, rfl⟩
          · exact ih (cnt + 1)
    obtain ⟨out, ho⟩ := hloop fuel 0
    have hne := correctionLoop_ends (correctionPass emd c L window.x window dArray) L k fuel 0 (by push_cast; omega) h0
    rw [← hk, ho] at hne
    match out, hne, ho with
    | some (p, d), _, ho =>
      obtain ⟨-, -, a3, -, -⟩ := (correctionLoop_iff _ _ _ _ _ _ _).1 ho
      obtain ⟨q, e1, e2⟩ := hpass p
      rw [e1, Except.ok.injEq] at a3
      subst a3
      obtain ⟨f, e3, -⟩ := grid_force hs e2 c.reactionMass
      exact ⟨p, f, by simp only [ho, except_bind_ok, e3, except_pure]⟩

theorem tukey_left_last (time : List ℝ) (tt : ℝ) (w : List ℝ) (hne : time ≠ []) (h : tukeyAT time (some tt) .left = .ok w) :
    w.getD (time.length - 1) 0 = 1 := by
  have hl := List.length_pos_of_ne_nil hne
  simp only [tukeyAT, except_bind_eq_ok, except_pure, Except.ok.injEq] at h
  obtain ⟨alpha, -, rfl⟩ := h
  rw [getD_lt _ _ _ (by simp [tukey_length]; omega), List.getElem_append_right (by simp [tukey_length]; omega)]
  simp

/-- **C64** Without `limit_iteration` the call may run for ever: for every signal there is a decomposition that keeps the
length with which no number of passes is enough. -/
theorem C64_may_not_end (signal : Rel ℝ ℝ) (c : CorrArgs) (hm : c.reactionMass ≠ 0) (L : ℝ)
    (hl : c.limits = some L) (hL : 0 < L) (hp : 0 ≤ c.limitsPercent) (hk : c.limitIteration = none) (n : ℕ) (hn : 5 ≤ n)
    (hs : 0 < signal.x.sample) (hx : signal.x.stop = signal.x.start + ((n : ℝ) - 1) * signal.x.sample)
    (hy : signal.y.length = n) :
    ∃ emd, KeepsLength emd ∧ ∀ fuel, getCorrectionForSource emd signal c fuel = .ok none := by
  obtain ⟨n, rfl⟩ : ∃ m, n = m + 5 := ⟨n - 5, by omega⟩
  have hx' : signal.x.stop = signal.x.start + (n + 4) * signal.x.sample := by
    rw [hx]; push_cast; ring
  have he : KeepsLength (fun y => .ok [List.replicate y.length (L + 1)]) := fun y => ⟨_, _, rfl, by simp⟩
  refine ⟨_, he, fun fuel => ?_⟩
  obtain ⟨window, imf0, dArray, t, h1, h2, h3, h4, h5, h6⟩ := correction_grid he signal c hm n hs hx' hy
  rw [h6, hl]
  have hlast : zext window.y ((n : ℤ) + 2) = 1 := by
    have h7 : t.length = n + 3 := by
      have := (C52_shape t (some (signal.x.stop * c.windowPercent)) .left).1 _ h4
      rw [← this.1, h1.2]
    have := tukey_left_last t _ _ (by rintro rfl; simp at h7) h4
    rw [h7] at this
    rw [show (n : ℤ) + 2 = ((n + 2 : ℕ) : ℤ) by push_cast; ring, zext_natCast]
    exact this
  have hout : ∀ cnt d, correctionPass (fun y => .ok [List.replicate y.length (L + 1)]) c L window.x window dArray cnt = .ok d →
      ¬ ∀ v ∈ d.y, |v| < L := by
    intro cnt d hd hin
    obtain ⟨q, imf, e1, e2, e3, ⟨y, rest, e4⟩, e5⟩ := grid_pass he c L hL hp hm hs window h1 dArray h3 cnt
    rw [e1, Except.ok.injEq] at hd
    subst hd
    have e6 := e5 ((n : ℤ) + 4)
    rw [show (n : ℤ) + 4 - 2 = n + 2 by ring, show (n : ℤ) + 4 - (2 + 2) = n by ring, hlast, mul_one, zext_natCast,
      show (n : ℤ) + 2 = ((n + 2 : ℕ) : ℤ) by push_cast; ring, zext_natCast] at e6
    have e7 : imf.y.getD n 0 = L + 1 := by
      simp only [Except.ok.injEq, List.cons.injEq] at e4
      have hlen := e3.2
      rw [← e4.1] at hlen ⊢
      rw [getD_lt _ _ _ (by rw [hlen]; omega)]
      simp
    rw [e7, getD_lt _ _ _ (by rw [e2.2]; omega)] at e6
    have := hin _ (List.getElem_mem (by rw [e2.2]; omega : n + 2 < q.y.length))
    rw [e6, abs_of_pos (by linarith)] at this
    linarith
  have hloop : ∀ fuel cnt : ℕ, correctionLoop (correctionPass (fun y => .ok [List.replicate y.length (L + 1)]) c L window.x
      window dArray) L c.limitIteration fuel cnt = .ok none := by
    intro fuel
    induction fuel with
    | zero => exact fun _ => rfl
    | succ fuel ih =>
      intro cnt
      obtain ⟨q, imf, e1, -⟩ := grid_pass he c L hL hp hm hs window h1 dArray h3 (cnt + 1)
      simp only [correctionLoop, e1, except_bind_ok]
      rw [if_neg (hout _ _ e1), if_neg (by rw [hk]; simp)]
      exact ih (cnt + 1)
  simp only [hloop, except_bind_ok, except_pure]

/-- five samples, limit 1, at most three passes, the decomposition that returns its input -/
example : ∃ p f, getCorrectionForSource (fun y => .ok [y]) ⟨⟨0, 4, 1⟩, [0, 1, 0, -1, 0]⟩
      ⟨1, some 1, 17 / 20, some 3, 1 / 100, fun n => n⟩ 3 = .ok (some (p, f)) ∧ p ≤ 3 ∧ f.x = ⟨3, 3, 1⟩ ∧ f.y.length = 1 := by
  have he : KeepsLength (fun y => .ok [y]) := fun y => ⟨y, [], rfl, by simp⟩
  obtain ⟨p, f, h⟩ := C64_succeeds he ⟨⟨0, 4, 1⟩, [0, 1, 0, -1, 0]⟩ ⟨1, some 1, 17 / 20, some 3, 1 / 100, fun n => n⟩
    (by norm_num) (by intro L hL; simp only [Option.some.injEq] at hL; rw [← hL]; norm_num) (by norm_num) 5 le_rfl (by norm_num)
    (by norm_num) rfl 3 rfl 3 (by norm_num) (by norm_num)
  have h1 := (C64_bounded (fun y => .ok [y]) ⟨⟨0, 4, 1⟩, [0, 1, 0, -1, 0]⟩ ⟨1, some 1, 17 / 20, some 3, 1 / 100, fun n => n⟩ 1 rfl
    3 rfl).2 3 p f h
  have h2 := C64_shape he ⟨⟨0, 4, 1⟩, [0, 1, 0, -1, 0]⟩ ⟨1, some 1, 17 / 20, some 3, 1 / 100, fun n => n⟩
    (by norm_num) (by intro L hL; simp only [Option.some.injEq] at hL; rw [← hL]; norm_num) (by norm_num) 5 le_rfl (by norm_num)
    (by norm_num) rfl 3 p f h
  refine ⟨p, f, h, ?_, ?_, h2.2.1⟩
  · have := h1.2
    norm_num at this
    exact_mod_cast this
  · rw [h2.1]; norm_num

/-! ## C65 -/

theorem sweep_grid (signal : Rel ℝ ℝ) (n : ℕ) (hx : signal.x.stop = signal.x.start + ((n + 5 : ℕ) - 1 : ℝ) * signal.x.sample)
    (hy : signal.y.length = n + 5) : OnGrid signal signal.x.start signal.x.sample 0 (n + 2 + 2) := by
  refine ⟨?_, by rw [hy]⟩
  rcases hxx : signal.x with ⟨a, b, d⟩
  rw [hxx] at hx
  simp only [Axis.mk.injEq, and_true] at hx ⊢
  rw [hx]
  push_cast
  exact ⟨by ring, by ring⟩

/-- **C65** `correct_sweep` without a start window, on a signal of `n ≥ 5` samples. -/
theorem C65_no_window {emd : Emd} (he : KeepsLength emd) (signal : Rel ℝ ℝ) (n : ℕ) (hn : 5 ≤ n) (hs : 0 < signal.x.sample)
    (hx : signal.x.stop = signal.x.start + ((n : ℝ) - 1) * signal.x.sample) (hy : signal.y.length = n) :
    ∃ q, correctSweep emd signal none = .ok q ∧ q.y.length = n - 4 ∧ Balanced q ∧
      q.x = ⟨signal.x.start + 3 * signal.x.sample, signal.x.stop - signal.x.sample, signal.x.sample⟩ := by
  obtain ⟨n, rfl⟩ : ∃ m, n = m + 5 := ⟨n - 5, by omega⟩
  have hg := sweep_grid signal n hx hy
  obtain ⟨a, h1, h2⟩ := grid_integrate hs (n := n + 2 + 1) hg
  obtain ⟨d, h3, h4⟩ := grid_integrate hs h2
  obtain ⟨imf, h5, h6, -⟩ := grid_firstIMF he hs h4
  obtain ⟨b, q, h7, h8, h9⟩ := grid_diff_diff hs h6
  refine ⟨q, ?_, by rw [h9.2]; omega, h9.balanced hs, ?_⟩
  · simp only [correctSweep, h1, h3, except_bind_ok, h4.array hs, h5, except_pure, h7, h8]
  · rw [h9.1, hx]
    simp only [Axis.mk.injEq, and_true]
    push_cast
    exact ⟨by ring, by ring⟩

/-- **C65** A decomposition that returns no modes: `get_IMFs_emd(...)[0]` raises `IndexError`, with and without a start
window. -/
theorem C65_no_modes (signal : Rel ℝ ℝ) (n : ℕ) (hn : 5 ≤ n) (hs : 0 < signal.x.sample)
    (hx : signal.x.stop = signal.x.start + ((n : ℝ) - 1) * signal.x.sample) (hy : signal.y.length = n) (startWindow : Option ℝ) :
    correctSweep (fun _ => .ok []) signal startWindow = .error .index := by
  obtain ⟨n, rfl⟩ : ∃ m, n = m + 5 := ⟨n - 5, by omega⟩
  have hg := sweep_grid signal n hx hy
  obtain ⟨a, h1, h2⟩ := grid_integrate hs (n := n + 2 + 1) hg
  obtain ⟨d, h3, h4⟩ := grid_integrate hs h2
  simp [correctSweep, h1, h3, h4.array hs, firstIMF, getIMFsEmd]

/-- the window of `correct_sweep` as a signal: the step of its axis is rounded -/
theorem sweep_window {emd : Emd} (he : KeepsLength emd) (signal : Rel ℝ ℝ) (n : ℕ) (hs : 0 < signal.x.sample)
    (hx : signal.x.stop = signal.x.start + ((n + 5 : ℕ) - 1 : ℝ) * signal.x.sample) (hy : signal.y.length = n + 5) (tt : ℝ) :
    ∃ x w, ∃ imf : Rel ℝ ℝ, OnGrid imf signal.x.start signal.x.sample 2 (n + 2) ∧ x.length = n + 3 ∧
      EvenlySpaced x (signal.x.start + 2 * signal.x.sample) signal.x.sample (n + 3) ∧ w.length = n + 3 ∧
      correctSweep emd signal (some tt) = (do
        let ws ← Rel.init (.array x true) (some w)
        let d ← imf.mul (.rel false ws)
        let b ← d.diff
        b.diff) := by
  have hg := sweep_grid signal n hx hy
  obtain ⟨a, h1, h2⟩ := grid_integrate hs (n := n + 2 + 1) hg
  obtain ⟨d, h3, h4⟩ := grid_integrate hs h2
  obtain ⟨imf, h5, h6, -⟩ := grid_firstIMF he hs h4
  have h7 := h4.array hs
  obtain ⟨c1, c2, -⟩ := C52_shape ((List.range (n + 2 + 1)).map fun i : ℕ =>
    signal.x.start + (((0 + 1 + 1 : ℤ) : ℝ) + i) * signal.x.sample) (some tt) .left
  obtain ⟨w, hw⟩ := c2 (.inl (by simp))
  refine ⟨(List.range (n + 2 + 1)).map fun i : ℕ => signal.x.start + (((0 + 1 + 1 : ℤ) : ℝ) + i) * signal.x.sample, w, imf, h6,
    by simp, ⟨by simp, fun i hi => ?_⟩, by simpa using (c1 w hw).1, ?_⟩
  · rw [List.getElem_map, List.getElem_range]
    push_cast; ring
  · simp only [correctSweep, h1, h3, except_bind_ok, h7, h5, hw, bind_assoc]

/-- **C65** With a start window, what is missing from the full claim: the rounded step `t` of the window's axis must not
be smaller than the sample, and rounding must not change the number of points. -/
theorem C65_window_partial {emd : Emd} (he : KeepsLength emd) (signal : Rel ℝ ℝ) (n : ℕ) (hn : 5 ≤ n) (hs : 0 < signal.x.sample)
    (hx : signal.x.stop = signal.x.start + ((n : ℝ) - 1) * signal.x.sample) (hy : signal.y.length = n) (tt t : ℝ)
    (ht : RoundedStep signal.x.sample t) (hle : signal.x.sample ≤ t)
    (hacc : NearestEven (((n : ℝ) - 3) * signal.x.sample / t) ((n : ℤ) - 3)) :
    ∃ q, correctSweep emd signal (some tt) = .ok q ∧ q.y.length = n - 4 ∧ Balanced q ∧
      q.x = ⟨signal.x.start + 3 * signal.x.sample, signal.x.stop - signal.x.sample, signal.x.sample⟩ := by
  obtain ⟨n, rfl⟩ : ∃ m, n = m + 5 := ⟨n - 5, by omega⟩
  obtain ⟨x, w, imf, h1, h2, h3, h4, h5⟩ := sweep_window he signal n hs hx hy tt
  obtain ⟨ws, a1, a2, a3, a4⟩ := (C05_rounded_acceptance x w _ _ t (n + 3) h3 h4 (by omega) hs ht).1 (by
    have e1 : (((n + 5 : ℕ) : ℝ) - 3) = ((n + 3 : ℕ) : ℝ) - 1 := by push_cast; ring
    have e2 : (((n + 5 : ℕ) : ℤ) - 3) = ((n + 3 : ℕ) : ℤ) - 1 := by push_cast; ring
    rwa [e1, e2] at hacc)
  have hwd : ws.getData = .ok (x, w) := (getData_ok_iff _ _ _).2 ⟨a2, a3.symm, by rw [h2, h4]⟩
  have hid : imf.getData = .ok (_, imf.y) := (getData_ok_iff _ _ _).2 ⟨h1.array hs, rfl, by simp [h1.2]⟩
  obtain ⟨c1, -, c3⟩ := C25_different_axes _ _ _ _ _ _ hid hwd .mul
  obtain ⟨d, hd⟩ := c3 (.inr (.inr rfl))
  obtain ⟨e1, e2, e3, xs, e4, -⟩ := c1 d hd
  have hws0 : ws.x.sample ≠ 0 := by rw [a4]; linarith
  obtain ⟨l, -, -, b1, -, -, -, b2, b3, -⟩ := C02_array_shape ws.x hws0
  rw [a2, Except.ok.injEq] at b1
  subst b1
  rw [h3.head (by omega)] at b2
  have b3 := b3 (by omega)
  rw [h3.last (by omega)] at b3
  simp only [Option.some.injEq] at b2 b3
  have hdx : d.x = ⟨signal.x.start + ((2 : ℤ) : ℝ) * signal.x.sample,
      signal.x.start + (((2 : ℤ) : ℝ) + ((n + 2 : ℕ) : ℝ)) * signal.x.sample, signal.x.sample⟩ := by
    rw [← b2, h1.1] at e1
    rw [← b3, h1.1] at e2
    rw [a4, h1.1] at e3
    rcases hdd : d.x with ⟨p1, p2, p3⟩
    rw [hdd] at e1 e2 e3
    simp only at e1 e2 e3
    rw [Axis.mk.injEq]
    refine ⟨?_, ?_, ?_⟩
    · rw [e1]; push_cast; rw [min_self]
    · rw [e2]; push_cast
      rw [max_eq_left]
      apply le_of_eq; ring
    · rw [e3, min_eq_left hle]
  have hdg : OnGrid d signal.x.start signal.x.sample 2 (n + 2) := by
    refine ⟨hdx, ?_⟩
    have hb : Balanced d := (balanced_iff_getData _).2 ⟨_, e4⟩
    have hb' : Balanced (⟨d.x, imf.y⟩ : Rel ℝ ℝ) := by
      have : OnGrid (⟨d.x, imf.y⟩ : Rel ℝ ℝ) signal.x.start signal.x.sample 2 (n + 2) := ⟨hdx, h1.2⟩
      exact this.balanced hs
    rw [balanced_length_eq hb hb' rfl]
    exact h1.2
  obtain ⟨b, q, f1, f2, f3⟩ := grid_diff_diff hs hdg
  refine ⟨q, ?_, by rw [f3.2]; omega, f3.balanced hs, ?_⟩
  · rw [h5, a1, except_bind_ok]
    simp only [Rel.mul, hd, except_bind_ok, f1, f2]
  · rw [f3.1, hx]
    simp only [Axis.mk.injEq, and_true]
    push_cast
    exact ⟨by ring, by ring⟩

/-- **C72** In particular with a start window for samples that are a whole number or the reciprocal of one. -/
theorem C72_whole_or_reciprocal {emd : Emd} (he : KeepsLength emd) (signal : Rel ℝ ℝ) (n : ℕ) (hn : 5 ≤ n) (k : ℕ)
    (hk : 0 < k) (hs : signal.x.sample = k ∨ signal.x.sample = 1 / k)
    (hx : signal.x.stop = signal.x.start + ((n : ℝ) - 1) * signal.x.sample) (hy : signal.y.length = n) (tt : ℝ) :
    ∃ q, correctSweep emd signal (some tt) = .ok q ∧ q.y.length = n - 4 ∧ Balanced q ∧
      q.x = ⟨signal.x.start + 3 * signal.x.sample, signal.x.stop - signal.x.sample, signal.x.sample⟩ := by
  have hkK : (0 : ℝ) < k := by exact_mod_cast hk
  have hk1 : (1 : ℝ) ≤ k := by exact_mod_cast hk
  have hd : 0 < signal.x.sample := by rcases hs with h | h <;> rw [h] <;> positivity
  have hnear : ∀ m : ℤ, NearestEven (m : ℝ) m := fun m => (pyRound_eq_iff _ _).1 (pyRound_intCast m)
  have hr : RoundedStep signal.x.sample signal.x.sample := by
    rcases hs with h | h <;> rw [h]
    · exact Or.inr ⟨hk1, k, by simpa using hnear k, by simp⟩
    · rcases eq_or_lt_of_le hk1 with h | h
      · refine Or.inr ⟨by rw [← h]; simp, 1, ?_, ?_⟩
        · rw [← h]; simpa using hnear 1
        · rw [← h]; simp
      · exact Or.inl ⟨by rw [div_lt_one hkK]; exact h, k, by simpa using hnear k, by simp⟩
  refine C65_window_partial he signal n hn hd hx hy tt _ hr le_rfl ?_
  rw [mul_div_assoc, div_self hd.ne', mul_one]
  have := hnear ((n : ℤ) - 3)
  push_cast at this
  exact this

/-- **C72** If rounding the step changes the number of points, the call with a start window raises `NotEqualError`, for
every signal and decomposition. -/
theorem C72_rejected {emd : Emd} (he : KeepsLength emd) (signal : Rel ℝ ℝ) (n : ℕ) (hn : 5 ≤ n)
    (hs : 0 < signal.x.sample) (hx : signal.x.stop = signal.x.start + ((n : ℝ) - 1) * signal.x.sample)
    (hy : signal.y.length = n) (tt t : ℝ) (ht : RoundedStep signal.x.sample t)
    (hacc : ¬ NearestEven (((n : ℝ) - 3) * signal.x.sample / t) ((n : ℤ) - 3)) :
    ∃ m, m ≠ n - 2 ∧ correctSweep emd signal (some tt) = .error (.notEqual m (n - 2)) := by
  obtain ⟨n, rfl⟩ : ∃ m, n = m + 5 := ⟨n - 5, by omega⟩
  obtain ⟨x, w, imf, h1, h2, h3, h4, h5⟩ := sweep_window he signal n hs hx hy tt
  obtain ⟨m, hm, h6⟩ := (C05_rounded_acceptance x w _ _ t (n + 3) h3 h4 (by omega) hs ht).2 (by
    have e1 : (((n + 5 : ℕ) : ℝ) - 3) = ((n + 3 : ℕ) : ℝ) - 1 := by push_cast; ring
    have e2 : (((n + 5 : ℕ) : ℤ) - 3) = ((n + 3 : ℕ) : ℤ) - 1 := by push_cast; ring
    rwa [e1, e2] at hacc)
  exact ⟨m, hm, by rw [h5, h6, except_bind_error]; rfl⟩

/-- **C72** If the rounded step is smaller than the sample, a result has the rounded step as its sample. -/
theorem C72_sample {emd : Emd} (he : KeepsLength emd) (signal : Rel ℝ ℝ) (n : ℕ) (hn : 5 ≤ n)
    (hs : 0 < signal.x.sample) (hx : signal.x.stop = signal.x.start + ((n : ℝ) - 1) * signal.x.sample)
    (hy : signal.y.length = n) (tt t : ℝ) (ht : RoundedStep signal.x.sample t) (hlt : t < signal.x.sample) (q : Rel ℝ ℝ)
    (hq : correctSweep emd signal (some tt) = .ok q) : q.x.sample = t := by
  obtain ⟨n, rfl⟩ : ∃ m, n = m + 5 := ⟨n - 5, by omega⟩
  obtain ⟨x, w, imf, h1, h2, h3, h4, h5⟩ := sweep_window he signal n hs hx hy tt
  rw [h5] at hq
  simp only [except_bind_eq_ok] at hq
  obtain ⟨ws, b1, d, b2, b, b3, b4⟩ := hq
  by_cases hacc : NearestEven ((((n + 3 : ℕ) : ℝ) - 1) * signal.x.sample / t) (((n + 3 : ℕ) : ℤ) - 1)
  · obtain ⟨ws', a1, a2, a3, a4⟩ := (C05_rounded_acceptance x w _ _ t (n + 3) h3 h4 (by omega) hs ht).1 hacc
    rw [b1, Except.ok.injEq] at a1
    subst a1
    have hwd : ws.getData = .ok (x, w) := (getData_ok_iff _ _ _).2 ⟨a2, a3.symm, by rw [h2, h4]⟩
    have hid : imf.getData = .ok (_, imf.y) := (getData_ok_iff _ _ _).2 ⟨h1.array hs, rfl, by simp [h1.2]⟩
    obtain ⟨c1, -, -⟩ := C25_different_axes _ _ _ _ _ _ hid hwd .mul
    obtain ⟨-, -, e3, -⟩ := c1 d b2
    rw [(C14_diff_values _ _ b4).2.2.1, (C14_diff_values _ _ b3).2.2.1, e3, a4, h1.1, min_eq_right hlt.le]
  · obtain ⟨m, -, h6⟩ := (C05_rounded_acceptance x w _ _ t (n + 3) h3 h4 (by omega) hs ht).2 hacc
    rw [b1] at h6
    cases h6

/-- **C65** A signal with sample 0.7 is accepted without and rejected with a start window. -/
theorem C65_window_witness {emd : Emd} (he : KeepsLength emd) (tt : ℝ) :
    (∃ q, correctSweep emd ⟨⟨0, 28 / 10, 7 / 10⟩, [0, 1, 0, -1, 0]⟩ none = .ok q) ∧
    ∃ e, correctSweep emd ⟨⟨0, 28 / 10, 7 / 10⟩, [0, 1, 0, -1, 0]⟩ (some tt) = .error e := by
  have hr : RoundedStep (7 / 10 : ℝ) 1 := by
    refine Or.inl ⟨by norm_num, 1, ?_, by norm_num⟩
    rw [← pyRound_eq_iff]
    have : ⌊(1 / (7 / 10) : ℝ)⌋ = 1 := by rw [Int.floor_eq_iff]; norm_num
    unfold pyRound
    simp only [this]
    norm_num
  constructor
  · obtain ⟨q, h, -⟩ := C65_no_window he ⟨⟨0, 28 / 10, 7 / 10⟩, [0, 1, 0, -1, 0]⟩ 5 le_rfl (by norm_num) (by norm_num) rfl
    exact ⟨q, h⟩
  · obtain ⟨m, -, h⟩ := C72_rejected he ⟨⟨0, 28 / 10, 7 / 10⟩, [0, 1, 0, -1, 0]⟩ 5 le_rfl (by norm_num) (by norm_num) rfl
      tt 1 hr (by
        rw [← pyRound_eq_iff]
        have : ⌊((((5 : ℕ) : ℝ) - 3) * (7 / 10) / 1 : ℝ)⌋ = 1 := by rw [Int.floor_eq_iff]; norm_num
        unfold pyRound
        simp only [this]
        norm_num)
    exact ⟨_, h⟩

example : ∃ q, correctSweep (fun y => .ok [y]) ⟨⟨0, 1, 1 / 5⟩, [0, 1, 0, -1, 0, 1]⟩ (some (1 / 2)) = .ok q ∧ q.y.length = 2 := by
  obtain ⟨q, h1, h2, -⟩ := C72_whole_or_reciprocal (emd := fun y => .ok [y]) (fun y => ⟨y, [], rfl, by simp⟩)
    ⟨⟨0, 1, 1 / 5⟩, [0, 1, 0, -1, 0, 1]⟩ 6 (by norm_num) 5 (by norm_num) (.inr (by norm_num)) (by norm_num) rfl (1 / 2)
  exact ⟨q, h1, h2⟩

end SweepDesign
