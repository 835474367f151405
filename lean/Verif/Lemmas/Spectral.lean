import Verif.Model.Spectral
import Verif.Lemmas.Fourier
import Verif.Lemmas.Conv

/-! # Lemmas on the transforms between signals and spectra -/

set_option linter.unusedSectionVars false
set_option linter.unnecessarySeqFocus false

namespace SweepDesign
open Spec

/-! ## masks -/

theorem maskSelect_true {α β : Type} (p : α → Bool) (t : List α) (y : List β) (hl : t.length = y.length)
    (h : ∀ a ∈ t, p a = true) : maskSelect (t.map p) y = .ok y := by
  unfold maskSelect
  rw [if_pos (by simpa using hl)]
  congr 1
  induction t generalizing y with
  | nil => cases y with
    | nil => rfl
    | cons => simp at hl
  | cons a t ih =>
    cases y with
    | nil => simp at hl
    | cons b y =>
      simp only [List.map_cons, List.zip_cons_cons, List.filterMap_cons, h a (by simp), if_true]
      rw [ih y (by simpa using hl) (fun c hc => h c (by simp [hc]))]

theorem maskSelect_false {α β : Type} (p : α → Bool) (t : List α) (y : List β) (hl : t.length = y.length)
    (h : ∀ a ∈ t, p a = false) : maskSelect (t.map p) y = .ok [] := by
  unfold maskSelect
  rw [if_pos (by simpa using hl)]
  congr 1
  induction t generalizing y with
  | nil => simp
  | cons a t ih =>
    cases y with
    | nil => simp
    | cons b y =>
      simp only [List.map_cons, List.zip_cons_cons, List.filterMap_cons, h a (by simp), Bool.false_eq_true, if_false]
      exact ih y (by simpa using hl) (fun c hc => h c (by simp [hc]))

theorem maskSelect_cons_true {β : Type} (m : List Bool) (b : β) (y r : List β) (h : maskSelect m y = .ok r) :
    maskSelect (true :: m) (b :: y) = .ok (b :: r) := by
  unfold maskSelect at *
  split_ifs at h with h1
  simp only [Except.ok.injEq] at h
  simp [h1, h]

theorem maskSelect_cons_false {β : Type} (m : List Bool) (b : β) (y r : List β) (h : maskSelect m y = .ok r) :
    maskSelect (false :: m) (b :: y) = .ok r := by
  unfold maskSelect at *
  split_ifs at h with h1
  simp only [Except.ok.injEq] at h
  simp [h1, h]

theorem maskSelect_sorted {β : Type} (t : List ℝ) (y : List β) (hl : t.length = y.length) (hs : t.Pairwise (· < ·)) :
    maskSelect (t.map fun v => decide (0 ≤ v)) y = .ok (y.drop (t.countP fun v => decide (v < 0))) ∧
    maskSelect (t.map fun v => decide (v < 0)) y = .ok (y.take (t.countP fun v => decide (v < 0))) := by
  induction t generalizing y with
  | nil =>
    cases y with
    | nil => exact ⟨rfl, rfl⟩
    | cons => simp at hl
  | cons a t ih =>
    cases y with
    | nil => simp at hl
    | cons b y =>
      have hl' : t.length = y.length := by simpa using hl
      rw [List.pairwise_cons] at hs
      rcases lt_or_ge a 0 with ha | ha
      · obtain ⟨i1, i2⟩ := ih y hl' hs.2
        have e1 : decide (0 ≤ a) = false := by simpa using ha
        have e2 : decide (a < 0) = true := by simpa using ha
        simp only [List.map_cons, e1, e2, List.countP_cons, if_true, List.drop_succ_cons, List.take_succ_cons]
        exact ⟨maskSelect_cons_false _ _ _ _ i1, maskSelect_cons_true _ _ _ _ i2⟩
      · have hall : ∀ c ∈ a :: t, 0 ≤ c := by
          intro c hc
          rcases List.mem_cons.1 hc with rfl | hc
          · exact ha
          · exact ha.trans (hs.1 c hc).le
        have h0 : ((a :: t).countP fun v => decide (v < 0)) = 0 := by
          rw [List.countP_eq_zero]
          intro c hc
          simpa using hall c hc
        rw [h0]
        exact ⟨maskSelect_true _ _ _ hl (fun c hc => by simpa using hall c hc),
          maskSelect_false _ _ _ hl (fun c hc => by simpa using hall c hc)⟩

theorem maskSelect_length {β : Type} (m : List Bool) (y : List β) (h : m.length = y.length) :
    ∃ r, maskSelect m y = .ok r ∧ r.length = m.countP (· = true) := by
  unfold maskSelect
  rw [if_pos h]
  refine ⟨_, rfl, ?_⟩
  induction m generalizing y with
  | nil => simp
  | cons a m ih =>
    cases y with
    | nil => simp at h
    | cons b y =>
      have := ih y (by simpa using h)
      cases a <;> simp_all

/-- reordering always keeps the number of samples -/
theorem reorder_length (time : Axis ℝ) (y : List ℝ) (h : time.size = .ok y.length) :
    ∃ r, reorderByTime time y = .ok r ∧ r.length = y.length := by
  obtain ⟨hs, hl⟩ := (time.size_ok_iff _).1 h
  unfold reorderByTime
  rw [time.array_eq hs]
  simp only [except_bind_ok]
  set t := linspace time.start time.stop (time.steps + 1) with ht
  have htl : t.length = y.length := by rw [ht, linspace_length, hl]
  obtain ⟨a, ha, ha'⟩ := maskSelect_length (t.map fun v => decide (0 ≤ v)) y (by simpa using htl)
  obtain ⟨b, hb, hb'⟩ := maskSelect_length (t.map fun v => decide (v < 0)) y (by simpa using htl)
  rw [ha, hb]
  refine ⟨_, rfl, ?_⟩
  rw [List.length_append, ha', hb', ← htl, List.countP_map, List.countP_map]
  rw [List.length_eq_countP_add_countP (fun v : ℝ => decide (0 ≤ v)) (l := t)]
  congr 1
  · apply List.countP_congr; simp
  · apply List.countP_congr; simp

theorem reorder_error (time : Axis ℝ) (y : List ℝ) (h : time.size ≠ .ok y.length) (hs : time.sample ≠ 0) :
    reorderByTime time y = .error .index := by
  unfold reorderByTime
  rw [time.array_eq hs]
  simp only [except_bind_ok]
  rw [maskSelect, if_neg]
  · rfl
  · intro e
    apply h
    rw [time.size_eq hs]
    simp [linspace_length] at e
    rw [e]

theorem Axis.step_nonneg (a : Axis ℝ) (h : a.start ≤ a.stop) : 0 ≤ a.step := by
  unfold Axis.step
  exact div_nonneg (sub_nonneg.2 h) (Nat.cast_nonneg _)

/-- arrays of axes with `start ≤ stop` are strictly increasing -/
theorem Axis.array_increasing {a : Axis ℝ} {l : List ℝ} (h : a.array = .ok l) (hi : a.start ≤ a.stop) :
    l.Pairwise (· < ·) := by
  have hsp := Axis.array_spaced h
  rcases Nat.eq_zero_or_pos a.steps with h0 | h0
  · rw [h0] at hsp
    match l, hsp with
    | [b], _ => simp
    | [], h => simp
    | _ :: _ :: _, h => simp [EvenlySpaced] at h
  · refine hsp.pairwise_lt (lt_of_le_of_ne (a.step_nonneg hi) ?_)
    exact (Axis.step_ne_zero (by omega)).symm

/-- on an axis with `start ≤ stop` the reordering is the rotation by the number of negative times -/
theorem reorder_sorted (time : Axis ℝ) (t : List ℝ) (y : List ℝ) (ht : time.array = .ok t) (hl : t.length = y.length)
    (hi : time.start ≤ time.stop) :
    reorderByTime time y = .ok (y.rotate (t.countP fun v => decide (v < 0))) := by
  unfold reorderByTime
  rw [ht]
  obtain ⟨h1, h2⟩ := maskSelect_sorted t y hl (Axis.array_increasing ht hi)
  simp only [except_bind_ok, h1, h2, except_pure]
  rw [List.rotate_eq_drop_append_take (hl ▸ List.countP_le_length)]

section Whole
variable {K : Type} [Field K] [LinearOrder K] [IsStrictOrderedRing K] [FloorRing K] {V : Type}

/-- an axis spanning `k` whole positive samples -/
theorem array_whole (a : Axis K) (k : ℕ) (hs : 0 < a.sample) (h : a.stop - a.start = k * a.sample) :
    a.array = .ok ((List.range (k + 1)).map fun i : ℕ => a.start + (i : K) * a.sample) := by
  have hst : a.steps = k := by
    unfold Axis.steps
    rw [h, mul_div_assoc, div_self hs.ne', mul_one, Nat.abs_cast, pyRound_natCast, Int.toNat_natCast]
  have ha := a.array_eq hs.ne'
  have hsp := Axis.array_spaced ha
  rw [ha]
  congr 1
  have hst2 := hst
  rw [hst] at ha hsp ⊢
  apply List.ext_getElem (by simp [linspace_length])
  intro i h1 h2
  rw [hsp.2 i h1]
  simp only [List.getElem_map, List.getElem_range]
  congr 1
  rcases Nat.eq_zero_or_pos k with h0 | h0
  · have : i = 0 := by
      rw [linspace_length] at h1
      omega
    simp [this]
  · congr 1
    unfold Axis.step
    rw [h, hst]
    have : (k : K) ≠ 0 := by exact_mod_cast h0.ne'
    field_simp

theorem balanced_whole (r : Rel K V) (k : ℕ) (hs : 0 < r.x.sample) (h : r.x.stop - r.x.start = k * r.x.sample)
    (hl : r.y.length = k + 1) : Balanced r := by
  unfold Balanced
  rw [Axis.size_of_array (array_whole r.x k hs h)]
  simp [hl]

end Whole

/-! ## the frequency axis -/

theorem rfftfreq_spaced (n : ℕ) (d : ℝ) : EvenlySpaced (rfftfreq n d) 0 (1 / ((n : ℝ) * d)) (n / 2 + 1) := by
  refine ⟨by simp [rfftfreq], fun i h => by simp [rfftfreq]⟩

theorem freqAxis_eq (n : ℕ) (d : ℝ) (hn : 2 ≤ n) (hd : d ≠ 0) :
    axisFromArray (rfftfreq n d) true false = .ok ⟨0, ((n / 2 : ℕ) : ℝ) * (1 / ((n : ℝ) * d)), 1 / ((n : ℝ) * d)⟩ ∧
    Axis.array ⟨0, ((n / 2 : ℕ) : ℝ) * (1 / ((n : ℝ) * d)), 1 / ((n : ℝ) * d)⟩ = .ok (rfftfreq n d) := by
  have hsp := rfftfreq_spaced n d
  have h2 : 2 ≤ n / 2 + 1 := by omega
  have hnd : 1 / ((n : ℝ) * d) ≠ 0 := by
    have : (n : ℝ) ≠ 0 := by exact_mod_cast (by omega : n ≠ 0)
    positivity
  have hstop : (0 : ℝ) + (((n / 2 + 1 : ℕ) : ℝ) - 1) * (1 / ((n : ℝ) * d)) =
      ((n / 2 : ℕ) : ℝ) * (1 / ((n : ℝ) * d)) := by push_cast; ring
  constructor
  · unfold axisFromArray
    rw [hsp.actualSample h2, hsp.head (by omega), hsp.last (by omega), hstop]
    rfl
  · have := spaced_array_of_steps (s := 1 / ((n : ℝ) * d)) hsp (by omega) hnd (by
      rw [hstop]
      have : (Axis.steps (⟨0, ((n / 2 : ℕ) : ℝ) * (1 / ((n : ℝ) * d)), 1 / ((n : ℝ) * d)⟩ : Axis ℝ)) = n / 2 := by
        unfold Axis.steps
        simp only [sub_zero]
        rw [mul_div_assoc, div_self hnd, mul_one, Nat.abs_cast, pyRound_natCast, Int.toNat_natCast]
      rw [this])
    rwa [hstop] at this

theorem freqAxis_size (n : ℕ) (d : ℝ) (hn : 2 ≤ n) (hd : d ≠ 0) :
    Axis.size ⟨0, ((n / 2 : ℕ) : ℝ) * (1 / ((n : ℝ) * d)), 1 / ((n : ℝ) * d)⟩ = .ok (n / 2 + 1) := by
  rw [Axis.size_of_array (freqAxis_eq n d hn hd).2]
  simp [rfftfreq]

/-! ## the forward transform -/

/-- the time axis the forward transform uses: the signal's axis, prolonged to contain zero -/
def Rel.paddedTime (r : Rel ℝ ℝ) : Axis ℝ := ⟨Min.min r.x.start 0, Max.max r.x.stop 0, r.x.sample⟩

theorem pyRound_mono {a b : ℝ} (h : a ≤ b) : pyRound a ≤ pyRound b := by
  by_contra hc
  have h1 := abs_le.1 (abs_sub_pyRound_le a)
  have h2 := abs_le.1 (abs_sub_pyRound_le b)
  have h3 : (pyRound b : ℝ) + 1 ≤ pyRound a := by exact_mod_cast (by omega : pyRound b + 1 ≤ pyRound a)
  have : a = b := by linarith
  subst this
  exact hc le_rfl

theorem steps_mono (a b : Axis ℝ) (h : |(a.stop - a.start) / a.sample| ≤ |(b.stop - b.start) / b.sample|) :
    a.steps ≤ b.steps := by
  unfold Axis.steps
  exact Int.toNat_le_toNat (pyRound_mono h)

/-- For `start ≤ stop` the forward transform is the plain transform of the samples on the prolonged axis. -/
theorem signal2spectrum_eq (r : Rel ℝ ℝ) (hb : Balanced r) (hi : r.x.start ≤ r.x.stop) :
    ∃ y : List ℝ, r.paddedTime.size = .ok y.length ∧ r.y.length ≤ y.length ∧
      (r.x.start ≤ 0 → 0 ≤ r.x.stop → r.paddedTime = r.x ∧ y = r.y) ∧
      (0 < r.x.start → y = List.replicate (y.length - r.y.length) 0 ++ r.y) ∧
      (r.x.stop < 0 → y = r.y ++ List.replicate (y.length - r.y.length) 0) ∧
      ∀ f, signal2spectrum r f false = calculateSpectrum r.paddedTime y f := by
  obtain ⟨hs, hl⟩ := (balanced_iff r).1 hb
  rcases lt_or_ge 0 r.x.start with h0 | h0
  · have hp : r.paddedTime = { r.x with start := 0 } := by
      unfold Rel.paddedTime
      rw [min_eq_right h0.le, max_eq_left (h0.le.trans hi)]
    have hle : r.x.steps ≤ r.paddedTime.steps := by
      apply steps_mono
      rw [hp]
      simp only [sub_zero, abs_div]
      apply div_le_div_of_nonneg_right _ (abs_nonneg _)
      rw [abs_of_nonneg (sub_nonneg.2 hi), abs_of_nonneg (h0.le.trans hi)]
      linarith
    have hsz : r.paddedTime.size = .ok (r.paddedTime.steps + 1) := r.paddedTime.size_eq hs
    refine ⟨List.replicate (r.paddedTime.steps + 1 - r.y.length) 0 ++ r.y, ?_, ?_, ?_, ?_, ?_, ?_⟩
    · rw [hsz]; simp; omega
    · simp
    · intro h; linarith
    · intro _; simp
    · intro h; linarith
    · intro f
      unfold signal2spectrum
      rw [if_neg (by simp), if_pos h0, ← hp]
      simp only [hsz, except_bind_ok, npZeros]
      rw [if_neg (by omega)]
      simp only [except_bind_ok]
      congr 4
      omega
  · rcases lt_or_ge r.x.stop 0 with h1 | h1
    · have hp : r.paddedTime = { r.x with stop := 0 } := by
        unfold Rel.paddedTime
        rw [min_eq_left h0, max_eq_right h1.le]
      have hle : r.x.steps ≤ r.paddedTime.steps := by
        apply steps_mono
        rw [hp]
        simp only [abs_div]
        apply div_le_div_of_nonneg_right _ (abs_nonneg _)
        rw [abs_of_nonneg (sub_nonneg.2 hi), abs_of_nonneg (sub_nonneg.2 h0)]
        linarith
      have hsz : r.paddedTime.size = .ok (r.paddedTime.steps + 1) := r.paddedTime.size_eq hs
      refine ⟨r.y ++ List.replicate (r.paddedTime.steps + 1 - r.y.length) 0, ?_, ?_, ?_, ?_, ?_, ?_⟩
      · rw [hsz]; simp; omega
      · simp
      · intro _ h; linarith
      · intro h; linarith
      · intro _; simp
      · intro f
        unfold signal2spectrum
        rw [if_neg (by simp), if_neg (by linarith), if_pos h1, ← hp]
        simp only [hsz, except_bind_ok, npZeros]
        rw [if_neg (by omega)]
        simp only [except_bind_ok]
        congr 4
        omega
    · have hp : r.paddedTime = r.x := by
        unfold Rel.paddedTime
        rw [min_eq_left h0, max_eq_left h1]
      refine ⟨r.y, by rw [hp]; exact hb, le_rfl, fun _ _ => ⟨hp, rfl⟩, fun h => by linarith, fun h => by linarith, ?_⟩
      intro f
      unfold signal2spectrum
      rw [if_neg (by simp), if_neg (by linarith), if_neg (by linarith), hp]

/-- the plain transform of at least two samples -/
theorem calculateSpectrum_none (time : Axis ℝ) (y : List ℝ) (h : time.size = .ok y.length) (hn : 2 ≤ y.length) :
    ∃ z : List ℝ, reorderByTime time y = .ok z ∧ z.length = y.length ∧
      calculateSpectrum time y .none = .ok (⟨0, ((y.length / 2 : ℕ) : ℝ) * (1 / ((y.length : ℝ) * time.sample)),
          1 / ((y.length : ℝ) * time.sample)⟩,
        (List.range (y.length / 2 + 1)).map fun k : ℕ => dft y.length (at0 z) k) := by
  obtain ⟨hs, hl⟩ := (time.size_ok_iff _).1 h
  obtain ⟨z, hz, hzl⟩ := reorder_length time y h
  refine ⟨z, hz, hzl, ?_⟩
  unfold calculateSpectrum
  simp only [SizeArg.size, except_pure, except_bind_ok, hz]
  rw [rfft_eq z y.length (by omega) none (by simp [hzl])]
  simp only [except_bind_ok, hzl, (freqAxis_eq _ _ hn hs).1]

theorem getSpectrum_eq (r : Rel ℝ ℝ) (hb : Balanced r) (hi : r.x.start ≤ r.x.stop) (hn : 2 ≤ r.y.length) :
    ∃ y z : List ℝ, r.paddedTime.size = .ok y.length ∧ r.y.length ≤ y.length ∧
      (r.x.start ≤ 0 → 0 ≤ r.x.stop → r.paddedTime = r.x ∧ y = r.y) ∧
      reorderByTime r.paddedTime y = .ok z ∧ z.length = y.length ∧
      r.getSpectrum = .ok ⟨⟨0, ((y.length / 2 : ℕ) : ℝ) * (1 / ((y.length : ℝ) * r.x.sample)),
          1 / ((y.length : ℝ) * r.x.sample)⟩,
        (List.range (y.length / 2 + 1)).map fun k : ℕ => dft y.length (at0 z) k⟩ := by
  obtain ⟨hs, hl⟩ := (balanced_iff r).1 hb
  obtain ⟨y, h1, h2, h3, -, -, h6⟩ := signal2spectrum_eq r hb hi
  obtain ⟨z, hz, hzl, hc⟩ := calculateSpectrum_none r.paddedTime y h1 (hn.trans h2)
  refine ⟨y, z, h1, h2, h3, hz, hzl, ?_⟩
  unfold Rel.getSpectrum
  rw [h6, hc]
  simp only [except_bind_ok]
  apply make_ok
  have := freqAxis_size y.length r.x.sample (hn.trans h2) hs
  simp only [List.length_map, List.length_range]
  exact this

/-! ## the inverse transform -/

theorem getSignal_axis (s : Rel ℝ ℂ) (t : Axis ℝ) (w : List ℝ) (n : ℕ) (hn : t.size = .ok n)
    (hw : irfft s.y (some (n : ℤ)) = .ok w) (hl : w.length = n) :
    ∃ q, reorderByTime t w = .ok q ∧ q.length = n ∧ s.getSignal (.axis t) = .ok ⟨t, q⟩ := by
  obtain ⟨q, hq, hql⟩ := reorder_length t w (by rw [hn, hl])
  refine ⟨q, hq, by omega, ?_⟩
  unfold Rel.getSignal spectrum2signal
  simp only [SizeArg.size, hn, except_bind_ok, except_pure, hw, hq]
  apply make_ok
  rw [hn, hql, hl]

theorem irfft_length (s : List ℂ) (n : ℕ) (hn : 0 < n) :
    ∃ w, irfft s (some (n : ℤ)) = .ok w ∧ w.length = n := by
  unfold irfft
  simp only [Option.getD_some]
  rw [if_neg (by omega)]
  exact ⟨_, rfl, by simp⟩

theorem map_range_at0 (l : List ℝ) : (List.range l.length).map (fun j => at0 l j) = l := by
  apply List.ext_getElem (by simp)
  intro i h1 h2
  simp only [List.getElem_map, List.getElem_range]
  rw [at0_eq _ _ h2]

end SweepDesign
