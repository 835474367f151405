import Verif.Lemmas.Spectral

/-!
# C36–C38, C43: transforms between signals and spectra
-/

set_option linter.unusedSectionVars false

namespace SweepDesign
open Spec

/-- round trip for a signal whose axis contains zero -/
theorem roundtrip (r : Rel ℝ ℝ) (lx ly : List ℝ) (h : r.getData = .ok (lx, ly)) (h0 : r.x.start ≤ 0)
    (h1 : 0 ≤ r.x.stop) (hn : 2 ≤ ly.length) :
    ∃ s, r.getSpectrum = .ok s ∧
      s.getSignal (.axis r.x) = .ok ⟨r.x, ly.rotate (2 * lx.countP fun t => decide (t < 0))⟩ := by
  have hb := (balanced_iff_getData r).2 ⟨_, h⟩
  obtain ⟨hx, rfl, hlen⟩ := (getData_ok_iff _ _ _).1 h
  obtain ⟨y, z, e1, e2, e3, e4, e5, e6⟩ := getSpectrum_eq r hb (h0.trans h1) hn
  obtain ⟨p1, rfl⟩ := e3 h0 h1
  refine ⟨_, e6, ?_⟩
  rw [p1, reorder_sorted r.x lx r.y hx hlen (h0.trans h1)] at e4
  simp only [Except.ok.injEq] at e4
  subst e4
  set m := lx.countP fun t => decide (t < 0)
  have hi := irfft_dft (at0 (r.y.rotate m)) r.y.length (by omega) 0
    ((List.range (r.y.length / 2 + 1)).map fun k : ℕ => dft r.y.length (at0 (r.y.rotate m)) k)
    (some (r.y.length : ℤ)) (by simp) (by
      intro k hk
      rw [at0_eq _ _ (by simp; omega)]
      simp [unitRoot_zero])
  have hz : ((List.range r.y.length).map fun j : ℕ => at0 (r.y.rotate m) (((j : ℤ) - 0) % (r.y.length : ℤ)).toNat) =
      r.y.rotate m := by
    conv_rhs => rw [← map_range_at0 (r.y.rotate m), List.length_rotate]
    refine List.map_congr_left fun j hj => ?_
    have : j < r.y.length := List.mem_range.1 hj
    congr 1
    rw [sub_zero, Int.emod_eq_of_lt (by omega) (by omega), Int.toNat_natCast]
  rw [hz] at hi
  obtain ⟨q, q1, q2, q3⟩ := getSignal_axis
    ⟨⟨0, ((r.y.length / 2 : ℕ) : ℝ) * (1 / ((r.y.length : ℝ) * r.x.sample)),
          1 / ((r.y.length : ℝ) * r.x.sample)⟩,
        (List.range (r.y.length / 2 + 1)).map fun k : ℕ => dft r.y.length (at0 (r.y.rotate m)) k⟩ r.x _ r.y.length hb hi
    (List.length_rotate _ _)
  rw [q3]
  rw [reorder_sorted r.x lx _ hx (by simpa using hlen) (h0.trans h1)] at q1
  simp only [Except.ok.injEq] at q1
  rw [← q1, List.rotate_rotate, two_mul]

/-- **C36.** A real signal of at least two samples whose axis starts at zero and increases: converting it to a spectrum
and back onto its own time axis returns the signal. -/
theorem C36_round_trip (r : Rel ℝ ℝ) (h : Balanced r) (hn : 2 ≤ r.y.length) (h0 : r.x.start = 0)
    (hinc : r.x.start < r.x.stop) :
    ∃ s, r.getSpectrum = .ok s ∧ s.getSignal (.axis r.x) = .ok r := by
  obtain ⟨⟨lx, ly⟩, hd⟩ := (balanced_iff_getData r).1 h
  obtain ⟨hx, rfl, hlen⟩ := (getData_ok_iff _ _ _).1 hd
  obtain ⟨s, h1, h2⟩ := roundtrip r lx r.y hd h0.le (by linarith) hn
  refine ⟨s, h1, ?_⟩
  have hc : (lx.countP fun t => decide (t < 0)) = 0 := by
    rw [List.countP_eq_zero]
    intro t ht
    obtain ⟨i, hi, rfl⟩ := List.mem_iff_getElem.1 ht
    rw [(Axis.array_spaced hx).2 i hi, h0]
    have := r.x.step_nonneg hinc.le
    simp only [zero_add, decide_eq_true_eq, not_lt]
    positivity
  rw [h2, hc]
  simp

example : ∃ s, (⟨⟨0, 2, 1⟩, [10, -20, 7]⟩ : Rel ℝ ℝ).getSpectrum = .ok s ∧
    s.getSignal (.axis ⟨0, 2, 1⟩) = .ok ⟨⟨0, 2, 1⟩, [10, -20, 7]⟩ :=
  C36_round_trip _ (balanced_whole _ 2 (by norm_num) (by norm_num) rfl) (by simp) rfl (by norm_num)

/-- **C37.** A real signal with `m` samples before time zero and at least one at or after it comes back from the round
trip rotated left by `2m` positions, so the round trip is the identity exactly when that rotation fixes the samples. -/
theorem C37_rotation (r : Rel ℝ ℝ) (lx ly : List ℝ) (h : r.getData = .ok (lx, ly)) (hinc : r.x.start < r.x.stop)
    (hneg : ∃ t ∈ lx, t < 0) (hpos : ∃ t ∈ lx, 0 ≤ t) :
    ∃ s q, r.getSpectrum = .ok s ∧ s.getSignal (.axis r.x) = .ok q ∧ q.x = r.x ∧
      q.y = ly.rotate (2 * lx.countP fun t => decide (t < 0)) ∧
      (q = r ↔ ly.rotate (2 * lx.countP fun t => decide (t < 0)) = ly) := by
  obtain ⟨hx, rfl, hlen⟩ := (getData_ok_iff _ _ _).1 h
  have hsp := Axis.array_spaced hx
  have hst := r.x.step_nonneg hinc.le
  obtain ⟨t, ht, ht0⟩ := hneg
  obtain ⟨u, hu, hu0⟩ := hpos
  obtain ⟨i, hi, rfl⟩ := List.mem_iff_getElem.1 ht
  obtain ⟨j, hj, rfl⟩ := List.mem_iff_getElem.1 hu
  have hij : i ≠ j := by rintro rfl; linarith
  have hn : 2 ≤ r.y.length := by omega
  have h0 : r.x.start ≤ 0 := by
    rw [hsp.2 i hi] at ht0
    have : 0 ≤ (i : ℝ) * r.x.step := by positivity
    linarith
  have h1 : 0 ≤ r.x.stop := by
    rw [hsp.2 j hj] at hu0
    have hs1 : j ≤ r.x.steps := by rw [hsp.1] at hj; omega
    have hs0 : 0 < r.x.steps := by rw [hsp.1] at hlen; omega
    have : (j : ℝ) * r.x.step ≤ r.x.stop - r.x.start := by
      unfold Axis.step
      have a1 : (j : ℝ) ≤ r.x.steps := by exact_mod_cast hs1
      have a2 : (0 : ℝ) < r.x.steps := by exact_mod_cast hs0
      calc (j : ℝ) * ((r.x.stop - r.x.start) / r.x.steps) ≤ r.x.steps * ((r.x.stop - r.x.start) / r.x.steps) :=
            mul_le_mul_of_nonneg_right a1 (div_nonneg (by linarith) a2.le)
        _ = r.x.stop - r.x.start := by field_simp
    linarith
  obtain ⟨s, e1, e2⟩ := roundtrip r lx r.y h h0 h1 hn
  refine ⟨s, _, e1, e2, rfl, rfl, ?_⟩
  constructor
  · intro e
    exact congrArg Rel.y e
  · intro e
    rw [e]


/-- three distinct samples at times -1, 0, 1 do not survive the round trip -/
example : ∃ s q, (⟨⟨-1, 1, 1⟩, [10, 20, 30]⟩ : Rel ℝ ℝ).getSpectrum = .ok s ∧
    s.getSignal (.axis ⟨-1, 1, 1⟩) = .ok q ∧ q.y = [30, 10, 20] := by
  have ha := array_whole (⟨-1, 1, 1⟩ : Axis ℝ) 2 (by norm_num) (by norm_num)
  have hd : (⟨⟨-1, 1, 1⟩, [10, 20, 30]⟩ : Rel ℝ ℝ).getData = .ok ([-1, 0, 1], [10, 20, 30]) := by
    rw [getData_ok_iff]
    refine ⟨?_, rfl, rfl⟩
    rw [ha]
    norm_num [List.range_succ]
  obtain ⟨s, q, h1, h2, h3, h4, -⟩ := C37_rotation _ _ _ hd (by norm_num) ⟨-1, by simp, by norm_num⟩ ⟨1, by simp, by norm_num⟩
  refine ⟨s, q, h1, h2, ?_⟩
  rw [h4]
  norm_num [List.countP_cons]

/-- **C38.** The spectrum of a zero-start signal converted back without a time axis: for an even number of samples the
original samples on the axis with the original start and sample (and the end that belongs to them); for an odd number
`n ≥ 3` one sample less and a sample step `n / (n - 1)` times the original. -/
theorem C38_default_inverse (r : Rel ℝ ℝ) (h : Balanced r) (hn : 2 ≤ r.y.length) (h0 : r.x.start = 0)
    (hinc : r.x.start < r.x.stop) (hs : 0 < r.x.sample) :
    ∃ s q, r.getSpectrum = .ok s ∧ s.getSignal = .ok q ∧
      (r.y.length % 2 = 0 → q.y = r.y ∧ q.x.start = 0 ∧ q.x.sample = r.x.sample ∧
        q.x.stop = (r.y.length - 1) * r.x.sample) ∧
      (r.y.length % 2 = 1 → q.y.length + 1 = r.y.length ∧ q.x.start = 0 ∧
        q.x.sample = r.x.sample * (r.y.length / (r.y.length - 1)) ∧
        q.x.stop = (r.y.length - 2) * q.x.sample) := by
  obtain ⟨⟨lx, ly⟩, hd⟩ := (balanced_iff_getData r).1 h
  obtain ⟨hx, rfl, hlen⟩ := (getData_ok_iff _ _ _).1 hd
  obtain ⟨y, z, e1, e2, e3, e4, e5, e6⟩ := getSpectrum_eq r h hinc.le hn
  obtain ⟨p1, rfl⟩ := e3 h0.le (by linarith)
  have hc : (lx.countP fun t => decide (t < 0)) = 0 := by
    rw [List.countP_eq_zero]
    intro t ht
    obtain ⟨i, hi, rfl⟩ := List.mem_iff_getElem.1 ht
    rw [(Axis.array_spaced hx).2 i hi, h0]
    have := r.x.step_nonneg hinc.le
    simp only [zero_add, decide_eq_true_eq, not_lt]
    positivity
  rw [p1, reorder_sorted r.x lx r.y hx hlen hinc.le, hc] at e4
  simp only [List.rotate_zero, Except.ok.injEq] at e4
  subst e4
  set n := r.y.length with hndef
  set sp : Rel ℝ ℂ := ⟨⟨0, ((n / 2 : ℕ) : ℝ) * (1 / ((n : ℝ) * r.x.sample)), 1 / ((n : ℝ) * r.x.sample)⟩,
        (List.range (n / 2 + 1)).map fun k : ℕ => dft n (at0 r.y) k⟩ with hsp
  have hn0 : (0 : ℝ) < n := by exact_mod_cast (by omega : 0 < n)
  have hh0 : (0 : ℝ) < ((n / 2 : ℕ) : ℝ) := by exact_mod_cast (by omega : 0 < n / 2)
  obtain ⟨w, hw, hwl, hw2⟩ : ∃ w, irfft sp.y none = .ok w ∧ w.length = 2 * (n / 2) ∧ (n % 2 = 0 → w = r.y) := by
    by_cases he : n % 2 = 0
    · have := irfft_dft (at0 r.y) n (by omega) 0 sp.y none (by simp [hsp]; omega) (by
        intro k hk
        rw [at0_eq _ _ (by simp [hsp]; omega)]
        simp [hsp, unitRoot_zero])
      have hz : ((List.range n).map fun j : ℕ => at0 r.y (((j : ℤ) - 0) % (n : ℤ)).toNat) = r.y := by
        conv_rhs => rw [← map_range_at0 r.y]
        refine List.map_congr_left fun j hj => ?_
        have : j < n := List.mem_range.1 hj
        congr 1
        rw [sub_zero, Int.emod_eq_of_lt (by omega) (by omega), Int.toNat_natCast]
      rw [hz] at this
      exact ⟨_, this, by omega, fun _ => rfl⟩
    · have hl : (2 * ((sp.y.length : ℤ) - 1)) = ((2 * (n / 2) : ℕ) : ℤ) := by simp [hsp]
      obtain ⟨w, h1, h2⟩ := irfft_length sp.y (2 * (n / 2)) (by omega)
      refine ⟨w, ?_, h2, fun h => absurd h he⟩
      rw [← h1]
      unfold irfft
      simp only [Option.getD_none, Option.getD_some, hl]
  have hdt : 1 / (2 * (sp.x.stop - sp.x.start)) = r.x.sample * (n / (2 * ((n / 2 : ℕ) : ℝ))) := by
    simp only [hsp, sub_zero]
    field_simp
  have hdtpos : 0 < r.x.sample * (n / (2 * ((n / 2 : ℕ) : ℝ))) := by positivity
  set dt := r.x.sample * ((n : ℝ) / (2 * ((n / 2 : ℕ) : ℝ))) with hdtdef
  have hstop : sp.x.stop - sp.x.start ≠ 0 := by
    simp only [hsp, sub_zero]
    positivity
  set t : Axis ℝ := ⟨0, 0 + ((w.length : ℝ) - 1) * dt, dt⟩ with ht
  have hta := array_whole t (w.length - 1) hdtpos (by
    simp only [ht]
    rw [Nat.cast_sub (by omega)]
    push_cast
    ring)
  have hts : t.size = .ok w.length := by
    rw [Axis.size_of_array hta]
    simp
    omega
  have hro : reorderByTime t w = .ok w := by
    rw [reorder_sorted t _ w hta (by simp; omega)]
    · have : (((List.range (w.length - 1 + 1)).map fun i : ℕ => t.start + (i : ℝ) * t.sample).countP
          fun v => decide (v < 0)) = 0 := by
        rw [List.countP_eq_zero]
        intro v hv
        obtain ⟨i, -, rfl⟩ := List.mem_map.1 hv
        simp only [ht, zero_add, decide_eq_true_eq, not_lt]
        positivity
      rw [this, List.rotate_zero]
    · simp only [ht]
      have : (1 : ℝ) ≤ w.length := by exact_mod_cast (by omega : 1 ≤ w.length)
      have : 0 ≤ ((w.length : ℝ) - 1) * dt := mul_nonneg (by linarith) hdtpos.le
      linarith
  have hg : sp.getSignal = .ok ⟨t, w⟩ := by
    unfold Rel.getSignal spectrum2signal
    simp only [SizeArg.size, except_pure, except_bind_ok, hw]
    rw [if_neg hstop, hdt]
    simp only [Option.getD_none]
    rw [← ht, hro]
    simp only [except_bind_ok]
    exact make_ok hts
  refine ⟨sp, ⟨t, w⟩, e6, hg, ?_, ?_⟩
  · intro he
    have h2 : (2 : ℝ) * ((n / 2 : ℕ) : ℝ) = n := by exact_mod_cast (by omega : 2 * (n / 2) = n)
    have hd' : dt = r.x.sample := by
      rw [hdtdef, h2, div_self hn0.ne', mul_one]
    refine ⟨hw2 he, rfl, hd', ?_⟩
    simp only [ht, zero_add, hd', hwl]
    rw [show 2 * (n / 2) = n by omega]
  · intro ho
    have h2 : (2 : ℝ) * ((n / 2 : ℕ) : ℝ) = n - 1 := by
      rw [eq_sub_iff_add_eq]
      exact_mod_cast (by omega : 2 * (n / 2) + 1 = n)
    refine ⟨by simp only [hwl]; omega, rfl, ?_, ?_⟩
    · simp only [ht, hdtdef, h2]
    · simp only [ht, zero_add, hwl]
      congr 1
      push_cast
      rw [h2]
      ring

/-- two samples come back on the same axis; three samples come back as two, with one and a half times the step -/
example : (∃ s q, (⟨⟨0, 1, 1⟩, [10, 20]⟩ : Rel ℝ ℝ).getSpectrum = .ok s ∧ s.getSignal = .ok q ∧
      q = ⟨⟨0, 1, 1⟩, [10, 20]⟩) ∧
    (∃ s q, (⟨⟨0, 2, 1⟩, [10, 20, 30]⟩ : Rel ℝ ℝ).getSpectrum = .ok s ∧ s.getSignal = .ok q ∧
      q.y.length = 2 ∧ q.x.sample = 3 / 2) := by
  constructor
  · obtain ⟨s, q, h1, h2, h3, -⟩ := C38_default_inverse ⟨⟨0, 1, 1⟩, [10, 20]⟩
      (balanced_whole _ 1 (by norm_num) (by norm_num) rfl) (by simp) rfl (by norm_num) (by norm_num)
    obtain ⟨a, b, c, d⟩ := h3 (by simp)
    refine ⟨s, q, h1, h2, Rel.ext' (Axis.ext' b ?_ c) a⟩
    rw [d]; norm_num
  · obtain ⟨s, q, h1, h2, -, h3⟩ := C38_default_inverse ⟨⟨0, 2, 1⟩, [10, 20, 30]⟩
      (balanced_whole _ 2 (by norm_num) (by norm_num) rfl) (by simp) rfl (by norm_num) (by norm_num)
    obtain ⟨a, b, c, d⟩ := h3 (by simp)
    refine ⟨s, q, h1, h2, by simpa using a, ?_⟩
    rw [c]; norm_num

/-- **C43.** `get_spectrum` with an explicit frequency axis of three or more points raises `NotEqualError`; with an
`int` it raises `ValueError` if that is not positive and otherwise succeeds exactly when its half equals the half of the
number `N` of samples after prolonging the signal to time zero; if not, it raises `NotEqualError`. A single sample (`N = 1`)
has no frequency axis: `ValueError`. -/
theorem C43_explicit_frequency (r : Rel ℝ ℝ) (h : Balanced r) (hinc : r.x.start ≤ r.x.stop) :
    (∀ (a : Axis ℝ) (m : ℕ), a.size = .ok m → 3 ≤ m →
      r.getSpectrum (.axis a) = .error (.notEqual m (m / 2 + 1))) ∧
    ∃ N, Axis.size ⟨min r.x.start 0, max r.x.stop 0, r.x.sample⟩ = .ok N ∧ 1 ≤ N ∧
      ∀ k : ℤ, (k ≤ 0 → r.getSpectrum (.int k) = .error .value) ∧
        (N = 1 → r.getSpectrum (.int k) = .error .value) ∧
        (2 ≤ N → 0 < k → k / 2 = N / 2 → ∃ s, r.getSpectrum (.int k) = .ok s ∧ Balanced s) ∧
        (2 ≤ N → 0 < k → k / 2 ≠ N / 2 → ∃ a b, r.getSpectrum (.int k) = .error (.notEqual a b)) := by
  obtain ⟨hs, hl⟩ := (balanced_iff r).1 h
  obtain ⟨y, h1, h2, h3, -, -, h6⟩ := signal2spectrum_eq r h hinc
  obtain ⟨z, hz, hzl⟩ := reorder_length r.paddedTime y h1
  have hrf : ∀ m : ℕ, 0 < m → rfft z (some (m : ℤ)) =
      .ok ((List.range (m / 2 + 1)).map fun k : ℕ => dft m (at0 z) k) :=
    fun m hm => rfft_eq z m hm (some (m : ℤ)) rfl
  constructor
  · intro a m ha hm
    unfold Rel.getSpectrum
    rw [h6]
    unfold calculateSpectrum
    simp only [SizeArg.size, ha, except_bind_ok, except_pure, hz, hrf m (by omega)]
    unfold Rel.make
    rw [ha]
    simp only [except_bind_ok, List.length_map, List.length_range]
    rw [if_pos (by omega)]
  · have hneg : ∀ k : ℤ, k ≤ 0 → r.getSpectrum (.int k) = .error .value := by
      intro k hk
      unfold Rel.getSpectrum
      rw [h6]
      unfold calculateSpectrum
      simp only [SizeArg.size, except_bind_ok, except_pure, hz]
      unfold rfft
      simp only [Option.getD_some]
      rw [if_pos (by omega)]
      rfl
    refine ⟨y.length, h1, by omega, fun k => ⟨hneg k, ?_, ?_, ?_⟩⟩
    · intro hy1
      rcases le_or_gt k 0 with hk | hk
      · exact hneg k hk
      obtain ⟨m, rfl⟩ := Int.eq_ofNat_of_zero_le hk.le
      unfold Rel.getSpectrum
      rw [h6]
      unfold calculateSpectrum
      simp only [SizeArg.size, except_bind_ok, except_pure, hz, hrf m (by omega), hzl, hy1]
      rfl
    all_goals
      intro hy2 hk hk2
      obtain ⟨m, rfl⟩ := Int.eq_ofNat_of_zero_le hk.le
      have hm : 0 < m := by omega
      have hval : r.getSpectrum (.int (m : ℤ)) = Rel.make
          ⟨0, ((y.length / 2 : ℕ) : ℝ) * (1 / ((y.length : ℝ) * r.x.sample)), 1 / ((y.length : ℝ) * r.x.sample)⟩
          ((List.range (m / 2 + 1)).map fun k : ℕ => dft m (at0 z) k) := by
        unfold Rel.getSpectrum
        rw [h6]
        unfold calculateSpectrum
        simp only [SizeArg.size, except_bind_ok, except_pure, hz, hrf m hm, hzl]
        rw [show r.paddedTime.sample = r.x.sample from rfl, (freqAxis_eq _ _ hy2 hs).1]
        rfl
      have hsz := freqAxis_size y.length r.x.sample hy2 hs
      rw [hval]
    · refine ⟨_, make_ok ?_, ?_⟩
      · rw [hsz]
        simp
        omega
      · unfold Balanced
        rw [hsz]
        simp
        omega
    · refine ⟨y.length / 2 + 1, m / 2 + 1, ?_⟩
      unfold Rel.make
      rw [hsz]
      simp only [except_bind_ok, List.length_map, List.length_range]
      rw [if_pos (by omega)]

/-- four samples: a three-point frequency axis is rejected although it is the axis `get_spectrum()` itself would use;
`frequency=5` works, `frequency=6` does not -/
example : (⟨⟨0, 3, 1⟩, [10, 20, 30, 40]⟩ : Rel ℝ ℝ).getSpectrum (.axis ⟨0, 1 / 2, 1 / 4⟩) = .error (.notEqual 3 2) ∧
    (∃ s, (⟨⟨0, 3, 1⟩, [10, 20, 30, 40]⟩ : Rel ℝ ℝ).getSpectrum (.int 5) = .ok s) ∧
    (∃ a b, (⟨⟨0, 3, 1⟩, [10, 20, 30, 40]⟩ : Rel ℝ ℝ).getSpectrum (.int 6) = .error (.notEqual a b)) := by
  have hb : Balanced (⟨⟨0, 3, 1⟩, [10, 20, 30, 40]⟩ : Rel ℝ ℝ) := balanced_whole _ 3 (by norm_num) (by norm_num) rfl
  obtain ⟨h1, N, h2, -, h3⟩ := C43_explicit_frequency _ hb (by norm_num)
  have hN : N = 4 := by
    have := array_whole (⟨min 0 0, max 3 0, 1⟩ : Axis ℝ) 3 (by norm_num) (by norm_num)
    have := Axis.size_of_array this
    rw [h2] at this
    simpa using this
  subst hN
  refine ⟨?_, ?_, ?_⟩
  · have := array_whole (⟨0, 1 / 2, 1 / 4⟩ : Axis ℝ) 2 (by norm_num) (by norm_num)
    have := Axis.size_of_array this
    exact h1 _ 3 (by simpa using this) le_rfl
  · obtain ⟨s, hs, -⟩ := (h3 5).2.2.1 (by norm_num) (by norm_num) (by norm_num)
    exact ⟨s, hs⟩
  · exact (h3 6).2.2.2 (by norm_num) (by norm_num) (by norm_num)

end SweepDesign
