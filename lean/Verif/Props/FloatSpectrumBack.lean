import Verif.Props.FloatAlign
import Verif.Props.FloatSpectral

/-!
# C155: a signal and what its spectrum gives back

`get_signal()` builds a new time axis from the frequencies. Its end can differ from the end of the signal by a rounding, and then arithmetic
of the two loses the last sample of one of them, as in C153.
-/

set_option linter.unusedSectionVars false

namespace SweepDesign

open Spec

section
variable {K : Type} [Field K] [LinearOrder K] [IsStrictOrderedRing K] [FloorRing K]
variable {fl : K → K} {u : K} {n : ℕ} {M : K} {x : Axis K} {l : List K} {y : List ℝ}

/-! ## Machinery -/

theorem flGetSpectrum_axis {F : FlFft} (hF : FftShape F) {N : ℕ} (hN : 1 ≤ N) {a : List ℝ} (ha : flReorderByTime fl x y = .ok a)
    (hlen : a.length = N) (h0 : x.start ≤ 0) (h1 : 0 ≤ x.stop) {f : Axis K} {s : List ℂ} (h : flGetSpectrum fl F x y = .ok (f, s)) :
    flAxisOfArray fl (flRfftfreq fl N x.sample) = .ok f ∧ s.length = N / 2 + 1 := by
  unfold flGetSpectrum flSignal2spectrum at h
  rw [if_neg (not_lt.2 h0), if_neg (not_lt.2 h1)] at h
  unfold flCalculateSpectrum at h
  rw [ha, except_bind_ok, hlen, if_neg (by omega)] at h
  split at h
  · exact absurd h (by simp [Bind.bind, Except.bind])
  cases hx : flAxisOfArray fl (flRfftfreq fl N x.sample) with
  | error e => rw [hx] at h; exact absurd h (by simp [Bind.bind, Except.bind])
  | ok g =>
    rw [hx, except_bind_ok, except_pure, except_bind_ok] at h
    simp only at h
    unfold flMake at h
    cases hl : g.flArray fl with
    | error e => rw [hl] at h; exact absurd h (by simp [Bind.bind, Except.bind])
    | ok l0 =>
      rw [hl, except_bind_ok] at h
      split at h
      · exact absurd h (by simp)
      · simp only [except_pure, Except.ok.injEq, Prod.mk.injEq] at h
        refine ⟨by rw [h.1], ?_⟩
        rw [← h.2, hF.sizeForward a (by intro e; rw [e] at hlen; simp at hlen; omega), hlen]

theorem flGetSignal_axis {F : FlFft} (hF : FftShape F) {f x' : Axis K} {s : List ℂ} {y' : List ℝ} {c : ℕ} (hc : 1 ≤ c)
    (hs : s.length = c + 1) (h : flGetSignal fl F f s = .ok (x', y')) : flSignalTime fl f none (2 * c) = .ok x' := by
  unfold flGetSignal at h
  rw [if_neg (by omega), hs, Nat.add_sub_cancel] at h
  simp only [hF.sizeBackward s (2 * c) (by omega)] at h
  cases ht : flSignalTime fl f none (2 * c) with
  | error e => simp only [ht] at h; exact absurd h (by simp [Bind.bind, Except.bind])
  | ok t =>
    simp only [ht, except_bind_ok] at h
    cases hr : flReorderByTime fl t (F.irfft s (2 * c)) with
    | error e => rw [hr] at h; exact absurd h (by simp [Bind.bind, Except.bind])
    | ok a =>
      rw [hr, except_bind_ok] at h
      unfold flMake at h
      cases hl : t.flArray fl with
      | error e => rw [hl] at h; exact absurd h (by simp [Bind.bind, Except.bind])
      | ok l0 =>
        rw [hl, except_bind_ok] at h
        split at h
        · exact absurd h (by simp)
        · simp only [except_pure, Except.ok.injEq, Prod.mk.injEq] at h
          rw [h.1]

theorem Spec.LastLost.mono {keeps : Prop} {A B : K → K → K} {y z : List K} (h : LastLost n keeps A y z)
    (hAB : ∀ J Y, 0 ≤ J → 0 ≤ Y → A J Y ≤ B J Y) : LastLost n keeps B y z :=
  ⟨h.length, h.first, h.kept, h.lost, fun J Y hJ hY k k0 kn => (h.inner J Y hJ hY k k0 kn).trans
    (hAB J Y ((abs_nonneg _).trans (hJ 0 (by omega))) ((abs_nonneg _).trans (hY 0 (by omega))))⟩

/-! ## C155 -/

/-- **C155** A signal with an even number of samples from time 0, and the signal its spectrum gives back. The new axis is that of
`flSignalTime`; its end is the end of the old one up to roundings. Whatever the samples `v` on the old axis and `v'` on the new one,
arithmetic of the two brings both to a common axis of as many points, and if the ends are not equal the one that ends earlier loses its
last sample there, while the other samples change little. -/
theorem C155_back (h : WellResolved fl u x l n M y) (h0 : x.start = 0) {F : FlFft} {ε : ℝ} (hF : FftErr F ε)
    (hsmall : 4 * ((n + 1) * (n + 7)) * u ≤ 1) (heven : Even (n + 1)) (hfit : |x.stop - n * x.sample| ≤ x.sample / 32)
    (hnu : 1024 * (n * u) ≤ 1) :
    ∃ f s x' y', flGetSpectrum fl F x y = .ok (f, s) ∧ flAxisOfArray fl (flRfftfreq fl (n + 1) x.sample) = .ok f ∧
      flGetSignal fl F f s = .ok (x', y') ∧ flSignalTime fl f none (n + 1) = .ok x' ∧ y'.length = n + 1 ∧
      |x.stop - x'.stop| ≤ |x.stop - n * x.sample| + 10 * (n * u) * x.sample ∧
      ∀ v v' : List K, v.length = n + 1 → v'.length = n + 1 →
        ∃ q1 q2, Rel.flEqualize fl false ⟨x, v⟩ ⟨x', v'⟩ = .ok (q1, q2) ∧
          LastLost n (x'.stop ≤ x.stop) (fun J Y =>
            4 * (|x.stop - x'.stop| + 32 * (n * u) * x.sample) / x.sample * J + 14 * u * Y) v q1.y ∧
          LastLost n (x.stop ≤ x'.stop) (fun J Y =>
            4 * (|x.stop - x'.stop| + 32 * (n * u) * x.sample) / x.sample * J + 14 * u * Y) v' q2.y := by
  have hs := h.positive
  have hu := relErr_nonneg h.rel
  have huu := h.unit
  have hn : (1 : K) ≤ n := by exact_mod_cast h.many
  have hn0 : (0 : K) < n := by linarith
  have hns : x.sample ≤ n * x.sample := by
    have := mul_le_mul_of_nonneg_right hn hs.le
    linarith
  have hf := abs_le.1 hfit
  have hstop : 0 ≤ x.stop := by linarith [hf.1]
  obtain ⟨f, s, x', y', e1, e2, e3, e4, e5, -⟩ := C133_default h h0 hF hsmall heven
  obtain ⟨c, hc⟩ := heven
  have hre := flReorder_increasing h.array h.increasing y (by rw [h.values, h.points])
  obtain ⟨e6, e7⟩ := flGetSpectrum_axis hF.toFftShape (N := n + 1) (by omega) hre
    (by rw [List.length_append, List.length_drop, List.length_take, h.values]; omega) h0.le hstop e1
  have e8 := flGetSignal_axis hF.toFftShape (c := c) (by omega) (by rw [e7]; omega) e2
  rw [show 2 * c = n + 1 by omega] at e8
  -- the end of the new axis
  have hend : x'.stop = fl (n * x'.sample) := by
    unfold flSignalTime at e8
    dsimp only at e8
    split_ifs at e8
    simp only [Except.ok.injEq] at e8
    rw [← e8]
    push_cast
    simp
  have hsa := abs_le.1 e4
  have hu' : u * x.sample ≤ 1 / 1024 * x.sample := by
    refine mul_le_mul_of_nonneg_right ?_ hs.le
    have : u ≤ n * u := by
      have := mul_le_mul_of_nonneg_right hn hu
      linarith
    linarith
  have hs' : 0 < x'.sample := by linarith [hsa.1]
  have hnu' : n * u * x.sample ≤ 1 / 1024 * x.sample := mul_le_mul_of_nonneg_right (by linarith) hs.le
  have hnu0 : 0 ≤ n * u * x.sample := by positivity
  have hns' : |n * x'.sample - n * x.sample| ≤ 8 * (n * u * x.sample) := by
    rw [← mul_sub, abs_mul, abs_of_pos hn0]
    have := mul_le_mul_of_nonneg_left e4 hn0.le
    linarith
  have hns2 := abs_le.1 hns'
  have hr := h.rel (n * x'.sample)
  rw [abs_of_pos (mul_pos hn0 hs')] at hr
  have hub : u * (n * x'.sample) ≤ 101 / 100 * (n * u * x.sample) := by
    have h1 : n * x'.sample ≤ n * x.sample + 8 * (n * u * x.sample) := by linarith [hns2.2]
    have h2 := mul_le_mul_of_nonneg_left h1 hu
    have h3 : u * (8 * (n * u * x.sample)) ≤ 1 / 100 * (n * u * x.sample) := by
      have : u ≤ 1 / 1024 := by
        have := mul_le_mul_of_nonneg_right hn hu
        linarith
      have := mul_le_mul_of_nonneg_right this hnu0
      linarith
    linarith
  have hr2 := abs_le.1 (hr.trans hub)
  rw [← hend] at hr2
  have hd : |x.stop - x'.stop| ≤ |x.stop - n * x.sample| + 10 * (n * u) * x.sample := by
    have : x.stop - x'.stop = (x.stop - n * x.sample) + (n * x.sample - x'.stop) := by ring
    rw [this]
    refine (abs_add_le _ _).trans (add_le_add le_rfl ?_)
    rw [abs_le]
    constructor <;> linarith [hns2.1, hns2.2, hr2.1, hr2.2]
  refine ⟨f, s, x', y', e1, e6, e2, e8, e5, hd, fun v v' hv hv' => ?_⟩
  have hd' : |x.stop - x'.stop| ≤ 3 / 64 * x.sample := by linarith
  have hB : (0 : K) ≤ 2 * (n * x.sample) := by positivity
  have hres : 128 * u * (2 * (n * x.sample)) ≤ 1 / 4 * x.sample := by linarith
  have w1 : WellResolved fl u x l n (2 * (n * x.sample)) v :=
    ⟨h.rel, h.unit, h.array, h.many, h.points, hv, by rw [h0, abs_zero]; exact hB, by rw [abs_of_nonneg hstop]; linarith [hf.2],
      by rw [h0, zero_add]; linarith, by linarith, hs⟩
  have hmk : flMake fl x' v' = .ok (x', v') := by
    unfold flGetSignal at e2
    rw [if_neg (by rw [e7]; omega)] at e2
    have hacc := flMake_stretch h.rel x'.sample x'.start x'.stop hs' n v' hv' (1 / 4) (by
        have e : (x'.stop - x'.start) / x'.sample - n = (x'.stop - n * x'.sample) / x'.sample := by
          rw [e3, sub_zero]; field_simp
        rw [e, abs_div, abs_of_pos hs', div_le_iff₀ hs', abs_le]
        constructor <;> linarith [hr2.1, hr2.2, hsa.1, hsa.2]) (by
        have : u ≤ n * u := by
          have := mul_le_mul_of_nonneg_right hn hu
          linarith
        linarith) (by linarith)
    exact hacc
  obtain ⟨l', hl', hlen'⟩ := flMake_array hmk
  have hstop' : 0 ≤ x'.stop := by linarith [hr2.1, hns2.1]
  have w2 : WellResolved fl u x' l' n (2 * (n * x.sample)) v' :=
    ⟨h.rel, h.unit, hl', h.many, by rw [hlen', hv'], hv', by rw [e3, abs_zero]; exact hB,
      by rw [abs_of_nonneg hstop']; linarith [hr2.2, hns2.2], by
        rw [e3, zero_add, abs_le]
        constructor <;> linarith [hr2.1, hr2.2, hsa.1, hsa.2], by linarith [hsa.1], hs'⟩
  have f0 := fl_zero h.rel
  obtain ⟨q1, q2, he, -, -, n1, n2, p0, pn, i1, i2⟩ :=
    C153_equalize (r1 := ⟨x, v⟩) (r2 := ⟨x', v'⟩) w1 w2 |x.stop - x'.stop|
      (by simp only [h0, e3, sub_self, abs_zero]; exact abs_nonneg _) le_rfl (by simp only; linarith) (by simp only; linarith [hsa.1])
      (by simp only [h0, f0]) (by simp only [e3, f0])
  have hst : x.start = x'.start := by rw [h0, e3]
  refine ⟨q1, q2, he, ?_, ?_⟩
  · refine (lastLost_of hv n1 (fun a b => ?_) (fun a b => ?_) i1).mono fun J Y hJ hY => ?_
    · have := (p0 a (by omega) b (by simp only; omega)).1
      rwa [if_pos (by simp only [hst, le_refl])] at this
    · exact (pn a (by omega) b (by simp only; omega)).1
    · refine add_le_add (mul_le_mul_of_nonneg_right ?_ hJ) le_rfl
      rw [div_le_div_iff_of_pos_right hs]
      have : 0 ≤ |x.stop - x'.stop| := abs_nonneg _
      linarith
  · refine (lastLost_of hv' n2 (fun a b => ?_) (fun a b => ?_) i2).mono fun J Y hJ hY => ?_
    · have := (p0 (by omega) a (by simp only; omega) b).2
      rwa [if_pos (by simp only [hst, le_refl])] at this
    · exact (pn (by omega) a (by simp only; omega) b).2
    · refine add_le_add (mul_le_mul_of_nonneg_right ?_ hJ) le_rfl
      have habs : 0 ≤ |x.stop - x'.stop| := abs_nonneg _
      simp only
      rw [div_le_div_iff₀ hs' hs]
      have hb : (0 : K) ≤ |x.stop - x'.stop| + 32 * (n * u) * x.sample := by positivity
      have h2 : x.sample ≤ 2 * x'.sample := by linarith [hsa.1]
      calc 2 * (|x.stop - x'.stop| + 16 * u * (2 * (n * x.sample))) * x.sample
          = 2 * (|x.stop - x'.stop| + 32 * (n * u) * x.sample) * x.sample := by ring
        _ ≤ 2 * (|x.stop - x'.stop| + 32 * (n * u) * x.sample) * (2 * x'.sample) :=
            mul_le_mul_of_nonneg_left h2 (by linarith)
        _ = 4 * (|x.stop - x'.stop| + 32 * (n * u) * x.sample) * x'.sample := by ring

end

/-! Concrete cases -/

theorem fourTenths_values (y : List ℝ) (hy : y.length = 4) : Spec.WellResolved fl64 (2 ^ (-53 : ℤ))
    ⟨0, fl64 (3 / 10), fl64 (1 / 10)⟩ (flLinspace fl64 0 (fl64 (3 / 10)) 4) 3 1 y where
  rel := fl64_relErr
  unit := by norm_num
  array := by decide +kernel
  many := by norm_num
  points := flLinspace_length _ _ _ _
  values := hy
  startBound := by decide +kernel
  stopBound := by decide +kernel
  fits := by decide +kernel
  resolved := by decide +kernel
  positive := by decide +kernel

/-- **C155** A signal at 0, 0.1, 0.2, 0.3: whatever its samples and whatever the errors of the transforms, the signal its spectrum gives
back ends at 0.30000000000000004. The samples 1, 2, 3, 4 on the old axis minus the same samples on the new axis are 0, 2^-51, 2^-51, -4. -/
theorem C155_witness (y : List ℝ) (hy : y.length = 4) (F : FlFft) (ε : ℝ) (hF : FftErr F ε) :
    ∃ f s x' y', flGetSpectrum fl64 F ⟨0, fl64 (3 / 10), fl64 (1 / 10)⟩ y = .ok (f, s) ∧ flGetSignal fl64 F f s = .ok (x', y') ∧
      x' = ⟨0, fl64 (3 / 10) + 2 ^ (-54 : ℤ), fl64 (1 / 10)⟩ ∧
      Rel.flOperation fl64 false ⟨⟨0, fl64 (3 / 10), fl64 (1 / 10)⟩, [1, 2, 3, 4]⟩ ⟨x', [1, 2, 3, 4]⟩ .sub =
        .ok ⟨x', [0, 2 ^ (-51 : ℤ), 2 ^ (-51 : ℤ), -4]⟩ := by
  obtain ⟨f, s, x', y', e1, e2, e3, e4, -⟩ := C155_back (fourTenths_values y hy) rfl hF (by norm_num) ⟨2, rfl⟩ (by decide +kernel)
    (by norm_num)
  have hf : flAxisOfArray fl64 (flRfftfreq fl64 4 (fl64 (1 / 10))) = .ok (⟨0, 5, 5 / 2⟩ : Axis ℚ) := by decide +kernel
  have hx : flSignalTime fl64 (⟨0, 5, 5 / 2⟩ : Axis ℚ) none 4 = .ok ⟨0, fl64 (3 / 10) + 2 ^ (-54 : ℤ), fl64 (1 / 10)⟩ := by decide +kernel
  have g1 : f = ⟨0, 5, 5 / 2⟩ := Except.ok.inj (e2.symm.trans hf)
  rw [g1] at e4
  have g2 := Except.ok.inj (e4.symm.trans hx)
  refine ⟨f, s, x', y', e1, e3, g2, ?_⟩
  rw [g2]
  decide +kernel

example := C155_back (fourTenths_values [1, 2, 3, 4] rfl) rfl (scaledFft_err (2 ^ (-50 : ℤ)) (by positivity)) (by norm_num) ⟨2, rfl⟩
  (by decide +kernel) (by norm_num)

end SweepDesign
