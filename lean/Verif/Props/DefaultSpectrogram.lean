import Verif.Model.Spectro
import Verif.Lemmas.Tukey
import Mathlib.Algebra.Order.Floor.Semifield
import Verif.Props.FourierSum
import Verif.Props.Envelope
import Verif.Props.Spectrogram
import Verif.Props.Aprior
import Verif.Props.Prepared

/-!
# C90, C91: the spectrogram of the default configuration; sweeps of the default configuration exist
-/

set_option linter.unusedSectionVars false

namespace SweepDesign

open Spec

namespace Spec

/-- The periodic cosine-tapered window of `m` points, an eighth of it tapered at each side (specification). -/
noncomputable def window (m i : ℕ) : ℝ :=
  if m ≤ 1 then 1
  else if 8 * min i (m - i) ≤ m then (1 - Real.cos (8 * Real.pi * (min i (m - i) : ℕ) / m)) / 2 else 1

/-- The mean of the first `m` values (specification). -/
noncomputable def segmentMean (m : ℕ) (y : ℕ → ℝ) : ℝ := (∑ i ∈ Finset.range m, y i) / m

/-- The one-sided power density at the frequency `k / (m dt)` of `m` samples `y`, `dt` apart, windowed after removal of
their mean (specification). -/
noncomputable def density (m : ℕ) (dt : ℝ) (y : ℕ → ℝ) (k : ℕ) : ℝ :=
  (if k = 0 ∨ 2 * k = m then 1 else 2) * dt *
    ‖∑ i ∈ Finset.range m, ((window m i * (y i - segmentMean m y) : ℝ) : ℂ) *
      Complex.exp (-(2 * Real.pi * Complex.I * (i * k : ℕ) / (m : ℂ)))‖ ^ 2 /
    ∑ i ∈ Finset.range m, window m i ^ 2

end Spec

/-! ## the model's window is the window of the specification -/

theorem floor_eighth (m : ℕ) : ⌊(1 / 4 : ℝ) * (((m + 1 : ℕ) : ℝ) - 1) / 2⌋₊ = m / 8 := by
  have : (1 / 4 : ℝ) * (((m + 1 : ℕ) : ℝ) - 1) / 2 = (m : ℝ) / ((8 : ℕ) : ℝ) := by push_cast; ring
  rw [this, Nat.floor_div_eq_div]

theorem tukeyPeriodic_length (m : ℕ) (alpha : ℝ) : (tukeyPeriodic m alpha).length = m := by
  unfold tukeyPeriodic
  split
  · simp
  · rw [List.length_take, tukey_length]; omega

theorem riseAt_window (m i : ℕ) (hm : 2 ≤ m) :
    riseAt (m + 1) (1 / 4) i = (1 - Real.cos (8 * Real.pi * (i : ℝ) / m)) / 2 := by
  unfold riseAt
  have hm0 : (m : ℝ) ≠ 0 := by exact_mod_cast (by omega : m ≠ 0)
  have : Real.pi * (-1 + 2 * (i : ℝ) / (1 / 4) / (((m + 1 : ℕ) : ℝ) - 1)) = 8 * Real.pi * (i : ℝ) / m - Real.pi := by
    rw [show ((m + 1 : ℕ) : ℝ) - 1 = m by push_cast; ring]
    field_simp
    ring
  rw [this, Real.cos_sub_pi]
  ring

theorem tukeyPeriodic_at (m i : ℕ) (hi : i < m) : at0 (tukeyPeriodic m (1 / 4)) i = window m i := by
  rw [at0_eq _ _ (by rw [tukeyPeriodic_length]; exact hi)]
  unfold tukeyPeriodic window
  by_cases h : m ≤ 1
  · simp [h]
  · simp only [if_neg h]
    rw [List.getElem_take]
    have h2 : 2 ≤ m := by omega
    simp only [tukey_mid (show 2 ≤ m + 1 by omega) (by norm_num : (0 : ℝ) < 1 / 4) (by norm_num), floor_eighth,
      List.getElem_map, List.getElem_range]
    by_cases h1 : i ≤ m / 8
    · rw [if_pos h1, min_eq_left (by omega), if_pos (by omega), riseAt_window m i h2]
    · rw [if_neg h1]
      by_cases h3 : i < m + 1 - m / 8 - 1
      · rw [if_pos h3, if_neg (by omega)]
      · rw [if_neg h3, min_eq_right (by omega), if_pos (by omega), fall_eq_rise (by norm_num) (by omega) (by omega),
          riseAt_window m _ h2]
        congr 5

theorem window_sq_pos (m : ℕ) (hm : 0 < m) : 0 < ∑ i ∈ Finset.range m, window m i ^ 2 := by
  rcases Nat.lt_or_ge 1 m with h | h
  · apply Finset.sum_pos'
    · intro i _; positivity
    · refine ⟨m / 8 + 1, Finset.mem_range.2 (by omega), ?_⟩
      unfold window
      rw [if_neg (by omega), if_neg (by omega)]
      norm_num
  · have : m = 1 := by omega
    subst this
    simp [window]

theorem sum_map_at0 (l : List ℝ) (f : ℝ → ℝ) :
    (l.map f).sum = ∑ i ∈ Finset.range l.length, f (at0 l i) := by
  rw [Finset.sum_range]
  have : l.map f = List.ofFn fun i : Fin l.length => f (at0 l i) := by
    refine List.ext_getElem (by simp) fun i h1 h2 => ?_
    simp only [List.getElem_map, List.getElem_ofFn]
    rw [at0_eq]
  rw [this, List.sum_ofFn]

/-! ## the entries of the image -/

theorem psd_density (y : List ℝ) (m : ℕ) (hm : 0 < m) (dt : ℝ) (hdt : dt ≠ 0) (j k : ℕ)
    (hj : j * nStep m + m ≤ y.length) :
    psd y m dt j k = density m dt (fun i => y.getD (j * (m - m / 8) + i) 0) k := by
  have hstep : nStep m = m - m / 8 := rfl
  have hseg : ((y.drop (j * nStep m)).take m).length = m := by
    rw [List.length_take, List.length_drop]; omega
  have hval : ∀ i < m, at0 ((y.drop (j * nStep m)).take m) i = y.getD (j * (m - m / 8) + i) 0 := by
    intro i hi
    rw [at0_eq _ _ (by omega), List.getElem_take, List.getElem_drop, getD_lt _ _ _ (by rw [← hstep]; omega)]
    rfl
  have hmean : ((y.drop (j * nStep m)).take m).sum / (((y.drop (j * nStep m)).take m).length : ℝ) =
      segmentMean m fun i => y.getD (j * (m - m / 8) + i) 0 := by
    have h1 := sum_map_at0 ((y.drop (j * nStep m)).take m) id
    rw [List.map_id, hseg] at h1
    rw [h1, hseg]
    unfold segmentMean
    congr 1
    exact Finset.sum_congr rfl fun i hi => hval i (Finset.mem_range.1 hi)
  have hdet : ∀ i < m, at0 (detrended y m j) i = y.getD (j * (m - m / 8) + i) 0 -
      segmentMean m fun i => y.getD (j * (m - m / 8) + i) 0 := by
    intro i hi
    have : detrended y m j = ((y.drop (j * nStep m)).take m).map fun v =>
        v - segmentMean m fun i => y.getD (j * (m - m / 8) + i) 0 := by
      rw [← hmean]; rfl
    rw [this, at0_eq _ _ (by rw [List.length_map]; omega), List.getElem_map, ← hval i hi, at0_eq _ _ (by omega)]
  have hwin : ((tukeyPeriodic m (1 / 4)).map fun w => w * w).sum = ∑ i ∈ Finset.range m, window m i ^ 2 := by
    rw [sum_map_at0, tukeyPeriodic_length]
    refine Finset.sum_congr rfl fun i hi => ?_
    rw [tukeyPeriodic_at m i (Finset.mem_range.1 hi), pow_two]
  have hpos := window_sq_pos m hm
  unfold psd density oneSided psdScale segmentFft
  rw [hwin]
  have hsum : ∑ i ∈ Finset.range m, ((at0 (tukeyPeriodic m (1 / 4)) i * at0 (detrended y m j) i : ℝ) : ℂ) *
        Complex.exp (-(2 * Real.pi * Complex.I * (i * k : ℕ) / (m : ℂ))) =
      ∑ i ∈ Finset.range m, ((window m i * (y.getD (j * (m - m / 8) + i) 0 -
        segmentMean m fun i => y.getD (j * (m - m / 8) + i) 0) : ℝ) : ℂ) *
        Complex.exp (-(2 * Real.pi * Complex.I * (i * k : ℕ) / (m : ℂ))) := by
    refine Finset.sum_congr rfl fun i hi => ?_
    rw [tukeyPeriodic_at m i (Finset.mem_range.1 hi), hdet i (Finset.mem_range.1 hi)]
  rw [hsum]
  field_simp

theorem nPerSeg_eq (n : ℕ) : nPerSeg n = min n 256 := by unfold nPerSeg; split <;> omega

theorem segs_fit (n j : ℕ) (hn : 0 < n) (hj : j < nSegs n (min n 256)) :
    j * nStep (min n 256) + min n 256 ≤ n := by
  unfold nSegs nOverlap at hj
  have hpos : 0 < nStep (min n 256) := by unfold nStep nOverlap; omega
  have h1 : (j + 1) * nStep (min n 256) ≤ n - min n 256 / 8 := by
    calc (j + 1) * nStep (min n 256) ≤ (n - min n 256 / 8) / nStep (min n 256) * nStep (min n 256) :=
          Nat.mul_le_mul_right _ hj
      _ ≤ _ := Nat.div_mul_le_self _ _
  rw [Nat.add_mul, one_mul] at h1
  have h2 : nStep (min n 256) = min n 256 - min n 256 / 8 := rfl
  omega

theorem segs_pos (n : ℕ) (hn : 0 < n) : 0 < nSegs n (min n 256) := by
  unfold nSegs
  apply Nat.div_pos
  · unfold nStep nOverlap; omega
  · unfold nStep nOverlap; omega

theorem defaultSpectrogram_ok {r : Rel ℝ ℝ} {d : SpectroData ℝ} (h : defaultSpectrogram r = .ok d) :
    0 < r.y.length ∧ r.x.sample ≠ 0 ∧
    d.time = (List.range (nSegs r.y.length (min r.y.length 256))).map (fun j : ℕ =>
      (((min r.y.length 256 : ℕ) : ℝ) / 2 + (j : ℝ) * (nStep (min r.y.length 256) : ℝ)) / (1 / r.x.sample)) ∧
    d.frequency = rfftfreq (min r.y.length 256) (1 / (1 / r.x.sample)) ∧
    d.image = ((List.range (min r.y.length 256 / 2 + 1)).map fun k =>
      (List.range (nSegs r.y.length (min r.y.length 256))).map fun j => psd r.y (min r.y.length 256) r.x.sample j k).reverse := by
  unfold defaultSpectrogram at h
  simp only [nPerSeg_eq] at h
  by_cases h0 : r.y.length = 0
  · rw [if_pos h0] at h; simp at h
  · rw [if_neg h0] at h
    by_cases h1 : r.x.sample = 0
    · rw [if_pos h1] at h; simp at h
    · rw [if_neg h1] at h
      simp only [Except.ok.injEq] at h
      subst h
      exact ⟨by omega, h1, rfl, rfl, rfl⟩

/-- the shapes assumed in C67 are those of the default configuration -/
theorem defaultPrims_shape : ScipyShape defaultPrims := by
  constructor
  · intro r d h
    obtain ⟨-, -, h1, -, -⟩ := defaultSpectrogram_ok h
    rw [h1]; simp [nSegs, nStep, nOverlap]
  · intro r d h
    obtain ⟨-, -, -, h1, -⟩ := defaultSpectrogram_ok h
    rw [h1]; simp [rfftfreq]
  · intro r d h
    obtain ⟨-, -, -, h1, h2⟩ := defaultSpectrogram_ok h
    rw [h1, h2]; simp [rfftfreq]
  · intro r d h row hr
    obtain ⟨-, -, h1, -, h2⟩ := defaultSpectrogram_ok h
    rw [h2] at hr
    simp only [List.mem_reverse, List.mem_map] at hr
    obtain ⟨k, -, rfl⟩ := hr
    rw [h1]; simp

/-- **C90** The image of the spectrogram of a sweep of `n` samples under the default configuration. With segments of
`m = min(n, 256)` samples that overlap by `m // 8`: one row per frequency `0 .. m // 2`, highest first; one column for
each segment that fits into the samples; the entry is the power density of the segment at the frequency. -/
theorem C90_image (x : XArg ℝ ℝ) (y : Option (List ℝ)) (f a p : Option (Rel ℝ ℝ)) (s : Sweep ℝ)
    (h : Sweep.init defaultPrims x y f a p = .ok s) (n m : ℕ) (hn : s.rel.y.length = n) (hm : m = min n 256) :
    s.spectrogram.image.length = m / 2 + 1 ∧ ∀ i (hi : i < s.spectrogram.image.length),
      s.spectrogram.image[i].length = (n - m / 8) / (m - m / 8) ∧
      ∀ c (hc : c < s.spectrogram.image[i].length), c * (m - m / 8) + m ≤ n ∧
        s.spectrogram.image[i][c] =
          density m s.rel.x.sample (fun j => s.rel.y.getD (c * (m - m / 8) + j) 0) (m / 2 - i) := by
  obtain ⟨-, -, -, ⟨d, hd, hg⟩, -⟩ := sweepInit_ok h
  obtain ⟨hp, hs, -, -, h2⟩ := defaultSpectrogram_ok (show defaultSpectrogram s.rel = .ok d from hd)
  obtain ⟨hi, -, -⟩ := getSpectrogram_ok hg
  rw [hn] at h2 hp
  rw [← hm] at h2
  have him : s.spectrogram.image = ((List.range (m / 2 + 1)).map fun k =>
      (List.range (nSegs n m)).map fun j => psd s.rel.y m s.rel.x.sample j k).reverse := by rw [hi, h2]
  have hlen : s.spectrogram.image.length = m / 2 + 1 := by rw [him]; simp
  refine ⟨hlen, fun i hi' => ?_⟩
  have hrow : s.spectrogram.image[i] = (List.range (nSegs n m)).map fun j => psd s.rel.y m s.rel.x.sample j (m / 2 - i) := by
    simp only [him, List.getElem_reverse, List.getElem_map, List.getElem_range, List.length_map, List.length_range]
    rfl
  refine ⟨by rw [hrow]; simp [nSegs, nOverlap, nStep], fun c hc => ?_⟩
  have hc' : c < nSegs n m := by rw [hrow] at hc; simpa using hc
  have hfit := segs_fit n c hp (by rw [← hm]; exact hc')
  rw [← hm] at hfit
  refine ⟨hfit, ?_⟩
  have : s.spectrogram.image[i][c] = psd s.rel.y m s.rel.x.sample c (m / 2 - i) := by
    simp only [hrow, List.getElem_map, List.getElem_range]
  rw [this, psd_density _ _ (by omega) _ hs _ _ (by rw [hn]; exact hfit)]

/-! ## consequences -/

theorem density_affine (m : ℕ) (hm : 0 < m) (dt b c : ℝ) (y z : ℕ → ℝ) (hz : ∀ i < m, z i = c * y i + b) (k : ℕ) :
    density m dt z k = c ^ 2 * density m dt y k := by
  have hm0 : (m : ℝ) ≠ 0 := by exact_mod_cast hm.ne'
  have hmean : segmentMean m z = c * segmentMean m y + b := by
    unfold segmentMean
    rw [Finset.sum_congr rfl fun i hi => hz i (Finset.mem_range.1 hi), Finset.sum_add_distrib, ← Finset.mul_sum,
      Finset.sum_const, Finset.card_range, nsmul_eq_mul]
    field_simp
  have hsum : ∑ i ∈ Finset.range m, ((window m i * (z i - segmentMean m z) : ℝ) : ℂ) *
        Complex.exp (-(2 * Real.pi * Complex.I * (i * k : ℕ) / (m : ℂ))) =
      c * ∑ i ∈ Finset.range m, ((window m i * (y i - segmentMean m y) : ℝ) : ℂ) *
        Complex.exp (-(2 * Real.pi * Complex.I * (i * k : ℕ) / (m : ℂ))) := by
    rw [Finset.mul_sum]
    refine Finset.sum_congr rfl fun i hi => ?_
    rw [hz i (Finset.mem_range.1 hi), hmean, ← mul_assoc]
    congr 1
    push_cast
    ring
  unfold density
  rw [hsum, norm_mul, mul_pow, Complex.norm_real, Real.norm_eq_abs, sq_abs]
  ring

theorem density_nonneg (m : ℕ) (dt : ℝ) (hdt : 0 ≤ dt) (y : ℕ → ℝ) (k : ℕ) : 0 ≤ density m dt y k := by
  unfold density
  apply div_nonneg
  · apply mul_nonneg (mul_nonneg ?_ hdt) (by positivity)
    split <;> norm_num
  · exact Finset.sum_nonneg fun i _ => by positivity

/-- **C90** No entry of the image is negative. -/
theorem C90_nonneg (x : XArg ℝ ℝ) (y : Option (List ℝ)) (f a p : Option (Rel ℝ ℝ)) (s : Sweep ℝ)
    (h : Sweep.init defaultPrims x y f a p = .ok s) (hs : 0 < s.rel.x.sample) :
    ∀ row ∈ s.spectrogram.image, ∀ v ∈ row, 0 ≤ v := by
  obtain ⟨-, h2⟩ := C90_image x y f a p s h _ _ rfl rfl
  intro row hr v hv
  obtain ⟨i, hi, rfl⟩ := List.getElem_of_mem hr
  obtain ⟨c, hc, rfl⟩ := List.getElem_of_mem hv
  rw [((h2 i hi).2 c hc).2]
  exact density_nonneg _ _ hs.le _ _

/-- **C90** The spectrogram depends on the samples and the step only, not on the start of the time axis or on descriptions
and a-priori signals. Adding a constant to the samples does not change it; multiplying them by `c` multiplies
the image by `c²`. -/
theorem C90_affine (x x' : XArg ℝ ℝ) (y y' : Option (List ℝ)) (f a p f' a' p' : Option (Rel ℝ ℝ)) (s s' : Sweep ℝ)
    (h : Sweep.init defaultPrims x y f a p = .ok s) (h' : Sweep.init defaultPrims x' y' f' a' p' = .ok s')
    (hs : s'.rel.x.sample = s.rel.x.sample) (b c : ℝ) (hy : s'.rel.y = s.rel.y.map fun v => c * v + b) :
    s'.spectrogram.time = s.spectrogram.time ∧ s'.spectrogram.frequency = s.spectrogram.frequency ∧
    s'.spectrogram.image = s.spectrogram.image.map fun row => row.map fun v => c ^ 2 * v := by
  have hl : s'.rel.y.length = s.rel.y.length := by rw [hy, List.length_map]
  have haxes : s'.spectrogram.time = s.spectrogram.time ∧ s'.spectrogram.frequency = s.spectrogram.frequency := by
    obtain ⟨-, -, -, ⟨d, hd, hg⟩, -⟩ := sweepInit_ok h
    obtain ⟨-, -, -, ⟨d', hd', hg'⟩, -⟩ := sweepInit_ok h'
    obtain ⟨-, -, t1, t2, -⟩ := defaultSpectrogram_ok (show defaultSpectrogram s.rel = .ok d from hd)
    obtain ⟨-, -, t1', t2', -⟩ := defaultSpectrogram_ok (show defaultSpectrogram s'.rel = .ok d' from hd')
    obtain ⟨-, ⟨l, g1, g2⟩, m, g3, g4⟩ := getSpectrogram_ok hg
    obtain ⟨-, ⟨l', g1', g2'⟩, m', g3', g4'⟩ := getSpectrogram_ok hg'
    rw [hl, hs, ← t1] at t1'
    rw [hl, hs, ← t2] at t2'
    rw [t1', g1, Except.ok.injEq] at g1'
    rw [t2', g3, Except.ok.injEq] at g3'
    rw [← g1', g2, Except.ok.injEq] at g2'
    rw [← g3', g4, Except.ok.injEq] at g4'
    exact ⟨g2'.symm, g4'.symm⟩
  refine ⟨haxes.1, haxes.2, ?_⟩
  have hpos : 0 < s.rel.y.length := by
    obtain ⟨-, -, -, ⟨d, hd, -⟩, -⟩ := sweepInit_ok h
    exact (defaultSpectrogram_ok (show defaultSpectrogram s.rel = .ok d from hd)).1
  obtain ⟨h1, h2⟩ := C90_image x y f a p s h _ _ rfl rfl
  obtain ⟨h1', h2'⟩ := C90_image x' y' f' a' p' s' h' _ _ hl rfl
  refine List.ext_getElem (by rw [List.length_map, h1, h1']) fun i hi hi2 => ?_
  have hi0 : i < s.spectrogram.image.length := by simpa using hi2
  rw [List.getElem_map]
  refine List.ext_getElem (by rw [List.length_map, (h2 i hi0).1, (h2' i hi).1]) fun j hj hj2 => ?_
  have hj0 : j < s.spectrogram.image[i].length := by simpa using hj2
  obtain ⟨e1, e2⟩ := (h2 i hi0).2 j hj0
  rw [List.getElem_map, ((h2' i hi).2 j hj).2, e2, hs]
  refine density_affine _ (by omega) _ b c _ _ (fun t ht => ?_) _
  have ht' : j * (min s.rel.y.length 256 - min s.rel.y.length 256 / 8) + t < s.rel.y.length := by omega
  rw [getD_lt _ _ _ (by rw [hl]; exact ht'), getD_lt _ _ _ ht']
  simp only [hy, List.getElem_map]

/-- **C90** The image of a constant sweep is zero. -/
theorem C90_constant (x : XArg ℝ ℝ) (y : Option (List ℝ)) (f a p : Option (Rel ℝ ℝ)) (s : Sweep ℝ)
    (h : Sweep.init defaultPrims x y f a p = .ok s) (b : ℝ) (hy : ∀ v ∈ s.rel.y, v = b) :
    ∀ row ∈ s.spectrogram.image, ∀ v ∈ row, v = 0 := by
  have := (C90_affine x x y y f a p f a p s s h h rfl b 0 (by
    conv_lhs => rw [← List.map_id s.rel.y]
    exact List.map_congr_left fun v hv => by simp [hy v hv])).2.2
  intro row hr v hv
  rw [this] at hr
  simp only [List.mem_map] at hr
  obtain ⟨row', -, rfl⟩ := hr
  simp only [List.mem_map] at hv
  obtain ⟨v', -, rfl⟩ := hv
  ring

/-! ## energy -/

/-- a symmetric function over `0 .. m - 1`, folded to the indices up to `m / 2` -/
theorem sum_fold (m : ℕ) (hm : 0 < m) (g : ℕ → ℝ) (hg : ∀ k, 0 < k → k < m → g (m - k) = g k) :
    ∑ k ∈ Finset.range (m / 2 + 1), (if k = 0 ∨ 2 * k = m then 1 else 2) * g k = ∑ k ∈ Finset.range m, g k := by
  have h1 : ∑ k ∈ Finset.range (m / 2 + 1), (if k = 0 ∨ 2 * k = m then 1 else 2) * g k =
      ∑ k ∈ Finset.range (m / 2 + 1), g k + ∑ k ∈ Finset.range (m / 2 + 1), if k = 0 ∨ 2 * k = m then 0 else g k := by
    rw [← Finset.sum_add_distrib]
    refine Finset.sum_congr rfl fun k _ => ?_
    split <;> ring
  have h2 : ∑ k ∈ Finset.range (m / 2 + 1), (if k = 0 ∨ 2 * k = m then 0 else g k) =
      ∑ k ∈ Finset.range m \ Finset.range (m / 2 + 1), g k := by
    have h0 : ∀ k, (if k = 0 ∨ 2 * k = m then 0 else g k) = if ¬ (k = 0 ∨ 2 * k = m) then g k else 0 := by
      intro k
      by_cases hk : k = 0 ∨ 2 * k = m
      · rw [if_pos hk, if_neg (not_not.2 hk)]
      · rw [if_neg hk, if_pos hk]
    rw [Finset.sum_congr rfl fun k _ => h0 k, ← Finset.sum_filter]
    refine Finset.sum_nbij' (fun k => m - k) (fun k => m - k) ?_ ?_ ?_ ?_ ?_
    · intro k hk
      simp only [Finset.mem_filter, Finset.mem_range, Finset.mem_sdiff] at hk ⊢
      omega
    · intro k hk
      simp only [Finset.mem_filter, Finset.mem_range, Finset.mem_sdiff] at hk ⊢
      omega
    · intro k hk
      simp only [Finset.mem_filter, Finset.mem_range] at hk
      omega
    · intro k hk
      simp only [Finset.mem_range, Finset.mem_sdiff] at hk
      omega
    · intro k hk
      simp only [Finset.mem_filter, Finset.mem_range] at hk
      exact (hg k (by omega) (by omega)).symm
  rw [h1, h2]
  rcases Nat.lt_or_ge 1 m with h | h
  · rw [add_comm]
    exact Finset.sum_sdiff (Finset.range_subset_range.2 (by omega))
  · have : m = 1 := by omega
    subst this
    simp

theorem density_energy (m : ℕ) (hm : 0 < m) (dt : ℝ) (hdt : dt ≠ 0) (y : ℕ → ℝ) :
    (∑ k ∈ Finset.range (m / 2 + 1), density m dt y k) * (1 / (m * dt)) =
      (∑ i ∈ Finset.range m, (window m i * (y i - segmentMean m y)) ^ 2) / ∑ i ∈ Finset.range m, window m i ^ 2 := by
  set z : ℕ → ℝ := fun i => window m i * (y i - segmentMean m y) with hz
  have hW := window_sq_pos m hm
  have hm0 : (m : ℝ) ≠ 0 := by exact_mod_cast hm.ne'
  have hden : ∀ k, density m dt y k = (dt / ∑ i ∈ Finset.range m, window m i ^ 2) *
      ((if k = 0 ∨ 2 * k = m then 1 else 2) * ‖dft m z k‖ ^ 2) := by
    intro k
    have : dft m z k = ∑ i ∈ Finset.range m, ((window m i * (y i - segmentMean m y) : ℝ) : ℂ) *
        Complex.exp (-(2 * Real.pi * Complex.I * (i * k : ℕ) / (m : ℂ))) := by
      unfold dft unitRoot
      refine Finset.sum_congr rfl fun j _ => ?_
      congr 2
      push_cast
      rw [mul_neg, neg_div]
    rw [this]
    unfold density
    ring
  rw [Finset.sum_congr rfl fun k _ => hden k, ← Finset.mul_sum, sum_fold m hm (fun k => ‖dft m z k‖ ^ 2), dft_parseval m hm]
  · have : ∑ i ∈ Finset.range m, (window m i * (y i - segmentMean m y)) ^ 2 = ∑ i ∈ Finset.range m, z i ^ 2 := rfl
    rw [this]
    field_simp
  · intro k h0 hk
    have := dft_conj m hm z k
    rw [← this, RCLike.norm_conj]
    congr 3
    push_cast [Nat.cast_sub hk.le]
    ring

theorem sum_reverse_range (l : List ℝ) (n : ℕ) (hl : l.length = n + 1) (g : ℕ → ℝ)
    (h : ∀ i (hi : i < l.length), l[i] = g (n - i)) : l.sum = ∑ k ∈ Finset.range (n + 1), g k := by
  have := sum_map_at0 l id
  rw [List.map_id] at this
  rw [this, hl, ← Finset.sum_range_reflect]
  refine Finset.sum_congr rfl fun i hi => ?_
  have hi' := Finset.mem_range.1 hi
  rw [at0_eq _ _ (by omega), id, h]
  congr 1
  omega

/-- **C90** The power of a column: the sum of its entries times the frequency step `1 / (m dt)` is the weighted mean of the
squared deviations of the segment from its mean, the weights being the squares of the window. -/
theorem C90_energy (x : XArg ℝ ℝ) (y : Option (List ℝ)) (f a p : Option (Rel ℝ ℝ)) (s : Sweep ℝ)
    (h : Sweep.init defaultPrims x y f a p = .ok s) (n m : ℕ) (hn : s.rel.y.length = n) (hm : m = min n 256) (c : ℕ)
    (hc : c < (n - m / 8) / (m - m / 8)) (z : ℕ → ℝ) (hz : ∀ j < m, z j = s.rel.y.getD (c * (m - m / 8) + j) 0) :
    (s.spectrogram.image.map fun row => row.getD c 0).sum * (1 / (m * s.rel.x.sample)) =
      (∑ j ∈ Finset.range m, window m j ^ 2 * (z j - segmentMean m z) ^ 2) / ∑ j ∈ Finset.range m, window m j ^ 2 := by
  obtain ⟨h1, h2⟩ := C90_image x y f a p s h n m hn hm
  have hs : s.rel.x.sample ≠ 0 ∧ 0 < n := by
    obtain ⟨-, -, -, ⟨d, hd, -⟩, -⟩ := sweepInit_ok h
    obtain ⟨a, b, -⟩ := defaultSpectrogram_ok (show defaultSpectrogram s.rel = .ok d from hd)
    exact ⟨b, by omega⟩
  have hm0 : 0 < m := by omega
  have hden : ∀ k, density m s.rel.x.sample (fun j => s.rel.y.getD (c * (m - m / 8) + j) 0) k =
      density m s.rel.x.sample z k := by
    intro k
    rw [density_affine m hm0 _ 0 1 z _ (fun i hi => by rw [hz i hi]; ring)]
    ring
  rw [sum_reverse_range _ (m / 2) (by rw [List.length_map, h1]) (fun k => density m s.rel.x.sample z k),
    density_energy m hm0 _ hs.1]
  · congr 1
    exact Finset.sum_congr rfl fun i _ => by ring
  · intro i hi
    have hi' : i < s.spectrogram.image.length := by simpa using hi
    obtain ⟨e1, e2⟩ := h2 i hi'
    rw [List.getElem_map, getD_lt _ _ _ (by rw [e1]; exact hc), (e2 c (by rw [e1]; exact hc)).2, hden]

/-! ## the axes -/

theorem padded_axis {l : List ℝ} {a d : ℝ} {n : ℕ} (h : EvenlySpaced l a d n) (hn : 1 ≤ n) (hd : 0 < d) :
    ∃ p ax, padAxis l = .ok p ∧ axisFromArray p true true = .ok ax ∧ ax.start = a ∧
      (n = 1 → ax = ⟨a, a + 1, 1⟩) ∧ (2 ≤ n → ax.stop = a + ((n : ℝ) - 1) * d ∧ RoundedStep d ax.sample) := by
  rcases Nat.lt_or_ge n 2 with h2 | h2
  · have h1 : n = 1 := by omega
    subst h1
    match l, h with
    | [t], h =>
      have ht : t = a := by have := h.2 0 (by simp); simpa using this
      subst ht
      refine ⟨[t, t + 1], ⟨t, t + 1, 1⟩, by simp [padAxis], ?_, rfl, fun _ => rfl, by omega⟩
      have : pyRound (1 : ℝ) = 1 := by simpa using pyRound_natCast (K := ℝ) 1
      simp [axisFromArray, getActualSample, npDiff, npMin, roundStep, this, bind, Except.bind, pure, Except.pure]
    | [], h => simp [EvenlySpaced] at h
    | _ :: _ :: _, h => simp [EvenlySpaced] at h
  · obtain ⟨s, e1, e2, e3⟩ := roundStep_ok hd
    refine ⟨l, ⟨a, a + ((n : ℝ) - 1) * d, s⟩, ?_, ?_, rfl, by omega, fun _ => ⟨rfl, e3⟩⟩
    · unfold padAxis; exact if_neg (by rw [h.1]; omega)
    · simp [axisFromArray, h.actualSample h2, bind, Except.bind, h.head (by omega), h.last (by omega), pure,
        Except.pure, e1]

theorem default_time_spaced (n m : ℕ) (dt : ℝ) :
    EvenlySpaced ((List.range (nSegs n m)).map fun j : ℕ => ((m : ℝ) / 2 + (j : ℝ) * (nStep m : ℝ)) / (1 / dt))
      (m / 2 * dt) ((m - m / 8 : ℕ) * dt) (nSegs n m) := by
  refine ⟨by simp, fun i h => ?_⟩
  simp only [List.getElem_map, List.getElem_range, nStep, nOverlap]
  rw [div_div_eq_mul_div, div_one]
  ring

/-- what the default method and the constructor make of a balanced relation with a positive step -/
theorem default_spectrogram_works (r : Rel ℝ ℝ) (hr : 0 < r.y.length) (hs : 0 < r.x.sample) (n m : ℕ) (hn : r.y.length = n)
    (hm : m = min n 256) :
    ∃ d g, defaultSpectrogram r = .ok d ∧ getSpectrogram d = .ok g ∧ g.time.start = m / 2 * r.x.sample ∧ g.frequency.start = 0 ∧
      ((n - m / 8) / (m - m / 8) = 1 → g.time = ⟨m / 2 * r.x.sample, m / 2 * r.x.sample + 1, 1⟩) ∧
      (2 ≤ (n - m / 8) / (m - m / 8) →
        g.time.stop = m / 2 * r.x.sample + (((n - m / 8) / (m - m / 8) : ℕ) - 1) * ((m - m / 8 : ℕ) * r.x.sample) ∧
        RoundedStep ((m - m / 8 : ℕ) * r.x.sample) g.time.sample) ∧
      (n = 1 → g.frequency = ⟨0, 1, 1⟩) ∧
      (2 ≤ n → g.frequency.stop = (m / 2 : ℕ) * (1 / (m * r.x.sample)) ∧ RoundedStep (1 / (m * r.x.sample)) g.frequency.sample) := by
  subst hn
  have hm0 : 0 < m := by omega
  have hmR : (0 : ℝ) < m := by exact_mod_cast hm0
  have hseg := segs_pos r.y.length hr
  rw [← hm] at hseg
  have hstepR : (0 : ℝ) < ((m - m / 8 : ℕ) : ℝ) := by exact_mod_cast (by omega : 0 < m - m / 8)
  obtain ⟨p, ax, a1, a2, a3, a4, a5⟩ := padded_axis (default_time_spaced r.y.length m r.x.sample) hseg (by positivity)
  obtain ⟨q, bx, b1, b2, b3, b4, b5⟩ := padded_axis (rfftfreq_spaced m (1 / (1 / r.x.sample))) (by omega)
    (by positivity)
  have hdd : (1 : ℝ) / (1 / r.x.sample) = r.x.sample := by rw [one_div_one_div]
  have hd : ∃ im, defaultSpectrogram r = .ok ⟨_, _, im⟩ := ⟨_, by
    unfold defaultSpectrogram
    simp only [nPerSeg_eq, ← hm]
    rw [if_neg (by omega), if_neg hs.ne']⟩
  obtain ⟨im, hd⟩ := hd
  refine ⟨_, ⟨ax, bx, im⟩, hd, ?_, a3, b3, a4, a5, ?_, ?_⟩
  · simp only [getSpectrogram, a1, a2, b1, b2, except_bind_ok, except_pure]
  · intro h
    have := b4 (by omega)
    simpa using this
  · intro h
    obtain ⟨c1, c2⟩ := b5 (by omega)
    rw [hdd] at c1 c2
    refine ⟨?_, c2⟩
    rw [c1]
    push_cast
    ring

theorem default_axes {x : XArg ℝ ℝ} {y : Option (List ℝ)} {f a p : Option (Rel ℝ ℝ)} {s : Sweep ℝ}
    (h : Sweep.init defaultPrims x y f a p = .ok s) : 0 < s.rel.y.length ∧
    ∃ d, defaultSpectrogram s.rel = .ok d ∧ getSpectrogram d = .ok s.spectrogram := by
  obtain ⟨-, -, -, ⟨d, hd, hg⟩, -⟩ := sweepInit_ok h
  exact ⟨(defaultSpectrogram_ok (show defaultSpectrogram s.rel = .ok d from hd)).1, d, hd, hg⟩

/-- **C90** The axes of the spectrogram of `n` samples with the step `dt > 0`, `m = min(n, 256)`: times count from the
first sample (whatever the start of the sweep's own axis) to the middle of a segment, frequencies from zero to `m // 2`
steps of `1 / (m dt)`; the steps are rounded to a whole number or the reciprocal of one. -/
theorem C90_axes (x : XArg ℝ ℝ) (y : Option (List ℝ)) (f a p : Option (Rel ℝ ℝ)) (s : Sweep ℝ)
    (h : Sweep.init defaultPrims x y f a p = .ok s) (hs : 0 < s.rel.x.sample) (n m : ℕ) (hn : s.rel.y.length = n)
    (hm : m = min n 256) :
    s.spectrogram.time.start = m / 2 * s.rel.x.sample ∧ s.spectrogram.frequency.start = 0 ∧
    ((n - m / 8) / (m - m / 8) = 1 → s.spectrogram.time = ⟨m / 2 * s.rel.x.sample, m / 2 * s.rel.x.sample + 1, 1⟩) ∧
    (2 ≤ (n - m / 8) / (m - m / 8) →
      s.spectrogram.time.stop =
        m / 2 * s.rel.x.sample + (((n - m / 8) / (m - m / 8) : ℕ) - 1) * ((m - m / 8 : ℕ) * s.rel.x.sample) ∧
      RoundedStep ((m - m / 8 : ℕ) * s.rel.x.sample) s.spectrogram.time.sample) ∧
    (n = 1 → s.spectrogram.frequency = ⟨0, 1, 1⟩) ∧
    (2 ≤ n → s.spectrogram.frequency.stop = (m / 2 : ℕ) * (1 / (m * s.rel.x.sample)) ∧
      RoundedStep (1 / (m * s.rel.x.sample)) s.spectrogram.frequency.sample) := by
  obtain ⟨h0, d, hd, hg⟩ := default_axes h
  obtain ⟨d', g, e1, e2, e3⟩ := default_spectrogram_works s.rel h0 hs n m hn hm
  rw [hd, Except.ok.injEq] at e1
  subst e1
  rw [hg, Except.ok.injEq] at e2
  subst e2
  exact e3

/-- **C90** The axes need not fit the image: every sweep of 256 or more samples with the step 0.001 has an image of 129 rows
(frequencies 3.90625 apart) but a frequency axis of 126 points (4 apart). -/
theorem C90_frequency_witness (x : XArg ℝ ℝ) (y : Option (List ℝ)) (f a p : Option (Rel ℝ ℝ)) (s : Sweep ℝ)
    (h : Sweep.init defaultPrims x y f a p = .ok s) (hs : s.rel.x.sample = 1 / 1000) (hn : 256 ≤ s.rel.y.length) :
    s.spectrogram.image.length = 129 ∧ s.spectrogram.frequency = ⟨0, 500, 4⟩ ∧ s.spectrogram.frequency.size = .ok 126 := by
  have hm : 256 = min s.rel.y.length 256 := by omega
  obtain ⟨-, h1, -, -, -, h2⟩ := C90_axes x y f a p s h (by rw [hs]; norm_num) _ _ rfl hm
  obtain ⟨h3, h4⟩ := h2 (by omega)
  have h5 := (C90_image x y f a p s h _ _ rfl hm).1
  rw [hs] at h3 h4
  have hstep : s.spectrogram.frequency.sample = 4 := by
    refine RoundedStep.unique h4 ?_
    refine Or.inr ⟨by norm_num, 4, ⟨?_, ?_⟩, by norm_num⟩
    · rw [abs_le]; constructor <;> norm_num
    · intro _; decide
  have hax : s.spectrogram.frequency = ⟨0, 500, 4⟩ := by
    apply Axis.ext' h1 _ hstep
    rw [h3]; norm_num
  refine ⟨h5, hax, ?_⟩
  rw [hax, Axis.size_eq _ (by norm_num)]
  have : pyRound (125 : ℝ) = 125 := by simpa using pyRound_natCast (K := ℝ) 125
  norm_num [Axis.steps, this]
  rfl

/-! ## C91 -/

/-- the methods of the default configuration meet the contract of C54, C62, C76 and C77 -/
theorem defaultPrims_work : PrimsWork defaultPrims := by
  intro r hb hs
  have hpos : 0 < r.y.length := by have := ((balanced_iff r).1 hb).2; omega
  obtain ⟨d, g, h1, h2, -⟩ := default_spectrogram_works r hpos hs _ _ rfl rfl
  exact ⟨⟨_, getFT_eq r hb⟩, ⟨_, getAT_eq r hb⟩, d, g, h1, h2⟩

theorem default_works (r : Rel ℝ ℝ) (hb : Balanced r) (hs : 0 < r.x.sample) : SpectrogramWorks defaultPrims r :=
  (defaultPrims_work r hb hs).2.2

/-- **C91** Under the default configuration a sweep can be built from whatever a relation can be built from, provided
the relation has as many samples as axis points and a positive step; given descriptions are kept, others are derived. -/
theorem C91_constructor (x : XArg ℝ ℝ) (y : Option (List ℝ)) (f a p : Option (Rel ℝ ℝ)) (r : Rel ℝ ℝ)
    (h : Rel.init x y = .ok r) (hb : Balanced r) (hs : 0 < r.x.sample) :
    ∃ s, Sweep.init defaultPrims x y f a p = .ok s ∧ s.rel = r ∧ s.aPriorSignal = p ∧
      (∀ f', f = some f' → s.frequencyTime = f') ∧ (∀ a', a = some a' → s.amplitudeTime = a') := by
  obtain ⟨⟨ft, hf⟩, ⟨at', ha⟩, d, g, hd, hg⟩ := defaultPrims_work r hb hs
  have ef : orDerive f defaultPrims.getFT r = .ok (f.getD ft) := by cases f <;> simp [orDerive, hf]
  have ea : orDerive a defaultPrims.getAT r = .ok (a.getD at') := by cases a <;> simp [orDerive, ha]
  refine ⟨⟨r, f.getD ft, a.getD at', g, p⟩, ?_, rfl, rfl, ?_, ?_⟩
  · simp only [Sweep.init, h, ef, ea, hd, hg, except_bind_ok, except_pure]
  · rintro f' rfl; rfl
  · rintro a' rfl; rfl

/-- **C91** An operator on a sweep of the default configuration succeeds whenever the operator on relations does and its
result has a positive step. -/
theorem C91_operation (s : Sweep ℝ) (o : Operand ℝ ℝ) (op : MathOp) (r : Rel ℝ ℝ) (h : s.rel.operation o op = .ok r)
    (hs : 0 < r.x.sample) : ∃ s', s.operation defaultPrims o op = .ok s' ∧ s'.rel = r := by
  apply sweep_operation_works _ defaultPrims_work _ _ _ _ h _ hs
  unfold Rel.operation at h
  split at h
  all_goals
    simp only [except_bind_eq_ok, Prod.exists] at h
    obtain ⟨_, _, h⟩ := h
    try obtain ⟨_, _, _, h⟩ := h
    obtain ⟨hb, rfl⟩ := (make_ok_iff _ _ _).1 h
    exact hb

/-- **C91** A generator on an axis that starts at zero, with any frequencies and amplitudes of at least two values, can be
called. -/
theorem C91_generator (t : Axis ℝ) (h0 : t.start = 0) (n : ℕ) (hn : t.size = .ok n) (h2 : 2 ≤ n) (hs : 0 < t.sample)
    (hpos : 0 < t.stop) (hhalf : ¬ HalfInteger (t.stop / t.sample))
    (f a : List ℝ) (hf : 2 ≤ f.length) (ha : 2 ≤ a.length) (tht0 : ℝ) :
    ∃ u s, UncalculatedSweep.init (.axis t) (.array f) (.array a) = .ok u ∧ u.call defaultPrims .none tht0 = .ok s := by
  refine C47_succeeds defaultPrims t h0 n hn h2 ?_ ?_ f a hf ha (fun r hr hb => default_works r hb (by rw [hr]; exact hs)) tht0
  · rw [h0, sub_zero]; positivity
  · rw [h0, sub_zero]; exact hhalf

/-- **C91** `get_linear_sweep` on an axis of whole steps from zero succeeds, with any frequencies and taper. -/
theorem C91_linear (t : Axis ℝ) (h0 : t.start = 0) (hs : 0 < t.sample) (k : ℕ) (hk : 1 ≤ k)
    (hT : t.stop = k * t.sample) (fs fe : ℝ) (tt : Option ℝ) :
    ∃ s, getLinearSweep defaultPrims (.axis t) fs fe tt = .ok s :=
  C51_succeeds defaultPrims t h0 hs k hk hT fs fe tt fun r hr hb => default_works r hb (by rw [hr]; exact hs)

/-- **C47** The samples under the default configuration: amplitude times the sine of 2π times the integral of the frequency, exact for a
callable and by the trapezoidal rule for arrays and relations. -/
theorem C47_default (t0 : TimeArg ℝ) (fd ad : Ftat ℝ) (u : UncalculatedSweep ℝ) (hu : UncalculatedSweep.init t0 fd ad = .ok u)
    (time : TimeArg ℝ) (tht0 : ℝ) (s : Sweep ℝ) (h : u.call defaultPrims time tht0 = .ok s) :
    (∀ g φ, fd = .func g φ → ∃ xs, s.rel.x.array = .ok xs ∧ s.rel.y.length = xs.length ∧
      ∀ i (_ : i < s.rel.y.length) (_ : i < xs.length),
        s.rel.y[i] = s.amplitudeTime.y.getD i 0 * Real.sin (2 * Real.pi * (∫ x in s.rel.x.start..xs[i], φ x) + tht0)) ∧
    (ArrayLike fd → ∀ i (_ : i < s.rel.y.length),
      s.rel.y[i] = s.amplitudeTime.y.getD i 0 * Real.sin (2 * Real.pi * (s.rel.x.sample *
        ∑ j ∈ Finset.range i, (s.frequencyTime.y.getD j 0 + s.frequencyTime.y.getD (j + 1) 0) / 2) + tht0)) := by
  refine ⟨?_, fun ha => (C47_array_description defaultPrims t0 fd ad u hu ha time tht0 s h).2.2.2.2.2⟩
  rintro g φ rfl
  exact C47_exact_quadrature defaultPrims rfl rfl (fun f a b => ∫ x in a..b, f x) (fun f a => intervalIntegral.integral_same) rfl
    t0 g φ ad u hu time tht0 s h

/-- two seconds from 1 to 2 Hz with amplitudes from 3 to 4: the sweep begins with the amplitude times the sine of `tht0` -/
example (tht0 : ℝ) : ∃ u s, UncalculatedSweep.init (.axis ⟨0, 2, 1⟩) (.array [1, 2]) (.array [3, 4]) = .ok u ∧
    u.call defaultPrims .none tht0 = .ok s ∧ ∀ h : 0 < s.rel.y.length, s.rel.y[0] = s.amplitudeTime.y.getD 0 0 * Real.sin tht0 := by
  have h2 : pyRound (2 : ℝ) = 2 := by simpa using pyRound_natCast (K := ℝ) 2
  obtain ⟨u, s, hu, hs⟩ := C91_generator ⟨0, 2, 1⟩ rfl 3
    (by rw [Axis.size_eq _ (by norm_num)]; norm_num [Axis.steps, h2]; rfl) (by norm_num) (by norm_num) (by norm_num)
    (by
      rintro ⟨n, hn⟩
      have h : ((4 : ℤ) : ℝ) = ((2 * n + 1 : ℤ) : ℝ) := by norm_num at hn; push_cast; linarith
      have := Int.cast_injective h
      omega) [1, 2] [3, 4] (by simp) (by simp) tht0
  refine ⟨u, s, hu, hs, fun h => ?_⟩
  have := (C47_default _ _ _ u hu _ tht0 s hs).2 (by simp [ArrayLike]) 0 h
  simpa using this

/-- **C91** With a negative step a relation can be built, but not always a sweep: the axis from 0.1 down to 0 with two samples
has the frequency step -5, whose reciprocal rounds to zero. -/
theorem C91_negative_witness :
    Rel.init (.axis ⟨1 / 10, 0, -1 / 10⟩) (some [1, 2]) = .ok (⟨⟨1 / 10, 0, -1 / 10⟩, [1, 2]⟩ : Rel ℝ ℝ) ∧
    ∀ p, Sweep.init defaultPrims (.axis ⟨1 / 10, 0, -1 / 10⟩) (some [1, 2]) none none p = .error .zeroDivision := by
  have hb : Balanced (⟨⟨1 / 10, 0, -1 / 10⟩, [1, 2]⟩ : Rel ℝ ℝ) := by
    unfold Spec.Balanced
    rw [Axis.size_eq _ (by norm_num)]
    have : pyRound (1 : ℝ) = 1 := by simpa using pyRound_natCast (K := ℝ) 1
    norm_num [Axis.steps, this]
  have hr : Rel.init (.axis ⟨1 / 10, 0, -1 / 10⟩) (some [1, 2]) = .ok (⟨⟨1 / 10, 0, -1 / 10⟩, [1, 2]⟩ : Rel ℝ ℝ) := by
    rw [init_axis, make_ok hb]
  refine ⟨hr, fun p => ?_⟩
  have hf : defaultPrims.getFT ⟨⟨1 / 10, 0, -1 / 10⟩, [1, 2]⟩ = .ok _ := getFT_eq _ hb
  have ha : defaultPrims.getAT ⟨⟨1 / 10, 0, -1 / 10⟩, [1, 2]⟩ = .ok _ := getAT_eq _ hb
  have hd : ∃ im, defaultPrims.spectrogram ⟨⟨1 / 10, 0, -1 / 10⟩, [1, 2]⟩ = .ok ⟨[-1 / 10], [0, -5], im⟩ := by
    have hok : ∃ d, defaultSpectrogram ⟨⟨1 / 10, 0, -1 / 10⟩, [1, 2]⟩ = .ok d := ⟨_, by
      unfold defaultSpectrogram
      simp only [List.length_cons, List.length_nil]
      rw [if_neg (by norm_num), if_neg (by norm_num)]⟩
    obtain ⟨⟨dt, df, im⟩, hd⟩ := hok
    refine ⟨im, ?_⟩
    obtain ⟨-, -, e1, e2, -⟩ := defaultSpectrogram_ok hd
    have h1 : nSegs 2 (min 2 256) = 1 := by decide
    simp only [List.length_cons, List.length_nil, Nat.zero_add, Nat.reduceAdd] at e1 e2
    rw [h1] at e1
    have e3 : dt = [-1 / 10] := by rw [e1]; norm_num [List.range_succ]
    have e4 : df = [0, -5] := by rw [e2]; norm_num [rfftfreq, List.range_succ]
    rw [← e3, ← e4]
    exact hd
  obtain ⟨im, hd⟩ := hd
  have hone : pyRound (1 : ℝ) = 1 := by simpa using pyRound_natCast (K := ℝ) 1
  have hzero : pyRound (-(1 / 5) : ℝ) = 0 := by
    apply nearestEven_unique (pyRound_spec _)
    refine ⟨?_, ?_⟩
    · rw [abs_le]; constructor <;> norm_num
    · intro _; decide
  have hg : getSpectrogram ⟨[-1 / 10], [0, -5], im⟩ = .error .zeroDivision := by
    have h1 : axisFromArray [(-1 / 10 : ℝ), -1 / 10 + 1] true true = .ok ⟨-1 / 10, -1 / 10 + 1, 1⟩ := by
      simp [axisFromArray, getActualSample, npDiff, npMin, roundStep, hone, bind, Except.bind, pure, Except.pure]
    have h2 : axisFromArray [(0 : ℝ), -5] true true = .error .zeroDivision := by
      have h3 : roundStep (-5 : ℝ) = .error .zeroDivision := by
        unfold roundStep
        rw [if_pos (by norm_num)]
        norm_num [hzero]
      simp [axisFromArray, getActualSample, npDiff, npMin, h3, bind, Except.bind]
    simp only [getSpectrogram, padAxis, List.length_cons, List.length_nil, Nat.reduceAdd, Nat.one_lt_ofNat, if_true,
      except_bind_ok, h1, h2, lt_irrefl, if_false]
    rfl
  simp only [Sweep.init, hr, orDerive, hf, ha, hd, hg, except_bind_ok]
  rfl

theorem three_balanced : Balanced (⟨⟨0, 1, 1 / 2⟩, [0, 1, 0]⟩ : Rel ℝ ℝ) := size_three

/-- the sweep 0, 1, 0 at the times 0, 1/2, 1: an image of two rows and one column; its last entry is 1/36, the density at
frequency zero -/
example : ∃ s, Sweep.init defaultPrims (.axis ⟨0, 1, 1 / 2⟩) (some [0, 1, 0]) none none none = .ok s ∧
    s.spectrogram.image.map List.length = [1, 1] ∧ (s.spectrogram.image.getD 1 []).getD 0 0 = 1 / 36 ∧
    s.spectrogram.time = ⟨3 / 4, 7 / 4, 1⟩ := by
  obtain ⟨s, h1, h2, -⟩ := C91_constructor (.axis ⟨0, 1, 1 / 2⟩) (some [0, 1, 0]) none none none _
    (by rw [init_axis, make_ok three_balanced]) three_balanced (by norm_num)
  obtain ⟨i1, i2⟩ := C90_image _ _ _ _ _ s h1 3 3 (by rw [h2]; rfl) rfl
  obtain ⟨-, -, a1, -⟩ := C90_axes _ _ _ _ _ s h1 (by rw [h2]; norm_num) 3 3 (by rw [h2]; rfl) rfl
  have ha := a1 (by norm_num)
  refine ⟨s, h1, ?_, ?_, ?_⟩
  · refine List.ext_getElem (by simp [i1]) fun i hi hi2 => ?_
    rw [List.getElem_map, (i2 i (by simpa using hi)).1]
    have : i = 0 ∨ i = 1 := by simp at hi2; omega
    rcases this with rfl | rfl <;> rfl
  · have hi : 1 < s.spectrogram.image.length := by rw [i1]; norm_num
    have hc : 0 < s.spectrogram.image[1].length := by rw [(i2 1 hi).1]; norm_num
    rw [getD_lt _ _ _ hi, getD_lt _ _ _ hc, ((i2 1 hi).2 0 hc).2, h2]
    simp only [density, segmentMean, Finset.sum_range_succ, Finset.sum_range_zero, window]
    norm_num
  · rw [ha, h2]
    norm_num

/-- a linear sweep of the default configuration: 0 to 2 seconds in steps of half a second, from 1 to 2 Hz, tapered -/
example : ∃ s, getLinearSweep defaultPrims (.axis ⟨0, 2, 1 / 2⟩) 1 2 (some (1 / 2)) = .ok s :=
  C91_linear _ rfl (by norm_num) 4 (by norm_num) (by norm_num) _ _ _

end SweepDesign
