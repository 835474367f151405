import Verif.Props.ComplexSamples

/-!
# C158: the image of complex samples

What the default spectrogram of complex samples shows: for samples without imaginary parts the image of the real samples with its
doubling undone and a mirror image above it, for complex conjugate samples the rows in opposite order, and no constants and no phases.
-/

set_option linter.unusedSectionVars false

namespace SweepDesign

/-- the same samples with dtype complex -/
noncomputable def Spec.asComplex (r : Rel ℝ ℝ) : Rel ℝ ℂ := ⟨r.x, r.y.map fun v : ℝ => (v : ℂ)⟩

/-- the samples through `f` -/
def Spec.each (f : ℂ → ℂ) (r : Rel ℝ ℂ) : Rel ℝ ℂ := ⟨r.x, r.y.map f⟩

/-- row number `k` counted from the lower edge of the image, which belongs to frequency number `k` -/
def Spec.rowAt (d : SpectroData ℝ) (k : ℕ) : Option (List ℝ) := d.image.reverse[k]?

/-- the two-sided power density at frequency number `k` of `m` complex samples `y`, `dt` apart, windowed after removal of their mean -/
noncomputable def Spec.densityC (m : ℕ) (dt : ℝ) (y : ℕ → ℂ) (k : ℕ) : ℝ :=
  dt * ‖∑ i ∈ Finset.range m, (Spec.window m i : ℂ) * (y i - (∑ q ∈ Finset.range m, y q) / m) *
      Complex.exp (-(2 * Real.pi * Complex.I * (i * k : ℕ) / (m : ℂ)))‖ ^ 2 /
    ∑ i ∈ Finset.range m, Spec.window m i ^ 2

/-- `n` samples of a complex oscillation with `k` periods over the record, the first of them `c` -/
noncomputable def Spec.tone (c : ℂ) (k n : ℕ) : List ℂ :=
  (List.range n).map fun i => c * Complex.exp (2 * Real.pi * Complex.I * (i * k : ℕ) / (n : ℂ))

open Spec

/-! ## Machinery -/

theorem at0_map' {V W : Type} [Zero V] [Zero W] (f : V → W) (h0 : f 0 = 0) (l : List V) (i : ℕ) : at0 (l.map f) i = f (at0 l i) := by
  unfold at0
  rw [List.getD_eq_getElem?_getD, List.getD_eq_getElem?_getD, List.getElem?_map]
  cases l[i]? <;> simp [h0]

theorem sum_map_hom {V W : Type} [AddCommMonoid V] [AddCommMonoid W] (f : V →+ W) (l : List V) : (l.map f).sum = f l.sum := by
  rw [map_list_sum]

theorem detrendedC_real (y : List ℝ) (m j : ℕ) :
    detrendedC (y.map fun v : ℝ => (v : ℂ)) m j = (detrended y m j).map fun v : ℝ => (v : ℂ) := by
  unfold detrendedC detrended
  simp only [← List.map_drop, ← List.map_take]
  have := sum_map_hom Complex.ofRealHom.toAddMonoidHom ((y.drop (j * nStep m)).take m)
  simp only [List.map_map, List.length_map]
  apply List.map_congr_left
  intro v _
  have e : (((y.drop (j * nStep m)).take m).map fun v : ℝ => (v : ℂ)).sum = ((((y.drop (j * nStep m)).take m).sum : ℝ) : ℂ) := this
  rw [e]
  simp only [Function.comp_apply, Complex.ofReal_sub, Complex.ofReal_div, Complex.ofReal_natCast]

theorem detrendedC_conj (y : List ℂ) (m j : ℕ) :
    detrendedC (y.map (starRingEnd ℂ)) m j = (detrendedC y m j).map (starRingEnd ℂ) := by
  unfold detrendedC
  simp only [← List.map_drop, ← List.map_take]
  have e := sum_map_hom (starRingEnd ℂ).toAddMonoidHom ((y.drop (j * nStep m)).take m)
  simp only [List.map_map, List.length_map]
  apply List.map_congr_left
  intro v _
  have e : (((y.drop (j * nStep m)).take m).map (starRingEnd ℂ)).sum = (starRingEnd ℂ) ((y.drop (j * nStep m)).take m).sum := e
  rw [e]
  simp

theorem detrendedC_mul (c : ℂ) (y : List ℂ) (m j : ℕ) :
    detrendedC (y.map fun v => c * v) m j = (detrendedC y m j).map fun v => c * v := by
  unfold detrendedC
  simp only [← List.map_drop, ← List.map_take]
  simp only [List.map_map, List.length_map]
  apply List.map_congr_left
  intro v _
  rw [List.sum_map_mul_left, List.map_id']
  simp only [Function.comp_apply]
  ring

theorem detrendedC_add (c : ℂ) (y : List ℂ) (m j : ℕ) : detrendedC (y.map fun v => v + c) m j = detrendedC y m j := by
  unfold detrendedC
  simp only [← List.map_drop, ← List.map_take]
  simp only [List.map_map, List.length_map]
  set s := (y.drop (j * nStep m)).take m with hs
  apply List.map_congr_left
  intro v hv
  have hl : (s.length : ℂ) ≠ 0 := by
    have := List.length_pos_of_mem hv
    exact_mod_cast this.ne'
  have e : (s.map fun v => v + c).sum = s.sum + s.length * c := by
    clear_value s
    clear hs hv hl
    induction s with
    | nil => simp
    | cons a t ih => simp only [List.map_cons, List.sum_cons, List.length_cons, ih]; push_cast; ring
  rw [e]
  simp only [Function.comp_apply]
  field_simp
  ring

theorem segmentFftC_real (y : List ℝ) (m j k : ℕ) : segmentFftC (y.map fun v : ℝ => (v : ℂ)) m j k = segmentFft y m j k := by
  unfold segmentFftC segmentFft
  refine Finset.sum_congr rfl fun i _ => ?_
  rw [detrendedC_real, at0_map' _ (by simp)]
  push_cast
  ring

theorem segmentFftC_mul (c : ℂ) (y : List ℂ) (m j k : ℕ) : segmentFftC (y.map fun v => c * v) m j k = c * segmentFftC y m j k := by
  unfold segmentFftC
  rw [Finset.mul_sum]
  refine Finset.sum_congr rfl fun i _ => ?_
  rw [detrendedC_mul, at0_map' _ (by simp)]
  ring

theorem kernel_conj (m i k : ℕ) (hm : 0 < m) (hk : k ≤ m) :
    Complex.exp (-(2 * Real.pi * Complex.I * (i * (m - k) : ℕ) / (m : ℂ))) =
      (starRingEnd ℂ) (Complex.exp (-(2 * Real.pi * Complex.I * (i * k : ℕ) / (m : ℂ)))) := by
  have hm' : (m : ℂ) ≠ 0 := by exact_mod_cast hm.ne'
  rw [← Complex.exp_conj]
  have e1 : (starRingEnd ℂ) (-(2 * Real.pi * Complex.I * (i * k : ℕ) / (m : ℂ))) = 2 * Real.pi * Complex.I * (i * k : ℕ) / (m : ℂ) := by
    simp only [map_neg, map_div₀, map_mul, Complex.conj_I, Complex.conj_ofReal, map_natCast, Complex.conj_ofNat]
    ring
  have e2 : -(2 * Real.pi * Complex.I * (i * (m - k) : ℕ) / (m : ℂ)) =
      2 * Real.pi * Complex.I * (i * k : ℕ) / (m : ℂ) + ((-(i : ℤ) : ℤ) : ℂ) * (2 * Real.pi * Complex.I) := by
    push_cast [Nat.cast_sub hk]
    field_simp
    ring
  rw [e1, e2, Complex.exp_add, Complex.exp_int_mul_two_pi_mul_I, mul_one]

theorem segmentFftC_conj (y : List ℂ) (m j k : ℕ) (hm : 0 < m) (hk : k ≤ m) :
    segmentFftC (y.map (starRingEnd ℂ)) m j (m - k) = (starRingEnd ℂ) (segmentFftC y m j k) := by
  unfold segmentFftC
  rw [map_sum]
  refine Finset.sum_congr rfl fun i _ => ?_
  rw [detrendedC_conj, at0_map' _ (by simp), kernel_conj m i k hm hk]
  simp only [map_mul, Complex.conj_ofReal]

theorem imageC (r : Rel ℝ ℂ) (m : ℕ) (hm : m = min r.y.length 256) (hn : 1 ≤ r.y.length) (hs : r.x.sample ≠ 0) :
    ∃ d, defaultSpectrogramC r = .ok d ∧ d.frequency = fftfreq m (1 / (1 / r.x.sample)) ∧
      d.time = ((List.range (nSegs r.y.length m)).map fun j : ℕ => ((m : ℝ) / 2 + (j : ℝ) * (nStep m : ℝ)) / (1 / r.x.sample)) ∧
      d.image.length = m ∧ ∀ k, rowAt d k = if k < m then
        some ((List.range (nSegs r.y.length m)).map fun j => ‖segmentFftC r.y m j k‖ ^ 2 * psdScale m r.x.sample) else none := by
  refine ⟨_, by
    unfold defaultSpectrogramC
    simp only [nPerSeg_eq, ← hm]
    rw [if_neg (by omega), if_neg hs], rfl, rfl, by simp, ?_⟩
  intro k
  unfold rowAt
  simp only [List.reverse_reverse, List.getElem?_map]
  split
  · rename_i h; simp [h]
  · rename_i h
    simp [not_lt.1 h]

theorem imageR (r : Rel ℝ ℝ) (m : ℕ) (hm : m = min r.y.length 256) (hn : 1 ≤ r.y.length) (hs : r.x.sample ≠ 0) :
    ∃ d, defaultSpectrogram r = .ok d ∧
      d.time = ((List.range (nSegs r.y.length m)).map fun j : ℕ => ((m : ℝ) / 2 + (j : ℝ) * (nStep m : ℝ)) / (1 / r.x.sample)) ∧
      d.image.length = m / 2 + 1 ∧ ∀ k, rowAt d k = if k ≤ m / 2 then
        some ((List.range (nSegs r.y.length m)).map fun j => psd r.y m r.x.sample j k) else none := by
  refine ⟨_, by
    unfold defaultSpectrogram
    simp only [nPerSeg_eq, ← hm]
    rw [if_neg (by omega), if_neg hs], rfl, by simp, ?_⟩
  intro k
  unfold rowAt
  simp only [List.reverse_reverse, List.getElem?_map]
  split
  · rename_i h; simp [Nat.lt_succ_of_le h]
  · rename_i h
    simp only [Option.map_eq_none_iff, List.getElem?_eq_none_iff, List.length_range]
    omega

theorem sum_at0_complex (l : List ℂ) : l.sum = ∑ i ∈ Finset.range l.length, at0 l i := by
  rw [Finset.sum_range]
  have : l = List.ofFn fun i : Fin l.length => at0 l i := by
    refine List.ext_getElem (by simp) fun i h1 h2 => ?_
    simp only [List.getElem_ofFn]
    rw [at0_eq]
  conv_lhs => rw [this]
  rw [List.sum_ofFn]

theorem segmentC_density (y : List ℂ) (m : ℕ) (hm : 0 < m) (dt : ℝ) (hdt : dt ≠ 0) (j k : ℕ) (hj : j * nStep m + m ≤ y.length) :
    ‖segmentFftC y m j k‖ ^ 2 * psdScale m dt = densityC m dt (fun i => y.getD (j * (m - m / 8) + i) 0) k := by
  have hstep : nStep m = m - m / 8 := rfl
  have hseg : ((y.drop (j * nStep m)).take m).length = m := by
    rw [List.length_take, List.length_drop]; omega
  have hval : ∀ i < m, at0 ((y.drop (j * nStep m)).take m) i = y.getD (j * (m - m / 8) + i) 0 := by
    intro i hi
    rw [at0_eq _ _ (by omega), List.getElem_take, List.getElem_drop, getD_lt _ _ _ (by rw [← hstep]; omega)]
    rfl
  have hmean : ((y.drop (j * nStep m)).take m).sum / (((y.drop (j * nStep m)).take m).length : ℂ) =
      (∑ q ∈ Finset.range m, y.getD (j * (m - m / 8) + q) 0) / m := by
    rw [sum_at0_complex, hseg]
    congr 1
    exact Finset.sum_congr rfl fun i hi => hval i (Finset.mem_range.1 hi)
  have hdet : ∀ i < m, at0 (detrendedC y m j) i = y.getD (j * (m - m / 8) + i) 0 -
      (∑ q ∈ Finset.range m, y.getD (j * (m - m / 8) + q) 0) / m := by
    intro i hi
    have : detrendedC y m j = ((y.drop (j * nStep m)).take m).map fun v =>
        v - (∑ q ∈ Finset.range m, y.getD (j * (m - m / 8) + q) 0) / m := by
      rw [← hmean]; rfl
    rw [this, at0_eq _ _ (by rw [List.length_map]; omega), List.getElem_map, ← hval i hi, at0_eq _ _ (by omega)]
  have hwin : ((tukeyPeriodic m (1 / 4)).map fun w => w * w).sum = ∑ i ∈ Finset.range m, window m i ^ 2 := by
    rw [sum_map_at0, tukeyPeriodic_length]
    refine Finset.sum_congr rfl fun i hi => ?_
    rw [tukeyPeriodic_at m i (Finset.mem_range.1 hi), pow_two]
  have hpos := window_sq_pos m hm
  have hsum : segmentFftC y m j k = ∑ i ∈ Finset.range m, (window m i : ℂ) * (y.getD (j * (m - m / 8) + i) 0 -
        (∑ q ∈ Finset.range m, y.getD (j * (m - m / 8) + q) 0) / m) *
        Complex.exp (-(2 * Real.pi * Complex.I * (i * k : ℕ) / (m : ℂ))) := by
    unfold segmentFftC
    refine Finset.sum_congr rfl fun i hi => ?_
    rw [tukeyPeriodic_at m i (Finset.mem_range.1 hi), hdet i (Finset.mem_range.1 hi)]
  rw [hsum]
  unfold densityC psdScale
  rw [hwin]
  field_simp

/-! ## C158 -/

/-- **C158** The entry in column `c` of row `k`, counted from below, is the two-sided power density of the segment at frequency
number `k`, and the frequencies are `0, 1, ..` and then the negative ones. -/
theorem C158_image (r : Rel ℝ ℂ) (n m : ℕ) (hn : r.y.length = n) (hm : m = min n 256) (h1 : 1 ≤ n) (hs : r.x.sample ≠ 0) :
    ∃ d, defaultSpectrogramC r = .ok d ∧ d.image.length = m ∧
      d.frequency = ((List.range m).map fun k : ℕ => (if 2 * k < m then (k : ℝ) else (k : ℝ) - m) / (m * r.x.sample)) ∧
      ∀ k < m, ∃ row, rowAt d k = some row ∧ row.length = (n - m / 8) / (m - m / 8) ∧
        ∀ c (hc : c < row.length), c * (m - m / 8) + m ≤ n ∧
          row[c] = densityC m r.x.sample (fun i => r.y.getD (c * (m - m / 8) + i) 0) k := by
  subst hn
  obtain ⟨d, hd, fd, -, ld, rd⟩ := imageC r m hm h1 hs
  refine ⟨d, hd, ld, ?_, ?_⟩
  · rw [fd, one_div_one_div]
    unfold fftfreq
    apply List.map_congr_left
    intro k hk
    have : (k < (m + 1) / 2) ↔ 2 * k < m := by omega
    simp only [this]
    rw [mul_one_div]
  · intro k hk
    refine ⟨_, by rw [rd, if_pos hk], by simp [nSegs, nOverlap, nStep], ?_⟩
    intro c hc
    have hc' : c < nSegs r.y.length m := by simpa using hc
    have hfit := segs_fit r.y.length c h1 (by rw [← hm]; exact hc')
    rw [← hm] at hfit
    refine ⟨hfit, ?_⟩
    rw [List.getElem_map, List.getElem_range]
    exact segmentC_density r.y m (by omega) _ hs c k hfit


/-- **C158** Samples without imaginary parts: the times are those of the real samples; the image has `m` rows, `m` the smaller of the
number of samples and 256. Row `k` up to the middle, counted from below, is the row of the real image, halved where scipy doubles
(everywhere but in row 0 and, for even `m`, in the middle row); above it comes the mirror image. -/
theorem C158_real (r : Rel ℝ ℝ) (m : ℕ) (hm : m = min r.y.length 256) (hn : 1 ≤ r.y.length) (hs : r.x.sample ≠ 0) :
    ∃ d e, defaultSpectrogram r = .ok d ∧ defaultSpectrogramC (asComplex r) = .ok e ∧ e.time = d.time ∧ e.image.length = m ∧
      (∀ k, k ≤ m / 2 → k < m →
        (rowAt d k) = (rowAt e k).map fun row => row.map fun v => (if k = 0 ∨ 2 * k = m then 1 else 2) * v) ∧
      ∀ k, 0 < k → k < m → rowAt e (m - k) = rowAt e k := by
  have hl : (asComplex r).y.length = r.y.length := by simp [asComplex]
  obtain ⟨d, hd, td, -, rd⟩ := imageR r m hm hn hs
  obtain ⟨e, he, -, te, le, re⟩ := imageC (asComplex r) m (by rw [hl]; exact hm) (by rw [hl]; exact hn) hs
  rw [hl] at te re
  refine ⟨d, e, hd, he, te.trans td.symm, le, ?_, ?_⟩
  · intro k hk hk'
    rw [rd, re, if_pos hk, if_pos hk']
    simp only [Option.map_some, List.map_map, Option.some.injEq]
    apply List.map_congr_left
    intro j _
    unfold psd oneSided
    simp only [Function.comp_apply, asComplex, segmentFftC_real]
  · intro k h0 hk
    rw [re, re, if_pos hk, if_pos (by omega)]
    simp only [Option.some.injEq]
    apply List.map_congr_left
    intro j _
    have h := segmentFftC_conj (asComplex r).y m j k (by omega) hk.le
    have e : (asComplex r).y.map (starRingEnd ℂ) = (asComplex r).y := by
      simp [asComplex, Function.comp_def]
    rw [e] at h
    rw [h, RCLike.norm_conj]

/-- **C158** The complex conjugates of the samples: row 0 stays, row `k` becomes row `m - k`. -/
theorem C158_conjugate (r : Rel ℝ ℂ) (m : ℕ) (hm : m = min r.y.length 256) (hn : 1 ≤ r.y.length) (hs : r.x.sample ≠ 0) :
    ∃ d e, defaultSpectrogramC r = .ok d ∧ defaultSpectrogramC (each (starRingEnd ℂ) r) = .ok e ∧ e.time = d.time ∧
      e.frequency = d.frequency ∧ e.image.length = d.image.length ∧ rowAt e 0 = rowAt d 0 ∧
      ∀ k, 0 < k → k < m → rowAt e (m - k) = rowAt d k := by
  have hl : (each (starRingEnd ℂ) r).y.length = r.y.length := by simp [each]
  obtain ⟨d, hd, fd, td, ld, rd⟩ := imageC r m hm hn hs
  obtain ⟨e, he, fe, te, le, re⟩ := imageC (each (starRingEnd ℂ) r) m (by rw [hl]; exact hm) (by rw [hl]; exact hn) hs
  rw [hl] at te re
  have m0 : 0 < m := by omega
  refine ⟨d, e, hd, he, te.trans td.symm, fe.trans fd.symm, le.trans ld.symm, ?_, ?_⟩
  · rw [rd, re, if_pos m0, if_pos m0]
    simp only [Option.some.injEq]
    apply List.map_congr_left
    intro j _
    have h := segmentFftC_conj r.y m j m m0 le_rfl
    have h' : segmentFftC r.y m j m = segmentFftC r.y m j 0 := by
      unfold segmentFftC
      refine Finset.sum_congr rfl fun i _ => ?_
      have := kernel_conj m i 0 m0 (by omega)
      simp only [Nat.sub_zero] at this
      rw [this]
      simp
    rw [Nat.sub_self, h'] at h
    show ‖segmentFftC (r.y.map (starRingEnd ℂ)) m j 0‖ ^ 2 * _ = _
    rw [h, RCLike.norm_conj]
    rfl
  · intro k h0 hk
    rw [rd, re, if_pos hk, if_pos (by omega)]
    simp only [Option.some.injEq]
    apply List.map_congr_left
    intro j _
    show ‖segmentFftC (r.y.map (starRingEnd ℂ)) m j (m - k)‖ ^ 2 * _ = _
    rw [segmentFftC_conj r.y m j k m0 hk.le, RCLike.norm_conj]
    rfl

/-- **C158** With a step of zero the method raises on complex samples what it raises on real ones. -/
theorem C158_zero_step (r : Rel ℝ ℂ) (q : Rel ℝ ℝ) (h0 : r.x.sample = 0) (g0 : q.x.sample = 0) (h : r.y ≠ []) (g : q.y ≠ []) :
    defaultSpectrogramC r = .error .zeroDivision ∧ defaultSpectrogram q = .error .zeroDivision := by
  have h1 : r.y.length ≠ 0 := fun e => h (List.length_eq_zero_iff.1 e)
  have g1 : q.y.length ≠ 0 := fun e => g (List.length_eq_zero_iff.1 e)
  exact ⟨by simp only [defaultSpectrogramC, if_neg h1, if_pos h0], by simp only [defaultSpectrogram, if_neg g1, if_pos g0]⟩

example : (⟨⟨0, 3, 0⟩, [1, 2]⟩ : Rel ℝ ℂ).x.sample = 0 ∧ (⟨⟨0, 3, 0⟩, [1, 2]⟩ : Rel ℝ ℂ).y ≠ [] := by simp

/-- **C158** A constant added to all samples changes nothing. -/
theorem C158_constant (r : Rel ℝ ℂ) (c : ℂ) : defaultSpectrogramC (each (fun v => v + c) r) = defaultSpectrogramC r := by
  unfold defaultSpectrogramC
  simp only [each, List.length_map]
  split
  · rfl
  · split
    · rfl
    · congr 2
      refine congrArg _ (List.map_congr_left fun k _ => List.map_congr_left fun j _ => ?_)
      congr 3
      unfold segmentFftC
      simp only [detrendedC_add]

/-- **C158** A factor `c` of all samples multiplies the image by `|c|²`; a phase changes nothing. -/
theorem C158_factor (r : Rel ℝ ℂ) (c : ℂ) (m : ℕ) (hm : m = min r.y.length 256) (hn : 1 ≤ r.y.length) (hs : r.x.sample ≠ 0) :
    ∃ d e, defaultSpectrogramC r = .ok d ∧ defaultSpectrogramC (each (fun v => c * v) r) = .ok e ∧ e.time = d.time ∧
      e.frequency = d.frequency ∧ (∀ k, rowAt e k = (rowAt d k).map fun row => row.map fun v => ‖c‖ ^ 2 * v) ∧
      (‖c‖ = 1 → e = d) := by
  have hl : (each (fun v => c * v) r).y.length = r.y.length := by simp [each]
  obtain ⟨d, hd, fd, td, ld, rd⟩ := imageC r m hm hn hs
  obtain ⟨e, he, fe, te, le, re⟩ := imageC (each (fun v => c * v) r) m (by rw [hl]; exact hm) (by rw [hl]; exact hn) hs
  rw [hl] at te re
  have rows : ∀ k, rowAt e k = (rowAt d k).map fun row => row.map fun v => ‖c‖ ^ 2 * v := by
    intro k
    rw [rd, re]
    split
    · simp only [Option.map_some, List.map_map, Option.some.injEq]
      apply List.map_congr_left
      intro j _
      show ‖segmentFftC (r.y.map fun v => c * v) m j k‖ ^ 2 * psdScale m r.x.sample = _
      rw [segmentFftC_mul, norm_mul]
      simp only [Function.comp_apply]
      ring
    · rfl
  refine ⟨d, e, hd, he, te.trans td.symm, fe.trans fd.symm, rows, ?_⟩
  intro h1
  have him : e.image = d.image := by
    apply List.reverse_injective
    apply List.ext_getElem?
    intro k
    have := rows k
    unfold rowAt at this
    rw [this, h1]
    simp
  cases d
  cases e
  simp only [SpectroData.mk.injEq]
  exact ⟨te.trans td.symm, fe.trans fd.symm, him⟩

/-! ### a tone -/

theorem window_nonneg (m i : ℕ) : 0 ≤ window m i := by
  unfold window
  split
  · norm_num
  · split
    · linarith [Real.cos_le_one (8 * Real.pi * (min i (m - i) : ℕ) / m)]
    · norm_num

/-- the second and the third weight of the window are positive -/
theorem window_pos (m i : ℕ) (hm : 3 ≤ m) (hi : i = 1 ∨ i = 2) : 0 < window m i := by
  unfold window
  rw [if_neg (by omega)]
  split
  · rename_i h
    have hm0 : (0 : ℝ) < m := by exact_mod_cast (by omega : 0 < m)
    set p := min i (m - i) with hp
    have p1 : 1 ≤ p := by rcases hi with h | h <;> omega
    have hx0 : 0 < 8 * Real.pi * (p : ℕ) / m := by
      have : (0 : ℝ) < p := by exact_mod_cast p1
      have := Real.pi_pos
      positivity
    have hx1 : 8 * Real.pi * (p : ℕ) / m ≤ Real.pi := by
      rw [div_le_iff₀ hm0]
      have : (8 : ℝ) * p ≤ m := by exact_mod_cast h
      nlinarith [Real.pi_pos]
    have : Real.cos (8 * Real.pi * (p : ℕ) / m) < 1 := by
      rw [← Real.cos_zero]
      exact Real.cos_lt_cos_of_nonneg_of_le_pi le_rfl hx1 hx0
    linarith
  · norm_num

/-- the sum of the roots of unity -/
theorem tone_sum (k n : ℕ) (h0 : 0 < k) (hk : k < n) :
    ∑ i ∈ Finset.range n, Complex.exp (2 * Real.pi * Complex.I * (i * k : ℕ) / (n : ℂ)) = 0 := by
  have hn : (n : ℂ) ≠ 0 := by exact_mod_cast (by omega : n ≠ 0)
  set z := Complex.exp (2 * Real.pi * Complex.I * k / (n : ℂ)) with hz
  have e : ∀ i : ℕ, Complex.exp (2 * Real.pi * Complex.I * (i * k : ℕ) / (n : ℂ)) = z ^ i := by
    intro i
    rw [hz, ← Complex.exp_nat_mul]
    congr 1
    push_cast
    ring
  simp only [e]
  have hz1 : z ≠ 1 := by
    rw [hz, Ne, Complex.exp_eq_one_iff]
    rintro ⟨q, hq⟩
    have h2 : (2 * Real.pi * Complex.I : ℂ) ≠ 0 := Complex.two_pi_I_ne_zero
    have h3 : (k : ℂ) = q * n := by
      have : (2 * Real.pi * Complex.I : ℂ) * (k / n) = (2 * Real.pi * Complex.I) * q := by rw [← mul_div_assoc, hq]; ring
      have := mul_left_cancel₀ h2 this
      field_simp at this
      linear_combination this
    have h4 : (k : ℤ) = q * n := by exact_mod_cast h3
    rcases le_or_gt q 0 with hq0 | hq0
    · nlinarith
    · nlinarith
  have hzn : z ^ n = 1 := by
    rw [hz, ← Complex.exp_nat_mul, Complex.exp_eq_one_iff]
    exact ⟨k, by field_simp; push_cast; ring⟩
  rw [geom_sum_eq hz1, hzn, sub_self, zero_div]

/-- a weighted sum of powers of a number of modulus one is largest when the number is one -/
theorem weighted_lt (n : ℕ) (w : ℕ → ℝ) (hw : ∀ i, 0 ≤ w i) (h1 : 0 < w 1) (h2 : 0 < w 2) (hn : 3 ≤ n) (z : ℂ) (hz : ‖z‖ = 1)
    (hz1 : z ≠ 1) : ‖∑ i ∈ Finset.range n, (w i : ℂ) * z ^ i‖ < ∑ i ∈ Finset.range n, w i := by
  obtain ⟨p, rfl⟩ : ∃ p, n = p + 3 := ⟨n - 3, by omega⟩
  have hterm : ∀ i, ‖(w i : ℂ) * z ^ i‖ = w i := by
    intro i
    rw [norm_mul, norm_pow, hz, one_pow, mul_one, Complex.norm_real, Real.norm_eq_abs, abs_of_nonneg (hw i)]
  have hpair : ‖(w 1 : ℂ) * z ^ 1 + (w 2 : ℂ) * z ^ 2‖ < w 1 + w 2 := by
    have e : (w 1 : ℂ) * z ^ 1 + (w 2 : ℂ) * z ^ 2 = z * ((w 1 : ℂ) + (w 2 : ℂ) * z) := by ring
    rw [e, norm_mul, hz, one_mul]
    have hre : z.re < 1 := by
      refine lt_of_le_of_ne ((Complex.re_le_norm z).trans hz.le) ?_
      intro h
      apply hz1
      have hn : z.re ^ 2 + z.im ^ 2 = 1 := by
        have := Complex.sq_norm z
        rw [hz, Complex.normSq_apply] at this
        nlinarith
      have him : z.im = 0 := by
        rw [h] at hn
        nlinarith [sq_nonneg z.im]
      exact Complex.ext h him
    have hsq : ‖(w 1 : ℂ) + (w 2 : ℂ) * z‖ ^ 2 < (w 1 + w 2) ^ 2 := by
      rw [Complex.sq_norm, Complex.normSq_apply]
      have hn : z.re * z.re + z.im * z.im = 1 := by
        have := Complex.sq_norm z
        rw [hz, Complex.normSq_apply] at this
        linarith
      simp only [Complex.add_re, Complex.add_im, Complex.ofReal_re, Complex.ofReal_im, Complex.re_ofReal_mul, Complex.im_ofReal_mul,
        zero_add]
      have hp := mul_pos (mul_pos h1 h2) (sub_pos.2 hre)
      have e2 : (w 1 + w 2 * z.re) * (w 1 + w 2 * z.re) + w 2 * z.im * (w 2 * z.im) = w 1 ^ 2 + 2 * (w 1 * w 2 * z.re) + w 2 ^ 2 := by
        linear_combination w 2 ^ 2 * hn
      rw [e2]
      linarith
    exact lt_of_pow_lt_pow_left₀ 2 (by linarith) hsq
  rw [Finset.sum_range_succ', Finset.sum_range_succ', Finset.sum_range_succ', Finset.sum_range_succ' w, Finset.sum_range_succ',
    Finset.sum_range_succ']
  simp only [zero_add, Nat.reduceAdd]
  have hrest : ‖∑ i ∈ Finset.range p, (w (i + 1 + 1 + 1) : ℂ) * z ^ (i + 1 + 1 + 1)‖ ≤ ∑ i ∈ Finset.range p, w (i + 1 + 1 + 1) := by
    refine (norm_sum_le _ _).trans (le_of_eq (Finset.sum_congr rfl fun i _ => hterm _))
  have h0 := hterm 0
  have e : ∑ i ∈ Finset.range p, (w (i + 1 + 1 + 1) : ℂ) * z ^ (i + 1 + 1 + 1) + (w 2 : ℂ) * z ^ 2 + (w 1 : ℂ) * z ^ 1 +
      (w 0 : ℂ) * z ^ 0 = ∑ i ∈ Finset.range p, (w (i + 1 + 1 + 1) : ℂ) * z ^ (i + 1 + 1 + 1) +
        ((w 1 : ℂ) * z ^ 1 + (w 2 : ℂ) * z ^ 2) + (w 0 : ℂ) * z ^ 0 := by ring
  rw [e]
  refine (norm_add_le _ _).trans_lt ?_
  have := norm_add_le (∑ i ∈ Finset.range p, (w (i + 1 + 1 + 1) : ℂ) * z ^ (i + 1 + 1 + 1)) ((w 1 : ℂ) * z ^ 1 + (w 2 : ℂ) * z ^ 2)
  linarith

/-- the density of a tone -/
theorem tone_density (c : ℂ) (k0 n k : ℕ) (h0 : 0 < k0) (hk0 : k0 < n) (dt : ℝ) :
    densityC n dt (fun i => (tone c k0 n).getD i 0) k = dt * (‖c‖ * ‖∑ i ∈ Finset.range n, (window n i : ℂ) *
      Complex.exp (2 * Real.pi * Complex.I * ((k0 : ℂ) - k) / n) ^ i‖) ^ 2 / ∑ i ∈ Finset.range n, window n i ^ 2 := by
  have hn : (n : ℂ) ≠ 0 := by exact_mod_cast (by omega : n ≠ 0)
  have hv : ∀ i ∈ Finset.range n, (tone c k0 n).getD i 0 = c * Complex.exp (2 * Real.pi * Complex.I * (i * k0 : ℕ) / (n : ℂ)) := by
    intro i hi
    rw [getD_lt _ _ _ (by simpa [tone] using hi)]
    simp [tone]
  have hmean : ∑ q ∈ Finset.range n, (tone c k0 n).getD q 0 = 0 := by
    rw [Finset.sum_congr rfl hv, ← Finset.mul_sum, tone_sum k0 n h0 hk0, mul_zero]
  unfold densityC
  simp only [hmean, zero_div, sub_zero]
  have e : ∑ i ∈ Finset.range n, (window n i : ℂ) * (tone c k0 n).getD i 0 *
      Complex.exp (-(2 * Real.pi * Complex.I * (i * k : ℕ) / (n : ℂ))) = c * ∑ i ∈ Finset.range n, (window n i : ℂ) *
      Complex.exp (2 * Real.pi * Complex.I * ((k0 : ℂ) - k) / n) ^ i := by
    rw [Finset.mul_sum]
    refine Finset.sum_congr rfl fun i hi => ?_
    rw [hv i hi, ← Complex.exp_nat_mul]
    have : Complex.exp (↑i * (2 * Real.pi * Complex.I * ((k0 : ℂ) - k) / n)) =
        Complex.exp (2 * Real.pi * Complex.I * (i * k0 : ℕ) / (n : ℂ)) *
          Complex.exp (-(2 * Real.pi * Complex.I * (i * k : ℕ) / (n : ℂ))) := by
      rw [← Complex.exp_add]
      congr 1
      push_cast
      ring
    rw [this]
    ring
  rw [e, norm_mul]

/-- **C158** Three to 256 samples of a complex oscillation with `k0` periods over the record: the image has one column, and its largest
entry is the one of frequency number `k0`, strictly. -/
theorem C158_tone (x : Axis ℝ) (hs : 0 < x.sample) (c : ℂ) (hc : c ≠ 0) (k0 n : ℕ) (h0 : 0 < k0) (hk0 : k0 < n) (h3 : 3 ≤ n)
    (hn : n ≤ 256) : ∃ d v, defaultSpectrogramC ⟨x, tone c k0 n⟩ = .ok d ∧ d.image.length = n ∧ rowAt d k0 = some [v] ∧ 0 < v ∧
      ∀ k < n, k ≠ k0 → ∃ w, rowAt d k = some [w] ∧ w < v := by
  have hl : (tone c k0 n).length = n := by simp [tone]
  obtain ⟨d, hd, ld, -, rows⟩ := C158_image ⟨x, tone c k0 n⟩ n n hl (by omega) (by omega) hs.ne'
  have one : ∀ k < n, rowAt d k = some [densityC n x.sample (fun i => (tone c k0 n).getD i 0) k] := by
    intro k hk
    obtain ⟨row, hr, lr, hv⟩ := rows k hk
    have h1 : row.length = 1 := by
      rw [lr]
      exact Nat.div_self (by omega)
    obtain ⟨a, rfl⟩ := List.length_eq_one_iff.1 h1
    have := (hv 0 (by simp)).2
    simp only [List.getElem_cons_zero, zero_mul, zero_add] at this
    rw [hr, this]
  have hcn : 0 < ‖c‖ := norm_pos_iff.2 hc
  have hw := window_sq_pos n (by omega)
  have top : ‖∑ i ∈ Finset.range n, (window n i : ℂ) * Complex.exp (2 * Real.pi * Complex.I * ((k0 : ℂ) - k0) / n) ^ i‖ =
      ∑ i ∈ Finset.range n, window n i := by
    have : ∑ i ∈ Finset.range n, (window n i : ℂ) * Complex.exp (2 * Real.pi * Complex.I * ((k0 : ℂ) - k0) / n) ^ i =
        ((∑ i ∈ Finset.range n, window n i : ℝ) : ℂ) := by
      rw [sub_self, mul_zero, zero_div, Complex.exp_zero]
      simp
    rw [this, Complex.norm_real, Real.norm_eq_abs, abs_of_nonneg (Finset.sum_nonneg fun i _ => window_nonneg n i)]
  have hsum : 0 < ∑ i ∈ Finset.range n, window n i :=
    Finset.sum_pos' (fun i _ => window_nonneg n i) ⟨1, Finset.mem_range.2 (by omega), window_pos n 1 h3 (.inl rfl)⟩
  refine ⟨d, _, hd, ld, one k0 hk0, ?_, ?_⟩
  · rw [tone_density c k0 n k0 h0 hk0, top]
    positivity
  · intro k hk hne
    refine ⟨_, one k hk, ?_⟩
    rw [tone_density c k0 n k0 h0 hk0, top, tone_density c k0 n k h0 hk0]
    have hn0 : (n : ℂ) ≠ 0 := by exact_mod_cast (by omega : n ≠ 0)
    have hlt := weighted_lt n (window n) (window_nonneg n) (window_pos n 1 h3 (.inl rfl)) (window_pos n 2 h3 (.inr rfl)) h3
      (Complex.exp (2 * Real.pi * Complex.I * ((k0 : ℂ) - k) / n)) (by
        have : 2 * Real.pi * Complex.I * ((k0 : ℂ) - k) / n = ((2 * Real.pi * ((k0 : ℝ) - k) / n : ℝ) : ℂ) * Complex.I := by
          push_cast; ring
        rw [this, Complex.norm_exp_ofReal_mul_I]) (by
        rw [Ne, Complex.exp_eq_one_iff]
        rintro ⟨q, hq⟩
        have h2 : (2 * Real.pi * Complex.I : ℂ) ≠ 0 := Complex.two_pi_I_ne_zero
        have h3 : (k0 : ℂ) - k = q * n := by
          have : (2 * Real.pi * Complex.I : ℂ) * (((k0 : ℂ) - k) / n) = (2 * Real.pi * Complex.I) * q := by
            rw [← mul_div_assoc, hq]; ring
          have := mul_left_cancel₀ h2 this
          field_simp at this
          linear_combination this
        have h4 : (k0 : ℤ) - k = q * n := by exact_mod_cast h3
        have h5 : (k0 : ℤ) - k ≠ 0 := by omega
        rcases lt_trichotomy q 0 with hq0 | hq0 | hq0
        · nlinarith
        · rw [hq0, zero_mul] at h4; exact h5 h4
        · nlinarith)
    have h1 := mul_lt_mul_of_pos_left hlt hcn
    have h2 := pow_lt_pow_left₀ h1 (by positivity) (two_ne_zero)
    exact div_lt_div_of_pos_right (mul_lt_mul_of_pos_left h2 hs) hw

/-! Concrete cases -/

example := C158_real ⟨⟨0, 2, 1⟩, [1, 2, 4]⟩ 3 rfl (by decide) (by norm_num)

example := C158_conjugate ⟨⟨0, 2, 1⟩, [1, 2 * Complex.I, 4]⟩ 3 rfl (by decide) (by norm_num)

example := C158_factor ⟨⟨0, 2, 1⟩, [1, 2 * Complex.I, 4]⟩ Complex.I 3 rfl (by decide) (by norm_num)

example := C158_image ⟨⟨0, 2, 1⟩, [1, 2 * Complex.I, 4]⟩ 3 3 rfl rfl (by decide) (by norm_num)

example := C158_tone ⟨0, 7, 1⟩ (by norm_num) 2 two_ne_zero 3 8 (by decide) (by decide) (by decide) (by decide)

end SweepDesign
