import Verif.Props.SpectrumConvolve

/-!
# C139: the spectrum of the differences and of the integral of a signal

`Relation.diff` puts the differences half way between the samples, so the times of its result are no whole multiples of the sample and
`get_spectrum`, which prolongs the axis to zero by rounding, places them half a sample early or half a sample late.
-/

set_option linter.unusedSectionVars false

namespace SweepDesign
open Spec

noncomputable section

/-- `e^{-2πi f t}` -/
def Spec.phase (f t : ℝ) : ℂ := Complex.exp (-(2 * Real.pi * Complex.I * ((f * t : ℝ) : ℂ)))

theorem phase_add (f t u : ℝ) : phase f (t + u) = phase f t * phase f u := by
  unfold phase
  rw [← Complex.exp_add]
  congr 1
  push_cast
  ring

theorem phase_zero (f : ℝ) : phase f 0 = 1 := by simp [phase]

/-- the root of unity of the transform as a phase -/
theorem unitRoot_phase {N : ℕ} (hN : 0 < N) {s : ℝ} (hs : 0 < s) (i : ℤ) (k : ℕ) : unitRoot N (-(i * k)) = phase (k / (N * s)) (i * s) := by
  have h1 : (N : ℂ) ≠ 0 := by exact_mod_cast hN.ne'
  have h2 : (s : ℂ) ≠ 0 := by exact_mod_cast hs.ne'
  unfold unitRoot phase
  congr 1
  push_cast
  field_simp

theorem countP_range (m n : ℕ) (hm : m ≤ n) (g : ℕ → ℝ) (hg : ∀ i < n, g i < 0 ↔ i < m) :
    ((List.range n).map g).countP (fun v => decide (v < 0)) = m := by
  rw [← countP_neg m n 1 one_pos hm, List.countP_map, List.countP_map]
  refine List.countP_congr fun i hi => ?_
  have := hg i (List.mem_range.1 hi)
  simp only [Function.comp, decide_eq_true_eq]
  rw [this]
  constructor
  · intro h
    have : (i : ℝ) < m := by exact_mod_cast h
    linarith
  · intro h
    have : (i : ℝ) < m := by linarith
    exact_mod_cast this

/-- the transform of a signal whose padded samples are known -/
theorem spectrum_of_padded {p : Rel ℝ ℝ} (hb : Balanced p) (hle : p.x.start ≤ p.x.stop) (hn : 2 ≤ p.y.length) {s : ℝ} (hs : 0 < s)
    (hps : p.x.sample = s) {y : List ℝ} {N m : ℕ} {t : List ℝ} (ht : p.paddedTime.array = .ok t)
    (hm : t.countP (fun v => decide (v < 0)) = m) (htl : t.length = N) (hyl : y.length = N)
    (hy0 : p.x.start ≤ 0 → 0 ≤ p.x.stop → y = p.y) (hy1 : 0 < p.x.start → y = List.replicate (N - p.y.length) 0 ++ p.y)
    (hpos : 0 ≤ p.x.stop) :
    ∃ sp lf lv, p.getSpectrum = .ok sp ∧ sp.getData = .ok (lf, lv) ∧ lf.length = N / 2 + 1 ∧ lv.length = N / 2 + 1 ∧
      ∀ k (h1 : k < lf.length) (h2 : k < lv.length), lf[k] = k / (N * s) ∧
        lv[k] = ∑ i ∈ Finset.range N, ((y.getD i 0 : ℝ) : ℂ) * phase lf[k] (((i : ℤ) - m : ℤ) * s) := by
  obtain ⟨y', h1, h2, h3, h4, -, h6⟩ := signal2spectrum_eq p hb hle
  have hy'l : y'.length = N := by
    rw [Axis.size_of_array ht] at h1
    rw [← htl]
    exact (Except.ok.inj h1).symm
  obtain rfl : y = y' := by
    rcases le_or_gt p.x.start 0 with h0 | h0
    · rw [hy0 h0 hpos, (h3 h0 hpos).2]
    · rw [hy1 h0, h4 h0, hy'l]
  obtain ⟨z, hz, hzl, hc⟩ := calculateSpectrum_none p.paddedTime y h1 (hn.trans h2)
  have hpinc : p.paddedTime.start ≤ p.paddedTime.stop := by
    simp only [Rel.paddedTime]
    exact (min_le_right _ _).trans (le_max_right _ _)
  have hre := reorder_sorted p.paddedTime _ y ht (by rw [htl, hyl]) hpinc
  rw [hm] at hre
  have hmN : m ≤ N := by
    rw [← hm, ← htl]
    exact List.countP_le_length
  obtain rfl := Except.ok.inj (hz.symm.trans hre)
  have hN2 : 2 ≤ N := by omega
  have hsm : p.paddedTime.sample = s := hps
  rw [hsm, hyl] at hc
  have hfs := freqAxis_size N s hN2 hs.ne'
  have hfa := (freqAxis_eq N s hN2 hs.ne').2
  refine ⟨⟨⟨0, ((N / 2 : ℕ) : ℝ) * (1 / ((N : ℝ) * s)), 1 / ((N : ℝ) * s)⟩,
    (List.range (N / 2 + 1)).map fun k : ℕ => dft N (at0 (y.rotate m)) k⟩, rfftfreq N s,
    (List.range (N / 2 + 1)).map fun k : ℕ => dft N (at0 (y.rotate m)) k, ?_, ?_, by simp [rfftfreq], by simp, ?_⟩
  · unfold Rel.getSpectrum
    rw [h6, hc]
    simp only [except_bind_ok]
    exact make_ok (by rw [hfs]; simp)
  · rw [getData_ok_iff]
    exact ⟨hfa, rfl, by simp [rfftfreq]⟩
  · intro k h1 h2
    have hf : (rfftfreq N s)[k] = k / (N * s) := by
      simp [rfftfreq, div_eq_mul_inv]
    refine ⟨hf, ?_⟩
    simp only [List.getElem_map, List.getElem_range]
    rw [dft_rotate y N m hyl hmN, hf]
    refine Finset.sum_congr rfl fun i _ => ?_
    rw [unitRoot_phase (by omega) hs]
    rfl

/-- summation by parts: the differences, each with the phase of its left end -/
theorem sum_diff_phase (v : ℕ → ℂ) (f c s : ℝ) (n : ℕ) :
    ∑ j ∈ Finset.range n, (v (j + 1) - v j) * phase f (c + j * s) =
      (phase f (-s) - 1) * ∑ j ∈ Finset.range (n + 1), v j * phase f (c + j * s) - phase f (-s) * (v 0 * phase f c) + v n * phase f (c + n * s) := by
  have h1 : ∀ j ∈ Finset.range n, (v (j + 1) - v j) * phase f (c + j * s) =
      phase f (-s) * (v (j + 1) * phase f (c + ((j + 1 : ℕ) : ℝ) * s)) - v j * phase f (c + j * s) := by
    intro j _
    have : phase f (c + j * s) = phase f (-s) * phase f (c + ((j + 1 : ℕ) : ℝ) * s) := by
      rw [← phase_add]; congr 1; push_cast; ring
    rw [sub_mul, this]
    ring
  rw [Finset.sum_congr rfl h1, Finset.sum_sub_distrib, ← Finset.mul_sum]
  have h2 := Finset.sum_range_succ' (fun j => v j * phase f (c + j * s)) n
  have h3 := Finset.sum_range_succ (fun j => v j * phase f (c + j * s)) n
  simp only [Nat.cast_zero, zero_mul, add_zero] at h2
  linear_combination phase f (-s) * (-h2) + h3

/-- the transform over the times of the signal -/
theorem fourierSum_phase {lt ly : List ℝ} {s c : ℝ} {n : ℕ} (ht : lt = (List.range (n + 1)).map (fun i : ℕ => c + i * s))
    (hl : ly.length = n + 1) (f : ℝ) :
    fourierSum lt ly f = ∑ j ∈ Finset.range (n + 1), ((ly.getD j 0 : ℝ) : ℂ) * phase f (c + j * s) := by
  unfold fourierSum
  rw [hl]
  refine Finset.sum_congr rfl fun j hj => ?_
  have : lt.getD j 0 = c + j * s := by
    rw [getD_lt _ _ _ (by rw [ht]; simpa using Finset.mem_range.1 hj)]
    simp [ht]
  rw [this]
  rfl

/-- the differences and their axis -/
theorem diff_grid {r : Rel ℝ ℝ} {lt ly : List ℝ} (h : r.getData = .ok (lt, ly)) {s : ℝ} (hs : 0 < s) {a b : ℤ} (hab : a + 2 ≤ b)
    (hrx : r.x = ⟨a * s, b * s, s⟩) :
    ∃ q, r.diff = .ok q ∧ Balanced q ∧ q.x = ⟨a * s + s / 2, b * s - s / 2, s⟩ ∧ (q.y.length : ℤ) = b - a ∧
      ∀ j < q.y.length, s * q.y.getD j 0 = ly.getD (j + 1) 0 - ly.getD j 0 := by
  have hb := (balanced_iff_getData r).2 ⟨_, h⟩
  obtain ⟨-, hl⟩ := times_grid h hs (by omega : a ≤ b) hrx
  obtain ⟨-, rfl, -⟩ := (getData_ok_iff _ _ _).1 h
  have hspan : (r.x.stop - r.x.start) / r.x.sample = ((b - a : ℤ) : ℝ) := by
    rw [hrx]; push_cast; field_simp
  obtain ⟨q, hq⟩ : ∃ q, r.diff = .ok q := by
    refine ((((C15_accepted r hb).1 ?_ (by omega)).1 ?_)).2
    · rw [hspan]; exact_mod_cast (by omega : 0 < b - a)
    · rw [hspan]
      rintro ⟨n, hn⟩
      have : (2 * (b - a) : ℤ) = 2 * n + 1 := by
        have : (2 * ((b - a : ℤ) : ℝ)) = 2 * n + 1 := by rw [hn]; ring
        exact_mod_cast this
      omega
  obtain ⟨e1, e2, e3, e4, e5, e6, e7⟩ := C14_diff_values r q hq
  rw [hrx] at e1 e2 e3 e7
  refine ⟨q, hq, ?_, ?_, by omega, ?_⟩
  · exact e5
  · obtain ⟨⟨x1, x2, x3⟩, y⟩ := q
    simp only at e1 e2 e3
    rw [e1, e2, e3]
  · intro j hj
    rw [getD_lt _ _ _ hj, e7 j hj]
    simp only [smul_eq_mul]
    field_simp

/-- the differences have times half way between those of the signal -/
theorem diff_midpoints {q : Rel ℝ ℝ} {s : ℝ} (hs : 0 < s) {a b : ℤ} (hab : a + 2 ≤ b)
    (hqx : q.x = ⟨a * s + s / 2, b * s - s / 2, s⟩) {n : ℕ} (hn : (n : ℤ) = b - a) (hql : q.y.length = n) :
    q.getData = .ok ((List.range n).map (fun i : ℕ => a * s + s / 2 + i * s), q.y) := by
  have hR : ((n - 1 : ℕ) : ℝ) = b - a - 1 := by
    have : (((n - 1 : ℕ) : ℤ) : ℝ) = ((b - a - 1 : ℤ) : ℝ) := by congr 1; omega
    push_cast at this; exact_mod_cast this
  have := array_whole q.x (n - 1) (by rw [hqx]; exact hs) (by rw [hqx, hR]; simp only; ring)
  rw [show n - 1 + 1 = n by omega, hqx] at this
  rw [getData_ok_iff, hqx]
  exact ⟨this, rfl, by simp [hql]⟩

theorem diff_sum {ly qy : List ℝ} {s : ℝ} {n : ℕ} (hv : ∀ j < n, s * qy.getD j 0 = ly.getD (j + 1) 0 - ly.getD j 0) (f c : ℝ) :
    (s : ℂ) * ∑ j ∈ Finset.range n, ((qy.getD j 0 : ℝ) : ℂ) * phase f (c + j * s) =
      (phase f (-s) - 1) * ∑ j ∈ Finset.range (n + 1), ((ly.getD j 0 : ℝ) : ℂ) * phase f (c + j * s) -
        phase f (-s) * ((ly.getD 0 0 : ℝ) * phase f c) + (ly.getD n 0 : ℝ) * phase f (c + n * s) := by
  rw [← sum_diff_phase (fun j => ((ly.getD j 0 : ℝ) : ℂ)), Finset.mul_sum]
  refine Finset.sum_congr rfl fun j hj => ?_
  rw [← mul_assoc]
  congr 1
  have := hv j (Finset.mem_range.1 hj)
  exact_mod_cast this

/-- an axis prolonged forward to zero has no negative times -/
theorem padded_positive {p : Rel ℝ ℝ} (hs : 0 < p.x.sample) (h0 : 0 < p.x.start) (hle : p.x.start ≤ p.x.stop) :
    ∃ t, p.paddedTime.array = .ok t ∧ t.countP (fun v => decide (v < 0)) = 0 ∧ t.length = (pyRound (p.x.stop / p.x.sample)).toNat + 1 := by
  have hp : p.paddedTime = ⟨0, p.x.stop, p.x.sample⟩ := by
    unfold Rel.paddedTime
    rw [min_eq_right h0.le, max_eq_left (h0.le.trans hle)]
  have ha := p.paddedTime.array_eq (by rw [hp]; exact hs.ne')
  have hsp := Axis.array_spaced ha
  refine ⟨_, ha, ?_, ?_⟩
  · rw [List.countP_eq_zero]
    intro v hv
    obtain ⟨i, hi, rfl⟩ := List.getElem_of_mem hv
    rw [hsp.2 i hi]
    simp only [decide_eq_true_eq, not_lt]
    have : 0 ≤ p.paddedTime.step := by
      unfold Axis.step
      rw [hp]
      simp only [sub_zero]
      exact div_nonneg (h0.le.trans hle) (Nat.cast_nonneg _)
    rw [hp] at this ⊢
    simp only [zero_add]
    exact mul_nonneg (Nat.cast_nonneg _) this
  · rw [hsp.1]
    unfold Axis.steps
    rw [hp]
    simp only [sub_zero]
    rw [abs_of_nonneg (div_nonneg (h0.le.trans hle) hs.le)]

/-- **C139.** The spectrum of the differences of a signal on the axis from `a s` to `b s` that begins before zero, or at zero and has an odd
number `b` of steps. It has the frequencies `k / ((b - a) s)`. Its value is the Fourier sum of the differences at times half a sample
*earlier* than the times `diff` gave them, that is (times the sample) `(e^{2πi f s} - 1)` times the Fourier sum of the signal, less the terms
of the two ends. -/
theorem C139_diff_early (r : Rel ℝ ℝ) (lt ly : List ℝ) (h : r.getData = .ok (lt, ly)) (s : ℝ) (hs : 0 < s) (a b : ℤ) (hab : a + 2 ≤ b)
    (hrx : r.x = ⟨a * s, b * s, s⟩) (ha : a ≤ 0) (hb : 0 < b) (hpar : a < 0 ∨ Odd b) (N : ℕ) (hN : (N : ℤ) = b - a) :
    ∃ q sp qt qy lf lv, r.diff = .ok q ∧ q.getData = .ok (qt, qy) ∧ q.getSpectrum = .ok sp ∧ sp.getData = .ok (lf, lv) ∧
      lf.length = N / 2 + 1 ∧ lv.length = N / 2 + 1 ∧
      ∀ k (h1 : k < lf.length) (h2 : k < lv.length), lf[k] = k / (N * s) ∧
        lv[k] = phase lf[k] (-(s / 2)) * fourierSum qt qy lf[k] ∧
        s * lv[k] = (phase lf[k] (-s) - 1) * fourierSum lt ly lf[k] -
          phase lf[k] (a * s - s) * (ly.getD 0 0 : ℝ) + phase lf[k] (b * s) * (ly.getD (ly.length - 1) 0 : ℝ) := by
  obtain ⟨q, e1, e2, e3, e4, e5⟩ := diff_grid h hs hab hrx
  obtain ⟨hlt, hll⟩ := times_grid h hs (by omega : a ≤ b) hrx
  have hql : q.y.length = N := by omega
  rw [hql] at e5
  have haR : (a : ℝ) ≤ 0 := by exact_mod_cast ha
  have hbR : (1 : ℝ) ≤ b := by exact_mod_cast hb
  have hbN : ((N - 1 : ℕ) : ℝ) = b - a - 1 := by
    have : (((N - 1 : ℕ) : ℤ) : ℝ) = ((b - a - 1 : ℤ) : ℝ) := by congr 1; omega
    push_cast at this; exact_mod_cast this
  have hNR : (N : ℝ) = b - a := by
    have : ((N : ℤ) : ℝ) = ((b - a : ℤ) : ℝ) := by rw [hN]
    push_cast at this; exact this
  have hstop : 0 < b * s - s / 2 := by nlinarith
  obtain ⟨m, hm⟩ : ∃ m : ℕ, (m : ℤ) = -a := ⟨(-a).toNat, by omega⟩
  have hmR : (m : ℝ) = -a := by
    have : ((m : ℤ) : ℝ) = ((-a : ℤ) : ℝ) := by rw [hm]
    push_cast at this; exact this
  have hx0 : q.x.start ≤ q.x.stop := by
    rw [e3]
    show a * s + s / 2 ≤ b * s - s / 2
    have : (a : ℝ) + 2 ≤ b := by exact_mod_cast hab
    nlinarith
  obtain ⟨t, ht, htm, htl⟩ : ∃ t, q.paddedTime.array = .ok t ∧ t.countP (fun v => decide (v < 0)) = m ∧ t.length = N := by
    rcases lt_or_eq_of_le ha with h0 | h0
    · have haR' : (a : ℝ) ≤ -1 := by exact_mod_cast (by omega : a ≤ -1)
      have hp : q.paddedTime = ⟨a * s + s / 2, b * s - s / 2, s⟩ := by
        unfold Rel.paddedTime
        rw [e3]
        simp only
        rw [min_eq_left (by nlinarith), max_eq_left hstop.le]
      have := array_whole q.paddedTime (N - 1) (by rw [hp]; exact hs) (by rw [hp, hbN]; simp only; ring)
      refine ⟨_, this, ?_, by simp; omega⟩
      refine countP_range m _ (by omega) _ fun i _ => ?_
      rw [hp]
      simp only
      rw [show (a : ℝ) * s + s / 2 + i * s = ((i : ℝ) + 1 / 2 - m) * s by rw [hmR]; ring]
      constructor
      · intro hlt
        by_contra hc
        have : (m : ℝ) ≤ i := by exact_mod_cast (by omega : m ≤ i)
        have : 0 ≤ ((i : ℝ) + 1 / 2 - m) * s := mul_nonneg (by linarith) hs.le
        linarith
      · intro hlt
        have : (i : ℝ) + 1 ≤ m := by exact_mod_cast hlt
        exact mul_neg_of_neg_of_pos (by linarith) hs
    · have hod : Odd b := by
        rcases hpar with h1 | h1
        · omega
        · exact h1
      obtain ⟨t, g1, g2, g3⟩ := padded_positive (p := q) (by rw [e3]; exact hs) (by rw [e3, h0]; simp only; norm_num; exact hs) hx0
      refine ⟨t, g1, by rw [g2]; omega, ?_⟩
      rw [g3, e3]
      simp only
      rw [show (b * s - s / 2) / s = ((b - 1 : ℤ) : ℝ) + 1 / 2 by push_cast; field_simp; ring, pyRound_half, if_pos (by
        rcases hod with ⟨c, hc⟩
        exact ⟨c, by omega⟩)]
      omega
  obtain ⟨sp, lf, lv, f1, f2, f3, f4, f5⟩ := spectrum_of_padded (y := q.y) e2 hx0 (by omega) hs (by rw [e3]) ht htm htl hql
    (fun _ _ => rfl) (fun _ => by rw [hql]; simp) (by rw [e3]; exact hstop.le)
  have hqd := diff_midpoints hs hab e3 hN hql
  refine ⟨q, sp, _, q.y, lf, lv, e1, hqd, f1, f2, f3, f4, fun k h1 h2 => ?_⟩
  obtain ⟨g1, g2⟩ := f5 k h1 h2
  have hpos : ∀ i : ℕ, (((i : ℤ) - m : ℤ) : ℝ) * s = a * s + i * s := by
    intro i
    push_cast
    rw [hmR]; ring
  simp only [hpos] at g2
  refine ⟨g1, ?_, ?_⟩
  · have hN' : N = (N - 1) + 1 := by omega
    rw [g2, fourierSum_phase (n := N - 1) (c := a * s + s / 2) (s := s) (by rw [← hN']) (by omega), Finset.mul_sum, ← hN']
    refine Finset.sum_congr rfl fun j _ => ?_
    rw [show a * s + j * s = -(s / 2) + (a * s + s / 2 + j * s) by ring, phase_add]
    ring
  · have hNN : (b - a).toNat = N := by omega
    rw [hNN] at hlt hll
    rw [g2, diff_sum e5, fourierSum_phase hlt hll]
    rw [hll, Nat.add_sub_cancel, show a * s - s = -s + a * s by ring, phase_add _ (-s), show (a : ℝ) * s + N * s = b * s by rw [hNR]; ring]
    ring

/-- **C139.** The same for a signal that begins at zero and has an even number of steps: the axis of the differences is prolonged by one
sample, the frequencies are `k / ((b + 1) s)`, and the value is the Fourier sum of the differences at times half a sample *later* than the
times `diff` gave them. -/
theorem C139_diff_late (r : Rel ℝ ℝ) (lt ly : List ℝ) (h : r.getData = .ok (lt, ly)) (s : ℝ) (hs : 0 < s) (b : ℕ) (hb : 0 < b)
    (hrx : r.x = ⟨0, b * s, s⟩) (hpar : Even b) :
    ∃ q sp qt qy lf lv, r.diff = .ok q ∧ q.getData = .ok (qt, qy) ∧ q.getSpectrum = .ok sp ∧ sp.getData = .ok (lf, lv) ∧
      lf.length = b / 2 + 1 ∧ lv.length = b / 2 + 1 ∧
      ∀ k (h1 : k < lf.length) (h2 : k < lv.length), lf[k] = k / ((b + 1) * s) ∧
        lv[k] = phase lf[k] (s / 2) * fourierSum qt qy lf[k] ∧
        s * lv[k] = (1 - phase lf[k] s) * fourierSum lt ly lf[k] - ((ly.getD 0 0 - ly.getD b 0 : ℝ) : ℂ) := by
  have hb2 : 2 ≤ b := by rcases hpar with ⟨c, hc⟩; omega
  have hrx' : r.x = ⟨((0 : ℤ) : ℝ) * s, ((b : ℤ) : ℝ) * s, s⟩ := by rw [hrx]; simp
  obtain ⟨q, e1, e2, e3, e4, e5⟩ := diff_grid h hs (by omega : (0 : ℤ) + 2 ≤ b) hrx'
  obtain ⟨hlt, hll⟩ := times_grid h hs (by omega : (0 : ℤ) ≤ b) hrx'
  have hql : q.y.length = b := by omega
  rw [hql] at e5
  have hqd := diff_midpoints hs (by omega : (0 : ℤ) + 2 ≤ b) e3 (n := b) (by omega) hql
  simp only [Int.cast_zero, zero_mul, zero_add, Int.cast_natCast] at e3 hqd hlt
  rw [show ((b : ℤ) - 0).toNat = b by omega] at hlt hll
  have hbR : (2 : ℝ) ≤ b := by exact_mod_cast hb2
  have hx0 : q.x.start ≤ q.x.stop := by
    rw [e3]
    show s / 2 ≤ b * s - s / 2
    nlinarith
  have hst : 0 < q.x.start := by rw [e3]; exact half_pos hs
  obtain ⟨t, g1, g2, g3⟩ := padded_positive (p := q) (by rw [e3]; exact hs) hst hx0
  have htl : t.length = b + 1 := by
    rw [g3, e3]
    simp only
    rw [show (b * s - s / 2) / s = ((b - 1 : ℤ) : ℝ) + 1 / 2 by push_cast; field_simp; ring, pyRound_half, if_neg (by
        rcases hpar with ⟨c, hc⟩
        rw [Int.even_iff]
        omega)]
    omega
  obtain ⟨sp, lf, lv, f1, f2, f3, f4, f5⟩ := spectrum_of_padded (y := 0 :: q.y) e2 hx0 (by omega) hs (by rw [e3]) g1 g2 htl
    (by simp [hql]) (fun h => absurd h (not_le.2 hst)) (fun _ => by rw [hql]; simp) (hst.le.trans hx0)
  have hhalf : (b + 1) / 2 = b / 2 := by rcases hpar with ⟨c, hc⟩; omega
  rw [hhalf] at f3 f4
  refine ⟨q, sp, _, q.y, lf, lv, e1, hqd, f1, f2, f3, f4, fun k h1 h2 => ?_⟩
  obtain ⟨k1, k2⟩ := f5 k h1 h2
  push_cast at k1
  rw [Finset.sum_range_succ'] at k2
  simp only [List.getD_cons_zero, List.getD_cons_succ, Complex.ofReal_zero, zero_mul, add_zero, Nat.cast_zero, sub_zero] at k2
  have hpos : ∀ i : ℕ, ((((i + 1 : ℕ) : ℤ) : ℝ)) * s = s + (0 + i * s) := by
    intro i
    push_cast
    ring
  simp only [hpos, phase_add _ s] at k2
  have k3 : lv[k] = phase lf[k] s * ∑ j ∈ Finset.range b, ((q.y.getD j 0 : ℝ) : ℂ) * phase lf[k] (0 + j * s) := by
    rw [k2, Finset.mul_sum]
    exact Finset.sum_congr rfl fun j _ => by ring
  refine ⟨k1, ?_, ?_⟩
  · have hN' : b = (b - 1) + 1 := by omega
    rw [k3, fourierSum_phase (n := b - 1) (c := s / 2) (s := s) (by rw [← hN']) (by omega), Finset.mul_sum, Finset.mul_sum, ← hN']
    refine Finset.sum_congr rfl fun j _ => ?_
    have : phase lf[k] s = phase lf[k] (s / 2) * phase lf[k] (s / 2) := by rw [← phase_add]; congr 1; ring
    rw [this, phase_add _ (s / 2), phase_add _ 0, phase_zero]
    ring
  · have hone : phase lf[k] s * phase lf[k] (b * s) = 1 := by
      rw [← phase_add]
      unfold phase
      rw [Complex.exp_eq_one_iff]
      refine ⟨-(k : ℤ), ?_⟩
      have hs' : (s : ℂ) ≠ 0 := by exact_mod_cast hs.ne'
      have hb' : ((b : ℂ) + 1) ≠ 0 := by exact_mod_cast (by omega : b + 1 ≠ 0)
      rw [k1]
      push_cast
      field_simp
      ring
    have hmul : phase lf[k] s * phase lf[k] (-s) = 1 := by rw [← phase_add, add_neg_cancel, phase_zero]
    rw [k3, mul_left_comm, diff_sum e5, fourierSum_phase (c := 0) (by simpa using hlt) hll]
    simp only [phase_zero, zero_add]
    push_cast
    linear_combination (∑ j ∈ Finset.range (b + 1), ((ly.getD j 0 : ℝ) : ℂ) * phase lf[k] (j * s) - (ly.getD 0 0 : ℝ)) * hmul + (ly.getD b 0 : ℝ) * hone

theorem sum_running (I : ℕ → ℂ) (f c s : ℝ) (h0 : I 0 = 0) (n : ℕ) :
    (1 - phase f s) * ∑ j ∈ Finset.range n, I (j + 1) * phase f (c + s + j * s) =
      ∑ j ∈ Finset.range n, (I (j + 1) - I j) * phase f (c + s + j * s) - I n * phase f (c + s + n * s) := by
  induction n with
  | zero => simp [h0]
  | succ n ih =>
    rw [Finset.sum_range_succ, Finset.sum_range_succ, mul_add, ih]
    have : phase f (c + s + ((n + 1 : ℕ) : ℝ) * s) = phase f s * phase f (c + s + n * s) := by
      rw [← phase_add]; congr 1; push_cast; ring
    rw [this]
    ring

theorem sum_trapezoids (v : ℕ → ℂ) (f c s : ℝ) (n : ℕ) :
    ∑ j ∈ Finset.range n, (v j + v (j + 1)) * phase f (c + s + j * s) =
      (1 + phase f s) * ∑ j ∈ Finset.range (n + 1), v j * phase f (c + j * s) - v 0 * phase f c - v n * phase f (c + s + n * s) := by
  have h1 : ∀ j ∈ Finset.range n, (v j + v (j + 1)) * phase f (c + s + j * s) =
      phase f s * (v j * phase f (c + j * s)) + v (j + 1) * phase f (c + ((j + 1 : ℕ) : ℝ) * s) := by
    intro j _
    have e1 : phase f (c + s + j * s) = phase f s * phase f (c + j * s) := by
      rw [← phase_add]; congr 1; ring
    have e2 : phase f (c + ((j + 1 : ℕ) : ℝ) * s) = phase f s * phase f (c + j * s) := by
      rw [← phase_add]; congr 1; push_cast; ring
    rw [e1, e2]
    ring
  rw [Finset.sum_congr rfl h1, Finset.sum_add_distrib, ← Finset.mul_sum]
  have h2 := Finset.sum_range_succ' (fun j => v j * phase f (c + j * s)) n
  have h3 := Finset.sum_range_succ (fun j => v j * phase f (c + j * s)) n
  simp only [Nat.cast_zero, zero_mul, add_zero] at h2
  have e3 : phase f (c + s + n * s) = phase f s * phase f (c + n * s) := by
    rw [← phase_add]; congr 1; ring
  rw [e3]
  linear_combination (-phase f s) * h3 - h2

/-- **C139.** The spectrum of the running integral of a signal on the axis from `a s` to `b s`: at every frequency `f`, `1 - e^{-2πi f s}` times
its value is half a sample times `1 + e^{-2πi f s}` times the Fourier sum of the signal (the trapezium rule), less the terms of the two ends
and of the value the integral ends with. -/
theorem C139_integral (r : Rel ℝ ℝ) (lt ly : List ℝ) (h : r.getData = .ok (lt, ly)) (s : ℝ) (hs : 0 < s) (a b : ℤ) (hab : a + 2 ≤ b)
    (hrx : r.x = ⟨a * s, b * s, s⟩) (N : ℕ) (hN : (N : ℤ) = max b 0 - min (a + 1) 0 + 1) :
    ∃ q sp lf lv, r.integrate = .ok q ∧ q.getSpectrum = .ok sp ∧ sp.getData = .ok (lf, lv) ∧ lf.length = N / 2 + 1 ∧ lv.length = N / 2 + 1 ∧
      ∀ k (h1 : k < lf.length) (h2 : k < lv.length), lf[k] = k / (N * s) ∧
        (1 - phase lf[k] s) * lv[k] = s / 2 * ((1 + phase lf[k] s) * fourierSum lt ly lf[k] -
          phase lf[k] (a * s) * (ly.getD 0 0 : ℝ) - phase lf[k] (b * s + s) * (ly.getD (ly.length - 1) 0 : ℝ)) -
          phase lf[k] (b * s + s) * (q.y.getD (q.y.length - 1) 0 : ℝ) := by
  have hb := (balanced_iff_getData r).2 ⟨_, h⟩
  obtain ⟨hlt, hll⟩ := times_grid h hs (by omega : a ≤ b) hrx
  obtain ⟨-, rfl, -⟩ := (getData_ok_iff _ _ _).1 h
  have hspan : (r.x.stop - r.x.start) / r.x.sample = ((b - a : ℤ) : ℝ) := by
    rw [hrx]; push_cast; field_simp
  obtain ⟨q, hq⟩ : ∃ q, r.integrate = .ok q := by
    refine ((((C15_accepted r hb).1 ?_ (by omega)).1 ?_)).1
    · rw [hspan]; exact_mod_cast (by omega : 0 < b - a)
    · rw [hspan]
      rintro ⟨n, hn⟩
      have : (2 * (b - a) : ℤ) = 2 * n + 1 := by
        have : (2 * ((b - a : ℤ) : ℝ)) = 2 * n + 1 := by rw [hn]; ring
        exact_mod_cast this
      omega
  obtain ⟨e1, e2, e3, e4, e5, e6⟩ := C13_integrate_values r q hq
  rw [hrx] at e1 e2 e3 e6
  have hqx : q.x = ⟨((a + 1 : ℤ) : ℝ) * s, b * s, s⟩ := by
    obtain ⟨⟨x1, x2, x3⟩, y⟩ := q
    simp only at e1 e2 e3
    rw [e1, e2, e3]
    push_cast
    congr 1
    ring
  obtain ⟨⟨qt, qy⟩, hqd⟩ := (balanced_iff_getData q).1 e5
  obtain ⟨hqt, hql⟩ := times_grid hqd hs (by omega : a + 1 ≤ b) hqx
  obtain ⟨-, rfl, -⟩ := (getData_ok_iff _ _ _).1 hqd
  obtain ⟨sp, lf, lv, f1, f2, f3, f4, f5⟩ := C69_fourier_sum q qt q.y hqd s hs (a + 1) b (by omega) (by rw [hqx]) (by rw [hqx]) (by rw [hqx])
    N hN
  refine ⟨q, sp, lf, lv, hq, f1, f2, f3, f4, fun k h1 h2 => ?_⟩
  obtain ⟨g1, g2⟩ := f5 k h1 h2
  refine ⟨g1, ?_⟩
  obtain ⟨n, hn⟩ : ∃ n : ℕ, (n : ℤ) = b - a := ⟨(b - a).toNat, by omega⟩
  have hnR : (n : ℝ) = b - a := by
    have : ((n : ℤ) : ℝ) = ((b - a : ℤ) : ℝ) := by rw [hn]
    push_cast at this; exact this
  rw [show (b - a).toNat = n by omega] at hlt hll
  rw [show (b - (a + 1)).toNat + 1 = n by omega] at hqt hql
  have g3 : lv[k] = ∑ j ∈ Finset.range n, ((q.y.getD j 0 : ℝ) : ℂ) * phase lf[k] (a * s + s + j * s) := by
    have := fourierSum_phase (lt := qt) (ly := q.y) (s := s) (c := a * s + s) (n := n - 1)
      (by rw [show n - 1 + 1 = n by omega, hqt]; push_cast; congr 1; funext i; ring) (by omega) lf[k]
    rw [show n - 1 + 1 = n by omega] at this
    rw [g2, ← this]
    rfl
  -- the running integral, with a leading zero
  let I : ℕ → ℂ := fun j => if j = 0 then 0 else ((q.y.getD (j - 1) 0 : ℝ) : ℂ)
  have hI : ∀ j, I (j + 1) = ((q.y.getD j 0 : ℝ) : ℂ) := fun j => by simp [I]
  have hstep : ∀ j < n, I (j + 1) - I j = (s : ℂ) / 2 * (((r.y.getD j 0 : ℝ) : ℂ) + ((r.y.getD (j + 1) 0 : ℝ) : ℂ)) := by
    intro j hj
    have v1 : q.y.getD j 0 = s • ∑ i ∈ Finset.range (j + 1), (r.y.getD i 0 + r.y.getD (i + 1) 0) / 2 := by
      rw [getD_lt _ _ _ (by omega), e6 j (by omega)]
    rw [hI]
    cases j with
    | zero =>
      rw [v1]
      simp [I]
      ring
    | succ j =>
      have v2 : q.y.getD j 0 = s • ∑ i ∈ Finset.range (j + 1), (r.y.getD i 0 + r.y.getD (i + 1) 0) / 2 := by
        rw [getD_lt _ _ _ (by omega), e6 j (by omega)]
      rw [hI, v1, v2, Finset.sum_range_succ _ (j + 1)]
      push_cast [smul_eq_mul]
      ring
  have k1 := sum_running I lf[k] (a * s) s (by simp [I]) n
  simp only [hI] at k1
  rw [g3, k1]
  have k2 : ∑ j ∈ Finset.range n, (((q.y.getD j 0 : ℝ) : ℂ) - I j) * phase lf[k] (a * s + s + j * s) =
      (s : ℂ) / 2 * ∑ j ∈ Finset.range n, (((r.y.getD j 0 : ℝ) : ℂ) + ((r.y.getD (j + 1) 0 : ℝ) : ℂ)) * phase lf[k] (a * s + s + j * s) := by
    rw [Finset.mul_sum]
    refine Finset.sum_congr rfl fun j hj => ?_
    rw [← hI, hstep j (Finset.mem_range.1 hj)]
    ring
  rw [k2, sum_trapezoids (fun j => ((r.y.getD j 0 : ℝ) : ℂ)), ← fourierSum_phase hlt hll]
  have hlast : I n = ((q.y.getD (q.y.length - 1) 0 : ℝ) : ℂ) := by
    obtain ⟨m, rfl⟩ : ∃ m, n = m + 1 := ⟨n - 1, by omega⟩
    rw [hI, hql, Nat.add_sub_cancel]
  rw [hlast, hll, Nat.add_sub_cancel, show (a : ℝ) * s + s + n * s = b * s + s by rw [hnR]; ring]
  ring

/-- **C139.** The same pulse recorded with two and with three steps: both spectra of the differences have the frequencies 0 and 1/3, and at 1/3 the
first is the second times `e^{-2πi/3}`: a delay of one whole sample. -/
theorem C139_parity_witness : ∃ p q sp sq : Rel ℝ _, Rel.diff (V := ℝ) ⟨⟨0, 2, 1⟩, [0, 1, 0]⟩ = .ok p ∧
    Rel.diff (V := ℝ) ⟨⟨0, 3, 1⟩, [0, 1, 0, 0]⟩ = .ok q ∧ p.getSpectrum = .ok sp ∧ q.getSpectrum = .ok sq ∧
    ∃ lf lv lw, sp.getData = .ok (lf, lv) ∧ sq.getData = .ok (lf, lw) ∧ lf = [0, 1 / 3] ∧
      lv.getD 1 0 = phase (1 / 3) 1 * lw.getD 1 0 ∧ lw.getD 1 0 ≠ 0 := by
  have hA : Rel.getData (K := ℝ) (V := ℝ) ⟨⟨0, 2, 1⟩, [0, 1, 0]⟩ = .ok ([0, 1, 2], [0, 1, 0]) := by
    rw [getData_ok_iff]
    refine ⟨?_, rfl, rfl⟩
    rw [array_whole _ 2 (by norm_num) (by norm_num)]
    norm_num [List.range_succ]
  have hB : Rel.getData (K := ℝ) (V := ℝ) ⟨⟨0, 3, 1⟩, [0, 1, 0, 0]⟩ = .ok ([0, 1, 2, 3], [0, 1, 0, 0]) := by
    rw [getData_ok_iff]
    refine ⟨?_, rfl, rfl⟩
    rw [array_whole _ 3 (by norm_num) (by norm_num)]
    norm_num [List.range_succ]
  obtain ⟨p, sp, pt, py, lf, lv, a1, -, a3, a4, a5, a6, a7⟩ := C139_diff_late _ _ _ hA 1 one_pos 2 (by norm_num) (by norm_num) (by decide)
  obtain ⟨q, sq, qt, qy, lg, lw, b1, -, b3, b4, b5, b6, b7⟩ := C139_diff_early _ _ _ hB 1 one_pos 0 3 (by norm_num) (by norm_num) (by norm_num)
    (by norm_num) (.inr (by decide)) 3 (by norm_num)
  have hfg : ∀ l : List ℝ, l.length = 2 → (∀ k (h : k < l.length), l[k] = k / 3) → l = [0, 1 / 3] := by
    intro l hl h
    match l, hl with
    | [x, y], _ =>
      have h0 := h 0 (by simp)
      have h1 := h 1 (by simp)
      simp at h0 h1
      rw [h0, h1]; norm_num
  have e1 : lf = [0, 1 / 3] := hfg lf a5 fun k hk => by
    rw [(a7 k hk (by omega)).1]; norm_num
  have e2 : lg = [0, 1 / 3] := hfg lg b5 fun k hk => by
    rw [(b7 k hk (by omega)).1]; norm_num
  subst e1 e2
  have c1 := (a7 1 (by simp) (by omega)).2.2
  have c2 := (b7 1 (by simp) (by omega)).2.2
  have fA : fourierSum [0, 1, 2] [0, 1, 0] (1 / 3) = phase (1 / 3) 1 := by
    simp [fourierSum, Finset.sum_range_succ, phase]
  have fB : fourierSum [0, 1, 2, 3] [0, 1, 0, 0] (1 / 3) = phase (1 / 3) 1 := by
    simp [fourierSum, Finset.sum_range_succ, phase]
  simp only [List.getElem_cons_succ, List.getElem_cons_zero, fA, fB] at c1 c2
  simp at c1 c2
  have hmul : phase (3⁻¹) 1 * phase (3⁻¹) (-1) = 1 := by rw [← phase_add, add_neg_cancel, phase_zero]
  refine ⟨p, q, sp, sq, a1, b1, a3, b3, _, lv, lw, a4, b4, rfl, ?_, ?_⟩
  · rw [getD_lt _ _ _ (by omega), getD_lt _ _ _ (by omega), c1, c2]
    norm_num
    norm_num at hmul
    linear_combination (-phase (1 / 3) 1) * hmul
  · rw [getD_lt _ _ _ (by omega), c2]
    intro h0
    have hne : phase (3⁻¹) 1 ≠ 0 := Complex.exp_ne_zero _
    rcases mul_eq_zero.1 h0 with h1 | h1
    · have h2 : phase (3⁻¹) (-1) = 1 := by linear_combination h1
      unfold phase at h2
      rw [Complex.exp_eq_one_iff] at h2
      obtain ⟨n, hn⟩ := h2
      have hpi : (2 * Real.pi * Complex.I : ℂ) ≠ 0 := Complex.two_pi_I_ne_zero
      have : ((1 / 3 : ℝ) : ℂ) = n := by
        apply mul_right_cancel₀ hpi
        rw [← hn]
        push_cast
        ring
      have h3 : ((3 * n : ℤ) : ℝ) = ((1 : ℤ) : ℝ) := by
        have : (1 / 3 : ℝ) = n := by exact_mod_cast this
        push_cast
        rw [← this]; norm_num
      have : 3 * n = 1 := by exact_mod_cast h3
      omega
    · exact hne h1

/-- the hypotheses of `C139_integral` (and of `C139_diff_early`, beginning before zero) hold for the pulse `[0, 2, 0]` at the times `-1, 0, 1`: the
integral is `[1, 2]` at the times `0, 1` and its spectrum `[3, -1]` -/
example : ∃ q sp lf lv, Rel.integrate (K := ℝ) (V := ℝ) ⟨⟨-1, 1, 1⟩, [0, 2, 0]⟩ = .ok q ∧ q.getSpectrum = .ok sp ∧ sp.getData = .ok (lf, lv) ∧
    lf = [0, 1 / 2] ∧ lv.getD 1 0 = -1 := by
  have hA : Rel.getData (K := ℝ) (V := ℝ) ⟨⟨-1, 1, 1⟩, [0, 2, 0]⟩ = .ok ([-1, 0, 1], [0, 2, 0]) := by
    rw [getData_ok_iff]
    refine ⟨?_, rfl, rfl⟩
    rw [array_whole _ 2 (by norm_num) (by norm_num)]
    norm_num [List.range_succ]
  obtain ⟨q, sp, lf, lv, a1, a2, a3, a4, a5, a6⟩ := C139_integral _ _ _ hA 1 one_pos (-1) 1 (by norm_num) (by norm_num) 2 (by norm_num)
  have e1 : lf = [0, 1 / 2] := by
    match lf, a4 with
    | [x, y], _ =>
      have h0 := (a6 0 (by simp) (by omega)).1
      have h1 := (a6 1 (by simp) (by omega)).1
      simp at h0 h1
      rw [h0, h1]; norm_num
  subst e1
  obtain ⟨-, -, -, v4, -, v5⟩ := C13_integrate_values _ _ a1
  simp only [List.length_cons, List.length_nil, Nat.reduceAdd] at v4
  have hv : q.y.getD (q.y.length - 1) 0 = 2 := by
    rw [show q.y.length - 1 = 1 by omega, getD_lt _ _ _ (by omega), v5 1 (by omega)]
    norm_num [Finset.sum_range_succ]
  have c := (a6 1 (by simp) (by omega)).2
  have p1 : phase (1 / 2) 1 = -1 := by
    unfold phase
    rw [show -(2 * (Real.pi : ℂ) * Complex.I * ((1 / 2 * 1 : ℝ) : ℂ)) = -(Real.pi * Complex.I) by push_cast; ring, Complex.exp_neg,
      Complex.exp_pi_mul_I]
    norm_num
  have p2 : phase (1 / 2) 2 = 1 := by
    have := phase_add (1 / 2) 1 1
    rw [p1] at this
    norm_num at this ⊢
    exact this
  have f : fourierSum [-1, 0, 1] [0, 2, 0] (1 / 2) = 2 := by
    simp [fourierSum, Finset.sum_range_succ]
  refine ⟨q, sp, _, lv, a1, a2, a3, rfl, ?_⟩
  rw [getD_lt _ _ _ (by omega)]
  simp only [List.getElem_cons_succ, List.getElem_cons_zero, f, hv] at c
  norm_num at c p1 p2
  rw [p1, p2] at c
  norm_num at c
  linear_combination c / 2

end

end SweepDesign
