import Verif.Props.Modulation

/-!
# C137: the spectrum of a resampled signal

A signal is resampled with `interpolate_extrapolate` on an axis that holds every `m`-th multiple of its sample. What `get_spectrum` then
gives is the mean of the Fourier sums of the signal at `m` frequencies one new sampling rate apart (aliasing). With `m = 1` the axis is only
longer and the spectrum is a denser reading of the same Fourier sum.
-/

set_option linter.unusedSectionVars false

namespace SweepDesign
open Spec

noncomputable section

theorem sum_range_Ico (a : ℤ) (n : ℕ) (F : ℤ → ℂ) : ∑ i ∈ Finset.range n, F (a + i) = ∑ j ∈ Finset.Ico a (a + n), F j := by
  refine Finset.sum_nbij (fun i : ℕ => a + (i : ℤ)) ?_ ?_ ?_ ?_
  · intro i hi
    have := Finset.mem_range.1 hi
    simp only [Finset.mem_Ico]; omega
  · intro i _ j _ h
    simp only at h; omega
  · intro j hj
    have := Finset.mem_Ico.1 (Finset.mem_coe.1 hj)
    exact ⟨(j - a).toNat, by simp; omega, by simp only; omega⟩
  · intro i _; rfl

/-- every `m`-th term of a sum over a piece of the whole numbers, counted on a coarser piece that holds all of them -/
theorem sum_multiples (m : ℕ) (hm : 0 < m) (a b A B : ℤ) (hA : A * m < a + m) (hB : b - m < B * m) (G : ℤ → ℂ)
    (hG : ∀ j, ¬ (a ≤ j ∧ j ≤ b) → G j = 0) :
    ∑ J ∈ Finset.Ico A (B + 1), G (J * m) = ∑ j ∈ Finset.Ico a (b + 1), if (m : ℤ) ∣ j then G j else 0 := by
  have hm' : (0 : ℤ) < m := by exact_mod_cast hm
  have hinj : Set.InjOn (fun J : ℤ => J * (m : ℤ)) (Finset.Ico A (B + 1)) := by
    intro x _ y _ h
    exact mul_right_cancel₀ hm'.ne' h
  rw [← Finset.sum_filter, ← Finset.sum_image (f := G) hinj]
  symm
  refine Finset.sum_subset ?_ ?_
  · intro j hj
    obtain ⟨h1, J, rfl⟩ := Finset.mem_filter.1 hj
    have h1 := Finset.mem_Ico.1 h1
    refine Finset.mem_image.2 ⟨J, Finset.mem_Ico.2 ⟨?_, ?_⟩, mul_comm _ _⟩
    · by_contra hc
      have : (J + 1) * m ≤ A * m := mul_le_mul_of_nonneg_right (by omega) hm'.le
      nlinarith [h1.1]
    · by_contra hc
      have : (B + 1) * m ≤ J * m := mul_le_mul_of_nonneg_right (by omega) hm'.le
      nlinarith [h1.2]
  · intro j hj hn
    obtain ⟨J, -, rfl⟩ := Finset.mem_image.1 hj
    refine hG _ fun hc => hn (Finset.mem_filter.2 ⟨Finset.mem_Ico.2 ⟨hc.1, by have := hc.2; omega⟩, Dvd.intro_left J rfl⟩)

/-- the points and samples of a signal on the axis `a s .. b s` -/
theorem times_grid {lt ly : List ℝ} {r : Rel ℝ ℝ} (h : r.getData = .ok (lt, ly)) {s : ℝ} (hs : 0 < s) {a b : ℤ} (hab : a ≤ b)
    (hrx : r.x = ⟨a * s, b * s, s⟩) :
    lt = (List.range ((b - a).toNat + 1)).map (fun i : ℕ => (a : ℝ) * s + i * s) ∧ ly.length = (b - a).toNat + 1 := by
  obtain ⟨e1, rfl, e3⟩ := (getData_ok_iff _ _ _).1 h
  have hd : (((b - a).toNat : ℕ) : ℝ) = b - a := by
    have : (((b - a).toNat : ℤ) : ℝ) = ((b - a : ℤ) : ℝ) := by rw [Int.toNat_of_nonneg (by omega)]
    push_cast at this; exact_mod_cast this
  have := array_whole r.x (b - a).toNat (by rw [hrx]; exact hs) (by rw [hrx, hd]; simp only; ring)
  rw [e1, hrx] at this
  simp only [Except.ok.injEq] at this
  exact ⟨this, by rw [← e3, this]; simp⟩

/-- the sample at the whole number `j` of the axis `a s .. b s`, zero outside -/
def valAt (ly : List ℝ) (a b j : ℤ) : ℝ := if a ≤ j ∧ j ≤ b then ly.getD (j - a).toNat 0 else 0

def phaseAt (s f : ℝ) (j : ℤ) : ℂ := Complex.exp (-(2 * Real.pi * Complex.I * ((f * (j * s) : ℝ) : ℂ)))

theorem fourierSum_Ico {lt ly : List ℝ} {s : ℝ} {a b : ℤ} (hab : a ≤ b)
    (ht : lt = (List.range ((b - a).toNat + 1)).map (fun i : ℕ => (a : ℝ) * s + i * s)) (hl : ly.length = (b - a).toNat + 1) (f : ℝ) :
    fourierSum lt ly f = ∑ j ∈ Finset.Ico a (b + 1), (valAt ly a b j : ℂ) * phaseAt s f j := by
  have := sum_range_Ico a ((b - a).toNat + 1) fun j => (valAt ly a b j : ℂ) * phaseAt s f j
  rw [show a + (((b - a).toNat + 1 : ℕ) : ℤ) = b + 1 by push_cast; omega] at this
  rw [← this]
  unfold fourierSum
  rw [hl]
  refine Finset.sum_congr rfl fun i hi => ?_
  have hi := Finset.mem_range.1 hi
  unfold valAt phaseAt
  rw [if_pos (by omega), show (a + (i : ℤ) - a).toNat = i by omega, ht, getD_lt (List.map _ _) _ _ (by simpa using hi)]
  simp only [List.getElem_map, List.getElem_range]
  congr 4
  push_cast; ring

theorem phaseAt_alias {s : ℝ} (hs : 0 < s) {m : ℕ} (hm : 0 < m) (f : ℝ) (l : ℕ) (j : ℤ) :
    phaseAt s (f + l / (m * s)) j = phaseAt s f j * unitRoot m (-j * l) := by
  have h1 : (m : ℂ) ≠ 0 := by exact_mod_cast hm.ne'
  have h2 : (s : ℂ) ≠ 0 := by exact_mod_cast hs.ne'
  unfold phaseAt unitRoot
  rw [← Complex.exp_add]
  congr 1
  push_cast
  field_simp
  ring

/-- the samples of a signal resampled on multiples of its grid -/
theorem coarse_values {r q : Rel ℝ ℝ} {lt ly xs ys : List ℝ} (h : r.getData = .ok (lt, ly)) {s : ℝ} (hs : 0 < s) {a b : ℤ} (hab : a ≤ b)
    (hrx : r.x = ⟨a * s, b * s, s⟩) {m : ℕ} (hm : 0 < m) {A B : ℤ} (hAB : A ≤ B)
    (hq : r.interpolateExtrapolate (.axis ⟨A * (m * s), B * (m * s), m * s⟩) = .ok q) (e5 : q.getData = .ok (xs, ys)) :
    ∀ J : ℤ, A ≤ J → J ≤ B → valAt ys A B J = valAt ly a b (J * m) := by
  have hm' : (0 : ℝ) < m := by exact_mod_cast hm
  have hms : 0 < m * s := mul_pos hm' hs
  obtain ⟨ht, hl⟩ := times_grid h hs hab hrx
  obtain ⟨q', xs', ys', e1, e2, e3, e4, e5', e6⟩ := interpAxis_spec r lt ly h ⟨A * (m * s), B * (m * s), m * s⟩ hms.ne'
  obtain rfl : q = q' := Except.ok.inj (hq.symm.trans e1)
  obtain ⟨rfl, rfl⟩ : xs = xs' ∧ ys = ys' := by
    have := e5.symm.trans e5'
    simpa using this
  obtain ⟨hxs, hys⟩ := times_grid e5 hms hAB e2
  intro J j1 j2
  have hi : (J - A).toNat < ys.length := by rw [hys]; omega
  have hi' : (J - A).toNat < xs.length := by rw [hxs]; simp; omega
  have hx : xs[(J - A).toNat] = ((J * m : ℤ) : ℝ) * s := by
    simp only [hxs, List.getElem_map, List.getElem_range]
    have : (((J - A).toNat : ℕ) : ℝ) = J - A := by
      have : (((J - A).toNat : ℤ) : ℝ) = ((J - A : ℤ) : ℝ) := by rw [Int.toNat_of_nonneg (by omega)]
      push_cast at this; exact_mod_cast this
    rw [this]; push_cast; ring
  have hint := e6 _ hi' hi
  rw [hx] at hint
  unfold valAt
  rw [if_pos ⟨j1, j2⟩, getD_lt _ _ _ hi]
  split_ifs with hc
  · have hj : (J * m - a).toNat < ly.length := by rw [hl]; omega
    have hj' : (J * m - a).toNat < lt.length := by rw [ht]; simp; omega
    rw [getD_lt _ _ _ hj]
    refine hint.sample _ hj' hj ?_
    simp only [ht, List.getElem_map, List.getElem_range]
    have : (((J * m - a).toNat : ℕ) : ℝ) = ((J * m - a : ℤ) : ℝ) := by
      have : (((J * m - a).toNat : ℤ) : ℝ) = ((J * m - a : ℤ) : ℝ) := by rw [Int.toNat_of_nonneg (by omega)]
      exact_mod_cast this
    rw [this]; push_cast; ring
  · refine hint.outside fun ⟨u, hu, w, hw, k1, k2⟩ => hc ?_
    rw [ht] at hu hw
    obtain ⟨iu, hiu, rfl⟩ := List.mem_map.1 hu
    obtain ⟨iw, hiw, rfl⟩ := List.mem_map.1 hw
    have hiu := List.mem_range.1 hiu
    have hiw := List.mem_range.1 hiw
    have g1 : (a + iu : ℤ) ≤ J * m := by
      have : ((a + iu : ℤ) : ℝ) * s ≤ ((J * m : ℤ) : ℝ) * s := by push_cast at k1 ⊢; linarith
      exact_mod_cast le_of_mul_le_mul_right this hs
    have g2 : J * m ≤ (a + iw : ℤ) := by
      have : ((J * m : ℤ) : ℝ) * s ≤ ((a + iw : ℤ) : ℝ) * s := by push_cast at k2 ⊢; linarith
      exact_mod_cast le_of_mul_le_mul_right this hs
    omega

/-- **C137.** Resampled on an axis of sample `m s`, the signal keeps every `m`-th sample and nothing else: the sample at `J m s` is the one the
signal has there, and zero where the signal has none. -/
theorem C137_samples (r q : Rel ℝ ℝ) (lt ly xs ys : List ℝ) (h : r.getData = .ok (lt, ly)) (s : ℝ) (hs : 0 < s) (a b : ℤ) (hab : a ≤ b)
    (hrx : r.x = ⟨a * s, b * s, s⟩) (m : ℕ) (hm : 0 < m) (A B : ℤ) (hAB : A ≤ B)
    (hq : r.interpolateExtrapolate (.axis ⟨A * (m * s), B * (m * s), m * s⟩) = .ok q) (hd : q.getData = .ok (xs, ys)) :
    (ys.length : ℤ) = B - A + 1 ∧ ∀ i < ys.length, xs.getD i 0 = (A + i) * (m * s) ∧
      (∀ j < ly.length, (A + i) * m = a + j → ys.getD i 0 = ly.getD j 0) ∧
      ((∀ j < ly.length, (A + i) * m ≠ a + j) → ys.getD i 0 = 0) := by
  have hm' : (0 : ℝ) < m := by exact_mod_cast hm
  have hqx : q.x = ⟨A * (m * s), B * (m * s), m * s⟩ := by
    obtain ⟨q', xs', ys', e1, e2, -⟩ := interpAxis_spec r lt ly h ⟨A * (m * s), B * (m * s), m * s⟩ (mul_pos hm' hs).ne'
    obtain rfl : q = q' := Except.ok.inj (hq.symm.trans e1)
    exact e2
  obtain ⟨hxs, hys⟩ := times_grid hd (mul_pos hm' hs) hAB hqx
  obtain ⟨-, hl⟩ := times_grid h hs hab hrx
  have hv := coarse_values h hs hab hrx hm hAB hq hd
  refine ⟨by omega, fun i hi => ⟨?_, fun j hj he => ?_, fun hn => ?_⟩⟩
  · rw [hxs, getD_lt _ _ _ (by simp; omega)]
    simp only [List.getElem_map, List.getElem_range]
    ring
  · have := hv (A + i) (by omega) (by omega)
    unfold valAt at this
    rw [if_pos (by omega), he, if_pos (by omega)] at this
    rwa [show (A + (i : ℤ) - A).toNat = i by omega, show (a + (j : ℤ) - a).toNat = j by omega] at this
  · have := hv (A + i) (by omega) (by omega)
    unfold valAt at this
    rw [if_pos (by omega), if_neg (fun hc => hn ((A + i) * m - a).toNat (by omega) (by omega))] at this
    rwa [show (A + (i : ℤ) - A).toNat = i by omega] at this

/-- **C137.** A signal on the axis `a s .. b s` (whole multiples of its sample `s`), resampled on an axis of sample `m s` that holds every
multiple of `m s` within the range of the signal: the spectrum of the result at its frequency `f` is the mean of the Fourier sums of the
signal at the frequencies `f`, `f + 1 / (m s)`, …, `f + (m - 1) / (m s)`. -/
theorem C137_coarser (r : Rel ℝ ℝ) (lt ly : List ℝ) (h : r.getData = .ok (lt, ly)) (s : ℝ) (hs : 0 < s) (a b : ℤ) (hab : a ≤ b)
    (hrx : r.x = ⟨a * s, b * s, s⟩) (m : ℕ) (hm : 0 < m) (A B : ℤ) (hAB : A < B) (hA : A * m < a + m) (hB : b - m < B * m) (N : ℕ)
    (hN : (N : ℤ) = max B 0 - min A 0 + 1) :
    ∃ q sp lf lv, r.interpolateExtrapolate (.axis ⟨A * (m * s), B * (m * s), m * s⟩) = .ok q ∧ q.getSpectrum = .ok sp ∧
      sp.getData = .ok (lf, lv) ∧ lf.length = N / 2 + 1 ∧ lv.length = N / 2 + 1 ∧
      ∀ k (h1 : k < lf.length) (h2 : k < lv.length), lf[k] = k / (N * (m * s)) ∧
        lv[k] = (∑ l ∈ Finset.range m, fourierSum lt ly (lf[k] + l / (m * s))) / m := by
  have hm' : (0 : ℝ) < m := by exact_mod_cast hm
  have hms : 0 < m * s := mul_pos hm' hs
  obtain ⟨ht, hl⟩ := times_grid h hs hab hrx
  obtain ⟨q, xs, ys, e1, e2, e3, e4, e5, e6⟩ := interpAxis_spec r lt ly h ⟨A * (m * s), B * (m * s), m * s⟩ hms.ne'
  obtain ⟨hxs, hys⟩ := times_grid e5 hms hAB.le e2
  obtain ⟨sp, lf, lv, f1, f2, f3, f4, f5⟩ := C69_fourier_sum q xs ys e5 (m * s) hms A B hAB (by rw [e2]) (by rw [e2]) (by rw [e2]) N hN
  refine ⟨q, sp, lf, lv, e1, f1, f2, f3, f4, fun k h1 h2 => ⟨(f5 k h1 h2).1, ?_⟩⟩
  have hmC : (m : ℂ) ≠ 0 := by exact_mod_cast hm.ne'
  rw [(f5 k h1 h2).2, eq_div_iff hmC]
  generalize lf[k] = f
  have hv := coarse_values h hs hab hrx hm hAB.le e1 e5
  have hF := fourierSum_Ico hAB.le hxs hys f
  unfold fourierSum at hF
  rw [hF]
  have h3 : ∑ J ∈ Finset.Ico A (B + 1), (valAt ys A B J : ℂ) * phaseAt (m * s) f J =
      ∑ J ∈ Finset.Ico A (B + 1), (fun j : ℤ => (valAt ly a b j : ℂ) * phaseAt s f j) (J * m) := by
    refine Finset.sum_congr rfl fun J hJ => ?_
    have hJ := Finset.mem_Ico.1 hJ
    simp only
    rw [hv J hJ.1 (by omega)]
    congr 1
    unfold phaseAt
    congr 4
    push_cast; ring
  rw [h3, sum_multiples m hm a b A B hA hB (fun j : ℤ => (valAt ly a b j : ℂ) * phaseAt s f j) (fun j hj => by simp [valAt, hj])]
  have h4 : ∀ l ∈ Finset.range m, fourierSum lt ly (f + l / (m * s)) =
      ∑ j ∈ Finset.Ico a (b + 1), (valAt ly a b j : ℂ) * phaseAt s f j * unitRoot m (-j * l) := fun l _ => by
    rw [fourierSum_Ico hab ht hl]
    refine Finset.sum_congr rfl fun j _ => ?_
    rw [phaseAt_alias hs hm, mul_assoc]
  rw [Finset.sum_congr rfl h4, Finset.sum_comm, Finset.sum_mul]
  refine Finset.sum_congr rfl fun j _ => ?_
  rw [← Finset.mul_sum, unitRoot_sum m hm]
  simp only [dvd_neg]
  split_ifs <;> simp

/-- **C137.** A longer axis with the same sample: the values between and around are zeros, and the spectrum is the Fourier sum of the signal
itself at more frequencies. -/
theorem C137_longer (r : Rel ℝ ℝ) (lt ly : List ℝ) (h : r.getData = .ok (lt, ly)) (s : ℝ) (hs : 0 < s) (a b : ℤ) (hab : a ≤ b)
    (hrx : r.x = ⟨a * s, b * s, s⟩) (A B : ℤ) (hAB : A < B) (hA : A ≤ a) (hB : b ≤ B) (N : ℕ) (hN : (N : ℤ) = max B 0 - min A 0 + 1) :
    ∃ q sp lf lv, r.interpolateExtrapolate (.axis ⟨A * s, B * s, s⟩) = .ok q ∧ q.getSpectrum = .ok sp ∧
      sp.getData = .ok (lf, lv) ∧ lf.length = N / 2 + 1 ∧ lv.length = N / 2 + 1 ∧
      ∀ k (h1 : k < lf.length) (h2 : k < lv.length), lf[k] = k / (N * s) ∧ lv[k] = fourierSum lt ly lf[k] := by
  obtain ⟨q, sp, lf, lv, e1, e2, e3, e4, e5, e6⟩ := C137_coarser r lt ly h s hs a b hab hrx 1 one_pos A B hAB (by push_cast; omega)
    (by push_cast; omega) N hN
  simp only [Nat.cast_one, one_mul] at e1 e6
  exact ⟨q, sp, lf, lv, e1, e2, e3, e4, e5, fun k h1 h2 => ⟨(e6 k h1 h2).1, by rw [(e6 k h1 h2).2]; simp⟩⟩

/-- **C137.** At a frequency that a signal and the same signal on a longer axis both have, their spectra agree. -/
theorem C137_common (r q : Rel ℝ ℝ) (hr : Balanced r) (s : ℝ) (hs : 0 < s) (a b : ℤ) (hab : a < b)
    (hrx : r.x = ⟨a * s, b * s, s⟩) (A B : ℤ) (hA : A ≤ a) (hB : b ≤ B)
    (hq : r.interpolateExtrapolate (.axis ⟨A * s, B * s, s⟩) = .ok q) :
    ∃ sp sp' lf lv lf' lv', r.getSpectrum = .ok sp ∧ sp.getData = .ok (lf, lv) ∧ q.getSpectrum = .ok sp' ∧ sp'.getData = .ok (lf', lv') ∧
      ∀ k j (h1 : k < lf.length) (h2 : k < lv.length) (h3 : j < lf'.length) (h4 : j < lv'.length), lf[k] = lf'[j] → lv[k] = lv'[j] := by
  obtain ⟨⟨lt, ly⟩, hd⟩ := (balanced_iff_getData r).1 hr
  obtain ⟨sp, lf, lv, f1, f2, f3, f4, f5⟩ := C69_fourier_sum r lt ly hd s hs a b hab (by rw [hrx]) (by rw [hrx]) (by rw [hrx])
    (max b 0 - min a 0 + 1).toNat (by omega)
  obtain ⟨q', sp', lf', lv', e1, e2, e3, e4, e5, e6⟩ := C137_longer r lt ly hd s hs a b hab.le hrx A B (by omega) hA hB
    (max B 0 - min A 0 + 1).toNat (by omega)
  obtain rfl : q = q' := Except.ok.inj (hq.symm.trans e1)
  refine ⟨sp, sp', lf, lv, lf', lv', f1, f2, e2, e3, fun k j h1 h2 h3 h4 he => ?_⟩
  rw [(f5 k h1 h2).2, (e6 j h3 h4).2, ← he]
  rfl

theorem fourierSum_mirror {lt ly : List ℝ} {r : Rel ℝ ℝ} (h : r.getData = .ok (lt, ly)) {s : ℝ} (hs : 0 < s) {a b : ℤ} (hab : a ≤ b)
    (hrx : r.x = ⟨a * s, b * s, s⟩) (f : ℝ) (n : ℤ) :
    fourierSum lt ly (f + n / s) = (starRingEnd ℂ) (fourierSum lt ly (-f)) := by
  obtain ⟨ht, hl⟩ := times_grid h hs hab hrx
  rw [fourierSum_Ico hab ht hl, fourierSum_Ico hab ht hl, map_sum]
  refine Finset.sum_congr rfl fun j _ => ?_
  rw [map_mul, Complex.conj_ofReal]
  congr 1
  unfold phaseAt
  rw [← Complex.exp_conj, Complex.exp_eq_exp_iff_exists_int]
  refine ⟨-(n * j), ?_⟩
  have h2 : (s : ℂ) ≠ 0 := by exact_mod_cast hs.ne'
  have h3 : (starRingEnd ℂ) 2 = 2 := map_ofNat _ 2
  simp only [map_neg, map_mul, Complex.conj_ofReal, Complex.conj_I, h3]
  push_cast
  field_simp
  ring

/-- **C137.** Every second sample: the frequencies above the new Nyquist frequency `1 / (4 s)` fold back. The value at `f` is the mean of the
Fourier sum of the signal at `f` and the conjugate of the one at `1 / (2 s) - f`. -/
theorem C137_halved (r : Rel ℝ ℝ) (lt ly : List ℝ) (h : r.getData = .ok (lt, ly)) (s : ℝ) (hs : 0 < s) (a b : ℤ) (hab : a ≤ b)
    (hrx : r.x = ⟨a * s, b * s, s⟩) (A B : ℤ) (hAB : A < B) (hA : A * 2 < a + 2) (hB : b - 2 < B * 2) (N : ℕ)
    (hN : (N : ℤ) = max B 0 - min A 0 + 1) :
    ∃ q sp lf lv, r.interpolateExtrapolate (.axis ⟨A * (2 * s), B * (2 * s), 2 * s⟩) = .ok q ∧ q.getSpectrum = .ok sp ∧
      sp.getData = .ok (lf, lv) ∧ lf.length = N / 2 + 1 ∧ lv.length = N / 2 + 1 ∧
      ∀ k (h1 : k < lf.length) (h2 : k < lv.length), lf[k] = k / (N * (2 * s)) ∧ lf[k] ≤ 1 / (4 * s) ∧
        lv[k] = (fourierSum lt ly lf[k] + (starRingEnd ℂ) (fourierSum lt ly (1 / (2 * s) - lf[k]))) / 2 := by
  obtain ⟨q, sp, lf, lv, e1, e2, e3, e4, e5, e6⟩ := C137_coarser r lt ly h s hs a b hab hrx 2 two_pos A B hAB (by push_cast; omega)
    (by push_cast; omega) N hN
  simp only [Nat.cast_ofNat] at e1 e6
  refine ⟨q, sp, lf, lv, e1, e2, e3, e4, e5, fun k h1 h2 => ⟨(e6 k h1 h2).1, ?_, ?_⟩⟩
  · rw [(e6 k h1 h2).1]
    have hN0 : (0 : ℝ) < N := by exact_mod_cast (by omega : 0 < N)
    have hk : (2 : ℝ) * k ≤ N := by exact_mod_cast (by omega : 2 * k ≤ N)
    rw [div_le_div_iff₀ (by positivity) (by positivity)]
    nlinarith
  · rw [(e6 k h1 h2).2, Finset.sum_range_succ, Finset.sum_range_one, Nat.cast_zero, zero_div, add_zero, Nat.cast_one]
    congr 2
    rw [show lf[k] + 1 / (2 * s) = (lf[k] - 1 / (2 * s)) + ((1 : ℤ) : ℝ) / s by
      push_cast; field_simp; ring, fourierSum_mirror h hs hab hrx, neg_sub]

/-- four samples `1, -1, 1, -1` have nothing at frequency zero; every second of them is `1, 1`, with `2` at frequency zero -/
theorem C137_alias_witness : ∃ r q : Rel ℝ ℝ, Balanced r ∧ r.x = ⟨0, 3, 1⟩ ∧ r.interpolateExtrapolate (.axis ⟨0, 2, 2⟩) = .ok q ∧
    (∃ sp lf lv, r.getSpectrum = .ok sp ∧ sp.getData = .ok (lf, lv) ∧ lv.head? = some 0) ∧
    ∃ sp lf lv, q.getSpectrum = .ok sp ∧ sp.getData = .ok (lf, lv) ∧ lv.head? = some 2 := by
  have hd : (⟨⟨0, 3, 1⟩, [1, -1, 1, -1]⟩ : Rel ℝ ℝ).getData = .ok ([0, 1, 2, 3], [1, -1, 1, -1]) := by
    refine (getData_ok_iff _ _ _).2 ⟨?_, rfl, rfl⟩
    have := array_whole (⟨0, 3, 1⟩ : Axis ℝ) 3 one_pos (by norm_num)
    rw [this]
    norm_num [List.range_succ]
  obtain ⟨q, sp, lf, lv, e1, e2, e3, e4, e5, e6⟩ := C137_coarser _ _ _ hd 1 one_pos 0 3 (by norm_num) (by norm_num) 2 two_pos 0 1 one_pos
    (by norm_num) (by norm_num) 2 (by norm_num)
  obtain ⟨sp', lf', lv', f1, f2, f3, f4, f5⟩ := C69_fourier_sum _ _ _ hd 1 one_pos 0 3 (by norm_num) rfl (by norm_num) (by norm_num) 4 (by norm_num)
  norm_num at e1
  refine ⟨_, q, (balanced_iff_getData _).2 ⟨_, hd⟩, rfl, e1, ⟨sp', lf', lv', f1, f2, ?_⟩, sp, lf, lv, e2, e3, ?_⟩
  · have := f5 0 (by omega) (by omega)
    rw [List.head?_eq_getElem?, List.getElem?_eq_getElem (by omega), this.2, this.1]
    norm_num [Finset.sum_range_succ]
  · have := e6 0 (by omega) (by omega)
    rw [List.head?_eq_getElem?, List.getElem?_eq_getElem (by omega), this.2, this.1]
    have hpi : Complex.exp (-(2 * Real.pi * Complex.I * (1 / 2))) = -1 := by
      rw [show -(2 * Real.pi * Complex.I * (1 / 2) : ℂ) = -(Real.pi * Complex.I) by ring, Complex.exp_neg, Complex.exp_pi_mul_I]; norm_num
    have hpi2 : Complex.exp (-(2 * Real.pi * Complex.I)) = 1 := by
      rw [Complex.exp_neg, Complex.exp_two_pi_mul_I]; norm_num
    have hpi3 : Complex.exp (-(2 * Real.pi * Complex.I * (3 / 2))) = -1 := by
      rw [show -(2 * Real.pi * Complex.I * (3 / 2) : ℂ) = -(2 * Real.pi * Complex.I) + -(2 * Real.pi * Complex.I * (1 / 2)) by ring,
        Complex.exp_add, hpi, hpi2]; norm_num
    norm_num [Finset.sum_range_succ, fourierSum, hpi, hpi2, hpi3]

end

end SweepDesign
