import Verif.Model.FloatSpectral
import Verif.Props.FloatSweep
import Verif.Props.FourierSum
import Verif.Lemmas.Inverse

/-!
# C133: spectra in double precision
-/

set_option linter.unusedSectionVars false

namespace SweepDesign

open Spec

section
variable {K : Type} [Field K] [LinearOrder K] [IsStrictOrderedRing K] [FloorRing K]
variable {fl : K → K} {u : K}

theorem flAxisOfArray_eq {x : List K} {dx : K} (h2 : 2 ≤ x.length) (h : flActualSample fl x = .ok dx) :
    flAxisOfArray fl x = .ok ⟨x[0], x[x.length - 1], dx⟩ := by
  unfold flAxisOfArray
  rw [h, except_bind_ok, List.head?_eq_getElem?, List.getElem?_eq_getElem (by omega), List.getLast?_eq_getElem?,
    List.getElem?_eq_getElem (by omega)]
  rfl

theorem fl_pos (hfl : RelErr fl u) (hu : u ≤ 1 / 100) {v : K} (hv : 0 < v) : 0 < fl v := by
  have := abs_le.1 (hfl v)
  rw [abs_of_pos hv] at this
  have := mul_le_mul_of_nonneg_right hu hv.le
  linarith

/-- the frequency axis of `N` samples a distance `d` apart -/
theorem flFrequency (hfl : RelErr fl u) (hu : u ≤ 1 / 100) (N : ℕ) (hN : 2 ≤ N) (d : K) (hd : 0 < d)
    (hsmall : 4 * (N * (N + 6)) * u ≤ 1) :
    ∃ f, flAxisOfArray fl (flRfftfreq fl N d) = .ok f ∧ f.start = 0 ∧
      |f.stop - (N / 2 : ℕ) * (1 / (N * d))| ≤ 4 * u * ((N / 2 : ℕ) * (1 / (N * d))) ∧
      |f.sample - 1 / (N * d)| ≤ (N + 5) * u * (1 / (N * d)) ∧
      ∀ {V : Type} (z : List V), z.length = N / 2 + 1 → flMake fl f z = .ok (f, z) := by
  have hu0 := relErr_nonneg hfl
  have hNK : (2 : K) ≤ N := by exact_mod_cast hN
  have hNd : (0 : K) < N * d := by positivity
  set v0 := 1 / ((N : K) * d) with hv0
  have hv0p : 0 < v0 := by positivity
  -- the step
  obtain ⟨a, ha, ea⟩ := hfl.factor ((N : K) * d)
  have ha' := abs_le.1 ha
  obtain ⟨b, hb, eb⟩ := hfl.factor (1 / fl ((N : K) * d))
  set v := fl (1 / fl ((N : K) * d)) with hv
  have h1a : 0 < 1 + a := by linarith [ha'.1]
  have ev : v * (1 + a) = v0 * (1 + b) := by
    rw [eb, ea, hv0]; field_simp
  have hb' := abs_le.1 hb
  have hvp : 0 < v := by
    have h1 : 0 < v0 * (1 + b) := mul_pos hv0p (by linarith [hb'.1])
    rw [← ev] at h1
    exact (pos_iff_pos_of_mul_pos h1).2 h1a
  have hvv : |v - v0| ≤ 203 / 100 * u * v0 := by
    have hvu : v ≤ 103 / 100 * v0 := by
      have h1 : v * (99 / 100) ≤ v * (1 + a) := mul_le_mul_of_nonneg_left (by linarith [ha'.1]) hvp.le
      have h2 : v0 * (1 + b) ≤ v0 * (101 / 100) := mul_le_mul_of_nonneg_left (by linarith [hb'.2]) hv0p.le
      rw [ev] at h1
      linarith
    have e : v - v0 = v0 * b - v * a := by linarith
    rw [e]
    have h1 := abs_sub (v0 * b) (v * a)
    rw [abs_mul, abs_mul, abs_of_pos hv0p, abs_of_pos hvp] at h1
    have h2 := mul_le_mul_of_nonneg_left hb hv0p.le
    have h3 := mul_le_mul hvu ha (abs_nonneg _) (by positivity)
    linarith
  have hvv' := abs_le.1 hvv
  set m := N / 2 with hm
  have hm1 : 1 ≤ m := by omega
  have hmK : (1 : K) ≤ m := by exact_mod_cast hm1
  have h2m : 2 * (m : K) ≤ N := by exact_mod_cast (by omega : 2 * m ≤ N)
  have hNu : 8 * ((N + 6) * u) ≤ 1 := by
    have h1 : 2 * (((N : K) + 6) * u) ≤ N * ((N + 6) * u) := mul_le_mul_of_nonneg_right hNK (by positivity)
    linarith
  have hlen : (flRfftfreq fl N d).length = m + 1 := by simp [flRfftfreq, hm]
  have hget : ∀ i (hi : i < (flRfftfreq fl N d).length), (flRfftfreq fl N d)[i] = fl (i * v) := by
    intro i hi; simp [flRfftfreq, hv]
  obtain ⟨dx, hdx, hdv⟩ := flActualSample_near hfl (flRfftfreq fl N d) 0 (m * u * v) v hvp.le (by omega) (by
    intro i hi
    rw [hget i hi, zero_add]
    refine (hfl _).trans ?_
    rw [abs_of_nonneg (by positivity)]
    have : (i : K) ≤ m := by exact_mod_cast (by omega : i ≤ m)
    have h1 : (i : K) * (u * v) ≤ m * (u * v) := mul_le_mul_of_nonneg_right this (by positivity)
    linarith)
  have hdv' : |dx - v| ≤ (N + 2) * u * v := by
    refine hdv.trans ?_
    have huv : 0 ≤ u * v := by positivity
    have h1 : 2 * (m : K) * (u * v) ≤ N * (u * v) := mul_le_mul_of_nonneg_right h2m huv
    have h2 : 2 * (m : K) * u ≤ 1 := by
      have : 2 * (m : K) * u ≤ N * u := mul_le_mul_of_nonneg_right h2m hu0
      linarith
    have h3 : 2 * (m : K) * u * (u * v) ≤ 1 * (u * v) := mul_le_mul_of_nonneg_right h2 huv
    linarith
  have hη : (N + 2) * u * v ≤ 1 / 8 * v := by
    refine mul_le_mul_of_nonneg_right ?_ hvp.le
    linarith
  have hdx' := abs_le.1 hdv'
  have hdxp : 0 < dx := by linarith [hdx'.1]
  obtain ⟨e, he, ee⟩ := hfl.factor ((m : K) * v)
  have he' := abs_le.1 he
  refine ⟨⟨0, fl (m * v), dx⟩, ?_, rfl, ?_, ?_, ?_⟩
  · rw [flAxisOfArray_eq (by omega) hdx, hget 0 (by omega), hget _ (by omega), hlen]
    simp [fl_zero hfl]
  · have h1 : fl (m * v) - m * v0 = m * ((v - v0) + v * e) := by rw [ee]; ring
    simp only
    rw [h1, abs_mul, abs_of_pos (by linarith : (0 : K) < m)]
    have h2 := abs_add_le (v - v0) (v * e)
    rw [abs_mul, abs_of_pos hvp] at h2
    have h3 : v * |e| ≤ 103 / 100 * v0 * u := by
      refine mul_le_mul ?_ he (abs_nonneg _) (by positivity)
      have : u * v0 ≤ 1 / 100 * v0 := mul_le_mul_of_nonneg_right hu hv0p.le
      linarith [hvv'.2]
    have h4 : |(v - v0) + v * e| ≤ 4 * u * v0 := by
      have : 0 ≤ u * v0 := by positivity
      linarith
    have := mul_le_mul_of_nonneg_left h4 (by linarith : (0 : K) ≤ m)
    linarith
  · have h1 : dx - v0 = (dx - v) + (v - v0) := by ring
    simp only
    rw [h1]
    have h2 := abs_add_le (dx - v) (v - v0)
    have h3 : ((N : K) + 2) * u * (v - v0) ≤ 1 / 8 * (203 / 100 * u * v0) := by
      calc ((N : K) + 2) * u * (v - v0) ≤ (N + 2) * u * (203 / 100 * u * v0) :=
            mul_le_mul_of_nonneg_left hvv'.2 (by positivity)
        _ ≤ 1 / 8 * (203 / 100 * u * v0) := mul_le_mul_of_nonneg_right (by linarith) (by positivity)
    have h4 : 0 ≤ u * v0 := by positivity
    linarith
  · intro V z hz
    refine flMake_stretch hfl dx 0 _ hdxp m z hz (1 / 6) ?_ ?_ (by linarith)
    · have h1 : (fl (m * v) - 0) / dx - m = m * (v * e - (dx - v)) / dx := by
        rw [ee]; field_simp; ring
      rw [h1, abs_div, abs_of_pos hdxp, div_le_iff₀ hdxp, abs_mul, abs_of_pos (by linarith : (0 : K) < m)]
      have h2 := abs_sub (v * e) (dx - v)
      rw [abs_mul, abs_of_pos hvp] at h2
      have h3 := mul_le_mul_of_nonneg_left he hvp.le
      have h4 : |v * e - (dx - v)| ≤ (N + 3) * u * v := by linarith
      have h5 : (m : K) * |v * e - (dx - v)| ≤ N / 2 * ((N + 3) * u * v) :=
        mul_le_mul (by linarith) h4 (abs_nonneg _) (by positivity)
      have h6 : (N : K) / 2 * ((N + 3) * u * v) ≤ 1 / 8 * v := by
        have : (N : K) * ((N + 3) * u) ≤ 1 / 4 := by
          have h7 : 0 ≤ (N : K) * (3 * u) := by positivity
          linarith
        have := mul_le_mul_of_nonneg_right this hvp.le
        linarith
      linarith [hdx'.1]
    · have : ((m : K) + 1) * (3 * u) ≤ 3 / 2 * ((N + 6) * u) := by
        have := mul_le_mul_of_nonneg_right h2m hu0
        linarith
      linarith

/-! ## Spectra exist -/

variable {x : Axis K} {l : List K} {n : ℕ} {M : K} {y : List ℝ}

theorem countP_neg_iff (hi : l.Pairwise (· < ·)) : ∀ i (h : i < l.length), i < (l.countP fun t => decide (t < 0)) ↔ l[i] < 0 := by
  induction l with
  | nil => intro i h; simp at h
  | cons a l ih =>
    intro i h
    have ih := ih (List.pairwise_cons.1 hi).2
    have ha := (List.pairwise_cons.1 hi).1
    by_cases h0 : a < 0
    · rw [List.countP_cons_of_pos (by simpa using h0)]
      cases i with
      | zero => simpa using h0
      | succ i => simpa using ih i (by simpa using h)
    · rw [List.countP_cons_of_neg (by simpa using h0)]
      have hz : (l.countP fun t => decide (t < 0)) = 0 := by
        rw [List.countP_eq_zero]
        intro t ht
        have := ha t ht
        simp only [decide_eq_true_eq, not_lt]
        exact (not_lt.1 h0).trans this.le
      rw [hz]
      cases i with
      | zero => simpa using h0
      | succ i =>
        have := ha _ (List.getElem_mem (by simpa using h : i < l.length))
        simp only [List.getElem_cons_succ, not_lt_zero, false_iff, not_lt]
        exact (not_lt.1 h0).trans this.le

/-- the samples before time zero come last -/
theorem flReorder_increasing {V : Type} (hx : x.flArray fl = .ok l) (hi : l.Pairwise (· < ·)) (y : List V) (hy : y.length = l.length) :
    flReorderByTime fl x y =
      .ok (y.drop (l.countP fun t => decide (t < 0)) ++ y.take (l.countP fun t => decide (t < 0))) := by
  have hlt := countP_neg_iff hi
  obtain ⟨i1, i2⟩ := maskSelect_threshold l y hy.symm (l.countP fun t => decide (t < 0)) (fun i h hm => (hlt i h).1 hm)
    (fun i h hm => not_lt.1 fun hc => absurd ((hlt i h).2 hc) (by omega))
  unfold flReorderByTime
  rw [hx, except_bind_ok, i1, except_bind_ok, i2, except_bind_ok, except_pure]

/-- what is asked of the lengths of the transforms -/
structure Spec.FftShape (F : FlFft) : Prop where
  sizeForward : ∀ a, a ≠ [] → (F.rfft a).length = a.length / 2 + 1
  sizeBackward : ∀ s n, 1 ≤ n → (F.irfft s n).length = n

/-- the frequencies of a spectrum of `N` samples a distance `d` apart: from 0, with the end right up to `4 u` and the step up to
`(N + 5) u` -/
structure Spec.FrequencyAxis (u : K) (N : ℕ) (d : K) (f : Axis K) : Prop where
  start : f.start = 0
  stop : |f.stop - (N / 2 : ℕ) * (1 / (N * d))| ≤ 4 * u * ((N / 2 : ℕ) * (1 / (N * d)))
  sample : |f.sample - 1 / (N * d)| ≤ (N + 5) * u * (1 / (N * d))

theorem flCalculate_make (hfl : RelErr fl u) (hu : u ≤ 1 / 100) {F : FlFft} (hF : FftShape F) (hs : 0 < x.sample) (a : List ℝ)
    (ha : 2 ≤ a.length) (hsmall : 4 * (a.length * (a.length + 6)) * u ≤ 1) {b : List ℝ} (hr : flReorderByTime fl x b = .ok a) :
    ∃ f, (flCalculateSpectrum fl F x b >>= fun p => flMake fl p.1 p.2) = .ok (f, F.rfft a) ∧ FrequencyAxis u a.length x.sample f := by
  obtain ⟨f, f1, f2, f3, f4, f5⟩ := flFrequency hfl hu a.length ha x.sample hs hsmall
  refine ⟨f, ?_, f2, f3, f4⟩
  unfold flCalculateSpectrum
  have hN : (0 : K) < a.length := by exact_mod_cast (by omega : 0 < a.length)
  rw [hr, except_bind_ok, if_neg (by omega), if_neg (fl_pos hfl hu (mul_pos hN hs)).ne', f1, except_bind_ok, except_pure, except_bind_ok]
  exact f5 _ (hF.sizeForward a (by intro h; rw [h] at ha; simp at ha))

/-- A signal of `n + 1` samples around time zero has a spectrum: the transform of its samples with those before time zero moved to the end,
on a frequency axis that fits. -/
theorem C133_spectrum (h : WellResolved fl u x l n M y) (h0 : x.start ≤ 0) (h1 : 0 ≤ x.stop) {F : FlFft} (hF : FftShape F)
    (hsmall : 4 * ((n + 1) * (n + 7)) * u ≤ 1) :
    ∃ f m, flGetSpectrum fl F x y = .ok (f, F.rfft (y.drop m ++ y.take m)) ∧ FrequencyAxis u (n + 1) x.sample f ∧
      m ≤ n ∧ ∀ i (hi : i < l.length), i < m ↔ l[i] < 0 := by
  have hinc := h.increasing
  set m := l.countP fun t => decide (t < 0) with hm
  have hr := flReorder_increasing h.array hinc y (by rw [h.values, h.points])
  have hlt := countP_neg_iff hinc
  obtain ⟨hlast, -⟩ := C92_points fl u h.rel h.unit x l h.array n h.many h.points M h.startBound h.stopBound
  have hmn : m ≤ n := by
    by_contra hc
    have h2 := (hlt n (by rw [h.points]; omega)).1 (by omega)
    rw [List.getLast?_eq_getElem?, h.points, Nat.add_sub_cancel, List.getElem?_eq_getElem (by rw [h.points]; omega),
      Option.some.injEq] at hlast
    rw [hlast] at h2
    exact absurd h2 (not_lt.2 h1)
  have hlen : (y.drop m ++ y.take m).length = n + 1 := by
    rw [List.length_append, List.length_drop, List.length_take, h.values]; omega
  obtain ⟨f, f1, f2⟩ := flCalculate_make h.rel h.unit hF h.positive (y.drop m ++ y.take m) (by rw [hlen]; have := h.many; omega)
    (by rw [hlen]; push_cast; linarith) hr
  refine ⟨f, m, ?_, by rwa [hlen] at f2, hmn, hlt⟩
  unfold flGetSpectrum flSignal2spectrum
  rw [if_neg (not_lt.2 h0), if_neg (not_lt.2 h1)]
  exact f1

/-- the size of an axis prolonged to time zero -/
theorem flArray_prolonged (hfl : RelErr fl u) (hu : u ≤ 1 / 100) (hs : 0 < x.sample) (hM : 128 * u * (x.stop - x.start) ≤ x.sample)
    (hlt : x.start < x.stop) :
    ∃ l, x.flArray fl = .ok l ∧ |(l.length : K) - 1 - (x.stop - x.start) / x.sample| ≤ 1 / 2 + 1 / 40 := by
  have hu0 := relErr_nonneg hfl
  set q := (x.stop - x.start) / x.sample with hq
  have hq0 : 0 < q := div_pos (by linarith) hs
  have hqu : 128 * (u * q) ≤ 1 := by
    rw [hq, mul_div_assoc', mul_div_assoc', div_le_one hs]
    linarith
  obtain ⟨a, ha, ea⟩ := hfl.factor (x.stop - x.start)
  obtain ⟨b, hb, eb⟩ := hfl.factor (fl (x.stop - x.start) / x.sample)
  have e : fl (fl (x.stop - x.start) / x.sample) = q * ((1 + a) * (1 + b)) := by rw [eb, ea, hq]; ring
  have h2 := two_factors ha hb
  have hclose : |fl (fl (x.stop - x.start) / x.sample) - q| ≤ 1 / 40 := by
    have e2 : fl (fl (x.stop - x.start) / x.sample) - q = q * ((1 + a) * (1 + b) - 1) := by rw [e]; ring
    rw [e2, abs_mul, abs_of_pos hq0]
    have h3 : u ^ 2 ≤ 1 / 100 * u := by rw [pow_two]; exact mul_le_mul_of_nonneg_right hu hu0
    have h4 := mul_le_mul_of_nonneg_left (h2.trans (by linarith : 2 * u + u ^ 2 ≤ 201 / 100 * u)) hq0.le
    linarith
  set w := fl (fl (x.stop - x.start) / x.sample) with hw
  have hw0 : 0 ≤ |w| := abs_nonneg _
  have hwq : |(|w| - q)| ≤ 1 / 40 := by
    have := abs_abs_sub_abs_le w q
    rw [abs_of_pos hq0] at this
    linarith
  refine ⟨_, by unfold Axis.flArray; rw [if_neg hs.ne'], ?_⟩
  · rw [flLinspace_length, ← hw]
    push_cast
    rw [pyRound_toNat_cast hw0, add_sub_cancel_right]
    have h5 := abs_sub_pyRound_le |w|
    rw [abs_sub_comm] at h5
    have h6 := abs_add_le ((pyRound |w| : K) - |w|) (|w| - q)
    rw [sub_add_sub_cancel] at h6
    linarith

/-- A signal that begins after time zero has the spectrum of its samples with `p` zeros before them, where `p` is `start / sample` up to
two thirds. -/
theorem C133_later (h : WellResolved fl u x l n M y) (h0 : 0 < x.start) {F : FlFft} (hF : FftShape F)
    (hsmall : 4 * ((x.stop / x.sample + 2) * (x.stop / x.sample + 8)) * u ≤ 1) :
    ∃ f p, flGetSpectrum fl F x y = .ok (f, F.rfft (List.replicate p 0 ++ y)) ∧ FrequencyAxis u (p + n + 1) x.sample f ∧
      |(p : K) - x.start / x.sample| ≤ 2 / 3 := by
  have hs := h.positive
  have hu0 := relErr_nonneg h.rel
  have hn : (1 : K) ≤ n := by exact_mod_cast h.many
  have hf := abs_le.1 h.fits
  have hns : x.sample ≤ n * x.sample := by
    have := mul_le_mul_of_nonneg_right hn hs.le
    linarith
  have hstop : 0 < x.stop := by linarith [hf.1]
  have hres : 128 * u * (x.stop - 0) ≤ x.sample := by
    rw [sub_zero]
    have h1 := h.stopBound
    rw [abs_of_pos hstop] at h1
    have := mul_le_mul_of_nonneg_left h1 (by positivity : 0 ≤ 128 * u)
    linarith [h.resolved]
  obtain ⟨t, ht, hlen⟩ := flArray_prolonged (x := ⟨0, x.stop, x.sample⟩) h.rel h.unit hs hres hstop
  simp only [sub_zero] at hlen
  have hlen' := abs_le.1 hlen
  have hq : x.start / x.sample + n - 1 / 8 ≤ x.stop / x.sample ∧ x.stop / x.sample ≤ x.start / x.sample + n + 1 / 8 := by
    constructor
    · rw [le_div_iff₀ hs]
      have : x.start / x.sample * x.sample = x.start := div_mul_cancel₀ _ hs.ne'
      linarith [hf.1]
    · rw [div_le_iff₀ hs]
      have : x.start / x.sample * x.sample = x.start := div_mul_cancel₀ _ hs.ne'
      linarith [hf.2]
  have hst : 0 < x.start / x.sample := div_pos h0 hs
  have hle : n + 1 ≤ t.length := by
    have h1 : (n : K) < t.length := by linarith [hlen'.1, hq.1]
    have : n < t.length := by exact_mod_cast h1
    omega
  obtain ⟨p, hp⟩ : ∃ p, t.length = p + n + 1 := ⟨t.length - (n + 1), by omega⟩
  have hpK : (t.length : K) = p + n + 1 := by rw [hp]; push_cast; ring
  -- the prolonged axis increases from 0
  have hinc : t.Pairwise (· < ·) := by
    refine C92_increasing fl u h.rel h.unit _ t ht (p + n) (by have := h.many; omega) hp x.stop (by simpa using hstop.le)
      (abs_of_pos hstop).le ?_
    have hpn : (0 : K) < ((p + n : ℕ) : K) := by exact_mod_cast (by have := h.many; omega : 0 < p + n)
    simp only [sub_zero]
    rw [lt_div_iff₀ hpn]
    have h1 : ((p + n : ℕ) : K) ≤ x.stop / x.sample + 1 := by push_cast; linarith [hlen'.2]
    have h2 : 16 * u * x.stop * ((p + n : ℕ) : K) ≤ 16 * u * x.stop * (x.stop / x.sample + 1) :=
      mul_le_mul_of_nonneg_left h1 (by positivity)
    have h3 : 16 * (u * (x.stop / x.sample + 1)) < 1 := by
      have h4 : 0 < x.stop / x.sample := div_pos hstop hs
      have h5 : 8 * (4 * ((x.stop / x.sample + 2) * u)) ≤ 4 * ((x.stop / x.sample + 2) * (x.stop / x.sample + 8)) * u := by
        have h6 : 0 ≤ (x.stop / x.sample + 2) * u * (x.stop / x.sample) := by positivity
        linarith
      linarith [mul_nonneg hu0 h4.le]
    have h4 := mul_lt_mul_of_pos_left h3 hstop
    linarith
  obtain ⟨-, hhead, -⟩ := C92_points fl u h.rel h.unit _ t ht (p + n) (by have := h.many; omega) hp x.stop (by simpa using hstop.le)
    (abs_of_pos hstop).le
  have hhead := hhead (fl_zero h.rel)
  have hc : (t.countP fun t => decide (t < 0)) = 0 := by
    by_contra hc
    have h1 := (countP_neg_iff hinc 0 (by omega)).1 (by omega)
    rw [List.head?_eq_getElem?, List.getElem?_eq_getElem (by omega), Option.some.injEq] at hhead
    rw [hhead] at h1
    exact lt_irrefl _ h1
  have hylen : (List.replicate p (0 : ℝ) ++ y).length = p + n + 1 := by simp [h.values]; omega
  have hr := flReorder_increasing ht hinc (List.replicate p 0 ++ y) (by rw [hylen, hp])
  rw [hc, List.drop_zero, List.take_zero, List.append_nil] at hr
  obtain ⟨f, f1, f2⟩ := flCalculate_make (x := ⟨0, x.stop, x.sample⟩) h.rel h.unit hF hs _ (by rw [hylen]; have := h.many; omega)
    (by
      rw [hylen]
      have h1 : ((p + n + 1 : ℕ) : K) ≤ x.stop / x.sample + 2 := by push_cast; linarith [hlen'.2]
      have h2 : ((p + n + 1 : ℕ) : K) * (((p + n + 1 : ℕ) : K) + 6) ≤ (x.stop / x.sample + 2) * (x.stop / x.sample + 8) :=
        mul_le_mul h1 (by linarith) (by positivity) (by have := div_pos hstop hs; linarith)
      have := mul_le_mul_of_nonneg_right (mul_le_mul_of_nonneg_left h2 (by norm_num : (0 : K) ≤ 4)) hu0
      linarith) hr
  refine ⟨f, p, ?_, by rwa [hylen] at f2, ?_⟩
  · unfold flGetSpectrum flSignal2spectrum
    rw [if_pos h0]
    simp only [ht, except_bind_ok]
    have hz : npZeros ((t.length : ℤ) - y.length) = .ok (List.replicate p 0) := by
      unfold npZeros
      rw [hp, h.values, if_neg (by push_cast; omega)]
      congr 2
      push_cast
      omega
    rw [hz, except_bind_ok]
    exact f1
  · rw [abs_le]
    constructor <;> linarith [hlen'.1, hlen'.2, hq.1, hq.2]

/-- A signal that ends before time zero has the spectrum of its samples with `p` zeros behind them, where `p` is `- stop / sample` up to
two thirds; the last of all these is moved to the front. -/
theorem C133_earlier (h : WellResolved fl u x l n M y) (h0 : x.stop < 0) {F : FlFft} (hF : FftShape F)
    (hsmall : 4 * ((-x.start / x.sample + 2) * (-x.start / x.sample + 8)) * u ≤ 1) :
    ∃ f p, flGetSpectrum fl F x y =
        .ok (f, F.rfft ((y ++ List.replicate p 0).drop (p + n) ++ (y ++ List.replicate p 0).take (p + n))) ∧
      FrequencyAxis u (p + n + 1) x.sample f ∧ |(p : K) - -x.stop / x.sample| ≤ 2 / 3 := by
  have hs := h.positive
  have hu0 := relErr_nonneg h.rel
  have hn : (1 : K) ≤ n := by exact_mod_cast h.many
  have hf := abs_le.1 h.fits
  have hns : x.sample ≤ n * x.sample := by
    have := mul_le_mul_of_nonneg_right hn hs.le
    linarith
  have hstart : x.start < 0 := by linarith [hf.1]
  have habs : |x.start| = -x.start := abs_of_neg hstart
  have hres : 128 * u * (0 - x.start) ≤ x.sample := by
    have h1 := h.startBound
    rw [habs] at h1
    have := mul_le_mul_of_nonneg_left h1 (by positivity : 0 ≤ 128 * u)
    linarith [h.resolved]
  obtain ⟨t, ht, hlen⟩ := flArray_prolonged (x := ⟨x.start, 0, x.sample⟩) h.rel h.unit hs hres hstart
  simp only [zero_sub] at hlen
  have hlen' := abs_le.1 hlen
  have hq : -x.stop / x.sample + n - 1 / 8 ≤ -x.start / x.sample ∧ -x.start / x.sample ≤ -x.stop / x.sample + n + 1 / 8 := by
    constructor
    · rw [le_div_iff₀ hs]
      have : -x.stop / x.sample * x.sample = -x.stop := div_mul_cancel₀ _ hs.ne'
      linarith [hf.1]
    · rw [div_le_iff₀ hs]
      have : -x.stop / x.sample * x.sample = -x.stop := div_mul_cancel₀ _ hs.ne'
      linarith [hf.2]
  have hst : 0 < -x.stop / x.sample := div_pos (by linarith) hs
  have hstp : 0 < -x.start / x.sample := div_pos (by linarith) hs
  have hle : n + 1 ≤ t.length := by
    have h1 : (n : K) < t.length := by linarith [hlen'.1, hq.1]
    have : n < t.length := by exact_mod_cast h1
    omega
  obtain ⟨p, hp⟩ : ∃ p, t.length = p + n + 1 := ⟨t.length - (n + 1), by omega⟩
  have hpK : (t.length : K) = p + n + 1 := by rw [hp]; push_cast; ring
  -- the prolonged axis increases to 0
  have hinc : t.Pairwise (· < ·) := by
    refine C92_increasing fl u h.rel h.unit _ t ht (p + n) (by have := h.many; omega) hp (-x.start) habs.le (by simpa using hstart.le) ?_
    have hpn : (0 : K) < ((p + n : ℕ) : K) := by exact_mod_cast (by have := h.many; omega : 0 < p + n)
    simp only [zero_sub]
    rw [lt_div_iff₀ hpn]
    have h1 : ((p + n : ℕ) : K) ≤ -x.start / x.sample + 1 := by push_cast; linarith [hlen'.2]
    have hpos : 0 < -x.start := by linarith
    have h2 : 16 * u * -x.start * ((p + n : ℕ) : K) ≤ 16 * u * -x.start * (-x.start / x.sample + 1) :=
      mul_le_mul_of_nonneg_left h1 (by positivity)
    have h3 : 16 * (u * (-x.start / x.sample + 1)) < 1 := by
      have h5 : 8 * (4 * ((-x.start / x.sample + 2) * u)) ≤ 4 * ((-x.start / x.sample + 2) * (-x.start / x.sample + 8)) * u := by
        have h6 : 0 ≤ (-x.start / x.sample + 2) * u * (-x.start / x.sample) := by positivity
        linarith
      linarith [mul_nonneg hu0 hstp.le]
    have h4 := mul_lt_mul_of_pos_left h3 hpos
    linarith
  obtain ⟨hlast, -⟩ := C92_points fl u h.rel h.unit _ t ht (p + n) (by have := h.many; omega) hp (-x.start) habs.le
    (by simpa using hstart.le)
  rw [List.getLast?_eq_getElem?, hp, Nat.add_sub_cancel, List.getElem?_eq_getElem (by omega), Option.some.injEq] at hlast
  have hc : (t.countP fun t => decide (t < 0)) = p + n := by
    have h1 := countP_neg_iff hinc
    apply le_antisymm
    · by_contra hc
      have h2 := (h1 (p + n) (by omega)).1 (by omega)
      rw [hlast] at h2
      exact lt_irrefl _ h2
    · by_contra hc
      have h2 : ¬ t[p + n - 1] < 0 := fun h3 => by
        have := (h1 (p + n - 1) (by omega)).2 h3
        omega
      have h3 := List.pairwise_iff_getElem.1 hinc (p + n - 1) (p + n) (by omega) (by omega) (by have := h.many; omega)
      rw [hlast] at h3
      exact h2 h3
  have hylen : (y ++ List.replicate p (0 : ℝ)).length = p + n + 1 := by simp [h.values]; omega
  have hr := flReorder_increasing ht hinc (y ++ List.replicate p 0) (by rw [hylen, hp])
  rw [hc] at hr
  have hlen2 : ((y ++ List.replicate p 0).drop (p + n) ++ (y ++ List.replicate p 0).take (p + n)).length = p + n + 1 := by
    rw [List.length_append, List.length_drop, List.length_take, hylen]; omega
  obtain ⟨f, f1, f2⟩ := flCalculate_make (x := ⟨x.start, 0, x.sample⟩) h.rel h.unit hF hs _ (by rw [hlen2]; have := h.many; omega)
    (by
      rw [hlen2]
      have h1 : ((p + n + 1 : ℕ) : K) ≤ -x.start / x.sample + 2 := by push_cast; linarith [hlen'.2]
      have h2 : ((p + n + 1 : ℕ) : K) * (((p + n + 1 : ℕ) : K) + 6) ≤ (-x.start / x.sample + 2) * (-x.start / x.sample + 8) :=
        mul_le_mul h1 (by linarith) (by positivity) (by linarith)
      have := mul_le_mul_of_nonneg_right (mul_le_mul_of_nonneg_left h2 (by norm_num : (0 : K) ≤ 4)) hu0
      linarith) hr
  refine ⟨f, p, ?_, by rwa [hlen2] at f2, ?_⟩
  · unfold flGetSpectrum flSignal2spectrum
    rw [if_neg (by linarith), if_pos h0]
    simp only [ht, except_bind_ok]
    have hz : npZeros ((t.length : ℤ) - y.length) = .ok (List.replicate p 0) := by
      unfold npZeros
      rw [hp, h.values, if_neg (by push_cast; omega)]
      congr 2
      push_cast
      omega
    rw [hz, except_bind_ok]
    exact f1
  · rw [abs_le]
    constructor <;> linarith [hlen'.1, hlen'.2, hq.1, hq.2]

/-! ## There and back -/

/-- what is asked of the accuracy of the transforms: each result differs from the exact one by `ε` times the norm of the exact one (the
norm of a spectrum counts the negative frequencies too) -/
structure Spec.FftErr (F : FlFft) (ε : ℝ) : Prop extends FftShape F where
  nonneg : 0 ≤ ε
  forward : ∀ a b, rfft a none = .ok b →
    ∑ k ∈ Finset.range a.length, ‖(F.rfft a).getD (min k (a.length - k)) 0 - b.getD (min k (a.length - k)) 0‖ ^ 2 ≤
      ε ^ 2 * ∑ k ∈ Finset.range a.length, ‖b.getD (min k (a.length - k)) 0‖ ^ 2
  backward : ∀ s (n : ℕ) b, 1 ≤ n → irfft s (some (n : ℤ)) = .ok b →
    ∑ j ∈ Finset.range n, ((F.irfft s n).getD j 0 - b.getD j 0) ^ 2 ≤ ε ^ 2 * ∑ j ∈ Finset.range n, b.getD j 0 ^ 2

theorem sum_sq_add_le {N : ℕ} {A B : ℕ → ℝ} {α β S : ℝ} (hα : 0 ≤ α) (hβ : 0 ≤ β) (hS : 0 ≤ S)
    (hA : ∑ i ∈ Finset.range N, A i ^ 2 ≤ α ^ 2 * S) (hB : ∑ i ∈ Finset.range N, B i ^ 2 ≤ β ^ 2 * S) :
    ∑ i ∈ Finset.range N, (A i + B i) ^ 2 ≤ (α + β) ^ 2 * S := by
  have hcs := Finset.sum_mul_sq_le_sq_mul_sq (Finset.range N) A B
  have h1 : (∑ i ∈ Finset.range N, A i * B i) ^ 2 ≤ (α * β * S) ^ 2 := by
    refine hcs.trans ((mul_le_mul hA hB (Finset.sum_nonneg fun i _ => sq_nonneg _) (by positivity)).trans_eq ?_)
    ring
  have h2 := abs_le_of_sq_le_sq h1 (by positivity)
  have e : ∑ i ∈ Finset.range N, (A i + B i) ^ 2 = ∑ i ∈ Finset.range N, A i ^ 2 + ∑ i ∈ Finset.range N, B i ^ 2 +
      2 * ∑ i ∈ Finset.range N, A i * B i := by
    rw [Finset.mul_sum, ← Finset.sum_add_distrib, ← Finset.sum_add_distrib]
    exact Finset.sum_congr rfl fun i _ => by ring
  rw [e]
  have := abs_le.1 h2
  linarith [this.2]

theorem twoSided_dist (s t : List ℂ) (n k : ℕ) (hk : k < n) :
    ‖twoSided s n k - twoSided t n k‖ ≤ ‖at0 s (min k (n - k)) - at0 t (min k (n - k))‖ := by
  unfold twoSided hermitianExt
  by_cases h1 : k = 0 ∨ 2 * k = n
  · rw [if_pos h1, if_pos h1]
    have e : min k (n - k) = k := by omega
    rw [e, ← Complex.ofReal_sub, ← Complex.sub_re, Complex.norm_real]
    exact Complex.abs_re_le_norm _
  · rw [if_neg h1, if_neg h1]
    by_cases h2 : 2 * k ≤ n
    · rw [if_pos h2, if_pos h2, show min k (n - k) = k by omega]
    · rw [if_neg h2, if_neg h2, show min k (n - k) = n - k by omega, ← map_sub, RCLike.norm_conj]

/-- back and forth through the transforms -/
theorem fft_round_trip {F : FlFft} {ε : ℝ} (hF : FftErr F ε) (a : List ℝ) (ha : a ≠ []) :
    ∑ i ∈ Finset.range a.length, ((F.irfft (F.rfft a) a.length).getD i 0 - a.getD i 0) ^ 2 ≤
      (ε * (2 + ε)) ^ 2 * ∑ i ∈ Finset.range a.length, a.getD i 0 ^ 2 := by
  set N := a.length with hNdef
  have hN : 0 < N := List.length_pos_iff.2 ha
  have hε := hF.nonneg
  set S := ∑ i ∈ Finset.range N, a.getD i 0 ^ 2 with hS
  have hS0 : 0 ≤ S := Finset.sum_nonneg fun i _ => sq_nonneg _
  have hr := rfft_eq a N hN none rfl
  set b := (List.range (N / 2 + 1)).map fun k : ℕ => dft N (at0 a) k with hb
  have hbk : ∀ k : ℕ, 2 * k ≤ N → at0 b k = dft N (at0 a) k := by
    intro k hk
    show b.getD k 0 = _
    rw [hb, getD_lt _ _ _ (by simp; omega)]
    simp
  have hf := hF.forward a b hr
  obtain ⟨w, w1, w2, w3⟩ := dft_irfft (F.rfft a) N hN (some (N : ℤ)) rfl
  have hback := hF.backward (F.rfft a) N w hN w1
  obtain ⟨v, v1, v2, v3⟩ := dft_irfft b N hN (some (N : ℤ)) rfl
  have hv := irfft_dft (at0 a) N hN 0 b (some (N : ℤ)) rfl (fun k hk => by rw [hbk k hk]; simp [unitRoot])
  have hva : ∀ j < N, at0 v j = at0 a j := by
    intro j hj
    rw [v1, Except.ok.injEq] at hv
    rw [hv]
    show List.getD _ j 0 = _
    rw [getD_lt _ _ _ (by simpa using hj)]
    simp only [List.getElem_map, List.getElem_range, sub_zero]
    rw [Int.emod_eq_of_lt (by omega) (by omega), Int.toNat_natCast]
  -- the error of the forward transform
  have hsum : ∑ k ∈ Finset.range N, ‖b.getD (min k (N - k)) 0‖ ^ 2 = N * S := by
    rw [hS, ← dft_parseval N hN (fun j => a.getD j 0)]
    refine Finset.sum_congr rfl fun k hk => ?_
    have hk := Finset.mem_range.1 hk
    by_cases h2 : 2 * k ≤ N
    · rw [show min k (N - k) = k by omega]
      have : b.getD k 0 = _ := hbk k h2
      rw [this]
      rfl
    · rw [show min k (N - k) = N - k by omega]
      have : b.getD (N - k) 0 = _ := hbk (N - k) (by omega)
      rw [this, ← dft_conj N hN, RCLike.norm_conj]
      congr 3
      rw [Nat.cast_sub (by omega)]
      ring
  rw [← hNdef, hsum] at hf
  have hNR : (0 : ℝ) < N := by exact_mod_cast hN
  have h1 : ∑ j ∈ Finset.range N, (w.getD j 0 - a.getD j 0) ^ 2 ≤ ε ^ 2 * S := by
    have hp := dft_parseval N hN (fun j => (-1) * at0 v j + at0 w j)
    have hle : ∑ k ∈ Finset.range N, ‖dft N (fun j => (-1) * at0 v j + at0 w j) k‖ ^ 2 ≤ ε ^ 2 * (N * S) := by
      refine le_trans (Finset.sum_le_sum fun k hk => ?_) hf
      have hk := Finset.mem_range.1 hk
      rw [dft_linear, w3 k hk, v3 k hk]
      have := twoSided_dist (F.rfft a) b N k hk
      rw [show ((-1 : ℝ) : ℂ) * twoSided b N k + twoSided (F.rfft a) N k = twoSided (F.rfft a) N k - twoSided b N k by push_cast; ring]
      exact pow_le_pow_left₀ (norm_nonneg _) this 2
    rw [hp] at hle
    have e : ∑ j ∈ Finset.range N, (w.getD j 0 - a.getD j 0) ^ 2 = ∑ j ∈ Finset.range N, ((-1) * at0 v j + at0 w j) ^ 2 := by
      refine Finset.sum_congr rfl fun j hj => ?_
      rw [hva j (Finset.mem_range.1 hj)]
      show _ = (-1 * a.getD j 0 + w.getD j 0) ^ 2
      ring
    rw [e]
    have : (N : ℝ) * ∑ j ∈ Finset.range N, ((-1) * at0 v j + at0 w j) ^ 2 ≤ N * (ε ^ 2 * S) := by linarith
    exact le_of_mul_le_mul_left this hNR
  have h2 : ∑ j ∈ Finset.range N, w.getD j 0 ^ 2 ≤ (1 + ε) ^ 2 * S := by
    have := sum_sq_add_le (N := N) (A := fun j => a.getD j 0) (B := fun j => w.getD j 0 - a.getD j 0) zero_le_one hε hS0
      (by rw [one_pow, one_mul]) h1
    simpa using this
  have h3 : ∑ j ∈ Finset.range N, ((F.irfft (F.rfft a) N).getD j 0 - w.getD j 0) ^ 2 ≤ (ε * (1 + ε)) ^ 2 * S := by
    refine hback.trans ?_
    rw [mul_pow, mul_assoc]
    exact mul_le_mul_of_nonneg_left h2 (sq_nonneg _)
  have h4 := sum_sq_add_le (by positivity) hε hS0 h3 h1
  simp only [sub_add_sub_cancel] at h4
  rw [show ε * (1 + ε) + ε = ε * (2 + ε) by ring] at h4
  exact h4

theorem flReorder_nonneg {V : Type} (hx : x.flArray fl = .ok l) (hi : ∀ i (h : i < l.length), 0 ≤ l[i]) (y : List V)
    (hy : y.length = l.length) : flReorderByTime fl x y = .ok y := by
  obtain ⟨i1, i2⟩ := maskSelect_threshold l y hy.symm 0 (fun i h hm => by omega) (fun i h _ => hi i h)
  unfold flReorderByTime
  rw [hx, except_bind_ok, i1, except_bind_ok, i2, except_bind_ok, except_pure, List.drop_zero, List.take_zero, List.append_nil]

theorem fl_nonneg' (hfl : RelErr fl u) (hu : u ≤ 1 / 100) {v : K} (hv : 0 ≤ v) : 0 ≤ fl v := by
  rcases hv.eq_or_lt with h | h
  · rw [← h, fl_zero hfl]
  · exact (fl_pos hfl hu h).le

theorem flArray_nonneg (hfl : RelErr fl u) (hu : u ≤ 1 / 100) (h0 : x.start = 0) (h1 : 0 ≤ x.stop) (hx : x.flArray fl = .ok l) :
    ∀ i (h : i < l.length), 0 ≤ l[i] := by
  intro i h
  obtain ⟨-, hl⟩ := flArray_ok hx
  have e : l[i] = (flLinspace fl x.start x.stop l.length)[i]'(by rw [flLinspace_length]; exact h) := by simp only [← hl]
  rw [e]
  unfold flLinspace
  rw [h0]
  have hd : 0 ≤ fl (x.stop - 0) := fl_nonneg' hfl hu (by linarith)
  by_cases h2 : l.length ≤ 1
  · simp [if_pos h2]
  · have hc : (0 : K) < (l.length : K) - 1 := by
      have : (1 : K) < l.length := by exact_mod_cast (by omega : 1 < l.length)
      linarith
    simp only [if_neg h2, List.getElem_map, List.getElem_range, add_zero]
    split_ifs
    · exact h1
    · exact fl_nonneg' hfl hu (fl_nonneg' hfl hu (mul_nonneg (fl_nonneg' hfl hu (by positivity)) hd))
    · exact fl_nonneg' hfl hu (fl_nonneg' hfl hu (mul_nonneg (by positivity) (fl_nonneg' hfl hu (by positivity))))

theorem getD_drop_take {N m : ℕ} (hm : m ≤ N) (w : List ℝ) (hw : w.length = N) (i : ℕ) :
    (i < N - m → (w.drop m ++ w.take m).getD i 0 = w.getD (m + i) 0) ∧
      (i < m → (w.drop m ++ w.take m).getD (N - m + i) 0 = w.getD i 0) := by
  constructor <;> intro hi
  · rw [getD_lt _ _ _ (by simp; omega), getD_lt _ _ _ (by omega), List.getElem_append_left (by simp; omega), List.getElem_drop]
  · rw [getD_lt _ _ _ (by simp; omega), getD_lt _ _ _ (by omega), List.getElem_append_right (by simp; omega)]
    simp [hw]

/-- a rotation of both lists leaves the error the same -/
theorem sum_sq_rotated {N m : ℕ} (hm : m ≤ N) (w z : List ℝ) (hw : w.length = N) (hz : z.length = N) :
    ∑ i ∈ Finset.range N, ((w.drop m ++ w.take m).getD i 0 - (z.drop m ++ z.take m).getD i 0) ^ 2 =
      ∑ i ∈ Finset.range N, (w.getD i 0 - z.getD i 0) ^ 2 := by
  obtain ⟨c, rfl⟩ := Nat.exists_eq_add_of_le hm
  conv_lhs => rw [add_comm m c]
  rw [Finset.sum_range_add, Finset.sum_range_add, add_comm]
  congr 1
  · refine Finset.sum_congr rfl fun i hi => ?_
    have h1 := (getD_drop_take hm w hw i).2 (Finset.mem_range.1 hi)
    have h2 := (getD_drop_take hm z hz i).2 (Finset.mem_range.1 hi)
    rw [show m + c - m + i = c + i by omega] at h1 h2
    rw [h1, h2]
  · refine Finset.sum_congr rfl fun i hi => ?_
    have hi := Finset.mem_range.1 hi
    rw [(getD_drop_take hm w hw i).1 (by omega), (getD_drop_take hm z hz i).1 (by omega)]

/-- The spectrum of a signal around time zero, turned back into a signal on the same time axis: `m` samples lie before time zero, and the
samples return rotated by `2 m`, up to `ε (2 + ε)` times their norm. -/
theorem C133_rotated (h : WellResolved fl u x l n M y) (h0 : x.start ≤ 0) (h1 : 0 ≤ x.stop) {F : FlFft} {ε : ℝ} (hF : FftErr F ε)
    (hsmall : 4 * ((n + 1) * (n + 7)) * u ≤ 1) :
    ∃ f s y' m, flGetSpectrum fl F x y = .ok (f, s) ∧ flGetSignalOn fl F s x = .ok (x, y') ∧ y'.length = n + 1 ∧
      (∀ i (hi : i < l.length), i < m ↔ l[i] < 0) ∧ m ≤ n ∧
      ∑ i ∈ Finset.range (n + 1), (y'.getD i 0 - (y.rotate (2 * m)).getD i 0) ^ 2 ≤
        (ε * (2 + ε)) ^ 2 * ∑ i ∈ Finset.range (n + 1), y.getD i 0 ^ 2 := by
  obtain ⟨f, m, f1, -, hmn, hm⟩ := C133_spectrum h h0 h1 hF.toFftShape hsmall
  have hmc : m = l.countP fun t => decide (t < 0) := by
    have h2 := countP_neg_iff h.increasing
    have hl := h.points
    have hc : (l.countP fun t => decide (t < 0)) ≤ l.length := List.countP_le_length
    apply le_antisymm
    · by_contra hc
      have h3 := (h2 (l.countP fun t => decide (t < 0)) (by omega)).2 ((hm _ (by omega)).1 (by omega))
      omega
    · by_contra hc
      have h3 := (hm m (by omega)).2 ((h2 m (by omega)).1 (by omega))
      omega
  have hyl := h.values
  set z := y.drop m ++ y.take m with hz
  have hzl : z.length = n + 1 := by simp [hz, hyl]; omega
  have hz0 : z ≠ [] := by intro hc; rw [hc] at hzl; simp at hzl
  set w := F.irfft (F.rfft z) (n + 1) with hw
  have hwl : w.length = n + 1 := hF.sizeBackward _ _ (by omega)
  have hrot : y.rotate (2 * m) = z.drop m ++ z.take m := by
    have e1 : z = y.rotate m := by rw [hz, List.rotate_eq_drop_append_take (by omega)]
    rw [← List.rotate_eq_drop_append_take (by omega), e1, List.rotate_rotate, two_mul]
  refine ⟨f, _, w.drop m ++ w.take m, m, f1, ?_, by simp [hwl]; omega, hm, hmn, ?_⟩
  · unfold flGetSignalOn
    rw [h.array, except_bind_ok, h.points, ← hw, flReorder_increasing h.array h.increasing w (by rw [hwl, h.points]), ← hmc,
      except_bind_ok]
    unfold flMake
    rw [h.array, except_bind_ok, h.points, if_neg (by simp [hwl]; omega)]
    rfl
  · rw [hrot, sum_sq_rotated (by omega) w z hwl hzl]
    have h5 := fft_round_trip hF z hz0
    rw [hzl] at h5
    refine h5.trans (mul_le_mul_of_nonneg_left ?_ (sq_nonneg _))
    have h6 := sum_sq_rotated (N := n + 1) (m := m) (by omega) y (List.replicate (n + 1) 0) hyl (by simp)
    have h7 : ∀ k : ℕ, ∀ i, (List.replicate k (0 : ℝ)).getD i 0 = 0 := by
      intro k i
      by_cases hi : i < k
      · rw [getD_lt _ _ _ (by simpa using hi), List.getElem_replicate]
      · simp [List.getD_eq_getElem?_getD, List.getElem?_eq_none (show (List.replicate k (0 : ℝ)).length ≤ i by simpa using hi)]
    have e : (List.replicate (n + 1) (0 : ℝ)).drop m ++ (List.replicate (n + 1) (0 : ℝ)).take m = List.replicate (n + 1) 0 := by
      rw [List.drop_replicate, List.take_replicate, ← List.replicate_add]
      congr 1
      omega
    rw [e] at h6
    simp only [h7, sub_zero] at h6
    exact h6.le

/-- The spectrum of a signal that begins at time 0, turned back into a signal on the same time axis: the samples return up to
`ε (2 + ε)` times their norm. -/
theorem C133_round_trip (h : WellResolved fl u x l n M y) (h0 : x.start = 0) {F : FlFft} {ε : ℝ} (hF : FftErr F ε)
    (hsmall : 4 * ((n + 1) * (n + 7)) * u ≤ 1) :
    ∃ f s y', flGetSpectrum fl F x y = .ok (f, s) ∧ flGetSignalOn fl F s x = .ok (x, y') ∧ y'.length = n + 1 ∧
      ∑ i ∈ Finset.range (n + 1), (y'.getD i 0 - y.getD i 0) ^ 2 ≤
        (ε * (2 + ε)) ^ 2 * ∑ i ∈ Finset.range (n + 1), y.getD i 0 ^ 2 := by
  have hstop : 0 ≤ x.stop := by
    have hs := h.positive
    have := mul_le_mul_of_nonneg_right (by exact_mod_cast h.many : (1 : K) ≤ n) hs.le
    linarith [(abs_le.1 h.fits).1]
  have hnn := flArray_nonneg h.rel h.unit h0 hstop h.array
  obtain ⟨f, m, f1, -, hmn, hm⟩ := C133_spectrum h h0.le hstop hF.toFftShape hsmall
  have hm0 : m = 0 := by
    by_contra hc
    exact absurd ((hm 0 (by rw [h.points]; omega)).1 (by omega)) (not_lt.2 (hnn 0 _))
  rw [hm0, List.drop_zero, List.take_zero, List.append_nil] at f1
  have hlen : (F.irfft (F.rfft y) (n + 1)).length = n + 1 := hF.sizeBackward _ _ (by omega)
  refine ⟨f, _, F.irfft (F.rfft y) (n + 1), f1, ?_, hlen, ?_⟩
  · unfold flGetSignalOn
    rw [h.array, except_bind_ok, h.points, flReorder_nonneg h.array hnn _ (by rw [hlen, h.points]), except_bind_ok]
    unfold flMake
    rw [h.array, except_bind_ok, h.points, hlen, if_neg (by simp)]
    rfl
  · have := fft_round_trip hF y (by intro hc; have := h.values; rw [hc] at this; simp at this)
    rwa [h.values] at this

/-- Without naming a time axis: a signal of an even number of samples from time 0 returns with that many samples, again from time 0, with
its step right up to `8 u` and the same error of the samples. -/
theorem C133_default (h : WellResolved fl u x l n M y) (h0 : x.start = 0) {F : FlFft} {ε : ℝ} (hF : FftErr F ε)
    (hsmall : 4 * ((n + 1) * (n + 7)) * u ≤ 1) (heven : Even (n + 1)) :
    ∃ f s x' y', flGetSpectrum fl F x y = .ok (f, s) ∧ flGetSignal fl F f s = .ok (x', y') ∧ x'.start = 0 ∧
      |x'.sample - x.sample| ≤ 8 * u * x.sample ∧ y'.length = n + 1 ∧
      ∑ i ∈ Finset.range (n + 1), (y'.getD i 0 - y.getD i 0) ^ 2 ≤
        (ε * (2 + ε)) ^ 2 * ∑ i ∈ Finset.range (n + 1), y.getD i 0 ^ 2 := by
  have hs := h.positive
  have hu0 := relErr_nonneg h.rel
  have hu := h.unit
  have hn : (1 : K) ≤ n := by exact_mod_cast h.many
  have hstop : 0 ≤ x.stop := by
    have := mul_le_mul_of_nonneg_right hn hs.le
    linarith [(abs_le.1 h.fits).1]
  have hnn := flArray_nonneg h.rel h.unit h0 hstop h.array
  obtain ⟨f, m, f1, f2, hmn, hm⟩ := C133_spectrum h h0.le hstop hF.toFftShape hsmall
  have hm0 : m = 0 := by
    by_contra hc
    exact absurd ((hm 0 (by rw [h.points]; omega)).1 (by omega)) (not_lt.2 (hnn 0 _))
  rw [hm0, List.drop_zero, List.take_zero, List.append_nil] at f1
  have hy0 : y ≠ [] := by intro hc; have := h.values; rw [hc] at this; simp at this
  have hslen : (F.rfft y).length = (n + 1) / 2 + 1 := by rw [hF.sizeForward y hy0, h.values]
  obtain ⟨c, hc⟩ := heven
  have hc1 : 1 ≤ c := by omega
  have hlen : (F.irfft (F.rfft y) (n + 1)).length = n + 1 := hF.sizeBackward _ _ (by omega)
  -- the end of the frequency axis
  have hN : (n : K) + 1 = 2 * c := by exact_mod_cast (by omega : n + 1 = 2 * c)
  have hcK : (1 : K) ≤ c := by exact_mod_cast hc1
  have hfs := f2.stop
  rw [show (n + 1) / 2 = c by omega, show (((n + 1 : ℕ) : K)) = 2 * c by push_cast; exact hN,
    show (c : K) * (1 / (2 * c * x.sample)) = 1 / (2 * x.sample) by field_simp] at hfs
  set r := 1 / (2 * x.sample) with hr
  have hr0 : 0 < r := by positivity
  have hfs' := abs_le.1 hfs
  have hur : u * r ≤ 1 / 100 * r := mul_le_mul_of_nonneg_right hu hr0.le
  have hfpos : 0 < f.stop := by linarith [hfs'.1]
  obtain ⟨x', g1, g2, g3, g4⟩ := C96_signal h.rel h.unit f (by rw [f2.start]; exact hfpos) none (n + 1) (by omega)
    (by
      have h5 : 16 * (((n + 1 : ℕ) : K)) * u ≤ 4 * ((n + 1) * (n + 7)) * u := by
        have : 0 ≤ ((n : K) + 1) * (n + 3) * u := by positivity
        push_cast
        linarith
      linarith) _ rfl (by simp) (F.irfft (F.rfft y) (n + 1)) hlen
  obtain ⟨l', hl', hl2⟩ := show ∃ l', x'.flArray fl = .ok l' ∧ l'.length = n + 1 by
    unfold flMake at g4
    cases hl : x'.flArray fl with
    | error e => rw [hl] at g4; exact absurd g4 (by simp [Bind.bind, Except.bind])
    | ok l' =>
      rw [hl, except_bind_ok] at g4
      refine ⟨l', rfl, ?_⟩
      by_contra hne
      rw [if_pos (by rw [hlen]; exact hne)] at g4
      exact absurd g4 (by simp)
  simp only [Option.getD_none] at g3
  have hx'stop : 0 ≤ x'.stop := by
    unfold flSignalTime at g1
    dsimp only at g1
    split_ifs at g1 with hw
    simp only [Except.ok.injEq] at g1
    rw [← g1]
    refine fl_nonneg' h.rel hu (mul_nonneg (by push_cast; linarith) (fl_nonneg' h.rel hu (div_nonneg zero_le_one ?_)))
    exact fl_nonneg' h.rel hu (mul_nonneg two_pos.le (fl_nonneg' h.rel hu (by rw [f2.start]; linarith)))
  refine ⟨f, _, x', F.irfft (F.rfft y) (n + 1), f1, ?_, g3, ?_, hlen, ?_⟩
  · unfold flGetSignal
    rw [if_neg (by rw [hslen]; omega), hslen, show 2 * ((n + 1) / 2 + 1 - 1) = n + 1 by omega]
    simp only [hlen, g1, except_bind_ok]
    rw [flReorder_nonneg hl' (flArray_nonneg h.rel hu g3 hx'stop hl') _ (by rw [hlen, hl2]), except_bind_ok]
    exact g4
  · rw [g2, f2.start, sub_zero]
    obtain ⟨a, ha, ea⟩ := h.rel.factor f.stop
    obtain ⟨b, hb, eb⟩ := h.rel.factor (2 * fl f.stop)
    obtain ⟨d, hd, ed⟩ := h.rel.factor (1 / fl (2 * fl f.stop))
    set e := f.stop / r - 1 with he
    have hfe : f.stop = r * (1 + e) := by rw [he]; field_simp; ring
    have he4 : |e| ≤ 4 * u := by
      have e1 : f.stop - r = r * e := by rw [hfe]; ring
      rw [e1, abs_mul, abs_of_pos hr0] at hfs
      have : r * |e| ≤ r * (4 * u) := by linarith
      exact le_of_mul_le_mul_left this hr0
    have hD : |(1 + e) * ((1 + a) * (1 + b)) - 1| ≤ 61 / 10 * u := by
      have h2 := two_factors ha hb
      have hsq : u ^ 2 ≤ 1 / 100 * u := by rw [pow_two]; exact mul_le_mul_of_nonneg_right hu hu0
      have h2' : |(1 + a) * (1 + b) - 1| ≤ 201 / 100 * u := by linarith
      have e1 : (1 + e) * ((1 + a) * (1 + b)) - 1 = e + ((1 + a) * (1 + b) - 1) + e * ((1 + a) * (1 + b) - 1) := by ring
      rw [e1]
      have h3 : |e * ((1 + a) * (1 + b) - 1)| ≤ 4 * u * (201 / 100 * u) := by
        rw [abs_mul]
        exact mul_le_mul he4 h2' (abs_nonneg _) (by positivity)
      have h4 := abs_add_le (e + ((1 + a) * (1 + b) - 1)) (e * ((1 + a) * (1 + b) - 1))
      have h5 := abs_add_le e ((1 + a) * (1 + b) - 1)
      linarith
    set D := (1 + e) * ((1 + a) * (1 + b)) with hDdef
    have hD' := abs_le.1 hD
    have hD0 : 9 / 10 < D := by linarith
    have hval : fl (1 / fl (2 * fl f.stop)) = x.sample * ((1 + d) / D) := by
      have e1 : fl (2 * fl f.stop) = D / x.sample := by rw [eb, ea, hfe, hDdef, hr]; field_simp
      rw [ed, e1]
      field_simp
    have e2 : fl (1 / fl (2 * fl f.stop)) - x.sample = x.sample * ((d - (D - 1)) / D) := by rw [hval]; field_simp; ring
    rw [e2, abs_mul, abs_of_pos hs, abs_div, abs_of_pos (by linarith : 0 < D)]
    have h6 : |d - (D - 1)| ≤ 8 * u * D := by
      have := abs_sub d (D - 1)
      have h7 : 8 * u * (939 / 1000) ≤ 8 * u * D := mul_le_mul_of_nonneg_left (by linarith) (by positivity)
      linarith
    have h8 : |d - (D - 1)| / D ≤ 8 * u := by rwa [div_le_iff₀ (by linarith)]
    have := mul_le_mul_of_nonneg_left h8 hs.le
    linarith
  · have := fft_round_trip hF y hy0
    rwa [h.values] at this

end

/-! ## Doubles -/

/-- With doubles: a signal of at most 33554432 samples from time 0 has a spectrum on a frequency axis that fits, and the spectrum gives the
samples back up to the errors of the transforms. -/
theorem C133_double (x : Axis ℚ) (h0 : x.start = 0) (hs : 0 < x.sample) (n : ℕ) (hn1 : 1 ≤ n) (hn : n < 2 ^ 25)
    (hfits : |x.stop - n * x.sample| ≤ x.sample / 8) (y : List ℝ) (hy : y.length = n + 1) {F : FlFft} {ε : ℝ} (hF : FftErr F ε) :
    ∃ f s y', flGetSpectrum fl64 F x y = .ok (f, s) ∧ FrequencyAxis (2 ^ (-53 : ℤ)) (n + 1) x.sample f ∧ s = F.rfft y ∧
      flGetSignalOn fl64 F s x = .ok (x, y') ∧ y'.length = n + 1 ∧
      ∑ i ∈ Finset.range (n + 1), (y'.getD i 0 - y.getD i 0) ^ 2 ≤
        (ε * (2 + ε)) ^ 2 * ∑ i ∈ Finset.range (n + 1), y.getD i 0 ^ 2 := by
  obtain ⟨l, hl, hl2⟩ := C92_size_double x hs.ne' n (by omega) (by rw [h0, zero_add, abs_of_pos hs]; linarith)
  have hnK : (n : ℚ) + 1 ≤ 2 ^ 25 := by exact_mod_cast hn
  have hf := abs_le.1 hfits
  have hns : (n : ℚ) * x.sample ≤ 2 ^ 25 * x.sample := mul_le_mul_of_nonneg_right (by linarith) hs.le
  have h1s : x.sample ≤ n * x.sample := by
    have := mul_le_mul_of_nonneg_right (by exact_mod_cast hn1 : (1 : ℚ) ≤ n) hs.le
    linarith
  have hstop : 0 < x.stop := by linarith [hf.1]
  have h : WellResolved fl64 (2 ^ (-53 : ℤ)) x l n x.stop y :=
    { rel := fl64_relErr
      unit := by norm_num
      array := hl
      many := hn1
      points := hl2
      values := hy
      startBound := by rw [h0, abs_zero]; exact hstop.le
      stopBound := (abs_of_pos hstop).le
      fits := by rw [h0, zero_add]; exact hfits
      resolved := by norm_num; linarith [hf.2]
      positive := hs }
  have hsmall : 4 * (((n : ℚ) + 1) * (n + 7)) * 2 ^ (-53 : ℤ) ≤ 1 := by
    have := mul_le_mul hnK (by linarith : (n : ℚ) + 7 ≤ 2 ^ 25 + 6) (by positivity) (by norm_num)
    norm_num at this ⊢
    linarith
  obtain ⟨f, s, y', f1, f2, f3, f4⟩ := C133_round_trip h h0 hF hsmall
  obtain ⟨f', m, e1, e2, -, e4⟩ := C133_spectrum h h0.le hstop.le hF.toFftShape hsmall
  have hnn := flArray_nonneg h.rel h.unit h0 hstop.le h.array
  have hm0 : m = 0 := by
    by_contra hc
    exact absurd ((e4 0 (by rw [h.points]; omega)).1 (by omega)) (not_lt.2 (hnn 0 _))
  rw [f1, hm0, List.drop_zero, List.take_zero, List.append_nil] at e1
  obtain ⟨rfl, e5⟩ := Prod.mk.inj (Except.ok.inj e1)
  exact ⟨f, s, y', f1, e2, e5, f2, f3, f4⟩

/-! ## Transforms with such an error -/

/-- the exact transforms, with results a factor `1 + ε` too large -/
noncomputable def Spec.scaledFft (ε : ℝ) : FlFft where
  rfft a := match rfft a none with
    | .ok b => b.map fun z => (1 + ε : ℝ) * z
    | .error _ => []
  irfft s n := match irfft s (some (n : ℤ)) with
    | .ok b => b.map fun v => (1 + ε) * v
    | .error _ => []

theorem getD_map_mul {V : Type} [MulZeroClass V] (l : List V) (c : V) (i : ℕ) : (l.map fun v => c * v).getD i 0 = c * l.getD i 0 := by
  by_cases h : i < l.length
  · rw [getD_lt _ _ _ (by simpa using h), getD_lt _ _ _ h, List.getElem_map]
  · simp [List.getD_eq_getElem?_getD, List.getElem?_eq_none (not_lt.1 h)]

theorem scaledFft_err (ε : ℝ) (hε : 0 ≤ ε) : FftErr (scaledFft ε) ε where
  nonneg := hε
  sizeForward a ha := by
    have h := rfft_eq a a.length (List.length_pos_iff.2 ha) none rfl
    simp [scaledFft, h]
  sizeBackward s n hn := by
    obtain ⟨w, h, hl⟩ := irfft_length s n hn
    simp [scaledFft, h, hl]
  forward a b hb := by
    rw [Finset.mul_sum]
    refine (Finset.sum_congr rfl fun k _ => ?_).le
    simp only [scaledFft, hb, getD_map_mul]
    rw [show ((1 + ε : ℝ) : ℂ) * b.getD (min k (a.length - k)) 0 - b.getD (min k (a.length - k)) 0 = (ε : ℂ) * b.getD (min k (a.length - k)) 0 by
      push_cast; ring, norm_mul, mul_pow, Complex.norm_real, Real.norm_eq_abs, sq_abs]
  backward s n b hn hb := by
    rw [Finset.mul_sum]
    refine (Finset.sum_congr rfl fun k _ => ?_).le
    simp only [scaledFft, hb, getD_map_mul]
    ring

/-- The bound cannot be improved: with these transforms the samples return multiplied by `(1 + ε)²`, and the two sides are equal. -/
theorem C133_sharp (ε : ℝ) (a : List ℝ) (ha : a ≠ []) :
    ∑ i ∈ Finset.range a.length, (((scaledFft ε).irfft ((scaledFft ε).rfft a) a.length).getD i 0 - a.getD i 0) ^ 2 =
      (ε * (2 + ε)) ^ 2 * ∑ i ∈ Finset.range a.length, a.getD i 0 ^ 2 := by
  set N := a.length with hNdef
  have hN : 0 < N := List.length_pos_iff.2 ha
  have hr := rfft_eq a N hN none rfl
  set b := (List.range (N / 2 + 1)).map fun k : ℕ => dft N (at0 a) k with hb
  have e1 : (scaledFft ε).rfft a = b.map fun z : ℂ => ((1 + ε : ℝ) : ℂ) * z := by simp only [scaledFft, hr]
  have h2 := irfft_dft (fun j => (1 + ε) * at0 a j + 0) N hN 0 (b.map fun z : ℂ => ((1 + ε : ℝ) : ℂ) * z) (some (N : ℤ)) rfl (fun k hk => by
    have h3 := dft_linear N (at0 a) (fun _ => 0) (1 + ε) k
    have h4 : dft N (fun _ => 0) (k : ℤ) = 0 := by simp [dft]
    rw [h4] at h3
    rw [h3]
    show List.getD _ k 0 = _
    rw [getD_map_mul, hb, getD_lt _ _ _ (by simp; omega)]
    simp [unitRoot])
  rw [Finset.mul_sum]
  refine Finset.sum_congr rfl fun i hi => ?_
  have hi := Finset.mem_range.1 hi
  rw [e1]
  simp only [scaledFft, h2, getD_map_mul]
  rw [getD_lt _ _ _ (by simpa using hi)]
  simp only [List.getElem_map, List.getElem_range, sub_zero, add_zero]
  rw [Int.emod_eq_of_lt (by omega) (by omega), Int.toNat_natCast]
  show ((1 + ε) * ((1 + ε) * a.getD i 0) - a.getD i 0) ^ 2 = _
  ring

/-- eleven samples there and back, with transforms that are a little wrong -/
example : ∃ f s y', flGetSpectrum fl64 (scaledFft (2 ^ (-50 : ℤ))) ⟨0, 1, fl64 (1 / 10)⟩ (List.replicate 11 3) = .ok (f, s) ∧
    flGetSignalOn fl64 (scaledFft (2 ^ (-50 : ℤ))) s ⟨0, 1, fl64 (1 / 10)⟩ = .ok (⟨0, 1, fl64 (1 / 10)⟩, y') ∧ y'.length = 11 := by
  obtain ⟨f, s, y', h1, -, -, h2, h3, -⟩ := C133_double ⟨0, 1, fl64 (1 / 10)⟩ rfl (by decide +kernel) 10 (by norm_num) (by norm_num)
    (by decide +kernel) (List.replicate 11 3) rfl (scaledFft_err (2 ^ (-50 : ℤ)) (by positivity))
  exact ⟨f, s, y', h1, h2, h3⟩

theorem eighths_values (y : List ℝ) (hy : y.length = 8) :
    WellResolved fl64 (2 ^ (-53 : ℤ)) ⟨0, 7 / 8, 1 / 8⟩ (flLinspace fl64 0 (7 / 8) 8) 7 1 y where
  rel := fl64_relErr
  unit := by norm_num
  array := by decide +kernel
  many := by norm_num
  points := flLinspace_length _ _ _ _
  values := hy
  startBound := by norm_num
  stopBound := by norm_num [abs_le]
  fits := by norm_num
  resolved := by norm_num
  positive := by norm_num

/-- eight samples from time 0 keep their axis -/
example : ∃ f s x' y', flGetSpectrum fl64 (scaledFft 0) ⟨0, 7 / 8, 1 / 8⟩ [3, 1, 4, 1, 5, 9, 2, 6] = .ok (f, s) ∧
    flGetSignal fl64 (scaledFft 0) f s = .ok (x', y') ∧ y'.length = 8 := by
  obtain ⟨f, s, x', y', h1, h2, -, -, h3, -⟩ := C133_default (eighths_values [3, 1, 4, 1, 5, 9, 2, 6] rfl) rfl (scaledFft_err 0 le_rfl)
    (by norm_num) ⟨4, rfl⟩
  exact ⟨f, s, x', y', h1, h2, h3⟩

/-- five samples around time zero, two of them before it -/
example : ∃ f s y' m, flGetSpectrum fl64 (scaledFft 0) ⟨-(1 / 2), 1 / 2, 1 / 4⟩ [3, 1, 4, 1, 5] = .ok (f, s) ∧
    flGetSignalOn fl64 (scaledFft 0) s ⟨-(1 / 2), 1 / 2, 1 / 4⟩ = .ok (⟨-(1 / 2), 1 / 2, 1 / 4⟩, y') ∧ m = 2 ∧
      ∑ i ∈ Finset.range 5, (y'.getD i 0 - ([5, 3, 1, 4, 1] : List ℝ).getD i 0) ^ 2 ≤ 0 := by
  have h : WellResolved fl64 (2 ^ (-53 : ℤ)) ⟨-(1 / 2), 1 / 2, 1 / 4⟩ [-(1 / 2), -(1 / 4), 0, 1 / 4, 1 / 2] 4 1 ([3, 1, 4, 1, 5] : List ℝ) :=
    ⟨fl64_relErr, by norm_num, by decide +kernel, by norm_num, rfl, rfl, by norm_num [abs_le], by norm_num [abs_le], by norm_num,
      by norm_num, by norm_num⟩
  obtain ⟨f, s, y', m, h1, h2, -, h3, -, h4⟩ := C133_rotated h (by norm_num) (by norm_num) (scaledFft_err 0 le_rfl) (by norm_num)
  have hm : m = 2 := by
    have a1 := (h3 1 (by decide)).2 (by norm_num)
    have a2 := mt (h3 2 (by decide)).1 (by norm_num)
    omega
  subst hm
  refine ⟨f, s, y', 2, h1, h2, rfl, h4.trans_eq (by norm_num)⟩

/-- a signal from one second to two -/
example : WellResolved fl64 (2 ^ (-53 : ℤ)) ⟨1, 2, 1 / 4⟩ (flLinspace fl64 1 2 5) 4 2 ([3, 1, 4, 1, 5] : List ℝ) ∧
    4 * ((2 / (1 / 4) + 2) * (2 / (1 / 4) + 8)) * (2 ^ (-53 : ℤ) : ℚ) ≤ 1 := by
  refine ⟨⟨fl64_relErr, by norm_num, by decide +kernel, by norm_num, flLinspace_length _ _ _ _, rfl, by norm_num, by norm_num, by norm_num,
    by norm_num, by norm_num⟩, by norm_num⟩

/-- a signal from two seconds to one second before time zero -/
example : WellResolved fl64 (2 ^ (-53 : ℤ)) ⟨-2, -1, 1 / 4⟩ (flLinspace fl64 (-2) (-1) 5) 4 2 ([3, 1, 4, 1, 5] : List ℝ) ∧
    4 * ((-(-2) / (1 / 4) + 2) * (-(-2) / (1 / 4) + 8)) * (2 ^ (-53 : ℤ) : ℚ) ≤ 1 := by
  refine ⟨⟨fl64_relErr, by norm_num, by decide +kernel, by norm_num, flLinspace_length _ _ _ _, rfl, by norm_num, by norm_num, by norm_num,
    by norm_num, by norm_num⟩, by norm_num⟩

end SweepDesign
