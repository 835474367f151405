import Verif.Lemmas.Scan
import Verif.Lemmas.Arith
import Verif.Lemmas.Interp
import Verif.Props.Arithmetic
import Verif.Lemmas.Spectral

set_option linter.unusedSectionVars false

/-!
# C57, C58: from a spectrum to frequency and envelope over time
-/

namespace SweepDesign

open Spec

section
variable {K : Type} [Field K] [LinearOrder K] [IsStrictOrderedRing K]

theorem freqToTime_spec (f n : List K) (hl : f.length = n.length) (h1 : 1 ≤ f.length) (hinc : f.Pairwise (· < ·)) :
    ∃ t, freqToTime f n = .ok t ∧ t.length = f.length ∧ t.head? = some 0 ∧
      ∀ i (_ : i + 1 < t.length) (_ : i + 1 < n.length) (_ : i + 1 < f.length),
        t[i + 1] - t[i] = (n[i + 1] + n[i]) / (f[i + 1] - f[i]) := by
  have hd : ∀ v ∈ npDiff f, v ≠ 0 := by
    intro v hv
    obtain ⟨i, hi, rfl⟩ := List.getElem_of_mem hv
    rw [npDiff_length] at hi
    rw [npDiff_getElem f i _ (by omega)]
    exact (sub_pos.2 (List.pairwise_iff_getElem.1 hinc i (i + 1) (by omega) (by omega) (by omega))).ne'
  refine ⟨_, by simp only [freqToTime, npDiv_eq hd, except_bind_ok, except_pure]; rfl, ?_, rfl, ?_⟩
  · simp [cumsum, cumsumFrom_length, npDiff_length]; omega
  · intro i ht hn hf
    have := cumsumFrom_step (0 : K) (List.zipWith (· / ·) (List.zipWith (· + ·) n.tail n) (npDiff f)) i
      (by simp [npDiff_length]; omega)
    simp only [cumsum]
    rw [this, add_sub_cancel_left]
    simp only [List.getElem_zipWith, List.getElem_tail]
    rw [npDiff_getElem f i _ hf]

end

theorem spectrum_array_increasing {s : Rel ℝ ℂ} (hb : Balanced s) (hinc : s.x.start < s.x.stop) :
    ∃ f, s.x.array = .ok f ∧ f.length = s.y.length ∧ 1 ≤ f.length ∧ f.Pairwise (· < ·) := by
  obtain ⟨⟨lx, ly⟩, hd⟩ := (balanced_iff_getData s).1 hb
  obtain ⟨hx, rfl, hlen⟩ := (getData_ok_iff _ _ _).1 hd
  have hsp := Axis.array_spaced hx
  have h1 : 1 ≤ lx.length := by rw [hsp.1]; omega
  refine ⟨lx, hx, hlen, h1, ?_⟩
  rcases Nat.eq_zero_or_pos s.x.steps with h0 | h0
  · have hl1 := hsp.1
    rw [h0] at hl1
    match lx, hl1 with
    | [t], _ => simp
  · refine hsp.pairwise_lt ?_
    unfold Axis.step
    have : (0 : ℝ) < s.x.steps := by exact_mod_cast h0
    exact div_pos (by linarith) this

/-- the statement shared by both laws: `t` starts at 0, has the increments `(|S_i|² + |S_{i+1}|²)/(f_{i+1} - f_i)`, never
decreases, and increases exactly where one of two neighbouring amplitudes is not zero -/
def Spec.EnergyTime (f : List ℝ) (y : List ℂ) (t : List ℝ) : Prop :=
  t.length = f.length ∧ t.head? = some 0 ∧
  (∀ i (_ : i + 1 < t.length) (_ : i + 1 < y.length) (_ : i + 1 < f.length),
    t[i + 1] - t[i] = (‖y[i + 1]‖ ^ 2 + ‖y[i]‖ ^ 2) / (f[i + 1] - f[i])) ∧
  (∀ i (_ : i + 1 < t.length), t[i] ≤ t[i + 1]) ∧
  (∀ i (_ : i + 1 < t.length) (_ : i + 1 < y.length), t[i] < t[i + 1] ↔ y[i] ≠ 0 ∨ y[i + 1] ≠ 0)

theorem energyTime {f : List ℝ} {y : List ℂ} (hl : f.length = y.length) (h1 : 1 ≤ f.length) (hinc : f.Pairwise (· < ·)) :
    ∃ t, freqToTime f ((y.map fun z => ‖z‖).map fun v => v ^ 2) = .ok t ∧ EnergyTime f y t := by
  obtain ⟨t, e1, e2, e3, e4⟩ := freqToTime_spec f ((y.map fun z => ‖z‖).map fun v => v ^ 2) (by simpa using hl) h1 hinc
  have inc : ∀ i (_ : i + 1 < t.length) (_ : i + 1 < y.length) (_ : i + 1 < f.length),
      t[i + 1] - t[i] = (‖y[i + 1]‖ ^ 2 + ‖y[i]‖ ^ 2) / (f[i + 1] - f[i]) := by
    intro i a b c
    rw [e4 i a (by simpa using b) c]
    simp
  have hpos : ∀ i (_ : i + 1 < f.length), 0 < f[i + 1] - f[i] := fun i h =>
    sub_pos.2 (List.pairwise_iff_getElem.1 hinc i (i + 1) (by omega) h (by omega))
  refine ⟨t, e1, e2, e3, inc, fun i a => ?_, fun i a b => ?_⟩
  · have := inc i a (by omega) (by omega)
    have h2 := hpos i (by omega)
    have : 0 ≤ t[i + 1] - t[i] := by rw [this]; positivity
    linarith
  · have hi := inc i a b (by omega)
    have h2 := hpos i (by omega)
    rw [← sub_pos, hi]
    constructor
    · intro h
      by_contra hc
      push Not at hc
      rw [hc.1, hc.2] at h
      simp at h
    · rintro (h | h)
      · have : 0 < ‖y[i]‖ ^ 2 := by positivity
        positivity
      · have : 0 < ‖y[i + 1]‖ ^ 2 := by positivity
        positivity

/-- **C57** `simple_freq2time` on a spectrum with an increasing axis: it succeeds; time, frequency and envelope have one
entry per spectrum sample; the frequencies are those of the axis; the envelope is constant, namely the norm of the
amplitude spectrum. -/
theorem C57_simple (s : Rel ℝ ℂ) (hb : Balanced s) (hinc : s.x.start < s.x.stop) :
    ∃ t f a c, simpleFreq2time s = .ok (t, f, a) ∧ s.x.array = .ok f ∧ f.length = s.y.length ∧ a.length = f.length ∧
      (∀ v ∈ a, v = c) ∧ (⟨s.x, s.y.map fun z => ‖z‖⟩ : Rel ℝ ℝ).getNorm = .ok c ∧ EnergyTime f s.y t := by
  obtain ⟨f, h1, h2, h3, h4⟩ := spectrum_array_increasing hb hinc
  obtain ⟨t, e1, e2⟩ := energyTime h2 h3 h4
  have hamp : s.getAmpSpectrum = .ok ⟨s.x, s.y.map fun z => ‖z‖⟩ :=
    make_ok (by rw [show s.x.size = .ok s.y.length from hb]; simp)
  have hd : (⟨s.x, s.y.map fun z => ‖z‖⟩ : Rel ℝ ℝ).getData = .ok (f, s.y.map fun z => ‖z‖) :=
    (getData_ok_iff _ _ _).2 ⟨h1, rfl, by simpa using h2⟩
  obtain ⟨c, hn⟩ : ∃ c, (⟨s.x, s.y.map fun z => ‖z‖⟩ : Rel ℝ ℝ).getNorm = .ok c := ⟨_, getNorm_eq _ _ _ hd⟩
  refine ⟨t, f, List.replicate t.length c, c, ?_, h1, h2, ?_, ?_, hn, e2⟩
  · simp only [simpleFreq2time, hamp, except_bind_ok, h1, e1, hn, except_pure]
  · rw [List.length_replicate, e2.1]
  · exact fun v hv => List.eq_of_mem_replicate hv

/-- **C57** `proportional_freq2time`: the same time; the constant envelope `c ≥ 0` satisfies
`c² = 2 ∫ |S|² df` (trapezoid). -/
theorem C57_proportional (s : Rel ℝ ℂ) (hb : Balanced s) (hinc : s.x.start < s.x.stop) :
    ∃ t f a c, proportionalFreq2time s = .ok (t, f, a) ∧ s.x.array = .ok f ∧ f.length = s.y.length ∧ a.length = f.length ∧
      (∀ v ∈ a, v = c) ∧ 0 ≤ c ∧
      c ^ 2 = 2 * ∑ j ∈ Finset.range (s.y.length - 1),
        (f.getD (j + 1) 0 - f.getD j 0) * ((‖s.y.getD j 0‖ ^ 2 + ‖s.y.getD (j + 1) 0‖ ^ 2) / 2) ∧
      EnergyTime f s.y t := by
  obtain ⟨f, h1, h2, h3, h4⟩ := spectrum_array_increasing hb hinc
  obtain ⟨t, e1, e2⟩ := energyTime h2 h3 h4
  have hamp : s.getAmpSpectrum = .ok ⟨s.x, s.y.map fun z => ‖z‖⟩ :=
    make_ok (by rw [show s.x.size = .ok s.y.length from hb]; simp)
  have hd : (⟨s.x, s.y.map fun z => ‖z‖⟩ : Rel ℝ ℝ).getData = .ok (f, s.y.map fun z => ‖z‖) :=
    (getData_ok_iff _ _ _).2 ⟨h1, rfl, by simpa using h2⟩
  have hget : ∀ j, ((s.y.map fun z => ‖z‖).map fun v => v ^ 2).getD j 0 = ‖s.y.getD j 0‖ ^ 2 := by
    intro j
    rcases Nat.lt_or_ge j s.y.length with hj | hj
    · rw [getD_lt _ _ _ (by simpa using hj), getD_lt _ _ _ hj]; simp
    · rw [getD_ge _ _ _ (by simpa using hj), getD_ge _ _ _ hj]; simp
  have htr : trapz ((s.y.map fun z => ‖z‖).map fun v => v ^ 2) f = ∑ j ∈ Finset.range (s.y.length - 1),
        (f.getD (j + 1) 0 - f.getD j 0) * ((‖s.y.getD j 0‖ ^ 2 + ‖s.y.getD (j + 1) 0‖ ^ 2) / 2) := by
    rw [trapz_eq _ _ (by simpa using h2)]
    simp only [List.length_map, hget, smul_eq_mul]
  set T := trapz ((s.y.map fun z => ‖z‖).map fun v => v ^ 2) f
  have hT : 0 ≤ T := by
    rw [htr]
    apply Finset.sum_nonneg
    intro j hj
    rw [Finset.mem_range] at hj
    rw [getD_lt f _ _ (by omega : j < f.length), getD_lt f _ _ (by omega : j + 1 < f.length)]
    have := List.pairwise_iff_getElem.1 h4 j (j + 1) (by omega) (by omega) (by omega)
    apply mul_nonneg (by linarith)
    positivity
  refine ⟨t, f, List.replicate t.length (Real.sqrt (T * 2)), Real.sqrt (T * 2), ?_, h1, h2, ?_, ?_, Real.sqrt_nonneg _, ?_, e2⟩
  · have hsq : mathSqrt (T * 2) = .ok (Real.sqrt (T * 2)) := by
      unfold mathSqrt; exact if_neg (by linarith)
    simp only [proportionalFreq2time, hamp, except_bind_ok, hd, e1, except_pure]
    rw [hsq, except_bind_ok]
  · rw [List.length_replicate, e2.1]
  · exact fun v hv => List.eq_of_mem_replicate hv
  · rw [Real.sq_sqrt (by linarith), ← htr]; ring

/-- a spectrum at 0, 1, 2 with amplitudes 3, 0, 4 -/
example : freqToTime [0, 1, 2] [9, 0, (16 : ℚ)] = .ok [0, 9, 25] := by decide +kernel
example : Balanced (⟨⟨0, 2, 1⟩, [3, 0, 4 * Complex.I]⟩ : Rel ℝ ℂ) ∧ (0 : ℝ) < 2 := by
  refine ⟨balanced_whole _ 2 (by norm_num) (by norm_num) rfl, by norm_num⟩

/-! ## C58 -/

section
variable {K : Type} [Field K] [LinearOrder K] [IsStrictOrderedRing K]

/-- the cutoff frequency: `fc` if it is given and not zero, else the first frequency -/
def Spec.Cutoff (fc : Option K) (f : List K) (c : K) : Prop :=
  (fc = some c ∧ c ≠ 0) ∨ ((fc = none ∨ fc = some 0) ∧ f.head? = some c)

theorem cutoff_iff (fc : Option K) (f : List K) (c : K) : cutoff fc f = .ok c ↔ Cutoff fc f c := by
  unfold cutoff Spec.Cutoff
  match fc, f.head? with
  | none, none => simp
  | none, some a => simp
  | some b, none =>
    by_cases h : b = 0
    · subst h; simp; rintro rfl; simp
    · simp [h]; rintro rfl; exact h
  | some b, some a =>
    by_cases h : b = 0
    · subst h; simp; rintro rfl; simp
    · simp [h]; rintro rfl; exact h

/-- the pieces of the computation on increasing frequencies -/
theorem dwell_unfold (fc : Option K) (f a : List K) (hl : f.length = a.length) (hinc : f.Pairwise (· < ·)) (c : K)
    (hc : Cutoff fc f c) :
    ∃ m, m ≤ f.length ∧ (∀ i (h : i < f.length), f[i] ≤ c ↔ i < m) ∧
      (m ≤ 1 → dwellArrays fc f a = .error .index) ∧
      (2 ≤ m → ∀ q, dwellArrays fc f a = .ok q ↔ ∃ d, (∀ r ∈ freqRatio (f.take m), r ^ 4 ≠ 0) ∧
        (cumprod ((freqRatio (f.take m)).map fun r => 1 / r ^ 4)).getLast? = some d ∧
        q = (0 :: cumsumFrom 0 (List.zipWith (· * ·) (cumprod ((freqRatio (f.take m)).map fun r => 1 / r ^ 4))
              ((a.take m).dropLast.map fun v => v ^ 2) ++ (a.drop m).map fun v => d * v ^ 2), f,
            (1 :: cumprodFrom 1 ((freqRatio (f.take m)).map fun r => r ^ 2)) ++
              List.replicate (a.length - m) ((1 :: cumprodFrom 1 ((freqRatio (f.take m)).map fun r => r ^ 2)).getLastD 1))) := by
  obtain ⟨m, h0, h1, h2, h3, h4⟩ := mask_increasing c f a hl hinc
  refine ⟨m, h0, h4, ?_, ?_⟩
  · intro hm
    have hr : freqRatio (f.take m) = [] := by
      unfold freqRatio
      have : (f.take m).tail = [] := by
        apply List.eq_nil_of_length_eq_zero
        simp; omega
      rw [this]; rfl
    simp only [dwellArrays, (cutoff_iff fc f c).2 hc, except_bind_ok, h1, hr]
    simp [npDiv, cumprod, cumprodFrom, cumsum_cons]
  · intro hm q
    have hrl : (freqRatio (f.take m)).length = m - 1 := by
      simp [freqRatio]; omega
    have hinv : List.zipWith (· / ·) (List.replicate (freqRatio (f.take m)).length 1)
        ((freqRatio (f.take m)).map fun r => r ^ 4) = (freqRatio (f.take m)).map fun r => 1 / r ^ 4 := by
      apply List.ext_getElem (by simp)
      intro i hi hj
      simp
    have hap : (1 :: cumprodFrom 1 ((freqRatio (f.take m)).map fun r => r ^ 2)).length = m := by
      rw [List.length_cons, cumprodFrom_length, List.length_map, hrl]; omega
    simp only [dwellArrays, (cutoff_iff fc f c).2 hc, except_bind_ok, h1, h2, h3, except_bind_eq_ok]
    constructor
    · rintro ⟨inv, hi, hq⟩
      obtain ⟨hi1, hi2⟩ := npDiv_ok hi
      rw [hinv] at hi2
      subst hi2
      split at hq
      · rename_i d l hd hlst
        rw [except_pure, Except.ok.injEq] at hq
        refine ⟨d, fun r hr => hi1 _ (List.mem_map.2 ⟨r, hr, rfl⟩), hd, ?_⟩
        rw [← hq, cumprod_cons_one, hap]
        congr 1
        rw [cumsum_cons, cumsum_cons, List.tail_cons, cumsumFrom_append 0 l, List.cons_append]
        rw [cumsum_cons] at hlst
        congr 2
        rw [List.getLastD_eq_getLast?, hlst]
        rfl
      · simp at hq
    · rintro ⟨d, hne, hd, rfl⟩
      refine ⟨_, npDiv_eq (by
        intro v hv
        obtain ⟨r, hr, rfl⟩ := List.mem_map.1 hv
        exact hne r hr), ?_⟩
      rw [hinv, hd]
      have hlast : ∃ l, (cumsum (0 :: List.zipWith (· * ·) (cumprod ((freqRatio (f.take m)).map fun r => 1 / r ^ 4))
          ((a.take m).dropLast.map fun v => v ^ 2))).getLast? = some l := by
        rw [cumsum_cons]
        exact ⟨_, List.getLast?_eq_some_getLast (by simp)⟩
      obtain ⟨l, hlst⟩ := hlast
      rw [hlst]
      simp only [except_pure, Except.ok.injEq]
      rw [cumprod_cons_one, hap]
      congr 1
      rw [cumsum_cons, cumsum_cons, List.tail_cons, cumsumFrom_append 0 l, List.cons_append]
      rw [cumsum_cons] at hlst
      congr 2
      rw [List.getLastD_eq_getLast?, hlst]
      rfl

/-- **C58** At most one frequency at or below the cutoff: `IndexError`. -/
theorem C58_index_error (fc : Option K) (f a : List K) (hl : f.length = a.length) (hinc : f.Pairwise (· < ·)) (c : K)
    (hc : Cutoff fc f c) (h1 : ∀ i (_ : i < f.length), f[i] ≤ c → i = 0) :
    dwellArrays fc f a = .error .index := by
  obtain ⟨m, h0, hm, he, -⟩ := dwell_unfold fc f a hl hinc c hc
  apply he
  by_contra hcon
  have := h1 1 (by omega) ((hm 1 (by omega)).2 (by omega))
  omega

/-- **C58** Without a cutoff (or with the cutoff 0) the call always raises `IndexError`. -/
theorem C58_no_cutoff (fc : Option K) (hfc : fc = none ∨ fc = some 0) (f a : List K) (hl : f.length = a.length)
    (hinc : f.Pairwise (· < ·)) : dwellArrays fc f a = .error .index := by
  match hf : f with
  | [] =>
    have : cutoff fc ([] : List K) = .error .index := by rcases hfc with rfl | rfl <;> simp [cutoff]
    simp [dwellArrays, this]
  | x :: l =>
    refine C58_index_error fc (x :: l) a hl hinc x (.inr ⟨hfc, rfl⟩) ?_
    intro i hi hle
    by_contra hne
    have := List.pairwise_iff_getElem.1 hinc 0 i (by simp) hi (by omega)
    simp only [List.getElem_cons_zero] at this
    exact absurd hle (not_le.2 this)

/-- **C58** Whenever the call returns: three arrays of equal length, the frequencies are the selected ones, the time starts
at 0 and never decreases. -/
theorem C58_shape (fc : Option K) (f a : List K) (hl : f.length = a.length) (hinc : f.Pairwise (· < ·))
    (t f' e : List K) (h : dwellArrays fc f a = .ok (t, f', e)) :
    f' = f ∧ t.length = f.length ∧ e.length = f.length ∧ t.head? = some 0 ∧ t.Pairwise (· ≤ ·) := by
  have hc : ∃ c, Cutoff fc f c := by
    match hcut : cutoff fc f with
    | .ok c => exact ⟨c, (cutoff_iff fc f c).1 hcut⟩
    | .error er => simp [dwellArrays, hcut] at h
  obtain ⟨c, hc⟩ := hc
  obtain ⟨m, h0, hm, he, hiff⟩ := dwell_unfold fc f a hl hinc c hc
  have h2 : 2 ≤ m := by
    by_contra hcon
    rw [he (by omega)] at h
    simp at h
  obtain ⟨d, hne, hd, hq⟩ := (hiff h2 _).1 h
  simp only [Prod.mk.injEq] at hq
  obtain ⟨rfl, rfl, rfl⟩ := hq
  have hrl : (freqRatio (f'.take m)).length = m - 1 := by
    simp [freqRatio]; omega
  have hdur : ∀ v ∈ cumprod ((freqRatio (f'.take m)).map fun r => 1 / r ^ 4), 0 ≤ v := by
    refine cumprodFrom_nonneg 1 _ zero_le_one ?_
    intro v hv
    obtain ⟨r, -, rfl⟩ := List.mem_map.1 hv
    positivity
  refine ⟨rfl, ?_, ?_, rfl, cumsumFrom_monotone _ _ ?_⟩
  · simp only [List.length_cons, cumsumFrom_length, List.length_append, List.length_zipWith, cumprod, cumprodFrom_length,
      List.length_map, hrl, List.length_dropLast, List.length_take, List.length_drop]
    omega
  · simp only [List.length_append, List.length_cons, cumprodFrom_length, List.length_map, hrl, List.length_replicate]
    omega
  · intro v hv
    rcases List.mem_append.1 hv with hv | hv
    · obtain ⟨i, hi, rfl⟩ := List.getElem_of_mem hv
      rw [List.getElem_zipWith]
      refine mul_nonneg (hdur _ (List.getElem_mem _)) ?_
      rw [List.getElem_map]
      positivity
    · obtain ⟨w, -, rfl⟩ := List.mem_map.1 hv
      exact mul_nonneg (hdur d (List.mem_of_getLast? hd)) (by positivity)

theorem cumprod_ratio (f : List K) (hpos : ∀ v ∈ f, 0 < v) (g : K → K) (hg : ∀ a b, g (a * b) = g a * g b) (h1 : g 1 = 1)
    (i : ℕ) (hi : i < f.length) (hi' : i < (1 :: cumprodFrom 1 ((freqRatio f).map g)).length) :
    (1 :: cumprodFrom 1 ((freqRatio f).map g))[i] = g (f[i] / f[0]) := by
  have hne : ∀ j (hj : j < f.length), f[j] ≠ 0 := fun j hj => (hpos _ (List.getElem_mem hj)).ne'
  induction i with
  | zero => simp [div_self (hne 0 hi), h1]
  | succ i ih =>
    rw [cumprodFrom_step 1 _ i (by simp [freqRatio]; omega), ih (by omega) (by simp [cumprodFrom_length, freqRatio]; omega),
      List.getElem_map, ← hg]
    congr 1
    have h2 := hne i (by omega)
    have h3 := hne 0 (by omega)
    simp only [freqRatio, List.getElem_zipWith, List.getElem_tail, ne_eq, h2, not_false_eq_true, if_true]
    field_simp

/-- the law, for frequencies `f` with the same ratios as the positive numbers `g` -/
theorem dwell_law (fc : Option K) (f g a : List K) (hl : f.length = a.length) (hinc : f.Pairwise (· < ·)) (c : K)
    (hc : Cutoff fc f c) (hlg : g.length = f.length) (hg : ∀ m, freqRatio (f.take m) = freqRatio (g.take m)) (hpos : ∀ v ∈ g, 0 < v)
    (m : ℕ) (h2 : 2 ≤ m) (hml : m ≤ f.length) (hm : ∀ i (h : i < f.length), f[i] ≤ c ↔ i < m) :
    ∃ t e, dwellArrays fc f a = .ok (t, f, e) ∧
      (∀ i < m, e.getD i 0 = (g.getD i 0 / g.getD 0 0) ^ 2) ∧
      (∀ i, m ≤ i → i < f.length → e.getD i 0 = (g.getD (m - 1) 0 / g.getD 0 0) ^ 2) ∧
      (∀ i, i + 1 < m → t.getD (i + 1) 0 - t.getD i 0 = (g.getD 0 0 / g.getD (i + 1) 0) ^ 4 * a.getD i 0 ^ 2) ∧
      (∀ i, m ≤ i + 1 → i + 1 < f.length →
        t.getD (i + 1) 0 - t.getD i 0 = (g.getD 0 0 / g.getD (m - 1) 0) ^ 4 * a.getD (i + 1) 0 ^ 2) := by
  obtain ⟨m', h0, hm', he, hiff⟩ := dwell_unfold fc f a hl hinc c hc
  obtain rfl : m' = m := by
    rcases Nat.lt_trichotomy m' m with h | h | h
    · exact absurd ((hm' m' (by omega)).1 ((hm m' (by omega)).2 h)) (lt_irrefl _)
    · exact h
    · exact absurd ((hm m (by omega)).1 ((hm' m (by omega)).2 h)) (lt_irrefl _)
  rw [hg m'] at hiff
  have hrl : (freqRatio (g.take m')).length = m' - 1 := by
    simp [freqRatio]; omega
  have hposm : ∀ v ∈ g.take m', 0 < v := fun v hv => hpos v (List.mem_of_mem_take hv)
  have hne : ∀ j (hj : j < g.length), g[j] ≠ 0 := fun j hj => (hpos _ (List.getElem_mem hj)).ne'
  have hrne : ∀ r ∈ freqRatio (g.take m'), r ^ 4 ≠ 0 := by
    intro r hr
    obtain ⟨i, hi, rfl⟩ := List.getElem_of_mem hr
    simp only [freqRatio, List.getElem_zipWith, List.getElem_tail, List.getElem_take]
    rw [hrl] at hi
    rw [if_pos (hne i (by omega))]
    exact pow_ne_zero _ (div_ne_zero (hne _ (by omega)) (hne _ (by omega)))
  have hdur : ∀ i (hi : i < (cumprod ((freqRatio (g.take m')).map fun r => 1 / r ^ 4)).length),
      (cumprod ((freqRatio (g.take m')).map fun r => 1 / r ^ 4))[i] = (g.getD 0 0 / g.getD (i + 1) 0) ^ 4 := by
    intro i hi
    have hi' := hi
    rw [cumprod, cumprodFrom_length, List.length_map, hrl] at hi'
    have := cumprod_ratio (g.take m') hposm (fun r => 1 / r ^ 4) (fun a b => by rw [mul_pow]; field_simp) (by simp)
      (i + 1) (by simp; omega) (by rw [List.length_cons, cumprodFrom_length, List.length_map, hrl]; omega)
    rw [List.getElem_cons_succ] at this
    simp only [cumprod]
    rw [this, List.getElem_take, List.getElem_take, getD_lt g _ _ (by omega), getD_lt g _ _ (by omega)]
    have h3 := hne 0 (by omega)
    have h4 := hne (i + 1) (by omega)
    field_simp
  have hdl : (cumprod ((freqRatio (g.take m')).map fun r => 1 / r ^ 4)).length = m' - 1 := by
    rw [cumprod, cumprodFrom_length, List.length_map, hrl]
  have hd : (cumprod ((freqRatio (g.take m')).map fun r => 1 / r ^ 4)).getLast? =
      some ((g.getD 0 0 / g.getD (m' - 1) 0) ^ 4) := by
    rw [List.getLast?_eq_getElem?, List.getElem?_eq_getElem (by omega), hdur, hdl, show m' - 1 - 1 + 1 = m' - 1 by omega]
  set d := (g.getD 0 0 / g.getD (m' - 1) 0) ^ 4 with hdd
  have henv : ∀ i (_ : i < m') (h : i < (1 :: cumprodFrom 1 ((freqRatio (g.take m')).map fun r => r ^ 2)).length),
      (1 :: cumprodFrom 1 ((freqRatio (g.take m')).map fun r => r ^ 2))[i] = (g.getD i 0 / g.getD 0 0) ^ 2 := by
    intro i hi h
    rw [cumprod_ratio (g.take m') hposm (fun r => r ^ 2) (fun a b => mul_pow a b 2) (by simp) i (by simp; omega) h,
      List.getElem_take, List.getElem_take, getD_lt g _ _ (by omega), getD_lt g _ _ (by omega)]
  have hel : (1 :: cumprodFrom 1 ((freqRatio (g.take m')).map fun r => r ^ 2)).length = m' := by
    rw [List.length_cons, cumprodFrom_length, List.length_map, hrl]; omega
  have hincl : ∀ i (hi : i < (List.zipWith (· * ·) (cumprod ((freqRatio (g.take m')).map fun r => 1 / r ^ 4))
      ((a.take m').dropLast.map fun v => v ^ 2) ++ (a.drop m').map fun v => d * v ^ 2).length),
      (0 :: cumsumFrom 0 (List.zipWith (· * ·) (cumprod ((freqRatio (g.take m')).map fun r => 1 / r ^ 4))
      ((a.take m').dropLast.map fun v => v ^ 2) ++ (a.drop m').map fun v => d * v ^ 2)).getD (i + 1) 0 -
      (0 :: cumsumFrom 0 (List.zipWith (· * ·) (cumprod ((freqRatio (g.take m')).map fun r => 1 / r ^ 4))
      ((a.take m').dropLast.map fun v => v ^ 2) ++ (a.drop m').map fun v => d * v ^ 2)).getD i 0 =
      (List.zipWith (· * ·) (cumprod ((freqRatio (g.take m')).map fun r => 1 / r ^ 4))
      ((a.take m').dropLast.map fun v => v ^ 2) ++ (a.drop m').map fun v => d * v ^ 2)[i] := by
    intro i hi
    rw [getD_lt _ _ _ (by rw [List.length_cons, cumsumFrom_length]; omega),
      getD_lt _ _ _ (by rw [List.length_cons, cumsumFrom_length]; omega), cumsumFrom_step _ _ i hi, add_sub_cancel_left]
  have hzl : (List.zipWith (· * ·) (cumprod ((freqRatio (g.take m')).map fun r => 1 / r ^ 4))
      ((a.take m').dropLast.map fun v => v ^ 2)).length = m' - 1 := by
    rw [List.length_zipWith, hdl]; simp; omega
  refine ⟨_, _, (hiff h2 _).2 ⟨d, hrne, hd, rfl⟩, ?_, ?_, ?_, ?_⟩
  · intro i hi
    rw [getD_lt _ _ _ (by rw [List.length_append, hel]; omega), List.getElem_append_left (by omega)]
    exact henv i hi _
  · intro i h1 hi
    rw [getD_lt _ _ _ (by rw [List.length_append, hel, List.length_replicate]; omega), List.getElem_append_right (by omega),
      List.getElem_replicate, List.getLastD_eq_getLast?, List.getLast?_eq_getElem?, List.getElem?_eq_getElem (by omega),
      Option.getD_some, henv _ (by omega)]
    rw [hel]
  · intro i hi
    rw [hincl i (by rw [List.length_append, hzl]; omega), List.getElem_append_left (by rw [hzl]; omega), List.getElem_zipWith,
      hdur, List.getElem_map, List.getElem_dropLast, List.getElem_take, getD_lt a _ _ (by omega)]
  · intro i h1 hi
    rw [hincl i (by rw [List.length_append, hzl, List.length_map, List.length_drop]; omega),
      List.getElem_append_right (by rw [hzl]; omega), List.getElem_map, List.getElem_drop, getD_lt a _ _ (by omega)]
    congr 3
    rw [hzl]; omega

/-- **C58** Positive increasing frequencies, at least two of them (the first `m`) at or below the cutoff: the call
succeeds; the envelope is `(f/f_0)²` up to the cutoff and constant after it; up to the cutoff the time grows by
`(f_0/f_{i+1})⁴ a_i²`, after it by `(f_0/f_{m-1})⁴ a_{i+1}²`. -/
theorem C58_positive (fc : Option K) (f a : List K) (hl : f.length = a.length) (hinc : f.Pairwise (· < ·)) (c : K)
    (hc : Cutoff fc f c) (hpos : ∀ v ∈ f, 0 < v) (m : ℕ) (h2 : 2 ≤ m) (hml : m ≤ f.length)
    (hm : ∀ i (h : i < f.length), f[i] ≤ c ↔ i < m) :
    ∃ t e, dwellArrays fc f a = .ok (t, f, e) ∧
      (∀ i < m, e.getD i 0 = (f.getD i 0 / f.getD 0 0) ^ 2) ∧
      (∀ i, m ≤ i → i < f.length → e.getD i 0 = (f.getD (m - 1) 0 / f.getD 0 0) ^ 2) ∧
      (∀ i, i + 1 < m → t.getD (i + 1) 0 - t.getD i 0 = (f.getD 0 0 / f.getD (i + 1) 0) ^ 4 * a.getD i 0 ^ 2) ∧
      (∀ i, m ≤ i + 1 → i + 1 < f.length →
        t.getD (i + 1) 0 - t.getD i 0 = (f.getD 0 0 / f.getD (m - 1) 0) ^ 4 * a.getD (i + 1) 0 ^ 2) := by
  exact dwell_law fc f f a hl hinc c hc rfl (fun _ => rfl) hpos m h2 hml hm

/-- **C58** Increasing frequencies that begin with 0, at least two of them (the first `m`) at or below the cutoff: the call succeeds
too, and 0 counts as the first positive frequency `f_1`: the envelope is 1 at 0 and `(f/f_1)²` from there to the cutoff, then constant;
the time grows by `a_0²`, then by `(f_1/f_{i+1})⁴ a_i²` up to the cutoff and by `(f_1/f_{m-1})⁴ a_{i+1}²` after it. -/
theorem C58_from_zero (fc : Option K) (f a : List K) (hl : f.length = a.length) (hinc : f.Pairwise (· < ·)) (c : K)
    (hc : Cutoff fc f c) (hz : f.head? = some 0) (m : ℕ) (h2 : 2 ≤ m) (hml : m ≤ f.length)
    (hm : ∀ i (h : i < f.length), f[i] ≤ c ↔ i < m) :
    ∃ t e, dwellArrays fc f a = .ok (t, f, e) ∧ e.getD 0 0 = 1 ∧
      (∀ i, 1 ≤ i → i < m → e.getD i 0 = (f.getD i 0 / f.getD 1 0) ^ 2) ∧
      (∀ i, m ≤ i → i < f.length → e.getD i 0 = (f.getD (m - 1) 0 / f.getD 1 0) ^ 2) ∧
      t.getD 1 0 - t.getD 0 0 = a.getD 0 0 ^ 2 ∧
      (∀ i, 1 ≤ i → i + 1 < m → t.getD (i + 1) 0 - t.getD i 0 = (f.getD 1 0 / f.getD (i + 1) 0) ^ 4 * a.getD i 0 ^ 2) ∧
      (∀ i, m ≤ i + 1 → i + 1 < f.length →
        t.getD (i + 1) 0 - t.getD i 0 = (f.getD 1 0 / f.getD (m - 1) 0) ^ 4 * a.getD (i + 1) 0 ^ 2) := by
  match f, hz with
  | [_], _ => simp at hml; omega
  | z :: b :: f, hz =>
    obtain rfl : z = 0 := by simpa using hz
    have hb : 0 < b := (List.pairwise_cons.1 hinc).1 b (by simp)
    obtain ⟨t, e, h, e1, e2, e3, e4⟩ := dwell_law fc (0 :: b :: f) (b :: b :: f) a hl hinc c hc rfl
      (fun m => by
        rcases m with _ | _ | m
        · rfl
        · rfl
        · simp [freqRatio, hb.ne'])
      (fun v hv => by
        rcases List.mem_cons.1 hv with rfl | hv
        · exact hb
        · exact (List.pairwise_cons.1 hinc).1 v hv) m h2 hml hm
    have hg : ∀ i, 1 ≤ i → (b :: b :: f).getD i 0 = (0 :: b :: f).getD i 0 := by
      intro i hi
      obtain ⟨k, rfl⟩ := Nat.exists_eq_add_of_le' hi
      rfl
    have h0 : (b :: b :: f).getD 0 0 = (0 :: b :: f).getD 1 0 := rfl
    have h1 : (0 :: b :: f).getD 1 0 = b := rfl
    refine ⟨t, e, h, ?_, fun i h1 h3 => ?_, fun i h1 h3 => ?_, ?_, fun i h1 h3 => ?_, fun i h1 h3 => ?_⟩
    · rw [e1 0 (by omega), h0, h1, div_self hb.ne', one_pow]
    · rw [e1 i h3, hg i h1, h0]
    · rw [e2 i h1 h3, hg _ (by omega), h0]
    · have := e3 0 (by omega)
      rw [zero_add, hg 1 le_rfl, h0, h1, div_self hb.ne', one_pow, one_mul] at this
      exact this
    · rw [e3 i h3, h0, hg (i + 1) (by omega)]
    · rw [e4 i h1 h3, h0, hg (m - 1) (by omega)]

/-- **C58** If 0 lies at or below the cutoff but is not the first frequency, the durations after it are divisions by zero. -/
theorem C58_through_zero (fc : Option K) (f a : List K) (hl : f.length = a.length) (hinc : f.Pairwise (· < ·)) (c : K)
    (hc : Cutoff fc f c) (i : ℕ) (hi : f[i + 1]? = some 0) (h0 : 0 ≤ c) (q : List K × List K × List K) :
    dwellArrays fc f a ≠ .ok q := by
  obtain ⟨m, hm, hm', he, hiff⟩ := dwell_unfold fc f a hl hinc c hc
  obtain ⟨hi1, hi2⟩ := List.getElem?_eq_some_iff.1 hi
  have him : i + 1 < m := (hm' (i + 1) hi1).1 (hi2 ▸ h0)
  intro h
  obtain ⟨d, hne, -⟩ := (hiff (by omega) q).1 h
  have hlt : f[i] < f[i + 1] := List.pairwise_iff_getElem.1 hinc i (i + 1) (by omega) hi1 (by omega)
  rw [hi2] at hlt
  have hrl : i < (freqRatio (f.take m)).length := by simp [freqRatio]; omega
  refine hne _ (List.getElem_mem hrl) ?_
  simp only [freqRatio, List.getElem_zipWith, List.getElem_tail, List.getElem_take, hi2]
  rw [if_pos hlt.ne, zero_div]
  simp

example : dwellArrays (some 4) [0, 2, 4, 8] [1, 2, 3, (5 : ℚ)] =
    .ok ([0, 1, 1 + 4/16, 1 + 4/16 + 25/16], [0, 2, 4, 8], [1, 1, 4, 4]) ∧
    dwellArrays (some 4) [-1, 0, 1] [1, 2, (3 : ℚ)] = .error .nonFinite := by decide +kernel
example : dwellArrays (some 4) [1, 2, 4, 8] [1, 2, 3, (5 : ℚ)] =
    .ok ([0, 1/16, 1/16 + 1/64, 1/16 + 1/64 + 25/256], [1, 2, 4, 8], [1, 4, 16, 16]) := by decide +kernel
example : Cutoff (some 4) [1, 2, 4, (8 : ℚ)] 4 := .inl ⟨rfl, by norm_num⟩
/-- no cutoff, and a cutoff below the second frequency -/
example : dwellArrays none [1, 2, 4] [1, 1, (1 : ℚ)] = .error .index ∧
    dwellArrays (some (3/2)) [1, 2, 4] [1, 1, (1 : ℚ)] = .error .index := by decide +kernel

end

/-- **C58** `dwell` on a spectrum: the frequencies and amplitudes it works with are those of the selected part. -/
theorem C58_selected (fs fe fc : Option ℝ) (s : Rel ℝ ℂ) (q : List ℝ × List ℝ × List ℝ) :
    dwell fs fe fc s = .ok q ↔ ∃ sel f, s.selectData fs fe = .ok sel ∧ sel.x.array = .ok f ∧
      f.length = sel.y.length ∧ dwellArrays fc f (sel.y.map fun z => ‖z‖) = .ok q := by
  simp only [dwell, except_bind_eq_ok]
  constructor
  · rintro ⟨sel, h1, amp, h2, ⟨f, a⟩, h3, h4⟩
    obtain ⟨h5, rfl⟩ := (make_ok_iff _ _ _).1 h2
    obtain ⟨h6, rfl, h7⟩ := (getData_ok_iff _ _ _).1 h3
    exact ⟨sel, f, h1, h6, by simpa using h7, h4⟩
  · rintro ⟨sel, f, h1, h2, h3, h4⟩
    have hs : sel.x.size = .ok (sel.y.map fun z => ‖z‖).length := by rw [Axis.size_of_array h2]; simp [h3]
    exact ⟨sel, h1, _, make_ok hs, ⟨f, _⟩, (getData_ok_iff _ _ _).2 ⟨h2, rfl, by simpa using h3⟩, h4⟩

/-- a selection from an increasing axis is on an increasing axis -/
theorem selectData_increasing {V : Type} [Field V] [Algebra ℝ V] {s sel : Rel ℝ V} {fs fe : Option ℝ} (hinc : s.x.start ≤ s.x.stop)
    (hsel : s.selectData fs fe = .ok sel) : sel.x.start ≤ sel.x.stop := by
  simp only [Rel.selectData, except_bind_eq_ok] at hsel
  obtain ⟨l, g1, m, g2, g3⟩ := hsel
  rw [maskSelect_self, Except.ok.injEq] at g2
  have hinc' : m.Pairwise (· < ·) := by
    rw [← g2]
    exact (Axis.array_increasing g1 hinc).filter _
  match m, hinc' with
  | [], _ => simp at g3
  | a :: m, hm =>
    simp only [List.head?_cons, List.getLast?_cons, except_bind_eq_ok] at g3
    obtain ⟨y, -, g3⟩ := g3
    obtain ⟨-, rfl⟩ := (make_ok_iff _ _ _).1 g3
    simp only
    rcases List.eq_nil_or_concat m with rfl | ⟨m', b, rfl⟩
    · simp
    · simp only [List.concat_eq_append, List.getLast?_append, List.getLast?_singleton, Option.some_or, Option.getD_some]
      exact ((List.pairwise_cons.1 hm).1 b (by simp)).le

/-- **C58** The call on a spectrum with an increasing axis raises `IndexError` if no frequency is selected or at most one of
the selected frequencies is at or below the cutoff; so it always does without a cutoff (or with the cutoff 0). -/
theorem C58_call_raises (fs fe fc : Option ℝ) (s : Rel ℝ ℂ) (hb : Balanced s) (hinc : s.x.start ≤ s.x.stop) :
    (∀ sel f c, s.selectData fs fe = .ok sel → sel.x.array = .ok f → Cutoff fc f c →
      (∀ i (_ : i < f.length), f[i] ≤ c → i = 0) → dwell fs fe fc s = .error .index) ∧
    ((∀ sel, s.selectData fs fe ≠ .ok sel) → dwell fs fe fc s = .error .index) ∧
    (fc = none ∨ fc = some 0 → dwell fs fe fc s = .error .index) := by
  have key : ∀ sel f, s.selectData fs fe = .ok sel → sel.x.array = .ok f →
      dwell fs fe fc s = dwellArrays fc f (sel.y.map fun z => ‖z‖) ∧ f.length = (sel.y.map fun z => ‖z‖).length ∧
        f.Pairwise (· < ·) := by
    intro sel f hsel hf
    have hsb := selectData_balanced hsel
    have hfl : f.length = sel.y.length := by
      have := Axis.size_of_array hf
      rw [hsb, Except.ok.injEq] at this
      exact this.symm
    have e1 : sel.getAmpSpectrum = .ok ⟨sel.x, sel.y.map fun z => ‖z‖⟩ :=
      make_ok (by rw [List.length_map]; exact hsb)
    have e2 : (⟨sel.x, sel.y.map fun z => ‖z‖⟩ : Rel ℝ ℝ).getData = .ok (f, sel.y.map fun z => ‖z‖) :=
      (getData_ok_iff _ _ _).2 ⟨hf, rfl, by simpa using hfl⟩
    refine ⟨by simp only [dwell, hsel, except_bind_ok, e1, e2], by simpa using hfl, ?_⟩
    exact Axis.array_increasing hf (selectData_increasing hinc hsel)
  have hempty : (∀ sel, s.selectData fs fe ≠ .ok sel) → dwell fs fe fc s = .error .index := by
    intro h
    obtain ⟨⟨lx, ly⟩, hd⟩ := (balanced_iff_getData s).1 hb
    obtain ⟨w1, w2⟩ := C10_select_window s lx ly hd fs fe
    have : s.selectData fs fe = .error .index := by
      apply w1
      by_contra hne
      obtain ⟨q, hq, -⟩ := w2 hne
      exact h q hq
    simp only [dwell, this]
    rfl
  refine ⟨fun sel f c hsel hf hc h1 => ?_, hempty, fun hfc => ?_⟩
  · obtain ⟨k1, k2, k3⟩ := key sel f hsel hf
    rw [k1]
    exact C58_index_error fc f _ k2 k3 c hc h1
  · cases hsel : s.selectData fs fe with
    | error e => exact hempty fun sel h => by rw [hsel] at h; cases h
    | ok sel =>
      obtain ⟨⟨f, a⟩, hd⟩ := (balanced_iff_getData sel).1 (selectData_balanced hsel)
      obtain ⟨d1, -, -⟩ := (getData_ok_iff _ _ _).1 hd
      obtain ⟨k1, k2, k3⟩ := key sel f hsel d1
      rw [k1]
      exact C58_no_cutoff fc hfc f _ k2 k3

/-- three frequencies of which one is at or below the cutoff 3/2 -/
example : dwell none none (some (3 / 2)) ⟨⟨1, 3, 1⟩, [1, 1, 1]⟩ = .error .index := by
  have hb : Balanced (⟨⟨1, 3, 1⟩, [1, 1, 1]⟩ : Rel ℝ ℂ) := balanced_whole _ 2 (by norm_num) (by norm_num) rfl
  have ha : (⟨1, 3, 1⟩ : Axis ℝ).array = .ok [1, 2, 3] := by
    have := array_whole (⟨1, 3, 1⟩ : Axis ℝ) 2 (by norm_num) (by norm_num)
    rw [this]
    norm_num [List.range_succ]
  have hd : (⟨⟨1, 3, 1⟩, [1, 1, 1]⟩ : Rel ℝ ℂ).getData = .ok ([1, 2, 3], [1, 1, 1]) :=
    (getData_ok_iff _ _ _).2 ⟨ha, rfl, rfl⟩
  have hw : (([1, 2, 3] : List ℝ).zip ([1, 1, 1] : List ℂ)).filter (fun p => decide ((1 : ℝ) ≤ p.1 ∧ p.1 ≤ 3)) =
      [(1, 1), (2, 1), (3, 1)] := by
    simp only [List.zip_cons_cons, List.zip_nil_right]
    rw [List.filter_eq_self]
    simp
    norm_num
  obtain ⟨-, w⟩ := C10_select_window _ _ _ hd none none
  simp only [Option.getD_none] at w
  rw [hw] at w
  obtain ⟨sel, h1, -, h2⟩ := w (by simp)
  obtain ⟨d1, -, -⟩ := (getData_ok_iff _ _ _).1 h2
  refine (C58_call_raises none none (some (3 / 2)) _ hb (by norm_num)).1 sel _ (3 / 2) h1 d1 (.inl ⟨rfl, by norm_num⟩) ?_
  intro i hi hle
  simp only [List.map_cons, List.map_nil, List.length_cons, List.length_nil] at hi hle
  match i, hi with
  | 0, _ => rfl
  | 1, _ => norm_num at hle
  | 2, _ => norm_num at hle

end SweepDesign
