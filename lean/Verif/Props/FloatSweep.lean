import Verif.Model.FloatSweep
import Verif.Props.FloatValues
import Mathlib.Analysis.SpecialFunctions.Trigonometric.Bounds
import Mathlib.Analysis.Real.Pi.Bounds

/-!
# C132: sweeps in double precision

A sweep computed with a rounding after every operation from arrays of frequencies and amplitudes on a time axis that starts at 0.
-/

set_option linter.unusedSectionVars false

namespace SweepDesign

open Spec

/-! ## Rounding a rounded number -/

theorem fl64_of_int (m k : ℤ) (hm : |m| ≤ 2 ^ 53) : fl64 (m * (2 : ℚ) ^ k) = m * (2 : ℚ) ^ k := by
  by_cases h0 : m = 0
  · simp [h0, fl64]
  have hk : (0 : ℚ) < 2 ^ k := by positivity
  have hq : (m : ℚ) * 2 ^ k ≠ 0 := mul_ne_zero (by exact_mod_cast h0) hk.ne'
  obtain ⟨b1, -⟩ := binExp_bounds _ hq
  set e := binExp ((m : ℚ) * 2 ^ k) with he
  have hm' : |(m : ℚ)| ≤ 2 ^ (53 : ℤ) := by
    have : ((|m| : ℤ) : ℚ) ≤ ((2 ^ 53 : ℤ) : ℚ) := by exact_mod_cast hm
    rw [Int.cast_abs] at this
    exact this.trans (by norm_num)
  rw [abs_mul, abs_of_pos hk] at b1
  have hle : e ≤ 53 + k := by
    have : (2 : ℚ) ^ e ≤ 2 ^ (53 + k) := by
      rw [zpow_add₀ (by norm_num)]
      exact b1.trans (mul_le_mul_of_nonneg_right hm' hk.le)
    exact (zpow_le_zpow_iff_right₀ (by norm_num)).1 this
  have hint : ∃ j : ℤ, (m : ℚ) * 2 ^ k / 2 ^ (e - 52) = j := by
    rcases hle.lt_or_eq with hlt | heq
    · refine ⟨m * 2 ^ (k - (e - 52)).toNat, ?_⟩
      have hn : ((k - (e - 52)).toNat : ℤ) = k - (e - 52) := Int.toNat_of_nonneg (by omega)
      rw [Int.cast_mul, Int.cast_pow, Int.cast_ofNat, ← zpow_natCast, hn, mul_div_assoc, ← zpow_sub₀ (by norm_num)]
    · have h53 : |(m : ℚ)| = 2 ^ (53 : ℤ) := by
        refine le_antisymm hm' ?_
        rw [heq, zpow_add₀ (by norm_num)] at b1
        exact le_of_mul_le_mul_right b1 hk
      have hz : (2 : ℚ) ^ k / 2 ^ (e - 52) = 2 ^ (-1 : ℤ) := by
        rw [← zpow_sub₀ (by norm_num)]; congr 1; omega
      rw [mul_div_assoc, hz]
      rcases abs_eq_abs.1 (h53.trans (abs_of_pos (by positivity : (0 : ℚ) < 2 ^ (53 : ℤ))).symm) with h | h
      · exact ⟨2 ^ 52, by rw [h]; norm_num⟩
      · exact ⟨-2 ^ 52, by rw [h]; norm_num⟩
  obtain ⟨j, hj⟩ := hint
  unfold fl64
  rw [if_neg hq, ← he, hj]
  have hr : pyRound (j : ℚ) = j := pyRound_of_near (by simp)
  rw [hr, ← hj, div_mul_cancel₀]
  positivity

theorem fl64_idem (q : ℚ) : fl64 (fl64 q) = fl64 q := by
  by_cases hq : q = 0
  · simp [hq, fl64]
  obtain ⟨-, b2⟩ := binExp_bounds q hq
  have e : fl64 q = (pyRound (q / (2 : ℚ) ^ (binExp q - 52)) : ℚ) * (2 : ℚ) ^ (binExp q - 52) := by
    unfold fl64; rw [if_neg hq]
  rw [e]
  refine fl64_of_int _ _ ?_
  set z := q / (2 : ℚ) ^ (binExp q - 52) with hz
  have hzb : |z| < 2 ^ 53 := by
    rw [hz, abs_div, abs_of_pos (by positivity : (0 : ℚ) < 2 ^ (binExp q - 52)), div_lt_iff₀ (by positivity)]
    refine b2.trans_eq ?_
    rw [← zpow_natCast (2 : ℚ) 53, ← zpow_add₀ (by norm_num)]
    congr 1
    push_cast; ring
  have hr := abs_sub_pyRound_le z
  have hlt : |(pyRound z : ℚ)| < 2 ^ 53 + 1 := by
    have := abs_sub_abs_le_abs_sub (pyRound z : ℚ) z
    rw [abs_sub_comm] at this
    linarith
  have : |pyRound z| < 2 ^ 53 + 1 := by exact_mod_cast hlt
  omega

section
variable {K : Type} [Field K] [LinearOrder K] [IsStrictOrderedRing K] [FloorRing K]
variable {fl : K → K} {u : K} {x : Axis K} {l : List K} {n : ℕ} {M : K} {f a : List K}

/-! ## Descriptions on an axis from 0 -/

/-- what the sweep asks of the rounding and of the time axis: rounding a rounded number changes nothing, 1 and the end of the axis are
representable, the axis begins at 0 -/
structure Spec.FloatAxisFromZero (fl : K → K) (x : Axis K) : Prop where
  idem : ∀ q, fl (fl q) = fl q
  one : fl 1 = 1
  stop : fl x.stop = x.stop
  start : x.start = 0

theorem Spec.WellResolved.gap {V : Type} {y : List V} (h : WellResolved fl u x l n M y) : 16 * u * M < (x.stop - x.start) / n := by
  have h1 := h.step'.1
  have h2 := h.resolved
  have h3 := h.positive
  have : 16 * u * M ≤ x.sample / 8 := by linarith
  linarith

theorem Spec.WellResolved.increasing {V : Type} {y : List V} (h : WellResolved fl u x l n M y) : l.Pairwise (· < ·) :=
  C92_increasing fl u h.rel h.unit x l h.array n h.many h.points M h.startBound h.stopBound h.gap

theorem fromZero_points (h : WellResolved fl u x l n M f) (hz : FloatAxisFromZero fl x) :
    l.head? = some 0 ∧ l.getLast? = some x.stop ∧ 0 < x.stop ∧ ∀ v ∈ l, fl v = v := by
  obtain ⟨h1, h2, -⟩ := C92_points fl u h.rel h.unit x l h.array n h.many h.points M h.startBound h.stopBound
  have h0 := fl_zero h.rel
  have hpos : 0 < x.stop := by
    have := h.step'.1
    have hs := h.positive
    have hn : (0 : K) < n := by exact_mod_cast h.many
    rw [hz.start, sub_zero, le_div_iff₀ hn] at this
    have : 0 < 7 / 8 * x.sample * n := by positivity
    linarith
  refine ⟨?_, h1, hpos, ?_⟩
  · have := h2 (by rw [hz.start, h0])
    rwa [hz.start] at this
  · have hla := (flArray_ok h.array).2
    rw [h.points] at hla
    intro v hv
    rw [hla] at hv
    unfold flLinspace at hv
    rw [if_neg (by have := h.many; omega)] at hv
    obtain ⟨i, -, rfl⟩ := List.mem_map.1 hv
    split_ifs
    · exact hz.stop
    · exact hz.idem _
    · exact hz.idem _

/-- on an axis from 0 an array of the length of the axis comes back as it is -/
theorem flCall_fromZero (h : WellResolved fl u x l n M f) (hz : FloatAxisFromZero fl x) (y : List K) (hy : y.length = n + 1) :
    (InterpArr.mk l y).flCall fl x = .ok y := by
  obtain ⟨h1, h2, h3, h4⟩ := fromZero_points h hz
  have hl : l.length = y.length := by rw [h.points, hy]
  have e : l.map (flInterpAt fl l y) = y := by
    apply List.ext_getElem (by simp [hl])
    intro i h1 h2
    rw [List.getElem_map]
    exact flInterpAt_sample fl l y h.increasing hl i (by omega)
  have em : l.map (fun v => fl (fl (fl (v * fl (fl (x.stop - x.start) / x.stop)) - 0) + x.start)) = l := by
    rw [hz.start, sub_zero, hz.stop, div_self h3.ne', hz.one]
    conv_rhs => rw [← List.map_id l]
    refine List.map_congr_left fun v hv => ?_
    simp only [mul_one, sub_zero, add_zero, h4 v hv, id]
  unfold InterpArr.flCall
  simp only [h1, h2]
  rw [if_neg h3.ne']
  simp only [h.array, except_bind_ok, em]
  rw [flInterp1d_inc fl l y l h.increasing hl (by rw [h.points]; omega), e]

theorem flExtract_own (h : WellResolved fl u x l n M f) (y : List K) (hy : y.length = n + 1) :
    flExtract fl x y = .ok ⟨l, y⟩ := by
  unfold flExtract
  simp only [h.array, except_bind_ok]
  rw [if_neg (by rw [h.points, hy]; simp)]
  rfl

/-- the sweep spelled out -/
theorem flArraySweep_eq (h : WellResolved fl u x l n M f) (hz : FloatAxisFromZero fl x) (ha : a.length = n + 1) (T : FlTrig K) (tht0 : K)
    (q : Rel K K) (hq : Rel.flIntegrate fl ⟨x, f⟩ = .ok q) (hl : q.y.length = n) :
    ∃ r, flArraySweep fl T x f a tht0 = .ok r ∧ r.frequencyTime = ⟨x, f⟩ ∧ r.amplitudeTime = ⟨x, a⟩ ∧
      r.rel = ⟨x, List.zipWith (fun c v => fl (c * T.sin (fl (v + tht0)))) a (0 :: q.y.map fun v => fl (T.twoPi * v))⟩ := by
  unfold flArraySweep
  rw [flExtract_own h f h.values, flExtract_own h a ha]
  simp only [except_bind_ok, flCall_fromZero h hz f h.values, flCall_fromZero h hz a ha]
  rw [flRel_ok h.array (by rw [h.points, h.values])]
  simp only [except_bind_ok, hq]
  rw [flRel_ok h.array (by rw [h.points]; simp [hl]), flRel_ok h.array (by rw [h.points, ha])]
  simp only [except_bind_ok]
  rw [flRel_ok h.array (by rw [h.points]; simp [hl, ha])]
  exact ⟨_, rfl, rfl, rfl, rfl⟩

/-- The sweep exists on the given axis. Both arrays come back unchanged as `frequency_time` and `amplitude_time`; the sweep has one sample
per point of the axis, the first is `a₀ · sin(tht0)`, rounded. -/
theorem C132_succeeds (h : WellResolved fl u x l n M f) (hz : FloatAxisFromZero fl x) (ha : a.length = n + 1) (T : FlTrig K) (tht0 : K) :
    ∃ r, flArraySweep fl T x f a tht0 = .ok r ∧ r.frequencyTime = ⟨x, f⟩ ∧ r.amplitudeTime = ⟨x, a⟩ ∧ r.rel.x = x ∧
      r.rel.y.length = n + 1 ∧ r.rel.y.getD 0 0 = fl (a.getD 0 0 * T.sin (fl tht0)) := by
  obtain ⟨q, hq, -, hl, -⟩ := C104_integrate h
  obtain ⟨r, h1, h2, h3, h4⟩ := flArraySweep_eq h hz ha T tht0 q hq hl
  refine ⟨r, h1, h2, h3, by rw [h4], by rw [h4]; simp [ha, hl], ?_⟩
  rw [h4]
  cases a with
  | nil => simp at ha
  | cons c a => simp

/-- An array of `k + 1` values, one or more but not as many as points, is stretched over the axis: there are points `c` in almost equal
steps over the axis such that the new array has the given values at these points, in particular the first and the last value at the ends
of the axis, and between two of them differs by at most `14 u` times the larger value from the straight line between their values. -/
theorem C132_resampled (h : WellResolved fl u x l n M f) (hst : fl x.start = x.start) (y : List K) (k : ℕ) (hk : 1 ≤ k)
    (hy : y.length = k + 1) (hkn : k ≠ n) (hres : 128 * u * M * k ≤ x.stop - x.start) :
    ∃ c z : List K, flExtract fl x y = .ok ⟨l, z⟩ ∧ z.length = n + 1 ∧ c.length = k + 1 ∧ c.Pairwise (· < ·) ∧
      (∀ j (hj : j < c.length), |c[j] - (x.start + j * ((x.stop - x.start) / k))| ≤ 8 * u * M) ∧
      z.head? = y.head? ∧ z.getLast? = y.getLast? ∧
      ∀ i (hi : i < l.length) (hi' : i < z.length),
        (∀ j (hj : j < c.length) (hj' : j < y.length), l[i] = c[j] → z[i] = y[j]) ∧
        (∀ j (hj : j + 1 < c.length) (hj' : j + 1 < y.length), c[j] < l[i] → l[i] < c[j + 1] →
          |z[i] - (y[j] + (l[i] - c[j]) / (c[j + 1] - c[j]) * (y[j + 1] - y[j]))| ≤ 14 * u * max |y[j]| |y[j + 1]|) := by
  have hu0 := relErr_nonneg h.rel
  have hkK : (0 : K) < k := by exact_mod_cast hk
  have hnK : (0 : K) < n := by exact_mod_cast h.many
  have hL : 0 < x.stop - x.start := by
    have := h.step'.1
    rw [le_div_iff₀ hnK] at this
    have h2 : 0 < 7 / 8 * x.sample * n := by have := h.positive; positivity
    linarith
  have hL2 : x.stop - x.start ≤ 2 * M := by
    linarith [(abs_le.1 h.startBound).1, (abs_le.1 h.stopBound).2]
  have hM : 0 < M := by linarith
  have hku : 64 * (k * u) ≤ 1 := by
    have : (64 * (k * u)) * (2 * M) ≤ 1 * (2 * M) := by linarith
    exact le_of_mul_le_mul_right this (by linarith)
  obtain ⟨d1, b1, e1⟩ := h.rel.factor (x.start - x.stop)
  obtain ⟨d2, b2, e2⟩ := h.rel.factor (fl (x.start - x.stop) / k)
  have tf := two_factors b1 b2
  have husq : u ^ 2 ≤ 1 / 100 * u := by rw [pow_two]; exact mul_le_mul_of_nonneg_right h.unit hu0
  set p := (1 + d1) * (1 + d2) with hp
  have hp1 := abs_le.1 tf
  have hppos : 97 / 100 < p := by linarith [h.unit]
  set smp := fl (fl (x.start - x.stop) / k) with hsmp
  have hs : smp = -((x.stop - x.start) / k * p) := by rw [e2, e1, hp]; ring
  have hs0 : smp ≠ 0 := by
    rw [hs, neg_ne_zero]
    exact mul_ne_zero (div_ne_zero hL.ne' hkK.ne') (by linarith)
  have hq : |(x.stop - x.start) / smp| = k / p := by
    rw [hs, div_neg, abs_neg, abs_of_pos (by positivity)]
    field_simp
  have hkp : |(k : K) / p - k| + k / p * (2 * u + u ^ 2) < 1 / 2 := by
    have hp0 : 0 < p := by linarith
    have g1 : (k : K) / p - k = k * (1 - p) / p := by field_simp
    have g2 : |(k : K) * (1 - p) / p| ≤ k * (2 * u + u ^ 2) / p := by
      rw [abs_div, abs_mul, abs_of_pos hkK, abs_of_pos hp0, abs_sub_comm]
      exact div_le_div_of_nonneg_right (mul_le_mul_of_nonneg_left tf hkK.le) hp0.le
    rw [g1]
    have g3 : (k : K) / p * (2 * u + u ^ 2) = k * (2 * u + u ^ 2) / p := by ring
    rw [g3]
    have g4 : (k : K) * (2 * u + u ^ 2) ≤ 1 / 30 := by
      have := mul_le_mul_of_nonneg_left husq hkK.le
      linarith
    have g5 : (k : K) * (2 * u + u ^ 2) / p ≤ 1 / 20 := by
      rw [div_le_iff₀ hp0]
      linarith
    linarith
  obtain ⟨c, hc, hcl, -⟩ := C92_size fl u h.rel ⟨x.start, x.stop, smp⟩ hs0 k (by simp only [hq]; exact hkp)
  obtain ⟨c1, c2, c3⟩ := C92_points fl u h.rel h.unit ⟨x.start, x.stop, smp⟩ c hc k hk hcl M h.startBound h.stopBound
  have hgap : 16 * u * M < (x.stop - x.start) / k := by
    rw [lt_div_iff₀ hkK]
    rcases hu0.lt_or_eq with h0 | h0
    · have : 0 < u * M * k := by positivity
      linarith
    · rw [← h0]; simpa using hL
  have hinc := C92_increasing fl u h.rel h.unit ⟨x.start, x.stop, smp⟩ c hc k hk hcl M h.startBound h.stopBound hgap
  obtain ⟨l1, l2, -⟩ := C92_points fl u h.rel h.unit x l h.array n h.many h.points M h.startBound h.stopBound
  have hcy : c.length = y.length := by rw [hcl, hy]
  have hex : flExtract fl x y = .ok ⟨l, l.map (flInterpAt fl c y)⟩ := by
    unfold flExtract flResample
    have hlen : (y.length : K) - 1 = k := by rw [hy]; push_cast; ring
    simp only [h.array, except_bind_ok, hlen, ← hsmp]
    rw [if_pos (by rw [h.points, hy]; omega), if_neg (by rw [hy]; omega)]
    simp only [hc, except_bind_ok]
    rw [flInterp1d_inc fl c y l hinc hcy (by rw [hcl]; omega)]
    rfl
  refine ⟨c, l.map (flInterpAt fl c y), hex, by rw [List.length_map, h.points], hcl, hinc, c3, ?_, ?_, ?_⟩
  · rw [List.head?_map, l2 hst, Option.map_some]
    have e : c.head? = some x.start := c2 hst
    rw [List.head?_eq_getElem?, List.getElem?_eq_getElem (by omega)] at e
    rw [← Option.some.inj e, flInterpAt_sample fl c y hinc hcy 0 (by omega), List.head?_eq_getElem?, List.getElem?_eq_getElem]
  · rw [List.getLast?_map, l1, Option.map_some]
    have e : c.getLast? = some x.stop := c1
    rw [List.getLast?_eq_getElem?, List.getElem?_eq_getElem (by omega)] at e
    rw [← Option.some.inj e, flInterpAt_sample fl c y hinc hcy _ (by omega), List.getLast?_eq_getElem?, List.getElem?_eq_getElem (by omega)]
    simp only [hcy]
  · intro i hi hi'
    refine ⟨fun j hj hj' e => ?_, fun j hj hj' g1 g2 => ?_⟩
    · rw [List.getElem_map, e]
      exact flInterpAt_sample fl c y hinc hcy j hj
    · rw [List.getElem_map, flInterpAt_mid fl c y _ hinc hcy j hj g1 g2]
      exact flInterp_error h.rel h.unit _ _ _ _ _ g1 g2

/-- Arrays of other lengths give the sweep of the stretched arrays, to which `C132_succeeds` and `C132_accuracy` apply. -/
theorem C132_other_length (h : WellResolved fl u x l n M f) (y z y' z' : List K) (hy : flExtract fl x y = .ok ⟨l, z⟩)
    (hz : z.length = n + 1) (hy' : flExtract fl x y' = .ok ⟨l, z'⟩) (hz' : z'.length = n + 1) (T : FlTrig K) (tht0 : K) :
    flArraySweep fl T x y y' tht0 = flArraySweep fl T x z z' tht0 := by
  unfold flArraySweep
  rw [hy, hy', flExtract_own h z hz, flExtract_own h z' hz']

/-- An array of a single value cannot be stretched. -/
theorem C132_one_value (h : WellResolved fl u x l n M f) (v : K) : flExtract fl x [v] = .error .zeroDivision := by
  unfold flExtract flResample
  simp only [h.array, except_bind_ok]
  rw [if_pos (by rw [h.points]; have := h.many; simp; omega)]
  simp

end

/-! ## How far the samples are from the sweep of the frequency law -/

section
variable {fl : ℚ → ℚ} {u : ℚ} {x : Axis ℚ} {l : List ℚ} {n : ℕ} {M : ℚ} {f a : List ℚ}

/-- `np.sin` is off by at most `σ`, `2 * np.pi` is `2π` up to the relative error `u` -/
structure Spec.TrigErr (T : FlTrig ℚ) (u : ℚ) (σ : ℝ) : Prop where
  sin : ∀ t : ℚ, |(T.sin t : ℝ) - Real.sin t| ≤ σ
  twoPi : |(T.twoPi : ℝ) - 2 * Real.pi| ≤ u * (2 * Real.pi)

/-- the trapezoid sum of the frequencies up to sample `i`: the cycles until then -/
def Spec.cycles (s : ℚ) (f : List ℚ) (i : ℕ) : ℚ := s * ∑ j ∈ Finset.range i, (f.getD j 0 + f.getD (j + 1) 0) / 2

/-- the same sum of the absolute values -/
def Spec.absCycles (s : ℚ) (f : List ℚ) (i : ℕ) : ℚ := s * ∑ j ∈ Finset.range i, (|f.getD j 0| + |f.getD (j + 1) 0|) / 2

theorem real_round (hfl : RelErr fl u) (q : ℚ) : |(fl q : ℝ) - q| ≤ u * |(q : ℝ)| := by
  have := hfl q
  exact_mod_cast this

/-- the rounded argument of the sine -/
theorem flPhase_close (hfl : RelErr fl u) (hu : u ≤ 1 / 100) {P : ℚ} (hP : |(P : ℝ) - 2 * Real.pi| ≤ u * (2 * Real.pi)) (tht0 v c A : ℚ) (i : ℕ)
    (hi : 56 * ((i : ℚ) + 1) * u ≤ 1) (hA : |c| ≤ A) (hv : |v - c| ≤ 2 * ((i + 3) * u) * A) :
    |(fl (fl (P * v) + tht0) : ℝ) - (2 * Real.pi * c + tht0)| ≤ (2 * (i + 1) + 8) * u * (2 * Real.pi * A) + u * |(tht0 : ℝ)| := by
  have hu0 : (0 : ℝ) ≤ u := by exact_mod_cast relErr_nonneg hfl
  have hu1 : (u : ℝ) ≤ 1 / 100 := by
    have : ((u : ℚ) : ℝ) ≤ ((1 / 100 : ℚ) : ℝ) := by exact_mod_cast hu
    simpa using this
  have hi' : 56 * ((i : ℝ) + 1) * u ≤ 1 := by exact_mod_cast hi
  have hA' : |(c : ℝ)| ≤ A := by exact_mod_cast hA
  have hv' : |(v : ℝ) - c| ≤ 2 * ((i + 3) * u) * A := by exact_mod_cast hv
  have hA0 : (0 : ℝ) ≤ A := (abs_nonneg _).trans hA'
  have hπ : 0 < 2 * Real.pi := by have := Real.pi_pos; positivity
  set p := 2 * Real.pi with hp
  have hiu : (0 : ℝ) ≤ i * u := by positivity
  have hpA : 0 ≤ p * A := by positivity
  have hvs : |(v : ℝ)| ≤ A + 2 * ((i + 3) * u) * A := by
    have := abs_sub_abs_le_abs_sub (v : ℝ) c
    linarith
  have hk : 2 * (((i : ℝ) + 3) * u) ≤ 11 / 100 := by nlinarith
  have hvs' : |(v : ℝ)| ≤ 111 / 100 * A := by
    have := mul_le_mul_of_nonneg_right hk hA0
    linarith
  have hPs : |(P : ℝ)| ≤ 101 / 100 * p := by
    have := abs_sub_abs_le_abs_sub (P : ℝ) p
    have h2 := mul_le_mul_of_nonneg_right hu1 hπ.le
    rw [abs_of_pos hπ] at this
    linarith
  set w := fl (P * v) with hw
  have e1 : |(w : ℝ) - P * v| ≤ u * (113 / 100 * (p * A)) := by
    have := real_round hfl (P * v)
    push_cast at this
    refine this.trans (mul_le_mul_of_nonneg_left ?_ hu0)
    rw [abs_mul]
    have := mul_le_mul hPs hvs' (abs_nonneg _) (by positivity)
    refine this.trans ?_
    linarith
  have e2 : |((P : ℝ) - p) * v| ≤ u * (111 / 100 * (p * A)) := by
    rw [abs_mul]
    have := mul_le_mul hP hvs' (abs_nonneg _) (by positivity)
    linarith
  have e3 : |p * ((v : ℝ) - c)| ≤ 2 * ((i + 3) * u) * (p * A) := by
    rw [abs_mul, abs_of_pos hπ]
    have := mul_le_mul_of_nonneg_left hv' hπ.le
    linarith
  have e4 : |(w : ℝ) - p * c| ≤ (2 * i + 824 / 100) * u * (p * A) := by
    have e : (w : ℝ) - p * c = (w - P * v) + (((P : ℝ) - p) * v + p * ((v : ℝ) - c)) := by ring
    rw [e]
    have h1 := abs_add_le ((w : ℝ) - P * v) (((P : ℝ) - p) * v + p * ((v : ℝ) - c))
    have h2 := abs_add_le (((P : ℝ) - p) * v) (p * ((v : ℝ) - c))
    linarith
  have e5 : |(w : ℝ) + tht0| ≤ 117 / 100 * (p * A) + |(tht0 : ℝ)| := by
    have e : (w : ℝ) + tht0 = (w - p * c) + (p * c + tht0) := by ring
    rw [e]
    have h1 := abs_add_le ((w : ℝ) - p * c) (p * c + tht0)
    have h2 := abs_add_le (p * c) (tht0 : ℝ)
    rw [abs_mul, abs_of_pos hπ] at h2
    have h3 := mul_le_mul_of_nonneg_left hA' hπ.le
    have h4 : (2 * (i : ℝ) + 824 / 100) * u ≤ 17 / 100 := by nlinarith
    have h5 := mul_le_mul_of_nonneg_right h4 hpA
    linarith
  have e6 := real_round hfl (w + tht0)
  push_cast at e6
  have e7 := mul_le_mul_of_nonneg_left e5 hu0
  have e : (fl (w + tht0) : ℝ) - (p * c + tht0) = (fl (w + tht0) - (w + tht0)) + (w - p * c) := by ring
  rw [e]
  have h1 := abs_add_le ((fl (w + tht0) : ℝ) - (w + tht0)) (w - p * c)
  have h2 : 0 ≤ (u : ℝ) * (p * A) := by positivity
  linarith

theorem real_abs_sin_sub_le (a b : ℝ) : |Real.sin a - Real.sin b| ≤ |a - b| := by
  rw [Real.sin_sub_sin, abs_mul, abs_mul, abs_two]
  have h1 := Real.abs_sin_le_abs (x := (a - b) / 2)
  have h2 := Real.abs_cos_le_one ((a + b) / 2)
  have h3 : |(a - b) / 2| = |a - b| / 2 := by rw [abs_div, abs_two]
  have := mul_le_mul (mul_le_mul_of_nonneg_left h1 (by norm_num : (0 : ℝ) ≤ 2)) h2 (abs_nonneg _) (by positivity)
  rw [h3] at this
  linarith

/-- a sample of the sweep from its rounded phase -/
theorem flSample_close (hfl : RelErr fl u) (hu : u ≤ 1) {T : FlTrig ℚ} {σ : ℝ} (hT : ∀ t : ℚ, |(T.sin t : ℝ) - Real.sin t| ≤ σ) (c t : ℚ) (θ E : ℝ)
    (h : |(t : ℝ) - θ| ≤ E) : |(fl (c * T.sin t) : ℝ) - c * Real.sin θ| ≤ |(c : ℝ)| * (E + 2 * σ + u) := by
  have hu0 : (0 : ℝ) ≤ u := by exact_mod_cast relErr_nonneg hfl
  have hu1 : (u : ℝ) ≤ 1 := by exact_mod_cast hu
  have hσ : 0 ≤ σ := (abs_nonneg _).trans (hT t)
  have h1 : |(T.sin t : ℝ) - Real.sin θ| ≤ σ + E := by
    have e : (T.sin t : ℝ) - Real.sin θ = (T.sin t - Real.sin t) + (Real.sin t - Real.sin θ) := by ring
    rw [e]
    have := abs_add_le ((T.sin t : ℝ) - Real.sin t) (Real.sin t - Real.sin θ)
    have := real_abs_sin_sub_le (t : ℝ) θ
    linarith [hT t]
  have h2 : |(T.sin t : ℝ)| ≤ 1 + σ := by
    have := abs_sub_abs_le_abs_sub (T.sin t : ℝ) (Real.sin t)
    linarith [hT t, Real.abs_sin_le_one (t : ℝ)]
  have h3 := real_round hfl (c * T.sin t)
  push_cast at h3
  rw [abs_mul] at h3
  have h4 : |(c : ℝ) * T.sin t - c * Real.sin θ| = |(c : ℝ)| * |(T.sin t : ℝ) - Real.sin θ| := by rw [← mul_sub, abs_mul]
  have e : (fl (c * T.sin t) : ℝ) - c * Real.sin θ = (fl (c * T.sin t) - c * T.sin t) + (c * T.sin t - c * Real.sin θ) := by ring
  rw [e]
  have h5 := abs_add_le ((fl (c * T.sin t) : ℝ) - c * T.sin t) (c * T.sin t - c * Real.sin θ)
  rw [h4] at h5
  have hc := abs_nonneg (c : ℝ)
  have h6 := mul_le_mul_of_nonneg_left h1 hc
  have h7 := mul_le_mul_of_nonneg_left (mul_le_mul_of_nonneg_left h2 hc) hu0
  have h8 : (u : ℝ) * (|(c : ℝ)| * σ) ≤ |(c : ℝ)| * σ := mul_le_of_le_one_left (by positivity) hu1
  linarith

/-- Every sample of the sweep is `aᵢ · sin(2π · cᵢ + tht0)` with `cᵢ` the trapezoid sum of the frequencies up to `i`: exactly but for
`(2 i + 8) u` of the phase, `u` of `tht0`, the error of the sine and one rounding. -/
theorem C132_accuracy (h : WellResolved fl u x l n M f) (hz : FloatAxisFromZero fl x) (ha : a.length = n + 1) (T : FlTrig ℚ) (σ : ℝ)
    (hT : TrigErr T u σ) (tht0 : ℚ) (r : FlSweep ℚ) (hr : flArraySweep fl T x f a tht0 = .ok r) (i : ℕ) (hi : i ≤ n) :
    |(r.rel.y.getD i 0 : ℝ) - a.getD i 0 * Real.sin (2 * Real.pi * cycles x.sample f i + tht0)| ≤
      |(a.getD i 0 : ℝ)| * ((2 * i + 8) * u * (2 * Real.pi * absCycles x.sample f i) + u * |(tht0 : ℝ)| + 2 * σ + u) := by
  obtain ⟨q, hq, -, hl, hacc⟩ := C104_integrate h
  obtain ⟨r', h1, -, -, h4⟩ := flArraySweep_eq h hz ha T tht0 q hq hl
  rw [hr] at h1
  obtain rfl := Except.ok.inj h1
  have hu1 : u ≤ 1 := h.unit.trans (by norm_num)
  have hlen : i < (List.zipWith (fun c v => fl (c * T.sin (fl (v + tht0)))) a (0 :: q.y.map fun v => fl (T.twoPi * v))).length := by
    simp [ha, hl]; omega
  rw [h4]
  dsimp only
  rw [getD_lt _ i 0 hlen, List.getElem_zipWith, getD_lt a i 0 (by omega)]
  refine flSample_close h.rel hu1 hT.sin _ _ _ _ ?_
  cases i with
  | zero =>
    have := real_round h.rel tht0
    simpa [cycles, absCycles] using this
  | succ i =>
    have hi' : i < q.y.length := by omega
    have hb : |cycles x.sample f (i + 1)| ≤ absCycles x.sample f (i + 1) := by
      unfold cycles absCycles
      rw [abs_mul, abs_of_pos h.positive]
      refine mul_le_mul_of_nonneg_left ((Finset.abs_sum_le_sum_abs _ _).trans (Finset.sum_le_sum fun j _ => ?_)) h.positive.le
      rw [abs_div, abs_two]
      exact div_le_div_of_nonneg_right (abs_add_le _ _) (by norm_num)
    have hun : 56 * ((i : ℚ) + 1) * u ≤ 1 := by
      have := h.units
      have h3 : (i : ℚ) + 1 ≤ n := by exact_mod_cast hi
      have := mul_le_mul_of_nonneg_right h3 (relErr_nonneg h.rel)
      linarith
    have := flPhase_close h.rel h.unit hT.twoPi tht0 q.y[i] _ _ i hun hb (hacc i hi')
    simp only [List.getElem_cons_succ, List.getElem_map]
    push_cast
    exact this

/-! ## The linear sweep -/

/-- the rounded frequencies of the linear sweep -/
theorem flLinear_close (h : WellResolved fl u x l n M f) (hz : FloatAxisFromZero fl x) (fs fe G : ℚ) (hs : |fs| ≤ G) (he : |fe| ≤ G) :
    ∃ g, flLinearArray fl l fs fe = .ok g ∧ g.length = n + 1 ∧
      ∀ j ≤ n, |g.getD j 0 - (fs + (fe - fs) * j / n)| ≤ 25 * u * G := by
  obtain ⟨h1, h2, h3, -⟩ := fromZero_points h hz
  have hu0 := relErr_nonneg h.rel
  have hu := h.unit
  have hn : (0 : ℚ) < n := by exact_mod_cast h.many
  obtain ⟨-, -, hp⟩ := C92_points fl u h.rel h.unit x l h.array n h.many h.points x.stop (by rw [hz.start, abs_zero]; exact h3.le)
    (abs_of_pos h3).le
  have hG : 0 ≤ G := (abs_nonneg _).trans hs
  refine ⟨l.map fun t => fl (fl (fl (t * fl (fe - fs)) / x.stop) + fs), ?_, by simp [h.points], fun j hj => ?_⟩
  · unfold flLinearArray
    simp only [h1, h2, sub_zero, hz.stop]
    rw [if_neg h3.ne']
  have hjl : j < l.length := by rw [h.points]; omega
  rw [getD_lt _ j 0 (by simpa using hjl), List.getElem_map]
  have hpj := hp j hjl
  rw [hz.start, sub_zero, zero_add] at hpj
  set t := l[j] with ht
  -- the position in the axis
  have hj1 : (j : ℚ) / n ≤ 1 := by rw [div_le_one hn]; exact_mod_cast hj
  have hj0 : (0 : ℚ) ≤ (j : ℚ) / n := by positivity
  set κ := (j : ℚ) / n with hκ
  have hτ : |t / x.stop - κ| ≤ 8 * u := by
    have e : t / x.stop - κ = (t - j * (x.stop / n)) / x.stop := by rw [hκ]; field_simp
    rw [e, abs_div, abs_of_pos h3, div_le_iff₀ h3]
    exact hpj
  set τ := t / x.stop with hτd
  have hτ1 : |τ| ≤ 108 / 100 := by
    have := abs_sub_abs_le_abs_sub τ κ
    rw [abs_of_nonneg hj0] at this
    linarith
  obtain ⟨d1, b1, c1⟩ := h.rel.factor (fe - fs)
  obtain ⟨d2, b2, c2⟩ := h.rel.factor (t * fl (fe - fs))
  obtain ⟨d3, b3, c3⟩ := h.rel.factor (fl (t * fl (fe - fs)) / x.stop)
  have hv : fl (fl (t * fl (fe - fs)) / x.stop) = (fe - fs) * τ * ((1 + d1) * (1 + d2) * (1 + d3)) := by
    rw [c3, c2, c1, hτd]; ring
  have h3f := three_factors hu b1 b2 b3
  set v := fl (fl (t * fl (fe - fs)) / x.stop) with hvd
  set D := fe - fs with hD
  have hDG : |D| ≤ 2 * G := by
    have := abs_sub fe fs
    linarith
  have e1 : |v - D * κ| ≤ 227 / 10 * u * G := by
    have e : v - D * κ = D * ((τ - κ) + τ * ((1 + d1) * (1 + d2) * (1 + d3) - 1)) := by rw [hv]; ring
    rw [e, abs_mul]
    have a1 := abs_add_le (τ - κ) (τ * ((1 + d1) * (1 + d2) * (1 + d3) - 1))
    have a2 : |τ * ((1 + d1) * (1 + d2) * (1 + d3) - 1)| ≤ 108 / 100 * (31 / 10 * u) := by
      rw [abs_mul]
      exact mul_le_mul hτ1 h3f (abs_nonneg _) (by norm_num)
    have a3 : |(τ - κ) + τ * ((1 + d1) * (1 + d2) * (1 + d3) - 1)| ≤ 1135 / 100 * u := by linarith
    have := mul_le_mul hDG a3 (abs_nonneg _) (by positivity)
    linarith
  have e2 : |fs + D * κ| ≤ G := by
    have e : fs + D * κ = (1 - κ) * fs + κ * fe := by rw [hD]; ring
    rw [e]
    have a1 := abs_add_le ((1 - κ) * fs) (κ * fe)
    rw [abs_mul, abs_mul, abs_of_nonneg hj0, abs_of_nonneg (by linarith : (0 : ℚ) ≤ 1 - κ)] at a1
    have a2 := mul_le_mul_of_nonneg_left hs (by linarith : (0 : ℚ) ≤ 1 - κ)
    have a3 := mul_le_mul_of_nonneg_left he hj0
    linarith
  have e3 := h.rel (v + fs)
  have e4 : |v + fs| ≤ 123 / 100 * G := by
    have e : v + fs = (v - D * κ) + (fs + D * κ) := by ring
    rw [e]
    have a1 := abs_add_le (v - D * κ) (fs + D * κ)
    have a2 := mul_le_mul_of_nonneg_right hu hG
    linarith
  have e5 := mul_le_mul_of_nonneg_left e4 hu0
  have e : fl (v + fs) - (fs + D * j / n) = (fl (v + fs) - (v + fs)) + (v - D * κ) := by rw [hκ]; ring
  rw [e]
  have a1 := abs_add_le (fl (v + fs) - (v + fs)) (v - D * κ)
  have a2 : 0 ≤ u * G := by positivity
  linarith

/-- the trapezoid sum of a linear law is exact -/
theorem linear_cycles (s fs D : ℚ) (m : ℚ) (hm : m ≠ 0) (i : ℕ) :
    s * ∑ j ∈ Finset.range i, ((fs + D * j / m) + (fs + D * (j + 1 : ℕ) / m)) / 2 = s * (fs * i + D * i ^ 2 / (2 * m)) := by
  congr 1
  induction i with
  | zero => simp
  | succ i ih =>
    rw [Finset.sum_range_succ, ih]
    push_cast
    field_simp
    ring

theorem chirp_phase (fs fe s n i : ℝ) (hs : s ≠ 0) (hn : n ≠ 0) :
    fs * (i * s) + (fe - fs) * (i * s) ^ 2 / (2 * (n * s)) = s * (fs * i + (fe - fs) * i ^ 2 / (2 * n)) := by
  field_simp

theorem chirp_close {y p c c' A B u i σ : ℝ} (hp : 0 ≤ p) (hu : 0 ≤ u) (hi : 0 ≤ i) (hB : 0 ≤ B)
    (h : |y - Real.sin (p * c)| ≤ (2 * i + 8) * u * (p * A) + 2 * σ + u) (hc : |c - c'| ≤ 25 * u * B) (hA : A ≤ 125 / 100 * B) :
    |y - Real.sin (p * c')| ≤ (3 * i + 37) * u * (p * B) + 2 * σ + u := by
  have d1 := real_abs_sin_sub_le (p * c) (p * c')
  rw [← mul_sub, abs_mul, abs_of_nonneg hp] at d1
  have d2 := mul_le_mul_of_nonneg_left hc hp
  have d3 := abs_add_le (y - Real.sin (p * c)) (Real.sin (p * c) - Real.sin (p * c'))
  rw [sub_add_sub_cancel] at d3
  have d5 : (2 * i + 8) * u * (p * A) ≤ (2 * i + 8) * u * (p * (125 / 100 * B)) :=
    mul_le_mul_of_nonneg_left (mul_le_mul_of_nonneg_left hA hp) (by positivity)
  have d6 : 0 ≤ i * (u * (p * B)) := by positivity
  have d7 : 0 ≤ u * (p * B) := by positivity
  linarith

/-- The linear sweep from `fs` to `fe` exists, and its samples are those of the chirp `sin(2π (fs t + (fe - fs) t² / (2 T)))` at
`t = i · sample` with `T = n · sample`, up to `(3 i + 37) u` times the largest phase a tone of at most `G` reaches by then, the error of
the sine and one rounding. -/
theorem C132_linear (h : WellResolved fl u x l n M f) (hz : FloatAxisFromZero fl x) (fs fe G : ℚ) (hs : |fs| ≤ G) (he : |fe| ≤ G)
    (T : FlTrig ℚ) (σ : ℝ) (hT : TrigErr T u σ) :
    ∃ r, flLinearSweep fl T x fs fe = .ok r ∧ r.rel.x = x ∧ r.rel.y.length = n + 1 ∧ r.amplitudeTime.y = List.replicate (n + 1) 1 ∧
      (∀ i ≤ n, |r.frequencyTime.y.getD i 0 - (fs + (fe - fs) * i / n)| ≤ 25 * u * G) ∧
      ∀ i : ℕ, i ≤ n → |(r.rel.y.getD i 0 : ℝ) - Real.sin (2 * Real.pi * (fs * (i * x.sample) +
          (fe - fs) * (i * x.sample) ^ 2 / (2 * (n * x.sample))))| ≤
        (3 * i + 37) * u * (2 * Real.pi * (G * (i * x.sample))) + 2 * σ + u := by
  obtain ⟨g, hg, hgl, hgc⟩ := flLinear_close h hz fs fe G hs he
  have hw : WellResolved fl u x l n M g := { h with values := hgl }
  have ha : (List.replicate l.length (1 : ℚ)).length = n + 1 := by rw [List.length_replicate, h.points]
  obtain ⟨r, hr, q1, q2, q3, q4, -⟩ := C132_succeeds hw hz ha T 0
  have hn : (n : ℚ) ≠ 0 := by exact_mod_cast (by have := h.many; omega : n ≠ 0)
  have hG : 0 ≤ G := (abs_nonneg _).trans hs
  have hs0 := h.positive
  have hu0 := relErr_nonneg h.rel
  refine ⟨r, ?_, q3, q4, by rw [q2, h.points], by rw [q1]; exact hgc, fun i hi => ?_⟩
  · unfold flLinearSweep
    simp only [h.array, except_bind_ok, hg]
    exact hr
  have acc := C132_accuracy hw hz ha T σ hT 0 r hr i hi
  have e1 : (List.replicate l.length (1 : ℚ)).getD i 0 = 1 := by rw [getD_lt _ i 0 (by omega)]; simp
  rw [e1] at acc
  simp only [Rat.cast_one, Rat.cast_zero, abs_one, abs_zero, one_mul, add_zero, mul_zero] at acc
  -- the cycles
  have hi0 : (0 : ℚ) ≤ i * x.sample := by positivity
  have hc : |cycles x.sample g i - x.sample * (fs * i + (fe - fs) * i ^ 2 / (2 * n))| ≤ 25 * u * (G * (i * x.sample)) := by
    rw [← linear_cycles x.sample fs (fe - fs) n hn i]
    unfold cycles
    rw [← mul_sub, ← Finset.sum_sub_distrib, abs_mul, abs_of_pos hs0]
    have : |∑ j ∈ Finset.range i, ((g.getD j 0 + g.getD (j + 1) 0) / 2 - ((fs + (fe - fs) * j / n) + (fs + (fe - fs) * (j + 1 : ℕ) / n)) / 2)|
        ≤ ∑ j ∈ Finset.range i, 25 * u * G := by
      refine (Finset.abs_sum_le_sum_abs _ _).trans (Finset.sum_le_sum fun j hj => ?_)
      have hj := Finset.mem_range.1 hj
      have b1 := abs_le.1 (hgc j (by omega))
      have b2 := abs_le.1 (hgc (j + 1) (by omega))
      rw [abs_le]
      constructor <;> linarith [b1.1, b1.2, b2.1, b2.2]
    rw [Finset.sum_const, Finset.card_range, nsmul_eq_mul] at this
    have := mul_le_mul_of_nonneg_left this hs0.le
    linarith
  have hA : absCycles x.sample g i ≤ 125 / 100 * (G * (i * x.sample)) := by
    unfold absCycles
    have : ∑ j ∈ Finset.range i, (|g.getD j 0| + |g.getD (j + 1) 0|) / 2 ≤ ∑ j ∈ Finset.range i, 125 / 100 * G := by
      refine Finset.sum_le_sum fun j hj => ?_
      have hj := Finset.mem_range.1 hj
      have key : ∀ k ≤ n, |g.getD k 0| ≤ 125 / 100 * G := by
        intro k hk
        have b1 := hgc k hk
        have b2 : |fs + (fe - fs) * k / n| ≤ G := by
          have hk1 : (k : ℚ) / n ≤ 1 := by rw [div_le_one (by positivity)]; exact_mod_cast hk
          have hk0 : (0 : ℚ) ≤ (k : ℚ) / n := by positivity
          have e : fs + (fe - fs) * k / n = (1 - (k : ℚ) / n) * fs + (k : ℚ) / n * fe := by ring
          rw [e]
          have a1 := abs_add_le ((1 - (k : ℚ) / n) * fs) ((k : ℚ) / n * fe)
          rw [abs_mul, abs_mul, abs_of_nonneg hk0, abs_of_nonneg (by linarith : (0 : ℚ) ≤ 1 - (k : ℚ) / n)] at a1
          have a2 := mul_le_mul_of_nonneg_left hs (by linarith : (0 : ℚ) ≤ 1 - (k : ℚ) / n)
          have a3 := mul_le_mul_of_nonneg_left he hk0
          linarith
        have b3 := abs_sub_abs_le_abs_sub (g.getD k 0) (fs + (fe - fs) * k / n)
        have b4 := mul_le_mul_of_nonneg_right h.unit hG
        linarith
      have k1 := key j (by omega)
      have k2 := key (j + 1) (by omega)
      linarith
    rw [Finset.sum_const, Finset.card_range, nsmul_eq_mul] at this
    have := mul_le_mul_of_nonneg_left this hs0.le
    linarith
  have hπ : 0 < 2 * Real.pi := by have := Real.pi_pos; positivity
  have hur : (0 : ℝ) ≤ u := by exact_mod_cast hu0
  have hc' : |((cycles x.sample g i : ℚ) : ℝ) - (x.sample : ℝ) * ((fs : ℝ) * (i : ℝ) + ((fe : ℝ) - (fs : ℝ)) * (i : ℝ) ^ 2 / (2 * (n : ℝ)))| ≤
      25 * (u : ℝ) * ((G : ℝ) * ((i : ℝ) * (x.sample : ℝ))) := by
    exact_mod_cast hc
  have hA' : ((absCycles x.sample g i : ℚ) : ℝ) ≤ 125 / 100 * ((G : ℝ) * ((i : ℝ) * (x.sample : ℝ))) := by
    have : ((absCycles x.sample g i : ℚ) : ℝ) ≤ ((125 / 100 * (G * (i * x.sample)) : ℚ) : ℝ) := by exact_mod_cast hA
    push_cast at this
    exact this
  have hs' : (x.sample : ℝ) ≠ 0 := by exact_mod_cast hs0.ne'
  have hn' : (n : ℝ) ≠ 0 := by exact_mod_cast hn
  have hB0 : (0 : ℝ) ≤ (G : ℝ) * ((i : ℝ) * (x.sample : ℝ)) := by
    have : (0 : ℚ) ≤ G * (i * x.sample) := by positivity
    exact_mod_cast this
  rw [chirp_phase _ _ _ _ _ hs' hn']
  exact chirp_close hπ.le hur (Nat.cast_nonneg i) hB0 acc hc' hA'

/-! ## Doubles -/

/-- `2 * np.pi` of numpy -/
def Spec.npTwoPi : ℚ := 2 * (884279719003555 / 281474976710656)

theorem npTwoPi_close : |(npTwoPi : ℝ) - 2 * Real.pi| ≤ ((2 ^ (-53 : ℤ) : ℚ) : ℝ) * (2 * Real.pi) := by
  have h1 := Real.pi_gt_d20
  have h2 := Real.pi_lt_d20
  unfold npTwoPi
  push_cast
  rw [abs_le]
  constructor <;> norm_num at h1 h2 ⊢ <;> linarith

theorem npTwoPi_double : fl64 npTwoPi = npTwoPi := by decide +kernel

/-- With doubles, numpy's `2 * np.pi` and a sine within four units of the last place: a linear sweep of at most 65536 samples and at most
2000 cycles of its highest frequency is the chirp up to `3e-7`. -/
theorem C132_double (h : WellResolved fl64 (2 ^ (-53 : ℤ)) x l n M f) (hstart : x.start = 0) (hstop : fl64 x.stop = x.stop)
    (fs fe G : ℚ) (hs : |fs| ≤ G) (he : |fe| ≤ G) (sin : ℚ → ℚ) (hsin : ∀ t : ℚ, |(sin t : ℝ) - Real.sin t| ≤ 2 ^ (-51 : ℤ))
    (hn : n < 65536) (hc : G * (n * x.sample) ≤ 2000) :
    ∃ r, flLinearSweep fl64 ⟨sin, npTwoPi⟩ x fs fe = .ok r ∧ r.rel.x = x ∧ r.rel.y.length = n + 1 ∧
      ∀ i : ℕ, i ≤ n → |(r.rel.y.getD i 0 : ℝ) - Real.sin (2 * Real.pi * (fs * (i * x.sample) +
          (fe - fs) * (i * x.sample) ^ 2 / (2 * (n * x.sample))))| ≤ 3 / 10 ^ 7 := by
  have hz : FloatAxisFromZero fl64 x := ⟨fl64_idem, by decide +kernel, hstop, hstart⟩
  obtain ⟨r, h1, h2, h3, -, -, h4⟩ := C132_linear h hz fs fe G hs he ⟨sin, npTwoPi⟩ _ ⟨hsin, npTwoPi_close⟩
  refine ⟨r, h1, h2, h3, fun i hi => (h4 i hi).trans ?_⟩
  have hi' : (i : ℝ) ≤ 65536 := by exact_mod_cast (by omega : i ≤ 65536)
  have hG : 0 ≤ G := (abs_nonneg _).trans hs
  have hB : G * (i * x.sample) ≤ 2000 := by
    refine le_trans (mul_le_mul_of_nonneg_left (mul_le_mul_of_nonneg_right ?_ h.positive.le) hG) hc
    exact_mod_cast hi
  have hB' : (G : ℝ) * (i * x.sample) ≤ 2000 := by exact_mod_cast hB
  have hB0 : (0 : ℝ) ≤ G * (i * x.sample) := by
    have : (0 : ℚ) ≤ G * (i * x.sample) := by have := h.positive; positivity
    exact_mod_cast this
  have hpi := Real.pi_lt_d2
  have hpi0 := Real.pi_pos
  have b1 : 2 * Real.pi * (G * (i * x.sample)) ≤ 2 * 3.15 * 2000 :=
    mul_le_mul (by linarith) hB' hB0 (by norm_num)
  have b2 : (3 * (i : ℝ) + 37) * ((2 ^ (-53 : ℤ) : ℚ) : ℝ) ≤ (3 * 65536 + 37) * ((2 ^ (-53 : ℤ) : ℚ) : ℝ) :=
    mul_le_mul_of_nonneg_right (by linarith) (by norm_num)
  have b3 := mul_le_mul b2 b1 (by positivity) (by norm_num)
  refine (add_le_add_left (add_le_add_left b3 _) _).trans ?_
  norm_num

/-- a tenth of a second per sample, from 0 to 4 Hz: the linear sweep of eleven samples follows the chirp -/
example (sin : ℚ → ℚ) (hsin : ∀ t : ℚ, |(sin t : ℝ) - Real.sin t| ≤ 2 ^ (-51 : ℤ)) :
    ∃ r, flLinearSweep fl64 ⟨sin, npTwoPi⟩ ⟨0, 1, fl64 (1 / 10)⟩ 0 4 = .ok r ∧ r.rel.y.length = 11 := by
  obtain ⟨r, h1, -, h3, -⟩ := C132_double (tenths_values (List.replicate 11 0) rfl) rfl (by decide +kernel) 0 4 4 (by norm_num) (by norm_num)
    sin hsin (by norm_num) (by decide +kernel)
  exact ⟨r, h1, h3⟩

/-- three values stretched over eleven points (the axis is well resolved, `tenths_wellResolved`) -/
example : flExtract fl64 ⟨0, 1, fl64 (1 / 10)⟩ [1, 3, 2] =
    .ok ⟨flLinspace fl64 0 1 11, (flLinspace fl64 0 1 11).map (flInterpAt fl64 [0, 1 / 2, 1] [1, 3, 2])⟩ ∧
    (128 : ℚ) * 2 ^ (-53 : ℤ) * 1 * (2 : ℕ) ≤ 1 - 0 := by
  refine ⟨?_, by norm_num⟩
  decide +kernel

/-- such a sine exists -/
example : ∃ sin : ℚ → ℚ, ∀ t : ℚ, |(sin t : ℝ) - Real.sin t| ≤ 2 ^ (-51 : ℤ) := by
  have : ∀ t : ℚ, ∃ q : ℚ, |(q : ℝ) - Real.sin t| ≤ 2 ^ (-51 : ℤ) := by
    intro t
    obtain ⟨q, h1, h2⟩ := exists_rat_btwn (show Real.sin t < Real.sin t + 2 ^ (-51 : ℤ) by linarith [(by positivity : (0 : ℝ) < 2 ^ (-51 : ℤ))])
    exact ⟨q, by rw [abs_le]; constructor <;> linarith [(by positivity : (0 : ℝ) < 2 ^ (-51 : ℤ))]⟩
  exact ⟨fun t => (this t).choose, fun t => (this t).choose_spec⟩

end

end SweepDesign
