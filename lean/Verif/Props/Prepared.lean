import Verif.Lemmas.Tukey
import Verif.Lemmas.Spectral
import Verif.Props.Sweep

set_option linter.unusedSectionVars false

/-!
# C51, C52, C53, C68: linear laws, the Tukey envelope, the linear and the shuffle sweep
-/

namespace SweepDesign

open Spec

/-! ## C68 -/

section
variable {K : Type} [Field K] [LinearOrder K] [IsStrictOrderedRing K] [FloorRing K]

/-- **C68** `f_t_linear_function` is affine with slope `(f_end-f_start)/(t_end-t_start)` and value `f_start` at time 0;
its values at the start and end times are `f_start` and `f_end` exactly if the start time is 0 or the frequencies are
equal. Equal times raise. -/
theorem C68_function (ts te fs fe : K) :
    (ts = te → ∀ t, ftLinear ts te fs fe t = .error .zeroDivision) ∧
    (ts ≠ te → ∃ g : K → K, (∀ t, ftLinear ts te fs fe t = .ok (g t)) ∧ g 0 = fs ∧
      (∀ t t', g t' - g t = (fe - fs) / (te - ts) * (t' - t)) ∧
      (g ts = fs ↔ ts = 0 ∨ fs = fe) ∧ (g te = fe ↔ ts = 0 ∨ fs = fe)) := by
  constructor
  · rintro rfl t
    simp [ftLinear]
  · intro h
    have hne : te - ts ≠ 0 := sub_ne_zero.2 (Ne.symm h)
    refine ⟨fun t => t * (fe - fs) / (te - ts) + fs, fun t => by simp [ftLinear, hne], by simp, ?_, ?_, ?_⟩
    · intro t t'
      field_simp
      ring
    · rw [add_eq_right, div_eq_zero_iff, mul_eq_zero, sub_eq_zero (a := fe)]
      simp only [hne, or_false]
      rw [eq_comm (a := fe)]
    · have : te * (fe - fs) / (te - ts) + fs = fe ↔ ts * (fe - fs) = 0 := by
        rw [← sub_eq_zero (b := fe), ← mul_right_inj' hne]
        have : (te - ts) * (te * (fe - fs) / (te - ts) + fs - fe) = ts * (fe - fs) := by
          field_simp
          ring
        rw [this, mul_zero]
      rw [this, mul_eq_zero, sub_eq_zero, eq_comm (a := fe)]

/-- **C68** `f_t_linear_array`: one value per time, affine in the time with the slope `(f_end-f_start)/(t_last-t_first)`;
the first value is `f_start` and the last `f_end` exactly if the first time is 0 or the frequencies are equal. Equal first
and last times (a single time, in particular) give no finite array. -/
theorem C68_array (time : List K) (a b fs fe : K) (ha : time.head? = some a) (hb : time.getLast? = some b) :
    (a = b → ftLinearArray time fs fe = .error .nonFinite) ∧
    (a ≠ b → ∃ f, ftLinearArray time fs fe = .ok f ∧ f.length = time.length ∧
      (∀ i (_ : i < time.length) (_ : i < f.length), f[i] = fs + (fe - fs) / (b - a) * time[i]) ∧
      (f.head? = some fs ↔ a = 0 ∨ fs = fe) ∧ (f.getLast? = some fe ↔ a = 0 ∨ fs = fe)) := by
  constructor
  · rintro rfl
    simp [ftLinearArray, ha, hb]
  · intro h
    have hne : b - a ≠ 0 := sub_ne_zero.2 (Ne.symm h)
    obtain ⟨-, h2⟩ := C68_function a b fs fe
    obtain ⟨g, g1, -, -, g4, g5⟩ := h2 h
    have hg : ∀ t, g t = t * (fe - fs) / (b - a) + fs := fun t => by
      have := g1 t
      simp only [ftLinear, hne, if_false, Except.ok.injEq] at this
      exact this.symm
    refine ⟨time.map g, ?_, by simp, ?_, ?_, ?_⟩
    · simp only [ftLinearArray, ha, hb, hne, if_false]
      congr 1
      exact List.map_congr_left fun t _ => (hg t).symm
    · intro i hi _
      rw [List.getElem_map, hg]
      field_simp
      ring
    · rw [List.head?_map, ha, Option.map_some, Option.some.injEq, g4]
    · rw [List.getLast?_map, hb, Option.map_some, Option.some.injEq, g5]

/-- **C68** An empty time array raises `IndexError`. -/
theorem C68_empty (fs fe : K) : ftLinearArray [] fs fe = .error .index := rfl

example : ftLinearArray [0, 1, 2, 4] 1 (9 : ℚ) = .ok [1, 3, 5, 9] := by decide +kernel
/-- a time that does not start at 0: neither end is met -/
example : ftLinearArray [1, 2, 3] 1 (9 : ℚ) = .ok [5, 9, 13] := by decide +kernel
example : ftLinearArray [7] 1 (9 : ℚ) = .error .nonFinite := by decide +kernel

end

/-! ## C52 -/

theorem tapper_ok {time : List ℝ} {tt alpha : ℝ} (h : tapper time tt = .ok alpha) :
    ∃ hm : time.length / 2 < time.length,
      (tt ≤ time[time.length / 2] ∧ alpha = ((time.filter fun t => t ≤ tt).length : ℝ) * 2 / (time.length : ℝ)) ∨
      (time[time.length / 2] < tt ∧ alpha = 1) := by
  unfold tapper at h
  split at h
  · simp at h
  · rename_i v hv
    obtain ⟨hm, rfl⟩ := List.getElem?_eq_some_iff.1 hv
    refine ⟨hm, ?_⟩
    split at h <;> simp only [Except.ok.injEq] at h
    · rename_i hc; exact .inl ⟨hc, h.symm⟩
    · rename_i hc; exact .inr ⟨not_le.1 hc, h.symm⟩

theorem tapper_succeeds {time : List ℝ} (hne : time ≠ []) (tt : ℝ) : ∃ alpha, tapper time tt = .ok alpha := by
  have hm : time.length / 2 < time.length := by
    have := List.length_pos_of_ne_nil hne
    omega
  unfold tapper
  rw [List.getElem?_eq_getElem hm]
  simp only
  split <;> exact ⟨_, rfl⟩

/-- **C52** One coefficient in `[0, 1]` per time sample; the call fails only on an empty time with a taper. -/
theorem C52_shape (time : List ℝ) (tt : Option ℝ) (loc : Location) :
    (∀ w, tukeyAT time tt loc = .ok w → w.length = time.length ∧ ∀ v ∈ w, 0 ≤ v ∧ v ≤ 1) ∧
    (time ≠ [] ∨ tt = none → ∃ w, tukeyAT time tt loc = .ok w) ∧
    (time = [] → tt ≠ none → tukeyAT time tt loc = .error .index) := by
  have hrep : ∀ n : ℕ, ∀ v ∈ List.replicate n (1 : ℝ), 0 ≤ v ∧ v ≤ 1 := fun n v hv => by
    rw [List.eq_of_mem_replicate hv]; norm_num
  refine ⟨?_, ?_, ?_⟩
  · intro w h
    match tt with
    | none =>
      simp only [tukeyAT, Except.ok.injEq] at h
      subst h
      exact ⟨by simp, hrep _⟩
    | some tt =>
      simp only [tukeyAT, except_bind_eq_ok, except_pure, Except.ok.injEq] at h
      obtain ⟨alpha, -, rfl⟩ := h
      have hb := tukey_bounds time.length alpha
      have hhalf : ∀ v ∈ (tukey time.length alpha).take (time.length / 2) ++
          List.replicate (time.length - time.length / 2) 1, 0 ≤ v ∧ v ≤ 1 := by
        intro v hv
        rcases List.mem_append.1 hv with hv | hv
        · exact hb v (List.mem_of_mem_take hv)
        · exact hrep _ v hv
      cases loc with
      | both => exact ⟨tukey_length _ _, hb⟩
      | left => exact ⟨by simp [tukey_length]; omega, hhalf⟩
      | right => exact ⟨by simp [tukey_length]; omega, fun v hv => hhalf v (List.mem_reverse.1 hv)⟩
      | other => exact ⟨by simp, hrep _⟩
  · intro h
    match tt with
    | none => exact ⟨_, rfl⟩
    | some tt =>
      obtain ⟨alpha, ha⟩ := tapper_succeeds (by simpa using h) tt
      simp only [tukeyAT, ha, except_bind_ok, except_pure]
      exact ⟨_, rfl⟩
  · rintro rfl h
    match tt with
    | none => exact absurd rfl h
    | some tt => rfl

/-- **C52** Without a taper, and for an unknown location, all coefficients are 1. -/
theorem C52_ones (time : List ℝ) (tt : Option ℝ) (loc : Location) (w : List ℝ) (h : tukeyAT time tt loc = .ok w)
    (hc : tt = none ∨ loc = .other) : ∀ v ∈ w, v = 1 := by
  intro v hv
  match tt with
  | none =>
    simp only [tukeyAT, Except.ok.injEq] at h
    subst h
    exact List.eq_of_mem_replicate hv
  | some tt =>
    obtain rfl : loc = .other := by simpa using hc
    simp only [tukeyAT, except_bind_eq_ok, except_pure, Except.ok.injEq] at h
    obtain ⟨alpha, -, rfl⟩ := h
    exact List.eq_of_mem_replicate hv

/-- **C52** 'both' is symmetric; 'left' agrees with it in the first half and is 1 in the second; 'right' is the mirror
image of 'left'. -/
theorem C52_locations (time : List ℝ) (tt : ℝ) (hne : time ≠ []) :
    ∃ b l r, tukeyAT time (some tt) .both = .ok b ∧ tukeyAT time (some tt) .left = .ok l ∧
      tukeyAT time (some tt) .right = .ok r ∧ b.reverse = b ∧ r = l.reverse ∧
      (∀ i < time.length / 2, l.getD i 0 = b.getD i 0) ∧
      (∀ i, time.length / 2 ≤ i → i < time.length → l.getD i 0 = 1) := by
  obtain ⟨alpha, ha⟩ := tapper_succeeds hne tt
  simp only [tukeyAT, ha, except_bind_ok, except_pure]
  refine ⟨_, _, _, rfl, rfl, rfl, tukey_symm _ _, rfl, ?_, ?_⟩
  · intro i hi
    rw [getD_lt _ _ _ (by simp [tukey_length]; omega), getD_lt _ _ _ (by rw [tukey_length]; omega),
      List.getElem_append_left (by simp [tukey_length]; omega), List.getElem_take]
  · intro i h1 h2
    rw [getD_lt _ _ _ (by simp [tukey_length]; omega), List.getElem_append_right (by simp [tukey_length]; omega)]
    simp

theorem tapper_pos {time : List ℝ} {tt a alpha : ℝ} (ha : time.head? = some a) (hat : a ≤ tt)
    (h : tapper time tt = .ok alpha) : 0 < alpha := by
  obtain ⟨hm, ⟨-, rfl⟩ | ⟨-, rfl⟩⟩ := tapper_ok h
  · have h1 : a ∈ time.filter fun t => t ≤ tt := List.mem_filter.2 ⟨List.mem_of_mem_head? ha, by simpa using hat⟩
    have h2 : (0 : ℝ) < (time.filter fun t => t ≤ tt).length := by exact_mod_cast List.length_pos_of_mem h1
    have h3 : (0 : ℝ) < time.length := by exact_mod_cast (by omega : 0 < time.length)
    positivity
  · norm_num

/-- **C52** At least two samples and a taper not before the first time (a positive taper on a time that starts at 0): the
tapered ends are 0. -/
theorem C52_ends (time : List ℝ) (tt a : ℝ) (hn : 2 ≤ time.length) (ha : time.head? = some a) (hat : a ≤ tt) (w : List ℝ) :
    (tukeyAT time (some tt) .both = .ok w → w.head? = some 0 ∧ w.getLast? = some 0) ∧
    (tukeyAT time (some tt) .left = .ok w → w.head? = some 0 ∧ w.getLast? = some 1) ∧
    (tukeyAT time (some tt) .right = .ok w → w.head? = some 1 ∧ w.getLast? = some 0) := by
  have key : ∀ alpha, tapper time tt = .ok alpha →
      ((tukey time.length alpha).take (time.length / 2) ++ List.replicate (time.length - time.length / 2) 1).head? = some 0 ∧
      ((tukey time.length alpha).take (time.length / 2) ++ List.replicate (time.length - time.length / 2) (1 : ℝ)).getLast? =
        some 1 := by
    intro alpha h
    have hh := tukey_head hn (tapper_pos ha hat h)
    constructor
    · rw [List.head?_append, List.head?_take, if_neg (by omega), hh]
      rfl
    · rw [List.getLast?_append, List.getLast?_replicate, if_neg (by omega)]
      rfl
  refine ⟨fun h => ?_, fun h => ?_, fun h => ?_⟩ <;>
    simp only [tukeyAT, except_bind_eq_ok, except_pure, Except.ok.injEq] at h <;>
    obtain ⟨alpha, h1, rfl⟩ := h
  · have := tukey_head hn (tapper_pos ha hat h1)
    exact ⟨this, by rw [← tukey_symm, List.getLast?_reverse, this]⟩
  · exact key alpha h1
  · exact ⟨by rw [List.head?_reverse]; exact (key alpha h1).2, by rw [List.getLast?_reverse]; exact (key alpha h1).1⟩

theorem filter_le_length {time : List ℝ} (hinc : time.Pairwise (· < ·)) {tt : ℝ} {i : ℕ} (hi : i < time.length)
    (h : tt < time[i]) : (time.filter fun t => t ≤ tt).length ≤ i := by
  have hsplit : time.filter (fun t => t ≤ tt) = (time.take i).filter fun t => t ≤ tt := by
    conv_lhs => rw [← List.take_append_drop i time, List.filter_append]
    have : (time.drop i).filter (fun t => decide (t ≤ tt)) = [] := by
      rw [List.filter_eq_nil_iff]
      intro v hv
      obtain ⟨j, hj, rfl⟩ := List.getElem_of_mem hv
      rw [List.getElem_drop]
      have : tt < time[i + j]'(by simp at hj; omega) := by
        rcases Nat.eq_zero_or_pos j with rfl | hp
        · simpa using h
        · exact h.trans (List.pairwise_iff_getElem.1 hinc i (i + j) hi (by simp at hj; omega) (by omega))
      simpa using this
    rw [this, List.append_nil]
  rw [hsplit]
  exact (List.length_filter_le _ _).trans (by simp)

/-- **C52** On increasing times the window is 1 wherever both the sample and its mirror sample lie after the taper; the
'left' window is 1 at every sample after the taper. -/
theorem C52_plateau (time : List ℝ) (tt : ℝ) (hinc : time.Pairwise (· < ·)) (i : ℕ) (hi : i < time.length)
    (h1 : tt < time[i]) (w : List ℝ) :
    (tt < time[time.length - 1 - i] → tukeyAT time (some tt) .both = .ok w → w.getD i 0 = 1) ∧
    (tukeyAT time (some tt) .left = .ok w → w.getD i 0 = 1) := by
  have key : ∀ (alpha : ℝ) (h : tapper time tt = .ok alpha), tt < time[time.length - 1 - i] →
      (tukey time.length alpha).getD i 0 = 1 := by
    intro alpha h h2
    have c1 := filter_le_length hinc hi h1
    have c2 := filter_le_length hinc (by omega) h2
    obtain ⟨hm, ⟨-, rfl⟩ | ⟨hc, rfl⟩⟩ := tapper_ok h
    · exact tukey_plateau c1 (by omega)
    · exfalso
      have lt : ∀ j (hj : j < time.length), tt < time[j] → time.length / 2 < j := by
        intro j hj hjt
        by_contra hcon
        rcases Nat.lt_or_ge j (time.length / 2) with hlt | hge
        · have := List.pairwise_iff_getElem.1 hinc j (time.length / 2) hj hm hlt
          linarith
        · have : j = time.length / 2 := by omega
          subst this
          linarith
      have := lt i hi h1
      have := lt _ _ h2
      omega
  constructor
  · intro h2 h
    simp only [tukeyAT, except_bind_eq_ok, except_pure, Except.ok.injEq] at h
    obtain ⟨alpha, ha, rfl⟩ := h
    exact key alpha ha h2
  · intro h
    obtain ⟨b, l, r, e1, e2, -, -, -, e3, e4⟩ := C52_locations time tt (List.ne_nil_of_length_pos (by omega))
    rw [e2] at h
    simp only [Except.ok.injEq] at h
    subst h
    rcases Nat.lt_or_ge i (time.length / 2) with hlt | hge
    · rw [e3 i hlt]
      simp only [tukeyAT, except_bind_eq_ok, except_pure, Except.ok.injEq] at e1
      obtain ⟨alpha, ha, rfl⟩ := e1
      refine key alpha ha ?_
      rcases Nat.lt_or_ge i (time.length - 1 - i) with hlt' | hge'
      · exact h1.trans (List.pairwise_iff_getElem.1 hinc _ _ hi (by omega) hlt')
      · omega
    · exact e4 i hge hi

/-- times 0..4, taper 1: the first two samples are tapered -/
example : ∃ w, tukeyAT [0, 1, 2, 3, 4] (some 1) .both = .ok w ∧ w.length = 5 ∧ w.head? = some 0 ∧ w.getLast? = some 0 ∧
    w.getD 2 0 = 1 := by
  obtain ⟨w, hw⟩ := (C52_shape [0, 1, 2, 3, 4] (some 1) .both).2.1 (by simp)
  obtain ⟨h1, -⟩ := (C52_shape [0, 1, 2, 3, 4] (some 1) .both).1 w hw
  obtain ⟨h2, h3⟩ := (C52_ends [0, 1, 2, 3, 4] 1 0 (by simp) rfl (by norm_num) w).1 hw
  exact ⟨w, hw, h1, h2, h3, (C52_plateau [0, 1, 2, 3, 4] 1 (by norm_num) 2 (by simp) (by norm_num) w).1 (by norm_num) hw⟩

/-! ## C51 -/

theorem linear_trapezoid (a c : ℝ) (i : ℕ) :
    ∑ j ∈ Finset.range i, ((a + c * (j : ℝ)) + (a + c * ((j + 1 : ℕ) : ℝ))) / 2 = a * i + c * (i : ℝ) ^ 2 / 2 := by
  induction i with
  | zero => simp
  | succ i ih =>
    rw [Finset.sum_range_succ, ih]
    push_cast
    ring

/-- **C51** The linear sweep on the axis `0, s, 2s, …, T = k*s`: at the time `x = i*s` the frequency is
`f_start + (f_end-f_start)*x/T` and the sweep is `a(x) * sin(2π(f_start*x + (f_end-f_start)*x²/(2T)))`, with `a` the
Tukey envelope. -/
theorem C51_closed_form (P : SweepPrims ℝ) (hsin : P.sin = Real.sin) (hpi : P.pi = Real.pi) (t : Axis ℝ) (h0 : t.start = 0)
    (hs : 0 < t.sample) (k : ℕ) (hk : 1 ≤ k) (hT : t.stop = k * t.sample) (fs fe : ℝ) (tt : Option ℝ) (s : Sweep ℝ)
    (h : getLinearSweep P (.axis t) fs fe tt = .ok s) :
    s.rel.x = t ∧ s.frequencyTime.x = t ∧ s.amplitudeTime.x = t ∧ s.rel.y.length = k + 1 ∧
    s.frequencyTime.y.length = k + 1 ∧
    tukeyAT ((List.range (k + 1)).map fun i : ℕ => (i : ℝ) * t.sample) tt .both = .ok s.amplitudeTime.y ∧
    ∀ i ≤ k, s.frequencyTime.y.getD i 0 = fs + (fe - fs) * (i * t.sample) / t.stop ∧
      s.rel.y.getD i 0 = s.amplitudeTime.y.getD i 0 *
        Real.sin (2 * Real.pi * (fs * (i * t.sample) + (fe - fs) * (i * t.sample) ^ 2 / (2 * t.stop))) := by
  have harr : t.array = .ok ((List.range (k + 1)).map fun i : ℕ => (i : ℝ) * t.sample) := by
    rw [array_whole t k hs (by rw [hT, h0, sub_zero])]
    simp [h0]
  simp only [getLinearSweep, TimeArg.timeArray, harr, except_bind_ok, except_bind_eq_ok] at h
  obtain ⟨f, hf, a, ha, u, hu, h⟩ := h
  set xs := (List.range (k + 1)).map fun i : ℕ => (i : ℝ) * t.sample with hxs
  have hn : t.size = .ok (k + 1) := by rw [Axis.size_of_array harr]; simp [hxs]
  have hal : a.length = k + 1 := by rw [((C52_shape _ _ _).1 a ha).1]; simp [hxs]
  have hkR : (0 : ℝ) < k := by exact_mod_cast hk
  have hTpos : 0 < t.stop := by rw [hT]; positivity
  obtain ⟨-, f2⟩ := C68_array xs 0 t.stop fs fe
    (by rw [List.head?_eq_getElem?, List.getElem?_eq_getElem (by simp [hxs])]; simp [hxs])
    (by rw [List.getLast?_eq_getElem?, List.getElem?_eq_getElem (by simp [hxs])]; simp [hxs, hT])
  obtain ⟨f', f3, f4, f5, -⟩ := f2 hTpos.ne
  rw [hf] at f3
  simp only [Except.ok.injEq] at f3
  subst f3
  have hfl : f.length = k + 1 := by rw [f4]; simp [hxs]
  have hfv : s.frequencyTime.y = f := ((C50_own_axis P t h0 (k + 1) hn (by omega) f (by omega) _ _ u hu _ (.inl rfl) _ s h).1
    rfl).2.2.2 hfl
  have hav : s.amplitudeTime.y = a := ((C50_own_axis P t h0 (k + 1) hn (by omega) a (by omega) _ _ u hu _ (.inl rfl) _ s h).2
    rfl).2.2.2 hal
  obtain ⟨c1, c2, c3, c4, c5, c6⟩ := C47_array_description P _ _ _ u hu trivial _ _ s h
  have hx : s.rel.x = t := (C49_time_axis P _ _ _ u hu _ _ s h).2.2.1 t rfl rfl
  rw [hx] at c1 c2 c6
  have hyl : s.rel.y.length = k + 1 := by rw [← c5, hav, hal]
  have hfi : ∀ i ≤ k, f.getD i 0 = fs + ((fe - fs) / k) * i := by
    intro i hi
    rw [getD_lt _ _ _ (by omega), f5 i (by simp [hxs]; omega) (by omega)]
    simp only [hxs, List.getElem_map, List.getElem_range]
    rw [hT, sub_zero]
    field_simp
  refine ⟨hx, c1, c2, by omega, by omega, by rw [hav]; exact ha, fun i hi => ⟨?_, ?_⟩⟩
  · rw [hfv, hfi i hi, hT]
    field_simp
  · rw [getD_lt _ _ _ (by omega), c6 i (by omega), hsin, hpi, hfv]
    have : ∑ j ∈ Finset.range i, (f.getD j 0 + f.getD (j + 1) 0) / 2 =
        ∑ j ∈ Finset.range i, ((fs + ((fe - fs) / k) * (j : ℝ)) + (fs + ((fe - fs) / k) * ((j + 1 : ℕ) : ℝ))) / 2 := by
      apply Finset.sum_congr rfl
      intro j hj
      rw [Finset.mem_range] at hj
      rw [hfi j (by omega), hfi (j + 1) (by omega)]
    rw [this, linear_trapezoid, add_zero]
    congr 3
    rw [hT]
    field_simp

/-- **C51** On such an axis the call succeeds whenever the spectrogram method does. -/
theorem C51_succeeds (P : SweepPrims ℝ) (t : Axis ℝ) (h0 : t.start = 0) (hs : 0 < t.sample) (k : ℕ) (hk : 1 ≤ k)
    (hT : t.stop = k * t.sample) (fs fe : ℝ) (tt : Option ℝ) (hw : ∀ r : Rel ℝ ℝ, r.x = t → Balanced r → SpectrogramWorks P r) :
    ∃ s, getLinearSweep P (.axis t) fs fe tt = .ok s := by
  have harr := array_whole t k hs (by rw [hT, h0, sub_zero])
  set xs := (List.range (k + 1)).map fun i : ℕ => t.start + (i : ℝ) * t.sample with hxs
  have hn : t.size = .ok (k + 1) := by rw [Axis.size_of_array harr]; simp [hxs]
  have hkR : (0 : ℝ) < k := by exact_mod_cast hk
  have hTpos : 0 < t.stop := by rw [hT]; positivity
  have hq : (t.stop - t.start) / t.sample = k := by rw [hT, h0, sub_zero]; field_simp
  obtain ⟨a, ha⟩ := (C52_shape xs tt .both).2.1 (.inl (by simp [hxs]))
  have hal : a.length = k + 1 := by rw [((C52_shape _ _ _).1 a ha).1]; simp [hxs]
  obtain ⟨-, f2⟩ := C68_array xs 0 t.stop fs fe
    (by rw [List.head?_eq_getElem?, List.getElem?_eq_getElem (by simp [hxs])]; simp [hxs, h0])
    (by rw [List.getLast?_eq_getElem?, List.getElem?_eq_getElem (by simp [hxs])]; simp [hxs, hT, h0])
  obtain ⟨f, f3, f4, -⟩ := f2 hTpos.ne
  have hfl : f.length = k + 1 := by rw [f4]; simp [hxs]
  obtain ⟨u, s, e1, e2⟩ := C47_succeeds P t h0 (k + 1) hn (by omega) (by rw [hq]; exact hkR)
    (by rw [hq]; rintro ⟨m, hm⟩
        have : (2 * (k : ℤ)) = 2 * m + 1 := by
          have : (2 * (k : ℝ)) = 2 * m + 1 := by rw [hm]; ring
          exact_mod_cast this
        omega) f a (by omega) (by omega) hw 0
  exact ⟨s, by simp only [getLinearSweep, TimeArg.timeArray, harr, except_bind_ok, f3, ha, e1, e2]⟩

/-- **C51** A time given as an array that is lossless as an axis gives the same sweep as the axis. -/
theorem C51_array_time (P : SweepPrims ℝ) (t : Axis ℝ) (l : List ℝ) (isFloat : Bool)
    (h1 : axisFromArray l isFloat true = .ok t) (h2 : t.array = .ok l) (fs fe : ℝ) (tt : Option ℝ) :
    getLinearSweep P (.array l isFloat) fs fe tt = getLinearSweep P (.axis t) fs fe tt := by
  simp only [getLinearSweep, TimeArg.timeArray, h2, except_bind_ok, UncalculatedSweep.init, TimeArg.toAxis, h1, except_pure]

example : ∃ s, getLinearSweep realPrims (.axis ⟨0, 2, 1 / 2⟩) 1 100 (some 1) = .ok s :=
  C51_succeeds realPrims ⟨0, 2, 1 / 2⟩ rfl (by norm_num) 4 (by norm_num) (by norm_num) 1 100 _ fun r _ _ => realPrims_works r

/-! ## C53 -/

theorem linspace_band {a b v : ℝ} {n : ℕ} (hv : v ∈ linspace a b n) : min a b ≤ v ∧ v ≤ max a b := by
  obtain ⟨i, hi, rfl⟩ := List.getElem_of_mem hv
  rw [(evenlySpaced_linspace a b n).2 i hi]
  rw [linspace_length] at hi
  rcases Nat.lt_or_ge n 2 with h2 | h2
  · obtain rfl : i = 0 := by omega
    simp
  · have hn : (0 : ℝ) < (n : ℝ) - 1 := by
      have : (2 : ℝ) ≤ n := by exact_mod_cast h2
      linarith
    have hin : (i : ℝ) ≤ (n : ℝ) - 1 := by
      have : ((i + 1 : ℕ) : ℝ) ≤ n := by exact_mod_cast hi
      push_cast at this
      linarith
    have q0 : 0 ≤ (i : ℝ) / ((n : ℝ) - 1) := by positivity
    have q1 : (i : ℝ) / ((n : ℝ) - 1) ≤ 1 := by rwa [div_le_one hn]
    have e : a + (i : ℝ) * ((b - a) / ((n : ℝ) - 1)) = a + (i : ℝ) / ((n : ℝ) - 1) * (b - a) := by field_simp
    rw [e]
    generalize (i : ℝ) / ((n : ℝ) - 1) = q at q0 q1
    rcases le_total a b with h | h
    · rw [min_eq_left h, max_eq_right h]; constructor <;> nlinarith
    · rw [min_eq_right h, max_eq_left h]; constructor <;> nlinarith

theorem joinSegments_band {c f : List ℝ} {lo hi : ℝ} (hc : ∀ v ∈ c, 0 ≤ v ∧ v ≤ 1) (hf : ∀ v ∈ f, lo ≤ v ∧ v ≤ hi) :
    ∀ v ∈ joinSegments c f, lo ≤ v ∧ v ≤ hi := by
  match f with
  | [] => simp [joinSegments]
  | [_] => simp [joinSegments]
  | f1 :: f2 :: l =>
    intro v hv
    rw [joinSegments] at hv
    rcases List.mem_append.1 hv with hv | hv
    · obtain ⟨q, hq, rfl⟩ := List.mem_map.1 (List.mem_of_mem_drop hv)
      obtain ⟨q0, q1⟩ := hc q hq
      obtain ⟨a1, a2⟩ := hf f1 (by simp)
      obtain ⟨b1, b2⟩ := hf f2 (by simp)
      constructor <;> nlinarith
    · exact joinSegments_band hc (fun v h => hf v (by simp at h ⊢; tauto)) v hv

theorem risingCos_band {length sample : ℝ} {c : List ℝ} (h : risingCos length sample = .ok c) :
    ∀ v ∈ c, 0 ≤ v ∧ v ≤ 1 := by
  unfold risingCos at h
  split at h
  · simp at h
  · simp only at h
    split at h
    · simp at h
    · simp only [Except.ok.injEq] at h
      subst h
      intro v hv
      obtain ⟨x, -, rfl⟩ := List.mem_map.1 hv
      have := Real.neg_one_le_cos (x * Real.pi / length - Real.pi)
      have := Real.cos_le_one (x * Real.pi / length - Real.pi)
      constructor <;> linarith

/-- **C53** A segment not longer than the sample raises. -/
theorem C53_short_segment (P : SweepPrims ℝ) (t : Axis ℝ) (fs fe length : ℝ) (rn : Option ℤ) (tt : Option ℝ)
    (shuffle : List ℝ → List ℝ) (h : length ≤ t.sample) :
    getShuffle P (.axis t) fs fe length rn tt shuffle = .error .segmentSmaller := by
  simp only [getShuffle, TimeArg.toAxis, except_bind_ok, shuffleFrequency, ge_iff_le, h, if_true, except_bind_error]

/-- **C53** Without rounding, for every outcome of the shuffle, the segment frequencies are a rearrangement of the evenly
spaced grid of `⌈end/length⌉ + 1` frequencies from `f_start` to `f_end`. -/
theorem C53_rearrangement (stop fs fe length : ℝ) (rn : Option ℤ) (hrn : rn = none ∨ rn = some 0)
    (shuffle : List ℝ → List ℝ) (hperm : ∀ l, (shuffle l).Perm l) (f : List ℝ)
    (h : segmentFrequencies stop fs fe length rn shuffle = .ok f) :
    ∃ (n : ℕ) (g : List ℝ), ⌈stop / length⌉ + 1 = n ∧ f.Perm g ∧ EvenlySpaced g fs ((fe - fs) / ((n : ℝ) - 1)) n ∧
      (2 ≤ n → g.getLast? = some fe) := by
  unfold segmentFrequencies nSegments at h
  split at h
  · simp at h
  · simp only [except_bind_ok] at h
    split at h
    · simp at h
    · rename_i hlt
      rw [except_pure, Except.ok.injEq] at h
      have hg : f.Perm (linspace fs fe (⌈stop / length⌉ + 1).toNat) := by
        rw [← h]
        rcases hrn with rfl | rfl <;> exact hperm _
      refine ⟨(⌈stop / length⌉ + 1).toNat, _, by omega, hg, evenlySpaced_linspace _ _ _, fun h2 => ?_⟩
      rw [(evenlySpaced_linspace fs fe _).last (by omega)]
      have : (((⌈stop / length⌉ + 1).toNat : ℝ) - 1) ≠ 0 := by
        have : (2 : ℝ) ≤ (⌈stop / length⌉ + 1).toNat := by exact_mod_cast h2
        intro h; linarith
      rw [mul_div_cancel₀ _ this]
      ring_nf

/-- **C53** Without rounding, for every outcome of the shuffle, every frequency of the produced description lies between
`f_start` and `f_end`. -/
theorem C53_description_in_band (t : Axis ℝ) (fs fe length : ℝ) (rn : Option ℤ) (hrn : rn = none ∨ rn = some 0)
    (shuffle : List ℝ → List ℝ) (hperm : ∀ l, (shuffle l).Perm l) (ft : List ℝ)
    (h : shuffleFrequency t fs fe length rn shuffle = .ok ft) : ∀ v ∈ ft, min fs fe ≤ v ∧ v ≤ max fs fe := by
  unfold shuffleFrequency at h
  split at h
  · simp at h
  · simp only [except_bind_eq_ok, except_pure, Except.ok.injEq] at h
    obtain ⟨f, hf, c, hc, rfl⟩ := h
    intro v hv
    refine joinSegments_band (risingCos_band hc) ?_ v (List.mem_of_mem_take hv)
    intro w hw
    unfold segmentFrequencies at hf
    simp only [except_bind_eq_ok] at hf
    obtain ⟨n, -, hf⟩ := hf
    split at hf
    · simp at hf
    · rw [except_pure, Except.ok.injEq] at hf
      have hp : f.Perm (linspace fs fe (n + 1).toNat) := by
        rw [← hf]
        rcases hrn with rfl | rfl <;> exact hperm _
      exact linspace_band (hp.mem_iff.1 hw)

theorem interpolant_band {p l : List ℝ} {x v lo hi : ℝ} (hm : p.Pairwise (· < ·) ∨ p.Pairwise (· > ·))
    (hlen : p.length = l.length) (h : IsInterpolant p l x v) (hr : InRange p x) (hl : ∀ w ∈ l, lo ≤ w ∧ w ≤ hi) :
    lo ≤ v ∧ v ≤ hi := by
  rcases inRange_cases hm hr with ⟨i, h1, h2⟩ | ⟨i, h1, h2, h3⟩
  · rw [h.sample i h1 (by omega) h2]
    exact hl _ (List.getElem_mem _)
  · rw [h.between i h1 (by omega) h2 h3, smul_eq_mul]
    obtain ⟨a1, a2⟩ := hl _ (List.getElem_mem (by omega : i < l.length))
    obtain ⟨b1, b2⟩ := hl _ (List.getElem_mem (by omega : i + 1 < l.length))
    have hq : 0 ≤ (x - p[i]) / (p[i + 1] - p[i]) ∧ (x - p[i]) / (p[i + 1] - p[i]) ≤ 1 := by
      rcases hm with hm | hm
      · have hlt := List.pairwise_iff_getElem.1 hm i (i + 1) (by omega) h1 (by omega)
        rw [min_eq_left hlt.le] at h2
        rw [max_eq_right hlt.le] at h3
        exact ⟨div_nonneg (by linarith) (by linarith), by rw [div_le_one (by linarith)]; linarith⟩
      · have hlt : p[i + 1] < p[i] := List.pairwise_iff_getElem.1 hm i (i + 1) (by omega) h1 (by omega)
        rw [min_eq_right hlt.le] at h2
        rw [max_eq_left hlt.le] at h3
        exact ⟨div_nonneg_of_nonpos (by linarith) (by linarith), by
          rw [div_le_one_of_neg (by linarith)]; linarith⟩
    obtain ⟨q0, q1⟩ := hq
    generalize (x - p[i]) / (p[i + 1] - p[i]) = q at q0 q1
    constructor <;> nlinarith

theorem stretched_band {t : Axis ℝ} {l y : List ℝ} {lo hi : ℝ} (h : StretchedOver t l y) (h2 : 2 ≤ l.length)
    (ht : t.start < t.stop) (hl : ∀ w ∈ l, lo ≤ w ∧ w ≤ hi) : ∀ v ∈ y, lo ≤ v ∧ v ≤ hi := by
  obtain ⟨p, xs, hp, hx, hlen, hi'⟩ := h
  intro v hv
  obtain ⟨i, hi, rfl⟩ := List.getElem_of_mem hv
  have hln : (0 : ℝ) < (l.length : ℝ) - 1 := by
    have : (2 : ℝ) ≤ l.length := by exact_mod_cast h2
    linarith
  have hplen := hp.1
  refine interpolant_band (.inl (hp.pairwise_lt (div_pos (by linarith) hln))) hp.1 (hi' i (by omega) hi) ?_ hl
  have hxs := size_cast_step hx
  have hb : t.start ≤ xs[i] ∧ xs[i] ≤ t.stop := by
    have : xs[i] ∈ linspace t.start t.stop xs.length := by
      rw [← hxs.ext (evenlySpaced_linspace _ _ _)]
      exact List.getElem_mem _
    have := linspace_band this
    rwa [min_eq_left ht.le, max_eq_right ht.le] at this
  refine ⟨p[0]'(by omega), List.getElem_mem _, p[l.length - 1]'(by omega), List.getElem_mem _, ?_, ?_⟩
  · rw [hp.2]; simpa using hb.1
  · rw [hp.2, show ((l.length - 1 : ℕ) : ℝ) = (l.length : ℝ) - 1 by
      rw [Nat.cast_sub (by omega)]; simp, mul_div_cancel₀ _ hln.ne']
    linarith [hb.2]

/-- **C53** The frequencies of the produced sweep (not only of the description) lie in the band, on an increasing time axis
that starts at 0. -/
theorem C53_sweep_in_band (P : SweepPrims ℝ) (t : Axis ℝ) (h0 : t.start = 0) (hpos : 0 < t.stop) (n : ℕ)
    (hn : t.size = .ok n) (h2 : 2 ≤ n) (fs fe length : ℝ) (rn : Option ℤ) (hrn : rn = none ∨ rn = some 0) (tt : Option ℝ)
    (shuffle : List ℝ → List ℝ) (hperm : ∀ l, (shuffle l).Perm l) (ft : List ℝ)
    (hft : shuffleFrequency t fs fe length rn shuffle = .ok ft) (hl : 2 ≤ ft.length) (s : Sweep ℝ)
    (h : getShuffle P (.axis t) fs fe length rn tt shuffle = .ok s) :
    s.rel.x = t ∧ ∀ v ∈ s.frequencyTime.y, min fs fe ≤ v ∧ v ≤ max fs fe := by
  simp only [getShuffle, TimeArg.toAxis, except_bind_ok, hft, except_bind_eq_ok] at h
  obtain ⟨l, -, a, -, u, hu, h⟩ := h
  obtain ⟨hst, -⟩ := (C50_own_axis P t h0 n hn h2 ft hl _ _ u hu _ (.inl rfl) _ s h).1 rfl
  exact ⟨(C49_time_axis P _ _ _ u hu _ _ s h).2.2.1 t rfl rfl, stretched_band hst hl (by rw [h0]; exact hpos)
    (C53_description_in_band t fs fe length rn hrn shuffle hperm ft hft)⟩

/-- **C53** With rounding of the frequencies the grid can leave the band: from 1.01 to 2.01, one segment, one decimal gives
1 and 2. -/
theorem C53_rounding_leaves_band :
    segmentFrequencies 1 (101 / 100) (201 / 100) 1 (some 1) id = .ok [1, 2] := by
  have e1 : pyRound (101 / 100 * (10 : ℝ)) = 10 := by
    rw [pyRound_eq_iff]
    refine ⟨?_, fun h => ?_⟩ <;> norm_num at *
  have e2 : pyRound (201 / 100 * (10 : ℝ)) = 20 := by
    rw [pyRound_eq_iff]
    refine ⟨?_, fun h => ?_⟩ <;> norm_num at *
  have e3 : linspace (101 / 100 : ℝ) (201 / 100) 2 = [101 / 100, 201 / 100] := by
    norm_num [linspace, List.range_succ]
  simp [segmentFrequencies, nSegments, e3, npRound, e1, e2, bind, Except.bind, pure, Except.pure]
  norm_num

end SweepDesign
