import Verif.Props.Accuracy
import Verif.Props.SweepLaws
import Verif.Props.DefaultSpectrogram

/-!
# C130: sweeps from sampled frequencies

`UncalculatedSweep` integrates a frequency law given as an array with the trapezoid rule and one given as a function with
`scipy.integrate.quad`. Here the array holds samples of a smooth law.
-/

set_option linter.unusedSectionVars false

namespace SweepDesign
open Spec

noncomputable section

/-- the values of `f` at `0, s, 2 s, …, k s` -/
def Spec.sampledAt (f : ℝ → ℝ) (s : ℝ) (k : ℕ) : List ℝ := (List.range (k + 1)).map fun i : ℕ => f (i * s)

/-- the axis `0, s, 2 s, …, k s` -/
structure Spec.WholeFromZero (t : Axis ℝ) (k : ℕ) : Prop where
  positive : 0 < t.sample
  start : t.start = 0
  stop : t.stop = k * t.sample
  one : 1 ≤ k

theorem frequencies_sampled {P : SweepPrims ℝ} {t : Axis ℝ} {k : ℕ} (ht : WholeFromZero t k) {f : ℝ → ℝ} {ad : Ftat ℝ}
    {u : UncalculatedSweep ℝ} (hu : UncalculatedSweep.init (.axis t) (.array (sampledAt f t.sample k)) ad = .ok u) {time : TimeArg ℝ}
    (htime : time = .none ∨ time = .axis t) {tht0 : ℝ} {s : Sweep ℝ} (h : u.call P time tht0 = .ok s) :
    s.rel.x = t ∧ s.frequencyTime.x = t ∧ s.frequencyTime.y = sampledAt f t.sample k ∧ s.rel.y.length = k + 1 ∧
      SamplesOf s.frequencyTime f := by
  have harr := array_whole t k ht.positive (by rw [ht.start, ht.stop, sub_zero])
  have hsize : t.size = .ok (k + 1) := by rw [Axis.size_of_array harr]; simp
  have hone := ht.one
  obtain ⟨h1, -⟩ := C50_own_axis P t ht.start (k + 1) hsize (by omega) (sampledAt f t.sample k) (by simp [sampledAt]; omega) _ ad u hu time
    htime tht0 s h
  have hy := (h1 rfl).2.2.2 (by simp [sampledAt])
  obtain ⟨hu1, -, -⟩ := uinit_ok hu
  simp only [TimeArg.toAxis, Except.ok.injEq] at hu1
  obtain ⟨t', th, e1, -, -, -, e5, e6, e7, -, e9, e10, e11, -⟩ := call_ok h
  obtain rfl : t' = t := by
    rcases htime with rfl | rfl
    · exact (calcTime_cases e1).2 rfl hu1.symm
    · exact (calcTime_cases e1).1 rfl
  have hlen : th.length = k + 1 := by rw [e5] at hsize; exact Except.ok.inj hsize
  refine ⟨e6, e7, hy, by rw [e11, List.length_zipWith]; omega, ⟨_, (getData_ok_iff _ _ _).2 ⟨by rw [e7]; exact harr, ?_, by simp⟩⟩⟩
  rw [hy, sampledAt, List.map_map]
  simp [Function.comp_def, ht.start]

/-- **C130.** A sweep from the samples of a frequency law `f` with `|f''| ≤ M` on the axis `0, s, …, k s` misses the sweep of the law itself by at
most the amplitude times `2 π M s² / 12` times the time since the start. -/
theorem C130_sampled_law (P : SweepPrims ℝ) (hsin : P.sin = Real.sin) (hpi : P.pi = Real.pi) (t : Axis ℝ) (k : ℕ) (ht : WholeFromZero t k)
    (f f' : ℝ → ℝ) (M : ℝ) (hf : BendsAtMost M f f' 0 t.stop) (ad : Ftat ℝ) (u : UncalculatedSweep ℝ)
    (hu : UncalculatedSweep.init (.axis t) (.array (sampledAt f t.sample k)) ad = .ok u) (time : TimeArg ℝ)
    (htime : time = .none ∨ time = .axis t) (tht0 : ℝ) (s : Sweep ℝ) (h : u.call P time tht0 = .ok s) :
    s.rel.x = t ∧ s.rel.y.length = k + 1 ∧ ∀ i (hi : i < s.rel.y.length),
      |s.rel.y[i] - s.amplitudeTime.y.getD i 0 * Real.sin (2 * Real.pi * (∫ x in (0 : ℝ)..(i * t.sample), f x) + tht0)| ≤
        |s.amplitudeTime.y.getD i 0| * (2 * Real.pi * (M * t.sample ^ 2 * (i * t.sample) / 12)) := by
  obtain ⟨h1, h2, h3, h4, h5⟩ := frequencies_sampled ht hu htime h
  obtain ⟨-, -, -, -, -, h6⟩ := C47_array_description P _ _ _ u hu (by simp [ArrayLike]) time tht0 s h
  refine ⟨h1, h4, fun i hi => ?_⟩
  have hn := trapezoids_near (r := s.frequencyTime) (k := k) (by rw [h2]; exact ht.positive)
    (by rw [h2, ht.start, ht.stop, sub_zero]) h5 (by rw [h2, ht.start]; exact hf) i (by omega)
  rw [h2, ht.start, zero_add] at hn
  rw [h6 i hi, hsin, hpi, h1, ← mul_sub, abs_mul]
  refine mul_le_mul_of_nonneg_left ((Real.abs_sin_sub_sin_le _ _).trans ?_) (abs_nonneg _)
  rw [add_sub_add_right_eq_sub, ← mul_sub, abs_mul, abs_of_pos (by positivity)]
  exact mul_le_mul_of_nonneg_left hn (by positivity)

/-- **C130.** Samples of a law that is linear in time lose nothing. -/
theorem C130_linear_law (P : SweepPrims ℝ) (hsin : P.sin = Real.sin) (hpi : P.pi = Real.pi) (t : Axis ℝ) (k : ℕ) (ht : WholeFromZero t k)
    (a b : ℝ) (ad : Ftat ℝ) (u : UncalculatedSweep ℝ)
    (hu : UncalculatedSweep.init (.axis t) (.array (sampledAt (fun x => a + b * x) t.sample k)) ad = .ok u) (time : TimeArg ℝ)
    (htime : time = .none ∨ time = .axis t) (tht0 : ℝ) (s : Sweep ℝ) (h : u.call P time tht0 = .ok s) :
    s.rel.x = t ∧ s.rel.y.length = k + 1 ∧ ∀ i (hi : i < s.rel.y.length),
      s.rel.y[i] = s.amplitudeTime.y.getD i 0 *
        Real.sin (2 * Real.pi * (a * (i * t.sample) + b * (i * t.sample) ^ 2 / 2) + tht0) := by
  have hb : BendsAtMost 0 (fun x => a + b * x) (fun _ => b) 0 t.stop :=
    ⟨fun _ => 0, fun x _ => ⟨by simpa using ((hasDerivAt_id x).const_mul b).const_add a, hasDerivAt_const x b, by simp⟩⟩
  obtain ⟨h1, h2, h3⟩ := C130_sampled_law P hsin hpi t k ht _ _ 0 hb ad u hu time htime tht0 s h
  refine ⟨h1, h2, fun i hi => ?_⟩
  have hi3 := h3 i hi
  have e : ∫ x in (0 : ℝ)..(i * t.sample), (a + b * x) = a * (i * t.sample) + b * (i * t.sample) ^ 2 / 2 := by
    rw [intervalIntegral.integral_add (by simp) (Continuous.intervalIntegrable (by fun_prop) _ _), intervalIntegral.integral_const,
      intervalIntegral.integral_const_mul, integral_id]
    simp only [smul_eq_mul]; ring
  rw [e] at hi3
  have : |s.rel.y[i] - s.amplitudeTime.y.getD i 0 * Real.sin (2 * Real.pi * (a * (i * t.sample) + b * (i * t.sample) ^ 2 / 2) + tht0)| ≤ 0 := by
    simpa using hi3
  exact sub_eq_zero.1 (abs_nonpos_iff.1 this)

/-- **C130.** The sweep from the samples and the sweep from the function have the same amplitudes, and their samples differ by at most the
amplitude times `2 π (e + M s² x / 12)` at time `x`, where `e` bounds the error of `quad`. -/
theorem C130_two_ways (P : SweepPrims ℝ) (hsin : P.sin = Real.sin) (hpi : P.pi = Real.pi) (t : Axis ℝ) (k : ℕ) (ht : WholeFromZero t k)
    (f f' : ℝ → ℝ) (M : ℝ) (hf : BendsAtMost M f f' 0 t.stop) (g : List ℝ → Except Err (List ℝ)) (ad : Ftat ℝ) (u v : UncalculatedSweep ℝ)
    (hu : UncalculatedSweep.init (.axis t) (.array (sampledAt f t.sample k)) ad = .ok u)
    (hv : UncalculatedSweep.init (.axis t) (.func g f) ad = .ok v) (time : TimeArg ℝ)
    (htime : time = .none ∨ time = .axis t) (tht0 : ℝ) (s q : Sweep ℝ) (hs : u.call P time tht0 = .ok s) (hq : v.call P time tht0 = .ok q)
    (e : ℝ) (he : ∀ a b, |P.quad f a b - ∫ x in a..b, f x| ≤ e) :
    q.rel.x = s.rel.x ∧ q.amplitudeTime = s.amplitudeTime ∧ q.rel.y.length = s.rel.y.length ∧
    ∀ i (hi : i < s.rel.y.length) (hi' : i < q.rel.y.length),
      |s.rel.y[i] - q.rel.y[i]| ≤ |s.amplitudeTime.y.getD i 0| * (2 * Real.pi * (e + M * t.sample ^ 2 * (i * t.sample) / 12)) := by
  obtain ⟨h1, h2, h3⟩ := C130_sampled_law P hsin hpi t k ht f f' M hf ad u hu time htime tht0 s hs
  obtain ⟨xs, q1, q2, q3⟩ := C122_integral_error P hsin hpi _ g f ad v hv time tht0 q hq e he
  obtain ⟨hu1, -, hu3⟩ := uinit_ok hu
  obtain ⟨hv1, -, hv3⟩ := uinit_ok hv
  simp only [TimeArg.toAxis, Except.ok.injEq] at hu1 hv1
  obtain ⟨t', th, e1, -, e3, -, -, e6, -, e8, -⟩ := call_ok hs
  obtain ⟨t'', th', d1, -, d3, -, -, d6, -, d8, -⟩ := call_ok hq
  obtain rfl : t' = t := e6 ▸ h1
  obtain rfl : t'' = t' := by
    rcases htime with rfl | rfl
    · exact (calcTime_cases d1).2 rfl hv1.symm
    · exact (calcTime_cases d1).1 rfl
  rw [← hu1] at hu3
  rw [← hv1, hu3, Except.ok.injEq] at hv3
  rw [← hv3, e3, Except.ok.injEq] at d3
  have ha : q.amplitudeTime = s.amplitudeTime := by
    have h8 : q.amplitudeTime.x = s.amplitudeTime.x := by rw [d8, e8]
    generalize q.amplitudeTime = A at *
    generalize s.amplitudeTime = B at *
    cases A; cases B; simp_all
  have hx := array_whole t'' k ht.positive (by rw [ht.start, ht.stop, sub_zero])
  rw [d6, hx, Except.ok.injEq] at q1
  subst q1
  refine ⟨by rw [d6, e6], ha, by rw [q2, h2]; simp, fun i hi hi' => ?_⟩
  have a1 := h3 i hi
  have a2 := q3 i hi' (by rw [← q2]; exact hi')
  simp only [List.getElem_map, List.getElem_range, ha, d6, ht.start, zero_add] at a2
  rw [show s.rel.y[i] - q.rel.y[i] = (s.rel.y[i] - s.amplitudeTime.y.getD i 0 * Real.sin (2 * Real.pi * (∫ x in (0 : ℝ)..(i * t''.sample), f x) + tht0)) -
    (q.rel.y[i] - s.amplitudeTime.y.getD i 0 * Real.sin (2 * Real.pi * (∫ x in (0 : ℝ)..(i * t''.sample), f x) + tht0)) by ring]
  refine (abs_sub _ _).trans ((add_le_add a1 a2).trans (le_of_eq ?_))
  ring

/-! ### cases that meet the hypotheses -/

theorem half130 : WholeFromZero ⟨0, 2, 1 / 2⟩ 4 := ⟨by norm_num, rfl, by norm_num, by norm_num⟩

/-- a sweep of the default configuration whose frequency is `sin` sampled at five points -/
example : ∃ u s, UncalculatedSweep.init (.axis (⟨0, 2, 1 / 2⟩ : Axis ℝ)) (.array (sampledAt Real.sin (1 / 2) 4)) (.array [1, 2]) = .ok u ∧
    u.call defaultPrims .none 0 = .ok s ∧ ∀ i (hi : i < s.rel.y.length),
      |s.rel.y[i] - s.amplitudeTime.y.getD i 0 * Real.sin (2 * Real.pi * (1 - Real.cos (i * (1 / 2))) + 0)| ≤
        |s.amplitudeTime.y.getD i 0| * (2 * Real.pi * (1 * (1 / 2) ^ 2 * (i * (1 / 2)) / 12)) := by
  have harr := array_whole (⟨0, 2, 1 / 2⟩ : Axis ℝ) 4 (by norm_num) (by norm_num)
  have hn : (⟨0, 2, 1 / 2⟩ : Axis ℝ).size = .ok 5 := by rw [Axis.size_of_array harr]; simp
  obtain ⟨u, s, hu, hs⟩ := C91_generator (⟨0, 2, 1 / 2⟩ : Axis ℝ) rfl 5 hn (by norm_num) (by norm_num) (by norm_num)
    (by rintro ⟨k, hk⟩; norm_num at hk; have : (7 : ℝ) = 2 * k := by linarith
        have h' : (7 : ℤ) = 2 * k := by exact_mod_cast this
        omega) (sampledAt Real.sin (1 / 2) 4) [1, 2] (by simp [sampledAt]) (by simp) 0
  refine ⟨u, s, hu, hs, fun i hi => ?_⟩
  have h := (C130_sampled_law defaultPrims rfl rfl _ 4 half130 Real.sin Real.cos 1 (sine_bends _ _) _ u hu .none (.inl rfl) 0 s hs).2.2 i hi
  simpa using h

end

end SweepDesign
