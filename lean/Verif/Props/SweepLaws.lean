import Verif.Props.Prepared
import Verif.Props.FourierSum
import Verif.Props.DefaultSpectrogram
import Verif.Props.Aprior
import Mathlib.Analysis.SpecialFunctions.Trigonometric.Bounds

/-!
# C122: the initial phase and the integral of the frequency; C123: linear sweeps above the Nyquist frequency and reversed;
C124: the spectrum of a tone
-/

set_option linter.unusedSectionVars false

namespace SweepDesign
open Spec

/-! ## C122 -/

/-- **C122** Three calls of one generator that differ in the initial phase only: by nothing, by a quarter of a period, by any `δ`. All
have the same axis, frequencies and amplitudes. The squares of the first two add up to the square of the amplitude, and the third is
the combination of the first two with the cosine and the sine of `δ`. -/
theorem C122_initial_phase (P : SweepPrims ℝ) (hsin : P.sin = Real.sin) (u : UncalculatedSweep ℝ) (time : TimeArg ℝ) (φ δ : ℝ)
    (s q r : Sweep ℝ) (h0 : u.call P time φ = .ok s) (h1 : u.call P time (φ + Real.pi / 2) = .ok q)
    (h2 : u.call P time (φ + δ) = .ok r) :
    q.rel.x = s.rel.x ∧ r.rel.x = s.rel.x ∧ q.frequencyTime = s.frequencyTime ∧ r.frequencyTime = s.frequencyTime ∧
    q.amplitudeTime = s.amplitudeTime ∧ r.amplitudeTime = s.amplitudeTime ∧
    q.rel.y.length = s.rel.y.length ∧ r.rel.y.length = s.rel.y.length ∧
    ∀ i, s.rel.y.getD i 0 ^ 2 + q.rel.y.getD i 0 ^ 2 = s.amplitudeTime.y.getD i 0 ^ 2 ∧
      r.rel.y.getD i 0 = Real.cos δ * s.rel.y.getD i 0 + Real.sin δ * q.rel.y.getD i 0 := by
  obtain ⟨t, th, a1, a2, a3, a4, a5, a6, a7, a8, a9, a10, a11, -⟩ := call_ok h0
  obtain ⟨t', th', b1, b2, b3, b4, b5, b6, b7, b8, b9, b10, b11, -⟩ := call_ok h1
  obtain ⟨t'', th'', c1, c2, c3, c4, c5, c6, c7, c8, c9, c10, c11, -⟩ := call_ok h2
  rw [a1] at b1 c1
  cases b1
  cases c1
  rw [a2] at b2 c2
  rw [a3] at b3 c3
  simp only [Except.ok.injEq] at b2 c2 b3 c3
  rw [← b2, a4] at b4
  rw [← c2, a4] at c4
  cases b4
  cases c4
  have ext : ∀ (p p' : Rel ℝ ℝ), p.x = p'.x → p.y = p'.y → p = p' := by
    rintro ⟨x, y⟩ ⟨x', y'⟩ e e'
    simp only at e e'
    rw [e, e']
  refine ⟨by rw [b6, a6], by rw [c6, a6], ext _ _ (by rw [b7, a7]) b2.symm, ext _ _ (by rw [c7, a7]) c2.symm,
    ext _ _ (by rw [b8, a8]) b3.symm, ext _ _ (by rw [c8, a8]) c3.symm, ?_, ?_, fun i => ?_⟩
  · rw [a11, b11]; simp [a10, b10]
  · rw [a11, c11]; simp [a10, c10]
  · rcases Nat.lt_or_ge i th.length with h | h
    · have hs : s.rel.y.getD i 0 = s.amplitudeTime.y.getD i 0 * Real.sin (th[i] + φ) := by
        rw [a11, getD_lt _ _ _ (by simp [a10, h]), getD_lt _ _ _ (by omega), List.getElem_zipWith, hsin]
      have hq : q.rel.y.getD i 0 = s.amplitudeTime.y.getD i 0 * Real.sin (th[i] + (φ + Real.pi / 2)) := by
        rw [b11, ← b3, getD_lt _ _ _ (by simp [a10, h]), getD_lt _ _ _ (by omega), List.getElem_zipWith, hsin]
      have hr : r.rel.y.getD i 0 = s.amplitudeTime.y.getD i 0 * Real.sin (th[i] + (φ + δ)) := by
        rw [c11, ← c3, getD_lt _ _ _ (by simp [a10, h]), getD_lt _ _ _ (by omega), List.getElem_zipWith, hsin]
      rw [hs, hq, hr, show th[i] + (φ + Real.pi / 2) = th[i] + φ + Real.pi / 2 by ring,
        show th[i] + (φ + δ) = th[i] + φ + δ by ring, Real.sin_add_pi_div_two, Real.sin_add (th[i] + φ) δ]
      refine ⟨?_, by ring⟩
      have := Real.sin_sq_add_cos_sq (th[i] + φ)
      linear_combination s.amplitudeTime.y.getD i 0 ^ 2 * this
    · rw [getD_ge s.rel.y i 0 (by rw [a11]; simp [a10]; exact h), getD_ge q.rel.y i 0 (by rw [b11]; simp [b10]; exact h),
        getD_ge r.rel.y i 0 (by rw [c11]; simp [c10]; exact h), getD_ge s.amplitudeTime.y i 0 (by omega)]
      simp

/-- **C122** Half a period more turns the sweep over, a whole number of periods more changes nothing. -/
theorem C122_half_and_whole_period (P : SweepPrims ℝ) (hsin : P.sin = Real.sin) (u : UncalculatedSweep ℝ) (time : TimeArg ℝ) (φ : ℝ)
    (s : Sweep ℝ) (h0 : u.call P time φ = .ok s) :
    (∀ r, u.call P time (φ + Real.pi) = .ok r → r.rel.y = s.rel.y.map fun v => -v) ∧
    (∀ (m : ℤ), u.call P time (φ + m * (2 * Real.pi)) = .ok s) := by
  constructor
  · intro r h2
    obtain ⟨t, th, a1, a2, a3, a4, a5, a6, a7, a8, a9, a10, a11, -⟩ := call_ok h0
    obtain ⟨t'', th'', c1, c2, c3, c4, c5, c6, c7, c8, c9, c10, c11, -⟩ := call_ok h2
    rw [a1] at c1
    cases c1
    rw [a2] at c2
    rw [a3] at c3
    simp only [Except.ok.injEq] at c2 c3
    rw [← c2, a4] at c4
    cases c4
    rw [a11, c11, ← c3, List.map_zipWith]
    congr 1
    funext a v
    rw [hsin, ← add_assoc, Real.sin_add_pi]
    ring
  · intro m
    have : ∀ v : ℝ, P.sin (v + (φ + m * (2 * Real.pi))) = P.sin (v + φ) := by
      intro v
      rw [hsin, ← add_assoc, Real.sin_add_int_mul_two_pi]
    rw [← h0]
    unfold UncalculatedSweep.call
    simp only [this]

/-- **C122** The integral of a frequency function need not be exact: an error of at most `e` in it changes sample `i` by at most
`2π e` times its amplitude. The errors of different samples do not add up. -/
theorem C122_integral_error (P : SweepPrims ℝ) (hsin : P.sin = Real.sin) (hpi : P.pi = Real.pi) (t0 : TimeArg ℝ)
    (g : List ℝ → Except Err (List ℝ)) (f : ℝ → ℝ) (ad : Ftat ℝ) (u : UncalculatedSweep ℝ)
    (hu : UncalculatedSweep.init t0 (.func g f) ad = .ok u) (time : TimeArg ℝ) (tht0 : ℝ) (s : Sweep ℝ)
    (h : u.call P time tht0 = .ok s) (e : ℝ) (he : ∀ a b, |P.quad f a b - ∫ x in a..b, f x| ≤ e) :
    ∃ xs, s.rel.x.array = .ok xs ∧ s.rel.y.length = xs.length ∧ ∀ i (_ : i < s.rel.y.length) (_ : i < xs.length),
      |s.rel.y[i] - s.amplitudeTime.y.getD i 0 * Real.sin (2 * Real.pi * (∫ x in s.rel.x.start..xs[i], f x) + tht0)| ≤
        |s.amplitudeTime.y.getD i 0| * (2 * Real.pi * e) := by
  obtain ⟨-, -, xs, h3, -, h5, -, h7⟩ := C47_callable_description P t0 g f ad u hu time tht0 s h
  have he0 : 0 ≤ e := (abs_nonneg _).trans (he 0 0)
  have hlip : ∀ x y : ℝ, |Real.sin x - Real.sin y| ≤ |x - y| := Real.abs_sin_sub_sin_le
  refine ⟨xs, h3, h5, fun i hi hx => ?_⟩
  rw [h7 i hi hx, hsin, hpi, ← mul_sub, abs_mul]
  apply mul_le_mul_of_nonneg_left _ (abs_nonneg _)
  refine (hlip _ _).trans ?_
  have hpos := Real.pi_pos
  split_ifs with h0
  · subst h0
    have hx0 : xs[0] = s.rel.x.start := by
      obtain ⟨-, e⟩ := Axis.array_spaced h3
      rw [e 0 hx]; simp
    rw [hx0, intervalIntegral.integral_same]
    simp only [mul_zero, sub_self, abs_zero]
    positivity
  · rw [show 2 * Real.pi * P.quad f s.rel.x.start xs[i] + tht0 - (2 * Real.pi * (∫ x in s.rel.x.start..xs[i], f x) + tht0) =
      2 * Real.pi * (P.quad f s.rel.x.start xs[i] - ∫ x in s.rel.x.start..xs[i], f x) by ring, abs_mul,
      abs_of_pos (by positivity : (0 : ℝ) < 2 * Real.pi)]
    exact mul_le_mul_of_nonneg_left (he _ _) (by positivity)

/-- three calls as in `C122_initial_phase` -/
example (φ δ : ℝ) : ∃ u s q r, UncalculatedSweep.init (.axis ⟨0, 2, 1⟩) (.array [1, 2]) (.array [3, 4]) = .ok u ∧
    u.call defaultPrims .none φ = .ok s ∧ u.call defaultPrims .none (φ + Real.pi / 2) = .ok q ∧
    u.call defaultPrims .none (φ + δ) = .ok r := by
  have h2 : pyRound (2 : ℝ) = 2 := by simpa using pyRound_natCast (K := ℝ) 2
  have key := fun tht0 => C91_generator ⟨0, 2, 1⟩ rfl 3
    (by rw [Axis.size_eq _ (by norm_num)]; norm_num [Axis.steps, h2]; rfl) (by norm_num) (by norm_num) (by norm_num)
    (by
      rintro ⟨n, hn⟩
      have h : ((4 : ℤ) : ℝ) = ((2 * n + 1 : ℤ) : ℝ) := by norm_num at hn; push_cast; linarith
      have := Int.cast_injective h
      omega) [1, 2] [3, 4] (by simp) (by simp) tht0
  obtain ⟨u, s, hu, hs⟩ := key φ
  obtain ⟨u', q, hu', hq⟩ := key (φ + Real.pi / 2)
  obtain ⟨u'', r, hu'', hr⟩ := key (φ + δ)
  rw [hu] at hu' hu''
  cases hu'
  cases hu''
  exact ⟨u, s, q, r, hu, hs, hq, hr⟩

/-- an integration that is wrong by 1/100 -/
noncomputable def roughPrims : SweepPrims ℝ := { realPrims with quad := fun f a b => (∫ x in a..b, f x) + 1 / 100 }

/-- a sweep as in `C122_integral_error` with this integration -/
example : (∀ f a b, |roughPrims.quad f a b - ∫ x in a..b, f x| ≤ 1 / 100) ∧
    ∃ u s, UncalculatedSweep.init (.axis ⟨0, 1, 1 / 2⟩) (.func (fun l => .ok (l.map fun _ => 1)) fun _ => 1) .absent = .ok u ∧
      u.call roughPrims .none 0 = .ok s ∧ s.rel.y = [0, Real.sin (2 * Real.pi * (1 / 2 + 1 / 100)), Real.sin (2 * Real.pi * (1 + 1 / 100))] := by
  refine ⟨fun f a b => ?_, cosineApr.base, ?_⟩
  · simp only [roughPrims, add_sub_cancel_left]
    rw [abs_of_pos (by norm_num)]
  have hx : (⟨0, 1, 1 / 2⟩ : Axis ℝ).array = .ok [0, 1 / 2, 1] := by
    obtain ⟨h0, hst⟩ := ((⟨0, 1, 1 / 2⟩ : Axis ℝ).size_ok_iff 3).1 size_three
    have h1 : (⟨0, 1, 1 / 2⟩ : Axis ℝ).steps = 2 := by omega
    rw [Axis.array_eq _ h0, h1]
    norm_num [linspace, List.range_succ]
  have hm : ∀ y : List ℝ, y.length = 3 → Rel.make (⟨0, 1, 1 / 2⟩ : Axis ℝ) y = .ok ⟨⟨0, 1, 1 / 2⟩, y⟩ := by
    intro y hy
    apply make_ok
    rw [size_three, hy]
  obtain ⟨g, hg⟩ := sweepInit_given roughPrims ⟨0, 1, 1 / 2⟩
    [0, Real.sin (2 * Real.pi * (1 / 2 + 1 / 100)), Real.sin (2 * Real.pi * (1 + 1 / 100))] ⟨⟨0, 1, 1 / 2⟩, [1, 1, 1]⟩
    ⟨⟨0, 1, 1 / 2⟩, [1, 1, 1]⟩ none size_three
    (realPrims_works ⟨⟨0, 1, 1 / 2⟩, [0, Real.sin (2 * Real.pi * (1 / 2 + 1 / 100)), Real.sin (2 * Real.pi * (1 + 1 / 100))]⟩)
  refine ⟨⟨⟨⟨0, 1, 1 / 2⟩, [0, Real.sin (2 * Real.pi * (1 / 2 + 1 / 100)), Real.sin (2 * Real.pi * (1 + 1 / 100))]⟩,
    ⟨⟨0, 1, 1 / 2⟩, [1, 1, 1]⟩, ⟨⟨0, 1, 1 / 2⟩, [1, 1, 1]⟩, g, none⟩, rfl, ?_, rfl⟩
  · simp only [UncalculatedSweep.call, UncalculatedSweep.calcTime, TimeArg.toAxis, cosineApr, Descr.values, constOne,
      Descr.tht, funcTht, except_bind_ok, except_pure, hx, List.map_cons, List.map_nil, List.length_cons, List.length_nil,
      List.replicate, hm, List.tail_cons]
    have hq : ∀ a b : ℝ, roughPrims.quad (fun _ => 1) a b = b - a + 1 / 100 := by
      intro a b; simp [roughPrims]
    have e0 : roughPrims.sin (0 + 0) = 0 := by simp [roughPrims, realPrims]
    simp only [hq, e0]
    rw [npMul_eq (by simp)]
    simp only [except_bind_ok, List.zipWith, one_mul, sub_zero, add_zero]
    exact hg

/-! ## C123 -/

/-- **C123** Frequencies above half the sampling frequency cannot be told from lower ones: raising both ends of a linear sweep by a whole
multiple of the sampling frequency changes no sample, and mirroring them at a whole multiple of it only turns the sweep over. -/
theorem C123_aliases (P : SweepPrims ℝ) (hsin : P.sin = Real.sin) (hpi : P.pi = Real.pi) (t : Axis ℝ) (h0 : t.start = 0)
    (hs : 0 < t.sample) (k : ℕ) (hk : 1 ≤ k) (hT : t.stop = k * t.sample) (fs fe : ℝ) (tt : Option ℝ) (m : ℤ) (s r q : Sweep ℝ)
    (h1 : getLinearSweep P (.axis t) fs fe tt = .ok s)
    (h2 : getLinearSweep P (.axis t) (fs + m / t.sample) (fe + m / t.sample) tt = .ok r)
    (h3 : getLinearSweep P (.axis t) (m / t.sample - fs) (m / t.sample - fe) tt = .ok q) :
    r.rel = s.rel ∧ q.rel.x = s.rel.x ∧ q.rel.y = s.rel.y.map fun v => -v := by
  obtain ⟨x1, -, -, l1, -, a1, e1⟩ := C51_closed_form P hsin hpi t h0 hs k hk hT _ _ tt s h1
  obtain ⟨x2, -, -, l2, -, a2, e2⟩ := C51_closed_form P hsin hpi t h0 hs k hk hT _ _ tt r h2
  obtain ⟨x3, -, -, l3, -, a3, e3⟩ := C51_closed_form P hsin hpi t h0 hs k hk hT _ _ tt q h3
  rw [a1] at a2 a3
  simp only [Except.ok.injEq] at a2 a3
  have hy2 : r.rel.y = s.rel.y := by
    apply List.ext_getElem (by omega)
    intro i g1 g2
    have u1 := (e1 i (by omega)).2
    have u2 := (e2 i (by omega)).2
    rw [getD_lt _ _ _ g2] at u1
    rw [getD_lt _ _ _ g1] at u2
    rw [u1, u2, ← a2]
    congr 1
    conv_rhs => rw [← Real.sin_add_int_mul_two_pi _ (m * i)]
    congr 1
    push_cast
    field_simp
    ring
  have hy3 : q.rel.y = s.rel.y.map fun v => -v := by
    apply List.ext_getElem (by simp; omega)
    intro i g1 g2
    have u1 := (e1 i (by omega)).2
    have u2 := (e3 i (by omega)).2
    rw [getD_lt _ _ _ (by omega)] at u1
    rw [getD_lt _ _ _ g1] at u2
    rw [List.getElem_map, u1, u2, ← a3, ← mul_neg, ← Real.sin_neg]
    congr 1
    conv_rhs => rw [← Real.sin_add_int_mul_two_pi _ (m * i)]
    congr 1
    push_cast
    field_simp
    ring
  refine ⟨?_, x3.trans x1.symm, hy3⟩
  rcases hr : r.rel with ⟨x, y⟩
  rcases hq : s.rel with ⟨x', y'⟩
  rw [hr, hq] at hy2
  rw [hr] at x2
  rw [hq] at x1
  simp only at hy2 x2 x1
  rw [hy2, x2, x1]

/-- **C123** The sweep from `fe` down to `fs` is the sweep from `fs` up to `fe` played backwards and turned over, if the whole sweep is a
whole number `m` of periods long, that is `(fs + fe) / 2 * T = m`. -/
theorem C123_backwards (P : SweepPrims ℝ) (hsin : P.sin = Real.sin) (hpi : P.pi = Real.pi) (t : Axis ℝ) (h0 : t.start = 0)
    (hs : 0 < t.sample) (k : ℕ) (hk : 1 ≤ k) (hT : t.stop = k * t.sample) (fs fe : ℝ) (tt : Option ℝ) (m : ℤ)
    (hm : (fs + fe) / 2 * t.stop = m) (s r : Sweep ℝ)
    (h1 : getLinearSweep P (.axis t) fs fe tt = .ok s) (h2 : getLinearSweep P (.axis t) fe fs tt = .ok r) :
    r.rel.x = s.rel.x ∧ r.rel.y = (s.rel.y.map fun v => -v).reverse := by
  obtain ⟨x1, -, -, l1, -, a1, e1⟩ := C51_closed_form P hsin hpi t h0 hs k hk hT _ _ tt s h1
  obtain ⟨x2, -, -, l2, -, a2, e2⟩ := C51_closed_form P hsin hpi t h0 hs k hk hT _ _ tt r h2
  rw [a1] at a2
  simp only [Except.ok.injEq] at a2
  have hkR : (k : ℝ) ≠ 0 := by
    have : 0 < k := hk
    exact_mod_cast this.ne'
  have hsym : s.amplitudeTime.y.reverse = s.amplitudeTime.y ∧ s.amplitudeTime.y.length = k + 1 := by
    constructor
    · cases tt with
      | none =>
        have := C52_ones _ _ _ _ a1 (.inl rfl)
        rw [List.eq_replicate_of_mem this]
        simp
      | some c =>
        obtain ⟨b, -, -, hb, -, -, hrev, -⟩ := C52_locations _ c (show ((List.range (k + 1)).map fun i : ℕ => (i : ℝ) * t.sample) ≠ [] by simp)
        rw [a1] at hb
        simp only [Except.ok.injEq] at hb
        rw [hb, hrev]
    · have := ((C52_shape _ _ _).1 _ a1).1
      simpa using this
  have hamp : ∀ i ≤ k, s.amplitudeTime.y.getD (k - i) 0 = s.amplitudeTime.y.getD i 0 := by
    intro i hi
    conv_rhs => rw [← hsym.1]
    rw [getD_lt _ _ _ (by omega), getD_lt _ _ _ (by rw [List.length_reverse]; omega), List.getElem_reverse]
    congr 1
    omega
  refine ⟨x2.trans x1.symm, ?_⟩
  apply List.ext_getElem (by simp; omega)
  intro i g1 g2
  have u1 := (e1 (k - i) (by omega)).2
  have u2 := (e2 i (by omega)).2
  rw [getD_lt _ _ _ (by omega)] at u1
  rw [getD_lt _ _ _ g1] at u2
  rw [List.getElem_reverse, List.getElem_map]
  have hidx : (s.rel.y.map fun v => -v).length - 1 - i = k - i := by simp; omega
  simp only [hidx]
  rw [u1, u2, ← a2, hamp i (by omega), ← mul_neg, ← Real.sin_neg]
  congr 1
  rw [← Real.sin_add_int_mul_two_pi (-_) m, ← hm, Nat.cast_sub (by omega : i ≤ k), hT]
  congr 1
  field_simp
  ring

/-- sweeps as in `C123_aliases` and `C123_backwards`: two seconds from 1 to 2 Hz, sampled twice a second, are three periods -/
example : (∃ s r q, getLinearSweep defaultPrims (.axis ⟨0, 2, 1 / 2⟩) 1 2 (some 1) = .ok s ∧
      getLinearSweep defaultPrims (.axis ⟨0, 2, 1 / 2⟩) 2 1 (some 1) = .ok r ∧
      getLinearSweep defaultPrims (.axis ⟨0, 2, 1 / 2⟩) (1 + (5 : ℤ) / (1 / 2)) (2 + (5 : ℤ) / (1 / 2)) (some 1) = .ok q) ∧
    ((1 : ℝ) + 2) / 2 * 2 = (3 : ℤ) := by
  have key := fun fs fe => C91_linear ⟨0, 2, 1 / 2⟩ rfl (by norm_num) 4 (by norm_num) (by norm_num) fs fe (some 1)
  obtain ⟨s, hs⟩ := key 1 2
  obtain ⟨r, hr⟩ := key 2 1
  obtain ⟨q, hq⟩ := key (1 + (5 : ℤ) / (1 / 2)) (2 + (5 : ℤ) / (1 / 2))
  exact ⟨⟨s, r, q, hs, hr, hq⟩, by norm_num⟩

/-! ## C124 -/

/-- the roots of unity over a stretch of `N` whole numbers -/
theorem sum_unitRoot_shift (N : ℕ) (hN : 0 < N) (d a : ℤ) :
    ∑ j ∈ Finset.range N, unitRoot N (d * (a + j)) = if (N : ℤ) ∣ d then (N : ℂ) else 0 := by
  have : ∀ j ∈ Finset.range N, unitRoot N (d * (a + j)) = unitRoot N (d * a) * unitRoot N (d * j) := by
    intro j _
    rw [← unitRoot_add]
    congr 1
    ring
  rw [Finset.sum_congr rfl this, ← Finset.mul_sum, unitRoot_sum N hN]
  split_ifs with h
  · obtain ⟨c, rfl⟩ := h
    rw [mul_assoc, unitRoot_period N hN, one_mul]
  · rw [mul_zero]

/-- a tone with a whole number of periods: its two exponentials meet the frequencies of the spectrum -/
theorem tone_values (r : Rel ℝ ℝ) (lt ly : List ℝ) (h : r.getData = .ok (lt, ly)) (s : ℝ) (hs : 0 < s) (a b : ℤ) (ha : a ≤ 0)
    (hb : 0 ≤ b) (hab : a < b) (hsample : r.x.sample = s) (hstart : r.x.start = a * s) (hstop : r.x.stop = b * s) (N : ℕ)
    (hN : (N : ℤ) = b - a + 1) (m : ℕ) (A φ : ℝ)
    (hy : ∀ j (h1 : j < ly.length) (h2 : j < lt.length), ly[j] = A * Real.cos (2 * Real.pi * (m / (N * s)) * lt[j] + φ)) :
    ∃ sp lf lv, r.getSpectrum = .ok sp ∧ sp.getData = .ok (lf, lv) ∧ lf.length = N / 2 + 1 ∧ lv.length = N / 2 + 1 ∧
      (∀ k (h1 : k < lf.length), lf[k] = k / (N * s)) ∧
      ∀ k (h2 : k < lv.length), lv[k] =
        A * Complex.exp (Complex.I * φ) / 2 * (if (N : ℤ) ∣ (m : ℤ) - k then (N : ℂ) else 0) +
          (starRingEnd ℂ) (A * Complex.exp (Complex.I * φ)) / 2 * (if (N : ℤ) ∣ -(m : ℤ) - k then (N : ℂ) else 0) := by
  obtain ⟨sp, lf, lv, e1, e2, e3, e4, e5⟩ := C69_fourier_sum r lt ly h s hs a b hab hsample hstart hstop N (by omega)
  refine ⟨sp, lf, lv, e1, e2, e3, e4, fun k h1 => (e5 k h1 (by omega)).1, fun k h2 => ?_⟩
  obtain ⟨f1, f2⟩ := e5 k (by omega) h2
  rw [f2, f1]
  obtain ⟨hx, rfl, hlen⟩ := (getData_ok_iff _ _ _).1 h
  obtain ⟨d, hd⟩ : ∃ d : ℕ, b = a + d := ⟨(b - a).toNat, by omega⟩
  have hw := array_whole r.x d (by rw [hsample]; exact hs) (by
    rw [hstart, hstop, hsample, hd]; push_cast; ring)
  rw [hx] at hw
  simp only [Except.ok.injEq] at hw
  have hll : lt.length = N := by rw [hw]; simp; omega
  have hyl : r.y.length = N := by omega
  have hN0 : 0 < N := by omega
  have hNR : (N : ℝ) ≠ 0 := by exact_mod_cast hN0.ne'
  have hNC : (N : ℂ) ≠ 0 := by exact_mod_cast hN0.ne'
  have hsC : (s : ℂ) ≠ 0 := by exact_mod_cast hs.ne'
  have hlt : ∀ j (h : j < lt.length), lt[j] = ((a + j : ℤ) : ℝ) * s := by
    intro j hj
    subst hw
    simp only [List.getElem_map, List.getElem_range, hstart, hsample]
    push_cast
    ring
  set C : ℂ := A * Complex.exp (Complex.I * φ) with hC
  have hterm : ∀ j ∈ Finset.range r.y.length, ((r.y.getD j 0 : ℝ) : ℂ) *
      Complex.exp (-(2 * Real.pi * Complex.I * (((k : ℝ) / (N * s) * lt.getD j 0 : ℝ) : ℂ))) =
      C / 2 * unitRoot N (((m : ℤ) - k) * (a + j)) + (starRingEnd ℂ) C / 2 * unitRoot N ((-(m : ℤ) - k) * (a + j)) := by
    intro j hj
    have hj' := Finset.mem_range.1 hj
    have hjt : j < lt.length := by omega
    have hexp : Complex.exp (-(2 * Real.pi * Complex.I * (((k : ℝ) / (N * s) * lt.getD j 0 : ℝ) : ℂ))) =
        unitRoot N (-(k * (a + j))) := by
      rw [getD_lt _ _ _ hjt, hlt j hjt]
      unfold unitRoot
      congr 1
      push_cast
      field_simp
    have hval : ((r.y.getD j 0 : ℝ) : ℂ) = C / 2 * unitRoot N (m * (a + j)) + (starRingEnd ℂ) C / 2 * unitRoot N (-(m * (a + j))) := by
      have h1 : r.y.getD j 0 = (C * unitRoot N (m * (a + j))).re := by
        rw [getD_lt _ _ _ hj', hy j hj' hjt, hlt j hjt]
        have : C * unitRoot N (m * (a + j)) =
            A * Complex.exp (((2 * Real.pi * (m / (N * s)) * (((a + j : ℤ) : ℝ) * s) + φ : ℝ) : ℂ) * Complex.I) := by
          rw [hC]
          unfold unitRoot
          rw [mul_assoc, ← Complex.exp_add]
          congr 2
          push_cast
          field_simp
          ring
        rw [this, Complex.re_ofReal_mul, Complex.exp_ofReal_mul_I_re]
      rw [h1, Complex.re_eq_add_conj, map_mul, unitRoot_conj]
      ring
    rw [hexp, hval, show ((m : ℤ) - k) * (a + j) = m * (a + j) + -(k * (a + j)) by ring,
      show (-(m : ℤ) - k) * (a + j) = -(m * (a + j)) + -(k * (a + j)) by ring, unitRoot_add, unitRoot_add]
    ring
  rw [Finset.sum_congr rfl hterm, Finset.sum_add_distrib, ← Finset.mul_sum, ← Finset.mul_sum, hyl,
    sum_unitRoot_shift N hN0, sum_unitRoot_shift N hN0]

/-- **C124** The spectrum of a tone with a whole number `m` of periods in the signal, `A cos(2π f t + φ)` at the signal's own times `t`:
one value `N A / 2 e^{iφ}` at its frequency `f = m / (N s)`, and zero at all others. -/
theorem C124_tone (r : Rel ℝ ℝ) (lt ly : List ℝ) (h : r.getData = .ok (lt, ly)) (s : ℝ) (hs : 0 < s) (a b : ℤ) (ha : a ≤ 0)
    (hb : 0 ≤ b) (hab : a < b) (hsample : r.x.sample = s) (hstart : r.x.start = a * s) (hstop : r.x.stop = b * s) (N : ℕ)
    (hN : (N : ℤ) = b - a + 1) (m : ℕ) (hm0 : 0 < m) (hm : 2 * m < N) (A φ : ℝ)
    (hy : ∀ j (h1 : j < ly.length) (h2 : j < lt.length), ly[j] = A * Real.cos (2 * Real.pi * (m / (N * s)) * lt[j] + φ)) :
    ∃ sp lf lv, r.getSpectrum = .ok sp ∧ sp.getData = .ok (lf, lv) ∧ lf.length = N / 2 + 1 ∧ lv.length = N / 2 + 1 ∧
      (∀ k (h1 : k < lf.length), lf[k] = k / (N * s)) ∧
      ∀ k (h2 : k < lv.length), lv[k] = if k = m then (N * A / 2 : ℝ) * Complex.exp (Complex.I * φ) else 0 := by
  obtain ⟨sp, lf, lv, e1, e2, e3, e4, e5, e6⟩ := tone_values r lt ly h s hs a b ha hb hab hsample hstart hstop N hN m A φ hy
  refine ⟨sp, lf, lv, e1, e2, e3, e4, e5, fun k h2 => ?_⟩
  rw [e6 k h2]
  have hk2 : k ≤ N / 2 := by omega
  have n2 : ¬ (N : ℤ) ∣ (-(m : ℤ) - k) := by
    intro hdv
    have := Int.eq_zero_of_abs_lt_dvd hdv (by rw [abs_lt]; omega)
    omega
  rw [if_neg n2]
  by_cases hkm : k = m
  · subst hkm
    rw [if_pos (by simp), if_pos rfl]
    push_cast
    ring
  · have n1 : ¬ (N : ℤ) ∣ ((m : ℤ) - k) := by
      intro hdv
      have := Int.eq_zero_of_abs_lt_dvd hdv (by rw [abs_lt]; omega)
      omega
    rw [if_neg n1, if_neg hkm]
    simp

/-- **C124** A constant (`m = 0`) and the tone at half the sampling frequency (`2 m = N`) have no mirrored partner: their one value is
`N A cos φ`, twice as large for the same `A` when `φ = 0`. -/
theorem C124_ends (r : Rel ℝ ℝ) (lt ly : List ℝ) (h : r.getData = .ok (lt, ly)) (s : ℝ) (hs : 0 < s) (a b : ℤ) (ha : a ≤ 0)
    (hb : 0 ≤ b) (hab : a < b) (hsample : r.x.sample = s) (hstart : r.x.start = a * s) (hstop : r.x.stop = b * s) (N : ℕ)
    (hN : (N : ℤ) = b - a + 1) (m : ℕ) (hm : m = 0 ∨ 2 * m = N) (A φ : ℝ)
    (hy : ∀ j (h1 : j < ly.length) (h2 : j < lt.length), ly[j] = A * Real.cos (2 * Real.pi * (m / (N * s)) * lt[j] + φ)) :
    ∃ sp lf lv, r.getSpectrum = .ok sp ∧ sp.getData = .ok (lf, lv) ∧ lf.length = N / 2 + 1 ∧ lv.length = N / 2 + 1 ∧
      (∀ k (h1 : k < lf.length), lf[k] = k / (N * s)) ∧
      ∀ k (h2 : k < lv.length), lv[k] = if k = m then ((N * A * Real.cos φ : ℝ) : ℂ) else 0 := by
  obtain ⟨sp, lf, lv, e1, e2, e3, e4, e5, e6⟩ := tone_values r lt ly h s hs a b ha hb hab hsample hstart hstop N hN m A φ hy
  refine ⟨sp, lf, lv, e1, e2, e3, e4, e5, fun k h2 => ?_⟩
  rw [e6 k h2]
  have hk2 : k ≤ N / 2 := by omega
  by_cases hkm : k = m
  · subst hkm
    have n2 : (N : ℤ) ∣ (-(k : ℤ) - k) := by
      rcases hm with rfl | hm
      · simp
      · exact ⟨-1, by omega⟩
    rw [if_pos (by simp), if_pos n2, if_pos rfl, ← add_mul, ← add_div]
    have hre : (A * Complex.exp (Complex.I * φ) : ℂ).re = A * Real.cos φ := by
      rw [Complex.re_ofReal_mul, mul_comm Complex.I, Complex.exp_ofReal_mul_I_re]
    rw [← Complex.re_eq_add_conj, hre]
    push_cast
    ring
  · have n1 : ¬ (N : ℤ) ∣ ((m : ℤ) - k) := by
      intro hdv
      have := Int.eq_zero_of_abs_lt_dvd hdv (by rw [abs_lt]; omega)
      omega
    have n2 : ¬ (N : ℤ) ∣ (-(m : ℤ) - k) := by
      rintro ⟨c, hc⟩
      rcases hm with rfl | hm
      · have := Int.eq_zero_of_abs_lt_dvd (⟨c, hc⟩ : (N : ℤ) ∣ _) (by rw [abs_lt]; omega)
        omega
      · have : (N : ℤ) ∣ ((m : ℤ) - k) := ⟨c + 1, by rw [mul_add, ← hc]; omega⟩
        exact n1 this
    rw [if_neg n1, if_neg n2, if_neg hkm]
    simp

/-- C124 on a concrete tone that begins before time zero: `3 cos(2π t / 2)` at -1/2, 0, 1/2, 1 -/
example : ∃ sp lf lv, (⟨⟨-1 / 2, 1, 1 / 2⟩, [0, 3, 0, -3]⟩ : Rel ℝ ℝ).getSpectrum = .ok sp ∧ sp.getData = .ok (lf, lv) ∧
    lf.length = 3 ∧ lv = [0, 6, 0] := by
  have hst : (⟨-1 / 2, 1, 1 / 2⟩ : Axis ℝ).steps = 3 := by
    have : pyRound (3 : ℝ) = 3 := by simpa using pyRound_natCast (K := ℝ) 3
    norm_num [Axis.steps, this]
    rfl
  have hx : (⟨-1 / 2, 1, 1 / 2⟩ : Axis ℝ).array = .ok [-1 / 2, 0, 1 / 2, 1] := by
    rw [Axis.array_eq _ (by norm_num), hst]
    norm_num [linspace, List.range_succ]
  have hg : (⟨⟨-1 / 2, 1, 1 / 2⟩, [0, 3, 0, -3]⟩ : Rel ℝ ℝ).getData = .ok ([-1 / 2, 0, 1 / 2, 1], [0, 3, 0, -3]) := by
    rw [getData_ok_iff]
    exact ⟨hx, rfl, rfl⟩
  obtain ⟨sp, lf, lv, e1, e2, e3, e4, -, e5⟩ := C124_tone _ _ _ hg (1 / 2) (by norm_num) (-1) 2 (by norm_num) (by norm_num) (by norm_num)
    rfl (by norm_num) (by norm_num) 4 (by norm_num) 1 (by norm_num) (by norm_num) 3 0 (by
      intro j h1 h2
      have hj : j < 4 := h1
      have c : Real.cos (Real.pi / 2) = 0 := Real.cos_pi_div_two
      interval_cases j
      · have : 2 * Real.pi * ((1 : ℕ) / ((4 : ℕ) * (1 / 2))) * (-1 / 2) + 0 = -(Real.pi / 2) := by push_cast; ring
        simp only [List.getElem_cons_zero, this, Real.cos_neg, c, mul_zero]
      · simp
      · have : 2 * Real.pi * ((1 : ℕ) / ((4 : ℕ) * (1 / 2))) * (1 / 2) + 0 = Real.pi / 2 := by push_cast; ring
        simp only [List.getElem_cons_zero, List.getElem_cons_succ, this, c, mul_zero]
      · have : 2 * Real.pi * ((1 : ℕ) / ((4 : ℕ) * (1 / 2))) * 1 + 0 = Real.pi := by push_cast; ring
        simp only [List.getElem_cons_zero, List.getElem_cons_succ, this, Real.cos_pi]
        norm_num)
  refine ⟨sp, lf, lv, e1, e2, e3, ?_⟩
  apply List.ext_getElem (by rw [e4]; rfl)
  intro k h1 h2
  rw [e5 k h1]
  have hk : k < 3 := h2
  interval_cases k <;> norm_num

/-- C124 on the constant 5 -/
example : ∃ sp lf lv, (⟨⟨0, 2, 1⟩, [5, 5, 5]⟩ : Rel ℝ ℝ).getSpectrum = .ok sp ∧ sp.getData = .ok (lf, lv) ∧
    lf.length = 2 ∧ lv = [15, 0] := by
  have hx : (⟨0, 2, 1⟩ : Axis ℝ).array = .ok [0, 1, 2] := by
    have := array_whole (⟨0, 2, 1⟩ : Axis ℝ) 2 (by norm_num) (by norm_num)
    rw [this]
    norm_num [List.range_succ]
  have hg : (⟨⟨0, 2, 1⟩, [5, 5, 5]⟩ : Rel ℝ ℝ).getData = .ok ([0, 1, 2], [5, 5, 5]) := by
    rw [getData_ok_iff]
    exact ⟨hx, rfl, rfl⟩
  obtain ⟨sp, lf, lv, e1, e2, e3, e4, -, e5⟩ := C124_ends _ _ _ hg 1 (by norm_num) 0 2 (by norm_num) (by norm_num) (by norm_num)
    rfl (by norm_num) (by norm_num) 3 (by norm_num) 0 (Or.inl rfl) 5 0 (by
      intro j h1 h2
      have hj : j < 3 := h1
      interval_cases j <;> simp)
  refine ⟨sp, lf, lv, e1, e2, e3, List.ext_getElem (by simpa using e4) fun k h1 h2 => ?_⟩
  have hk : k < 2 := h2
  rw [e5 k h1]
  interval_cases k
  · simp; norm_num
  · simp

end SweepDesign
