import Verif.Lemmas.Sweep
import Mathlib.Analysis.SpecialFunctions.Trigonometric.Basic
import Mathlib.MeasureTheory.Integral.IntervalIntegral.Basic

set_option linter.unusedSectionVars false

/-!
# C47–C50: the calculated sweep
-/

namespace SweepDesign

open Spec

variable {K : Type} [Field K] [LinearOrder K] [IsStrictOrderedRing K] [FloorRing K]

/-- the description is an array, a relation or an `InterpolateArray` -/
def Spec.ArrayLike : Ftat K → Prop
  | .array _ | .rel _ | .interp _ => True
  | _ => False

theorem uinit_ok {t0 : TimeArg K} {fd ad : Ftat K} {u : UncalculatedSweep K}
    (hu : UncalculatedSweep.init t0 fd ad = .ok u) :
    t0.toAxis = .ok u.time ∧ extract u.time fd linearTime = .ok u.frequencyTime ∧
    extract u.time ad constOne = .ok u.amplitudeTime := by
  simp only [UncalculatedSweep.init, except_bind_eq_ok, except_pure, Except.ok.injEq] at hu
  obtain ⟨t, h1, f, h2, a, h3, rfl⟩ := hu
  exact ⟨h1, h2, h3⟩

theorem extract_arrayLike {t : Option (Axis K)} {x : Ftat K} {dflt d : Descr K} (h : extract t x dflt = .ok d)
    (hx : ArrayLike x) : ∃ f, d = .interp f := by
  cases x with
  | absent => exact absurd hx id
  | func => exact absurd hx id
  | interp f => simp only [extract, Except.ok.injEq] at h; exact ⟨f, h.symm⟩
  | rel r =>
    simp only [extract, except_bind_eq_ok, except_pure, Except.ok.injEq] at h
    obtain ⟨f, -, rfl⟩ := h
    exact ⟨f, rfl⟩
  | array l =>
    cases t with
    | none => simp [extract] at h
    | some t =>
      simp only [extract, except_bind_eq_ok, except_pure, Except.ok.injEq] at h
      obtain ⟨n, -, y, -, f, -, rfl⟩ := h
      exact ⟨f, rfl⟩

theorem zipWith_getElem' {f : K → K → K} {a b : List K} (i : ℕ) (h : i < (List.zipWith f a b).length) :
    (List.zipWith f a b)[i] = f (a.getD i 0) (b.getD i 0) := by
  have h1 : i < a.length := by simp only [List.length_zipWith] at h; omega
  have h2 : i < b.length := by simp only [List.length_zipWith] at h; omega
  rw [List.getElem_zipWith, getD_lt _ _ _ h1, getD_lt _ _ _ h2]

/-- **C47** Frequency given as an array, relation or `InterpolateArray`: at every sample the sweep is
`a_i * sin(theta_i + tht0)`, with `theta_i` equal to `2π` times the cumulative trapezoid of `frequency_time`; the sweep,
its `frequency_time` and its `amplitude_time` have the same axis. -/
theorem C47_array_description (P : SweepPrims K) (t0 : TimeArg K) (fd ad : Ftat K) (u : UncalculatedSweep K)
    (hu : UncalculatedSweep.init t0 fd ad = .ok u) (hfd : ArrayLike fd) (time : TimeArg K) (tht0 : K) (s : Sweep K)
    (h : u.call P time tht0 = .ok s) :
    s.frequencyTime.x = s.rel.x ∧ s.amplitudeTime.x = s.rel.x ∧ s.rel.x.size = .ok s.rel.y.length ∧
    s.frequencyTime.y.length = s.rel.y.length ∧ s.amplitudeTime.y.length = s.rel.y.length ∧
    ∀ i (_ : i < s.rel.y.length),
      s.rel.y[i] = s.amplitudeTime.y.getD i 0 * P.sin (2 * P.pi * (s.rel.x.sample *
        ∑ j ∈ Finset.range i, (s.frequencyTime.y.getD j 0 + s.frequencyTime.y.getD (j + 1) 0) / 2) + tht0) := by
  obtain ⟨-, h2, -⟩ := uinit_ok hu
  obtain ⟨f, hf⟩ := extract_arrayLike h2 hfd
  obtain ⟨t, th, -, -, -, e4, e5, e6, e7, e8, e9, e10, e11, -⟩ := call_ok h
  have hlen : s.rel.y.length = th.length := by rw [e11, List.length_zipWith, e10]; omega
  rw [hf] at e4
  simp only [Descr.tht, arrayTht, except_bind_eq_ok] at e4
  obtain ⟨r, g1, q, g2, g3⟩ := e4
  obtain ⟨-, rfl⟩ := (make_ok_iff _ _ _).1 g1
  obtain ⟨-, g4⟩ := (make_ok_iff _ _ _).1 g3
  obtain ⟨-, -, -, c1, -, c2⟩ := C13_integrate_values _ _ g2
  simp only at c1 c2
  have hth : th = 0 :: q.y.map fun v => 2 * P.pi * v := congrArg Rel.y g4
  refine ⟨by rw [e6, e7], by rw [e6, e8], by rw [e6, hlen, e5], by omega, by omega, fun i hi => ?_⟩
  have hi' := hi
  rw [e11] at hi'
  have hthi : th.getD i 0 = 2 * P.pi * (t.sample *
      ∑ j ∈ Finset.range i, (s.frequencyTime.y.getD j 0 + s.frequencyTime.y.getD (j + 1) 0) / 2) := by
    rw [hth]
    cases i with
    | zero => simp
    | succ i =>
      have : i < q.y.length := by omega
      rw [List.getD_cons_succ, getD_lt _ _ _ (by simpa using this), List.getElem_map, c2 i this, smul_eq_mul]
  rw [e6, ← hthi]
  simp only [e11]
  exact zipWith_getElem' i hi'

/-- **C47** Frequency given as a callable: `theta_i` is `2π` times the quadrature of the callable from the start of the
axis to the time of the sample, `theta_0 = 0`; `frequency_time` are the values of the callable on the time array. -/
theorem C47_callable_description (P : SweepPrims K) (t0 : TimeArg K) (g : List K → Except Err (List K)) (φ : K → K)
    (ad : Ftat K) (u : UncalculatedSweep K) (hu : UncalculatedSweep.init t0 (.func g φ) ad = .ok u) (time : TimeArg K)
    (tht0 : K) (s : Sweep K) (h : u.call P time tht0 = .ok s) :
    s.frequencyTime.x = s.rel.x ∧ s.amplitudeTime.x = s.rel.x ∧
    ∃ xs, s.rel.x.array = .ok xs ∧ g xs = .ok s.frequencyTime.y ∧ s.rel.y.length = xs.length ∧
      s.amplitudeTime.y.length = xs.length ∧
    ∀ i (_ : i < s.rel.y.length) (hx : i < xs.length),
      s.rel.y[i] = s.amplitudeTime.y.getD i 0 *
        P.sin ((if i = 0 then 0 else 2 * P.pi * P.quad φ s.rel.x.start xs[i]) + tht0) := by
  obtain ⟨-, h2, -⟩ := uinit_ok hu
  simp only [extract, Except.ok.injEq] at h2
  obtain ⟨t, th, -, e2, -, e4, e5, e6, e7, e8, e9, e10, e11, -⟩ := call_ok h
  have hlen : s.rel.y.length = th.length := by rw [e11, List.length_zipWith, e10]; omega
  rw [← h2] at e4 e2
  simp only [Descr.values, except_bind_eq_ok] at e2
  obtain ⟨xs, hxs, e2⟩ := e2
  simp only [Descr.tht, funcTht, hxs, except_bind_ok] at e4
  obtain ⟨-, g4⟩ := (make_ok_iff _ _ _).1 e4
  have hth : th = 0 :: xs.tail.map fun t' => 2 * P.pi * P.quad φ t.start t' := congrArg Rel.y g4
  have hlx : th.length = xs.length := by
    rw [Axis.size_of_array hxs] at e5; simpa using e5.symm
  refine ⟨by rw [e6, e7], by rw [e6, e8], xs, by rw [e6]; exact hxs, e2, by omega, by omega, fun i hi hx => ?_⟩
  have hi' := hi
  rw [e11] at hi'
  have hthi : th.getD i 0 = if i = 0 then 0 else 2 * P.pi * P.quad φ t.start xs[i] := by
    rw [hth]
    cases i with
    | zero => simp
    | succ i =>
      rw [List.getD_cons_succ, getD_lt _ _ _ (by simp; omega)]
      simp
  rw [e6, ← hthi]
  simp only [e11]
  exact zipWith_getElem' i hi'

/-- **C47** Without a frequency description the frequency is the time itself, and without an amplitude description the
envelope is 1. -/
theorem C47_absent_descriptions (P : SweepPrims K) (t0 : TimeArg K) (fd ad : Ftat K) (u : UncalculatedSweep K)
    (hu : UncalculatedSweep.init t0 fd ad = .ok u) (time : TimeArg K) (tht0 : K) (s : Sweep K)
    (h : u.call P time tht0 = .ok s) :
    (fd = .absent → s.rel.x.array = .ok s.frequencyTime.y ∧
      UncalculatedSweep.init t0 (.func (fun l => .ok l) id) ad = .ok u) ∧
    (ad = .absent → ∀ a ∈ s.amplitudeTime.y, a = 1) := by
  obtain ⟨h1, h2, h3⟩ := uinit_ok hu
  obtain ⟨t, th, -, e2, e3, e4, e5, e6, -⟩ := call_ok h
  constructor
  · rintro rfl
    refine ⟨?_, hu⟩
    simp only [extract, Except.ok.injEq] at h2
    rw [← h2] at e2
    simp only [linearTime, Descr.values, except_bind_eq_ok, Except.ok.injEq] at e2
    obtain ⟨l, hl, rfl⟩ := e2
    rw [e6]; exact hl
  · rintro rfl a ha
    simp only [extract, Except.ok.injEq] at h3
    rw [← h3] at e3
    simp only [constOne, Descr.values, except_bind_eq_ok, Except.ok.injEq] at e3
    obtain ⟨l, hl, e3⟩ := e3
    rw [← e3] at ha
    exact (List.mem_replicate.1 ha).2

/-- the black boxes of the `Sweep` constructor succeed on `r` -/
def Spec.SpectrogramWorks (P : SweepPrims K) (r : Rel K K) : Prop :=
  ∃ d g, P.spectrogram r = .ok d ∧ getSpectrogram d = .ok g

theorem sweepInit_given (P : SweepPrims K) (t : Axis K) (y : List K) (f a : Rel K K) (p : Option (Rel K K))
    (hy : t.size = .ok y.length) (hw : SpectrogramWorks P ⟨t, y⟩) :
    ∃ g, Sweep.init P (.axis t) (some y) (some f) (some a) p = .ok ⟨⟨t, y⟩, f, a, g, p⟩ := by
  obtain ⟨d, g, h1, h2⟩ := hw
  refine ⟨g, ?_⟩
  simp only [Sweep.init, init_axis, make_ok hy, orDerive, except_bind_ok, h1, h2, except_pure]

theorem resample_ok {t : Axis K} (ht : t.start ≠ t.stop) (hs : t.sample ≠ 0) {l : List K} (hl : 2 ≤ l.length) :
    ∃ p xs v, EvenlySpaced p t.start ((t.stop - t.start) / ((l.length : K) - 1)) l.length ∧ t.array = .ok xs ∧
      resample t l = .ok v ∧ v.length = xs.length ∧
      ∀ i (h : i < xs.length) (h' : i < v.length), IsInterpolant p l xs[i] v[i] := by
  have hl1 : ((l.length : K) - 1) ≠ 0 := by
    have : (2 : K) ≤ l.length := by exact_mod_cast hl
    intro h; linarith
  have hc : (l.length - 1 : ℕ) = ((l.length : K) - 1) := by push_cast [Nat.cast_sub (by omega : 1 ≤ l.length)]; ring
  set c : Axis K := { start := t.start, stop := t.stop, sample := (t.start - t.stop) / ((l.length : K) - 1) } with hcdef
  have hcs : c.sample ≠ 0 := div_ne_zero (sub_ne_zero.2 ht) hl1
  have hst : c.steps = l.length - 1 := by
    rw [Axis.steps_eq_iff, ← pyRound_eq_iff]
    have : |(c.stop - c.start) / c.sample| = ((l.length - 1 : ℕ) : K) := by
      rw [hc]
      have : (c.stop - c.start) / c.sample = -((l.length : K) - 1) := by
        simp only [hcdef]
        have := sub_ne_zero.2 ht
        field_simp
        ring
      rw [this, abs_neg, abs_of_nonneg]
      have : (2 : K) ≤ l.length := by exact_mod_cast hl
      linarith
    rw [this, pyRound_natCast]
  have hca := c.array_eq hcs
  have hp := Axis.array_spaced hca
  rw [hst] at hp hca
  have e : c.step = (t.stop - t.start) / ((l.length : K) - 1) := by
    unfold Axis.step; rw [hst, hc]
  rw [e, Nat.sub_add_cancel (by omega)] at hp
  obtain ⟨v, h3, h4, h5⟩ := interp1d_spec _ l (linspace t.start t.stop (t.steps + 1)) hp.1
    (by rw [hp.1]; omega) (spaced_monotone hp (div_ne_zero (sub_ne_zero.2 ht.symm) hl1))
  rw [Nat.sub_add_cancel (by omega)] at hca
  refine ⟨_, _, v, hp, t.array_eq hs, ?_, h4, h5⟩
  unfold resample
  rw [if_neg (by omega)]
  simp only [← hcdef, hca, t.array_eq hs, except_bind_ok]
  exact h3

/-- `y` are the values on the points of `t` of the piecewise linear curve through the values `l` placed evenly from the
start to the end of `t` -/
def Spec.StretchedOver (t : Axis K) (l y : List K) : Prop :=
  ∃ p xs, EvenlySpaced p t.start ((t.stop - t.start) / ((l.length : K) - 1)) l.length ∧ t.array = .ok xs ∧
    y.length = xs.length ∧ ∀ i (_ : i < xs.length) (_ : i < y.length), IsInterpolant p l xs[i] y[i]

theorem Spec.StretchedOver.same {t : Axis K} {l y : List K} (h : StretchedOver t l y) (hl : y.length = l.length) : y = l := by
  obtain ⟨p, xs, hp, hx, hlen, hi⟩ := h
  have hx' := size_cast_step hx
  have : p = xs := by
    have e : xs.length = l.length := by omega
    rw [e] at hx'
    exact hp.ext hx'
  subst this
  exact interpolant_self hlen hp.1.symm hi

theorem Spec.StretchedOver.ends {t : Axis K} {l y : List K} (h : StretchedOver t l y) (hl : 2 ≤ l.length) (hy : 2 ≤ y.length) :
    y.head? = l.head? ∧ y.getLast? = l.getLast? := by
  obtain ⟨p, xs, hp, hx, hlen, hi⟩ := h
  have hx' := size_cast_step hx
  have c1 : ((l.length : K) - 1) ≠ 0 := by
    have : (2 : K) ≤ l.length := by exact_mod_cast hl
    intro h; linarith
  have c2 : ((xs.length : K) - 1) ≠ 0 := by
    have : (2 : K) ≤ xs.length := by exact_mod_cast hlen ▸ hy
    intro h; linarith
  constructor
  · rw [List.head?_eq_getElem?, List.head?_eq_getElem?, List.getElem?_eq_getElem (by omega),
      List.getElem?_eq_getElem (by omega)]
    congr 1
    refine (hi 0 (by omega) (by omega)).sample 0 (by rw [hp.1]; omega) (by omega) ?_
    rw [hp.2, hx'.2]; simp
  · rw [List.getLast?_eq_getElem?, List.getLast?_eq_getElem?, List.getElem?_eq_getElem (by omega),
      List.getElem?_eq_getElem (by omega)]
    congr 1
    have hplen := hp.1
    have e : (l.length - 1 : ℕ) = ((l.length : K) - 1) := by push_cast [Nat.cast_sub (by omega : 1 ≤ l.length)]; ring
    have e' : (y.length - 1 : ℕ) = ((xs.length : K) - 1) := by
      rw [hlen]; push_cast [Nat.cast_sub (by omega : 1 ≤ xs.length)]; ring
    refine (hi (y.length - 1) (by omega) (by omega)).sample (l.length - 1) (by omega) (by omega) ?_
    rw [hp.2, hx'.2, e, e', mul_div_cancel₀ _ c1, mul_div_cancel₀ _ c2]

/-- what an array description on a zero-start axis becomes -/
theorem extract_array {t : Axis K} {n : ℕ} (hn : t.size = .ok n) (h2 : 2 ≤ n) {l : List K}
    (hl : 2 ≤ l.length) (d : Descr K) :
    ∃ f, extract (some t) (.array l) d = .ok (.interp f) ∧ t.array = .ok f.x ∧ StretchedOver t l f.y := by
  obtain ⟨hs, hsteps⟩ := (t.size_ok_iff n).1 hn
  have ht : t.start ≠ t.stop := by
    intro h
    have : t.steps = 0 := by
      rw [Axis.steps, ← h, sub_self, zero_div, abs_zero]
      simpa using congrArg Int.toNat (pyRound_natCast (K := K) 0)
    omega
  have hxs := t.array_eq hs
  have hxl : (linspace t.start t.stop (t.steps + 1)).length = n := by rw [linspace_length, hsteps]
  by_cases hnl : n = l.length
  · refine ⟨⟨linspace t.start t.stop (t.steps + 1), l⟩, ?_, hxs, ?_⟩
    · simp only [extract, hn, except_bind_ok, InterpArr.ofAxis, hxs, if_neg (not_not.2 hnl), except_pure]
    · have hsp := size_cast_step hxs
      rw [hxl, hnl] at hsp
      refine ⟨_, _, hsp, hxs, by rw [hxl, hnl], fun i a b => ?_⟩
      have hm : (linspace t.start t.stop (t.steps + 1)).Pairwise (· < ·) ∨
          (linspace t.start t.stop (t.steps + 1)).Pairwise (· > ·) := Axis.array_monotone hxs
      obtain ⟨ys, -, g2, g3⟩ := interp1d_spec (linspace t.start t.stop (t.steps + 1)) l
        (linspace t.start t.stop (t.steps + 1)) (by omega) (by omega) hm
      have : ys = l := interpolant_self g2 (by omega) g3
      subst this
      exact g3 i a b
  · obtain ⟨p, xs, v, a1, a2, a3, a4, a5⟩ := resample_ok ht hs hl
    refine ⟨⟨xs, v⟩, ?_, a2, ⟨p, xs, a1, a2, a4, a5⟩⟩
    simp only [extract, hn, except_bind_ok, if_pos (show n ≠ l.length from hnl), a3, InterpArr.ofAxis, a2, except_pure]

theorem array_values {t : Axis K} (h0 : t.start = 0) {n : ℕ} (hn : t.size = .ok n) (h2 : 2 ≤ n) {f : InterpArr K}
    (hx : t.array = .ok f.x) (hy : f.y.length = n) (t' : Axis K) (hs : t'.sample ≠ 0) (ht : t'.start ≠ t'.stop) :
    ∃ v, (Descr.interp f).values t' = .ok v ∧ StretchedOver t' f.y v := by
  have hlen : f.x.length = n := by rw [Axis.size_of_array hx] at hn; simpa using hn
  have hsp := size_cast_step hx
  rw [h0, hlen, sub_zero] at hsp
  have hd : t.stop / ((n : K) - 1) ≠ 0 := by
    have hm := Axis.array_monotone hx
    intro h
    have a := hsp.2 0 (by omega)
    have b := hsp.2 1 (by omega)
    rw [h] at a b
    have e : f.x[0]'(by omega) = f.x[1]'(by omega) := by rw [a, b]; simp
    rcases hm with hm | hm
    · exact absurd e (ne_of_lt ((List.pairwise_iff_getElem.1 hm) 0 1 (by omega) (by omega) (by omega)))
    · exact absurd e (ne_of_gt ((List.pairwise_iff_getElem.1 hm) 0 1 (by omega) (by omega) (by omega)))
  obtain ⟨p, xs, v, b1, b2, b3, b4, b5⟩ := call_spaced hsp hy h2 hd t' hs ht
  exact ⟨v, b3, p, xs, by rw [hy]; exact b1, b2, b4, b5⟩

/-- a relation between the axis of a call, a description and the values: shared by frequency and amplitude -/
theorem described_values {t : Axis K} (h0 : t.start = 0) {n : ℕ} (hn : t.size = .ok n) (h2 : 2 ≤ n) {l : List K}
    (hl : 2 ≤ l.length) {d d' : Descr K} (hd : extract (some t) (.array l) d = .ok d') {y : List K} :
    (d'.values t = .ok y → StretchedOver t l y ∧ (l.length = n → y = l)) ∧
    (l.length = n → ∀ t' : Axis K, t'.sample ≠ 0 → t'.start ≠ t'.stop → d'.values t' = .ok y →
      StretchedOver t' l y) := by
  obtain ⟨f, g1, g2, g3⟩ := extract_array hn h2 hl d
  rw [g1] at hd
  simp only [Except.ok.injEq] at hd
  subst hd
  have hxl : f.x.length = n := by rw [Axis.size_of_array g2] at hn; simpa using hn
  have hyl : f.y.length = n := by
    obtain ⟨p, xs, -, hx, hlen, -⟩ := g3
    rw [g2] at hx
    simp only [Except.ok.injEq] at hx
    rw [hlen, ← hx, hxl]
  obtain ⟨hs, -⟩ := (t.size_ok_iff n).1 hn
  have ht : t.start ≠ t.stop := by
    intro h
    have : t.steps = 0 := by
      rw [Axis.steps, ← h, sub_self, zero_div, abs_zero]
      simpa using congrArg Int.toNat (pyRound_natCast (K := K) 0)
    have := ((t.size_ok_iff n).1 hn).2
    omega
  constructor
  · intro hv
    obtain ⟨v, e1, e2⟩ := array_values h0 hn h2 g2 hyl t hs ht
    rw [hv] at e1
    simp only [Except.ok.injEq] at e1
    subst e1
    have hyn : y.length = n := by
      obtain ⟨p, xs, -, hx, hlen, -⟩ := e2
      rw [g2] at hx
      simp only [Except.ok.injEq] at hx
      rw [hlen, ← hx, hxl]
    have := e2.same (by omega)
    subst this
    exact ⟨g3, fun e => g3.same (by omega)⟩
  · intro hln t' hs' ht' hv
    obtain ⟨v, e1, e2⟩ := array_values h0 hn h2 g2 hyl t' hs' ht'
    rw [hv] at e1
    simp only [Except.ok.injEq] at e1
    subst e1
    have := g3.same (by omega)
    rwa [this] at e2

theorem calcTime_cases {u : UncalculatedSweep K} {time : TimeArg K} {t t' : Axis K} (h : u.calcTime time = .ok t') :
    (time = .axis t → t' = t) ∧ (time = .none → u.time = some t → t' = t) := by
  constructor
  · rintro rfl
    simp only [UncalculatedSweep.calcTime, TimeArg.toAxis, except_bind_ok, except_pure, Except.ok.injEq] at h
    exact h.symm
  · rintro rfl hu
    simp only [UncalculatedSweep.calcTime, TimeArg.toAxis, except_bind_ok, hu, except_pure, Except.ok.injEq] at h
    exact h.symm

/-- **C50** On a constructor axis that starts at 0, an array description with one value per sample is reproduced exactly; an
array of another length is stretched evenly over the axis and keeps its first and last value. -/
theorem C50_own_axis (P : SweepPrims K) (t : Axis K) (h0 : t.start = 0) (n : ℕ) (hn : t.size = .ok n) (h2 : 2 ≤ n)
    (l : List K) (hl : 2 ≤ l.length) (fd ad : Ftat K) (u : UncalculatedSweep K)
    (hu : UncalculatedSweep.init (.axis t) fd ad = .ok u) (time : TimeArg K) (ht : time = .none ∨ time = .axis t)
    (tht0 : K) (s : Sweep K) (h : u.call P time tht0 = .ok s) :
    (fd = .array l → StretchedOver t l s.frequencyTime.y ∧ s.frequencyTime.y.head? = l.head? ∧
      s.frequencyTime.y.getLast? = l.getLast? ∧ (l.length = n → s.frequencyTime.y = l)) ∧
    (ad = .array l → StretchedOver t l s.amplitudeTime.y ∧ s.amplitudeTime.y.head? = l.head? ∧
      s.amplitudeTime.y.getLast? = l.getLast? ∧ (l.length = n → s.amplitudeTime.y = l)) := by
  obtain ⟨h1, hf, ha⟩ := uinit_ok hu
  simp only [TimeArg.toAxis, Except.ok.injEq] at h1
  rw [← h1] at hf ha
  obtain ⟨t', th, e1, e2, e3, -, e5, -, -, -, e9, e10, -⟩ := call_ok h
  obtain rfl : t' = t := by
    rcases ht with rfl | rfl
    · exact (calcTime_cases e1).2 rfl h1.symm
    · exact (calcTime_cases e1).1 rfl
  have hthn : th.length = n := by rw [e5] at hn; simpa using hn
  constructor
  · rintro rfl
    obtain ⟨a, b⟩ := (described_values h0 hn h2 hl hf).1 e2
    exact ⟨a, (a.ends hl (by omega)).1, (a.ends hl (by omega)).2, b⟩
  · rintro rfl
    obtain ⟨a, b⟩ := (described_values h0 hn h2 hl ha).1 e3
    exact ⟨a, (a.ends hl (by omega)).1, (a.ends hl (by omega)).2, b⟩

/-- **C50** A call on another axis (of positive length, in either direction) stretches the description over that axis. -/
theorem C50_another_axis (P : SweepPrims K) (t t' : Axis K) (h0 : t.start = 0) (n : ℕ) (hn : t.size = .ok n) (h2 : 2 ≤ n)
    (l : List K) (hl : l.length = n) (fd ad : Ftat K) (u : UncalculatedSweep K)
    (hu : UncalculatedSweep.init (.axis t) fd ad = .ok u) (hs : t'.sample ≠ 0) (ht : t'.start ≠ t'.stop)
    (tht0 : K) (s : Sweep K) (h : u.call P (.axis t') tht0 = .ok s) :
    (fd = .array l → StretchedOver t' l s.frequencyTime.y) ∧ (ad = .array l → StretchedOver t' l s.amplitudeTime.y) := by
  obtain ⟨h1, hf, ha⟩ := uinit_ok hu
  simp only [TimeArg.toAxis, Except.ok.injEq] at h1
  rw [← h1] at hf ha
  obtain ⟨t'', th, e1, e2, e3, -⟩ := call_ok h
  obtain rfl := (calcTime_cases e1).1 rfl
  constructor
  · rintro rfl
    exact (described_values h0 hn h2 (by omega) hf).2 hl t'' hs ht e2
  · rintro rfl
    exact (described_values h0 hn h2 (by omega) ha).2 hl t'' hs ht e3

/-- **C50** A one-value array on a longer axis raises `ZeroDivisionError` (if the ends of the axis are Python numbers; see DESIGN.md §2). -/
theorem C50_one_value (t : Axis K) (n : ℕ) (hn : t.size = .ok n) (h1 : n ≠ 1) (c : K) (ad : Ftat K) :
    UncalculatedSweep.init (.axis t) (.array [c]) ad = .error .zeroDivision := by
  simp only [UncalculatedSweep.init, TimeArg.toAxis, except_bind_ok, extract, hn, List.length_singleton, ne_eq, h1,
    not_false_eq_true, if_true, resample, except_bind_error]

/-- the amplitude of `sin` -/
def toySin (x : ℚ) : ℚ := x

/-- black boxes for the computed examples: `sin x = x`, `π = 1/2`, left-end quadrature -/
def toyPrims : SweepPrims ℚ where
  sin := toySin
  pi := 1 / 2
  quad f a b := f a * (b - a)
  getFT r := .ok ⟨r.x, r.y.map fun _ => 0⟩
  getAT r := .ok ⟨r.x, r.y.map abs⟩
  spectrogram _ := .ok ⟨[0, 1], [0, 1], [[1, 2], [3, 4]]⟩

/-- **C50** On an axis that does not start at 0 the values are misplaced: the frequencies 10, 20, 30 described on the times
1, 2, 3 become 15, 30, 0 on those same times. -/
theorem C50_misplaced_witness :
    ((UncalculatedSweep.init (.axis ⟨1, 3, 1⟩) (.array [10, 20, 30]) .absent).bind fun u =>
      (u.call toyPrims .none 0).map fun s => s.frequencyTime.y) = .ok [15, 30, 0] := by decide +kernel

example :
    ((UncalculatedSweep.init (.axis ⟨0, 2, 1⟩) (.array [10, 20, 30]) (.array [1, 3])).bind fun u =>
      (u.call toyPrims .none 0).map fun s => (s.frequencyTime.y, s.amplitudeTime.y, s.rel.y)) =
      .ok ([10, 20, 30], [1, 2, 3], [0, 30, 120]) := by decide +kernel

example :
    ((UncalculatedSweep.init (.axis ⟨0, 2, 1⟩) (.array [10, 20, 30]) .absent).bind fun u =>
      (u.call toyPrims (.axis ⟨5, 1, 1⟩) 0).map fun s => s.frequencyTime.y) =
      .error (.notEqual 6 4) := by decide +kernel

example :
    ((UncalculatedSweep.init (.axis ⟨0, 2, 1⟩) (.array [10, 20, 30]) .absent).bind fun u =>
      (u.call toyPrims (.axis ⟨5, 9, 1⟩) 0).map fun s => s.frequencyTime.y) =
      .ok [10, 15, 20, 25, 30] := by decide +kernel

/-- a callable description -/
example :
    ((UncalculatedSweep.init (.axis ⟨0, 2, 1⟩) (.func (fun l => .ok (l.map (· + 3))) (· + 3)) .absent).bind fun u =>
      (u.call toyPrims .none 0).map fun s => (s.frequencyTime.y, s.rel.y)) = .ok ([3, 4, 5], [0, 3, 6]) := by
  decide +kernel

/-- **C47** On the real numbers, for every quadrature `I` that gives 0 on an interval of length 0 (the exact integral is one,
see the example at the end of the file), the callable case reads `a_i * sin(2π I f + tht0)` at every sample, including the
first. -/
theorem C47_exact_quadrature (P : SweepPrims ℝ) (hsin : P.sin = Real.sin) (hpi : P.pi = Real.pi) (I : (ℝ → ℝ) → ℝ → ℝ → ℝ)
    (hI : ∀ f a, I f a a = 0) (hq : P.quad = I) (t0 : TimeArg ℝ) (g : List ℝ → Except Err (List ℝ)) (φ : ℝ → ℝ)
    (ad : Ftat ℝ) (u : UncalculatedSweep ℝ) (hu : UncalculatedSweep.init t0 (.func g φ) ad = .ok u) (time : TimeArg ℝ)
    (tht0 : ℝ) (s : Sweep ℝ) (h : u.call P time tht0 = .ok s) :
    ∃ xs, s.rel.x.array = .ok xs ∧ s.rel.y.length = xs.length ∧ ∀ i (_ : i < s.rel.y.length) (hx : i < xs.length),
      s.rel.y[i] = s.amplitudeTime.y.getD i 0 * Real.sin (2 * Real.pi * I φ s.rel.x.start xs[i] + tht0) := by
  obtain ⟨-, -, xs, h3, -, h5, -, h7⟩ := C47_callable_description P t0 g φ ad u hu time tht0 s h
  refine ⟨xs, h3, h5, fun i hi hx => ?_⟩
  rw [h7 i hi hx, hsin, hpi, hq]
  split
  · rename_i h0
    subst h0
    have hx0 : xs[0] = s.rel.x.start := by
      rw [(Axis.array_spaced h3).2 0 hx]; simp
    rw [hx0, hI, mul_zero]
  · rfl

/-! ## C48 -/

/-- **C48** The envelope bounds the sweep; the first sample is `a_0 * sin(tht0)`. Real arithmetic with the real sine. -/
theorem C48_envelope (P : SweepPrims ℝ) (hsin : P.sin = Real.sin) (u : UncalculatedSweep ℝ) (time : TimeArg ℝ) (tht0 : ℝ)
    (s : Sweep ℝ) (h : u.call P time tht0 = .ok s) :
    s.amplitudeTime.y.length = s.rel.y.length ∧
    (∀ i (_ : i < s.rel.y.length) (_ : i < s.amplitudeTime.y.length), |s.rel.y[i]| ≤ |s.amplitudeTime.y[i]|) ∧
    (∃ a v, s.amplitudeTime.y.head? = some a ∧ s.rel.y.head? = some v ∧ v = a * Real.sin tht0) := by
  obtain ⟨t, th, -, -, -, e4, e5, e6, -, -, -, e10, e11, -⟩ := call_ok h
  have hlen : s.rel.y.length = th.length := by rw [e11, List.length_zipWith, e10]; omega
  refine ⟨by omega, fun i hi ha => ?_, ?_⟩
  · have hi' := hi
    rw [e11] at hi'
    have : s.rel.y[i] = s.amplitudeTime.y[i] * P.sin (th[i]'(by omega) + tht0) := by
      simp only [e11]
      rw [List.getElem_zipWith]
    rw [this, abs_mul, hsin]
    exact mul_le_of_le_one_right (abs_nonneg _) (Real.abs_sin_le_one _)
  · have hth : ∃ l, th = 0 :: l := by
      unfold Descr.tht at e4
      split at e4
      · simp only [arrayTht, except_bind_eq_ok] at e4
        obtain ⟨_, -, q, -, e4⟩ := e4
        obtain ⟨-, g⟩ := (make_ok_iff _ _ _).1 e4
        exact ⟨_, congrArg Rel.y g⟩
      · simp only [funcTht, except_bind_eq_ok] at e4
        obtain ⟨_, -, e4⟩ := e4
        obtain ⟨-, g⟩ := (make_ok_iff _ _ _).1 e4
        exact ⟨_, congrArg Rel.y g⟩
    obtain ⟨l, rfl⟩ := hth
    match hay : s.amplitudeTime.y with
    | [] => rw [hay] at e10; simp at e10
    | a :: al =>
      refine ⟨a, a * P.sin (0 + tht0), rfl, ?_, by rw [hsin, zero_add]⟩
      rw [e11, hay]
      rfl

/-- **C48** Without an amplitude description the sweep stays in `[-1, 1]`; with the default phase 0 it starts at 0. -/
theorem C48_defaults (P : SweepPrims ℝ) (hsin : P.sin = Real.sin) (t0 : TimeArg ℝ) (fd ad : Ftat ℝ)
    (u : UncalculatedSweep ℝ) (hu : UncalculatedSweep.init t0 fd ad = .ok u) (time : TimeArg ℝ) (tht0 : ℝ) (s : Sweep ℝ)
    (h : u.call P time tht0 = .ok s) :
    (ad = .absent → ∀ v ∈ s.rel.y, |v| ≤ 1) ∧ (tht0 = 0 → s.rel.y.head? = some 0) := by
  obtain ⟨h1, h2, a, v, h3, h4, h5⟩ := C48_envelope P hsin u time tht0 s h
  constructor
  · intro had v hv
    obtain ⟨i, hi, rfl⟩ := List.getElem_of_mem hv
    have := (C47_absent_descriptions P t0 fd ad u hu time tht0 s h).2 had _ (List.getElem_mem (h1 ▸ hi))
    simpa [this] using h2 i hi (by omega)
  · rintro rfl
    rw [h4, h5]; simp

/-! ## C49 -/

/-- **C49** The axis of the calculated sweep: the one passed to the call, else the constructor's. -/
theorem C49_time_axis (P : SweepPrims K) (t0 : TimeArg K) (fd ad : Ftat K) (u : UncalculatedSweep K)
    (hu : UncalculatedSweep.init t0 fd ad = .ok u) (time : TimeArg K) (tht0 : K) (s : Sweep K)
    (h : u.call P time tht0 = .ok s) :
    (∀ a, time = .axis a → s.rel.x = a) ∧
    (∀ l f, time = .array l f → axisFromArray l f true = .ok s.rel.x) ∧
    (∀ a, time = .none → t0 = .axis a → s.rel.x = a) ∧
    (∀ l f, time = .none → t0 = .array l f → axisFromArray l f true = .ok s.rel.x) ∧
    ¬ (time = .none ∧ t0 = .none) := by
  obtain ⟨h1, -, -⟩ := uinit_ok hu
  obtain ⟨t, th, e1, -, -, -, -, e6, -⟩ := call_ok h
  rw [e6]
  refine ⟨?_, ?_, ?_, ?_, ?_⟩
  · rintro a rfl
    exact (calcTime_cases e1).1 rfl
  · rintro l f rfl
    simp only [UncalculatedSweep.calcTime, TimeArg.toAxis, except_bind_eq_ok, except_pure, Except.ok.injEq] at e1
    obtain ⟨x, ⟨a, ha, rfl⟩, e1⟩ := e1
    simp only [Except.ok.injEq] at e1
    rw [ha, e1]
  · rintro a rfl rfl
    simp only [TimeArg.toAxis, Except.ok.injEq] at h1
    exact (calcTime_cases e1).2 rfl h1.symm
  · rintro l f rfl rfl
    simp only [TimeArg.toAxis, except_bind_eq_ok, except_pure, Except.ok.injEq] at h1
    obtain ⟨a, ha, h1⟩ := h1
    rw [(calcTime_cases e1).2 rfl h1.symm, ha]
  · rintro ⟨rfl, rfl⟩
    simp only [TimeArg.toAxis, Except.ok.injEq] at h1
    simp [UncalculatedSweep.calcTime, TimeArg.toAxis, ← h1] at e1

/-- **C49** Without a time in the constructor and in the call: `BadInputError`, also when the descriptions are relations,
which carry an axis of their own. -/
theorem C49_no_time (P : SweepPrims K) (fd ad : Ftat K) (u : UncalculatedSweep K)
    (hu : UncalculatedSweep.init .none fd ad = .ok u) (tht0 : K) : u.call P .none tht0 = .error .badInput := by
  obtain ⟨h1, -, -⟩ := uinit_ok hu
  simp only [TimeArg.toAxis, Except.ok.injEq] at h1
  simp [UncalculatedSweep.call, UncalculatedSweep.calcTime, TimeArg.toAxis, ← h1]

/-- **C49** An array description without a constructor time raises at construction. -/
theorem C49_array_needs_time (fd ad : Ftat K) :
    ((∃ l, fd = .array l) → UncalculatedSweep.init .none fd ad = .error .badInput) ∧
    ((∃ l, ad = .array l) → ∀ u, UncalculatedSweep.init .none fd ad ≠ .ok u) ∧
    ((∃ l, ad = .array l) → (∀ r, fd ≠ .rel r) → UncalculatedSweep.init .none fd ad = .error .badInput) := by
  refine ⟨?_, ?_, ?_⟩
  · rintro ⟨l, rfl⟩
    simp [UncalculatedSweep.init, TimeArg.toAxis, extract]
  · rintro ⟨l, rfl⟩ u hu
    obtain ⟨h1, -, h3⟩ := uinit_ok hu
    simp only [TimeArg.toAxis, Except.ok.injEq] at h1
    rw [← h1] at h3
    simp [extract] at h3
  · rintro ⟨l, rfl⟩ hr
    cases fd with
    | rel r => exact absurd rfl (hr r)
    | _ => simp [UncalculatedSweep.init, TimeArg.toAxis, extract]

/-- relations as descriptions, no time: constructing succeeds, calling raises -/
example :
    (UncalculatedSweep.init .none (.rel ⟨⟨0, 2, 1⟩, [(1 : ℚ), 2, 3]⟩) .absent).isOk = true ∧
    ((UncalculatedSweep.init .none (.rel ⟨⟨0, 2, 1⟩, [1, 2, 3]⟩) .absent).bind fun u => u.call toyPrims .none 0) =
      .error .badInput ∧
    ((UncalculatedSweep.init .none (.rel ⟨⟨0, 2, 1⟩, [1, 2, 3]⟩) .absent).bind fun u =>
      (u.call toyPrims (.axis ⟨0, 4, 1⟩) 0).map fun s => s.rel.x) = .ok ⟨0, 4, 1⟩ := by decide +kernel

/-- **C47** The call succeeds: array descriptions of at least two values, a zero-start axis of at least two points whose
length is a positive multiple of the sample (or at least not half-way between two), and a spectrogram method that
works. -/
theorem C47_succeeds (P : SweepPrims K) (t : Axis K) (h0 : t.start = 0) (n : ℕ) (hn : t.size = .ok n) (h2 : 2 ≤ n)
    (hpos : 0 < (t.stop - t.start) / t.sample) (hhalf : ¬ HalfInteger ((t.stop - t.start) / t.sample))
    (f a : List K) (hf : 2 ≤ f.length) (ha : 2 ≤ a.length) (hw : ∀ r : Rel K K, r.x = t → Balanced r → SpectrogramWorks P r)
    (tht0 : K) :
    ∃ u s, UncalculatedSweep.init (.axis t) (.array f) (.array a) = .ok u ∧ u.call P .none tht0 = .ok s := by
  obtain ⟨hs, hsteps⟩ := (t.size_ok_iff n).1 hn
  have ht : t.start ≠ t.stop := by
    intro h; rw [← h, sub_self, zero_div] at hpos; exact lt_irrefl _ hpos
  obtain ⟨fi, f1, f2, f3⟩ := extract_array hn h2 hf linearTime
  obtain ⟨ai, a1, a2, a3⟩ := extract_array hn h2 ha constOne
  have hlen : ∀ {l y}, StretchedOver t l y → y.length = n := by
    rintro l y ⟨p, xs, -, hx, hlen, -⟩
    rw [Axis.size_of_array hx] at hn
    simp only [Except.ok.injEq] at hn
    omega
  obtain ⟨fv, g1, g2⟩ := array_values h0 hn h2 f2 (hlen f3) t hs ht
  obtain ⟨av, g3, g4⟩ := array_values h0 hn h2 a2 (hlen a3) t hs ht
  have hbal : Balanced (⟨t, fv⟩ : Rel K K) := by
    show t.size = .ok fv.length; rw [hn, hlen g2]
  obtain ⟨⟨q, hq⟩, -⟩ := ((C15_accepted _ hbal).1 hpos (by simp [hlen g2, h2])).1 hhalf
  obtain ⟨-, -, -, c1, -⟩ := C13_integrate_values _ _ hq
  simp only [hlen g2] at c1
  have hth : arrayTht P fv t = .ok ⟨t, 0 :: q.y.map fun v => 2 * P.pi * v⟩ := by
    have e1 : Rel.make t fv = .ok ⟨t, fv⟩ := make_ok (by rw [hn, hlen g2])
    have e2 : Rel.make t (0 :: q.y.map fun v => 2 * P.pi * v) = .ok ⟨t, _⟩ :=
      make_ok (by rw [hn, List.length_cons, List.length_map, c1])
    simp only [arrayTht, e1, except_bind_ok, hq, e2]
  have e3 : Rel.make t fv = .ok ⟨t, fv⟩ := make_ok (by rw [hn, hlen g2])
  have e4 : Rel.make t av = .ok ⟨t, av⟩ := make_ok (by rw [hn, hlen g4])
  set sn : List K := (0 :: q.y.map fun v => 2 * P.pi * v).map fun v => P.sin (v + tht0) with hsn
  have hsl : sn.length = n := by simp [hsn, c1]
  have hzl : t.size = .ok (List.zipWith (· * ·) av sn).length := by
    rw [hn, List.length_zipWith, hlen g4, hsl, min_self]
  obtain ⟨g, hg⟩ := sweepInit_given P t (List.zipWith (· * ·) av sn) ⟨t, fv⟩ ⟨t, av⟩ none
    hzl (hw _ rfl hzl)
  refine ⟨⟨some t, .interp fi, .interp ai⟩, ⟨⟨t, List.zipWith (· * ·) av sn⟩, ⟨t, fv⟩, ⟨t, av⟩, g, none⟩, ?_, ?_⟩
  · simp only [UncalculatedSweep.init, TimeArg.toAxis, except_bind_ok, f1, a1, except_pure]
  · simp only [UncalculatedSweep.call, UncalculatedSweep.calcTime, TimeArg.toAxis, except_bind_ok, except_pure, g1, g3,
      e3, e4, Descr.tht, hth, ← hsn, npMul_eq ((hlen g4).trans hsl.symm)]
    exact hg

theorem toyPrims_works (r : Rel ℚ ℚ) : SpectrogramWorks toyPrims r :=
  ⟨_, ⟨⟨0, 1, 1⟩, ⟨0, 1, 1⟩, [[1, 2], [3, 4]]⟩, rfl, by decide +kernel⟩

example : ∃ u s, UncalculatedSweep.init (.axis ⟨0, 2, 1⟩) (.array [10, 20, 30]) (.array [1, 3]) = .ok u ∧
    u.call toyPrims .none (1 / 4) = .ok s :=
  C47_succeeds toyPrims ⟨0, 2, 1⟩ rfl 3 (by decide +kernel) (by norm_num) (by norm_num)
    (by rintro ⟨k, hk⟩; norm_num at hk; have : (3 : ℚ) = 2 * k := by linarith
        have h' : (3 : ℤ) = 2 * k := by exact_mod_cast this
        omega) _ _ (by norm_num) (by norm_num) (fun r _ _ => toyPrims_works r) _

/-- black boxes over the real numbers: the real sine, the integral -/
noncomputable def realPrims : SweepPrims ℝ where
  sin := Real.sin
  pi := Real.pi
  quad f a b := ∫ x in a..b, f x
  getFT r := .ok ⟨r.x, r.y.map fun _ => 0⟩
  getAT r := .ok ⟨r.x, r.y.map abs⟩
  spectrogram _ := .ok ⟨[0, 1], [0, 1], [[1, 2], [3, 4]]⟩

theorem axisFromArray_zero_one : axisFromArray [(0 : ℝ), 1] true true = .ok ⟨0, 1, 1⟩ := by
  have : pyRound (1 : ℝ) = 1 := by simpa using pyRound_natCast (K := ℝ) 1
  simp [axisFromArray, getActualSample, npDiff, npMin, roundStep, this, bind, Except.bind, pure, Except.pure]

theorem realPrims_works (r : Rel ℝ ℝ) : SpectrogramWorks realPrims r := by
  refine ⟨_, ⟨⟨0, 1, 1⟩, ⟨0, 1, 1⟩, [[1, 2], [3, 4]]⟩, rfl, ?_⟩
  simp [getSpectrogram, padAxis, axisFromArray_zero_one, bind, Except.bind, pure, Except.pure]

/-- C48 with the real sine: the call succeeds on the axis 0, 1/2, 1, so the hypotheses of `C48_envelope` are met -/
example : ∃ u s, UncalculatedSweep.init (.axis ⟨0, 1, 1 / 2⟩) (.array [10, 20, 30]) (.array [1, 2, 3]) = .ok u ∧
    u.call realPrims .none 0 = .ok s ∧ s.rel.y.head? = some 0 ∧
    ∀ i (_ : i < s.rel.y.length) (_ : i < s.amplitudeTime.y.length), |s.rel.y[i]| ≤ |s.amplitudeTime.y[i]| := by
  have hn : (⟨0, 1, 1 / 2⟩ : Axis ℝ).size = .ok 3 := by
    rw [Axis.size_eq _ (by norm_num)]
    have : pyRound (2 : ℝ) = 2 := by simpa using pyRound_natCast (K := ℝ) 2
    norm_num [Axis.steps, this]
    rfl
  obtain ⟨u, s, hu, hs⟩ := C47_succeeds realPrims ⟨0, 1, 1 / 2⟩ rfl 3 hn (by norm_num) (by norm_num)
    (by rintro ⟨k, hk⟩; norm_num at hk; have : (3 : ℝ) = 2 * k := by linarith
        have h' : (3 : ℤ) = 2 * k := by exact_mod_cast this
        omega) [10, 20, 30] [1, 2, 3] (by norm_num) (by norm_num) (fun r _ _ => realPrims_works r) 0
  exact ⟨u, s, hu, hs, (C48_defaults realPrims rfl _ _ _ u hu _ _ s hs).2 rfl, (C48_envelope realPrims rfl u _ _ s hs).2.1⟩

/-- the quadrature hypothesis of `C47_exact_quadrature` is met by the integral -/
example (f : ℝ → ℝ) (a : ℝ) : realPrims.quad f a a = 0 := intervalIntegral.integral_same

end SweepDesign
