import Verif.Model.Dwell
import Verif.Props.Aprior
import Verif.Props.Prepared
import Verif.Props.SpectrumSignal

/-!
# C76: the dwell sweep
-/

set_option linter.unusedSectionVars false

namespace SweepDesign
open Spec

/-- the samples of a normalised call: those of the base sweep times one factor, on the axis of the generator -/
theorem aprCall_true {P : SweepPrims ℝ} {u : AprSweep} {time : TimeArg ℝ} {tht0 : ℝ} {s : Sweep ℝ}
    (h : u.call P time tht0 true = .ok s) :
    ∃ sw c, u.base.call P time tht0 = .ok sw ∧ s.rel = ⟨sw.rel.x, sw.rel.y.map (· * c)⟩ ∧ Balanced sw.rel := by
  simp only [AprSweep.call, if_true, except_bind_eq_ok] at h
  obtain ⟨sw, h1, ns, h2, na, h3, a, h4, b, h5, h6⟩ := h
  split at h6
  · simp at h6
  simp only [except_bind_eq_ok] at h6
  obtain ⟨am, h7, sw', h8, h9⟩ := h6
  simp only [except_pure, Except.ok.injEq] at h9
  have e1 := (C55_operation P _ _ _ _ h8).1
  have hbal : Balanced sw.rel := by
    obtain ⟨t, th, -, -, -, -, c1, c2, -, -, -, c3, c4, -⟩ := call_ok h1
    show sw.rel.x.size = _
    rw [c2, c1, c4]; simp [c3]
  refine ⟨sw, a / b, h1, ?_, hbal⟩
  have := (C23_with_number sw.rel hbal (a / b)).2.2.2.2.1
  rw [show sw.rel.mul (.other (.num (a / b))) = .ok sw'.rel from e1] at this
  simp only [Except.ok.injEq] at this
  rw [← h9]
  exact this

/-- **C76.** What `get_dwell_sweep` returns: the normalised a-priori sweep with the dwell law on the time axis, each sample
multiplied with the taper of that time. The result has no a-priori signal, and its descriptions are derived from the tapered
samples. -/
theorem C76_tapered (P : SweepPrims ℝ) (time : TimeArg ℝ) (fs fc fe tt : Option ℝ) (data : AprData) (s : Sweep ℝ)
    (h : getDwellSweep P time fs fc fe tt data = .ok s) :
    ∃ t u q l w, (time = .axis t ∨ ∃ x isFloat, time = .array x isFloat ∧ axisFromArray x isFloat true = .ok t) ∧
      AprSweep.init (.axis t) data (dwell fs fe fc) = .ok u ∧ u.call P .none 0 true = .ok q ∧ t.array = .ok l ∧
      tukeyAT l tt .both = .ok w ∧ q.rel.x = t ∧ s.rel.x = t ∧ q.rel.y.length = l.length ∧ w.length = l.length ∧
      s.rel.y = List.zipWith (· * ·) q.rel.y w ∧ s.aPriorSignal = none ∧ P.getFT s.rel = .ok s.frequencyTime ∧
      P.getAT s.rel = .ok s.amplitudeTime := by
  simp only [getDwellSweep, except_bind_eq_ok] at h
  obtain ⟨t, h1, u, h2, l, h3, w, h4, win, h5, q, h6, h7⟩ := h
  obtain ⟨sw, c, g1, g2, g3⟩ := aprCall_true h6
  obtain ⟨b1, rfl⟩ := (make_ok_iff _ _ _).1 h5
  obtain ⟨o1, o2, o3, o4⟩ := C55_operation P _ _ _ _ h7
  have hbt : u.base.time = some t := by
    simp only [AprSweep.init, except_bind_eq_ok] at h2
    obtain ⟨⟨f, a, sig⟩, -, base, hb, h2⟩ := h2
    simp only [except_pure, Except.ok.injEq] at h2
    obtain ⟨e1, -⟩ := uinit_ok hb
    subst h2
    simpa [TimeArg.toAxis] using e1.symm
  obtain ⟨t', th, k1, -, -, -, -, k2, -⟩ := call_ok g1
  have ht' : t' = t := by
    simp [UncalculatedSweep.calcTime, TimeArg.toAxis, hbt, bind, Except.bind, pure, Except.pure] at k1
    exact k1.symm
  have hqx : q.rel.x = t := by rw [g2]; simp only; rw [k2, ht']
  have hqb : Balanced q.rel := by
    rw [g2]
    exact balanced_map _ g3
  have hwb : Balanced (⟨t, w⟩ : Rel ℝ ℝ) := b1
  have hl := balanced_length_eq hqb hwb hqx
  have hwl : w.length = l.length := ((C52_shape l tt .both).1 w h4).1
  obtain ⟨m1, -⟩ := C24_equal_axes false q.rel ⟨t, w⟩ hqb hwb hqx .mul
  obtain ⟨n1, n2, n3⟩ := (m1 s.rel).1 o1
  refine ⟨t, u, q, l, w, ?_, h2, h6, h3, h4, hqx, by rw [n1, hqx], by rw [hl, hwl], hwl, ?_, o4, o2, o3⟩
  · match time, h1 with
    | .axis a, h1 => left; simp only [TimeArg.asAxis, Except.ok.injEq] at h1; rw [h1]
    | .array x f, h1 => right; exact ⟨x, f, rfl, h1⟩
  · refine List.ext_getElem (by rw [List.length_zipWith, n2]; simp only at hl; omega) fun i i1 i2 => ?_
    have j1 : i < q.rel.y.length := by omega
    have j2 : i < w.length := by simp only at hl; omega
    have := n3 i j1 j2 i1
    simp only [OpResult] at this
    rw [List.getElem_zipWith]
    simpa using this

/-- **C76.** On an increasing time axis that the taper reaches, the dwell sweep starts and ends with 0, is nowhere larger than the
untapered sweep and agrees with it where a sample and its mirror sample lie after the taper. -/
theorem C76_ends (P : SweepPrims ℝ) (t : Axis ℝ) (hinc : t.start < t.stop) (fs fc fe : Option ℝ) (tt : ℝ) (htt : t.start ≤ tt)
    (data : AprData) (s : Sweep ℝ) (h : getDwellSweep P (.axis t) fs fc fe (some tt) data = .ok s) :
    ∃ u q l, AprSweep.init (.axis t) data (dwell fs fe fc) = .ok u ∧ u.call P .none 0 true = .ok q ∧ t.array = .ok l ∧
      s.rel.y.length = q.rel.y.length ∧ s.rel.y.length = l.length ∧
      (2 ≤ l.length → s.rel.y.head? = some 0 ∧ s.rel.y.getLast? = some 0) ∧
      ∀ i (h1 : i < s.rel.y.length) (h2 : i < q.rel.y.length) (h3 : i < l.length), |s.rel.y[i]| ≤ |q.rel.y[i]| ∧
        (tt < l[i] → tt < l[l.length - 1 - i] → s.rel.y[i] = q.rel.y[i]) := by
  obtain ⟨t', u, q, l, w, e0, e1, e2, e3, e4, e5, e6, e7, e8, e9, -⟩ := C76_tapered P _ _ _ _ _ _ _ h
  obtain rfl : t = t' := by
    rcases e0 with e0 | ⟨x, f, e0, -⟩
    · simpa using e0
    · simp at e0
  have hsl : s.rel.y.length = l.length := by rw [e9, List.length_zipWith]; omega
  refine ⟨u, q, l, e1, e2, e3, by omega, hsl, fun hn => ?_, fun i h1 h2 h3 => ?_⟩
  · have hh : l.head? = some t.start := by
      have := (Axis.array_spaced e3).2 0 (by omega)
      rw [List.head?_eq_getElem?, List.getElem?_eq_getElem (by omega), this]
      simp
    obtain ⟨w0, w1⟩ := (C52_ends l tt t.start hn hh htt w).1 e4
    constructor
    · rw [List.head?_eq_getElem?] at w0 ⊢
      obtain ⟨hlt, hw⟩ := List.getElem?_eq_some_iff.1 w0
      rw [List.getElem?_eq_getElem (by omega), Option.some.injEq, List.getElem_of_eq e9, List.getElem_zipWith, hw, mul_zero]
    · rw [List.getLast?_eq_getElem?] at w1 ⊢
      obtain ⟨hlt, hw⟩ := List.getElem?_eq_some_iff.1 w1
      rw [List.getElem?_eq_getElem (by omega), Option.some.injEq, List.getElem_of_eq e9, List.getElem_zipWith]
      have : s.rel.y.length - 1 = w.length - 1 := by omega
      simp only [this, hw, mul_zero]
  · rw [List.getElem_of_eq e9, List.getElem_zipWith]
    obtain ⟨b0, b1⟩ := ((C52_shape l (some tt) .both).1 w e4).2 _ (List.getElem_mem (by omega : i < w.length))
    constructor
    · rw [abs_mul, abs_of_nonneg b0]
      nlinarith [abs_nonneg q.rel.y[i]]
    · intro g1 g2
      have hinc' := Axis.array_increasing e3 hinc.le
      have := (C52_plateau l tt hinc' i h3 g1 w).1 g2 e4
      rw [getD_lt _ _ _ (by omega)] at this
      rw [this, mul_one]

/-- **C76.** On an increasing axis with a positive sample the norm of the dwell sweep is at most the norm of the a-priori
signal. -/
theorem C76_norm (P : SweepPrims ℝ) (t : Axis ℝ) (hinc : t.start < t.stop) (hs : 0 < t.sample) (fs fc fe tt : Option ℝ)
    (data : AprData) (s : Sweep ℝ) (h : getDwellSweep P (.axis t) fs fc fe tt data = .ok s) :
    ∃ u v v', AprSweep.init (.axis t) data (dwell fs fe fc) = .ok u ∧ s.rel.getNorm = .ok v ∧ u.aPrior.getNorm = .ok v' ∧
      v ≤ v' := by
  obtain ⟨t', u, q, l, w, e0, e1, e2, e3, e4, e5, e6, e7, e8, e9, -⟩ := C76_tapered P _ _ _ _ _ _ _ h
  obtain rfl : t = t' := by
    rcases e0 with e0 | ⟨x, f, e0, -⟩
    · simpa using e0
    · simp at e0
  obtain ⟨v', n1, n2, -⟩ := C54_norm P u _ _ _ e2
  have hsl : s.rel.y.length = l.length := by rw [e9, List.length_zipWith]; omega
  have d1 : s.rel.getData = .ok (l, s.rel.y) := (getData_ok_iff _ _ _).2 ⟨by rw [e6, e3], rfl, hsl.symm⟩
  have d2 : q.rel.getData = .ok (l, q.rel.y) := (getData_ok_iff _ _ _).2 ⟨by rw [e5, e3], rfl, e7.symm⟩
  rw [C18_norm_formula _ _ _ d2] at n2
  simp only [Except.ok.injEq] at n2
  refine ⟨u, _, v', e1, C18_norm_formula _ _ _ d1, n1, ?_⟩
  rw [← n2, e6, e5, hsl, e7]
  simp only [smul_eq_mul]
  have hsq : ∀ j, s.rel.y.getD j 0 ^ 2 ≤ q.rel.y.getD j 0 ^ 2 := by
    intro j
    rcases Nat.lt_or_ge j l.length with hj | hj
    · rw [getD_lt _ _ _ (by omega), getD_lt _ _ _ (by omega), List.getElem_of_eq e9, List.getElem_zipWith]
      obtain ⟨b0, b1⟩ := ((C52_shape l tt .both).1 w e4).2 _ (List.getElem_mem (by omega : j < w.length))
      rw [mul_pow]
      have : w[j] ^ 2 ≤ 1 := by nlinarith
      nlinarith [sq_nonneg q.rel.y[j]]
    · rw [getD_ge _ _ _ (by omega), getD_ge _ _ _ (by omega)]
  refine mul_le_mul_of_nonneg_left (Finset.sum_le_sum fun j hj => ?_) (inv_nonneg.2 hs.le)
  have hj' := Finset.mem_range.1 hj
  have hlt : 0 ≤ l.getD (j + 1) 0 - l.getD j 0 := by
    rw [getD_lt _ _ _ (by omega), getD_lt _ _ _ (by omega)]
    have := List.pairwise_iff_getElem.1 (Axis.array_increasing e3 hinc.le) j (j + 1) (by omega) (by omega) (by omega)
    linarith
  refine mul_le_mul_of_nonneg_left ?_ hlt
  linarith [hsq j, hsq (j + 1)]

/-- **C76.** Without a-priori data (the default of the argument) there is no dwell sweep, whatever the other arguments:
`BadInputError`. -/
theorem C76_no_data (P : SweepPrims ℝ) (time : TimeArg ℝ) (t : Axis ℝ)
    (ht : time = .axis t ∨ ∃ x isFloat, time = .array x isFloat ∧ axisFromArray x isFloat true = .ok t)
    (fs fc fe tt : Option ℝ) : getDwellSweep P time fs fc fe tt .none = .error .badInput := by
  rcases ht with rfl | ⟨x, f, rfl, h⟩
  · rfl
  · simp only [getDwellSweep, TimeArg.asAxis, h, except_bind_ok]
    rfl

/-- **C76.** Without a central frequency (or with 0) there is none either: `IndexError`, whether the data are a spectrum or
relation with increasing frequencies, a signal or an array of samples (each of at least two values), and whatever is selected. -/
theorem C76_no_central (P : SweepPrims ℝ) (time : TimeArg ℝ) (t : Axis ℝ)
    (ht : time = .axis t ∨ ∃ x isFloat, time = .array x isFloat ∧ axisFromArray x isFloat true = .ok t)
    (fs fc fe tt : Option ℝ) (hfc : fc = none ∨ fc = some 0) :
    (∀ s : Rel ℝ ℂ, Balanced s → 2 ≤ s.y.length → s.x.start < s.x.stop →
      getDwellSweep P time fs fc fe tt (.spectrum s) = .error .index ∧
      getDwellSweep P time fs fc fe tt (.relation s) = .error .index) ∧
    (∀ r : Rel ℝ ℝ, Balanced r → 2 ≤ r.y.length → r.x.start ≤ r.x.stop → 0 < r.x.sample →
      getDwellSweep P time fs fc fe tt (.signal r) = .error .index) ∧
    (∀ l : List ℝ, t.size = .ok l.length → 2 ≤ l.length → t.start ≤ t.stop → 0 < t.sample →
      getDwellSweep P time fs fc fe tt (.array l) = .error .index) := by
  have hta : time.asAxis = .ok t := by
    rcases ht with rfl | ⟨x, f, rfl, h⟩
    · rfl
    · exact h
  have hsig : ∀ r : Rel ℝ ℝ, Balanced r → 2 ≤ r.y.length → r.x.start ≤ r.x.stop → 0 < r.x.sample →
      ∃ s, r.getSpectrum = .ok s ∧ dwell fs fe fc s = .error .index := by
    intro r hb h2 hi hs
    obtain ⟨y, z, -, hy, -, -, -, h⟩ := getSpectrum_eq r hb hi h2
    refine ⟨_, h, (C58_call_raises fs fe fc _ ?_ ?_).2.2 hfc⟩
    · show Axis.size _ = _
      rw [freqAxis_size _ _ (h2.trans hy) hs.ne']
      simp
    · show (0 : ℝ) ≤ _
      positivity
  refine ⟨fun s hb h2 hinc => ?_, fun r hb h2 hi hs => ?_, fun l hl h2 hi hs => ?_⟩
  · obtain ⟨w, -, h⟩ := C78_shape s.y.length h2 s.y rfl
    obtain ⟨q, q1, -⟩ := h s.x hinc none (by simp)
    have e3 := (C58_call_raises fs fe fc s hb hinc.le).2.2 hfc
    constructor
    all_goals
      simp only [getDwellSweep, hta, except_bind_ok, AprSweep.init, aprInfo, q1, except_pure, e3]
      rfl
  · obtain ⟨s, e1, e3⟩ := hsig r hb h2 hi hs
    simp only [getDwellSweep, hta, except_bind_ok, AprSweep.init, aprInfo, e1, except_pure, e3]
    rfl
  · obtain ⟨s, e1, e3⟩ := hsig ⟨t, l⟩ hl h2 hi hs
    simp only [getDwellSweep, hta, except_bind_ok, AprSweep.init, aprInfo, Rel.init, make_ok hl, e1, except_pure, e3]
    rfl

/-- three samples as data, no central frequency -/
example (P : SweepPrims ℝ) : getDwellSweep P (.axis ⟨0, 2, 1⟩) none none none (some 1) (.signal ⟨⟨0, 2, 1⟩, [1, 2, 3]⟩) =
    .error .index :=
  (C76_no_central P (.axis ⟨0, 2, 1⟩) ⟨0, 2, 1⟩ (.inl rfl) none none none (some 1) (.inl rfl)).2.1 _
    (balanced_whole _ 2 (by norm_num) (by norm_num) rfl) (by simp) (by norm_num) (by norm_num)

/-- **C76.** The dwell sweep exists when the generator exists, its sweep is not silent and the black boxes work. -/
theorem C76_succeeds (P : SweepPrims ℝ) (hP : PrimsWork P) (t : Axis ℝ) (hinc : t.start < t.stop) (hs : 0 < t.sample)
    (fs fc fe tt : Option ℝ) (data : AprData) (u : AprSweep) (hu : AprSweep.init (.axis t) data (dwell fs fe fc) = .ok u)
    (sw : Sweep ℝ) (h : u.base.call P .none 0 = .ok sw) (hx : sw.rel.x = t) (h2 : 2 ≤ sw.rel.y.length)
    (hne : ∃ v ∈ sw.rel.y, v ≠ 0) (hb : Balanced u.aPrior) (hinc' : u.aPrior.x.start < u.aPrior.x.stop)
    (hs' : 0 < u.aPrior.x.sample) : ∃ s, getDwellSweep P (.axis t) fs fc fe tt data = .ok s := by
  obtain ⟨q, c, q1, -, q2, q3, -⟩ := C54_succeeds P hP u .none 0 sw h (by rw [hx]; exact hinc) (by rw [hx]; exact hs) h2 hne hb
    hinc' hs'
  have hbal : Balanced sw.rel := by
    obtain ⟨t, th, -, -, -, -, c1, c2, -, -, -, c3, c4, -⟩ := call_ok h
    show sw.rel.x.size = _
    rw [c2, c1, c4]; simp [c3]
  have hqb : Balanced q.rel := by
    show q.rel.x.size = _
    rw [q2, q3, List.length_map]
    exact hbal
  obtain ⟨⟨l, y⟩, hd⟩ := (balanced_iff_getData sw.rel).1 hbal
  obtain ⟨d1, rfl, d2⟩ := (getData_ok_iff _ _ _).1 hd
  rw [hx] at d1
  obtain ⟨w, hw⟩ := (C52_shape l tt .both).2.1 (.inl (by rintro rfl; simp at d2; omega))
  have hwl := ((C52_shape l tt .both).1 w hw).1
  have hwb : t.size = .ok w.length := by rw [Axis.size_of_array d1, hwl]
  obtain ⟨m1, -, m2, -⟩ := C24_equal_axes false q.rel ⟨t, w⟩ hqb hwb (by rw [q2, hx]) .mul
  obtain ⟨r, hr⟩ := m2 (by simp)
  obtain ⟨r1, r2, -⟩ := (m1 r).1 hr
  have hrb : Balanced r := by
    show r.x.size = _
    rw [r1, r2]
    exact hqb
  obtain ⟨s, s1, -⟩ := sweep_operation_works P hP q _ _ r hr hrb (by rw [r1, q2, hx]; exact hs)
  exact ⟨s, by simp only [getDwellSweep, TimeArg.asAxis, except_bind_ok, hu, d1, hw, make_ok hwb, q1, s1]⟩

/-! ## A concrete case: the spectrum 1, 1, 1 on the frequencies 1, 2, 3, the central frequency 2, three times -/

theorem array_three : (⟨0, 1, 1 / 2⟩ : Axis ℝ).array = .ok [0, 1 / 2, 1] := by
  obtain ⟨h0, hst⟩ := ((⟨0, 1, 1 / 2⟩ : Axis ℝ).size_ok_iff 3).1 size_three
  have h1 : (⟨0, 1, 1 / 2⟩ : Axis ℝ).steps = 2 := by omega
  rw [Axis.array_eq _ h0, h1]
  norm_num [linspace, List.range_succ]

theorem array_freq : (⟨1, 3, 1⟩ : Axis ℝ).array = .ok [1, 2, 3] := by
  rw [array_whole ⟨1, 3, 1⟩ 2 (by norm_num) (by norm_num)]
  norm_num [List.range_succ]

theorem dwell_three : dwell none none (some 2) ⟨⟨1, 3, 1⟩, [1, 1, 1]⟩ = .ok ([0, 1 / 16, 1 / 8], [1, 2, 3], [1, 4, 4]) := by
  have hsz : (⟨1, 3, 1⟩ : Axis ℝ).size = .ok 3 := Axis.size_of_array array_freq
  rw [C58_selected]
  refine ⟨⟨⟨1, 3, 1⟩, [1, 1, 1]⟩, [1, 2, 3], ?_, array_freq, rfl, ?_⟩
  · simp only [Rel.selectData, array_freq, except_bind_ok, Option.getD_none]
    norm_num [maskSelect, except_bind_ok]
    exact make_ok hsz
  · norm_num [dwellArrays, cutoff, freqRatio, npDiv, cumprod, cumprodFrom, cumsum, cumsumFrom, maskBy, except_bind_ok,
      except_pure, List.filter]

theorem dwell_call : ∃ (u : AprSweep) (sw : Sweep ℝ),
    AprSweep.init (.axis ⟨0, 1, 1 / 2⟩) (.spectrum ⟨⟨1, 3, 1⟩, [1, 1, 1]⟩) (dwell none none (some 2)) = .ok u ∧
      u.base.call realPrims .none 0 = .ok sw ∧ sw.rel.x = ⟨0, 1, 1 / 2⟩ ∧ sw.rel.y = [0, -4, 0] ∧ Balanced u.aPrior ∧
      u.aPrior.x.start < u.aPrior.x.stop ∧ 0 < u.aPrior.x.sample := by
  obtain ⟨w, hw, h⟩ := C78_shape 3 (by norm_num) [1, 1, 1] rfl
  obtain ⟨q, q1, q2, q3, q4, q5, q6⟩ := h ⟨1, 3, 1⟩ (by norm_num) none (by simp)
  have hm : ∀ y : List ℝ, y.length = 3 → Rel.make (⟨0, 1, 1 / 2⟩ : Axis ℝ) y = .ok ⟨⟨0, 1, 1 / 2⟩, y⟩ := by
    intro y hy
    apply make_ok
    rw [size_three, hy]
  have hval : ∀ y : List ℝ, y.length = 3 → InterpArr.call ⟨[0, 1 / 16, 1 / 8], y⟩ ⟨0, 1, 1 / 2⟩ = .ok y := by
    intro y hy
    have hst : InterpArr.stretch ⟨[0, 1 / 16, 1 / 8], y⟩ (⟨0, 1, 1 / 2⟩ : Axis ℝ) = .ok [0, 1 / 2, 1] := by
      norm_num [InterpArr.stretch]
    simp only [InterpArr.call, hst, array_three, except_bind_ok]
    obtain ⟨ys, y1, y2, y3⟩ := interp1d_spec [0, 1 / 2, (1 : ℝ)] y [0, 1 / 2, 1] (by simp [hy]) (by simp) (.inl (by norm_num))
    rw [y1, interpolant_self y2 (by simp [hy]) y3]
  obtain ⟨g, hg⟩ := sweepInit_given realPrims ⟨0, 1, 1 / 2⟩ [0, -4, 0] ⟨⟨0, 1, 1 / 2⟩, [1, 2, 3]⟩ ⟨⟨0, 1, 1 / 2⟩, [1, 4, 4]⟩ none
    size_three (realPrims_works _)
  refine ⟨⟨⟨some ⟨0, 1, 1 / 2⟩, .interp ⟨[0, 1 / 16, 1 / 8], [1, 2, 3]⟩, .interp ⟨[0, 1 / 16, 1 / 8], [1, 4, 4]⟩⟩, q⟩,
    ⟨⟨⟨0, 1, 1 / 2⟩, [0, -4, 0]⟩, ⟨⟨0, 1, 1 / 2⟩, [1, 2, 3]⟩, ⟨⟨0, 1, 1 / 2⟩, [1, 4, 4]⟩, g, none⟩, ?_, ?_, rfl, rfl, q6, ?_, ?_⟩
  · simp only [AprSweep.init, aprInfo, q1, except_bind_ok, except_pure, dwell_three, UncalculatedSweep.init, TimeArg.toAxis,
      extract]
  · have hi : (⟨⟨0, 1, 1 / 2⟩, [1, 2, 3]⟩ : Rel ℝ ℝ).integrate = .ok ⟨⟨1 / 2, 1, 1 / 2⟩, [3 / 4, 2]⟩ := by
      have hs : (⟨1 / 2, 1, 1 / 2⟩ : Axis ℝ).size = .ok 2 := by
        rw [Axis.size_of_array (array_whole ⟨1 / 2, 1, 1 / 2⟩ 1 (by norm_num) (by norm_num))]
        simp
      simp only [Rel.integrate]
      norm_num [cumTrapz, cumsum, cumsumFrom]
      exact make_ok hs
    have ht : arrayTht realPrims [1, 2, 3] ⟨0, 1, 1 / 2⟩ = .ok ⟨⟨0, 1, 1 / 2⟩, [0, 2 * Real.pi * (3 / 4), 2 * Real.pi * 2]⟩ := by
      simp only [arrayTht, hm [1, 2, 3] rfl, except_bind_ok, hi]
      exact hm _ rfl
    have e0 : realPrims.sin (0 + 0) = 0 := by simp [realPrims]
    have e1 : realPrims.sin (2 * Real.pi * (3 / 4) + 0) = -1 := by
      show Real.sin _ = _
      rw [show 2 * Real.pi * (3 / 4) + 0 = Real.pi / 2 + Real.pi by ring, Real.sin_add_pi, Real.sin_pi_div_two]
    have e2 : realPrims.sin (2 * Real.pi * 2 + 0) = 0 := by
      show Real.sin _ = _
      rw [show 2 * Real.pi * 2 + 0 = 0 + 2 * Real.pi + 2 * Real.pi by ring, Real.sin_add_two_pi, Real.sin_add_two_pi,
        Real.sin_zero]
    simp only [UncalculatedSweep.call, UncalculatedSweep.calcTime, TimeArg.toAxis, except_bind_ok, except_pure, Descr.values,
      hval [1, 2, 3] rfl, hval [1, 4, 4] rfl, hm [1, 2, 3] rfl, hm [1, 4, 4] rfl, Descr.tht, ht, List.map_cons, List.map_nil,
      e0, e1, e2, npMul_eq (a := [1, 4, (4 : ℝ)]) (b := [0, -1, 0]) rfl, List.zipWith]
    norm_num
    exact hg
  · show q.x.start < q.x.stop
    rw [q5, q4]; norm_num
  · show 0 < q.x.sample
    rw [q4]; norm_num

/-- the first sweep is `0, -4, 0`; normalised and tapered it keeps the sign in the middle -/
example : ∃ s v, getDwellSweep realPrims (.axis ⟨0, 1, 1 / 2⟩) none (some 2) none (some (1 / 4))
    (.spectrum ⟨⟨1, 3, 1⟩, [1, 1, 1]⟩) = .ok s ∧ s.rel.y = [0, v, 0] := by
  obtain ⟨u, sw, h1, h2, h3, h4, h5, h6, h7⟩ := dwell_call
  obtain ⟨s, hs⟩ := C76_succeeds realPrims realPrims_work ⟨0, 1, 1 / 2⟩ (by norm_num) (by norm_num) none (some 2) none
    (some (1 / 4)) _ u h1 sw h2 h3 (by rw [h4]; simp) ⟨-4, by rw [h4]; simp, by norm_num⟩ h5 h6 h7
  obtain ⟨u', q, l, -, -, k3, -, k5, k6, -⟩ := C76_ends _ _ (by norm_num) _ _ _ _ (by norm_num) _ s hs
  rw [array_three, Except.ok.injEq] at k3
  subst k3
  obtain ⟨k7, k8⟩ := k6 (by simp)
  match hy : s.rel.y, k5 with
  | [a, b, c], _ =>
    rw [hy] at k7 k8
    simp only [List.head?_cons, Option.some.injEq, List.getLast?_cons_cons, List.getLast?_singleton] at k7 k8
    exact ⟨s, b, hs, by rw [hy, k7, k8]⟩

end SweepDesign
