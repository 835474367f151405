import Verif.Props.FreqTime
import Verif.Props.Sweep

set_option linter.unusedSectionVars false

/-!
# C54, C55: normalised a-priori sweeps; what sweep arithmetic keeps
-/

namespace SweepDesign

open Spec

section
variable {K : Type} [Field K] [LinearOrder K] [IsStrictOrderedRing K] [FloorRing K] [PyPow K]

/-- **C55** Arithmetic on a sweep: the samples are those of the relation arithmetic; frequency and envelope are derived
again from the new samples, the a-priori signal is lost. -/
theorem C55_operation (P : SweepPrims K) (s s' : Sweep K) (o : Operand K K) (op : MathOp)
    (h : s.operation P o op = .ok s') :
    s.rel.operation o op = .ok s'.rel ∧ P.getFT s'.rel = .ok s'.frequencyTime ∧ P.getAT s'.rel = .ok s'.amplitudeTime ∧
      s'.aPriorSignal = none := by
  simp only [Sweep.operation, except_bind_eq_ok] at h
  obtain ⟨r, h1, h2⟩ := h
  obtain ⟨e1, e2, e3, -, e4⟩ := sweepInit_ok h2
  rw [init_axis] at e1
  obtain ⟨e5, e6⟩ := (make_ok_iff _ _ _).1 e1
  have : r = s'.rel := e6.symm
  subst this
  exact ⟨h1, e2, e3, e4⟩

/-- **C55** Whether the operation succeeds does not depend on the description either: only on the samples and the
configured methods. -/
theorem C55_description_unused (P : SweepPrims K) (s q : Sweep K) (hr : s.rel = q.rel) (o : Operand K K) (op : MathOp) :
    s.operation P o op = q.operation P o op := by
  simp only [Sweep.operation, hr]

theorem sweep_getNorm_rel (P : SweepPrims K) (s : Sweep K) (v : K) (h : s.getNorm P = .ok v) : s.rel.getNorm = .ok v := by
  simp only [Sweep.getNorm, except_bind_eq_ok] at h
  obtain ⟨sq, h1, i, h2, h3⟩ := h
  obtain ⟨e1, -⟩ := C55_operation P s sq _ _ h1
  simp only [Rel.getNorm, Rel.pow, e1, except_bind_ok, h2, except_pure] at h3 ⊢
  rw [← h3, div_eq_inv_mul, smul_eq_mul]

end

theorem mathSqrt_ok {v w : ℝ} (h : mathSqrt v = .ok w) : 0 ≤ v ∧ w = Real.sqrt v := by
  unfold mathSqrt at h
  split at h
  · simp at h
  · simp only [Except.ok.injEq] at h
    exact ⟨by linarith, h.symm⟩

/-- **C54** The normalised sweep has the norm of the a-priori signal: computed as the norm of the samples, and also when
`get_norm` is called on the returned sweep. -/
theorem C54_norm (P : SweepPrims ℝ) (u : AprSweep) (time : TimeArg ℝ) (tht0 : ℝ) (s : Sweep ℝ)
    (h : u.call P time tht0 true = .ok s) :
    ∃ v, u.aPrior.getNorm = .ok v ∧ s.rel.getNorm = .ok v ∧ ∀ w, s.getNorm P = .ok w → w = v := by
  simp only [AprSweep.call, if_true, except_bind_eq_ok] at h
  obtain ⟨sw, h1, ns, h2, na, h3, a, h4, b, h5, h6⟩ := h
  split at h6
  · simp at h6
  rename_i hb0
  simp only [except_bind_eq_ok] at h6
  obtain ⟨am, h7, sw', h8, h9⟩ := h6
  simp only [except_pure, Except.ok.injEq] at h9
  obtain ⟨hna, rfl⟩ := mathSqrt_ok h4
  obtain ⟨hns, rfl⟩ := mathSqrt_ok h5
  have e1 := (C55_operation P _ _ _ _ h8).1
  have hrel : s.rel = sw'.rel := by rw [← h9]
  have hn := sweep_getNorm_rel P sw ns h2
  have hbal : Balanced sw.rel := by
    obtain ⟨t, th, -, -, -, -, c1, c2, -, -, -, c3, c4, -⟩ := call_ok h1
    show sw.rel.x.size = _
    rw [c2, c1, c4]; simp [c3]
  have hmul : sw.rel.rmul (.other (.num (Real.sqrt na / Real.sqrt ns))) = .ok sw'.rel := by
    rw [← e1, Rel.rmul, operation_num _ _ _ hbal, operation_num _ _ _ hbal]
    congr 2
    apply List.map_congr_left
    intro a _
    simp [MathOp.fn, mul_comm]
  have hv := C18_norm_scaling sw.rel sw'.rel hbal _ _ hmul hn
  have hcalc : (Real.sqrt na / Real.sqrt ns) ^ 2 * ns = na := by
    have hns' : ns ≠ 0 := by
      rintro rfl; simp at hb0
    rw [div_pow, Real.sq_sqrt hna, Real.sq_sqrt hns, div_mul_cancel₀ _ hns']
  rw [hcalc] at hv
  refine ⟨na, h3, by rw [hrel, hv], fun w hw => ?_⟩
  have := sweep_getNorm_rel P s w hw
  rw [hrel, hv] at this
  simpa using this.symm

/-- **C54** A silent sweep cannot be normalised: `ZeroDivisionError`, provided the a-priori norm is a number `≥ 0`. -/
theorem C54_silent (P : SweepPrims ℝ) (u : AprSweep) (time : TimeArg ℝ) (tht0 : ℝ) (sw : Sweep ℝ)
    (h : u.base.call P time tht0 = .ok sw) (hs : sw.getNorm P = .ok 0) (v : ℝ) (hv : u.aPrior.getNorm = .ok v)
    (h0 : 0 ≤ v) : u.call P time tht0 true = .error .zeroDivision := by
  have h1 : mathSqrt v = .ok (Real.sqrt v) := by unfold mathSqrt; exact if_neg (by linarith)
  have h2 : mathSqrt 0 = .ok 0 := by unfold mathSqrt; simp
  simp only [AprSweep.call, if_true, h, except_bind_ok, hs, hv, h1, h2]

/-- the configured black boxes work on every relation with a positive sample -/
def Spec.PrimsWork (P : SweepPrims ℝ) : Prop :=
  ∀ r : Rel ℝ ℝ, Balanced r → 0 < r.x.sample → (∃ f, P.getFT r = .ok f) ∧ (∃ a, P.getAT r = .ok a) ∧ SpectrogramWorks P r

theorem sweep_operation_works (P : SweepPrims ℝ) (hP : PrimsWork P) (s : Sweep ℝ) (o : Operand ℝ ℝ) (op : MathOp)
    (r : Rel ℝ ℝ) (h : s.rel.operation o op = .ok r) (hb : Balanced r) (hs : 0 < r.x.sample) :
    ∃ s', s.operation P o op = .ok s' ∧ s'.rel = r := by
  obtain ⟨⟨f, hf⟩, ⟨a, ha⟩, d, g, hd, hg⟩ := hP r hb hs
  refine ⟨⟨r, f, a, g, none⟩, ?_, rfl⟩
  simp only [Sweep.operation, h, except_bind_ok, Sweep.init, init_axis, make_ok hb, orDerive, hf, ha, hd, hg, except_pure]

theorem sweep_getNorm_works (P : SweepPrims ℝ) (hP : PrimsWork P) (s : Sweep ℝ) (hb : Balanced s.rel)
    (hs : 0 < s.rel.x.sample) :
    s.getNorm P = s.rel.getNorm := by
  have hp : s.rel.operation (.other (.num 2)) .pow = .ok ⟨s.rel.x, s.rel.y.map fun a => a ^ 2⟩ := by
    rw [operation_num _ _ _ hb]
    have : (s.rel.y.map fun a => MathOp.pow.fn a 2) = (s.rel.y.map fun a => a ^ 2).map some := by
      rw [List.map_map]
      apply List.map_congr_left
      intro a _
      simp [MathOp.fn, PyPow.ppow_two, pow_two]
    rw [this, finite_map_some]
    rfl
  obtain ⟨sq, h1, h2⟩ := sweep_operation_works P hP s _ _ _ hp (balanced_map _ hb) hs
  simp only [Sweep.getNorm, Rel.getNorm, Rel.pow, hp, h1, except_bind_ok, h2]
  congr 1
  funext i
  rw [div_eq_inv_mul, smul_eq_mul]

/-- **C54** Normalisation succeeds: the sweep of the base class exists on an increasing axis with a positive sample and
is not silent, the a-priori signal is on such an axis too, and the black boxes work. -/
theorem C54_succeeds (P : SweepPrims ℝ) (hP : PrimsWork P) (u : AprSweep) (time : TimeArg ℝ) (tht0 : ℝ) (sw : Sweep ℝ)
    (h : u.base.call P time tht0 = .ok sw) (hinc : sw.rel.x.start < sw.rel.x.stop) (hs : 0 < sw.rel.x.sample)
    (h2 : 2 ≤ sw.rel.y.length) (hne : ∃ v ∈ sw.rel.y, v ≠ 0) (hb : Balanced u.aPrior)
    (hinc' : u.aPrior.x.start < u.aPrior.x.stop) (hs' : 0 < u.aPrior.x.sample) :
    ∃ s c, u.call P time tht0 true = .ok s ∧ 0 ≤ c ∧ s.rel.x = sw.rel.x ∧ s.rel.y = sw.rel.y.map (fun v => v * c) ∧
      s.aPriorSignal = some u.aPrior := by
  have hcall := call_ok h
  obtain ⟨t, th, -, -, -, -, c1, c2, -, c5, -, c3, c4, -⟩ := hcall
  have hbal : Balanced sw.rel := by
    show sw.rel.x.size = _
    rw [c2, c1, c4]; simp [c3]
  have hbala : Balanced sw.amplitudeTime := by
    show sw.amplitudeTime.x.size = _
    rw [c5, c1, c3]
  obtain ⟨ns, n1, n2, n3⟩ := C18_norm_positive sw.rel hbal hinc hs
  have n4 : ns ≠ 0 := by
    intro h0
    obtain ⟨v, hv, hv0⟩ := hne
    exact hv0 ((n3 h2).1 h0 v hv)
  obtain ⟨na, m1, m2, -⟩ := C18_norm_positive u.aPrior hb hinc' hs'
  have q1 : mathSqrt na = .ok (Real.sqrt na) := by unfold mathSqrt; exact if_neg (by linarith)
  have q2 : mathSqrt ns = .ok (Real.sqrt ns) := by unfold mathSqrt; exact if_neg (by linarith)
  have q3 : Real.sqrt ns ≠ 0 := by
    rw [Real.sqrt_ne_zero n2]; exact n4
  have hmulr : ∀ (r : Rel ℝ ℝ) (c : ℝ), Balanced r → r.operation (.other (.num c)) .mul = .ok ⟨r.x, r.y.map fun v => v * c⟩ := by
    intro r c hr
    rw [operation_num _ _ _ hr]
    have : (r.y.map fun a => MathOp.mul.fn a c) = (r.y.map fun a => a * c).map some := by
      rw [List.map_map]; rfl
    rw [this, finite_map_some]
    rfl
  obtain ⟨sw', w1, w2⟩ := sweep_operation_works P hP sw _ _ _ (hmulr sw.rel (Real.sqrt na / Real.sqrt ns) hbal)
    (balanced_map _ hbal) hs
  refine ⟨{ sw' with aPriorSignal := some u.aPrior }, Real.sqrt na / Real.sqrt ns, ?_, by positivity, ?_, ?_, rfl⟩
  · simp only [AprSweep.call, if_true, h, except_bind_ok, sweep_getNorm_works P hP sw hbal hs, n1, m1, q1, q2, if_neg q3,
      Rel.mul, hmulr _ _ hbala, w1, except_pure]
  · show sw'.rel.x = _; rw [w2]
  · show sw'.rel.y = _; rw [w2]

/-- **C54** On a time axis that runs backwards the energy is negative, and normalisation raises `ValueError` unless the
sweep is silent. -/
theorem C54_backwards (P : SweepPrims ℝ) (hP : PrimsWork P) (u : AprSweep) (time : TimeArg ℝ) (tht0 : ℝ) (sw : Sweep ℝ)
    (h : u.base.call P time tht0 = .ok sw) (hdec : sw.rel.x.stop < sw.rel.x.start) (hs : 0 < sw.rel.x.sample)
    (h2 : 2 ≤ sw.rel.y.length) (hne : ∃ v ∈ sw.rel.y, v ≠ 0) (hb : Balanced u.aPrior) :
    u.call P time tht0 true = .error .value := by
  obtain ⟨t, th, -, -, -, -, c1, c2, -, c5, -, c3, c4, -⟩ := call_ok h
  have hbal : Balanced sw.rel := by
    show sw.rel.x.size = _
    rw [c2, c1, c4]; simp [c3]
  obtain ⟨ns, n1, n2, n3⟩ := C18_norm_backwards sw.rel hbal hdec hs
  have n4 : ns < 0 := by
    refine lt_of_le_of_ne n2 fun h0 => ?_
    obtain ⟨v, hv, hv0⟩ := hne
    exact hv0 ((n3 h2).1 h0 v hv)
  obtain ⟨⟨lx, ly⟩, hd⟩ := (balanced_iff_getData u.aPrior).1 hb
  obtain ⟨na, m1⟩ : ∃ na, u.aPrior.getNorm = .ok na := ⟨_, getNorm_eq u.aPrior lx ly hd⟩
  have q2 : mathSqrt ns = .error .value := by unfold mathSqrt; exact if_pos n4
  simp only [AprSweep.call, if_true, h, except_bind_ok, sweep_getNorm_works P hP sw hbal hs, n1, m1, q2]
  unfold mathSqrt
  split <;> rfl

/-- **C55** With normalisation the description of the returned sweep is re-derived from its samples; the a-priori signal
is attached afterwards. -/
theorem C55_normalised (P : SweepPrims ℝ) (u : AprSweep) (time : TimeArg ℝ) (tht0 : ℝ) (s : Sweep ℝ)
    (h : u.call P time tht0 true = .ok s) :
    P.getFT s.rel = .ok s.frequencyTime ∧ P.getAT s.rel = .ok s.amplitudeTime ∧ s.aPriorSignal = some u.aPrior := by
  simp only [AprSweep.call, if_true, except_bind_eq_ok] at h
  obtain ⟨sw, h1, ns, h2, na, h3, a, h4, b, h5, h6⟩ := h
  split at h6
  · simp at h6
  simp only [except_bind_eq_ok] at h6
  obtain ⟨am, h7, sw', h8, h9⟩ := h6
  simp only [except_pure, Except.ok.injEq] at h9
  obtain ⟨e1, e2, e3, -⟩ := C55_operation P _ _ _ _ h8
  subst h9
  exact ⟨e2, e3, rfl⟩

/-- **C55** Without normalisation the returned sweep carries the frequency and the envelope it was built from. -/
theorem C55_not_normalised (P : SweepPrims ℝ) (u : AprSweep) (time : TimeArg ℝ) (tht0 : ℝ) (s : Sweep ℝ)
    (h : u.call P time tht0 false = .ok s) :
    u.base.frequencyTime.values s.rel.x = .ok s.frequencyTime.y ∧ s.frequencyTime.x = s.rel.x ∧
      u.base.amplitudeTime.values s.rel.x = .ok s.amplitudeTime.y ∧ s.amplitudeTime.x = s.rel.x ∧
      s.aPriorSignal = some u.aPrior := by
  simp only [AprSweep.call, except_bind_eq_ok] at h
  obtain ⟨sw, h1, h2⟩ := h
  simp only [Bool.false_eq_true, if_false, except_pure, Except.ok.injEq] at h2
  obtain ⟨t, th, -, g1, g2, -, -, c2, c5, c6, -, -, -, -⟩ := call_ok h1
  subst h2
  subst c2
  exact ⟨g1, c5, g2, c6, rfl⟩

/-! ## A concrete case -/

theorem realPrims_work : PrimsWork realPrims := fun r _ _ => ⟨⟨_, rfl⟩, ⟨_, rfl⟩, realPrims_works r⟩

theorem size_three : (⟨0, 1, 1 / 2⟩ : Axis ℝ).size = .ok 3 := by
  rw [Axis.size_eq _ (by norm_num)]
  have : pyRound (2 : ℝ) = 2 := by simpa using pyRound_natCast (K := ℝ) 2
  norm_num [Axis.steps, this]
  rfl

/-- a generator with the constant description 1 for frequency (constant law) and envelope, and the phase `π/2`: the sweep is
`1, -1, 1` (frequency 1, times 0, 1/2, 1) -/
noncomputable def cosineApr : AprSweep where
  base := ⟨some ⟨0, 1, 1 / 2⟩, .func (fun l => .ok (l.map fun _ => 1)) fun _ => 1, constOne⟩
  aPrior := ⟨⟨0, 1, 1 / 2⟩, [3, 0, 4]⟩

theorem cosineApr_call : ∃ sw, cosineApr.base.call realPrims .none (Real.pi / 2) = .ok sw ∧ sw.rel.x = ⟨0, 1, 1 / 2⟩ ∧
    sw.rel.y = [1, -1, 1] ∧ sw.frequencyTime.y = [1, 1, 1] := by
  have hx : (⟨0, 1, 1 / 2⟩ : Axis ℝ).array = .ok [0, 1 / 2, 1] := by
    obtain ⟨h0, hst⟩ := ((⟨0, 1, 1 / 2⟩ : Axis ℝ).size_ok_iff 3).1 size_three
    have h1 : (⟨0, 1, 1 / 2⟩ : Axis ℝ).steps = 2 := by omega
    rw [Axis.array_eq _ h0, h1]
    norm_num [linspace, List.range_succ]
  have hm : ∀ y : List ℝ, y.length = 3 → Rel.make (⟨0, 1, 1 / 2⟩ : Axis ℝ) y = .ok ⟨⟨0, 1, 1 / 2⟩, y⟩ := by
    intro y hy
    apply make_ok
    rw [size_three, hy]
  have s0 : Real.sin (Real.pi / 2) = 1 := Real.sin_pi_div_two
  have s1 : Real.sin (2 * Real.pi * (1 / 2 - 0) + Real.pi / 2) = -1 := by
    rw [show 2 * Real.pi * (1 / 2 - 0) + Real.pi / 2 = Real.pi / 2 + Real.pi by ring, Real.sin_add_pi, s0]
  have s2 : Real.sin (2 * Real.pi * (1 - 0) + Real.pi / 2) = 1 := by
    rw [show 2 * Real.pi * (1 - 0) + Real.pi / 2 = Real.pi / 2 + 2 * Real.pi by ring, Real.sin_add_two_pi, s0]
  obtain ⟨g, hg⟩ := sweepInit_given realPrims ⟨0, 1, 1 / 2⟩ [1, -1, 1] ⟨⟨0, 1, 1 / 2⟩, [1, 1, 1]⟩ ⟨⟨0, 1, 1 / 2⟩, [1, 1, 1]⟩ none
    size_three (realPrims_works _)
  refine ⟨⟨⟨⟨0, 1, 1 / 2⟩, [1, -1, 1]⟩, ⟨⟨0, 1, 1 / 2⟩, [1, 1, 1]⟩, ⟨⟨0, 1, 1 / 2⟩, [1, 1, 1]⟩, g, none⟩, ?_, rfl, rfl, rfl⟩
  · simp only [UncalculatedSweep.call, UncalculatedSweep.calcTime, TimeArg.toAxis, cosineApr, Descr.values, constOne,
      Descr.tht, funcTht, except_bind_ok, except_pure, hx, List.map_cons, List.map_nil, List.length_cons, List.length_nil,
      List.replicate, hm, List.tail_cons]
    have hq : ∀ a b : ℝ, realPrims.quad (fun _ => 1) a b = b - a := by
      intro a b; simp [realPrims]
    simp only [hq]
    have e0 : realPrims.sin (0 + Real.pi / 2) = 1 := by simp [realPrims]
    have e1 : realPrims.sin (2 * realPrims.pi * (1 / 2 - 0) + Real.pi / 2) = -1 := s1
    have e2 : realPrims.sin (2 * realPrims.pi * (1 - 0) + Real.pi / 2) = 1 := s2
    rw [e0, e1, e2, npMul_eq (a := [1, 1, 1]) (b := [1, -1, 1]) (by simp)]
    simp only [except_bind_ok, List.zipWith, one_mul]
    exact hg

theorem cosineApr_backwards : ∃ sw, cosineApr.base.call realPrims (.axis ⟨1, 0, 1 / 2⟩) (Real.pi / 2) = .ok sw ∧
    sw.rel.x = ⟨1, 0, 1 / 2⟩ ∧ sw.rel.y = [1, -1, 1] := by
  have hst : (⟨1, 0, 1 / 2⟩ : Axis ℝ).steps = 2 := by
    have : pyRound (2 : ℝ) = 2 := by simpa using pyRound_natCast (K := ℝ) 2
    norm_num [Axis.steps, this]
    rfl
  have hsz : (⟨1, 0, 1 / 2⟩ : Axis ℝ).size = .ok 3 := by
    rw [Axis.size_eq _ (by norm_num), hst]
  have hx : (⟨1, 0, 1 / 2⟩ : Axis ℝ).array = .ok [1, 1 / 2, 0] := by
    rw [Axis.array_eq _ (by norm_num), hst]
    norm_num [linspace, List.range_succ]
  have hm : ∀ y : List ℝ, y.length = 3 → Rel.make (⟨1, 0, 1 / 2⟩ : Axis ℝ) y = .ok ⟨⟨1, 0, 1 / 2⟩, y⟩ := by
    intro y hy
    apply make_ok
    rw [hsz, hy]
  obtain ⟨g, hg⟩ := sweepInit_given realPrims ⟨1, 0, 1 / 2⟩ [1, -1, 1] ⟨⟨1, 0, 1 / 2⟩, [1, 1, 1]⟩ ⟨⟨1, 0, 1 / 2⟩, [1, 1, 1]⟩ none
    hsz (realPrims_works _)
  refine ⟨⟨⟨⟨1, 0, 1 / 2⟩, [1, -1, 1]⟩, ⟨⟨1, 0, 1 / 2⟩, [1, 1, 1]⟩, ⟨⟨1, 0, 1 / 2⟩, [1, 1, 1]⟩, g, none⟩, ?_, rfl, rfl⟩
  · simp only [UncalculatedSweep.call, UncalculatedSweep.calcTime, TimeArg.toAxis, cosineApr, Descr.values, constOne,
      Descr.tht, funcTht, except_bind_ok, except_pure, hx, List.map_cons, List.map_nil, List.length_cons, List.length_nil,
      List.replicate, hm, List.tail_cons]
    have hq : ∀ a b : ℝ, realPrims.quad (fun _ => 1) a b = b - a := by
      intro a b; simp [realPrims]
    simp only [hq]
    have s0 : Real.sin (Real.pi / 2) = 1 := Real.sin_pi_div_two
    have e0 : realPrims.sin (0 + Real.pi / 2) = 1 := by simp [realPrims]
    have e1 : realPrims.sin (2 * realPrims.pi * (1 / 2 - 1) + Real.pi / 2) = -1 := by
      show Real.sin (2 * Real.pi * (1 / 2 - 1) + Real.pi / 2) = -1
      rw [show 2 * Real.pi * (1 / 2 - 1) + Real.pi / 2 = -(Real.pi / 2) by ring, Real.sin_neg, s0]
    have e2 : realPrims.sin (2 * realPrims.pi * (0 - 1) + Real.pi / 2) = 1 := by
      show Real.sin (2 * Real.pi * (0 - 1) + Real.pi / 2) = 1
      rw [show 2 * Real.pi * (0 - 1) + Real.pi / 2 = Real.pi / 2 - 2 * Real.pi by ring, Real.sin_sub_two_pi, s0]
    rw [e0, e1, e2, npMul_eq (a := [1, 1, 1]) (b := [1, -1, 1]) (by simp)]
    simp only [except_bind_ok, List.zipWith, one_mul]
    exact hg

/-- the hypotheses of `C54_backwards` are met -/
example : cosineApr.call realPrims (.axis ⟨1, 0, 1 / 2⟩) (Real.pi / 2) true = .error .value := by
  obtain ⟨sw, h1, h2, h3⟩ := cosineApr_backwards
  exact C54_backwards realPrims realPrims_work _ _ _ sw h1 (by rw [h2]; norm_num) (by rw [h2]; norm_num) (by rw [h3]; simp)
    ⟨1, by rw [h3]; simp, one_ne_zero⟩ size_three

/-- the hypotheses of `C54_norm`, `C54_succeeds` and `C55_normalised` are met; the description is lost: the sweep was
built with the frequency 1 and carries what the configured method derives (0 in this toy configuration) -/
theorem C55_description_lost_witness : ∃ s sw, cosineApr.call realPrims .none (Real.pi / 2) true = .ok s ∧
    cosineApr.call realPrims .none (Real.pi / 2) false = .ok sw ∧ s.rel.getNorm = cosineApr.aPrior.getNorm ∧
    s.frequencyTime.y = [0, 0, 0] ∧ sw.frequencyTime.y = [1, 1, 1] := by
  obtain ⟨sw, h1, h2, h3, h4⟩ := cosineApr_call
  obtain ⟨s, c, g1, -, g2, g3, -⟩ := C54_succeeds realPrims realPrims_work cosineApr .none _ sw h1 (by rw [h2]; norm_num)
    (by rw [h2]; norm_num) (by rw [h3]; simp) ⟨1, by rw [h3]; simp⟩ size_three
    (by simp [cosineApr]) (by simp [cosineApr])
  obtain ⟨v, e1, e2, -⟩ := C54_norm _ _ _ _ _ g1
  refine ⟨s, { sw with aPriorSignal := some cosineApr.aPrior }, g1, ?_, by rw [e1, e2], ?_, h4⟩
  · simp only [AprSweep.call, h1, except_bind_ok, Bool.false_eq_true, if_false, except_pure]
  · have := (C55_normalised _ _ _ _ _ g1).1
    simp only [realPrims, Except.ok.injEq] at this
    rw [← this]
    simp [g3, h3]

end SweepDesign
