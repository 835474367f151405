import Verif.Props.Units
import Verif.Props.Sweep

/-!
# C107 The unit of time: sweeps

A generator whose time axis is written in a unit `c` times as small and whose frequencies are divided by `c` makes the same sweep in that
unit.
-/

set_option linter.unusedSectionVars false

namespace SweepDesign

section
variable {K : Type} [Field K] [LinearOrder K] [IsStrictOrderedRing K] [FloorRing K]

/-- frequencies in the new unit -/
def Spec.freqIn (c : K) (r : Rel K K) : Rel K K := ⟨Spec.axisIn c r.x, r.y.map (c⁻¹ * ·)⟩

/-- a description of frequencies in the new unit: arrays and relations divided by `c`, a callable `f` becomes `t ↦ f(t / c) / c`; no
description stands for `f(t) = t`, which becomes `t ↦ t / c²` -/
def Spec.frequencyIn (c : K) : Ftat K → Ftat K
  | .absent => .func (fun l => .ok ((l.map (c⁻¹ * ·)).map (c⁻¹ * ·))) fun t => c⁻¹ * (c⁻¹ * t)
  | .func g φ => .func (fun l => (g (l.map (c⁻¹ * ·))).map (List.map (c⁻¹ * ·))) fun t => c⁻¹ * φ (c⁻¹ * t)
  | .interp f => .interp ⟨f.x.map (c * ·), f.y.map (c⁻¹ * ·)⟩
  | .rel r => .rel (Spec.freqIn c r)
  | .array l => .array (l.map (c⁻¹ * ·))

/-- a description of amplitudes in the new unit -/
def Spec.amplitudeIn (c : K) : Ftat K → Ftat K
  | .absent => .absent
  | .func g φ => .func (fun l => g (l.map (c⁻¹ * ·))) fun t => φ (c⁻¹ * t)
  | .interp f => .interp ⟨f.x.map (c * ·), f.y⟩
  | .rel r => .rel (Spec.relIn c r)
  | .array l => .array l

open Spec

/-! ## Machinery -/

theorem interpAt_smul (k : K) (x y : List K) (t : K) : interpAt x (y.map (k * ·)) t = k * interpAt x y t := by
  have h : ∀ i, at0 (y.map (k * ·)) i = k * at0 y i := by
    intro i
    rcases lt_or_ge i y.length with hi | hi
    · simp [at0, List.getD, hi]
    · simp [at0, List.getD, hi]
  unfold interpAt
  rcases x.head? with _ | x0
  · simp
  rcases x.getLast? with _ | xl
  · simp
  simp only [h]
  split
  · simp
  split
  · simp
  split
  · rfl
  · simp only [smul_eq_mul]; ring

theorem interp1d_smul (k : K) (x y xs : List K) :
    interp1d x (y.map (k * ·)) xs = (interp1d x y xs).map (List.map (k * ·)) := by
  unfold interp1d
  rw [List.length_map]
  split
  · rfl
  split
  · rfl
  · have e : x.zip (y.map (k * ·)) = (x.zip y).map (fun p => (p.1, k * p.2)) := by rw [List.zip_map_right]; rfl
    have hs : ((x.zip y).map (fun p => (p.1, k * p.2))).insertionSort (fun p q => p.1 ≤ q.1) =
        ((x.zip y).insertionSort (fun p q => p.1 ≤ q.1)).map (fun p => (p.1, k * p.2)) := by
      symm
      apply List.map_insertionSort
      intro a _ b _
      simp
    rw [e, hs]
    simp only [List.map_map]
    show Except.ok _ = Except.ok _
    congr 1
    rw [List.map_map]
    refine List.map_congr_left fun t _ => ?_
    have h1 : (Prod.fst ∘ fun p : K × K => (p.1, k * p.2)) = Prod.fst := rfl
    have h2 : (Prod.snd ∘ fun p : K × K => (p.1, k * p.2)) = (k * ·) ∘ Prod.snd := rfl
    rw [h1, h2, ← List.map_map]
    exact interpAt_smul k _ _ t

variable {c : K}

theorem call_in (hc : 0 < c) (k : K) (f : InterpArr K) (t : Axis K) :
    InterpArr.call ⟨f.x.map (c * ·), f.y.map (k * ·)⟩ (axisIn c t) = (f.call t).map (List.map (k * ·)) := by
  unfold InterpArr.call
  have e : InterpArr.stretch ⟨f.x.map (c * ·), f.y.map (k * ·)⟩ (axisIn c t) = (f.stretch t).map (List.map (c * ·)) := by
    unfold InterpArr.stretch
    simp only [List.head?_map, List.getLast?_map]
    rcases f.x.head? with _ | x0
    · rfl
    rcases f.x.getLast? with _ | xl
    · rfl
    simp only [Option.map_some, mul_eq_zero, hc.ne', false_or]
    split
    · rfl
    · show Except.ok _ = Except.ok _
      congr 1
      rw [List.map_map, List.map_map]
      refine List.map_congr_left fun v _ => ?_
      simp only [Function.comp, axisIn]
      rw [← mul_sub, mul_div_mul_left _ _ hc.ne']; ring
  rw [e, except_map_bind, except_bind_map]
  refine except_bind_congr fun s _ => ?_
  rw [array_in hc, except_map_bind, except_bind_map]
  refine except_bind_congr fun xs _ => ?_
  rw [interp1d_in hc, interp1d_smul]

theorem resample_in (hc : 0 < c) (k : K) (t : Axis K) (l : List K) :
    resample (axisIn c t) (l.map (k * ·)) = (resample t l).map (List.map (k * ·)) := by
  unfold resample
  rw [List.length_map]
  split
  · rfl
  · simp only []
    have e : ({ start := (axisIn c t).start, stop := (axisIn c t).stop, sample := ((axisIn c t).start - (axisIn c t).stop) / ((l.length : K) - 1) } : Axis K) =
        axisIn c { start := t.start, stop := t.stop, sample := (t.start - t.stop) / ((l.length : K) - 1) } := by
      simp only [axisIn, Axis.mk.injEq]
      exact ⟨trivial, trivial, by rw [← mul_sub, mul_div_assoc]⟩
    rw [e, array_in hc, array_in hc, except_map_bind, except_bind_map]
    refine except_bind_congr fun x _ => ?_
    rw [except_map_bind, except_bind_map]
    refine except_bind_congr fun xs _ => ?_
    rw [interp1d_in hc, interp1d_smul]

theorem ofAxis_in (hc : 0 < c) (k : K) (t : Axis K) (y : List K) :
    InterpArr.ofAxis (axisIn c t) (y.map (k * ·)) = (InterpArr.ofAxis t y).map fun f => ⟨f.x.map (c * ·), f.y.map (k * ·)⟩ := by
  unfold InterpArr.ofAxis
  rw [array_in hc, except_map_bind, except_bind_map]
  rfl

/-- the stored description of frequencies in the new unit -/
def freqDescrIn (c : K) : Descr K → Descr K
  | .func g φ => .func (fun l => (g (l.map (c⁻¹ * ·))).map (List.map (c⁻¹ * ·))) fun t => c⁻¹ * φ (c⁻¹ * t)
  | .interp f => .interp ⟨f.x.map (c * ·), f.y.map (c⁻¹ * ·)⟩

/-- the stored description of amplitudes in the new unit -/
def ampDescrIn (c : K) : Descr K → Descr K
  | .func g φ => .func (fun l => g (l.map (c⁻¹ * ·))) fun t => φ (c⁻¹ * t)
  | .interp f => .interp ⟨f.x.map (c * ·), f.y⟩

theorem map_one (l : List K) : l.map ((1 : K) * ·) = l := by simp

theorem extract_freq_in (hc : 0 < c) (t : Option (Axis K)) (x : Ftat K) :
    extract (t.map (axisIn c)) (frequencyIn c x) linearTime = (extract t x linearTime).map (freqDescrIn c) := by
  cases x with
  | absent => rfl
  | func g φ => rfl
  | interp f => rfl
  | rel r =>
    show (InterpArr.ofAxis (axisIn c r.x) (r.y.map (c⁻¹ * ·)) >>= _) = Except.map _ (InterpArr.ofAxis r.x r.y >>= _)
    rw [ofAxis_in hc, except_map_bind, except_bind_map]
    rfl
  | array l =>
    cases t with
    | none => rfl
    | some t =>
      show ((axisIn c t).size >>= _) = Except.map _ (t.size >>= _)
      rw [size_in hc, except_bind_map]
      refine except_bind_congr fun n _ => ?_
      rw [List.length_map]
      split
      · rw [resample_in hc, except_map_bind, except_bind_map]
        refine except_bind_congr fun y _ => ?_
        rw [ofAxis_in hc, except_map_bind, except_bind_map]
        rfl
      · simp only [except_bind_ok]
        rw [ofAxis_in hc, except_map_bind, except_bind_map]
        rfl

theorem extract_amp_in (hc : 0 < c) (t : Option (Axis K)) (x : Ftat K) :
    extract (t.map (axisIn c)) (amplitudeIn c x) constOne = (extract t x constOne).map (ampDescrIn c) := by
  have o : ∀ t y, InterpArr.ofAxis (axisIn c t) y = (InterpArr.ofAxis t y).map fun f => ⟨f.x.map (c * ·), f.y⟩ := by
    intro t y
    have := ofAxis_in hc 1 t y
    simpa using this
  have rs : ∀ t l, resample (axisIn c t) l = resample t l := by
    intro t l
    have := resample_in hc 1 t l
    rw [map_one] at this
    rw [this]
    cases resample t l <;> simp [Except.map]
  cases x with
  | absent =>
    show Except.ok _ = Except.ok _
    simp [ampDescrIn, constOne]
  | func g φ => rfl
  | interp f => rfl
  | rel r =>
    show (InterpArr.ofAxis (axisIn c r.x) r.y >>= _) = Except.map _ (InterpArr.ofAxis r.x r.y >>= _)
    rw [o, except_map_bind, except_bind_map]
    rfl
  | array l =>
    cases t with
    | none => rfl
    | some t =>
      show ((axisIn c t).size >>= _) = Except.map _ (t.size >>= _)
      rw [size_in hc, except_bind_map]
      refine except_bind_congr fun n _ => ?_
      split
      · rw [rs, except_bind_map]
        refine except_bind_congr fun y _ => ?_
        rw [o, except_map_bind, except_bind_map]
        rfl
      · simp only [except_bind_ok]
        rw [o, except_map_bind, except_bind_map]
        rfl

theorem map_back (hc : 0 < c) (l : List K) : (l.map (c * ·)).map (c⁻¹ * ·) = l := by
  rw [List.map_map]
  conv_rhs => rw [← List.map_id l]
  refine List.map_congr_left fun v _ => ?_
  simp [hc.ne']

theorem freq_values_in (hc : 0 < c) (d : Descr K) (t : Axis K) :
    (freqDescrIn c d).values (axisIn c t) = (d.values t).map (List.map (c⁻¹ * ·)) := by
  cases d with
  | interp f => exact call_in hc c⁻¹ f t
  | func g φ =>
    show ((axisIn c t).array >>= _) = Except.map _ (t.array >>= _)
    rw [array_in hc, except_map_bind, except_bind_map]
    refine except_bind_congr fun l _ => ?_
    simp only [map_back hc]

theorem amp_values_in (hc : 0 < c) (d : Descr K) (t : Axis K) : (ampDescrIn c d).values (axisIn c t) = d.values t := by
  cases d with
  | interp f =>
    have := call_in hc 1 f t
    rw [map_one] at this
    show InterpArr.call _ _ = f.call t
    rw [this]
    cases f.call t <;> simp [Except.map]
  | func g φ =>
    show ((axisIn c t).array >>= _) = (t.array >>= _)
    rw [array_in hc, except_map_bind]
    refine except_bind_congr fun l _ => ?_
    simp only [map_back hc]

theorem cumsumFrom_smul (k a : K) (l : List K) : cumsumFrom (k * a) (l.map (k * ·)) = (cumsumFrom a l).map (k * ·) := by
  induction l generalizing a with
  | nil => rfl
  | cons b l ih => simp [cumsumFrom, ← mul_add, ih]

theorem cumTrapz_smul (k : K) (y : List K) : cumTrapz (y.map (k * ·)) = (cumTrapz y).map (k * ·) := by
  unfold cumTrapz cumsum
  rw [← cumsumFrom_smul, mul_zero]
  congr 1
  rw [← List.map_tail, List.zipWith_map, List.map_zipWith]
  congr 1
  funext a b
  rw [← mul_add, mul_div_assoc]

theorem arrayTht_in (hc : 0 < c) (P : SweepPrims K) (f : List K) (t : Axis K) :
    arrayTht P (f.map (c⁻¹ * ·)) (axisIn c t) = (arrayTht P f t).map (relIn c) := by
  unfold arrayTht
  rw [make_values hc, except_map_bind, except_bind_map]
  refine except_bind_congr fun r _ => ?_
  have e : Rel.integrate (⟨axisIn c r.x, r.y.map (c⁻¹ * ·)⟩ : Rel K K) = r.integrate.map (relIn c) := by
    unfold Rel.integrate
    simp only []
    rw [← make_in hc]
    congr 1
    · simp [axisIn, mul_add]
    · rw [cumTrapz_smul, List.map_map]
      refine List.map_congr_left fun v _ => ?_
      simp only [Function.comp, axisIn, smul_eq_mul]
      have := hc.ne'
      field_simp
  rw [e, except_map_bind, except_bind_map]
  exact except_bind_congr fun i _ => make_in hc t _

/-- the quadrature gives the same number for `t ↦ f(t / c) / c` between the ends multiplied by `c` -/
def Spec.QuadFollows (c : K) (quad : (K → K) → K → K → K) : Prop :=
  ∀ f a b, quad (fun t => c⁻¹ * f (c⁻¹ * t)) (c * a) (c * b) = quad f a b

theorem tht_in (hc : 0 < c) (P : SweepPrims K) (hq : QuadFollows c P.quad) (d : Descr K) (f : List K) (t : Axis K) :
    (freqDescrIn c d).tht P (f.map (c⁻¹ * ·)) (axisIn c t) = (d.tht P f t).map (relIn c) := by
  cases d with
  | interp g => exact arrayTht_in hc P f t
  | func g φ =>
    show funcTht P (fun t => c⁻¹ * φ (c⁻¹ * t)) (axisIn c t) = (funcTht P φ t).map (relIn c)
    unfold funcTht
    rw [array_in hc, except_map_bind, except_bind_map]
    refine except_bind_congr fun x _ => ?_
    rw [← make_in hc]
    congr 2
    rw [← List.map_tail, List.map_map]
    refine List.map_congr_left fun v _ => ?_
    exact congrArg (2 * P.pi * ·) (hq φ t.start v)

/-! ## C107 -/

/-- the time given as an axis or not given -/
def Spec.timeArg : Option (Axis K) → TimeArg K
  | none => .none
  | some a => .axis a

theorem init_in (hc : 0 < c) (t0 : Option (Axis K)) (f a : Ftat K) :
    UncalculatedSweep.init (timeArg (t0.map (axisIn c))) (frequencyIn c f) (amplitudeIn c a) =
      (UncalculatedSweep.init (timeArg t0) f a).map fun u => ⟨u.time.map (axisIn c), freqDescrIn c u.frequencyTime, ampDescrIn c u.amplitudeTime⟩ := by
  have e : ∀ o : Option (Axis K), (timeArg o).toAxis = .ok o := by intro o; cases o <;> rfl
  unfold UncalculatedSweep.init
  rw [e, e]
  simp only [except_bind_ok]
  rw [extract_freq_in hc, extract_amp_in hc, except_map_bind, except_bind_map]
  refine except_bind_congr fun d _ => ?_
  rw [except_map_bind, except_bind_map]
  rfl

theorem calcTime_in (u : UncalculatedSweep K) (fd ad : Descr K) (t : Option (Axis K)) :
    UncalculatedSweep.calcTime ⟨u.time.map (axisIn c), fd, ad⟩ (timeArg (t.map (axisIn c))) =
      (u.calcTime (timeArg t)).map (axisIn c) := by
  unfold UncalculatedSweep.calcTime
  cases t with
  | some a => rfl
  | none => cases u.time <;> simp [timeArg, TimeArg.toAxis] <;> rfl

/-- **C107** Sweeps. `UncalculatedSweep(time, f, a)(t, θ₀)` with all times in the new unit, frequencies divided by `c` and the same
amplitudes: the generator exists exactly when the old one does, and makes a sweep when the old one does and the spectrogram of the samples
can be made in the new unit. The new sweep has the same samples over the axis in the new unit, the same `amplitude_time` and the old
`frequency_time` divided by `c`. For frequencies given as a callable the quadrature has to follow the change of variable, as the integral
does. -/
theorem C107_sweep (hc : 0 < c) (P : SweepPrims K) (hq : QuadFollows c P.quad) (t0 t : Option (Axis K)) (f a : Ftat K) (tht0 : K) :
    (∀ e, UncalculatedSweep.init (timeArg t0) f a = .error e →
      UncalculatedSweep.init (timeArg (t0.map (axisIn c))) (frequencyIn c f) (amplitudeIn c a) = .error e) ∧
    ∀ u, UncalculatedSweep.init (timeArg t0) f a = .ok u →
      ∃ u', UncalculatedSweep.init (timeArg (t0.map (axisIn c))) (frequencyIn c f) (amplitudeIn c a) = .ok u' ∧
        ∀ s, u.call P (timeArg t) tht0 = .ok s →
          (SpectrogramWorks P (relIn c s.rel) → ∃ s', u'.call P (timeArg (t.map (axisIn c))) tht0 = .ok s') ∧
          ∀ s', u'.call P (timeArg (t.map (axisIn c))) tht0 = .ok s' →
            s'.rel = relIn c s.rel ∧ s'.frequencyTime = freqIn c s.frequencyTime ∧ s'.amplitudeTime = relIn c s.amplitudeTime := by
  refine ⟨fun e he => by rw [init_in hc, he]; rfl, fun u hu => ⟨_, by rw [init_in hc, hu]; rfl, ?_⟩⟩
  intro s hs
  unfold UncalculatedSweep.call at hs
  obtain ⟨ax, h1, hs⟩ := except_bind_eq_ok.1 hs
  obtain ⟨fv, h2, hs⟩ := except_bind_eq_ok.1 hs
  obtain ⟨fr, h3, hs⟩ := except_bind_eq_ok.1 hs
  obtain ⟨av, h4, hs⟩ := except_bind_eq_ok.1 hs
  obtain ⟨th, h5, hs⟩ := except_bind_eq_ok.1 hs
  obtain ⟨sw, h6, hs⟩ := except_bind_eq_ok.1 hs
  obtain ⟨ar, h7, hs⟩ := except_bind_eq_ok.1 hs
  have hth : (relIn c th).y = th.y := rfl
  have hcall : UncalculatedSweep.call P ⟨u.time.map (axisIn c), freqDescrIn c u.frequencyTime, ampDescrIn c u.amplitudeTime⟩
      (timeArg (t.map (axisIn c))) tht0 = Sweep.init P (.axis (axisIn c ax)) (some sw) (some (freqIn c fr)) (some (relIn c ar)) none := by
    have h3' : Rel.make (axisIn c ax) (fv.map (c⁻¹ * ·)) = .ok (freqIn c fr) := by rw [make_values hc, h3]; rfl
    have h7' : Rel.make (axisIn c ax) av = .ok (relIn c ar) := by rw [make_in hc, h7]; rfl
    unfold UncalculatedSweep.call
    simp only [calcTime_in, h1, Except.map, except_bind_ok, freq_values_in hc, h2, h3', amp_values_in hc, h4, tht_in hc P hq, h5, hth, h6,
      h7']
  obtain ⟨k1, hrf, hra⟩ : Rel.make ax sw = .ok s.rel ∧ s.frequencyTime = fr ∧ s.amplitudeTime = ar := by
    obtain ⟨r, k1, hs⟩ := except_bind_eq_ok.1 hs
    obtain ⟨f1, k2, hs⟩ := except_bind_eq_ok.1 hs
    obtain ⟨a1, k3, hs⟩ := except_bind_eq_ok.1 hs
    obtain ⟨_, _, hs⟩ := except_bind_eq_ok.1 hs
    obtain ⟨_, _, hs⟩ := except_bind_eq_ok.1 hs
    cases k2
    cases k3
    cases hs
    exact ⟨k1, rfl, rfl⟩
  obtain ⟨hsz, hrel⟩ := (make_ok_iff _ _ _).1 k1
  constructor
  · intro hw
    have hw' : SpectrogramWorks P ⟨axisIn c ax, sw⟩ := by rw [hrel] at hw; exact hw
    obtain ⟨g, hg⟩ := sweepInit_given P (axisIn c ax) sw (freqIn c fr) (relIn c ar) none (by rw [size_in hc, hsz]) hw'
    exact ⟨_, by rw [hcall, hg]⟩
  · intro s' hs'
    rw [hcall] at hs'
    obtain ⟨r', k1', hs'⟩ := except_bind_eq_ok.1 hs'
    obtain ⟨f1', k2', hs'⟩ := except_bind_eq_ok.1 hs'
    obtain ⟨a1', k3', hs'⟩ := except_bind_eq_ok.1 hs'
    obtain ⟨_, _, hs'⟩ := except_bind_eq_ok.1 hs'
    obtain ⟨_, _, hs'⟩ := except_bind_eq_ok.1 hs'
    have k4' : Rel.make (axisIn c ax) sw = .ok r' := k1'
    rw [make_in hc, k1] at k4'
    cases k4'
    cases k2'
    cases k3'
    cases hs'
    exact ⟨rfl, by rw [hrf], by rw [hra]⟩

end

/-- **C107** The exact integral follows the change of variable. -/
theorem C107_quadrature {c : ℝ} (hc : 0 < c) : Spec.QuadFollows c fun f a b => ∫ x in a..b, f x := by
  intro f a b
  show (∫ x in (c * a)..(c * b), c⁻¹ * f (c⁻¹ * x)) = _
  rw [intervalIntegral.integral_const_mul, intervalIntegral.integral_comp_mul_left f (inv_ne_zero hc.ne')]
  simp [hc.ne']

/-- the quadrature of the computed examples follows every unit, so the hypothesis is met there as well -/
example {c : ℚ} (hc : 0 < c) : Spec.QuadFollows c toyPrims.quad := by
  intro f a b
  show c⁻¹ * f (c⁻¹ * (c * a)) * (c * b - c * a) = f a * (b - a)
  rw [inv_mul_cancel_left₀ hc.ne']
  field_simp

/-- 10, 20, 30 Hz over 2 s and the same frequencies per millisecond over 2000 ms: the samples of the first example of `C50` -/
example :
    ((UncalculatedSweep.init (.axis ⟨0, 2, 1⟩) (.array [10, 20, 30]) (.array [1, 3])).bind fun u =>
      (u.call toyPrims .none 0).map fun s => (s.rel, s.frequencyTime, s.amplitudeTime)) =
      .ok (⟨⟨0, 2, 1⟩, [0, 30, 120]⟩, ⟨⟨0, 2, 1⟩, [10, 20, 30]⟩, ⟨⟨0, 2, 1⟩, [1, 2, 3]⟩) ∧
    ((UncalculatedSweep.init (.axis ⟨0, 2000, 1000⟩) (.array [1/100, 1/50, 3/100]) (.array [1, 3])).bind fun u =>
      (u.call toyPrims .none 0).map fun s => (s.rel, s.frequencyTime, s.amplitudeTime)) =
      .ok (⟨⟨0, 2000, 1000⟩, [0, 30, 120]⟩, ⟨⟨0, 2000, 1000⟩, [1/100, 1/50, 3/100]⟩, ⟨⟨0, 2000, 1000⟩, [1, 2, 3]⟩) := by
  refine ⟨?_, ?_⟩ <;> decide +kernel

/-- without a description of the frequency the sweep is another one in another unit: `f(t) = t` means 2 Hz after two seconds but 2000 per
millisecond after 2000 ms -/
example :
    ((UncalculatedSweep.init (.axis ⟨0, 2, 1⟩) .absent .absent).bind fun u =>
      (u.call toyPrims .none 0).map fun s => s.frequencyTime.y) = .ok [0, 1, 2] ∧
    ((UncalculatedSweep.init (.axis ⟨0, 2000, 1000⟩) .absent .absent).bind fun u =>
      (u.call toyPrims .none 0).map fun s => s.frequencyTime.y) = .ok [0, 1000, 2000] := by
  refine ⟨?_, ?_⟩ <;> decide +kernel

end SweepDesign
