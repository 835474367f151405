import Verif.Props.Scaling
import Verif.Props.AprDescription
import Verif.Props.Aprior

/-!
# C110 How loud an a-priori sweep is

The a-priori data multiplied by a number.
-/

set_option linter.unusedSectionVars false

namespace SweepDesign

open Spec

/-- what a conversion method returned, for data `k` times as loud: times multiplied by `m`, amplitudes by `e` -/
def Spec.described (m e : ℝ) (p : List ℝ × List ℝ × List ℝ) : List ℝ × List ℝ × List ℝ := (p.1.map (m * ·), p.2.1, p.2.2.map (e * ·))

/-- a-priori data `k` times as loud -/
noncomputable def Spec.dataTimes (k : ℝ) : AprData → AprData
  | .spectrum s => .spectrum (times (k : ℂ) s)
  | .signal s => .signal (times k s)
  | .relation r => .relation (times (k : ℂ) r)
  | .array l => .array (l.map (k * ·))
  | .none => .none

/-! ## Machinery -/

theorem npDiv_times {K : Type} [Field K] [LinearOrder K] (m : K) (a b : List K) : npDiv (a.map (m * ·)) b = (npDiv a b).map (List.map (m * ·)) := by
  unfold npDiv
  split
  · rfl
  · show Except.ok _ = Except.ok _
    rw [List.zipWith_map_left, List.map_zipWith]
    congr 2
    funext u v
    rw [mul_div_assoc]

theorem cumsum_times {K : Type} [Field K] (m : K) (l : List K) : cumsum (l.map (m * ·)) = (cumsum l).map (m * ·) := by
  unfold cumsum
  have := cumsumFrom_times m 0 l
  rwa [mul_zero] at this

theorem freqToTime_times {K : Type} [Field K] [LinearOrder K] (m : K) (f n : List K) : freqToTime f (n.map (m * ·)) = (freqToTime f n).map (List.map (m * ·)) := by
  unfold freqToTime
  have e : List.zipWith (· + ·) (n.map (m * ·)).tail (n.map (m * ·)) = (List.zipWith (· + ·) n.tail n).map (m * ·) := by
    rw [← List.map_tail, List.zipWith_map, List.map_zipWith]
    congr 1
    funext u v
    rw [mul_add]
  rw [e, npDiv_times, except_map_bind, except_bind_map]
  refine except_bind_congr fun d _ => ?_
  show Except.ok _ = Except.ok _
  rw [cumsum_times]
  simp

theorem energy_times (k : ℝ) (y : List ℝ) : (y.map (k * ·)).map (fun v => v ^ 2) = (y.map fun v => v ^ 2).map (k ^ 2 * ·) := by
  rw [List.map_map, List.map_map]
  exact List.map_congr_left fun v _ => mul_pow k v 2

theorem norm_sq (k : ℝ) : ‖(k : ℂ)‖ ^ 2 = k ^ 2 := by rw [Complex.norm_real, Real.norm_eq_abs, sq_abs]

theorem simple_times (k : ℝ) (s : Rel ℝ ℂ) : simpleFreq2time (times (k : ℂ) s) = (simpleFreq2time s).map (described (k ^ 2) (k ^ 2)) := by
  unfold simpleFreq2time
  rw [getAmp_times, except_map_bind, except_bind_map]
  refine except_bind_congr fun amp _ => ?_
  show (amp.x.array >>= _) = _
  rw [except_bind_map]
  refine except_bind_congr fun f _ => ?_
  show (freqToTime f ((amp.y.map (‖(k : ℂ)‖ * ·)).map fun v => v ^ 2) >>= _) = _
  rw [energy_times, norm_sq, freqToTime_times, getNorm_times, ← pow_two, norm_sq, except_map_bind, except_bind_map]
  refine except_bind_congr fun t _ => ?_
  rw [except_map_bind, except_bind_map]
  refine except_bind_congr fun c _ => ?_
  show Except.ok _ = Except.ok _
  simp [described]

theorem getData_times (k : ℝ) (r : Rel ℝ ℝ) : (times k r).getData = r.getData.map fun p => (p.1, p.2.map (k * ·)) := by
  unfold Rel.getData
  show (r.x.size >>= _) = _
  rw [except_bind_map]
  refine except_bind_congr fun n _ => ?_
  show (if n ≠ (r.y.map (k * ·)).length then _ else _) = _
  rw [List.length_map]
  split
  · simp [Except.map, times]
  · show (r.x.array >>= _) = _
    rw [except_bind_map]
    rfl

theorem mathSqrt_times {e : ℝ} (v : ℝ) (he : 0 < e) : mathSqrt (e ^ 2 * v) = (mathSqrt v).map (e * ·) := by
  unfold mathSqrt
  have : e ^ 2 * v < 0 ↔ v < 0 := ⟨fun h => by by_contra h'; push Not at h'; nlinarith [mul_nonneg (sq_nonneg e) h'],
    fun h => mul_neg_of_pos_of_neg (pow_pos he 2) h⟩
  simp only [this]
  split
  · rfl
  · show Except.ok _ = Except.ok _
    rw [Real.sqrt_mul (sq_nonneg e), Real.sqrt_sq he.le]

theorem proportional_times {k : ℝ} (hk : k ≠ 0) (s : Rel ℝ ℂ) :
    proportionalFreq2time (times (k : ℂ) s) = (proportionalFreq2time s).map (described (k ^ 2) |k|) := by
  unfold proportionalFreq2time
  rw [getAmp_times, except_map_bind, except_bind_map]
  refine except_bind_congr fun amp _ => ?_
  rw [getData_times, except_map_bind, except_bind_map]
  refine except_bind_congr fun p _ => ?_
  show (freqToTime p.1 ((p.2.map (‖(k : ℂ)‖ * ·)).map fun v => v ^ 2) >>= _) = _
  rw [energy_times, norm_sq, freqToTime_times, except_map_bind, except_bind_map]
  refine except_bind_congr fun t _ => ?_
  rw [trapz_times, mul_assoc, ← sq_abs k, mathSqrt_times _ (abs_pos.2 hk), except_map_bind, except_bind_map]
  refine except_bind_congr fun c _ => ?_
  show Except.ok _ = Except.ok _
  simp [described]

theorem maskBy_times {K : Type} [Field K] [LinearOrder K] (p : K → Bool) (f a : List K) (k : K) : maskBy p f (a.map (k * ·)) = (maskBy p f a).map (k * ·) := by
  unfold maskBy
  rw [List.zip_map_right, List.filter_map, List.map_map, List.map_map]
  rfl

theorem dwellArrays_times (k : ℝ) (fc : Option ℝ) (f a : List ℝ) :
    dwellArrays fc f (a.map (k * ·)) = (dwellArrays fc f a).map (described (k ^ 2) 1) := by
  unfold dwellArrays
  rw [except_bind_map]
  refine except_bind_congr fun c _ => ?_
  simp only []
  rw [except_bind_map]
  refine except_bind_congr fun inv _ => ?_
  rw [maskBy_times, maskBy_times]
  have e1 : ((maskBy (fun v => decide (v ≤ c)) f a).map (k * ·)).dropLast.map (fun v => v ^ 2) =
      ((maskBy (fun v => decide (v ≤ c)) f a).dropLast.map fun v => v ^ 2).map (k ^ 2 * ·) := by
    rw [← List.map_dropLast, energy_times]
  have e2 : ∀ (d E : List ℝ), (0 : ℝ) :: List.zipWith (· * ·) d (E.map (k ^ 2 * ·)) = ((0 : ℝ) :: List.zipWith (· * ·) d E).map (k ^ 2 * ·) := by
    intro d E
    rw [List.map_cons, mul_zero, List.zipWith_map_right, List.map_zipWith]
    congr 2
    funext u v
    ring
  rw [e1, e2, cumsum_times, List.getLast?_map]
  rcases (cumprod inv).getLast? with _ | d
  · rfl
  rcases (cumsum (0 :: List.zipWith (· * ·) (cumprod inv) ((maskBy (fun v => decide (v ≤ c)) f a).dropLast.map fun v => v ^ 2))).getLast? with _ | l
  · rfl
  show Except.ok _ = Except.ok _
  have e3 : ∀ M : List ℝ, (k ^ 2 * l) :: (M.map (k * ·)).map (fun v => d * v ^ 2) = (l :: M.map fun v => d * v ^ 2).map (k ^ 2 * ·) := by
    intro M
    rw [List.map_cons, List.map_map, List.map_map]
    congr 1
    exact List.map_congr_left fun v _ => by simp only [Function.comp]; ring
  rw [e3, cumsum_times]
  simp [described, List.map_tail]

theorem dwell_times (k : ℝ) (fs fe fc : Option ℝ) (s : Rel ℝ ℂ) :
    dwell fs fe fc (times (k : ℂ) s) = (dwell fs fe fc s).map (described (k ^ 2) 1) := by
  unfold dwell
  rw [selectData_times, except_map_bind, except_bind_map]
  refine except_bind_congr fun sel _ => ?_
  rw [getAmp_times, except_map_bind, except_bind_map]
  refine except_bind_congr fun amp _ => ?_
  rw [getData_times, except_map_bind, except_bind_map]
  refine except_bind_congr fun p _ => ?_
  rw [← norm_sq]
  exact dwellArrays_times _ fc p.1 p.2

theorem stretch_times {m : ℝ} (hm : m ≠ 0) (t y : List ℝ) (h0 : t.head? = some 0) (x : Axis ℝ) :
    InterpArr.stretch ⟨t.map (m * ·), y⟩ x = InterpArr.stretch ⟨t, y⟩ x := by
  unfold InterpArr.stretch
  simp only [List.head?_map, List.getLast?_map, h0, Option.map_some]
  rcases t.getLast? with _ | xl
  · rfl
  simp only [Option.map_some, mul_eq_zero, hm, false_or]
  split
  · rfl
  · congr 1
    rw [List.map_map]
    refine List.map_congr_left fun v _ => ?_
    simp only [Function.comp, mul_zero]
    field_simp

theorem call_same {m : ℝ} (hm : m ≠ 0) (t y : List ℝ) (h0 : t.head? = some 0) (x : Axis ℝ) :
    InterpArr.call ⟨t.map (m * ·), y⟩ x = InterpArr.call ⟨t, y⟩ x := by
  unfold InterpArr.call
  rw [stretch_times hm t y h0]

theorem init_times (k : ℝ) (x : XArg ℝ ℝ) (hx : ∀ r, x ≠ .rel r) (l : List ℝ) :
    Rel.init x (some (l.map (k * ·))) = (Rel.init x (some l)).map (times k) := by
  cases x with
  | rel r => exact absurd rfl (hx r)
  | axis a => exact make_times k a l
  | array x b =>
    show (axisFromArray x b true >>= _) = Except.map _ (axisFromArray x b true >>= _)
    rw [except_bind_map]
    exact except_bind_congr fun a _ => make_times k a l

theorem aprInfo_times (k e m : ℝ) {method : Rel ℝ ℂ → Except Err (List ℝ × List ℝ × List ℝ)}
    (hm : ∀ s, method (times (k : ℂ) s) = (method s).map (described m e)) (t0 : TimeArg ℝ) (data : AprData) :
    aprInfo t0 (dataTimes k data) method =
      (aprInfo t0 data method).map fun q => (⟨q.1.x.map (m * ·), q.1.y⟩, ⟨q.2.1.x.map (m * ·), q.2.1.y.map (e * ·)⟩, times k q.2.2) := by
  have fin : ∀ (sig : Rel ℝ ℝ) (spec : Rel ℝ ℂ),
      (method (times (k : ℂ) spec) >>= fun p => (pure (⟨p.1, p.2.1⟩, ⟨p.1, p.2.2⟩, times k sig) : Except Err (InterpArr ℝ × InterpArr ℝ × Rel ℝ ℝ))) =
      (method spec >>= fun p => (pure (⟨p.1, p.2.1⟩, ⟨p.1, p.2.2⟩, sig) : Except Err (InterpArr ℝ × InterpArr ℝ × Rel ℝ ℝ))).map fun q =>
        (⟨q.1.x.map (m * ·), q.1.y⟩, ⟨q.2.1.x.map (m * ·), q.2.1.y.map (e * ·)⟩, times k q.2.2) := by
    intro sig spec
    rw [hm, except_map_bind, except_bind_map]
    rfl
  unfold aprInfo
  cases data with
  | none => rfl
  | spectrum s =>
    show (((times (k : ℂ) s).getSignal >>= fun sig => pure (sig, times (k : ℂ) s)) >>= _) = Except.map _ ((s.getSignal >>= fun sig => pure (sig, s)) >>= _)
    rw [getSignal_times]
    rcases s.getSignal with err | sig
    · rfl
    · exact fin sig s
  | relation s =>
    show (((times (k : ℂ) s).getSignal >>= fun sig => pure (sig, times (k : ℂ) s)) >>= _) = Except.map _ ((s.getSignal >>= fun sig => pure (sig, s)) >>= _)
    rw [getSignal_times]
    rcases s.getSignal with err | sig
    · rfl
    · exact fin sig s
  | signal s =>
    show (((times k s).getSpectrum >>= fun sp => pure (times k s, sp)) >>= _) = Except.map _ ((s.getSpectrum >>= fun sp => pure (s, sp)) >>= _)
    rw [getSpectrum_times]
    rcases s.getSpectrum with err | sp
    · rfl
    · exact fin s sp
  | array l =>
    have arr : ∀ x : XArg ℝ ℝ, (∀ r, x ≠ .rel r) →
        (((Rel.init x (some (l.map (k * ·))) >>= fun sig => sig.getSpectrum >>= fun sp => (pure (sig, sp) : Except Err (Rel ℝ ℝ × Rel ℝ ℂ))) >>= fun w =>
          method w.2 >>= fun p => (pure (⟨p.1, p.2.1⟩, ⟨p.1, p.2.2⟩, w.1) : Except Err (InterpArr ℝ × InterpArr ℝ × Rel ℝ ℝ)))) =
        ((Rel.init x (some l) >>= fun sig => sig.getSpectrum >>= fun sp => (pure (sig, sp) : Except Err (Rel ℝ ℝ × Rel ℝ ℂ))) >>= fun w =>
          method w.2 >>= fun p => (pure (⟨p.1, p.2.1⟩, ⟨p.1, p.2.2⟩, w.1) : Except Err (InterpArr ℝ × InterpArr ℝ × Rel ℝ ℝ))).map fun q =>
            (⟨q.1.x.map (m * ·), q.1.y⟩, ⟨q.2.1.x.map (m * ·), q.2.1.y.map (e * ·)⟩, times k q.2.2) := by
      intro x hx
      rw [init_times k x hx]
      rcases Rel.init x (some l) with err | sig
      · rfl
      simp only [Except.map, except_bind_ok]
      rw [getSpectrum_times]
      rcases sig.getSpectrum with err | sp
      · rfl
      · exact fin sig sp
    cases t0 with
    | none => rfl
    | axis a => exact arr (.axis a) (fun r => by simp)
    | array x b => exact arr (.array x b) (fun r => by simp)

theorem call_balanced {P : SweepPrims ℝ} {u : UncalculatedSweep ℝ} {t : TimeArg ℝ} {tht0 : ℝ} {sw : Sweep ℝ} (h : u.call P t tht0 = .ok sw) :
    Balanced sw.rel := by
  obtain ⟨t, th, -, -, -, -, c1, c2, -, -, -, c3, c4, -⟩ := call_ok h
  show sw.rel.x.size = _
  rw [c2, c1, c4]; simp [c3]

/-! ## C110 -/

/-- **C110** The three conversion methods, for a spectrum multiplied by `k`: the times are multiplied by `k²`, the frequencies stay. The
amplitudes are multiplied by `k²` by the default method (they are an energy), by `|k|` by `proportional_freq2time`, and stay with `dwell`. -/
theorem C110_methods (k : ℝ) (s : Rel ℝ ℂ) :
    simpleFreq2time (times (k : ℂ) s) = (simpleFreq2time s).map (described (k ^ 2) (k ^ 2)) ∧
    (k ≠ 0 → proportionalFreq2time (times (k : ℂ) s) = (proportionalFreq2time s).map (described (k ^ 2) |k|)) ∧
    ∀ fs fe fc, dwell fs fe fc (times (k : ℂ) s) = (dwell fs fe fc s).map (described (k ^ 2) 1) :=
  ⟨simple_times k s, fun hk => proportional_times hk s, fun fs fe fc => dwell_times k fs fe fc s⟩

/-- a conversion method whose times start at 0, and are multiplied by `k²` and its amplitudes by `e` for data multiplied by `k` -/
def Spec.Follows (k e : ℝ) (method : Rel ℝ ℂ → Except Err (List ℝ × List ℝ × List ℝ)) : Prop :=
  (∀ s, method (times (k : ℂ) s) = (method s).map (described (k ^ 2) e)) ∧ ∀ s p, method s = .ok p → p.1.head? = some 0

/-- **C110** The three conversion methods are such methods. -/
theorem C110_follows {k : ℝ} (hk : k ≠ 0) :
    Follows k (k ^ 2) simpleFreq2time ∧ Follows k |k| proportionalFreq2time ∧ ∀ fs fe fc, Follows k 1 (dwell fs fe fc) := by
  have ft : ∀ {f n t : List ℝ}, freqToTime f n = .ok t → t.head? = some 0 := by
    intro f n t h
    obtain ⟨d, -, h⟩ := except_bind_eq_ok.1 h
    cases h
    rfl
  refine ⟨⟨simple_times k, fun s p h => ?_⟩, ⟨proportional_times hk, fun s p h => ?_⟩, fun fs fe fc => ⟨dwell_times k fs fe fc, fun s p h => ?_⟩⟩
  · obtain ⟨amp, -, h⟩ := except_bind_eq_ok.1 h
    obtain ⟨f, -, h⟩ := except_bind_eq_ok.1 h
    obtain ⟨t, ht, h⟩ := except_bind_eq_ok.1 h
    obtain ⟨c, -, h⟩ := except_bind_eq_ok.1 h
    cases h
    exact ft ht
  · obtain ⟨amp, -, h⟩ := except_bind_eq_ok.1 h
    obtain ⟨f, -, h⟩ := except_bind_eq_ok.1 h
    obtain ⟨t, ht, h⟩ := except_bind_eq_ok.1 h
    obtain ⟨c, -, h⟩ := except_bind_eq_ok.1 h
    cases h
    exact ft ht
  · obtain ⟨sel, -, h⟩ := except_bind_eq_ok.1 h
    obtain ⟨amp, -, h⟩ := except_bind_eq_ok.1 h
    obtain ⟨q, -, h⟩ := except_bind_eq_ok.1 h
    obtain ⟨c, -, h⟩ := except_bind_eq_ok.1 h
    simp only [] at h
    obtain ⟨inv, -, h⟩ := except_bind_eq_ok.1 h
    split at h
    · cases h
      simp [cumsum, cumsumFrom]
    · cases h

/-- **C110** Sweeps of data multiplied by `k ≠ 0`. The generator exists exactly when the old one does, and its a-priori signal is `k` times
the old one. Without normalisation the samples and `amplitude_time` are multiplied by the factor `e` of the conversion method and
`frequency_time` stays. With normalisation the samples are multiplied by `|k|`, whatever the method. The new generator makes a sweep when
the old one does, if the step is positive and the configured methods work on relations with a positive step. -/
theorem C110_sweep (P : SweepPrims ℝ) {k e : ℝ} (hk : k ≠ 0) (he : 0 < e) {method : Rel ℝ ℂ → Except Err (List ℝ × List ℝ × List ℝ)}
    (hm : Follows k e method) (t0 t : TimeArg ℝ) (data : AprData) (tht0 : ℝ) :
    (∀ err, AprSweep.init t0 data method = .error err → AprSweep.init t0 (dataTimes k data) method = .error err) ∧
    ∀ u, AprSweep.init t0 data method = .ok u →
      ∃ u', AprSweep.init t0 (dataTimes k data) method = .ok u' ∧ u'.aPrior = times k u.aPrior ∧
        (∀ s, u.call P t tht0 false = .ok s →
          (PrimsWork P → 0 < s.rel.x.sample → ∃ s', u'.call P t tht0 false = .ok s') ∧
          ∀ s', u'.call P t tht0 false = .ok s' →
            s'.rel = times e s.rel ∧ s'.frequencyTime = s.frequencyTime ∧ s'.amplitudeTime = times e s.amplitudeTime) ∧
        (∀ s, u.call P t tht0 true = .ok s →
          (PrimsWork P → 0 < s.rel.x.sample → ∃ s', u'.call P t tht0 true = .ok s') ∧
          ∀ s', u'.call P t tht0 true = .ok s' → s'.rel = times |k| s.rel) := by
  obtain ⟨hm1, hm2⟩ := hm
  have hk2 : k ^ 2 ≠ 0 := pow_ne_zero 2 hk
  have info := aprInfo_times k e (k ^ 2) hm1 t0 data
  unfold AprSweep.init
  rw [info]
  refine ⟨fun err h => ?_, fun u hu => ?_⟩
  · rcases hq : aprInfo t0 data method with err' | q
    · rw [hq] at h; exact h
    · rw [hq] at h
      simp only [except_bind_ok] at h
      show (UncalculatedSweep.init t0 _ _ >>= _) = _
      unfold UncalculatedSweep.init at h ⊢
      rcases ht : t0.toAxis with err' | ax
      · rw [ht] at h; exact h
      · rw [ht] at h; cases h
  obtain ⟨q, hq, hu⟩ := except_bind_eq_ok.1 hu
  obtain ⟨b, hb, hu⟩ := except_bind_eq_ok.1 hu
  cases hu
  obtain ⟨spec, tt, ff, aa, -, hmet, e1, e2⟩ := aprInfo_ok hq
  have h0 : tt.head? = some 0 := hm2 _ _ hmet
  obtain ⟨q1, q2, sig⟩ := q
  simp only at e1 e2
  subst e1 e2
  unfold UncalculatedSweep.init at hb
  obtain ⟨ax, hax, hb⟩ := except_bind_eq_ok.1 hb
  cases hb
  refine ⟨⟨⟨ax, .interp ⟨tt.map (k ^ 2 * ·), ff⟩, .interp ⟨tt.map (k ^ 2 * ·), aa.map (e * ·)⟩⟩, times k sig⟩, ?_, rfl, ?_, ?_⟩
  · rw [hq]
    show (UncalculatedSweep.init t0 _ _ >>= _) = _
    unfold UncalculatedSweep.init
    rw [hax]
    rfl
  all_goals
    have base := call_louder P e ⟨ax, .interp ⟨tt, ff⟩, .interp ⟨tt, aa⟩⟩
      ⟨ax, .interp ⟨tt.map (k ^ 2 * ·), ff⟩, .interp ⟨tt.map (k ^ 2 * ·), aa.map (e * ·)⟩⟩ rfl
      (fun x => call_same hk2 tt ff h0 x) (fun _ _ => rfl)
      (fun x => by
        show InterpArr.call _ x = (InterpArr.call _ x).map _
        rw [call_same hk2 tt _ h0]
        exact values_times e (.interp ⟨tt, aa⟩) x) t tht0
  · intro s hs
    simp only [AprSweep.call, except_bind_eq_ok] at hs
    obtain ⟨sw, h1, hs⟩ := hs
    cases hs
    refine ⟨fun hP hpos => ?_, fun s' hs' => ?_⟩
    · obtain ⟨sw', h1'⟩ := (base sw h1).1 (hP (times e sw.rel) (balanced_map _ (call_balanced h1)) hpos).2.2
      exact ⟨_, by simp only [AprSweep.call, h1', except_bind_ok]; rfl⟩
    · simp only [AprSweep.call, except_bind_eq_ok] at hs'
      obtain ⟨sw', h1', hs'⟩ := hs'
      cases hs'
      exact (base sw h1).2 sw' h1'
  · intro s hs
    simp only [AprSweep.call, if_true, except_bind_eq_ok] at hs
    obtain ⟨sw, h1, ns, h2, na, h3, a, h4, b, h5, h6⟩ := hs
    split at h6
    · cases h6
    rename_i hb0
    simp only [except_bind_eq_ok] at h6
    obtain ⟨am, h7, sw1, h8, h9⟩ := h6
    cases h9
    have n1 := sweep_getNorm_rel P sw ns h2
    have r1 := (C55_operation P _ _ _ _ h8).1
    have ea : mathSqrt (k * k * na) = .ok (|k| * a) := by
      rw [← pow_two, ← sq_abs k, mathSqrt_times _ (abs_pos.2 hk), h4]; rfl
    have eb : mathSqrt (e * e * ns) = .ok (e * b) := by
      rw [← pow_two, mathSqrt_times _ he, h5]; rfl
    have ec : |k| * a / (e * b) = (|k| / e) * (a / b) := by field_simp
    have eop : (times e sw.rel).operation (.other (.num (|k| * a / (e * b)))) .mul = .ok (times |k| sw1.rel) := by
      have := operation_other_times (fn_mul e (|k| / e) .mul (.inl rfl)) sw.rel (.num (a / b))
      rw [show (NpOperand.num (a / b)).times (|k| / e) = .num (|k| / e * (a / b)) from rfl, r1, mul_div_cancel₀ _ he.ne'] at this
      rw [ec, this]
      rfl
    have hna : (times k sig).getNorm = .ok (k * k * na) := by rw [getNorm_times, h3]; rfl
    refine ⟨fun hP hpos => ?_, fun s' hs' => ?_⟩
    · have hbal := call_balanced h1
      have e1 : sw1.rel = ⟨sw.rel.x, sw.rel.y.map fun v => v * (a / b)⟩ := by
        rw [operation_num _ _ _ hbal, show (sw.rel.y.map fun v => MathOp.mul.fn v (a / b)) = (sw.rel.y.map fun v => v * (a / b)).map some by
          rw [List.map_map]; rfl, finite_map_some] at r1
        exact (Except.ok.inj r1).symm
      have hx : sw1.rel.x = sw.rel.x := by rw [e1]
      have hpos' : 0 < sw.rel.x.sample := by rw [← hx]; exact hpos
      obtain ⟨sw', h1'⟩ := (base sw h1).1 (hP (times e sw.rel) (balanced_map _ hbal) hpos').2.2
      obtain ⟨b1, -, b3⟩ := (base sw h1).2 sw' h1'
      have n2 : sw'.getNorm P = .ok (e * e * ns) := by
        rw [sweep_getNorm_works P hP sw' (by rw [b1]; exact balanced_map _ hbal) (by rw [b1]; exact hpos'), b1, getNorm_times, n1]; rfl
      have am' : sw'.amplitudeTime.mul (.other (.num (|k| * a / (e * b)))) = .ok (times |k| am) := by
        have := operation_other_times (fn_mul e (|k| / e) .mul (.inl rfl)) sw.amplitudeTime (.num (a / b))
        unfold Rel.mul at h7 ⊢
        rw [show (NpOperand.num (a / b)).times (|k| / e) = .num (|k| / e * (a / b)) from rfl, h7, mul_div_cancel₀ _ he.ne'] at this
        rw [b3, ec, this]
        rfl
      have hbal1 : Balanced sw1.rel := by rw [e1]; exact balanced_map _ hbal
      obtain ⟨sw1', w1, -⟩ := sweep_operation_works P hP sw' _ _ _ (by rw [b1]; exact eop) (balanced_map _ hbal1) hpos
      refine ⟨{ sw1' with aPriorSignal := some (times k sig) }, ?_⟩
      simp only [AprSweep.call, if_true, h1', except_bind_ok, n2, hna, ea, eb, if_neg (mul_ne_zero he.ne' hb0), am', w1, except_pure]
    · simp only [AprSweep.call, if_true, except_bind_eq_ok] at hs'
      obtain ⟨sw', h1', ns', h2', na', h3', a', h4', b', h5', h6'⟩ := hs'
      obtain ⟨b1, -, -⟩ := (base sw h1).2 sw' h1'
      have n1' := sweep_getNorm_rel P sw' ns' h2'
      rw [b1, getNorm_times, n1] at n1'
      cases n1'
      rw [hna] at h3'
      cases h3'
      rw [eb] at h5'
      rw [ea] at h4'
      cases h5'
      cases h4'
      split at h6'
      · cases h6'
      simp only [except_bind_eq_ok] at h6'
      obtain ⟨_, -, sw1', h8', h9'⟩ := h6'
      cases h9'
      have r1' := (C55_operation P _ _ _ _ h8').1
      rw [b1, eop] at r1'
      exact (Except.ok.inj r1').symm

/-- the spectrum 1, 1, 1 on the frequencies 1, 2, 3 and the spectrum 2, 2, 2 with the law of `dwell`: the same samples 0, -4, 0 without
normalisation, and twice the samples with it -/
example : ∃ u u' s s' n n',
    AprSweep.init (.axis ⟨0, 1, 1 / 2⟩) (.spectrum ⟨⟨1, 3, 1⟩, [1, 1, 1]⟩) (dwell none none (some 2)) = .ok u ∧
    AprSweep.init (.axis ⟨0, 1, 1 / 2⟩) (.spectrum ⟨⟨1, 3, 1⟩, [2, 2, 2]⟩) (dwell none none (some 2)) = .ok u' ∧
    u.call realPrims .none 0 false = .ok s ∧ u'.call realPrims .none 0 false = .ok s' ∧ s.rel.y = [0, -4, 0] ∧ s'.rel.y = [0, -4, 0] ∧
    u.call realPrims .none 0 true = .ok n ∧ u'.call realPrims .none 0 true = .ok n' ∧ n'.rel = times 2 n.rel := by
  obtain ⟨u, sw, h1, h2, h3, h4, h5, h6, h7⟩ := dwell_call
  have hs : u.call realPrims .none 0 false = .ok { sw with aPriorSignal := some u.aPrior } := by
    simp only [AprSweep.call, h2, except_bind_ok, Bool.false_eq_true, if_false, except_pure]
  obtain ⟨n, c, hn, -, n1, -⟩ := C54_succeeds realPrims realPrims_work u .none 0 sw h2 (by rw [h3]; norm_num) (by rw [h3]; norm_num)
    (by rw [h4]; simp) ⟨-4, by rw [h4]; simp, by norm_num⟩ h5 h6 h7
  obtain ⟨u', k1, -, k2, k3⟩ := (C110_sweep realPrims (k := 2) two_ne_zero one_pos ((C110_follows two_ne_zero).2.2 none none (some 2))
    (.axis ⟨0, 1, 1 / 2⟩) .none (.spectrum ⟨⟨1, 3, 1⟩, [1, 1, 1]⟩) 0).2 u h1
  obtain ⟨s', hs'⟩ := (k2 _ hs).1 realPrims_work (by show 0 < sw.rel.x.sample; rw [h3]; norm_num)
  obtain ⟨n', hn'⟩ := (k3 _ hn).1 realPrims_work (by rw [n1, h3]; norm_num)
  refine ⟨u, u', _, s', n, n', h1, ?_, hs, hs', h4, ?_, hn, hn', ?_⟩
  · rw [← k1]
    simp [dataTimes, times]
  · rw [((k2 _ hs).2 s' hs').1]
    show sw.rel.y.map (1 * ·) = _
    rw [h4]
    simp
  · have := (k3 _ hn).2 n' hn'
    rwa [abs_two] at this

end SweepDesign
