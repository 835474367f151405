import Verif.Heap.Refine
import Verif.Heap.Only
import Verif.Lemmas.ToComplex

/-!
# Heap layer: the transforms of signal and spectrum objects compute the value-layer functions

The heap layer has one type of y values. Here it is ℂ; a signal is an object whose values are real.
-/

set_option linter.unusedSectionVars false

namespace SweepDesign.Mem

open HM Spec

noncomputable section

/-- The number operations of the spectral value layer. What the transforms do not need (envelope, instantaneous frequency,
spectrogram) is taken from `T`. `rfft` and `max` are applied to real arrays only. -/
def fourier (T : Transcendental ℝ ℂ) : Transcendental ℝ ℂ := { T with
  exp := Complex.exp
  max := fun y => (npMax (y.map Complex.re)).map fun v : ℝ => (v : ℂ)
  min := fun y => (npMin (y.map Complex.re)).map fun v : ℝ => (v : ℂ)
  abs := fun z => ((‖z‖ : ℝ) : ℂ)
  phase := fun y => castC (unwrap (y.map npAngle))
  imag := Complex.I
  shiftFactor := fun f d => Complex.exp (-Complex.I * f * 2 * Real.pi * d)
  rfft := fun y n => SweepDesign.rfft (y.map Complex.re) n
  rfftfreq := fun n d => .ok (SweepDesign.rfftfreq n d)
  irfft := fun y n => (SweepDesign.irfft y n).map castC }

variable {T : Transcendental ℝ ℂ} {h : Heap ℝ ℂ}

local notation "Pf" => exactPrims (fourier T)
local notation "Df" => defaultMethods (exactPrims (fourier T))

section
variable {α β γ : Type} {P : Prims ℝ ℂ}

theorem Sim.of_map {m : HM ℝ ℂ α} {x : Except Err β} {f : β → γ} {R : Heap ℝ ℂ → α → γ → Prop}
    (hs : Sim P h m (x.map f) R) : Sim P h m x (fun h' a b => R h' a (f b)) := by
  refine ⟨hs.le, hs.coh, ?_⟩
  have := hs.agree
  revert this
  rcases (m h).1 with e | a <;> rcases x with e' | b <;> exact id

theorem Sim.to_map {m : HM ℝ ℂ α} {x : Except Err β} {f : β → γ} {R : Heap ℝ ℂ → α → γ → Prop}
    (hs : Sim P h m x (fun h' a b => R h' a (f b))) : Sim P h m (x.map f) R := by
  refine ⟨hs.le, hs.coh, ?_⟩
  have := hs.agree
  revert this
  rcases (m h).1 with e | a <;> rcases x with e' | b <;> exact id

theorem Sim.congr {m m' : HM ℝ ℂ α} {x : Except Err β} {R : Heap ℝ ℂ → α → β → Prop} (hs : Sim P h m' x R)
    (he : m h = m' h) : Sim P h m x R := by
  refine ⟨?_, ?_, ?_⟩ <;> rw [he]
  · exact hs.le
  · exact hs.coh
  · exact hs.agree

end

/-- the size argument of a transform and its value -/
def SizeIs (h : Heap ℝ ℂ) : HSize → SizeArg → Prop
  | .none, .none => True
  | .int k, .int k' => k = k'
  | .axis l, .axis a => AxIs h l a
  | _, _ => False

theorem SizeIs.le {h h' : Heap ℝ ℂ} (w : Le ∅ h h') {a : HSize} {b : SizeArg} (hab : SizeIs h a b) : SizeIs h' a b := by
  cases a <;> cases b <;> simp only [SizeIs] at hab ⊢
  · exact hab
  · exact AxIs.le w hab

theorem sim_sizeOf (hc : Coh Pf h) {f : HSize} {f' : SizeArg} (hf : SizeIs h f f') :
    Sim Pf h (sizeOf Pf f) f'.size (fun _ a b => a = b) := by
  cases f <;> cases f' <;> simp only [SizeIs] at hf
  · exact sim_pure hc rfl
  · subst hf; exact sim_pure hc rfl
  · exact (sim_axisSize hc hf).bind fun n n' h1 w1 c1 e => sim_pure c1 (by rw [e])

theorem reorder_castC (t amp : List ℝ) : (Pf).reorder t (castC amp) =
    (do
      let a ← maskSelect (t.map fun v => decide (0 ≤ v)) amp
      let b ← maskSelect (t.map fun v => decide (v < 0)) amp
      pure (a ++ b) : Except Err (List ℝ)).map castC := by
  show (do
      let a ← maskSelect (t.map fun v => decide (0 ≤ v)) (castC amp)
      let b ← maskSelect (t.map fun v => decide (v < 0)) (castC amp)
      pure (a ++ b) : Except Err (List ℂ)) = _
  rw [castC, maskSelect_map, maskSelect_map]
  rcases maskSelect (t.map fun v => decide (0 ≤ v)) amp with e | a
  · rfl
  · rcases maskSelect (t.map fun v => decide (v < 0)) amp with e | b
    · rfl
    · simp [Except.map, castC, pure, Except.pure, bind, Except.bind]

theorem sim_reorder (hc : Coh Pf h) {l : Loc} {a : Axis ℝ} (ha : AxIs h l a) (amp : List ℝ) :
    Sim Pf h (do let t ← axisValues Pf l; lift ((Pf).reorder t (castC amp))) (reorderByTime a amp)
      (fun _ u w => u = castC w) := by
  unfold reorderByTime
  refine (sim_axisValues hc ha).bind fun t t' h1 w1 c1 e => ?_
  subst e
  rw [reorder_castC]
  exact (sim_lift c1 _).of_map

theorem sim_calculateSpectrum (hc : Coh Pf h) {l : Loc} {a : Axis ℝ} (ha : AxIs h l a) (amp : List ℝ) {f : HSize}
    {f' : SizeArg} (hf : SizeIs h f f') :
    Sim Pf h (Mem.calculateSpectrum Pf l (castC amp) f) (SweepDesign.calculateSpectrum a amp f')
      (fun h' p q => AxIs h' p.1 q.1 ∧ h'.yarrs[p.2]? = some q.2) := by
  unfold Mem.calculateSpectrum SweepDesign.calculateSpectrum
  refine (sim_sizeOf hc hf).bind fun n n' h1 w1 c1 e => ?_
  subst e
  have k := (sim_reorder c1 (ha.le w1) amp).bind (f := fun amp => do
      let sp ← lift ((Pf).rfft amp n)
      let fr ← freqAxis Pf l amp.length f
      let ly ← newY sp
      pure (fr, ly)) (g := fun amp => do
      let spectrum ← rfft amp n
      match f' with
      | .axis a => pure (a, spectrum)
      | _ => do
        let fr ← SweepDesign.axisFromArray (rfftfreq amp.length a.sample) true false
        pure (fr, spectrum)) (R' := fun h' p q => AxIs h' p.1 q.1 ∧ h'.yarrs[p.2]? = some q.2) fun u w h2 w2 c2 e => by
    subst e
    have hr : (Pf).rfft (castC w) n = SweepDesign.rfft w n := by
      show SweepDesign.rfft ((castC w).map Complex.re) n = _
      rw [castC_re]
    rw [hr]
    refine (sim_lift c2 _).bind fun sp sp' h3 w3 c3 e => ?_
    subst e
    have hfr : Sim Pf h3 (freqAxis Pf l (castC w).length f)
        (match f' with
          | .axis a => pure a
          | _ => SweepDesign.axisFromArray (rfftfreq w.length a.sample) true false : Except Err (Axis ℝ)) AxIs := by
      have hf3 := hf.le ((w1.trans w2).trans w3)
      obtain ⟨o, ho, eo⟩ := ha.le ((w1.trans w2).trans w3)
      have es : o.sample = a.sample := congrArg Axis.sample eo
      cases f <;> cases f' <;> simp only [SizeIs] at hf3
      · refine Sim.read (getAxis_run ho) ?_
        refine Sim.read (a := rfftfreq w.length a.sample) ?_ (sim_axisFromArray c3 _ _ _)
        rw [es, castC, List.length_map]
        rfl
      · refine Sim.read (getAxis_run ho) ?_
        refine Sim.read (a := rfftfreq w.length a.sample) ?_ (sim_axisFromArray c3 _ _ _)
        rw [es, castC, List.length_map]
        rfl
      · exact sim_pure c3 hf3
    have k := hfr.bind (f := fun fr => do
        let ly ← newY sp
        pure (fr, ly)) (g := fun fr => pure (fr, sp))
      (R' := fun h' p q => AxIs h' p.1 q.1 ∧ h'.yarrs[p.2]? = some q.2) fun fr b h4 w4 c4 hb =>
        Sim.step (sim_newY c4 sp) fun ly h5 w5 c5 hy => sim_pure c5 ⟨hb.le w5, hy⟩
    cases f' <;> exact k
  rw [hm_assoc] at k
  exact k

/-- a copy of an axis with another start -/
theorem sim_newStart (hc : Coh Pf h) {l : Loc} {a : Axis ℝ} (ha : AxIs h l a) (x : ℝ) :
    Sim Pf h (do
      let nt ← axisCopy l
      axisSetStart nt x
      pure nt) (.ok ()) (fun h' p _ => AxIs h' p { a with start := x }) := by
  obtain ⟨o, ho, e⟩ := ha
  refine sim_ok ?_ hc (a := h.axes.length) (h' := { h with axes := h.axes ++ [⟨x, o.stop, o.sample, none, none⟩] }) ?_ ?_
  · exact (safe_axisCopy _).bindA (fresh_axisCopy _) fun nx => (safe_axisSetStart _ (by simp)).bind fun _ => safe_pure _
  · rw [bind_of_ok (axisCopy_run ho), bind_of_ok (setStart_append h o _)]
    rfl
  · exact ⟨⟨x, o.stop, o.sample, none, none⟩, by simp, by simp [← e, fields]⟩

/-- a copy of an axis with another end -/
theorem sim_newStop (hc : Coh Pf h) {l : Loc} {a : Axis ℝ} (ha : AxIs h l a) (x : ℝ) :
    Sim Pf h (do
      let nt ← axisCopy l
      axisSetStop nt x
      pure nt) (.ok ()) (fun h' p _ => AxIs h' p { a with stop := x }) := by
  obtain ⟨o, ho, e⟩ := ha
  refine sim_ok ?_ hc (a := h.axes.length) (h' := { h with axes := h.axes ++ [⟨o.start, x, o.sample, none, none⟩] }) ?_ ?_
  · exact (safe_axisCopy _).bindA (fresh_axisCopy _) fun nx => (safe_axisSetStop _ (by simp)).bind fun _ => safe_pure _
  · rw [bind_of_ok (axisCopy_run ho), bind_of_ok (setStop_append h o _)]
    rfl
  · exact ⟨⟨o.start, x, o.sample, none, none⟩, by simp, by simp [← e, fields]⟩

theorem zeros_castC (n : ℤ) : (Pf).zeros n = (npZeros n).map castC := by
  show (if n < 0 then .error .value else .ok (List.replicate n.toNat 0) : Except Err (List ℂ)) = _
  unfold npZeros
  split
  · rfl
  · simp [Except.map, castC]

/-- the two branches of `signal2spectrum` that extend the time axis -/
theorem sim_extended (hc : Coh Pf h) {l : Loc} {a : Axis ℝ} (ha : AxIs h l a) (amp : List ℝ) {f : HSize}
    {f' : SizeArg} (hf : SizeIs h f f') (before : Bool) :
    Sim Pf h (do
      let n ← axisSize Pf l
      let z ← lift ((Pf).zeros ((n : ℤ) - (castC amp).length))
      Mem.calculateSpectrum Pf l (if before then z ++ castC amp else castC amp ++ z) f)
      (do
        let n : ℕ ← a.size
        let z ← npZeros ((n : ℤ) - amp.length)
        SweepDesign.calculateSpectrum a (if before then z ++ amp else amp ++ z) f')
      (fun h' p q => AxIs h' p.1 q.1 ∧ h'.yarrs[p.2]? = some q.2) := by
  refine (sim_axisSize hc ha).bind fun n n' h1 w1 c1 e => ?_
  subst e
  rw [zeros_castC, List.length_map]
  refine (sim_lift c1 _).of_map.bind fun u z h2 w2 c2 e => ?_
  subst e
  have := sim_calculateSpectrum c2 (ha.le (w1.trans w2)) (if before then z ++ amp else amp ++ z) (hf.le (w1.trans w2))
  rcases before
  · simpa [castC] using this
  · simpa [castC] using this

variable {r : Loc} {c : Cls} {o : RelObj}

theorem sim_signal2spectrum (hc : Coh Pf h) {v : Rel ℝ ℝ} (hr : RelIs h r c v.toComplex o) {f : HSize} {f' : SizeArg}
    (hf : SizeIs h f f') (z : Bool) (n : ℕ) :
    Sim Pf h ((Df).signal2spectrum n r f z) (SweepDesign.signal2spectrum v f' z)
      (fun h' p q => AxIs h' p.1 q.1 ∧ h'.yarrs[p.2]? = some q.2) := by
  show Sim Pf h (defSignal2Spectrum Pf r f z) _ _
  obtain ⟨a, ha, ea⟩ := hr.x
  have hx : AxIs h o.x v.x := hr.x
  have hy : h.yarrs[o.y]? = some (castC v.y) := hr.y
  have e1 : a.start = v.x.start := congrArg Axis.start ea
  have e2 : a.stop = v.x.stop := congrArg Axis.stop ea
  have hrun : ∀ g : Loc → List ℂ → AxisObj ℝ → HM ℝ ℂ (Loc × Loc),
      (getRel r >>= fun o => axisCopy o.x >>= fun nt => getY o.y >>= fun amp => getAxis nt >>= fun a => g nt amp a) h =
        g h.axes.length (castC v.y) a { h with axes := h.axes ++ [a] } := by
    intro g
    rw [bind_of_ok (getRel_run hr.rel), bind_of_ok (axisCopy_run ha), bind_of_ok (getY_run (by exact hy)),
      bind_of_ok (getAxis_append h a)]
  have plain : Sim Pf h (axisCopy o.x >>= fun nt => Mem.calculateSpectrum Pf nt (castC v.y) f)
      (SweepDesign.calculateSpectrum v.x v.y f') (fun h' p q => AxIs h' p.1 q.1 ∧ h'.yarrs[p.2]? = some q.2) :=
    Sim.step (sim_axisCopy hc hx) fun nt h1 w1 c1 hn => sim_calculateSpectrum c1 hn v.y (hf.le w1)
  have plain_run : (axisCopy o.x >>= fun nt => Mem.calculateSpectrum Pf nt (castC v.y) f) h =
      Mem.calculateSpectrum Pf h.axes.length (castC v.y) f { h with axes := h.axes ++ [a] } := by
    rw [bind_of_ok (axisCopy_run ha)]
  unfold SweepDesign.signal2spectrum
  have le1 : (!((Pf).le a.start (Pf).zero)) = decide (0 < v.x.start) := by
    show (!(decide (a.start ≤ 0))) = _
    rw [e1]
    by_cases h0 : 0 < v.x.start
    · simp [h0]
    · simp [not_lt.1 h0]
  have le2 : (!((Pf).le (Pf).zero a.stop)) = decide (v.x.stop < 0) := by
    show (!(decide (0 ≤ a.stop))) = _
    rw [e2]
    by_cases h0 : v.x.stop < 0
    · simp [h0]
    · simp [not_lt.1 h0]
  by_cases hz : z = true
  · rw [if_pos hz]
    refine plain.congr ?_
    rw [plain_run]
    unfold defSignal2Spectrum
    rw [hrun, if_pos hz]
  · rw [if_neg hz]
    by_cases h0 : 0 < v.x.start
    · rw [if_pos h0]
      have k := Sim.step (sim_newStart hc hx 0) (f := fun nt => do
          let n ← axisSize Pf nt
          let z ← lift ((Pf).zeros ((n : ℤ) - (castC v.y).length))
          Mem.calculateSpectrum Pf nt (if true then z ++ castC v.y else castC v.y ++ z) f)
        fun nt h1 w1 c1 hn => sim_extended c1 hn v.y (hf.le w1) true
      refine (k.congr ?_)
      unfold defSignal2Spectrum
      rw [hrun, if_neg hz, le1, decide_eq_true h0, if_pos rfl]
      rw [show (Pf).zero = 0 from rfl, bind_of_ok (setStart_append h a 0)]
      rw [hm_assoc, bind_of_ok (axisCopy_run ha), hm_assoc, bind_of_ok (setStart_append h a 0)]
      rfl
    · rw [if_neg h0]
      by_cases h1 : v.x.stop < 0
      · rw [if_pos h1]
        have k := Sim.step (sim_newStop hc hx 0) (f := fun nt => do
            let n ← axisSize Pf nt
            let z ← lift ((Pf).zeros ((n : ℤ) - (castC v.y).length))
            Mem.calculateSpectrum Pf nt (if false then z ++ castC v.y else castC v.y ++ z) f)
          fun nt h1 w1 c1 hn => sim_extended c1 hn v.y (hf.le w1) false
        refine (k.congr ?_)
        unfold defSignal2Spectrum
        rw [hrun, if_neg hz, le1, decide_eq_false h0, if_neg (by simp), le2, decide_eq_true h1, if_pos rfl]
        rw [show (Pf).zero = 0 from rfl, bind_of_ok (setStop_append h a 0)]
        rw [hm_assoc, bind_of_ok (axisCopy_run ha), hm_assoc, bind_of_ok (setStop_append h a 0)]
        rfl
      · rw [if_neg h1]
        refine plain.congr ?_
        rw [plain_run]
        unfold defSignal2Spectrum
        rw [hrun, if_neg hz, le1, decide_eq_false h0, if_neg (by simp), le2, decide_eq_false h1, if_neg (by simp)]

theorem sim_timeAxis (hc : Coh Pf h) {l : Loc} {a : Axis ℝ} (ha : AxIs h l a) (n : ℕ) {t : HSize} {t' : SizeArg}
    (ht : SizeIs h t t') (ts : Option ℝ) :
    Sim Pf h (timeAxis Pf l n t ts)
      (match t' with
        | .axis a => pure a
        | _ =>
          if a.stop - a.start = 0 then .error .zeroDivision
          else
            let dt := 1 / (2 * (a.stop - a.start))
            let t0 := ts.getD 0
            pure { start := t0, stop := t0 + ((n : ℝ) - 1) * dt, sample := dt : Axis ℝ } : Except Err (Axis ℝ)) AxIs := by
  obtain ⟨o, ho, e⟩ := ha
  have e1 : o.start = a.start := congrArg Axis.start e
  have e2 : o.stop = a.stop := congrArg Axis.stop e
  have key : Sim Pf h (getAxis l >>= fun a => lift ((Pf).dt a.start a.stop) >>= fun dt =>
      axisNew (ts.getD (Pf).zero) ((Pf).timeEnd (ts.getD (Pf).zero) n dt) dt)
      (if a.stop - a.start = 0 then .error .zeroDivision
          else
            let dt := 1 / (2 * (a.stop - a.start))
            let t0 := ts.getD 0
            pure { start := t0, stop := t0 + ((n : ℝ) - 1) * dt, sample := dt : Axis ℝ }) AxIs := by
    refine Sim.read (getAxis_run ho) ?_
    rw [e1, e2]
    show Sim Pf h (lift (if a.stop - a.start = 0 then .error .zeroDivision else .ok (1 / (2 * (a.stop - a.start)))) >>= _) _ _
    split
    · exact ⟨Le.refl _ _, hc, rfl⟩
    · exact Sim.read rfl (sim_ok (safe_axisNew _ _ _) hc rfl ⟨_, List.getElem?_concat_length, rfl⟩)
  cases t <;> cases t' <;> simp only [SizeIs] at ht
  · exact key
  · exact key
  · exact sim_pure hc ht

theorem sim_spectrum2signal (hc : Coh Pf h) {v : Rel ℝ ℂ} (hr : RelIs h r c v o) {t : HSize} {t' : SizeArg}
    (ht : SizeIs h t t') (ts : Option ℝ) (n : ℕ) :
    Sim Pf h ((Df).spectrum2signal n r t ts) (SweepDesign.spectrum2signal v t' ts)
      (fun h' p q => AxIs h' p.1 q.1 ∧ h'.yarrs[p.2]? = some (castC q.2)) := by
  show Sim Pf h (defSpectrum2Signal Pf r t ts) _ _
  unfold defSpectrum2Signal SweepDesign.spectrum2signal
  refine Sim.read (getRel_run hr.rel) (Sim.read (getY_run hr.y) ?_)
  refine Sim.step (sim_axisCopy hc hr.x) fun fr h1 w1 c1 hfr => ?_
  refine (sim_sizeOf c1 (ht.le w1)).bind fun k k' h2 w2 c2 e => ?_
  subst e
  show Sim Pf h2 (lift ((SweepDesign.irfft v.y k).map castC) >>= _) _ _
  refine (sim_lift c2 _).of_map.bind fun u amp h3 w3 c3 e => ?_
  subst e
  have k := (sim_timeAxis c3 (hfr.le (w2.trans w3)) amp.length (ht.le ((w1.trans w2).trans w3)) ts).bind (f := fun time => do
      let amp ← (do let tv ← axisValues Pf time; lift ((Pf).reorder tv (castC amp)))
      let l ← newY amp
      pure (time, l)) (g := fun time => do
      let amplitude ← reorderByTime time amp
      pure (time, amplitude)) (R' := fun h' p q => AxIs h' p.1 q.1 ∧ h'.yarrs[p.2]? = some (castC q.2))
      fun time a h4 w4 c4 ha => by
    refine (sim_reorder c4 ha amp).bind fun u w h5 w5 c5 e => ?_
    subst e
    exact Sim.step (sim_newY c5 _) fun l h6 w6 c6 hl => sim_pure c6 ⟨ha.le (w5.trans w6), hl⟩
  simp only [hm_assoc] at k
  simp only [castC, List.length_map] at k ⊢
  cases t' with
  | axis b => exact k
  | none => by_cases h0 : v.x.stop - v.x.start = 0 <;> simp only [h0, if_true, if_false] at k ⊢ <;> exact k
  | int b => by_cases h0 : v.x.stop - v.x.start = 0 <;> simp only [h0, if_true, if_false] at k ⊢ <;> exact k

/-- a new object of class `c` whose counterpart is `cp` -/
def IsNewCp (c : Cls) (cp : Option Loc) (h : Heap ℝ ℂ) (l : Loc) (v : Rel ℝ ℂ) : Prop :=
  ∃ o, RelIs h l c v o ∧ o.counterpart = cp

theorem sim_construct_axis_cp (hc : Coh Pf h) {c : Cls} (hn : c ≠ .sweep) {ax ly : Loc} {a : Axis ℝ} {y : List ℂ}
    (ha : AxIs h ax a) (hy : h.yarrs[ly]? = some y) (cp : Option Loc) :
    Sim Pf h (construct Pf Df c (.axis ax) (.arr ly) cp) (Rel.make a y) (IsNewCp c cp) := by
  have key : Sim Pf h (relInit Pf Df c (.axis ax) (.arr ly) cp) (Rel.make a y) (IsNewCp c cp) := by
    unfold relInit npArray
    refine Sim.read rfl ?_
    simp only []
    refine Sim.step (b := ()) (R := fun h' l _ => h'.yarrs[l]? = some y) (Sim.read (getY_run hy) (sim_newY hc y))
      fun l h1 w1 c1 r => ?_
    unfold initAxis Rel.make
    refine (sim_axisSize c1 (ha.le w1)).bind fun n n' h2 w2 c2 e => ?_
    subst e
    have hy2 := yIs_le w2 r
    refine Sim.read (getY_run hy2) ?_
    split
    · exact sim_raise c2 _
    · obtain ⟨o, ho, e⟩ := ha.le (w1.trans w2)
      exact sim_ok (safe_newRel _) c2 rfl ⟨mkRelObj c h.config ax l cp, ⟨by simp, rfl, ⟨o, ho, e⟩, hy2⟩, rfl⟩
  unfold construct
  rw [except_bind_pure_id (Rel.make a y)]
  refine key.bind fun l w h1 _ c1 r => ?_
  rw [if_neg hn]
  exact sim_pure c1 r

theorem sim_construct_rel_cp (hc : Coh Pf h) {c : Cls} (hn : c ≠ .sweep) {r : Loc} {c' : Cls} {v : Rel ℝ ℂ} {o : RelObj}
    (hr : RelIs h r c' v o) (y : HYArg ℂ) (cp : Option Loc) :
    Sim Pf h (construct Pf Df c (.rel r) y cp) (.ok v) (IsNewCp c cp) := by
  have key : Sim Pf h (relInit Pf Df c (.rel r) y cp) (.ok v) (IsNewCp c cp) := by
    unfold relInit
    refine Sim.read rfl ?_
    refine Sim.read (getRel_run hr.rel) ?_
    refine Sim.step (sim_axisCopy hc hr.x) fun ax h1 w1 c1 ra => ?_
    refine Sim.read (getY_run (yIs_le w1 hr.y)) ?_
    refine Sim.step (sim_newY c1 v.y) fun ly h2 w2 c2 ry => ?_
    obtain ⟨a, ha, e⟩ := ra.le w2
    exact sim_ok (safe_newRel _) c2 rfl ⟨mkRelObj c h.config ax ly cp, ⟨by simp, rfl, ⟨a, ha, e⟩, ry⟩, rfl⟩
  unfold construct
  rw [show (.ok v : Except Err (Rel ℝ ℂ)) = .ok v >>= pure from rfl]
  refine key.bind fun l w h1 _ c1 r => ?_
  rw [if_neg hn]
  exact sim_pure c1 r

/-- the counterpart of `s` is `k` -/
def CpIs (h : Heap ℝ ℂ) (s k : Loc) : Prop := ∃ o, h.rels[s]? = some o ∧ o.counterpart = some k

theorem CpIs.le {h h' : Heap ℝ ℂ} (w : Le ∅ h h') {s k : Loc} (hk : CpIs h s k) : CpIs h' s k := by
  obtain ⟨o, ho, e⟩ := hk
  obtain ⟨o', ho', -, m⟩ := w.rels s o ho
  exact ⟨o', ho', (m (Set.notMem_empty _)).counterpart k e⟩

theorem relIs_put {h : Heap ℝ ℂ} {l s : Loc} {c : Cls} {v : Rel ℝ ℂ} {o o1 : RelObj} (hr : RelIs h l c v o)
    (ho : h.rels[s]? = some o1) (k : Option Loc) :
    ∃ o', RelIs { h with rels := h.rels.set s { o1 with counterpart := k } } l c v o' ∧ o'.x = o.x := by
  by_cases hs : s = l
  · subst hs
    have : o1 = o := Option.some.inj (ho.symm.trans hr.rel)
    subst this
    exact ⟨{ o1 with counterpart := k }, ⟨set_getElem?_self ho, hr.cls, hr.x, hr.y⟩, rfl⟩
  · exact ⟨o, ⟨by show (h.rels.set s _)[l]? = _; rw [set_getElem?_of_ne hs]; exact hr.rel, hr.cls, hr.x, hr.y⟩, rfl⟩

/-- storing the counterpart -/
theorem sim_refill {s : Loc} {o : RelObj} (ho : h.rels[s]? = some o) (hn : o.counterpart = none) {m : HM ℝ ℂ Loc}
    {c : Cls} {x : Except Err (Rel ℝ ℂ)} (hm : Sim Pf h m x (IsNew c)) :
    Sim Pf h (m >>= fun k => getRel s >>= fun o => putRel s { o with counterpart := some k } >>= fun _ => pure k) x
      (fun h' l v => IsNew c h' l v ∧ CpIs h' s l) := by
  have w := hm.le; have cc := hm.coh; have ag := hm.agree
  rcases hr : m h with ⟨e | k, h1⟩
  · rw [hr] at w cc ag
    refine ⟨by rw [bind_of_error hr]; exact w, by rw [bind_of_error hr]; exact cc, ?_⟩
    rw [bind_of_error hr]
    rcases x with e' | v <;> exact ag
  · rw [hr] at w cc ag
    obtain ⟨o1, ho1, -⟩ := w.rels s o ho
    have hrun : (m >>= fun k => getRel s >>= fun o => putRel s { o with counterpart := some k } >>= fun _ => pure k) h =
        (.ok k, { h1 with rels := h1.rels.set s { o1 with counterpart := some k } }) := by
      rw [bind_of_ok hr, bind_of_ok (getRel_run ho1)]; rfl
    refine ⟨?_, ?_, ?_⟩ <;> rw [hrun]
    · exact le_putCounterpart w ho (fun _ => hn) ho1
    · exact cc
    · rcases x with e' | v
      · exact ag
      · obtain ⟨u, hu⟩ := ag
        obtain ⟨u', hu', -⟩ := relIs_put hu ho1 (some k)
        exact ⟨⟨u', hu'⟩, ⟨_, set_getElem?_self ho1, rfl⟩⟩

theorem sim_getSpectrum_new (hc : Coh Pf h) {v : Rel ℝ ℝ} (hr : RelIs h r c v.toComplex o) (hn : o.counterpart = none)
    {f : HSize} {f' : SizeArg} (hf : SizeIs h f f') (z : Bool) :
    Sim Pf h (Mem.getSpectrum Pf Df r f z) (v.getSpectrum f' z) (fun h' l w => IsNew .spectrum h' l w ∧ CpIs h' r l) := by
  unfold Mem.getSpectrum Rel.getSpectrum
  refine Sim.read (getRel_run hr.rel) ?_
  rw [hn]
  have k : Sim Pf h ((Df).signal2spectrum o.caps.transform r f z >>= fun p => construct Pf Df .spectrum (.axis p.1) (.arr p.2) (some r))
      (SweepDesign.signal2spectrum v f' z >>= fun q => Rel.make q.1 q.2) (IsNew .spectrum) :=
    (sim_signal2spectrum hc hr hf z _).bind fun p q h1 w1 c1 hp =>
      sim_construct_axis c1 _ (.of_ne (by decide)) hp.1 hp.2 _
  have k2 := sim_refill hr.rel hn k
  rw [hm_assoc] at k2
  exact k2

theorem sim_getSignal_new (hc : Coh Pf h) {v : Rel ℝ ℂ} (hr : RelIs h r c v o) (hn : o.counterpart = none)
    {t : HSize} {t' : SizeArg} (ht : SizeIs h t t') (ts : Option ℝ) :
    Sim Pf h (Mem.getSignal Pf Df r t ts) ((v.getSignal t' ts).map Rel.toComplex)
      (fun h' l w => IsNew .signal h' l w ∧ CpIs h' r l) := by
  unfold Mem.getSignal Rel.getSignal
  refine Sim.read (getRel_run hr.rel) ?_
  rw [hn]
  have k : Sim Pf h ((Df).spectrum2signal o.caps.transform r t ts >>= fun p => construct Pf Df .signal (.axis p.1) (.arr p.2) (some r))
      ((SweepDesign.spectrum2signal v t' ts >>= fun q => Rel.make q.1 q.2).map Rel.toComplex) (IsNew .signal) := by
    refine Sim.to_map ((sim_spectrum2signal hc hr ht ts _).bind fun p q h1 w1 c1 hp => ?_)
    refine Sim.of_map ?_
    rw [← make_castC]
    exact sim_construct_axis c1 _ (.of_ne (by decide)) hp.1 hp.2 _
  have k2 := sim_refill hr.rel hn k
  rw [hm_assoc] at k2
  exact k2

/-- Whenever the signal object `r` with the values `v` has a cached spectrum, it is the spectrum of `v`. -/
def FreshSpectrum (h : Heap ℝ ℂ) (o : RelObj) (v : Rel ℝ ℝ) : Prop :=
  ∀ k, o.counterpart = some k → ∃ w u, v.getSpectrum = .ok w ∧ RelIs h k .spectrum w u

theorem sim_getSpectrum (hc : Coh Pf h) {v : Rel ℝ ℝ} (hr : RelIs h r c v.toComplex o) (hf : FreshSpectrum h o v) :
    Sim Pf h (Mem.getSpectrum Pf Df r) v.getSpectrum (fun h' l w => IsNew .spectrum h' l w ∧ CpIs h' r l) := by
  rcases hk : o.counterpart with _ | k
  · exact sim_getSpectrum_new hc hr hk (f := .none) (f' := .none) trivial false
  · obtain ⟨w, u, e, hw⟩ := hf k hk
    rw [e]
    have hrun : Mem.getSpectrum Pf Df r .none false h = (.ok k, h) := by
      unfold Mem.getSpectrum
      rw [bind_of_ok (getRel_run hr.rel), hk]; rfl
    refine ⟨?_, ?_, ?_⟩ <;> rw [hrun]
    · exact Le.refl _ _
    · exact hc
    · exact ⟨⟨u, hw⟩, ⟨o, hr.rel, hk⟩⟩

theorem sim_getAmp (hc : Coh Pf h) {v : Rel ℝ ℂ} (hr : RelIs h r c v o) :
    Sim Pf h (Mem.getAmp Pf Df r) (v.getAmpSpectrum.map Rel.toComplex) (IsNew .relation) := by
  unfold Mem.getAmp Rel.getAmpSpectrum
  rw [← make_castC]
  refine Sim.read (getRel_run hr.rel) ?_
  refine Sim.step (sim_axisCopy hc hr.x) fun nx h1 w1 c1 ra => ?_
  refine Sim.read (getY_run (yIs_le w1 hr.y)) ?_
  have : (Pf).abs v.y = castC (v.y.map fun z => ‖z‖) := by
    show v.y.map (fun z => ((‖z‖ : ℝ) : ℂ)) = _
    rw [castC, List.map_map]; rfl
  rw [this]
  exact sim_construct_list c1 _ (.of_ne (by decide)) _ ra none

theorem sim_getPhase (hc : Coh Pf h) {v : Rel ℝ ℂ} (hr : RelIs h r c v o) :
    Sim Pf h (Mem.getPhase Pf Df r) (v.getPhaseSpectrum.map Rel.toComplex) (IsNew .relation) := by
  unfold Mem.getPhase Rel.getPhaseSpectrum
  rw [← make_castC]
  refine Sim.read (getRel_run hr.rel) ?_
  refine Sim.step (sim_axisCopy hc hr.x) fun nx h1 w1 c1 ra => ?_
  exact Sim.read (getY_run (yIs_le w1 hr.y)) (sim_construct_list c1 _ (.of_ne (by decide)) _ ra none)

/-- an operator between relations on different axis objects -/
theorem sim_op_apart (hc : Coh Pf h) {r1 r2 : Loc} {v1 v2 : Rel ℝ ℂ} {o1 o2 : RelObj} (h1 : RelIs h r1 .relation v1 o1)
    (h2 : RelIs h r2 .relation v2 o2) (hne : o1.x ≠ o2.x) (op : MathOp) :
    Sim Pf h (operator Pf Df r1 (.obj r2) op) (v1.operation (.rel false v2) op) (IsNew .relation) := by
  have := sim_operator_rel hc h1 h2 (.of_ne (by decide)) (.of_ne (by decide)) op (fun _ => ⟨by simp, by simp⟩)
  rwa [decide_eq_false hne] at this

theorem sim_fromAmpPhase (hc : Coh Pf h) {a p : Loc} {va vp : Rel ℝ ℝ} {oa op : RelObj}
    (ha : RelIs h a .relation va.toComplex oa) (hp : RelIs h p .relation vp.toComplex op) :
    Sim Pf h (Mem.fromAmpPhase Pf Df a p) (Rel.fromAmpPhase va vp) (IsNewCp .spectrum none) := by
  unfold Mem.fromAmpPhase Rel.fromAmpPhase
  refine (sim_operator_number hc hp (.of_ne (by decide)) Complex.I .rmul).bind fun q u h1 w1 c1 hq => ?_
  obtain ⟨oq, hq⟩ := hq
  refine ((sim_relExp (M := Df) c1 hq (.of_ne (by decide))).own (ownM_relExp good_defaultMethods _)).bind fun e ue h2 w2 c2 he => ?_
  obtain ⟨oe, he, hge, -⟩ := he
  obtain ⟨oa', ha', ex⟩ := ha.le (w1.trans w2)
  have hne : oa'.x ≠ oe.x := by
    rw [ex]
    obtain ⟨ax, hax, -⟩ := ha.x.le w1
    exact Nat.ne_of_lt ((List.getElem?_eq_some_iff.1 hax).1.trans_le hge)
  refine (sim_op_apart c2 ha' he hne .mul).bind fun m um h3 w3 c3 hm => ?_
  obtain ⟨om, hm⟩ := hm
  exact sim_construct_rel_cp c3 (by decide) hm .absent none


theorem Sim.eq {α β : Type} {P : Prims ℝ ℂ} {m : HM ℝ ℂ α} {x : Except Err β} {R : Heap ℝ ℂ → α → β → Prop}
    (hs : Sim P h m x R) : Sim P h m x (fun h' a b => R h' a b ∧ x = .ok b) := by
  refine ⟨hs.le, hs.coh, ?_⟩
  have := hs.agree
  revert this
  rcases (m h).1 with e | a <;> rcases x with e' | b <;> first | exact id | exact fun k => ⟨k, rfl⟩

/-- `addPhase` and `subPhase` in one -/
def withPhase (op : MathOp) (r other : Rel ℝ ℂ) : Except Err (Rel ℝ ℂ) := do
  let amp ← r.getAmpSpectrum
  let p1 ← r.getPhaseSpectrum
  let p2 ← other.getPhaseSpectrum
  let p ← p1.operation (.rel false p2) op
  Rel.fromAmpPhase amp p

theorem sim_spAddPhase (hc : Coh Pf h) {s so : Loc} {c c' : Cls} {v w : Rel ℝ ℂ} {o o' : RelObj} (hs : RelIs h s c v o)
    (hso : RelIs h so c' w o') (hb : c' = .spectrum) (op : MathOp) (hp : op.isPow = false) :
    Sim Pf h (Mem.spAddPhase Pf Df s (.obj so) op) (withPhase op v w) (IsNewCp .spectrum none) := by
  unfold Mem.spAddPhase withPhase
  have hin : input2spectrum Pf Df (.obj so) h = (.ok so, h) := by
    refine (bind_of_ok (getRel_run hso.rel)).trans ?_
    rw [hso.cls, hb]; rfl
  refine Sim.read hin ?_
  refine (sim_getAmp hc hs).of_map.bind fun amp va h1 w1 c1 ha => ?_
  obtain ⟨oa, ha⟩ := ha
  obtain ⟨os1, hs1, -⟩ := hs.le w1
  refine ((sim_getPhase c1 hs1).own (ownM_getPhase good_defaultMethods _)).of_map.bind fun p1 v1 h2 w2 c2 hp1 => ?_
  obtain ⟨op1, hp1, -, hlt⟩ := hp1
  obtain ⟨os2, hso2, -⟩ := hso.le (w1.trans w2)
  refine ((sim_getPhase c2 hso2).own (ownM_getPhase good_defaultMethods _)).of_map.bind fun p2 v2 h3 w3 c3 hp2 => ?_
  obtain ⟨op2, hp2, hge, -⟩ := hp2
  obtain ⟨op1', hp1', ex⟩ := hp1.le w3
  have hne : op1'.x ≠ op2.x := by rw [ex]; exact Nat.ne_of_lt (hlt.trans_le hge)
  have hop := sim_op_apart c3 hp1' hp2 hne op
  rw [show (Operand.rel false v2.toComplex) = (Operand.rel false v2).toC from rfl, operation_toComplex _ _ _ hp] at hop
  refine hop.of_map.bind fun p vp h4 w4 c4 hq => ?_
  obtain ⟨oq, hq⟩ := hq
  obtain ⟨oa', ha', -⟩ := ha.le ((w2.trans w3).trans w4)
  exact sim_fromAmpPhase c4 ha' hq

theorem getSignal_balanced {w : Rel ℝ ℂ} {t : SizeArg} {ts : Option ℝ} {s : Rel ℝ ℝ} (e : w.getSignal t ts = .ok s) :
    Balanced s.toComplex := by
  obtain ⟨q, -, e⟩ := except_bind_eq_ok.1 e
  have : Balanced s := balanced_of_make e
  simpa [Balanced, Rel.toComplex] using this

theorem sim_backToSignal (hc : Coh Pf h) {q l : Loc} {w : Rel ℝ ℂ} {a : Axis ℝ} (hq : IsNewCp .spectrum none h q w)
    (ha : AxIs h l a) {c : Cls} (hn : Fine (fourier T) Df c) :
    Sim Pf h (Mem.getSignal Pf Df q (.axis l) >>= fun g => construct Pf Df c (.rel g) .absent)
      ((w.getSignal (.axis a) >>= fun s => Rel.init (.rel s) none).map Rel.toComplex) (IsNew c) := by
  obtain ⟨oq, hq, hcp⟩ := hq
  refine Sim.to_map ((sim_getSignal_new hc hq hcp (t := .axis l) (t' := .axis a) ha none).of_map.eq.bind
    fun g s h1 w1 c1 hg => ?_)
  obtain ⟨⟨⟨og, hg⟩, -⟩, e⟩ := hg
  refine Sim.of_map ?_
  exact sim_construct_rel c1 _ hn hg (fun _ => getSignal_balanced e) .absent none

theorem except_map_bind {α β γ : Type} (x : Except Err α) (f : α → Except Err β) (g : β → γ) :
    (x >>= f).map g = x >>= fun a => (f a).map g := by rcases x with e | a <;> rfl

/-- the value layer of `Signal.add_phase`, `Signal.sub_phase` -/
def signalWithPhase (op : MathOp) (r : Rel ℝ ℝ) (other : Rel ℝ ℂ) : Except Err (Rel ℝ ℝ) := do
  let sp ← r.getSpectrum
  let sp ← withPhase op sp other
  let s ← sp.getSignal (.axis r.x)
  Rel.init (.rel s) none

theorem FreshSpectrum.of_cpIs {s k : Loc} {o : RelObj} {v : Rel ℝ ℝ} {w : Rel ℝ ℂ} (ho : h.rels[s]? = some o)
    (hk : CpIs h s k) (hw : IsNew .spectrum h k w) (e : v.getSpectrum = .ok w) : FreshSpectrum h o v := by
  intro k' hk'
  obtain ⟨o', ho', e'⟩ := hk
  have : o = o' := Option.some.inj (ho.symm.trans ho')
  subst this
  have : k' = k := Option.some.inj (hk'.symm.trans e')
  subst this
  obtain ⟨u, hu⟩ := hw
  exact ⟨w, u, e, hu⟩

theorem sim_sgAddPhase (hc : Coh Pf h) {s so : Loc} {c : Cls} {v : Rel ℝ ℝ} {w : Rel ℝ ℂ} {o o' : RelObj}
    (hs : RelIs h s c v.toComplex o) (hn : Fine (fourier T) Df c) (hf : FreshSpectrum h o v) (hso : RelIs h so .spectrum w o')
    (op : MathOp) (hp : op.isPow = false) :
    Sim Pf h (Mem.sgAddPhase Pf Df s (.obj so) op) ((signalWithPhase op v w).map Rel.toComplex) (IsNew c) := by
  unfold Mem.sgAddPhase signalWithPhase
  refine Sim.read (getRel_run hs.rel) ?_
  rw [except_map_bind]
  refine (sim_getSpectrum hc hs hf).bind fun sp vs h1 w1 c1 hsp => ?_
  obtain ⟨⟨osp, hsp⟩, -⟩ := hsp
  obtain ⟨os1, hso1, -⟩ := hso.le w1
  rw [except_map_bind]
  refine (sim_spAddPhase c1 hsp hso1 rfl op hp).bind fun q vq h2 w2 c2 hq => ?_
  rw [hs.cls]
  exact sim_backToSignal c2 hq (hs.x.le (w1.trans w2)) hn

theorem sim_sgShift (hc : Coh Pf h) {s : Loc} {c : Cls} {v : Rel ℝ ℝ} {o : RelObj} (hs : RelIs h s c v.toComplex o)
    (hn : Fine (fourier T) Df c) (hf : FreshSpectrum h o v) (d : ℝ) :
    Sim Pf h (Mem.sgShift Pf Df s d) ((v.signalShift d).map Rel.toComplex) (IsNew c) := by
  unfold Mem.sgShift Rel.signalShift
  rw [except_map_bind]
  refine (sim_getSpectrum hc hs hf).eq.bind fun sp vs h1 w1 c1 hsp => ?_
  obtain ⟨⟨⟨osp, hsp⟩, hcp⟩, e⟩ := hsp
  refine Sim.read (getRel_run hsp.rel) ?_
  rw [except_map_bind]
  refine (sim_axisValues c1 hsp.x).bind fun f f' h2 w2 c2 ef => ?_
  subst ef
  rw [except_map_bind]
  refine (sim_construct_list c2 _ (c := .spectrum) (.of_ne (by decide)) _ (hsp.x.le w2) none).bind fun sh vsh h3 w3 c3 hsh => ?_
  obtain ⟨osh, hsh⟩ := hsh
  obtain ⟨o3, hs3, -⟩ := hs.le ((w1.trans w2).trans w3)
  obtain ⟨osp3, hsp3, -⟩ := hsp.le (w2.trans w3)
  exact sim_sgAddPhase c3 hs3 hn (.of_cpIs hs3.rel (hcp.le (w2.trans w3)) ⟨_, hsp3⟩ e) hsh .add rfl

theorem sim_relMax (hc : Coh Pf h) {v : Rel ℝ ℝ} (hr : RelIs h r c v.toComplex o) :
    Sim Pf h (relMax Pf r) v.max (fun _ a b => a = ((b : ℝ) : ℂ)) := by
  unfold relMax Rel.max
  refine Sim.read (getRel_run hr.rel) (Sim.read (getY_run hr.y) ?_)
  show Sim Pf h (lift ((npMax ((castC v.y).map Complex.re)).map fun v : ℝ => (v : ℂ))) _ _
  rw [castC_re]
  exact (sim_lift hc _).of_map

theorem sim_real_number (hc : Coh Pf h) {v : Rel ℝ ℝ} (hr : RelIs h r c v.toComplex o) (hn : Fine (fourier T) Df c) (a : ℝ) (op : MathOp)
    (hp : op.isPow = false) :
    Sim Pf h (operator Pf Df r (.number (a : ℂ)) op) (v.operation (.other (.num a)) op)
      (fun h' l w => IsNew c h' l w.toComplex) := by
  refine Sim.of_map ?_
  rw [← operation_toComplex _ _ _ hp]
  exact sim_operator_number hc hr hn (a : ℂ) op

theorem sim_reverseFilter (hc : Coh Pf h) {v : Rel ℝ ℂ} (hr : RelIs h r c v o) (hn : Fine (fourier T) Df c) (p : ℝ) (b : Bool)
    (fs fe : Option ℝ) :
    Sim Pf h (Mem.reverseFilter Pf Df r p b fs fe) (v.getReverseFilter p b fs fe) (IsNewCp .spectrum none) := by
  unfold Mem.reverseFilter Rel.getReverseFilter
  refine (sim_relSelect hc hr hn fs fe).bind fun w vw h1 w1 c1 hw => ?_
  obtain ⟨ow, hw⟩ := hw
  refine (sim_getAmp c1 hw).of_map.bind fun amp va h2 w2 c2 ha => ?_
  obtain ⟨oa, ha⟩ := ha
  refine (sim_relMax c2 ha).bind fun m vm h3 w3 c3 hm => ?_
  subst hm
  obtain ⟨oa3, ha3, -⟩ := ha.le w3
  have e : (Pf).percentOf ((vm : ℝ) : ℂ) p = ((vm * p / 100 : ℝ) : ℂ) := by
    show p • ((vm : ℝ) : ℂ) / 100 = _
    rw [Complex.real_smul]; push_cast; ring
  rw [e]
  refine (sim_real_number c3 ha3 (.of_ne (by decide)) _ .add rfl).bind fun amp' va' h4 w4 c4 ha4 => ?_
  obtain ⟨oa4, ha4⟩ := ha4
  have e1 : (Pf).one = ((1 : ℝ) : ℂ) := Complex.ofReal_one.symm
  rw [e1]
  refine (sim_real_number c4 ha4 (.of_ne (by decide)) _ .rtruediv rfl).bind fun rev vr h5 w5 c5 hrev => ?_
  obtain ⟨or, hrev⟩ := hrev
  obtain ⟨ow5, hw5, -⟩ := hw.le (((w2.trans w3).trans w4).trans w5)
  refine (sim_getPhase c5 hw5).of_map.bind fun ph vph h6 w6 c6 hph => ?_
  obtain ⟨oph, hph⟩ := hph
  have e2 : (if b then (Pf).minusOne else ((1 : ℝ) : ℂ)) = ((if b then -1 else 1 : ℝ) : ℂ) := by
    show (if b then (-1 : ℂ) else _) = _
    cases b <;> simp
  rw [e2]
  refine (sim_real_number c6 hph (.of_ne (by decide)) _ .rmul rfl).bind fun ph' vph' h7 w7 c7 hph' => ?_
  obtain ⟨oph', hph'⟩ := hph'
  obtain ⟨or', hrev', -⟩ := hrev.le (w6.trans w7)
  exact sim_fromAmpPhase c7 hrev' hph'

theorem sim_reverseSignal (hc : Coh Pf h) {s : Loc} {c : Cls} {v : Rel ℝ ℝ} {o : RelObj} (hs : RelIs h s c v.toComplex o)
    (hn : Fine (fourier T) Df c) (hf : FreshSpectrum h o v) (p : ℝ) (b : Bool) (fs fe : Option ℝ) :
    Sim Pf h (Mem.reverseSignal Pf Df s p b fs fe) ((v.getReverseSignal p b fs fe).map Rel.toComplex) (IsNew c) := by
  unfold Mem.reverseSignal Rel.getReverseSignal
  refine Sim.read (getRel_run hs.rel) ?_
  rw [except_map_bind]
  refine (sim_getSpectrum hc hs hf).bind fun sp vs h1 w1 c1 hsp => ?_
  obtain ⟨⟨osp, hsp⟩, -⟩ := hsp
  rw [except_map_bind]
  refine (sim_reverseFilter c1 hsp (.of_ne (by decide)) p b fs fe).bind fun q vq h2 w2 c2 hq => ?_
  rw [hs.cls]
  exact sim_backToSignal c2 hq (hs.x.le (w1.trans w2)) hn


theorem Sim.run {α β : Type} {P : Prims ℝ ℂ} {m : HM ℝ ℂ α} {x : Except Err β} {R : Heap ℝ ℂ → α → β → Prop}
    (hs : Sim P h m x R) {Q : Heap ℝ ℂ → Prop} (hq : Le ∅ h (m h).2 → Q (m h).2) :
    Sim P h m x (fun h' a b => R h' a b ∧ Q h') := by
  refine ⟨hs.le, hs.coh, ?_⟩
  have := hs.agree
  have q := hq hs.le
  revert this
  rcases (m h).1 with e | a <;> rcases x with e' | b <;> first | exact id | exact fun k => ⟨k, q⟩

theorem FreshSpectrum.le {h' : Heap ℝ ℂ} {o : RelObj} {v : Rel ℝ ℝ} (hf : FreshSpectrum h o v) (w : Le ∅ h h') :
    FreshSpectrum h' o v := by
  intro k hk
  obtain ⟨sp, u, e, hu⟩ := hf k hk
  obtain ⟨u', hu', -⟩ := hu.le w
  exact ⟨sp, u', e, hu'⟩

/-- after `shift` the signal still has a fresh cache -/
theorem sim_sgShift_fresh (hc : Coh Pf h) {s : Loc} {c : Cls} {v : Rel ℝ ℝ} {o : RelObj} (hs : RelIs h s c v.toComplex o)
    (hn : Fine (fourier T) Df c) (hf : FreshSpectrum h o v) (d : ℝ) :
    Sim Pf h (Mem.sgShift Pf Df s d) ((v.signalShift d).map Rel.toComplex)
      (fun h' l w => IsNew c h' l w ∧ ∀ o', h'.rels[s]? = some o' → FreshSpectrum h' o' v) := by
  unfold Mem.sgShift Rel.signalShift
  rw [except_map_bind]
  refine (sim_getSpectrum hc hs hf).eq.bind fun sp vs h1 w1 c1 hsp => ?_
  obtain ⟨⟨⟨osp, hsp⟩, hcp⟩, e⟩ := hsp
  refine Sim.read (getRel_run hsp.rel) ?_
  rw [except_map_bind]
  refine (sim_axisValues c1 hsp.x).bind fun f f' h2 w2 c2 ef => ?_
  subst ef
  rw [except_map_bind]
  refine (sim_construct_list c2 _ (c := .spectrum) (.of_ne (by decide)) _ (hsp.x.le w2) none).bind fun sh vsh h3 w3 c3 hsh => ?_
  obtain ⟨osh, hsh⟩ := hsh
  obtain ⟨o3, hs3, -⟩ := hs.le ((w1.trans w2).trans w3)
  obtain ⟨osp3, hsp3, -⟩ := hsp.le (w2.trans w3)
  have hcp3 := hcp.le (w2.trans w3)
  have k := sim_sgAddPhase c3 hs3 hn (.of_cpIs hs3.rel hcp3 ⟨_, hsp3⟩ e) hsh .add rfl
  refine (k.run (Q := fun h' => ∀ o', h'.rels[s]? = some o' → FreshSpectrum h' o' v) fun w o' ho' => ?_).mono
    fun h' l w hh => hh
  obtain ⟨u, hu, -⟩ := hsp3.le w
  exact .of_cpIs ho' (hcp3.le w) ⟨u, hu⟩ e

theorem toComplex_injective : Function.Injective Rel.toComplex := by
  intro a b e
  have hx : a.toComplex.x = b.toComplex.x := congrArg Rel.x e
  have hy := congrArg Rel.y e
  have : a.y = b.y := by
    have := congrArg (List.map Complex.re) (show castC a.y = castC b.y from hy)
    rwa [castC_re, castC_re] at this
  cases a; cases b; simp_all [Rel.toComplex]

theorem sim_signalConv (hc : Coh Pf h) {s1 s2 : Loc} {k1 k2 : Cls} {v1 v2 : Rel ℝ ℝ} {o1 o2 : RelObj}
    (h1 : RelIs h s1 k1 v1.toComplex o1) (h2 : RelIs h s2 k2 v2.toComplex o2) (g1 : k1.isSignal = true)
    (g2 : k2.isSignal = true) (n1 : Fine (fourier T) Df k1) (n2 : Fine (fourier T) Df k2) (f1 : FreshSpectrum h o1 v1)
    (f2 : FreshSpectrum h o2 v2) (np : List ℂ → List ℂ → List ℂ) (npr : List ℝ → List ℝ → List ℝ)
    (hnp : ∀ a b, np (castC a) (castC b) = castC (npr a b)) :
    Sim Pf h (defConv Pf Df np s1 s2) (do let p ← Rel.signalAlign v1 v2; pure (p.2.2, npr p.1.y p.2.1.y))
      (fun h' p q => AxIs h' p.1 q.1 ∧ h'.yarrs[p.2]? = some (castC q.2)) := by
  unfold defConv Rel.signalAlign
  simp only [bind_assoc]
  refine Sim.read (getRel_run h1.rel) ?_
  obtain ⟨a1, ha1, ea1⟩ := h1.x
  refine Sim.read (getAxis_run ha1) ?_
  have e1 : a1.start = v1.x.start := congrArg Axis.start ea1
  rw [e1]
  have sh : ∀ {h : Heap ℝ ℂ} {s : Loc} {k : Cls} {v : Rel ℝ ℝ} {o : RelObj} (hr : RelIs h s k v.toComplex o)
      (hk : k.isSignal = true) (d : ℝ), Mem.shift Pf Df s d h = Mem.sgShift Pf Df s d h := by
    intro h s k v o hr hk d
    unfold Mem.shift
    rw [bind_of_ok (getRel_run hr.rel), hr.cls, hk]; rfl
  have k1 : Sim Pf h (Mem.shift Pf Df s1 (-v1.x.start)) ((v1.signalShift (-v1.x.start)).map Rel.toComplex)
      (fun h' l w => ((∃ o, RelIs h' l k1 w o ∧ h.axes.length ≤ o.x ∧ o.x < h'.axes.length) ∧
        ∀ o', h'.rels[s1]? = some o' → FreshSpectrum h' o' v1) ∧
        ∀ l o, h.rels[l]? = some o → l ∉ ({s1} : Set Loc) → h'.rels[l]? = some o) := by
    have ks := (sim_sgShift_fresh hc h1 n1 f1 (-v1.x.start)).congr (sh h1 g1 _)
    refine Sim.run ⟨ks.le, ks.coh, ?_⟩ fun _ => only_shift good_defaultMethods only_defaultMethods (S := {s1}) (Set.mem_singleton _) _ h
    have ko := (ks.mono (R' := IsNew k1) fun _ _ _ => And.left).own (ownM_shift good_defaultMethods _ _)
    have g1 := ks.agree
    have g2 := ko.agree
    revert g1 g2
    rcases (Mem.shift Pf Df s1 (-v1.x.start) h).1 with e | a <;>
      rcases ((v1.signalShift (-v1.x.start)).map Rel.toComplex) with e' | b <;>
      first | exact fun g _ => g | exact fun g g' => ⟨g', g.2⟩
  refine k1.of_map.bind fun q1 u1 g1 w1 c1 n1 => ?_
  obtain ⟨⟨⟨p1, hp1, -, hlt⟩, fr⟩, only⟩ := n1
  obtain ⟨o2', hr2', -⟩ := h2.le w1
  have f2' : FreshSpectrum g1 o2' v2 := by
    by_cases hs : s2 = s1
    · subst hs
      have : v1.toComplex = v2.toComplex := by
        have ho : o1 = o2 := Option.some.inj (h1.rel.symm.trans h2.rel)
        subst ho
        have hy : v1.toComplex.y = v2.toComplex.y := Option.some.inj (h1.y.symm.trans h2.y)
        obtain ⟨a, ha, ea⟩ := h1.x
        obtain ⟨b, hb, eb⟩ := h2.x
        have hab : a = b := Option.some.inj (ha.symm.trans hb)
        have hx : v1.toComplex.x = v2.toComplex.x := by rw [← ea, ← eb, hab]
        generalize v1.toComplex = A at *
        generalize v2.toComplex = B at *
        cases A; cases B; simp_all
      have := toComplex_injective this
      subst this
      exact fr o2' hr2'.rel
    · have := only s2 o2 h2.rel hs
      have : o2' = o2 := Option.some.inj (hr2'.rel.symm.trans this)
      subst this
      exact f2.le w1
  refine Sim.read (getRel_run hr2'.rel) ?_
  obtain ⟨a2, ha2, ea2⟩ := hr2'.x
  refine Sim.read (getAxis_run ha2) ?_
  have e2 : a2.start = v2.x.start := congrArg Axis.start ea2
  rw [e2]
  have k2 := ((sim_sgShift c1 hr2' n2 f2' (-v2.x.start)).congr (sh hr2' g2 _)).own (ownM_shift good_defaultMethods _ _)
  refine k2.of_map.bind fun q2 u2 g2 w2 c2 n2 => ?_
  obtain ⟨p2, hp2, hle, -⟩ := n2
  obtain ⟨p1', hp1', ex⟩ := hp1.le w2
  have hne : p1'.x ≠ p2.x := by rw [ex]; exact (hlt.trans_le hle).ne
  have keq := sim_relEqualize c2 hp1' hp2 n1 n2
  rw [decide_eq_false hne, equalize_toComplex] at keq
  refine keq.of_map.bind fun p q g3 w3 c3 hpq => ?_
  obtain ⟨p1, p2⟩ := p
  obtain ⟨q1, q2⟩ := q
  obtain ⟨⟨u1, hu1⟩, ⟨u2, hu2⟩⟩ := hpq
  simp only [] at hu1 hu2 ⊢
  refine Sim.read (getRel_run hu1.rel) ?_
  obtain ⟨a, ha, ea⟩ := hu1.x
  refine Sim.read (getAxis_run ha) ?_
  refine Sim.step (sim_axisNew c3 _ _ _) fun nx g4 w4 c4 hx => ?_
  refine Sim.read (getY_run (yIs_le w4 hu1.y)) ?_
  obtain ⟨u2', hu2', -⟩ := hu2.le w4
  refine Sim.read (getRel_run hu2'.rel) (Sim.read (getY_run hu2'.y) ?_)
  refine Sim.step (sim_newY c4 _) fun ny g5 w5 c5 hy => ?_
  refine sim_pure c5 ⟨?_, ?_⟩
  · have f2 : a.stop = q1.x.stop := congrArg Axis.stop ea
    have f3 : a.sample = q1.x.sample := congrArg Axis.sample ea
    show AxIs g5 nx ⟨-q1.x.stop, q1.x.stop, q1.x.sample⟩
    rw [← f2, ← f3]
    exact hx.le w5
  · show g5.yarrs[ny]? = some (castC (npr q1.y q2.y))
    rw [← hnp]; exact hy

/-- the convolution or correlation of two signals as a signal of class `kc`, and the copy of it that is returned -/
theorem sim_relConv_signal (hc : Coh Pf h) {s1 s2 : Loc} {k1 k2 kc : Cls} {v1 v2 : Rel ℝ ℝ} {o1 o2 : RelObj}
    (h1 : RelIs h s1 k1 v1.toComplex o1) (h2 : RelIs h s2 k2 v2.toComplex o2) (g1 : k1.isSignal = true)
    (g2 : k2.isSignal = true) (n1 : Fine (fourier T) Df k1) (n2 : Fine (fourier T) Df k2)
    (nc : Fine (fourier T) Df kc) (f1 : FreshSpectrum h o1 v1)
    (f2 : FreshSpectrum h o2 v2) {np : List ℂ → List ℂ → List ℂ} (npr : List ℝ → List ℝ → List ℝ)
    (hnp : ∀ a b, np (castC a) (castC b) = castC (npr a b)) {C : ConvCall ℝ ℂ}
    (hC : ∀ g c, C g c s1 s2 = defConv Pf Df np s1 s2) :
    Sim Pf h (relConv Pf Df C kc s1 s2 >>= fun q => construct Pf Df kc (.rel q) .absent)
      ((do let p ← Rel.signalAlign v1 v2; let r ← Rel.make p.2.2 (npr p.1.y p.2.1.y); Rel.init (.rel r) none).map Rel.toComplex)
      (IsNew kc) := by
  have k : Sim Pf h (relConv Pf Df C kc s1 s2)
      ((do let p ← Rel.signalAlign v1 v2; Rel.make p.2.2 (npr p.1.y p.2.1.y)).map Rel.toComplex) (IsNew kc) := by
    unfold relConv
    refine Sim.read rfl ?_
    rw [hC]
    have k := (sim_signalConv hc h1 h2 g1 g2 n1 n2 f1 f2 np npr hnp).bind
      (f := fun p => construct Pf Df kc (.axis p.1) (.arr p.2)) (g := fun p => (Rel.make p.1 p.2).map Rel.toComplex)
      (R' := IsNew kc) fun p q h1 w1 k1 hp => by
        rw [← make_castC]
        exact sim_construct_axis k1 _ nc hp.1 hp.2 none
    rw [bind_assoc] at k
    rw [except_map_bind]
    exact k
  have k' := k.of_map.eq.bind (f := fun q => construct Pf Df kc (.rel q) .absent)
    (g := fun r => (Rel.init (.rel r) none).map Rel.toComplex) (R' := IsNew kc) fun q r h3 w3 c3 hq => by
      obtain ⟨⟨oq, hq⟩, e⟩ := hq
      refine sim_construct_rel c3 _ nc hq (fun _ => ?_) .absent none
      obtain ⟨p, -, e⟩ := except_bind_eq_ok.1 e
      have : Balanced r := balanced_of_make e
      simpa [Balanced, Rel.toComplex] using this
  rw [bind_assoc, ] at k'
  simp only [except_map_bind] at k' ⊢
  exact k'

theorem sim_clsConv_signal (hc : Coh Pf h) {s1 s2 : Loc} {k1 k2 kc : Cls} {v1 v2 : Rel ℝ ℝ} {o1 o2 : RelObj}
    (h1 : RelIs h s1 k1 v1.toComplex o1) (h2 : RelIs h s2 k2 v2.toComplex o2) (g1 : k1.isSignal = true)
    (g2 : k2.isSignal = true) (gc : kc.isSignal = true) (n1 : Fine (fourier T) Df k1) (n2 : Fine (fourier T) Df k2)
    (nc : Fine (fourier T) Df kc) (f1 : FreshSpectrum h o1 v1)
    (f2 : FreshSpectrum h o2 v2) {np : List ℂ → List ℂ → List ℂ} (npr : List ℝ → List ℝ → List ℝ)
    (hnp : ∀ a b, np (castC a) (castC b) = castC (npr a b)) {C : ConvCall ℝ ℂ}
    (hC : ∀ g c, C g c s1 s2 = defConv Pf Df np s1 s2) :
    Sim Pf h (clsConv Pf Df C kc (.obj s1) (.obj s2))
      ((do let p ← Rel.signalAlign v1 v2; let r ← Rel.make p.2.2 (npr p.1.y p.2.1.y); Rel.init (.rel r) none).map Rel.toComplex)
      (IsNew kc) := by
  have hin : ∀ {s : Loc} {k : Cls} {v : Rel ℝ ℂ} {o : RelObj}, RelIs h s k v o → k.isSignal = true →
      inp2signal Pf Df (.obj s) h = (.ok s, h) := by
    intro s k v o hs hk
    refine (bind_of_ok (getRel_run hs.rel)).trans ?_
    rw [hs.cls]
    rcases k
    · exact absurd hk (by decide)
    · rfl
    · exact absurd hk (by decide)
    · rfl
  have e0 : clsConv Pf Df C kc (.obj s1) (.obj s2) = (inp2signal Pf Df (.obj s1) >>= fun r1 =>
      inp2signal Pf Df (.obj s2) >>= fun r2 =>
      relConv Pf Df C kc r1 r2 >>= fun q => construct Pf Df kc (.rel q) .absent) := by
    rcases kc
    · exact absurd gc (by decide)
    · rfl
    · exact absurd gc (by decide)
    · rfl
  rw [e0]
  refine Sim.read (hin h1 g1) (Sim.read (hin h2 g2) ?_)
  exact sim_relConv_signal hc h1 h2 g1 g2 n1 n2 nc f1 f2 npr hnp hC

end

end SweepDesign.Mem
