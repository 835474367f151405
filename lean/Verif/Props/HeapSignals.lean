import Verif.Heap.RefineSignals
import Verif.Props.HeapFourier
import Verif.Props.HeapLibrary
import Verif.Props.Aprior

/-!
# C126: phase operands, convolutions and codes with objects of every class

C84 covers `add_phase` and `sub_phase` with a spectrum operand and the convolution of two signals; C119 covers codes made from plain
relations. Here: phase operands that are signals or relations, convolutions of relations by `Signal`, zinger codes and code segments
made from signals and sweeps, and the convolution of a base with a code.
-/

set_option linter.unusedSectionVars false

namespace SweepDesign

open Mem Spec HM

noncomputable section

variable {T : Transcendental ℝ ℂ} {h : Heap ℝ ℂ} {L : LibPrims ℝ ℂ}

local notation "Pf" => exactPrims (fourier T)
local notation "Df" => defaultMethods (exactPrims (fourier T))

/-- `s` is a relation, signal or sweep with the real values `v`; a cached spectrum is the one of `v` -/
structure Spec.realObject (h : Heap ℝ ℂ) (c : Cls) (s : Loc) (v : Rel ℝ ℝ) : Prop where
  cls : c ≠ .spectrum
  value : valueAt h s = some (c, v.toComplex)
  cache : c = .signal ∨ c = .sweep → cacheFits h s v

/-- the code argument `code` means `w`: an object, or a list of numbers -/
def Spec.codeMeans (h : Heap ℝ ℂ) : HCode ℂ → CodeArg → Prop
  | .rel l _, .rel v => ∃ c, realObject h c l v
  | .arr l _, .list y => h.yarrs[l]? = some (y.map fun v : ℝ => (v : ℂ))
  | .list z, .list y => z = y.map fun v : ℝ => (v : ℂ)
  | _, _ => False

/-- every relation with one sample per axis point can be made a sweep -/
def Spec.AlwaysDescribed (P : SweepPrims ℝ) : Prop :=
  ∀ r : Rel ℝ ℝ, Balanced r → ∃ s, Sweep.init P (.rel r) none none none none = .ok s

/-- the integers and numbers of the library functions are multiplied as usual -/
structure Spec.UsualProducts (L : LibPrims ℝ ℂ) : Prop where
  times : ∀ n x, L.times n x = n * x
  last : ∀ n x, L.last n x = (n - 1) * x

theorem sig_of {c : Cls} {s : Loc} {v : Rel ℝ ℝ} (hv : isSignal h c s v) (hf : cacheFits h s v) : Sig h s c v := by
  obtain ⟨o, ho⟩ := relIs_of_valueAt hv.value
  exact ⟨o, ho, fresh_of_fits ho hf⟩

theorem arg_of {c : Cls} {s : Loc} {v : Rel ℝ ℝ} (hv : realObject h c s v) : Arg h s c v := by
  refine ⟨relIs_of_valueAt hv.value, hv.cls, fun hk => ?_⟩
  have hc : c = .signal ∨ c = .sweep := by cases c <;> simp_all [Cls.isSignal]
  exact sig_of ⟨hc, hv.value⟩ (hv.cache hc)

theorem codeMeans_of {code : HCode ℂ} {w : CodeArg} (hw : codeMeans h code w) : CodeMeans h code w := by
  cases code <;> cases w <;> simp only [codeMeans] at hw
  · obtain ⟨c, hc⟩ := hw
    exact .rel _ _ c _ (arg_of hc)
  · exact .arr _ _ _ hw
  · subst hw; exact .list _

/-! ## phase operands -/

/-- **C126** `Spectrum.add_phase`, `sub_phase` with an operand that is a relation or a signal (a signal is transformed; a relation is
taken as a spectrum) -/
theorem C126_spectrum_phase (hc : Coh Pf h) (s s2 : Loc) (v : Rel ℝ ℂ) (hv : valueAt h s = some (.spectrum, v)) :
    (∀ w, valueAt h s2 = some (.relation, w) →
      outcome (Mem.spAddPhase Pf Df s (.obj s2) .add) h = asObject .spectrum (v.addPhase w) ∧
      outcome (Mem.spAddPhase Pf Df s (.obj s2) .sub) h = asObject .spectrum (v.subPhase w)) ∧
    (∀ c u, isSignal h c s2 u → cacheFits h s2 u →
      outcome (Mem.spAddPhase Pf Df s (.obj s2) .add) h = asObject .spectrum (u.getSpectrum >>= fun w => v.addPhase w) ∧
      outcome (Mem.spAddPhase Pf Df s (.obj s2) .sub) h = asObject .spectrum (u.getSpectrum >>= fun w => v.subPhase w)) := by
  have hs := relIs_of_valueAt hv
  refine ⟨fun w hw => ?_, fun c u hu hf => ?_⟩
  · have ha : AsSpectrum h s2 (.ok w) := .plain .relation w (relIs_of_valueAt hw) rfl
    exact ⟨outcome_of_sim ((sim_spAddPhase_any hc hs ha .add rfl).mono fun _ _ _ => isNew_of_cp),
      outcome_of_sim ((sim_spAddPhase_any hc hs ha .sub rfl).mono fun _ _ _ => isNew_of_cp)⟩
  · have ha : AsSpectrum h s2 u.getSpectrum := .signal c u (sig_of hu hf) (isSignal_cls hu)
    exact ⟨outcome_of_sim ((sim_spAddPhase_any hc hs ha .add rfl).mono fun _ _ _ => isNew_of_cp),
      outcome_of_sim ((sim_spAddPhase_any hc hs ha .sub rfl).mono fun _ _ _ => isNew_of_cp)⟩

/-- **C126** `Signal.add_phase`, `sub_phase` with an operand that is a relation or a signal, possibly the same object. The spectrum of
the object is computed before the spectrum of the operand. -/
theorem C126_signal_phase (hc : Coh Pf h) (c : Cls) (s s2 : Loc) (v : Rel ℝ ℝ) (hv : isSignal h c s v) (hf : cacheFits h s v)
    (hs : c = .sweep → Derives (fourier T)) :
    (∀ w, valueAt h s2 = some (.relation, w) →
      outcome (Mem.sgAddPhase Pf Df s (.obj s2) .add) h = asSignal c (v.signalAddPhase w) ∧
      outcome (Mem.sgAddPhase Pf Df s (.obj s2) .sub) h = asSignal c (v.signalSubPhase w)) ∧
    (∀ c2 u, isSignal h c2 s2 u → cacheFits h s2 u →
      outcome (Mem.sgAddPhase Pf Df s (.obj s2) .add) h =
        asSignal c (do let _ ← v.getSpectrum; let w ← u.getSpectrum; v.signalAddPhase w) ∧
      outcome (Mem.sgAddPhase Pf Df s (.obj s2) .sub) h =
        asSignal c (do let _ ← v.getSpectrum; let w ← u.getSpectrum; v.signalSubPhase w)) := by
  have hn := fine_of_derives hs
  have hsig := sig_of hv hf
  have add : ∀ x, (do
      let sp ← v.getSpectrum
      let w ← x
      let q ← withPhase .add sp w
      let g ← q.getSignal (.axis v.x)
      Rel.init (.rel g) none : Except Err (Rel ℝ ℝ)) = (do let _ ← v.getSpectrum; let w ← x; v.signalAddPhase w) := by
    intro x
    unfold Rel.signalAddPhase
    rcases v.getSpectrum with e | sp
    · rfl
    · rcases x with e | w <;> rfl
  have sub : ∀ x, (do
      let sp ← v.getSpectrum
      let w ← x
      let q ← withPhase .sub sp w
      let g ← q.getSignal (.axis v.x)
      Rel.init (.rel g) none : Except Err (Rel ℝ ℝ)) = (do let _ ← v.getSpectrum; let w ← x; v.signalSubPhase w) := by
    intro x
    unfold Rel.signalSubPhase
    rcases v.getSpectrum with e | sp
    · rfl
    · rcases x with e | w <;> rfl
  refine ⟨fun w hw => ?_, fun c2 u hu hf2 => ?_⟩
  · have ha : AsSpectrum h s2 (.ok w) := .plain .relation w (relIs_of_valueAt hw) rfl
    have k1 := sim_sgAddPhase_any hc hsig hn ha .add rfl
    have k2 := sim_sgAddPhase_any hc hsig hn ha .sub rfl
    rw [add] at k1
    rw [sub] at k2
    have e1 : (do let _ ← v.getSpectrum; let w ← .ok w; v.signalAddPhase w : Except Err (Rel ℝ ℝ)) = v.signalAddPhase w := by
      unfold Rel.signalAddPhase
      rcases v.getSpectrum with e | sp <;> rfl
    have e2 : (do let _ ← v.getSpectrum; let w ← .ok w; v.signalSubPhase w : Except Err (Rel ℝ ℝ)) = v.signalSubPhase w := by
      unfold Rel.signalSubPhase
      rcases v.getSpectrum with e | sp <;> rfl
    rw [e1] at k1
    rw [e2] at k2
    exact ⟨outcome_of_sim k1, outcome_of_sim k2⟩
  · have ha : AsSpectrum h s2 u.getSpectrum := .signal c2 u (sig_of hu hf2) (isSignal_cls hu)
    have k1 := sim_sgAddPhase_any hc hsig hn ha .add rfl
    have k2 := sim_sgAddPhase_any hc hsig hn ha .sub rfl
    rw [add] at k1
    rw [sub] at k2
    exact ⟨outcome_of_sim k1, outcome_of_sim k2⟩

/-! ## convolution and correlation -/

/-- **C126** `Signal.convolve`, `correlate`, `Sweep.convolve`, `correlate` of relations, signals and sweeps in any combination: a relation is
made a signal first -/
theorem C126_convolve_correlate (hc : Coh Pf h) (c c1 c2 : Cls) (s1 s2 : Loc) (v1 v2 : Rel ℝ ℝ) (h1 : realObject h c1 s1 v1)
    (h2 : realObject h c2 s2 v2) (hk : c = .signal ∨ c = .sweep)
    (hs : c = .sweep ∨ c1 = .sweep ∨ c2 = .sweep → Derives (fourier T)) :
    let C := defaultConvMethods Pf Df
    outcome (clsConv Pf Df C.convolveCall c (.obj s1) (.obj s2)) h = asSignal c (v1.signalConvolve v2) ∧
    outcome (clsConv Pf Df C.correlateCall c (.obj s1) (.obj s2)) h = asSignal c (v1.signalCorrelate v2) := by
  have hk' : c.isSignal = true := by rcases hk with rfl | rfl <;> rfl
  have n1 : Fine (fourier T) Df c1 := fine_of_derives fun e => hs (.inr (.inl e))
  have n2 : Fine (fourier T) Df c2 := fine_of_derives fun e => hs (.inr (.inr e))
  have nc : Fine (fourier T) Df c := fine_of_derives fun e => hs (.inl e)
  exact ⟨outcome_of_sim (sim_clsConv_any hc (arg_of h1) (arg_of h2) hk' n1 n2 nc npConvolve npConvolve_castC fun _ _ _ _ => rfl),
    outcome_of_sim (sim_clsConv_any hc (arg_of h1) (arg_of h2) hk' n1 n2 nc npCorrelate npCorrelate_castC fun _ _ _ _ => rfl)⟩

/-! ## codes -/

/-- **C126** `get_code_zinger_relation` of a signal or sweep object -/
theorem C126_zinger (hL : UsualProducts L) (hc : Coh Pf h) (c : Cls) (r : Loc) (v : Rel ℝ ℝ) (hv : isSignal h c r v)
    (hf : cacheFits h r v) (hs : c = .sweep → Derives (fourier T)) (n : ℤ) :
    outcome (zingerRelation Pf L Df r n) h = asSignal c (getCodeZingerSignal v n) :=
  outcome_of_sim (sim_zinger_signal hL.times hc (sig_of hv hf) (isSignal_cls hv) (fine_of_derives hs) n)

/-- a relation made a sweep keeps its values -/
theorem init_rel_values {P : SweepPrims ℝ} (hP : AlwaysDescribed P) {r : Rel ℝ ℝ} (hb : Balanced r) :
    (Sweep.init P (.rel r) none none none none).map Sweep.rel = .ok r := by
  obtain ⟨s, hs⟩ := hP r hb
  rw [hs]
  have e := hs
  unfold Sweep.init at e
  rw [show Rel.init (.rel r) none = .ok r from rfl] at e
  simp only [except_bind_ok] at e
  obtain ⟨f, -, e⟩ := except_bind_eq_ok.1 e
  obtain ⟨a, -, e⟩ := except_bind_eq_ok.1 e
  obtain ⟨d, -, e⟩ := except_bind_eq_ok.1 e
  obtain ⟨g, -, e⟩ := except_bind_eq_ok.1 e
  cases e
  rfl

theorem map_rel_bind {α : Type} {x : Except Err (Sweep ℝ)} {y : Except Err (Rel ℝ ℝ)} (hx : x.map Sweep.rel = y)
    {f : Sweep ℝ → Except Err α} {g : Rel ℝ ℝ → Except Err α} (hf : ∀ s, f s = g s.rel) : (x >>= f) = (y >>= g) := by
  subst hx
  rcases x with e | s
  · rfl
  · exact hf s

theorem operation_values {P : SweepPrims ℝ} (hP : AlwaysDescribed P) (s : Sweep ℝ) (b : Operand ℝ ℝ) (op : MathOp) :
    (s.operation P b op).map Sweep.rel = s.rel.operation b op := by
  unfold Sweep.operation
  rw [except_map_bind]
  rcases hr : s.rel.operation b op with e | r
  · rfl
  · have hb := operation_balanced hr
    have : Sweep.init P (.axis r.x) (some r.y) none none none = Sweep.init P (.rel r) none none none none := by
      unfold Sweep.init
      rw [show Rel.init (.rel r) none = .ok r from rfl, init_axis, make_ok hb]
    show (Sweep.init P (.axis r.x) (some r.y) none none none).map Sweep.rel = _
    rw [this]
    exact init_rel_values hP hb

theorem signalShift_balanced {v w : Rel ℝ ℝ} {d : ℝ} (e : v.signalShift d = .ok w) : Balanced w := by
  obtain ⟨sp, -, e⟩ := except_bind_eq_ok.1 e
  obtain ⟨f, -, e⟩ := except_bind_eq_ok.1 e
  obtain ⟨q, -, e⟩ := except_bind_eq_ok.1 e
  unfold Rel.signalAddPhase at e
  obtain ⟨sp, -, e⟩ := except_bind_eq_ok.1 e
  obtain ⟨q, -, e⟩ := except_bind_eq_ok.1 e
  obtain ⟨s, hs, e⟩ := except_bind_eq_ok.1 e
  cases e
  have := getSignal_balanced hs
  simpa [Spec.Balanced, Rel.toComplex] using this

theorem shift_values {P : SweepPrims ℝ} (hP : AlwaysDescribed P) (s : Sweep ℝ) (d : ℝ) :
    (s.shift P d).map Sweep.rel = s.rel.signalShift d := by
  unfold Sweep.shift
  rw [except_map_bind]
  rcases hr : s.rel.signalShift d with e | r
  · rfl
  · exact init_rel_values hP (signalShift_balanced hr)

theorem segmentsLoop_values {P : SweepPrims ℝ} (hP : AlwaysDescribed P) (base : Sweep ℝ) (code : List ℝ) : ∀ (cnt : ℕ) (acc : Sweep ℝ),
    (codeSegmentsSweepLoop P base cnt code acc).map Sweep.rel = codeSegmentsSignalLoop base.rel cnt code acc.rel := by
  induction code with
  | nil => intro cnt acc; rfl
  | cons b code ih =>
    intro cnt acc
    unfold codeSegmentsSweepLoop codeSegmentsSignalLoop
    simp only [except_map_bind]
    refine map_rel_bind (shift_values hP _ _) fun s => map_rel_bind (operation_values hP _ _ _) fun p =>
      map_rel_bind (operation_values hP _ _ _) fun a => ih _ _

theorem segments_values {P : SweepPrims ℝ} (hP : AlwaysDescribed P) (code : List ℝ) (base : Rel ℝ ℝ) :
    (getCodeSweepSegmentsSignal P code base).map Sweep.rel = segmentValues code base := by
  unfold getCodeSweepSegmentsSignal
  rcases code with _ | ⟨a, code⟩
  · rfl
  · have e : (do
        let acc ← base.mul (.other (.num a))
        let r ← codeSegmentsSignalLoop base 1 code acc
        Sweep.init P (.rel r) none none none none : Except Err (Sweep ℝ)) = (segmentValues (a :: code) base >>= fun r =>
        Sweep.init P (.rel r) none none none none) := by simp only [segmentValues, bind_assoc]
    show Except.map Sweep.rel (do
        let acc ← base.mul (.other (.num a))
        let r ← codeSegmentsSignalLoop base 1 code acc
        Sweep.init P (.rel r) none none none none : Except Err (Sweep ℝ)) = _
    rw [e, except_map_bind]
    rcases hr : segmentValues (a :: code) base with e | r
    · rfl
    · exact init_rel_values hP (segmentValues_balanced hr)

theorem segments_values_sweep {P : SweepPrims ℝ} (hP : AlwaysDescribed P) (code : List ℝ) (base : Sweep ℝ) :
    (getCodeSweepSegmentsSweep P code base).map Sweep.rel = segmentValues code base.rel := by
  rw [← segments_values hP]
  rcases code with _ | ⟨a, code⟩
  · rfl
  · unfold getCodeSweepSegmentsSweep getCodeSweepSegmentsSignal
    simp only [except_map_bind]
    exact map_rel_bind (operation_values hP _ _ _) fun s => map_rel_bind (segmentsLoop_values hP _ _ _ _) fun r => rfl

/-- **C126** `get_code_sweep_segments` of a code (a relation object, an array object or a list) and a signal or sweep object -/
theorem C126_segments {P : SweepPrims ℝ} (hP : AlwaysDescribed P) (hL : UsualProducts L) (hc : Coh Pf h) (hd : Derives (fourier T))
    (code : HCode ℂ) (y : List ℝ) (hy : codeAt h code = some (y.map fun v : ℝ => (v : ℂ))) (c : Cls) (base : Loc) (v : Rel ℝ ℝ)
    (hv : isSignal h c base v) (hf : cacheFits h base v) :
    outcome (codeSweepSegments Pf L Df code base) h = asSignal .sweep ((getCodeSweepSegmentsSignal P y v).map Sweep.rel) ∧
    ∀ s : Sweep ℝ, s.rel = v →
      outcome (codeSweepSegments Pf L Df code base) h = asSignal .sweep ((getCodeSweepSegmentsSweep P y s).map Sweep.rel) := by
  have k := outcome_of_sim (sim_segments_signal hL.times hc (codeIs_of hy) (sig_of hv hf) (isSignal_cls hv) (fine_of_derives fun _ => hd)
    (fine_of_derives fun _ => hd))
  refine ⟨?_, fun s e => ?_⟩
  · rw [segments_values hP]; exact k
  · subst e; rw [segments_values_sweep hP]; exact k

theorem convolution_values {P : SweepPrims ℝ} (hP : AlwaysDescribed P) (code : CodeArg) (base : Rel ℝ ℝ) :
    (getConvolutionSweepAndCode P code base).map Sweep.rel = convolutionValues code base := by
  unfold getConvolutionSweepAndCode convolutionValues
  simp only [except_map_bind]
  refine bind_congr fun k => ?_
  rcases hr : Rel.signalConvolve k base with e | r
  · rfl
  have hb : Balanced r := by
    obtain ⟨p, -, e⟩ := except_bind_eq_ok.1 hr
    obtain ⟨q, hq, e⟩ := except_bind_eq_ok.1 e
    cases e
    exact balanced_of_make hq
  have e1 := map_rel_bind (init_rel_values hP hb) (f := fun s => (do
      let n ← k.x.size
      let q ← s.rel.getSlice none (some (n * base.x.sample))
      let s ← Sweep.init P (.rel q) none none none none
      (s.shift P base.x.stop).map Sweep.rel : Except Err (Rel ℝ ℝ))) (g := fun s => (do
      let n ← k.x.size
      let q ← s.getSlice none (some (n * base.x.sample))
      let s ← Sweep.init P (.rel q) none none none none
      (s.shift P base.x.stop).map Sweep.rel : Except Err (Rel ℝ ℝ))) fun _ => rfl
  refine e1.trans ?_
  show (k.x.size >>= _) = (k.x.size >>= _)
  refine bind_congr fun n => ?_
  rcases hq : r.getSlice none (some (n * base.x.sample)) with e | q
  · rfl
  have hbq : Balanced q := by
    unfold Rel.getSlice Rel.selectData at hq
    obtain ⟨x, -, hq⟩ := except_bind_eq_ok.1 hq
    obtain ⟨sx, -, hq⟩ := except_bind_eq_ok.1 hq
    split at hq
    · obtain ⟨yy, -, hq⟩ := except_bind_eq_ok.1 hq
      exact balanced_of_make hq
    · cases hq
  exact map_rel_bind (init_rel_values hP hbq) fun s => shift_values hP _ _

/-- **C126** `get_convolution_sweep_and_code` of a code (an object, an array object or a list) and a relation, signal or sweep object -/
theorem C126_convolution {P : SweepPrims ℝ} (hP : AlwaysDescribed P) (hL : UsualProducts L) (hc : Coh Pf h) (hd : Derives (fourier T))
    (code : HCode ℂ) (w : CodeArg) (hw : codeMeans h code w) (c : Cls) (base : Loc) (v : Rel ℝ ℝ) (hv : realObject h c base v) :
    outcome (convolutionSweep Pf L Df (defaultConvMethods Pf Df).convolveCall code base) h =
      asSignal .sweep ((getConvolutionSweepAndCode P w v).map Sweep.rel) := by
  rw [convolution_values hP]
  have hd' : Describes (fourier T) := ((fine_of_derives (T := fourier T) (c := .sweep) fun _ => hd) rfl).2
  exact outcome_of_sim (sim_convolution hL.times hL.last hc (codeMeans_of hw) (arg_of hv) hd' fun _ _ _ _ => rfl)

/-! ## examples -/

/-- a signal object with the samples 1, 2, 3 at -1, 0, 1, a relation object with the samples 1, -1, 0 on its own axis, and an array object
with the entries 1, -1; nothing cached -/
def signalAndCode : Heap ℝ ℂ :=
  { axes := [⟨-1, 1, 1, none, none⟩, ⟨-1, 1, 1, none, none⟩], xarrs := [], yarrs := [[1, 2, 3], [1, -1, 0], [1, -1]],
    rels := [mkRelObj .signal noConfig 0 0 none, mkRelObj .relation noConfig 1 1 none], config := noConfig }

/-- external functions of a sweep that never raise -/
def easyT : Transcendental ℝ ℂ where
  exp := id
  max _ := .ok 0
  min _ := .ok 0
  abs := id
  phase := id
  imag := 0
  shiftFactor _ _ := 0
  rfft y _ := .ok y
  rfftfreq _ _ := .ok []
  irfft y _ := .ok y
  instFreq y _ := .ok y
  envelope y := .ok y
  spectrogram _ _ := .ok ()

/-- the products of ℝ; the other library functions do not matter here -/
def easyL : LibPrims ℝ ℂ where
  times n x := n * x
  last n x := (n - 1) * x
  mul x y := x * y
  zero := 0
  linear _ _ _ := .ok []
  tukey _ _ _ := .ok []
  shuffled _ _ := .ok []
  bits _ := .ok 0
  draw _ := []
  unit := 1
  isZero _ := false
  maxLenSeq y := .ok y
  clip _ y := .ok y
  below _ := true

theorem alwaysDescribed_real : AlwaysDescribed realPrims := by
  intro r _
  obtain ⟨d, g, h1, h2⟩ := realPrims_works r
  refine ⟨⟨r, ⟨r.x, r.y.map fun _ => 0⟩, ⟨r.x, r.y.map abs⟩, g, none⟩, ?_⟩
  have hr : Rel.init (.rel r) none = .ok r := rfl
  simp only [Sweep.init, hr, except_bind_ok, h1, h2]
  rfl

/-- every hypothesis of the theorems above holds in this heap -/
example :
    let v : Rel ℝ ℝ := ⟨⟨-1, 1, 1⟩, [1, 2, 3]⟩
    let w : Rel ℝ ℝ := ⟨⟨-1, 1, 1⟩, [1, -1, 0]⟩
    AlwaysDescribed realPrims ∧ UsualProducts easyL ∧ Derives (fourier easyT) ∧
    Coh (exactPrims (fourier easyT)) signalAndCode ∧
    isSignal signalAndCode .signal 0 v ∧ cacheFits signalAndCode 0 v ∧
    realObject signalAndCode .signal 0 v ∧ realObject signalAndCode .relation 1 w ∧
    valueAt signalAndCode 1 = some (.relation, w.toComplex) ∧
    codeMeans signalAndCode (.rel 1 false) (.rel w) ∧ codeMeans signalAndCode (.arr 2 false) (.list [1, -1]) ∧
    codeMeans signalAndCode (.list [1, -1]) (.list [1, -1]) ∧
    codeAt signalAndCode (.arr 2 false) = some (([1, -1] : List ℝ).map fun v : ℝ => (v : ℂ)) := by
  have hv : valueAt signalAndCode 0 = some (.signal, (⟨⟨-1, 1, 1⟩, [1, 2, 3]⟩ : Rel ℝ ℝ).toComplex) := by
    simp [valueAt, signalAndCode, mkRelObj, fieldsAt, fields, Rel.toComplex]
  have hw : valueAt signalAndCode 1 = some (.relation, (⟨⟨-1, 1, 1⟩, [1, -1, 0]⟩ : Rel ℝ ℝ).toComplex) := by
    simp [valueAt, signalAndCode, mkRelObj, fieldsAt, fields, Rel.toComplex]
  have hf : cacheFits signalAndCode 0 ⟨⟨-1, 1, 1⟩, [1, 2, 3]⟩ := fits_of_none rfl
  have ho : realObject signalAndCode .relation 1 ⟨⟨-1, 1, 1⟩, [1, -1, 0]⟩ := ⟨nofun, hw, fun h => by simp at h⟩
  refine ⟨alwaysDescribed_real, ⟨fun _ _ => rfl, fun _ _ => rfl⟩, ?_, ?_, ⟨.inl rfl, hv⟩, hf, ⟨nofun, hv, fun _ => hf⟩, ho, hw, ⟨_, ho⟩,
    ?_, ?_, ?_⟩
  · exact fun y d _ => ⟨⟨y, rfl, rfl⟩, ⟨y, rfl, rfl⟩, rfl⟩
  · intro i a hi
    have : a = ⟨-1, 1, 1, none, none⟩ := by
      rcases i with _ | _ | i
      · exact (Option.some.inj hi).symm
      · exact (Option.some.inj hi).symm
      · simp [signalAndCode] at hi
    subst this
    constructor <;> intro _ h <;> cases h
  · simp [codeMeans, signalAndCode]
  · simp [codeMeans]
  · simp [codeAt, signalAndCode]

end

end SweepDesign
