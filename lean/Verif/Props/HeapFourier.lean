import Verif.Heap.RefineFourier
import Verif.Props.HeapRefine
import Verif.Props.HeapCache
import Verif.Props.FourierSum

/-!
# C84: transforms of signal and spectrum objects

The spectral theorems of the value layer (C36–C46, C69–C71, C74, C78–C81) speak about signals and spectra as pairs of an
axis and y values. Here: the calls on signal and spectrum objects return objects with exactly the values these functions
compute from the current axis fields and y values, or raise the same exception, provided the object has no cached
counterpart or the cached one belongs to the current values (C44 says what happens otherwise).
-/

set_option linter.unusedSectionVars false

namespace SweepDesign

open Mem Spec HM

noncomputable section

variable {T : Transcendental ℝ ℂ} {h : Heap ℝ ℂ}

/-- the number operations of the spectral value layer, with the default Config -/
local notation "Pf" => exactPrims (fourier T)
local notation "Df" => defaultMethods (exactPrims (fourier T))

/-- the object `s` is a signal (or a sweep) with the real values `v` -/
structure Spec.isSignal (h : Heap ℝ ℂ) (c : Cls) (s : Loc) (v : Rel ℝ ℝ) : Prop where
  cls : c = .signal ∨ c = .sweep
  value : valueAt h s = some (c, v.toComplex)

/-- If the signal object `s` has a cached spectrum, this is the spectrum of the values `v`. -/
def Spec.cacheFits (h : Heap ℝ ℂ) (s : Loc) (v : Rel ℝ ℝ) : Prop :=
  ∀ k, counterpartAt h s = some k → ∃ sp, v.getSpectrum = .ok sp ∧ valueAt h k = some (.spectrum, sp)

/-- the size argument `f` of a transform currently means `f'` -/
def Spec.sizeMeans (h : Heap ℝ ℂ) : HSize → SizeArg → Prop
  | .none, .none => True
  | .int k, .int k' => k = k'
  | .axis l, .axis a => fieldsAt h l = some a
  | _, _ => False

/-- the value layer's answer as a signal object (or a sweep object) -/
def Spec.asSignal (c : Cls) (x : Except Err (Rel ℝ ℝ)) : Except Err (Option (Cls × Rel ℝ ℂ)) :=
  asObject c (x.map Rel.toComplex)

theorem isSignal_cls {c : Cls} {s : Loc} {v : Rel ℝ ℝ} (hv : isSignal h c s v) : c.isSignal = true := by
  rcases hv.cls with rfl | rfl <;> rfl

theorem sizeIs_of_means {f : HSize} {f' : SizeArg} (hf : sizeMeans h f f') : SizeIs h f f' := by
  cases f <;> cases f' <;> simp only [sizeMeans, SizeIs] at hf ⊢
  · exact hf
  · rwa [fieldsAt, Option.map_eq_some_iff] at hf

theorem fresh_of_fits {s : Loc} {c : Cls} {v : Rel ℝ ℝ} {w : Rel ℝ ℂ} {o : RelObj} (hr : RelIs h s c w o)
    (hf : cacheFits h s v) : FreshSpectrum h o v := by
  intro k hk
  obtain ⟨sp, e, hv⟩ := hf k (by rw [counterpartAt, hr.rel]; exact hk)
  obtain ⟨u, hu⟩ := relIs_of_valueAt hv
  exact ⟨sp, u, e, hu⟩

theorem fits_of_none {s : Loc} {v : Rel ℝ ℝ} (hn : counterpartAt h s = none) : cacheFits h s v := by
  intro k hk
  rw [hn] at hk
  cases hk

theorem isNew_of_cp {c : Cls} {cp : Option Loc} {h' : Heap ℝ ℂ} {l : Loc} {v : Rel ℝ ℂ} (hh : IsNewCp c cp h' l v) :
    IsNew c h' l v := hh.imp fun _ => And.left

/-- storing the counterpart does not change what the call returned -/
theorem outcome_refill {s : Loc} {o : RelObj} (ho : h.rels[s]? = some o) {m : HM ℝ ℂ Loc} {c : Cls}
    {x : Except Err (Rel ℝ ℂ)} (hm : Sim Pf h m x (IsNew c)) :
    outcome (m >>= fun k => getRel s >>= fun o => putRel s { o with counterpart := some k } >>= fun _ => pure k) h =
      asObject c x := by
  have w := hm.le; have ag := hm.agree
  rcases hr : m h with ⟨e | k, h1⟩
  · rw [hr] at ag
    rcases x with e' | v
    · have e1 : e = e' := ag
      subst e1
      unfold outcome
      rw [bind_of_error hr]; rfl
    · exact ag.elim
  · rw [hr] at ag w
    rcases x with e' | v
    · exact ag.elim
    · obtain ⟨u, hu⟩ := ag
      obtain ⟨o1, ho1, -⟩ := w.rels s o ho
      obtain ⟨u', hu', -⟩ := relIs_put hu ho1 (some k)
      unfold outcome
      rw [bind_of_ok hr, bind_of_ok (getRel_run ho1)]
      show Except.ok (valueAt _ k) = _
      rw [asObject, Except.map, ← valueAt_of_relIs hu']
      rfl

/-- **C84** `get_spectrum`: without an argument, and with a given frequency axis or size. -/
theorem C84_get_spectrum (hc : Coh Pf h) (c : Cls) (s : Loc) (v : Rel ℝ ℝ) (hv : isSignal h c s v) :
    (cacheFits h s v → outcome (Mem.getSpectrum Pf Df s) h = asObject .spectrum v.getSpectrum) ∧
    (∀ f f' z, sizeMeans h f f' → counterpartAt h s = none ∨ Given f →
      outcome (Mem.getSpectrum Pf Df s f z) h = asObject .spectrum (v.getSpectrum f' z)) ∧
    (cacheFits h s v → outcome (sgAmp Pf Df s .none false) h =
      asObject .relation ((v.getSpectrum >>= Rel.getAmpSpectrum).map Rel.toComplex)) ∧
    (cacheFits h s v → outcome (sgPhase Pf Df s .none false) h =
      asObject .relation ((v.getSpectrum >>= Rel.getPhaseSpectrum).map Rel.toComplex)) := by
  obtain ⟨o, ho⟩ := relIs_of_valueAt hv.value
  refine ⟨fun hf => outcome_of_sim ((sim_getSpectrum hc ho (fresh_of_fits ho hf)).mono fun _ _ _ => And.left), ?_, ?_, ?_⟩
  · intro f f' z hf hn
    have k : Sim Pf h ((Df).signal2spectrum o.caps.transform s f z >>= fun p => construct Pf Df .spectrum (.axis p.1) (.arr p.2) (some s))
        (v.getSpectrum f' z) (IsNew .spectrum) :=
      (sim_signal2spectrum hc ho (sizeIs_of_means hf) z _).bind fun p q h1 w1 c1 hp =>
        sim_construct_axis c1 _ (.of_ne (by decide)) hp.1 hp.2 _
    have k2 := outcome_refill ho.rel k
    rw [hm_assoc] at k2
    rw [← k2]
    unfold outcome Mem.getSpectrum
    rw [bind_of_ok (getRel_run ho.rel)]
    rw [counterpartAt, ho.rel] at hn
    rcases hcp : o.counterpart with _ | k
    · rfl
    · rcases hn with hn | hn
      · simp [hcp] at hn
      · rw [given_iff.2 hn]
  · intro hf
    refine outcome_of_sim (P := Pf) ?_
    rw [except_map_bind]
    exact (sim_getSpectrum hc ho (fresh_of_fits ho hf)).bind fun sp w h1 w1 c1 hsp => by
      obtain ⟨⟨u, hu⟩, -⟩ := hsp
      exact sim_getAmp c1 hu
  · intro hf
    refine outcome_of_sim (P := Pf) ?_
    rw [except_map_bind]
    exact (sim_getSpectrum hc ho (fresh_of_fits ho hf)).bind fun sp w h1 w1 c1 hsp => by
      obtain ⟨⟨u, hu⟩, -⟩ := hsp
      exact sim_getPhase c1 hu

/-- **C84** calls on a spectrum object; `Spectrum.add_phase` and `sub_phase` with another spectrum object (or itself) -/
theorem C84_spectrum_calls (hc : Coh Pf h) (s : Loc) (v : Rel ℝ ℂ) (hv : valueAt h s = some (.spectrum, v)) :
    (∀ t t' ts, sizeMeans h t t' → counterpartAt h s = none ∨ Given t →
      outcome (Mem.getSignal Pf Df s t ts) h = asSignal .signal (v.getSignal t' ts)) ∧
    outcome (Mem.getAmp Pf Df s) h = asObject .relation (v.getAmpSpectrum.map Rel.toComplex) ∧
    outcome (Mem.getPhase Pf Df s) h = asObject .relation (v.getPhaseSpectrum.map Rel.toComplex) ∧
    (∀ p b fs fe, outcome (Mem.reverseFilter Pf Df s p b fs fe) h = asObject .spectrum (v.getReverseFilter p b fs fe)) ∧
    (∀ s2 w, valueAt h s2 = some (.spectrum, w) →
      outcome (Mem.spAddPhase Pf Df s (.obj s2) .add) h = asObject .spectrum (v.addPhase w) ∧
      outcome (Mem.spAddPhase Pf Df s (.obj s2) .sub) h = asObject .spectrum (v.subPhase w)) := by
  obtain ⟨o, ho⟩ := relIs_of_valueAt hv
  refine ⟨?_, outcome_of_sim (sim_getAmp hc ho), outcome_of_sim (sim_getPhase hc ho),
    fun p b fs fe => outcome_of_sim ((sim_reverseFilter hc ho (.of_ne (by decide)) p b fs fe).mono fun _ _ _ => isNew_of_cp), ?_⟩
  · intro t t' ts ht hn
    have k : Sim Pf h ((Df).spectrum2signal o.caps.transform s t ts >>= fun p => construct Pf Df .signal (.axis p.1) (.arr p.2) (some s))
        ((v.getSignal t' ts).map Rel.toComplex) (IsNew .signal) := by
      refine Sim.to_map ((sim_spectrum2signal hc ho (sizeIs_of_means ht) ts _).bind fun p q h1 w1 c1 hp => ?_)
      refine Sim.of_map ?_
      rw [← make_castC]
      exact sim_construct_axis c1 _ (.of_ne (by decide)) hp.1 hp.2 _
    have k2 := outcome_refill ho.rel k
    rw [hm_assoc] at k2
    rw [asSignal, ← k2]
    unfold outcome Mem.getSignal
    rw [bind_of_ok (getRel_run ho.rel)]
    rw [counterpartAt, ho.rel] at hn
    rcases hcp : o.counterpart with _ | k
    · rfl
    · rcases hn with hn | hn
      · simp [hcp] at hn
      · rw [given_iff.2 hn]
  · intro s2 w hw
    obtain ⟨o2, ho2⟩ := relIs_of_valueAt hw
    exact ⟨outcome_of_sim ((sim_spAddPhase hc ho ho2 rfl .add rfl).mono fun _ _ _ => isNew_of_cp),
      outcome_of_sim ((sim_spAddPhase hc ho ho2 rfl .sub rfl).mono fun _ _ _ => isNew_of_cp)⟩

/-- **C84** `Spectrum.get_spectrum_from_amp_phase` of two relation objects (or one for both) -/
theorem C84_from_amp_phase (hc : Coh Pf h) (a p : Loc) (va vp : Rel ℝ ℝ) (ha : valueAt h a = some (.relation, va.toComplex))
    (hp : valueAt h p = some (.relation, vp.toComplex)) :
    outcome (Mem.fromAmpPhase Pf Df a p) h = asObject .spectrum (Rel.fromAmpPhase va vp) := by
  obtain ⟨oa, ha⟩ := relIs_of_valueAt ha
  obtain ⟨op, hp⟩ := relIs_of_valueAt hp
  exact outcome_of_sim ((sim_fromAmpPhase hc ha hp).mono fun _ _ _ => isNew_of_cp)

/-- **C84** `Signal.shift`, `add_phase`, `sub_phase`, `get_reverse_signal`; the class of the object is kept -/
theorem C84_signal_calls (hc : Coh Pf h) (c : Cls) (s : Loc) (v : Rel ℝ ℝ) (hv : isSignal h c s v) (hf : cacheFits h s v)
    (hs : c = .sweep → Derives (fourier T)) :
    (∀ d, outcome (Mem.shift Pf Df s d) h = asSignal c (v.signalShift d)) ∧
    (∀ p b fs fe, outcome (Mem.reverseSignal Pf Df s p b fs fe) h = asSignal c (v.getReverseSignal p b fs fe)) ∧
    (∀ s2 w, valueAt h s2 = some (.spectrum, w) →
      outcome (Mem.sgAddPhase Pf Df s (.obj s2) .add) h = asSignal c (v.signalAddPhase w) ∧
      outcome (Mem.sgAddPhase Pf Df s (.obj s2) .sub) h = asSignal c (v.signalSubPhase w)) := by
  obtain ⟨o, ho⟩ := relIs_of_valueAt hv.value
  have hfr := fresh_of_fits ho hf
  have hn := fine_of_derives hs
  refine ⟨fun d => ?_, fun p b fs fe => outcome_of_sim (sim_reverseSignal hc ho hn hfr p b fs fe), ?_⟩
  · have k := sim_sgShift hc ho hn hfr d
    have e : Mem.shift Pf Df s d h = Mem.sgShift Pf Df s d h := by
      unfold Mem.shift
      rw [bind_of_ok (getRel_run ho.rel), ho.cls, isSignal_cls hv]; rfl
    exact outcome_of_sim (k.congr e)
  · intro s2 w hw
    obtain ⟨o2, ho2⟩ := relIs_of_valueAt hw
    exact ⟨outcome_of_sim (sim_sgAddPhase hc ho hn hfr ho2 .add rfl), outcome_of_sim (sim_sgAddPhase hc ho hn hfr ho2 .sub rfl)⟩

/-- **C84** `Signal.convolve` and `Signal.correlate` (`c = .signal`), `Sweep.convolve` and `Sweep.correlate` (`c = .sweep`) of
two signal or sweep objects, or of one object with itself -/
theorem C84_convolve_correlate (hc : Coh Pf h) (c c1 c2 : Cls) (s1 s2 : Loc) (v1 v2 : Rel ℝ ℝ) (h1 : isSignal h c1 s1 v1)
    (h2 : isSignal h c2 s2 v2) (f1 : cacheFits h s1 v1) (f2 : cacheFits h s2 v2) (hk : c = .signal ∨ c = .sweep)
    (hs : c = .sweep ∨ c1 = .sweep ∨ c2 = .sweep → Derives (fourier T)) :
    let C := defaultConvMethods Pf Df
    outcome (clsConv Pf Df C.convolveCall c (.obj s1) (.obj s2)) h = asSignal c (v1.signalConvolve v2) ∧
    outcome (clsConv Pf Df C.correlateCall c (.obj s1) (.obj s2)) h = asSignal c (v1.signalCorrelate v2) := by
  obtain ⟨o1, ho1⟩ := relIs_of_valueAt h1.value
  obtain ⟨o2, ho2⟩ := relIs_of_valueAt h2.value
  have hk' : c.isSignal = true := by rcases hk with rfl | rfl <;> rfl
  have n1 : Fine (fourier T) Df c1 := fine_of_derives fun e => hs (.inr (.inl e))
  have n2 : Fine (fourier T) Df c2 := fine_of_derives fun e => hs (.inr (.inr e))
  have nc : Fine (fourier T) Df c := fine_of_derives fun e => hs (.inl e)
  exact ⟨outcome_of_sim (sim_clsConv_signal hc ho1 ho2 (isSignal_cls h1) (isSignal_cls h2) hk' n1 n2 nc
      (fresh_of_fits ho1 f1) (fresh_of_fits ho2 f2) npConvolve npConvolve_castC fun _ _ => rfl),
    outcome_of_sim (sim_clsConv_signal hc ho1 ho2 (isSignal_cls h1) (isSignal_cls h2) hk' n1 n2 nc
      (fresh_of_fits ho1 f1) (fresh_of_fits ho2 f2) npCorrelate npCorrelate_castC fun _ _ => rfl)⟩

/-- **C84** the cache fits from the moment `get_spectrum()` filled it, and for objects that have no cached counterpart -/
theorem C84_cache_fits (hc : Coh Pf h) (c : Cls) (s k : Loc) (v : Rel ℝ ℝ) (hv : isSignal h c s v) (h' : Heap ℝ ℂ)
    (hn : counterpartAt h s = none) :
    cacheFits h s v ∧ (Mem.getSpectrum Pf Df s .none false h = (.ok k, h') → isSignal h' c s v ∧ cacheFits h' s v) := by
  refine ⟨fits_of_none hn, fun hh => ?_⟩
  obtain ⟨o, ho⟩ := relIs_of_valueAt hv.value
  have ks := (sim_getSpectrum hc ho (fresh_of_fits ho (fits_of_none hn))).eq
  have w := ks.le
  have ag := ks.agree
  rw [hh] at w ag
  obtain ⟨o', ho', -⟩ := ho.le w
  refine ⟨⟨hv.cls, valueAt_of_relIs ho'⟩, fun k' hk' => ?_⟩
  have hcp := getSpectrum_ok good_defaultMethods hh
  rcases hsp : v.getSpectrum with e | sp
  · rw [hsp] at ag; exact ag.elim
  · rw [hsp] at ag
    obtain ⟨⟨⟨u, hu⟩, -⟩, -⟩ := ag
    refine ⟨sp, rfl, ?_⟩
    have : k' = k := Option.some.inj (hk'.symm.trans hcp)
    subst this
    exact valueAt_of_relIs hu

/-- one signal object with the samples 1, 2, 3 at -1, 0, 1; nothing cached -/
def oneRealSignal : Heap ℝ ℂ :=
  { axes := [{ start := -1, stop := 1, sample := 1, arr := none, actual := none }], xarrs := [], yarrs := [[1, 2, 3]],
    rels := [mkRelObj .signal noConfig 0 0 none], config := noConfig }

/-- `get_spectrum()` of that object returns a spectrum whose value at frequency 0 is the sum of the samples; shifting the
object and convolving it with itself give the value layer's results. -/
example : Coh Pf oneRealSignal ∧ isSignal oneRealSignal .signal 0 ⟨⟨-1, 1, 1⟩, [1, 2, 3]⟩ ∧
    cacheFits oneRealSignal 0 ⟨⟨-1, 1, 1⟩, [1, 2, 3]⟩ ∧
    (∃ sp lf lv, outcome (Mem.getSpectrum Pf Df 0) oneRealSignal = .ok (some (.spectrum, sp)) ∧ sp.getData = .ok (lf, lv) ∧
      lv.length = 2 ∧ ∀ h1 : 0 < lv.length, lv[0] = 6) ∧
    outcome (Mem.shift Pf Df 0 1) oneRealSignal = asSignal .signal (Rel.signalShift ⟨⟨-1, 1, 1⟩, [1, 2, 3]⟩ 1) := by
  have hc : Coh Pf oneRealSignal := by
    intro i a hi
    have : a = { start := -1, stop := 1, sample := 1, arr := none, actual := none } := by
      rcases i with _ | i
      · exact (Option.some.inj hi).symm
      · simp [oneRealSignal] at hi
    subst this
    constructor <;> intro _ h <;> cases h
  have hv : isSignal oneRealSignal .signal 0 ⟨⟨-1, 1, 1⟩, [1, 2, 3]⟩ := by
    refine ⟨.inl rfl, ?_⟩
    simp [valueAt, oneRealSignal, mkRelObj, fieldsAt, fields, Rel.toComplex]
  have hf : cacheFits oneRealSignal 0 ⟨⟨-1, 1, 1⟩, [1, 2, 3]⟩ := fits_of_none rfl
  refine ⟨hc, hv, hf, ?_, (C84_signal_calls hc _ 0 _ hv hf nofun).1 1⟩
  have hx : (⟨-1, 1, 1⟩ : Axis ℝ).array = .ok [-1, 0, 1] := by
    have := array_whole (⟨-1, 1, 1⟩ : Axis ℝ) 2 (by norm_num) (by norm_num)
    rw [this]
    simp [List.range_succ]
    norm_num
  have hd : (⟨⟨-1, 1, 1⟩, [1, 2, 3]⟩ : Rel ℝ ℝ).getData = .ok ([-1, 0, 1], [1, 2, 3]) :=
    (getData_ok_iff _ _ _).2 ⟨hx, rfl, rfl⟩
  obtain ⟨sp, lf, lv, e, hg, hl1, hl2, hk⟩ := C69_fourier_sum _ _ _ hd 1 one_pos (-1) 1 (by norm_num) rfl (by norm_num)
    (by norm_num) 3 (by norm_num)
  refine ⟨sp, lf, lv, ?_, hg, hl2, fun h1 => ?_⟩
  · rw [(C84_get_spectrum hc _ 0 _ hv).1 hf, e]; rfl
  · obtain ⟨e1, e2⟩ := hk 0 (by omega) h1
    rw [e2, e1]
    norm_num [Finset.sum_range_succ]


end

end SweepDesign
