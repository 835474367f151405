import Verif.Model.ComplexSamples
import Verif.Props.ConvSpectrum
import Verif.Props.SignalShift
import Verif.Props.FourierSum
import Verif.Props.DefaultSpectrogram
import Verif.Props.Exceptions
import Verif.Props.Powers
import Verif.Lemmas.ToComplex

/-!
# Signals and sweeps with complex samples (C149)

`get_spectrum` and everything built on it sees only the real parts of the samples. A sweep with complex samples cannot be made without
descriptions, and with descriptions only at low sampling rates.
-/

set_option linter.unusedSectionVars false

namespace SweepDesign

/-- the signal of the real parts -/
noncomputable def Spec.reals (r : Rel ℝ ℂ) : Rel ℝ ℝ := ⟨r.x, r.y.map fun z => z.re⟩

open Spec

/-! ## the spectrum sees the real parts -/

theorem reorderByTimeC_re (t : Axis ℝ) (y : List ℂ) :
    (reorderByTimeC t y).map (List.map fun z => z.re) = reorderByTime t (y.map fun z => z.re) := by
  unfold reorderByTimeC reorderByTime
  rcases t.array with e | l
  · rfl
  simp only [except_bind_ok, maskSelect_map]
  rcases maskSelect (l.map fun v => decide (0 ≤ v)) y with e | a
  · rfl
  simp only [except_bind_ok, Except.map]
  rcases maskSelect (l.map fun v => decide (v < 0)) y with e | b
  · rfl
  simp [except_bind_ok, except_pure]

theorem calculateSpectrumC_re (t : Axis ℝ) (y : List ℂ) (f : SizeArg) :
    calculateSpectrumC t y f = calculateSpectrum t (y.map fun z => z.re) f := by
  unfold calculateSpectrumC calculateSpectrum
  rcases f.size with e | n
  · rfl
  simp only [except_bind_ok]
  rw [← reorderByTimeC_re]
  rcases reorderByTimeC t y with e | a
  · rfl
  simp only [except_bind_ok, Except.map, rfftC, List.length_map]
  rcases rfft (List.map (fun z => z.re) a) n with e | w
  · rfl
  · rcases f with _ | _ | _ <;> simp

theorem signal2spectrumC_re (r : Rel ℝ ℂ) (f : SizeArg) (z : Bool) :
    signal2spectrumC r f z = signal2spectrum (reals r) f z := by
  have hz : ∀ l : List ℝ, (l.map fun v : ℝ => (v : ℂ)).map (fun z => z.re) = l := fun l => by simp [Function.comp_def]
  unfold signal2spectrumC signal2spectrum
  simp only [calculateSpectrumC_re, List.map_append, hz, reals, List.length_map]

/-- **C149** The spectrum of a signal with complex samples is the spectrum of the signal of their real parts, for every axis and every
argument; where one raises, so does the other. -/
theorem C149_spectrum (r : Rel ℝ ℂ) (f : SizeArg) (z : Bool) : r.getSpectrumC f z = (reals r).getSpectrum f z := by
  unfold Rel.getSpectrumC Rel.getSpectrum
  rw [signal2spectrumC_re]

/-- **C149** Two signals on one axis whose samples differ only in their imaginary parts have the same spectrum. -/
theorem C149_imaginary_ignored (r q : Rel ℝ ℂ) (hx : r.x = q.x) (hl : r.y.length = q.y.length)
    (h : ∀ i (h1 : i < r.y.length) (h2 : i < q.y.length), r.y[i].re = q.y[i].re) (f : SizeArg) (z : Bool) :
    r.getSpectrumC f z = q.getSpectrumC f z := by
  rw [C149_spectrum, C149_spectrum]
  congr 1
  unfold reals
  rw [hx]
  congr 1
  apply List.ext_getElem (by simpa using hl)
  intro i h1 h2
  simpa using h i (by simpa using h1) (by simpa using h2)

/-- **C149** The value at each frequency, for an axis of whole steps: the Fourier sum of the real parts over the times of the signal. -/
theorem C149_fourier_sum (r : Rel ℝ ℂ) (lt : List ℝ) (ly : List ℂ) (h : r.getData = .ok (lt, ly)) (s : ℝ) (hs : 0 < s) (a b : ℤ)
    (hab : a < b) (hsample : r.x.sample = s) (hstart : r.x.start = a * s) (hstop : r.x.stop = b * s) (N : ℕ)
    (hN : (N : ℤ) = max b 0 - min a 0 + 1) :
    ∃ sp lf lv, r.getSpectrumC = .ok sp ∧ sp.getData = .ok (lf, lv) ∧ lf.length = N / 2 + 1 ∧ lv.length = N / 2 + 1 ∧
      ∀ k (h1 : k < lf.length) (h2 : k < lv.length), lf[k] = k / (N * s) ∧
        lv[k] = ∑ j ∈ Finset.range ly.length,
          (((ly.getD j 0).re : ℝ) : ℂ) * Complex.exp (-(2 * Real.pi * Complex.I * ((lf[k] * lt.getD j 0 : ℝ) : ℂ))) := by
  obtain ⟨hx, rfl, hlen⟩ := (getData_ok_iff _ _ _).1 h
  have hd : (reals r).getData = .ok (lt, r.y.map fun z => z.re) := by
    refine (getData_ok_iff _ _ _).2 ⟨hx, rfl, ?_⟩
    simpa using hlen
  obtain ⟨sp, lf, lv, h1, h2, h3, h4, h5⟩ := C69_fourier_sum (reals r) lt _ hd s hs a b hab hsample hstart hstop N hN
  refine ⟨sp, lf, lv, by rw [C149_spectrum]; exact h1, h2, h3, h4, fun k k1 k2 => ?_⟩
  obtain ⟨e1, e2⟩ := h5 k k1 k2
  refine ⟨e1, ?_⟩
  rw [e2, List.length_map]
  refine Finset.sum_congr rfl fun j _ => ?_
  congr 2
  rw [List.getD_eq_getElem?_getD, List.getD_eq_getElem?_getD, List.getElem?_map]
  rcases r.y[j]? with _ | v <;> simp

theorem reals_balanced {r : Rel ℝ ℂ} (h : Balanced r) : Balanced (reals r) := by
  unfold Spec.Balanced at h ⊢
  simpa [reals] using h

/-- **C149** Signal to spectrum and back on the own time axis returns the real parts; it returns the signal itself exactly when all
samples are real. -/
theorem C149_round_trip (r : Rel ℝ ℂ) (h : Balanced r) (hn : 2 ≤ r.y.length) (h0 : r.x.start = 0) (hinc : r.x.start < r.x.stop) :
    ∃ s q, r.getSpectrumC = .ok s ∧ s.getSignal (.axis r.x) = .ok q ∧ q.x = r.x ∧ q.y = (r.y.map fun z => z.re) ∧
      (q.toComplex = r ↔ ∀ z ∈ r.y, z.im = 0) := by
  obtain ⟨s, h1, h2⟩ := C36_round_trip (reals r) (reals_balanced h) (by simpa [reals] using hn) h0 hinc
  refine ⟨s, reals r, by rw [C149_spectrum]; exact h1, h2, rfl, rfl, ?_⟩
  rcases r with ⟨x, y⟩
  simp only [Rel.toComplex, reals, Rel.mk.injEq, true_and, List.map_map]
  constructor
  · intro e z hz
    rw [← e] at hz
    obtain ⟨w, -, rfl⟩ := List.mem_map.1 hz
    simp
  · intro e
    conv_rhs => rw [← List.map_id y]
    refine List.map_congr_left fun z hz => ?_
    apply Complex.ext <;> simp [e z hz]

/-! ## methods of signals -/

/-- **C149** `add_phase`, `sub_phase`, `shift` and `get_reverse_signal` of a signal with complex samples are those of its real parts, and
their results are real. -/
theorem C149_methods (r other : Rel ℝ ℂ) (d percent : ℝ) (b : Bool) (f g : Option ℝ) :
    r.signalAddPhaseC other = (reals r).signalAddPhase other ∧ r.signalSubPhaseC other = (reals r).signalSubPhase other ∧
    r.signalShiftC d = (reals r).signalShift d ∧
    r.getReverseSignalC percent b f g = (reals r).getReverseSignal percent b f g := by
  have ha : ∀ o, r.signalAddPhaseC o = (reals r).signalAddPhase o := fun o => by
    unfold Rel.signalAddPhaseC Rel.signalAddPhase
    rw [C149_spectrum]
    rfl
  refine ⟨ha _, ?_, ?_, ?_⟩
  · unfold Rel.signalSubPhaseC Rel.signalSubPhase
    rw [C149_spectrum]
    rfl
  · unfold Rel.signalShiftC Rel.signalShift
    rw [C149_spectrum]
    simp only [ha]
  · unfold Rel.getReverseSignalC Rel.getReverseSignal
    rw [C149_spectrum]
    rfl

/-- **C149** In arithmetic of a spectrum with a signal, two signals whose samples differ only in their imaginary parts count as the same
operand: the operand is the spectrum of the real parts, on an axis object of its own. -/
theorem C149_spectrum_operand (s r q : Rel ℝ ℂ) (h : reals r = reals q) (op : MathOp) :
    s.spectrumOpSignalC r op = s.spectrumOpSignalC q op ∧
    s.spectrumOpSignalC r op = (reals r).getSpectrum.bind fun sp => s.operation (.rel false sp) op := by
  unfold Rel.spectrumOpSignalC
  rw [C149_spectrum, C149_spectrum, h]
  exact ⟨rfl, rfl⟩

/-- **C149** Shifting a signal by a whole number of samples delays the real parts circularly and drops the imaginary parts; even a shift
by 0. -/
theorem C149_shift (r : Rel ℝ ℂ) (h : Balanced r) (hn : 2 ≤ r.y.length) (h0 : r.x.start = 0) (hinc : r.x.start < r.x.stop) (m : ℤ) :
    ∃ q, r.signalShiftC (m * r.x.sample) = .ok q ∧ q.x = r.x ∧ q.y.length = r.y.length ∧
      ∀ i (hi : i < r.y.length), q.y[((i + m) % r.y.length).toNat]? = some r.y[i].re := by
  obtain ⟨q, h1, h2, h3, h4⟩ := C41_circular_delay (reals r) (reals_balanced h) (by simpa [reals] using hn) h0 hinc m
  refine ⟨q, by rw [(C149_methods r r _ 0 true none none).2.2.1]; exact h1, h2, by simpa [reals] using h3, fun i hi => ?_⟩
  have := h4 i (by simpa [reals] using hi)
  simpa [reals] using this

/-- **C149** Convolution and correlation of signals with complex samples are those of the real parts: `Signal.shift` goes through the
spectrum. -/
theorem C149_convolve (r q : Rel ℝ ℂ) : r.signalConvolveC q = (reals r).signalConvolve (reals q) ∧
    r.signalCorrelateC q = (reals r).signalCorrelate (reals q) := by
  have hs : ∀ (r : Rel ℝ ℂ) d, r.signalShiftC d = (reals r).signalShift d := fun r d =>
    (C149_methods r r d 0 true none none).2.2.1
  have ha : r.signalAlignC q = (reals r).signalAlign (reals q) := by
    unfold Rel.signalAlignC Rel.signalAlign
    simp only [hs]
    rfl
  constructor
  · unfold Rel.signalConvolveC Rel.signalConvolve
    rw [ha]
  · unfold Rel.signalCorrelateC Rel.signalCorrelate
    rw [ha]

/-- **C149** The values of the correlation of two signals from 0 with one step, beside those of the relations with the same samples:
the signals multiply the real parts only. -/
theorem C149_correlate_values (r1 r2 : Rel ℝ ℂ) (h1 : Balanced r1) (h2 : Balanced r2) (k1 k2 : ℕ) (s : ℝ) (hs : 0 < s)
    (p1 : 1 ≤ k1) (p2 : 1 ≤ k2) (e1 : r1.x = ⟨0, k1 * s, s⟩) (e2 : r2.x = ⟨0, k2 * s, s⟩) :
    ∃ c d, r1.signalCorrelateC r2 = .ok c ∧ r1.correlate r2 = .ok d ∧ c.x = d.x ∧ c.y.length = 2 * max k1 k2 + 1 ∧
      d.y.length = 2 * max k1 k2 + 1 ∧
      (∀ j (h : j < c.y.length), c.y[j] = ∑ i ∈ Finset.range (max k1 k2 + 1),
        (zext r1.y (i + ((j : ℤ) - max k1 k2))).re * (r2.y.getD i 0).re) ∧
      ∀ j (h : j < d.y.length), d.y[j] = ∑ i ∈ Finset.range (max k1 k2 + 1),
        zext r1.y (i + ((j : ℤ) - max k1 k2)) * (starRingEnd ℂ) (r2.y.getD i 0) := by
  have len : ∀ (r : Rel ℝ ℂ) (k : ℕ), Balanced r → r.x = ⟨0, k * s, s⟩ → r.y.length = k + 1 := by
    intro r k hb e
    unfold Spec.Balanced at hb
    rw [Axis.size_of_array (array_whole r.x k (by rw [e]; exact hs) (by rw [e]; ring))] at hb
    simpa using (Except.ok.inj hb).symm
  have l1 := len r1 k1 h1 e1
  have l2 := len r2 k2 h2 e2
  have pos : ∀ k : ℕ, 1 ≤ k → (0 : ℝ) < k * s := fun k hk => by
    have : (0 : ℝ) < k := by exact_mod_cast hk
    positivity
  have hz := (signalConvolve_zero (reals r1) (reals r2) (reals_balanced h1) (reals_balanced h2)
    (by simp [reals, l1]; omega) (by simp [reals, l2]; omega) (by simp [reals, e1]) (by simp [reals, e2])
    (by simpa [reals, e1] using pos k1 p1) (by simpa [reals, e2] using pos k2 p2)).2
  obtain ⟨c, c1, c2, c3, c4, c5, c6⟩ := C29_values (reals r1) (reals r2) (reals_balanced h1) (reals_balanced h2)
    k1 k2 s hs (by simp [reals, e1]) (by simp [reals, e2]) (by simp [reals, e1]) (by simp [reals, e2])
  obtain ⟨d, d1, d2, d3, d4, d5, d6⟩ := C29_values r1 r2 h1 h2 k1 k2 s hs (by simp [e1]) (by simp [e2]) (by simp [e1]) (by simp [e2])
  refine ⟨c, d, by rw [(C149_convolve r1 r2).2, hz]; exact c1, d1, ?_, c5, d5, ?_, fun j h => d6 j h⟩
  · rcases c with ⟨⟨_, _, _⟩, _⟩
    rcases d with ⟨⟨_, _, _⟩, _⟩
    simp_all
  · intro j h
    rw [c6 j h]
    refine Finset.sum_congr rfl fun i _ => ?_
    have hg : ∀ (l : List ℂ) (n : ℕ), (l.map fun z => z.re).getD n 0 = (l.getD n 0).re := fun l n => by
      rw [List.getD_eq_getElem?_getD, List.getD_eq_getElem?_getD, List.getElem?_map]
      rcases l[n]? with _ | v <;> simp
    simp only [reals, hg, star_trivial]
    congr 1
    unfold zext
    split
    · exact hg _ _
    · simp

theorem two_balanced (a b : ℂ) : Balanced (⟨⟨0, 1, 1⟩, [a, b]⟩ : Rel ℝ ℂ) :=
  balanced_whole _ 1 (by norm_num) (by norm_num) rfl

/-- **C149** A witness: the samples `i, 2i`. The signal correlates with itself to zeros, the relation to `2, 5, 2`; the spectrum of the signal
is zero, while that of the samples divided by `i` is not. -/
theorem C149_witness :
    (∃ c d, (⟨⟨0, 1, 1⟩, [Complex.I, 2 * Complex.I]⟩ : Rel ℝ ℂ).signalCorrelateC ⟨⟨0, 1, 1⟩, [Complex.I, 2 * Complex.I]⟩ = .ok c ∧
      (⟨⟨0, 1, 1⟩, [Complex.I, 2 * Complex.I]⟩ : Rel ℝ ℂ).correlate ⟨⟨0, 1, 1⟩, [Complex.I, 2 * Complex.I]⟩ = .ok d ∧
      c.y = [0, 0, 0] ∧ d.y = [2, 5, 2]) ∧
    ∃ s q, (⟨⟨0, 1, 1⟩, [Complex.I, 2 * Complex.I]⟩ : Rel ℝ ℂ).getSpectrumC = .ok s ∧
      (⟨⟨0, 1, 1⟩, [1, 2]⟩ : Rel ℝ ℂ).getSpectrumC = .ok q ∧ s.y = [0, 0] ∧ q.y = [3, -1] := by
  constructor
  · have hb := two_balanced Complex.I (2 * Complex.I)
    obtain ⟨c, d, h1, h2, -, h4, h5, h6, h7⟩ := C149_correlate_values _ _ hb hb 1 1 1 one_pos le_rfl le_rfl (by norm_num) (by norm_num)
    refine ⟨c, d, h1, h2, ?_, ?_⟩
    · apply List.ext_getElem (by simpa using h4)
      intro i i1 i2
      rw [h6 i i1]
      match i, i2 with
      | 0, _ => simp [Finset.sum_range_succ, zext]
      | 1, _ => simp [Finset.sum_range_succ, zext]
      | 2, _ => simp [Finset.sum_range_succ, zext]
    · apply List.ext_getElem (by simpa using h5)
      intro i i1 i2
      rw [h7 i i1]
      match i, i2 with
      | 0, _ => norm_num [Finset.sum_range_succ, zext, Complex.ext_iff]
      | 1, _ => norm_num [Finset.sum_range_succ, zext, Complex.ext_iff]
      | 2, _ => norm_num [Finset.sum_range_succ, zext, Complex.ext_iff]
  · have get : ∀ a b : ℂ, ∃ s, (⟨⟨0, 1, 1⟩, [a, b]⟩ : Rel ℝ ℂ).getSpectrumC = .ok s ∧
        s.y = [((a.re : ℝ) : ℂ) + b.re, ((a.re : ℝ) : ℂ) - b.re] := by
      intro a b
      have hd : (⟨⟨0, 1, 1⟩, [a, b]⟩ : Rel ℝ ℂ).getData = .ok ([0, 1], [a, b]) := by
        refine (getData_ok_iff _ _ _).2 ⟨?_, rfl, rfl⟩
        rw [array_whole _ 1 (by norm_num) (by norm_num)]
        simp [List.range_succ]
      obtain ⟨sp, lf, lv, h1, h2, h3, h4, h5⟩ := C149_fourier_sum _ _ _ hd 1 one_pos 0 1 (by norm_num) rfl (by simp) (by simp) 2 (by simp)
      obtain ⟨-, rfl, -⟩ := (getData_ok_iff _ _ _).1 h2
      refine ⟨sp, h1, ?_⟩
      apply List.ext_getElem (by simpa using h4)
      intro i i1 i2
      obtain ⟨e1, e2⟩ := h5 i (by rw [h3]; rw [h4] at i1; exact i1) i1
      rw [e2, e1]
      match i, i2 with
      | 0, _ => simp [Finset.sum_range_succ]
      | 1, _ =>
        have : Complex.exp (-(2 * Real.pi * Complex.I * ((1 : ℝ) / 2 : ℝ))) = -1 := by
          rw [show -(2 * (Real.pi : ℂ) * Complex.I * ((1 : ℝ) / 2 : ℝ)) = -(Real.pi * Complex.I) by push_cast; ring, Complex.exp_neg,
            Complex.exp_pi_mul_I]
          norm_num
        simp [Finset.sum_range_succ] at this ⊢
        rw [this]
        ring
    obtain ⟨s, s1, s2⟩ := get Complex.I (2 * Complex.I)
    obtain ⟨q, q1, q2⟩ := get 1 2
    refine ⟨s, q, s1, q1, ?_, ?_⟩
    · rw [s2]; simp
    · rw [q2]; norm_num

/-! ## sweeps -/

/-- **C149** A sweep with complex samples for which frequency or amplitude over time is not given cannot be made: `ValueError`, from
`scipy.signal.hilbert`. -/
theorem C149_sweep_needs_descriptions (x : XArg ℝ ℂ) (y : Option (List ℂ)) (f a p : Option (Rel ℝ ℝ)) (r : Rel ℝ ℂ)
    (h : Rel.init x y = .ok r) (hm : f = none ∨ a = none) : SweepC.init x y f a p = .error .value := by
  unfold SweepC.init
  rw [h]
  simp only [except_bind_ok]
  rcases f with _ | f
  · rfl
  · rcases hm with hm | rfl
    · cases hm
    · rfl

/-- **C149** No operator makes a sweep out of a real sweep and a complex operand. -/
theorem C149_sweep_operation (s : Sweep ℝ) (o : Operand ℝ ℂ) (op : MathOp) : ∀ q, s.operationC o op ≠ .ok q := by
  intro q h
  unfold Sweep.operationC at h
  simp only [except_bind_eq_ok] at h
  obtain ⟨r, h1, h2⟩ := h
  rcases hi : Rel.init (.axis r.x) (some r.y) with e | w
  · unfold SweepC.init at h2
    rw [hi] at h2
    cases h2
  · rw [C149_sweep_needs_descriptions _ _ _ _ _ w hi (Or.inl rfl)] at h2
    cases h2

/-- **C149** A sweep times a complex number raises `ValueError`, even for the number `1 + 0j`; the relation of the same samples can be
multiplied. -/
theorem C149_sweep_times_number (s : Sweep ℝ) (h : Balanced s.rel) (c : ℂ) :
    s.operationC (.other (.num c)) .mul = .error .value ∧
    s.rel.toComplex.operation (.other (.num c)) .mul = .ok ⟨s.rel.x, s.rel.y.map fun v : ℝ => (v : ℂ) * c⟩ := by
  have hb : Balanced s.rel.toComplex := by
    unfold Spec.Balanced at h ⊢
    simpa [Rel.toComplex] using h
  have ho : s.rel.toComplex.operation (.other (.num c)) .mul = .ok ⟨s.rel.x, s.rel.y.map fun v : ℝ => (v : ℂ) * c⟩ := by
    have := op_num_total hb (c := c) (op := .mul) (fun v => v * c) (fun v _ => rfl)
    rw [this]
    simp [Rel.toComplex, Function.comp_def]
  refine ⟨?_, ho⟩
  unfold Sweep.operationC
  rw [ho]
  simp only [except_bind_ok]
  refine C149_sweep_needs_descriptions _ _ _ _ _ ⟨s.rel.x, s.rel.y.map fun v : ℝ => (v : ℂ) * c⟩ ?_ (Or.inl rfl)
  unfold Spec.Balanced at h
  simp [Rel.init, Rel.make, h, bind, Except.bind, pure, Except.pure]

/-! ### with given descriptions -/

theorem fftfreq_length (n : ℕ) (d : ℝ) : (fftfreq n d).length = n := by simp [fftfreq]

theorem fftfreq_getElem (n : ℕ) (d : ℝ) (k : ℕ) (h : k < (fftfreq n d).length) :
    (fftfreq n d)[k] = (if k < (n + 1) / 2 then (k : ℝ) else (k : ℝ) - (n : ℝ)) * (1 / ((n : ℝ) * d)) := by
  simp [fftfreq]

/-- the least difference of neighbours in `fftfreq` is the jump to the negative frequencies -/
theorem fftfreq_sample (n : ℕ) (hn : 2 ≤ n) (d : ℝ) (hd : 0 < d) :
    getActualSample (fftfreq n d) = .ok (-(((n : ℝ) - 1) * (1 / (n * d)))) := by
  have hnR : (0 : ℝ) < n := by exact_mod_cast (by omega : 0 < n)
  have hn2 : (2 : ℝ) ≤ n := by exact_mod_cast hn
  have hu : (0 : ℝ) < 1 / (n * d) := by positivity
  have hl : (npDiff (fftfreq n d)).length = n - 1 := by rw [npDiff_length, fftfreq_length]
  have hval : ∀ i (h : i < (npDiff (fftfreq n d)).length),
      (npDiff (fftfreq n d))[i] = (if i + 1 = (n + 1) / 2 then -((n : ℝ) - 1) else 1) * (1 / (n * d)) := by
    intro i h
    rw [npDiff_getElem _ i h (by rw [fftfreq_length]; omega), fftfreq_getElem, fftfreq_getElem, ← sub_mul]
    congr 1
    by_cases h1 : i + 1 = (n + 1) / 2
    · rw [if_pos h1, if_neg (by omega), if_pos (by omega)]
      push_cast
      ring
    · rw [if_neg h1]
      by_cases h2 : i + 1 < (n + 1) / 2
      · rw [if_pos h2, if_pos (by omega)]
        push_cast
        ring
      · rw [if_neg h2, if_neg (by omega)]
        push_cast
        ring
  unfold getActualSample
  apply npMin_eq
  · have h1 : (n + 1) / 2 - 1 < (npDiff (fftfreq n d)).length := by omega
    have := hval _ h1
    rw [if_pos (by omega)] at this
    rw [← neg_mul, ← this]
    exact List.getElem_mem h1
  · intro v hv
    obtain ⟨i, hi, rfl⟩ := List.mem_iff_getElem.1 hv
    rw [hval i hi, ← neg_mul]
    apply mul_le_mul_of_nonneg_right _ hu.le
    split
    · exact le_refl _
    · linarith

theorem getSpectrogram_error {d : SpectroData ℝ} {p q : List ℝ} {t : Axis ℝ} {e : Err} (h1 : padAxis d.time = .ok p)
    (h2 : axisFromArray p true true = .ok t) (h3 : padAxis d.frequency = .ok q) (h4 : axisFromArray q true true = .error e) :
    getSpectrogram d = .error e := by
  unfold getSpectrogram
  rw [h1, h3]
  simp only [except_bind_ok]
  rw [h2]
  simp only [except_bind_ok]
  rw [h4]
  rfl

/-- the axes of the default spectrogram of complex samples -/
theorem complex_spectrogram (r : Rel ℝ ℂ) (n m : ℕ) (hn : r.y.length = n) (h2 : 2 ≤ n) (hm : m = min n 256) (hs : 0 < r.x.sample) :
    ∃ d p t, defaultSpectrogramC r = .ok d ∧ padAxis d.time = .ok p ∧ axisFromArray p true true = .ok t ∧
      padAxis d.frequency = .ok d.frequency ∧ d.image.length = m ∧
      axisFromArray d.frequency true true = ((roundStep (-(((m : ℝ) - 1) * (1 / (m * r.x.sample))))).map fun s =>
        (⟨0, -(1 / (m * r.x.sample)), s⟩ : Axis ℝ)) := by
  subst hn
  have hm0 : 2 ≤ m := by omega
  have hmR : (0 : ℝ) < m := by exact_mod_cast (by omega : 0 < m)
  have hseg := segs_pos r.y.length (by omega)
  rw [← hm] at hseg
  have hstepR : (0 : ℝ) < ((m - m / 8 : ℕ) : ℝ) := by exact_mod_cast (by omega : 0 < m - m / 8)
  obtain ⟨p, ax, a1, a2, -⟩ := padded_axis (default_time_spaced r.y.length m r.x.sample) hseg (by positivity)
  have hdd : (1 : ℝ) / (1 / r.x.sample) = r.x.sample := by rw [one_div_one_div]
  have hd : ∃ im, defaultSpectrogramC r = .ok ⟨_, _, im⟩ ∧ im.length = m := ⟨_, by
    unfold defaultSpectrogramC
    simp only [nPerSeg_eq, ← hm]
    rw [if_neg (by omega), if_neg hs.ne'], by simp⟩
  obtain ⟨im, hd, him⟩ := hd
  refine ⟨_, p, ax, hd, a1, a2, ?_, him, ?_⟩
  · unfold padAxis
    rw [if_neg (by simp only [fftfreq_length]; omega)]
  · simp only [hdd]
    unfold axisFromArray
    rw [fftfreq_sample m hm0 _ hs]
    simp only [except_bind_ok, Bool.and_self, if_true]
    have hh : (fftfreq m r.x.sample).head? = some 0 := by
      rw [List.head?_eq_getElem?, List.getElem?_eq_getElem (by rw [fftfreq_length]; omega), fftfreq_getElem, if_pos (by omega)]
      simp
    have hlast : (fftfreq m r.x.sample).getLast? = some (-(1 / (m * r.x.sample))) := by
      rw [List.getLast?_eq_getElem?, fftfreq_length, List.getElem?_eq_getElem (by rw [fftfreq_length]; omega), fftfreq_getElem,
        if_neg (by omega)]
      congr 1
      rw [Nat.cast_sub (by omega)]
      push_cast
      ring
    rcases roundStep (-(((m : ℝ) - 1) * (1 / (m * r.x.sample)))) with e | s
    · rfl
    · simp only [except_bind_ok, hh, hlast]
      rfl

/-- **C149** With given descriptions a sweep of at least two complex samples raises `ZeroDivisionError` when it is sampled often:
`sample ≤ 1/4` suffices, for long sweeps `sample ≤ 255/512`. -/
theorem C149_sweep_fast (x : XArg ℝ ℂ) (y : Option (List ℂ)) (f a : Rel ℝ ℝ) (p : Option (Rel ℝ ℝ)) (r : Rel ℝ ℂ)
    (h : Rel.init x y = .ok r) (h2 : 2 ≤ r.y.length) (hs : 0 < r.x.sample) (m : ℕ) (hm : m = min r.y.length 256)
    (hfast : 2 * (m * r.x.sample) ≤ (m : ℝ) - 1) : SweepC.init x y (some f) (some a) p = .error .zeroDivision := by
  obtain ⟨d, q, t, e1, e2, e3, e4, -, e6⟩ := complex_spectrogram r _ m rfl h2 hm hs
  have hmR : (0 : ℝ) < m := by exact_mod_cast (by omega : 0 < m)
  have hms : 0 < (m : ℝ) * r.x.sample := by positivity
  set w : ℝ := ((m : ℝ) - 1) * (1 / (m * r.x.sample)) with hw
  have hw2 : 2 ≤ w := by
    rw [hw, mul_one_div, le_div_iff₀ hms]
    exact hfast
  have hround : pyRound (1 / -w) = 0 := by
    rw [pyRound_eq_iff]
    have hb : |1 / -w - ((0 : ℤ) : ℝ)| ≤ 1 / 2 := by
      rw [Int.cast_zero, sub_zero, abs_div, abs_one, abs_neg, abs_of_pos (by linarith)]
      exact one_div_le_one_div_of_le (by norm_num) hw2
    exact ⟨hb, fun _ => by simp⟩
  have hrs : roundStep (-w) = .error .zeroDivision := by
    unfold roundStep
    rw [if_pos (by linarith), if_neg (by linarith), if_pos hround]
  rw [hrs] at e6
  unfold SweepC.init
  rw [h]
  simp only [except_bind_ok]
  rw [e1]
  simp only [except_bind_ok]
  rw [getSpectrogram_error e2 e3 e4 e6]
  rfl

/-- **C149** In particular with a step of at most a quarter, whatever the length. -/
theorem C149_sweep_quarter (x : XArg ℝ ℂ) (y : Option (List ℂ)) (f a : Rel ℝ ℝ) (p : Option (Rel ℝ ℝ)) (r : Rel ℝ ℂ)
    (h : Rel.init x y = .ok r) (h2 : 2 ≤ r.y.length) (hs : 0 < r.x.sample) (hq : r.x.sample ≤ 1 / 4) :
    SweepC.init x y (some f) (some a) p = .error .zeroDivision := by
  refine C149_sweep_fast x y f a p r h h2 hs _ rfl ?_
  have : (2 : ℝ) ≤ ((min r.y.length 256 : ℕ) : ℝ) := by exact_mod_cast (by omega : 2 ≤ min r.y.length 256)
  nlinarith

/-- **C149** Sampled rarely, a sweep of at least five complex samples can be made, but its frequency axis has one point, 0, while the
image has as many rows as the segments have samples. -/
theorem C149_sweep_slow (x : XArg ℝ ℂ) (y : Option (List ℂ)) (f a : Rel ℝ ℝ) (p : Option (Rel ℝ ℝ)) (r : Rel ℝ ℂ)
    (h : Rel.init x y = .ok r) (h5 : 5 ≤ r.y.length) (m : ℕ) (hm : m = min r.y.length 256) (hs : 0 < r.x.sample)
    (hslow : (m : ℝ) - 1 < 2 * (m * r.x.sample)) :
    ∃ s, SweepC.init x y (some f) (some a) p = .ok s ∧ s.rel = r ∧ s.frequencyTime = f ∧ s.amplitudeTime = a ∧
      s.spectrogram.frequency.array = .ok [0] ∧ s.spectrogram.image.length = m := by
  obtain ⟨d, q, t, e1, e2, e3, e4, e5, e6⟩ := complex_spectrogram r _ m rfl (by omega) hm hs
  have hm5 : (5 : ℝ) ≤ m := by exact_mod_cast (by omega : 5 ≤ m)
  have hms : 0 < (m : ℝ) * r.x.sample := by positivity
  set u : ℝ := 1 / (m * r.x.sample) with hu
  have hu0 : 0 < u := by positivity
  set w : ℝ := ((m : ℝ) - 1) * u with hw
  have hw2 : w < 2 := by
    rw [hw, hu, mul_one_div, div_lt_iff₀ hms]
    exact hslow
  have hw0 : 0 < w := by
    rw [hw]
    exact mul_pos (by linarith) hu0
  have hinv : 1 / 2 < 1 / w := one_div_lt_one_div_of_lt hw0 hw2
  obtain ⟨k, hk⟩ : ∃ k : ℤ, pyRound (1 / -w) = k := ⟨_, rfl⟩
  have hnear := abs_le.1 ((pyRound_eq_iff _ _).1 hk).1
  rw [one_div_neg_eq_neg_one_div] at hnear
  have hkneg : k ≤ -1 := by
    have : (k : ℝ) < 0 := by linarith [hnear.1]
    have : k < 0 := by exact_mod_cast this
    omega
  have hkR : (k : ℝ) ≤ -1 := by exact_mod_cast hkneg
  have hrs : roundStep (-w) = .ok (1 / (k : ℝ)) := by
    unfold roundStep
    rw [if_pos (by linarith), if_neg (by linarith), if_neg (by rw [hk]; omega), hk]
  rw [hrs] at e6
  have harr : (⟨0, -u, 1 / (k : ℝ)⟩ : Axis ℝ).array = .ok [0] := by
    unfold Axis.array
    have hk0 : (k : ℝ) ≠ 0 := by linarith
    rw [if_neg (one_div_ne_zero hk0)]
    have hq : |(-u - 0) / (1 / (k : ℝ))| = u * -k := by
      rw [sub_zero, div_div_eq_mul_div, div_one, abs_of_nonneg (by nlinarith)]
      ring
    have hle : u * -k ≤ 1 / 2 := by
      have h1 : -(k : ℝ) ≤ 1 / w + 1 / 2 := by linarith [hnear.2]
      have h3 : u * (1 / w) = 1 / ((m : ℝ) - 1) := by
        rw [hw]
        field_simp
      have h4 : u ≤ 2 / ((m : ℝ) - 1) := by
        rw [le_div_iff₀ (by linarith), mul_comm]
        exact hw2.le
      have h5 : 1 / ((m : ℝ) - 1) ≤ 1 / 4 := one_div_le_one_div_of_le (by norm_num) (by linarith)
      have h6 : 2 / ((m : ℝ) - 1) = 2 * (1 / ((m : ℝ) - 1)) := by ring
      calc u * -k ≤ u * (1 / w + 1 / 2) := mul_le_mul_of_nonneg_left h1 hu0.le
        _ = 1 / ((m : ℝ) - 1) + u / 2 := by rw [mul_add, h3]; ring
        _ ≤ 1 / 2 := by linarith
    have h0 : pyRound (u * -k) = 0 := by
      rw [pyRound_eq_iff]
      refine ⟨?_, fun _ => by simp⟩
      rw [Int.cast_zero, sub_zero, abs_of_nonneg (by nlinarith)]
      exact hle
    simp only [hq, h0]
    simp [linspace]
  refine ⟨⟨r, f, a, ⟨t, ⟨0, -u, 1 / (k : ℝ)⟩, d.image⟩, p⟩, ?_, rfl, rfl, rfl, harr, e5⟩
  unfold SweepC.init
  rw [h]
  simp only [except_bind_ok]
  rw [e1]
  simp only [except_bind_ok]
  have : getSpectrogram d = .ok ⟨t, ⟨0, -u, 1 / (k : ℝ)⟩, d.image⟩ := by
    unfold getSpectrogram
    rw [e2, e4]
    simp only [except_bind_ok]
    rw [e3]
    simp only [except_bind_ok]
    rw [e6]
    rfl
  rw [this]
  rfl

/-- The hypotheses of the sweep theorems on a relation of five samples, with a step of 1/10 and with a step of 1. -/
example (f a : Rel ℝ ℝ) : SweepC.init (.rel ⟨⟨0, 4 / 10, 1 / 10⟩, [1, Complex.I, -1, -Complex.I, 1]⟩) none (some f) (some a) none =
      .error .zeroDivision ∧
    (∃ s, SweepC.init (.rel ⟨⟨0, 4, 1⟩, [1, Complex.I, -1, -Complex.I, 1]⟩) none (some f) (some a) none = .ok s ∧
      s.spectrogram.frequency.array = .ok [0] ∧ s.spectrogram.image.length = 5) ∧
    SweepC.init (.rel ⟨⟨0, 4, 1⟩, [1, Complex.I, -1, -Complex.I, 1]⟩) none (some f) none none = .error .value := by
  refine ⟨C149_sweep_quarter _ _ f a none _ rfl (by simp) (by norm_num) (by norm_num), ?_,
    C149_sweep_needs_descriptions _ _ _ _ _ _ rfl (Or.inr rfl)⟩
  obtain ⟨s, h1, -, -, -, h5, h6⟩ := C149_sweep_slow (.rel ⟨⟨0, 4, 1⟩, [1, Complex.I, -1, -Complex.I, 1]⟩) none f a none _ rfl (by simp) 5
    (by simp) (by norm_num) (by norm_num)
  exact ⟨s, h1, h5, h6⟩

/-- A real sweep whose relation has as many samples as its axis: it cannot be multiplied with `1 + 0j`. -/
example (f a : Rel ℝ ℝ) (g : Spectrogram ℝ) :
    (⟨⟨⟨0, 2, 1⟩, [0, 1, 0]⟩, f, a, g, none⟩ : Sweep ℝ).operationC (.other (.num 1)) .mul = .error .value :=
  (C149_sweep_times_number _ (balanced_whole _ 2 (by norm_num) (by norm_num) rfl) 1).1

end SweepDesign
