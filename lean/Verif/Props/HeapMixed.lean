import Verif.Props.HeapFrame

/-!
# C86: signals and spectra as operands of each other
-/

set_option linter.unusedSectionVars false

namespace SweepDesign.Mem

open HM Spec

variable {K V : Type} {P : Prims K V} {M : Methods K V} {C : ConvMethods K V} {α : Type}

/-- what `b.get_signal()` returned is a signal if a cached counterpart is -/
theorem getSignal_cls (hM : GoodMethods P M) {b k : Loc} {h h' : Heap K V}
    (hc : ∀ k, counterpartAt h b = some k → SignalAt h k) (hr : getSignal P M b .none none h = (.ok k, h')) : SignalAt h' k := by
  rcases hn : counterpartAt h b with _ | c
  · obtain ⟨-, -, -, o, ho, hcls⟩ := getSignal_computed hM (.inl hn) hr
    exact ⟨o, ho, .inl hcls⟩
  · rw [getSignal_cached hn rfl] at hr
    simp only [Prod.mk.injEq, Except.ok.injEq] at hr
    obtain ⟨rfl, rfl⟩ := hr
    exact hc _ hn

theorem getSpectrum_cls (hM : GoodMethods P M) {b k : Loc} {h h' : Heap K V}
    (hc : ∀ k, counterpartAt h b = some k → SpectrumAt h k) (hr : getSpectrum P M b .none false h = (.ok k, h')) :
    SpectrumAt h' k := by
  rcases hn : counterpartAt h b with _ | c
  · obtain ⟨-, -, -, o, ho, hcls⟩ := getSpectrum_computed hM (.inl hn) hr
    exact ⟨o, ho, hcls⟩
  · rw [getSpectrum_cached hn rfl] at hr
    simp only [Prod.mk.injEq, Except.ok.injEq] at hr
    obtain ⟨rfl, rfl⟩ := hr
    exact hc _ hn

theorem safe_cls {m : HM K V α} {X : Ex} (hm : Safe P X m) {h h' : Heap K V} {e : Except Err α} (hr : m h = (e, h')) {l : Loc}
    {o : RelObj} (ho : h.rels[l]? = some o) : ∃ o', h'.rels[l]? = some o' ∧ o'.cls = o.cls := by
  have w := (hm h).1
  rw [hr] at w
  obtain ⟨o', h1, h2, -⟩ := w.rels l o ho
  exact ⟨o', h1, h2.cls⟩

theorem not_spectrum_of_signal {c : Cls} (h : c.isSignal = true) : c ≠ .spectrum := by rintro rfl; simp [Cls.isSignal] at h

theorem opSignal_run {h : Heap K V} {b : Loc} {o : RelObj} (ho : h.rels[b]? = some o) :
    inp2signalOperation P M (.obj b) h =
      if o.cls = .spectrum then (getSignal P M b >>= fun s => pure (.rel s)) h else (.ok (.rel b), h) := by
  unfold inp2signalOperation
  show (getRel b >>= _) h = _
  rw [bind_of_ok (getRel_run ho)]
  split <;> rfl

theorem opSpectrum_run {h : Heap K V} {b : Loc} {o : RelObj} (ho : h.rels[b]? = some o) :
    input2spectrumOperation P M (.obj b) h =
      if o.cls.isSignal = true then (getSpectrum P M b >>= fun s => pure (.rel s)) h else (.ok (.rel b), h) := by
  unfold input2spectrumOperation
  show (getRel b >>= _) h = _
  rw [bind_of_ok (getRel_run ho)]
  split <;> rfl

theorem convert_signal {c : Cls} (hc : c.isSignal = true) {op : MathOp} (hop : MathOp.isForward op = true) (b : PyOperand V) :
    convertOperand P M c b op = inp2signalOperation P M b := by
  unfold convertOperand
  simp [hop, hc]

theorem convert_spectrum {op : MathOp} (hop : MathOp.isForward op = true) (b : PyOperand V) :
    convertOperand P M .spectrum b op = input2spectrumOperation P M b := by
  unfold convertOperand
  simp [hop, Cls.isSignal]

theorem operator_run {a : Loc} {o : RelObj} {h : Heap K V} (ho : h.rels[a]? = some o) (b : PyOperand V) (op : MathOp) :
    operator P M a b op h = (convertOperand P M o.cls b op >>= fun b' => relOperation P M a b' op) h := by
  unfold operator
  rw [bind_of_ok (getRel_run ho)]

end SweepDesign.Mem

namespace SweepDesign

open Mem Mem.HM Spec

variable {K V : Type} {P : Prims K V} {M : Methods K V} {C : ConvMethods K V} {α : Type}

/-! ## C86 -/

/-- `signal op spectrum` is `signal op spectrum.get_signal()`: the same object or exception, and the same effects. -/
theorem C86_signal_spectrum (hM : GoodMethods P M) {a b : Loc} {op : MathOp} (hop : Forward op)
    {h : Heap K V} (ha : SignalAt h a) (hb : SpectrumAt h b) (hc : ∀ k, counterpartAt h b = some k → SignalAt h k) :
    operator P M a (.obj b) op h = (getSignal P M b >>= fun s => operator P M a (.obj s) op) h := by
  rw [← forward_iff] at hop
  obtain ⟨oa, ha, hsa⟩ := ha
  obtain ⟨ob, hb, hsb⟩ := hb
  rw [← isSignal_iff] at hsa
  rw [operator_run ha, convert_signal hsa hop]
  have e1 := opSignal_run (P := P) (M := M) hb
  rw [if_pos hsb] at e1
  rcases hr : getSignal P M b .none none h with ⟨e | k, h1⟩
  · rw [bind_of_error hr] at e1
    rw [bind_of_error e1, bind_of_error hr]
  · rw [bind_of_ok hr] at e1
    obtain ⟨oa', ha', e⟩ := safe_cls (safe_getSignal0 (X := ∅) hM _) hr ha
    obtain ⟨ok, hk, hsk⟩ := getSignal_cls hM hc hr
    have e2 := opSignal_run (P := P) (M := M) hk
    rw [if_neg (not_spectrum_of_signal (isSignal_iff.2 hsk))] at e2
    rw [bind_of_ok e1, bind_of_ok hr, operator_run ha', e, convert_signal hsa hop, bind_of_ok e2]

/-- `spectrum op signal` is `spectrum op signal.get_spectrum()`. -/
theorem C86_spectrum_signal (hM : GoodMethods P M) {a b : Loc} {op : MathOp} (hop : Forward op)
    {h : Heap K V} (ha : SpectrumAt h a) (hb : SignalAt h b) (hc : ∀ k, counterpartAt h b = some k → SpectrumAt h k) :
    operator P M a (.obj b) op h = (getSpectrum P M b >>= fun s => operator P M a (.obj s) op) h := by
  rw [← forward_iff] at hop
  obtain ⟨oa, ha, hsa⟩ := ha
  obtain ⟨ob, hb, hsb⟩ := hb
  rw [← isSignal_iff] at hsb
  rw [operator_run ha, hsa, convert_spectrum hop]
  have e1 := opSpectrum_run (P := P) (M := M) hb
  rw [if_pos hsb] at e1
  rcases hr : getSpectrum P M b .none false h with ⟨e | k, h1⟩
  · rw [bind_of_error hr] at e1
    rw [bind_of_error e1, bind_of_error hr]
  · rw [bind_of_ok hr] at e1
    obtain ⟨oa', ha', e⟩ := safe_cls (safe_getSpectrum0 (X := ∅) hM _) hr ha
    obtain ⟨ok, hk, hsk⟩ := getSpectrum_cls hM hc hr
    have e2 := opSpectrum_run (P := P) (M := M) hk
    rw [hsk, if_neg (by decide)] at e2
    rw [bind_of_ok e1, bind_of_ok hr, operator_run ha', e, hsa, convert_spectrum hop, bind_of_ok e2]

/-- Signals with signals or relations, spectra with spectra or relations, and relations with anything are combined without a
transform: the operation of the base class on the two objects. -/
theorem C86_no_transform {a b : Loc} {op : MathOp} {h : Heap K V} {oa ob : RelObj} (ha : h.rels[a]? = some oa)
    (hb : h.rels[b]? = some ob)
    (hab : oa.cls = .relation ∨ SignalClass oa.cls ∧ ob.cls ≠ .spectrum ∨ oa.cls = .spectrum ∧ ¬ SignalClass ob.cls ∨
      ¬ Forward op) :
    operator P M a (.obj b) op h = relOperation P M a (.rel b) op h := by
  rw [← not_forward_iff, ← isSignal_iff, ← not_isSignal_iff] at hab
  rw [operator_run ha]
  suffices convertOperand P M oa.cls (.obj b) op h = (.ok (.rel b), h) by rw [bind_of_ok this]
  cases hop : MathOp.isForward op with
  | false => simp only [convertOperand, hop, Bool.false_eq_true, if_false]; rfl
  | true =>
    simp only [hop, Bool.true_eq_false, or_false] at hab
    rcases hab with e | ⟨e1, e2⟩ | ⟨e1, e2⟩
    · rw [e]; unfold convertOperand; rw [if_pos hop]; rfl
    · rw [convert_signal e1 hop, opSignal_run hb, if_neg e2]
    · rw [e1, convert_spectrum hop, opSpectrum_run hb, if_neg (by simp [e2])]

/-- A spectrum accepts only objects and numbers: with anything else its operators raise and change nothing. -/
theorem C86_spectrum_rejects {a : Loc} {op : MathOp} (hop : Forward op) {h : Heap K V}
    (ha : SpectrumAt h a) (w : HOperand V) : operator P M a (.other w) op h = (.error .converting, h) := by
  rw [← forward_iff] at hop
  obtain ⟨oa, ha, hsa⟩ := ha
  rw [operator_run ha, hsa, convert_spectrum hop]
  rfl

/-- `spectrum.add_phase(signal)` (and `sub_phase`) is the call with `signal.get_spectrum()`. -/
theorem C86_add_phase (hM : GoodMethods P M) {a b : Loc} (op : MathOp) {h : Heap K V} (hb : SignalAt h b)
    (hc : ∀ k, counterpartAt h b = some k → SpectrumAt h k) :
    spAddPhase P M a (.obj b) op h = (getSpectrum P M b >>= fun s => spAddPhase P M a (.obj s) op) h := by
  obtain ⟨ob, hb, hsb⟩ := hb
  rw [← isSignal_iff] at hsb
  have e1 : input2spectrum P M (.obj b) h = getSpectrum P M b .none false h := by
    unfold input2spectrum
    show (getRel b >>= _) h = _
    rw [bind_of_ok (getRel_run hb), if_pos hsb]
  unfold spAddPhase
  rcases hr : getSpectrum P M b .none false h with ⟨e | k, h1⟩
  · rw [bind_of_error (e1.trans hr), bind_of_error hr]
  · obtain ⟨ok, hk, hsk⟩ := getSpectrum_cls hM hc hr
    have e2 : input2spectrum P M (.obj k) h1 = (.ok k, h1) := by
      unfold input2spectrum
      show (getRel k >>= _) h1 = _
      rw [bind_of_ok (getRel_run hk), hsk]
      rfl
    rw [bind_of_ok (e1.trans hr), bind_of_ok hr, bind_of_ok e2]

/-- a signal (object 0) and a spectrum (1) -/
example :
    let M := defaultMethods ratPrims
    let p := operator ratPrims M 0 (.obj 1) .add fourObjects
    let q := operator ratPrims M 1 (.obj 0) .mul fourObjects
    (fourObjects.rels[0]?).map RelObj.cls = some .signal ∧ (fourObjects.rels[1]?).map RelObj.cls = some .spectrum ∧
    counterpartAt fourObjects 0 = none ∧ counterpartAt fourObjects 1 = none ∧
    p.1 = .ok 7 ∧ (p.2.rels[7]?).map RelObj.cls = some .signal ∧ (yAt p.2 7).map (List.take 3) = some [6, 29 / 4, 17 / 2] ∧
    q.1 = .ok 7 ∧ (q.2.rels[7]?).map RelObj.cls = some .spectrum ∧ (yAt q.2 7).map (List.take 3) = some [5, 21 / 2, 33 / 2] := by
  refine ⟨?_, ?_, ?_, ?_, ?_, ?_, ?_, ?_, ?_, ?_⟩ <;> decide +kernel

end SweepDesign
