import Verif.Heap.Vocabulary
import Verif.Heap.Own
import Verif.Heap.Exact

/-!
# C44: cached counterparts
-/

set_option linter.unusedSectionVars false

namespace SweepDesign

open Mem Spec HM

variable {K V : Type} {P : Prims K V} {M : Methods K V} {C : ConvMethods K V}

/-! ## C44 -/

/-- the step does not ask object `s` for a spectrum (signal) at an explicitly given frequency (time) -/
def Spec.leavesCache (s : Loc) : Step K V → Prop
  | .call (.getSpectrum r f _) => ¬ (r = s ∧ Spec.Given f)
  | .call (.sgAmp r f _) => ¬ (r = s ∧ Spec.Given f)
  | .call (.sgPhase r f _) => ¬ (r = s ∧ Spec.Given f)
  | .call (.getSignal r f _) => ¬ (r = s ∧ Spec.Given f)
  | _ => True

/-- the cached counterpart of object `s` -/
def Spec.counterpartAt (h : Heap K V) (s : Loc) : Option Loc := (h.rels[s]?).bind RelObj.counterpart

theorem leaves_not_refreshes {s : Loc} {c : Call K V} (hc : leavesCache s (.call c)) : s ∉ c.refreshes := by
  cases c <;> simp only [Call.refreshes, Set.mem_empty_iff_false, not_false_iff] <;>
    · rintro ⟨h1, rfl⟩
      exact hc ⟨rfl, given_iff.1 h1⟩

theorem step_counterpart (hM : GoodMethods P M) (hC : GoodConvMethods P C) {s c : Loc} {st : Step K V}
    (hs : leavesCache s st) {h : Heap K V} (hc : counterpartAt h s = some c) :
    counterpartAt (st.run P M C h) s = some c := by
  cases st with
  | call k =>
    have w := (safe_call hM hC k h).1
    rw [counterpartAt, Option.bind_eq_some_iff] at hc
    obtain ⟨o, ho, hoc⟩ := hc
    obtain ⟨o', ho', -, e⟩ := w.rels s o ho
    show counterpartAt (k.exec P M C h).2 s = some c
    rw [counterpartAt, ho']
    exact (e (leaves_not_refreshes hs)).counterpart c hoc
  | edit e =>
    have key : ∀ (l : Loc) (f : AxisObj K → AxisObj K),
        counterpartAt ((getAxis l >>= fun a => putAxis l (f a) : HM K V Unit) h).2 s = some c := by
      intro l f
      rcases ha : h.axes[l]? with _ | a
      · rw [bind_of_error (getAxis_none ha)]; exact hc
      · rw [bind_of_ok (getAxis_run ha)]; exact hc
    cases e with
    | setStart l v => exact key l _
    | setStop l v => exact key l _
    | setSample l v => exact key l _
    | pokeX => exact hc
    | pokeY => exact hc
    | setConfig => exact hc

theorem steps_counterpart (hM : GoodMethods P M) (hC : GoodConvMethods P C) {s c : Loc} (ss : List (Step K V))
    (hs : ∀ st ∈ ss, leavesCache s st) (h : Heap K V) (hc : counterpartAt h s = some c) :
    counterpartAt (runSteps P M C ss h) s = some c := by
  induction ss generalizing h with
  | nil => exact hc
  | cons st ss ih =>
    exact ih (fun s hs' => hs s (List.mem_cons_of_mem _ hs')) _ (step_counterpart hM hC (hs st List.mem_cons_self) hc)

theorem getSpectrum_cached {h : Heap K V} {s c : Loc} (hc : counterpartAt h s = some c) {f : HSize}
    (hf : f.truthy = false) (z : Bool) : getSpectrum P M s f z h = (.ok c, h) := by
  rw [counterpartAt, Option.bind_eq_some_iff] at hc
  obtain ⟨o, ho, hoc⟩ := hc
  unfold getSpectrum
  rw [bind_of_ok (getRel_run ho), hoc, hf]
  rfl

theorem getSignal_cached {h : Heap K V} {s c : Loc} (hc : counterpartAt h s = some c) {f : HSize}
    (hf : f.truthy = false) (z : Option K) : getSignal P M s f z h = (.ok c, h) := by
  rw [counterpartAt, Option.bind_eq_some_iff] at hc
  obtain ⟨o, ho, hoc⟩ := hc
  unfold getSignal
  rw [bind_of_ok (getRel_run ho), hoc, hf]
  rfl

/-- an object constructed as a counterpart refers back -/
theorem construct_counterpart (cls : Cls) (hcls : cls ≠ .sweep) (ax : Loc) (y : HYArg V) (s : Loc) {h h' : Heap K V}
    {l : Loc} (hh : construct P M cls (.axis ax) y (some s) h = (.ok l, h')) :
    ∃ o, h'.rels[l]? = some o ∧ o.counterpart = some s ∧ o.cls = cls ∧ h.rels.length ≤ l := by
  unfold construct at hh
  rw [bind_ok] at hh
  obtain ⟨l0, h0, hi, hh⟩ := hh
  rw [if_neg hcls] at hh
  simp only [pure_run, Prod.mk.injEq, Except.ok.injEq] at hh
  obtain ⟨rfl, rfl⟩ := hh
  unfold relInit at hi
  rw [bind_ok] at hi
  obtain ⟨g, h1, hg, hi⟩ := hi
  simp only [config, Prod.mk.injEq] at hg
  obtain ⟨-, rfl⟩ := hg
  simp only [] at hi
  rw [bind_ok] at hi
  obtain ⟨ly, h2, hly, hi⟩ := hi
  have w1 := (safe_npArray (P := P) (X := ∅) y h).1
  rw [hly] at w1
  unfold initAxis at hi
  rw [bind_ok] at hi
  obtain ⟨n, h3, hn, hi⟩ := hi
  have w2 := (safe_axisSize (P := P) (X := ∅) ax h2).1
  rw [hn] at w2
  rw [bind_ok] at hi
  obtain ⟨v, h4, hv, hi⟩ := hi
  obtain ⟨-, rfl⟩ := getY_ok.1 hv
  split at hi
  · simp [raise] at hi
  · simp only [newRel, Prod.mk.injEq, Except.ok.injEq] at hi
    obtain ⟨rfl, rfl⟩ := hi
    exact ⟨mkRelObj cls g ax ly (some s), by simp, rfl, rfl, w1.rels_len.trans w2.rels_len⟩

/-- computing a counterpart: it is new, refers back, and is cached -/
theorem refill_ok (hM : GoodMethods P M) (cls : Cls) (hcls : cls ≠ .sweep) {m : HM K V (Loc × Loc)} (hm : Safe P ∅ m)
    {s c : Loc} {h h' : Heap K V} {o : RelObj} (ho : h.rels[s]? = some o)
    (hh : (m >>= fun p => construct P M cls (.axis p.1) (.arr p.2) (some s) >>= fun sp => getRel s >>= fun o =>
      putRel s { o with counterpart := some sp } >>= fun _ => pure sp) h = (.ok c, h')) :
    h.rels.length ≤ c ∧ counterpartAt h' s = some c ∧ counterpartAt h' c = some s ∧
      ∃ oc, h'.rels[c]? = some oc ∧ oc.cls = cls := by
  rw [bind_ok] at hh
  obtain ⟨p, h1, hp, hh⟩ := hh
  rw [bind_ok] at hh
  obtain ⟨sp, h2, hsp, hh⟩ := hh
  have w1 := (hm h).1
  rw [hp] at w1
  have w2 := (safe_construct (X := ∅) hM cls (.axis p.1) (.arr p.2) (some s) h1).1
  rw [hsp] at w2
  obtain ⟨o1, ho1, -⟩ := w1.rels s o ho
  obtain ⟨o2, ho2, -⟩ := w2.rels s o1 ho1
  obtain ⟨oc, hoc, hb, hcl, hlen⟩ := construct_counterpart cls hcls _ _ _ hsp
  rw [bind_of_ok (getRel_run ho2)] at hh
  simp only [putRel, bind_run, pure_run, Prod.mk.injEq, Except.ok.injEq] at hh
  obtain ⟨rfl, rfl⟩ := hh
  have hlt := (List.getElem?_eq_some_iff.1 ho).1
  have hle := w1.rels_len.trans hlen
  have hne : s ≠ sp := (hlt.trans_le hle).ne
  refine ⟨hle, ?_, ?_, oc, ?_, hcl⟩
  · rw [counterpartAt]; simp only []; rw [set_getElem?_self ho2]; rfl
  · rw [counterpartAt]; simp only []; rw [set_getElem?_of_ne hne, hoc]; exact hb
  · simp only []; rw [set_getElem?_of_ne hne]; exact hoc

theorem getSpectrum_computed (hM : GoodMethods P M) {s c : Loc} {f : HSize} {z : Bool} {h h' : Heap K V}
    (hn : counterpartAt h s = none ∨ f.truthy = true) (hh : getSpectrum P M s f z h = (.ok c, h')) :
    h.rels.length ≤ c ∧ counterpartAt h' s = some c ∧ counterpartAt h' c = some s ∧
      ∃ oc, h'.rels[c]? = some oc ∧ oc.cls = .spectrum := by
  unfold getSpectrum at hh
  rw [bind_ok] at hh
  obtain ⟨o, h1, ho, hh⟩ := hh
  obtain ⟨ho, rfl⟩ := getRel_ok.1 ho
  rw [counterpartAt, ho] at hn
  simp only [Option.bind_some] at hn
  have key := fun hh => refill_ok (P := P) (M := M) hM .spectrum (by decide)
    (hM.signal2spectrum o.caps.transform s f z) (c := c) (h' := h') ho hh
  cases hc : o.counterpart <;> cases ht : f.truthy <;> rw [hc, ht] at hh hn
  · exact key hh
  · exact key hh
  · simp at hn
  · exact key hh

theorem getSignal_computed (hM : GoodMethods P M) {s c : Loc} {f : HSize} {z : Option K} {h h' : Heap K V}
    (hn : counterpartAt h s = none ∨ f.truthy = true) (hh : getSignal P M s f z h = (.ok c, h')) :
    h.rels.length ≤ c ∧ counterpartAt h' s = some c ∧ counterpartAt h' c = some s ∧
      ∃ oc, h'.rels[c]? = some oc ∧ oc.cls = .signal := by
  unfold getSignal at hh
  rw [bind_ok] at hh
  obtain ⟨o, h1, ho, hh⟩ := hh
  obtain ⟨ho, rfl⟩ := getRel_ok.1 ho
  rw [counterpartAt, ho] at hn
  simp only [Option.bind_some] at hn
  have key := fun hh => refill_ok (P := P) (M := M) hM .signal (by decide)
    (hM.spectrum2signal o.caps.transform s f z) (c := c) (h' := h') ho hh
  cases hc : o.counterpart <;> cases ht : f.truthy <;> rw [hc, ht] at hh hn
  · exact key hh
  · exact key hh
  · simp at hn
  · exact key hh

/-- whatever `get_spectrum` returned is now cached -/
theorem getSpectrum_ok (hM : GoodMethods P M) {s c : Loc} {f : HSize} {z : Bool} {h h' : Heap K V}
    (hh : getSpectrum P M s f z h = (.ok c, h')) : counterpartAt h' s = some c := by
  by_cases hn : counterpartAt h s = none ∨ f.truthy = true
  · exact (getSpectrum_computed hM hn hh).2.1
  · push Not at hn
    obtain ⟨d, hd⟩ := Option.ne_none_iff_exists'.1 hn.1
    rw [getSpectrum_cached hd (by simpa using hn.2)] at hh
    simp only [Prod.mk.injEq, Except.ok.injEq] at hh
    obtain ⟨rfl, rfl⟩ := hh
    exact hd

/-- **C44** `get_spectrum` returned the object `c`. Then after any history of calls and edits (assignments to the axis,
in-place writes into the samples or any other array, Config) that does not explicitly ask `s` for another frequency,
`get_spectrum()` returns that same object, for either value of `is_start_zero`, and changes nothing. -/
theorem C44_same_spectrum_object (hM : GoodMethods P M) (hC : GoodConvMethods P C) (s c : Loc) (f : HSize) (z z' : Bool)
    (h h' : Heap K V) (hh : getSpectrum P M s f z h = (.ok c, h')) (ss : List (Step K V))
    (hs : ∀ st ∈ ss, leavesCache s st) :
    getSpectrum P M s .none z' (runSteps P M C ss h') = (.ok c, runSteps P M C ss h') :=
  getSpectrum_cached (steps_counterpart hM hC ss hs h' (getSpectrum_ok hM hh)) rfl z'

/-- **C44** A spectrum computed by `get_spectrum` gives back the original signal object, after any history that does not
explicitly ask the spectrum for another time axis. -/
theorem C44_original_signal_object (hM : GoodMethods P M) (hC : GoodConvMethods P C) (s c : Loc) (f : HSize) (z : Bool)
    (h h' : Heap K V) (hn : counterpartAt h s = none ∨ Given f)
    (hh : getSpectrum P M s f z h = (.ok c, h')) (ss : List (Step K V)) (hs : ∀ st ∈ ss, leavesCache c st)
    (t : Option K) :
    getSignal P M c .none t (runSteps P M C ss h') = (.ok s, runSteps P M C ss h') :=
  getSignal_cached (steps_counterpart hM hC ss hs h' (getSpectrum_computed hM (hn.imp_right given_iff.2) hh).2.2.1) rfl t

/-- **C44** `get_spectrum(frequency)` makes a new object, which later calls return. -/
theorem C44_frequency_replaces (hM : GoodMethods P M) (s c : Loc) (f : HSize) (hf : Given f) (z z' : Bool)
    (h h' : Heap K V) (hh : getSpectrum P M s f z h = (.ok c, h')) :
    h.rels.length ≤ c ∧ getSpectrum P M s .none z' h' = (.ok c, h') :=
  ⟨(getSpectrum_computed hM (.inr (given_iff.2 hf)) hh).1, getSpectrum_cached (getSpectrum_ok hM hh) rfl z'⟩

/-- **C44** the same for spectra: `get_signal` returned `c`; later calls without a time axis return that object. -/
theorem C44_same_signal_object (hM : GoodMethods P M) (hC : GoodConvMethods P C) (s c : Loc) (f : HSize) (z z' : Option K)
    (h h' : Heap K V) (hh : getSignal P M s f z h = (.ok c, h')) (ss : List (Step K V))
    (hs : ∀ st ∈ ss, leavesCache s st) :
    getSignal P M s .none z' (runSteps P M C ss h') = (.ok c, runSteps P M C ss h') := by
  refine getSignal_cached (steps_counterpart hM hC ss hs h' ?_) rfl z'
  by_cases hn : counterpartAt h s = none ∨ f.truthy = true
  · exact (getSignal_computed hM hn hh).2.1
  · push Not at hn
    obtain ⟨d, hd⟩ := Option.ne_none_iff_exists'.1 hn.1
    rw [getSignal_cached hd (by simpa using hn.2)] at hh
    simp only [Prod.mk.injEq, Except.ok.injEq] at hh
    obtain ⟨rfl, rfl⟩ := hh
    exact hd

/-- a signal on `[0, 1, 2, 3]` -/
def oneSignal : Heap ℚ ℚ :=
  runSteps ratPrims (defaultMethods ratPrims) (defaultConvMethods ratPrims (defaultMethods ratPrims))
    [.call (.axisNew 0 3 1), .call (.construct .signal (.axis 0) (.list [1, 2, 3, 4]))] (emptyHeap ℚ ℚ)

/-- The samples are overwritten after the spectrum was computed: the cached spectrum (object 1) stays, its values are
those of the old samples. -/
example :
    let p := getSpectrum ratPrims (defaultMethods ratPrims) 0 .none false oneSignal
    let h' := runSteps ratPrims (defaultMethods ratPrims) (defaultConvMethods ratPrims (defaultMethods ratPrims))
      [.edit (.pokeY 0 fun _ => [9, 9, 9, 9]), .edit (.setStop 0 30), .call (.getAmp 1)] p.2
    p.1 = .ok 1 ∧ counterpartAt oneSignal 0 = none ∧
    (getSpectrum ratPrims (defaultMethods ratPrims) 0 .none true h').1 = .ok 1 ∧
    (getSignal ratPrims (defaultMethods ratPrims) 1 .none none h').1 = .ok 0 ∧
    yAt h' 0 = some [9, 9, 9, 9] ∧ yAt h' 1 = some [1, 2, 3] := by decide +kernel

end SweepDesign
