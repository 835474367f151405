import Verif.Props.HeapClasses

/-!
# C100: spectra and signals on an axis object given by the caller
-/

set_option linter.unusedSectionVars false

namespace SweepDesign

open Mem Mem.HM Spec

variable {K V : Type} {P : Prims K V} {M : Methods K V} {C : ConvMethods K V} {α β : Type}

/-- the axis object of a relation object -/
def Spec.axisObject (h : Heap K V) (r : Loc) : Option Loc := (h.rels[r]?).map RelObj.x

/-- whatever the program returns has property `Q` -/
def Returns (Q : α → Prop) (m : HM K V α) : Prop := ∀ h a h', m h = (.ok a, h') → Q a

theorem Returns.bind {R : α → Prop} {Q : β → Prop} {m : HM K V α} {k : α → HM K V β} (hm : Returns R m)
    (hk : ∀ a, R a → Returns Q (k a)) : Returns Q (m >>= k) := by
  intro h b h' e
  obtain ⟨a, h1, e1, e2⟩ := bind_ok.1 e
  exact hk a (hm _ _ _ e1) _ _ _ e2

theorem Returns.after {Q : β → Prop} {m : HM K V α} {k : α → HM K V β} (hk : ∀ a, Returns Q (k a)) : Returns Q (m >>= k) :=
  Returns.bind (R := fun _ => True) (fun _ _ _ _ => trivial) fun a _ => hk a

theorem returns_pure {Q : α → Prop} {a : α} (h : Q a) : Returns Q (pure a : HM K V α) := by
  intro h0 b h1 e
  simp only [pure_run, Prod.mk.injEq, Except.ok.injEq] at e
  exact e.1 ▸ h

/-- Contract: a transform onto a given axis object hands that object back. -/
structure Spec.KeepsGiven (M : Methods K V) : Prop where
  spectrum : ∀ n s l z, Returns (fun p => p.1 = l) (M.signal2spectrum n s (.axis l) z)
  signal : ∀ n s l t, Returns (fun p => p.1 = l) (M.spectrum2signal n s (.axis l) t)

theorem returns_calculateSpectrum (t l : Loc) (amp : List V) : Returns (fun p => p.1 = l) (calculateSpectrum P t amp (.axis l)) := by
  unfold calculateSpectrum
  refine .after fun _ => .after fun _ => .after fun _ => .after fun _ => ?_
  exact Returns.bind (R := (· = l)) (returns_pure rfl) fun a ha => .after fun _ => returns_pure ha

theorem refill_axis (hM : GoodMethods P M) (cls : Cls) (hcls : cls ≠ .sweep) {m : HM K V (Loc × Loc)} (hm : Safe P ∅ m) {l : Loc}
    (hl : Returns (fun p => p.1 = l) m) {s c : Loc} {h h' : Heap K V} {o : RelObj} (ho : h.rels[s]? = some o)
    (hh : (m >>= fun p => construct P M cls (.axis p.1) (.arr p.2) (some s) >>= fun sp => getRel s >>= fun o =>
      putRel s { o with counterpart := some sp } >>= fun _ => pure sp) h = (.ok c, h')) : axisObject h' c = some l := by
  have hle := (refill_ok hM cls hcls hm ho hh).1
  obtain ⟨p, h1, e1, g1⟩ := bind_ok.1 hh
  obtain ⟨sp, h2, e2, g2⟩ := bind_ok.1 g1
  obtain ⟨oc, hoc, -, hx, -⟩ := ownX_construct hM _ _ _ _ _ _ _ e2
  obtain ⟨o2, h3, e3, g3⟩ := bind_ok.1 g2
  obtain ⟨-, rfl⟩ := getRel_ok.1 e3
  simp only [putRel, bind_run, pure_run, Prod.mk.injEq, Except.ok.injEq] at g3
  obtain ⟨rfl, rfl⟩ := g3
  have hne : s ≠ sp := ((List.getElem?_eq_some_iff.1 ho).1.trans_le hle).ne
  simp only [axisObject]
  rw [set_getElem?_of_ne hne, hoc, Option.map_some, hx, hl _ _ _ e1]

/-- `signal.get_spectrum(axis)` is a spectrum on the very axis object that was given. -/
theorem C100_spectrum (hM : GoodMethods P M) (hG : KeepsGiven M) {s c l : Loc} {z : Bool} {h h' : Heap K V}
    (hh : getSpectrum P M s (.axis l) z h = (.ok c, h')) : axisObject h' c = some l := by
  unfold getSpectrum at hh
  obtain ⟨o, h1, e, g⟩ := bind_ok.1 hh
  obtain ⟨ho, rfl⟩ := getRel_ok.1 e
  have key := fun hh => refill_axis hM .spectrum (by decide) (hM.signal2spectrum o.caps.transform s (.axis l) z)
    (hG.spectrum _ _ _ _) (c := c) (h' := h') ho hh
  cases hc : o.counterpart <;> rw [hc] at g <;> exact key g

/-- `spectrum.get_signal(axis)` is a signal on the very axis object that was given. -/
theorem C100_signal (hM : GoodMethods P M) (hG : KeepsGiven M) {s c l : Loc} {t : Option K} {h h' : Heap K V}
    (hh : getSignal P M s (.axis l) t h = (.ok c, h')) : axisObject h' c = some l := by
  unfold getSignal at hh
  obtain ⟨o, h1, e, g⟩ := bind_ok.1 hh
  obtain ⟨ho, rfl⟩ := getRel_ok.1 e
  have key := fun hh => refill_axis hM .signal (by decide) (hM.spectrum2signal o.caps.transform s (.axis l) t)
    (hG.signal _ _ _ _) (c := c) (h' := h') ho hh
  cases hc : o.counterpart <;> rw [hc] at g <;> exact key g

/-- An object stays on its axis object, whatever is called or assigned afterwards; so an assignment to the axis given to
`get_spectrum` reaches the spectrum at any later time. -/
theorem C100_permanent (hM : GoodMethods P M) (hC : GoodConvMethods P C) (ss : List (Step K V)) {h : Heap K V} {r l : Loc}
    (hr : axisObject h r = some l) : axisObject (runSteps P M C ss h) r = some l := by
  induction ss generalizing h with
  | nil => exact hr
  | cons s ss ih =>
    refine ih ?_
    cases s with
    | call c =>
      obtain ⟨o, ho, e⟩ := Option.map_eq_some_iff.1 hr
      obtain ⟨o', ho', f, -⟩ := (safe_call hM hC c h).1.rels r o ho
      show axisObject (c.exec P M C h).2 r = some l
      rw [axisObject, ho', Option.map_some, f.x, e]
    | edit e =>
      show axisObject (e.exec h).2 r = some l
      rw [axisObject, edit_rels e]; exact hr

/-- The default transforms meet the contract. -/
theorem C100_defaults : KeepsGiven (defaultMethods P) where
  spectrum n s l z := by
    show Returns _ (defSignal2Spectrum P s (.axis l) z)
    unfold defSignal2Spectrum
    refine .after fun _ => .after fun _ => .after fun _ => .after fun _ => ?_
    split
    · exact returns_calculateSpectrum _ _ _
    · split
      · exact .after fun _ => .after fun _ => .after fun _ => returns_calculateSpectrum _ _ _
      · split
        · exact .after fun _ => .after fun _ => .after fun _ => returns_calculateSpectrum _ _ _
        · exact returns_calculateSpectrum _ _ _
  signal n s l t := by
    show Returns _ (defSpectrum2Signal P s (.axis l) t)
    unfold defSpectrum2Signal
    refine .after fun _ => .after fun _ => .after fun _ => .after fun _ => .after fun _ => ?_
    exact Returns.bind (R := (· = l)) (returns_pure rfl) fun a ha => .after fun _ => .after fun _ => .after fun _ => returns_pure ha

/-- a signal (object 0) on axis 0, and a frequency axis 1 of three points; the spectrum (object 1) on it is spoilt by an
assignment to that axis, the signal is not -/
example :
    let M := defaultMethods ratPrims
    let C := defaultConvMethods ratPrims M
    let h0 := runSteps ratPrims M C [.call (.axisNew 0 2 1)] oneSignal
    let p := getSpectrum ratPrims M 0 (.axis 1) false h0
    let h' := runSteps ratPrims M C [.edit (.setStop 1 9)] p.2
    p.1 = .ok 1 ∧ axisObject p.2 1 = some 1 ∧ axisObject p.2 0 = some 0 ∧ axisObject h' 1 = some 1 ∧
    ((h'.axes[1]?).map fun a => (a.start, a.stop, a.sample)) = some (0, 9, 1) ∧
    ((h'.axes[0]?).map fun a => (a.start, a.stop, a.sample)) = some (0, 3, 1) := by
  refine ⟨?_, ?_, ?_, ?_, ?_, ?_⟩ <;> decide +kernel

end SweepDesign
