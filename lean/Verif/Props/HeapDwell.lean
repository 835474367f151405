import Verif.Props.HeapAprior
import Verif.Props.HeapLibrary
import Verif.Props.Sweep

/-!
# C119: `get_dwell_sweep` on objects

The conversion method is any method that, like those of `sweep_methods.py` and `ftat_functions.py`, assigns to nothing that existed: what
it returns is the description of the sweep. Every outcome of the call is described: which exception, or which sweep.
-/

set_option linter.unusedSectionVars false

namespace SweepDesign

open Mem Spec HM

section
variable {T : Transcendental ℝ ℝ} {N : SweepNumbers ℝ} {h : Heap ℝ ℝ} {q : LibArgs}

local notation "Tm" => SweepNumbers.over N T
local notation "Pm" => exactPrims (SweepNumbers.over N T)
local notation "Dm" => defaultMethods (exactPrims (SweepNumbers.over N T))
local notation "Gm" => exactGen (exactPrims (SweepNumbers.over N T)) N
local notation "Sm" => SweepNumbers.prims N (SweepNumbers.over N T)
local notation "Fm" => formulas T N

theorem aprCall_normalised (hN : N.sqrt = mathSqrt) (u : AprSweep) (a : TimeArg ℝ) (tht0 : ℝ) :
    u.call Fm a tht0 true = (do
      let s ← u.base.call Fm a tht0
      let s' ← normalised Fm N s u.aPrior
      pure { s' with aPriorSignal := some u.aPrior }) := by
  symm
  unfold AprSweep.call
  rcases u.base.call Fm a tht0 with e | s
  · rfl
  show (normalised Fm N s u.aPrior >>= _) = (s.getNorm Fm >>= _)
  unfold normalised
  rw [hN]
  rcases s.getNorm Fm with e | ns
  · rfl
  rcases u.aPrior.getNorm with e | na
  · rfl
  show ((mathSqrt na >>= _) >>= _) = (mathSqrt na >>= _)
  rcases mathSqrt na with e | x
  · rfl
  show ((mathSqrt ns >>= _) >>= _) = (mathSqrt ns >>= _)
  rcases mathSqrt ns with e | y
  · rfl
  show ((if y = 0 then _ else _) >>= _) = (if y = 0 then _ else _)
  by_cases hy : y = 0
  · rw [if_pos hy, if_pos hy]; rfl
  rw [if_neg hy, if_neg hy]
  rcases s.amplitudeTime.mul (.other (.num (x / y))) with e | m
  · rfl
  rcases s.operation Fm (.other (.num (x / y))) .mul with e | s' <;> rfl

theorem relIs_keeps {X : Ex} {h h' : Heap ℝ ℝ} (w : Le X h h') {r : Loc} {c : Cls} {v : Rel ℝ ℝ} {o : RelObj} (hr : RelIs h r c v o)
    (hx : o.x ∉ X.axes) (hy : o.y ∉ X.ys) : ∃ o', RelIs h' r c v o' ∧ o'.x = o.x ∧ o'.y = o.y := by
  obtain ⟨o', ho', f, -⟩ := w.rels r o hr.rel
  obtain ⟨a, ha, ea⟩ := hr.x
  obtain ⟨a', ha', ka⟩ := w.axes _ a ha
  obtain ⟨v', hv', kv⟩ := w.yarrs _ _ hr.y
  have ka := ka hx
  refine ⟨o', ⟨ho', f.cls.trans hr.cls, ?_, ?_⟩, f.x, f.y⟩
  · rw [f.x]
    exact ⟨a', ha', by rw [← ea]; simp [fields, ka.start, ka.stop, ka.sample]⟩
  · rw [f.y, hv', kv hy]

/-- the call of the generator with normalisation, then the product with a window on another axis object -/
theorem runs_dwellTail (hc : Coh Pm h) (hd : Derives Tm) {gen : Gen ℝ ℝ} {u : UncalculatedSweep ℝ} (hg : GenIs h gen u) {ap : Loc} {c : Cls}
    {r : Rel ℝ ℝ} (hap : IsNew c h ap r) {win : Loc} {v : Rel ℝ ℝ} {o : RelObj} (hw : RelIs h win .relation v o) (hy : o.y ∉ gen.ys) :
    Runs Pm h (aprioriCall Pm Gm Dm gen ap .none 0 true >>= fun s => operator Pm Dm s (.obj win) .mul)
      (do
        let s ← (do
          let s ← u.call Sm .none 0
          let s' ← normalised Sm N s r
          pure { s' with aPriorSignal := some r })
        s.operation Sm (.rel false v) .mul) SweepIs := by
  have gM := good_defaultMethods (P := Pm)
  have gG := goodGen_exact Pm N
  have k := runs_aprioriCall (T := T) (N := N) hc hg (t := .none) (a := .none) trivial 0 hap (fine_of_derives fun _ => hd) true
  have kc := k.coh
  have kag := k.agree
  rcases hm : aprioriCall Pm Gm Dm gen ap .none 0 true h with ⟨e | s, h'⟩
  · rw [hm] at kc kag
    simp only [reduceIte] at kag
    refine ⟨?_, ?_⟩
    · rw [bind_of_error hm]; exact kc
    · rw [bind_of_error hm]
      revert kag
      generalize (u.call Sm .none 0 >>= _ : Except Err (Sweep ℝ)) = X
      rcases X with e' | s' <;> intro kag
      · exact kag
      · exact kag.elim
  · rw [hm] at kc kag
    simp only [reduceIte] at kag
    have w := le_of_run (safe_aprioriCall (X := ⟨∅, ∅, gen.ys⟩) gM gG gen ap .none 0 true (Set.Subset.refl _)) hm
    obtain ⟨o', hw', ex, -⟩ := relIs_keeps w hw (Set.notMem_empty _) hy
    obtain ⟨os, hos, hx, -⟩ := C56_apriori_normalised gM gG gen ap .none 0 s h h' hm
    refine Runs.step hm ?_
    revert kag
    generalize (u.call Sm .none 0 >>= _ : Except Err (Sweep ℝ)) = X
    rcases X with e' | s' <;> intro kag
    · exact kag.elim
    obtain ⟨ap', ⟨o2, lf, la, hr, -⟩, -⟩ := kag
    have ho2 : o2 = os := Option.some.inj (hr.rel.symm.trans hos)
    have hlt : o.x < h.axes.length := by
      obtain ⟨a, ha, -⟩ := hw.x
      exact (List.getElem?_eq_some_iff.1 ha).1
    have hne : o2.x ≠ o'.x := by
      rw [ho2, ex]
      exact (lt_of_lt_of_le hlt hx).ne'
    have hk := sim_sweep_rel (T := T) (N := N) kc hr hw' (fine_of_derives (fun _ => hd) rfl).2 (by decide) .mul
    rw [decide_eq_false hne] at hk
    exact ⟨hk.coh, hk.agree⟩

theorem runs_bind_run {α β γ δ : Type} {m : HM ℝ ℝ α} {x : Except Err β} {R : Heap ℝ ℝ → α → β → Prop} {f : α → HM ℝ ℝ γ}
    {g : β → Except Err δ} {R' : Heap ℝ ℝ → γ → δ → Prop} (h1 : Sim Pm h m x R)
    (h2 : ∀ a b h', m h = (.ok a, h') → Le ∅ h h' → Coh Pm h' → R h' a b → Runs Pm h' (f a) (g b) R') :
    Runs Pm h (m >>= f) (x >>= g) R' := by
  have w := h1.le
  have c := h1.coh
  have ag := h1.agree
  rcases hm : m h with ⟨e | a, h'⟩
  · rw [hm] at c ag
    refine ⟨by rw [bind_of_error hm]; exact c, ?_⟩
    rw [bind_of_error hm]
    rcases x with e' | b
    · exact ag
    · exact ag.elim
  · rw [hm] at w c ag
    rcases x with e' | b
    · exact ag.elim
    · exact Runs.step hm (h2 a b h' hm w c ag)

theorem runs_first {α β γ δ : Type} {m : HM ℝ ℝ α} {b : β} {R : Heap ℝ ℝ → α → β → Prop} {f : α → HM ℝ ℝ γ}
    {x : Except Err δ} {R' : Heap ℝ ℝ → γ → δ → Prop} (h1 : Sim Pm h m (.ok b) R)
    (h2 : ∀ a h', Le ∅ h h' → Coh Pm h' → R h' a b → Runs Pm h' (f a) x R') : Runs Pm h (m >>= f) x R' :=
  runs_bind_run (g := fun _ => x) h1 fun a _ h' hm w c r => by
    have ag := h1.agree
    rw [hm] at ag
    exact h2 a h' w c ag

/-- the rest of the call once the a-priori signal and its spectrum are there and the method has returned `tt`, `f`, `am` -/
theorem runs_dwellRest (hc : Coh Pm h) (hd : Derives Tm) {l : Loc} {x : Axis ℝ} (hx : AxIs h l x) {ap : Loc} {c : Cls} {r : Rel ℝ ℝ}
    (hap : IsNew c h ap r) (tt f am : List ℝ) (tapper : Option ℝ) :
    Runs Pm h
      (do
        let lf ← newY f
        let la ← newY am
        let gen ← genInit Pm Gm Dm linearFun onesFun (.axis l) (.given (.interp tt lf)) (.given (.interp tt la))
        let xs ← axisValues Pm l
        let w ← lift (tukeyAT xs tapper .both)
        let win ← construct Pm Dm .relation (.axis l) (.list w)
        let s ← aprioriCall Pm Gm Dm gen ap .none 0 true
        operator Pm Dm s (.obj win) .mul)
      (do
        let xs ← x.array
        let w ← tukeyAT xs tapper .both
        let v ← Rel.make x w
        let s ← (do
          let s ← (⟨some x, .interp ⟨tt, f⟩, .interp ⟨tt, am⟩⟩ : UncalculatedSweep ℝ).call Sm .none 0
          let s' ← normalised Sm N s r
          pure { s' with aPriorSignal := some r })
        s.operation Sm (.rel false v) .mul) SweepIs := by
  have gM := good_defaultMethods (P := Pm)
  refine runs_first (sim_newY hc f) fun lf h1 w1 c1 rf => ?_
  refine runs_first (sim_newY c1 am) fun la h2 w2 c2 ra => ?_
  have hx2 := (hx.le w1).le w2
  have kg : Sim Pm h2 _ (.ok _) _ := sim_genInit (T := T) (N := N) c2 (t := .axis l) (a := .axis x) hx2 (f := .given (.interp tt lf))
    (am := .given (.interp tt la)) (F := .interp ⟨tt, f⟩) (A := .interp ⟨tt, am⟩) ⟨rfl, yIs_le w2 rf⟩ ⟨rfl, ra⟩
  refine runs_first kg fun gen h3 w3 c3 hg => ?_
  have hx3 := hx2.le w3
  refine runs_bind_run (sim_axisValues c3 hx3) fun xs xs' h4 _ w4 c4 e => ?_
  subst e
  refine runs_bind_run (sim_lift c4 (tukeyAT xs tapper .both)) fun w w' h5 _ w5 c5 e => ?_
  subst e
  have w45 := w4.trans w5
  refine runs_bind_run (sim_construct_list c5 Dm (Fine.of_ne (c := .relation) (by decide)) w (hx3.le w45) none)
    fun win v h6 e6 w6 c6 hw => ?_
  obtain ⟨o, hw⟩ := hw
  obtain ⟨o', ho', -, -, hy, -⟩ := ownX_construct gM _ _ _ _ _ _ _ e6
  have : o' = o := Option.some.inj (ho'.symm.trans hw.rel)
  subst this
  have hg5 := hg.le w45
  have hys : ∀ y ∈ gen.ys, y < h5.yarrs.length := by
    intro y hy
    have hf := hg5.freq
    have ha := hg5.amp
    rcases hy with hy | hy
    · rcases hk : gen.freq with F | ⟨x', y'⟩
      · rw [hk] at hy; exact absurd hy (Set.notMem_empty _)
      · rw [hk] at hy hf
        have : y = y' := hy
        subst this
        exact (List.getElem?_eq_some_iff.1 hf.2).1
    · rcases hk : gen.amp with F | ⟨x', y'⟩
      · rw [hk] at hy; exact absurd hy (Set.notMem_empty _)
      · rw [hk] at hy ha
        have : y = y' := hy
        subst this
        exact (List.getElem?_eq_some_iff.1 ha.2).1
  exact runs_dwellTail c6 hd (hg5.le w6) (hap.le ((((w1.trans w2).trans w3).trans w45).trans w6)) hw
    fun hh => absurd (hys _ hh) (not_lt.2 hy)

/-- **C119** `get_dwell_sweep`, with the shipped default methods and any conversion method that assigns to nothing: an array given as
time is converted first; then the signal and the spectrum are taken from the data; then the method is run; and the rest of the call
depends on nothing but the axis, the three lists the method returned, and the current values of the signal. -/
theorem C119_dwell (hc : Coh Pm h) (hN : N.sqrt = mathSqrt) (hd : Derives Tm) (method : Convert ℝ ℝ) (hm : ∀ s, Safe Pm ∅ (method s))
    (t : HTime ℝ) (a : TimeArg ℝ) (ht : timeAt h t = some a) (data : AprArg ℝ) (tapper : Option ℝ) :
    let run := dwellSweep Pm Gm (exactLib q) Dm linearFun onesFun method t data tapper
    (∀ e, a.asAxis = .error e → resultOf sweepAt run h = .error e) ∧
    ∀ x, a.asAxis = .ok x → ∃ l h0, axisGiven Pm t h = (.ok l, h0) ∧ fieldsAt h0 l = some x ∧
      (∀ e h1, aprObjects Pm Dm (.axis l) data h0 = (.error e, h1) → resultOf sweepAt run h = .error e) ∧
      ∀ ap sp h1, aprObjects Pm Dm (.axis l) data h0 = (.ok (ap, sp), h1) →
        (∀ e h2, method sp h1 = (.error e, h2) → resultOf sweepAt run h = .error e) ∧
        ∀ tt f am h2, method sp h1 = (.ok (tt, f, am), h2) → ∀ c r, valueAt h1 ap = some (c, r) →
          resultOf sweepAt run h = asSweep (do
            let xs ← x.array
            let w ← tukeyAT xs tapper .both
            let window ← Rel.make x w
            let s ← (⟨⟨some x, .interp ⟨tt, f⟩, .interp ⟨tt, am⟩⟩, r⟩ : AprSweep).call Fm .none 0 true
            s.operation Fm (.rel false window) .mul) := by
  intro run
  have gM := good_defaultMethods (P := Pm)
  have k := sim_axisGiven (T := T) (N := N) hc (timeIs_of ht)
  have kw := k.le
  have kc := k.coh
  have kag := k.agree
  refine ⟨fun e he => ?_, fun x hx => ?_⟩
  · rw [he] at kag
    rcases hg : axisGiven Pm t h with ⟨e' | l, h0⟩
    · rw [hg] at kag
      have : e' = e := kag
      subst this
      have er : run h = (.error e', h0) := bind_of_error hg
      rw [resultOf, er]; rfl
    · rw [hg] at kag; exact kag.elim
  · rw [hx] at kag
    rcases hg : axisGiven Pm t h with ⟨e' | l, h0⟩
    · rw [hg] at kag; exact kag.elim
    rw [hg] at kw kc kag
    have hl : AxIs h0 l x := kag
    refine ⟨l, h0, rfl, axIs_iff.1 hl, fun e h1 e1 => ?_, fun ap sp h1 e1 => ⟨fun e h2 e2 => ?_, fun tt f am h2 e2 c r hr => ?_⟩⟩
    · have er : run h = (.error e, h1) := by
        show (axisGiven Pm t >>= _) h = _
        rw [bind_of_ok hg]
        refine bind_of_error ?_
        show ((config : HM ℝ ℝ ConfigIds) >>= _) h0 = _
        rw [bind_of_ok (show config h0 = (.ok h0.config, h0) from rfl)]
        exact bind_of_error e1
      rw [resultOf, er]; rfl
    · have er : run h = (.error e, h2) := by
        show (axisGiven Pm t >>= _) h = _
        rw [bind_of_ok hg]
        refine bind_of_error ?_
        show ((config : HM ℝ ℝ ConfigIds) >>= _) h0 = _
        rw [bind_of_ok (show config h0 = (.ok h0.config, h0) from rfl), bind_of_ok e1]
        exact bind_of_error e2
      rw [resultOf, er]; rfl
    · have w1 := le_of_run (safe_aprObjects (X := ∅) gM _ _) e1
      have c1 := coh_of_run (X := ∅) (safe_aprObjects gM _ _) e1 kc
      have w2 := le_of_run (hm sp) e2
      have c2 := coh_of_run (hm sp) e2 c1
      have kr := runs_dwellRest (T := T) (N := N) c2 hd (hl.le (w1.trans w2)) (IsNew.le w2 (relIs_of_valueAt hr)) tt f am tapper
      refine Eq.trans ?_ ((result_of_runs kr).trans ?_)
      · have key : ∀ (m : HM ℝ ℝ Loc) h', run h = m h' → resultOf sweepAt run h = resultOf sweepAt m h' := by
          intro m h' e
          rw [resultOf, e]; rfl
        refine key _ _ ?_
        show (axisGiven Pm t >>= _) h = _
        rw [bind_of_ok hg]
        show ((aprioriInit _ _ _ _ _ _ _ _ _) >>= _) h0 = _
        unfold aprioriInit
        rw [hm_assoc, bind_of_ok (show config h0 = (.ok h0.config, h0) from rfl), hm_assoc, bind_of_ok e1, hm_assoc]
        refine (bind_of_ok e2).trans ?_
        simp only [hm_assoc]
        rfl
      · simp only [aprCall_normalised hN]
        rfl

end

/-! ## a case meeting the hypotheses -/

/-- functions whose results are always finite; `easyT` over ℝ -/
def simpleT : Transcendental ℝ ℝ where
  exp := id
  max _ := .ok 0
  min _ := .ok 0
  abs := id
  phase := id
  imag := 0
  shiftFactor _ _ := 0
  rfft y _ := .ok y
  rfftfreq _ _ := .ok []
  irfft y _ := .ok y
  instFreq y _ := .ok y
  envelope y := .ok y
  spectrogram _ _ := .ok ()

/-- a signal object 0 and its spectrum object 1; the method that returns a description running from 1 Hz to 2 Hz -/
example :
    let h : Heap ℝ ℝ := ⟨[⟨0, 3, 1, none, none⟩, ⟨0, 2, 1, none, none⟩], [], [[1, 2, 3, 4], [10, 2, 2]],
      [mkRelObj .signal noConfig 0 0 (some 1), mkRelObj .spectrum noConfig 1 1 (some 0)], noConfig⟩
    let P := exactPrims (realN.over simpleT)
    let method : Convert ℝ ℝ := fun _ => pure ([0, 3], [1, 2], [1, 1])
    Coh P h ∧ realN.sqrt = mathSqrt ∧ Derives (realN.over simpleT) ∧ (∀ s, Safe P ∅ (method s)) ∧
    timeAt h (.axis 0) = some (.axis ⟨0, 3, 1⟩) ∧ (TimeArg.axis ⟨0, 3, 1⟩ : TimeArg ℝ).asAxis = .ok ⟨0, 3, 1⟩ ∧
    axisGiven P (.axis 0) h = (.ok 0, h) ∧ aprObjects P (defaultMethods P) (.axis 0) (.obj 0) h = (.ok (0, 1), h) ∧
    method 1 h = (.ok ([0, 3], [1, 2], [1, 1]), h) ∧ valueAt h 0 = some (.signal, ⟨⟨0, 3, 1⟩, [1, 2, 3, 4]⟩) := by
  refine ⟨?_, rfl, fun y d hy => ⟨⟨y, rfl, rfl⟩, ⟨y, rfl, rfl⟩, ?_⟩, fun _ => safe_pure _, rfl, rfl, rfl, rfl, rfl, rfl⟩
  · intro i a ha
    rcases i with _ | _ | i
    · simp only [List.getElem?_cons_zero, Option.some.injEq] at ha
      subst ha
      exact ⟨fun j hj => by simp at hj, fun d hd => by simp at hd⟩
    · simp only [zero_add, List.getElem?_cons_succ, List.getElem?_cons_zero, Option.some.injEq] at ha
      subst ha
      exact ⟨fun j hj => by simp at hj, fun d hd => by simp at hd⟩
    · simp at ha
  · simp [SweepNumbers.over, realN, getSpectrogram, padAxis, axisFromArray_zero_one, bind, Except.bind, pure, Except.pure, Except.map]

end SweepDesign
