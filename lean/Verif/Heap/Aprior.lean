import Verif.Heap.Sweep

/-!
# Heap layer: the constructor of a-priori generators

`ApriorUncalculatedSweep.__init__` of `/repo/sweep_design/uncalculated_sweep.py` with `get_info_from_a_prior_data` and
`convert_freq2time` of `/repo/sweep_design/defaults/sweep_methods.py`. A relation passed as `time` is not modelled: `np.array` of it
never ends (see `Model/Aprior` and C99).
-/

set_option linter.unusedSectionVars false

namespace SweepDesign.Mem

open HM

variable {K V : Type}

/-- the argument `a_prior_data`: an object of one of the relation classes, or anything else (an array-like, `None`) -/
inductive AprArg (V : Type)
  | obj (l : Loc)
  | other (y : HYArg V)

/-- a conversion method: the times, frequencies and amplitudes it returns for a spectrum object. `InterpolateArray` copies the arrays
(`defaults/sweep_methods.py:78-83`), so only their values matter. -/
abbrev Convert (K V : Type) := Loc → HM K V (List K × List V × List V)

section
variable (P : Prims K V) (G : GenPrims K V) (M : Methods K V)

/-- `Signal(time, a_prior_data)` (`defaults/sweep_methods.py:165`). Without `time`, `np.diff` of a zero-dimensional array raises
`ValueError`, after the check that data is given. -/
def aprSignal (y : HYArg V) : HTime K → HM K V Loc
  | .none => do
    let _ ← npArray y
    raise .value
  | .axis t => construct P M .signal (.axis t) y
  | .array x isFloat => construct P M .signal (.array x isFloat) y

/-- the a-priori signal and spectrum (`defaults/sweep_methods.py:149-166`) -/
def aprObjects (time : HTime K) : AprArg V → HM K V (Loc × Loc)
  | .obj l => do
    let o ← getRel l
    if o.cls = .spectrum then do
      let s ← getSignal P M l
      pure (s, l)
    else if o.cls.isSignal then do
      let sp ← getSpectrum P M l
      pure (l, sp)
    else do
      let sp ← construct P M .spectrum (.rel l) .absent
      let s ← getSignal P M sp
      pure (s, sp)
  | .other y => do
    let s ← aprSignal P M y time
    let sp ← getSpectrum P M s
    pure (s, sp)

/-- `ApriorUncalculatedSweep.__init__` (`uncalculated_sweep.py:207-237`); `Q` are the methods `SweepConfig.freq2time` can name, `method`
the argument `ftat_method`. The result is the generator and its `_a_prior_signal`. -/
def aprioriInit (linear ones : PyFun K V) (Q : ℕ → Convert K V) (time : HTime K) (data : AprArg V) (method : Option (Convert K V)) :
    HM K V (Gen K V × Loc) := do
  let g ← config
  let (sig, sp) ← aprObjects P M time data
  let (t, f, a) ← method.getD (Q g.freq2time) sp
  let lf ← newY f
  let la ← newY a
  let gen ← genInit P G M linear ones time (.given (.interp t lf)) (.given (.interp t la))
  pure (gen, sig)

end

variable {P : Prims K V} {G : GenPrims K V} {M : Methods K V} {X : Ex}

theorem safe_aprSignal (hM : GoodMethods P M) (y : HYArg V) (time : HTime K) : Safe P X (aprSignal P M y time) := by
  cases time
  · exact (safe_npArray _).bind fun _ => safe_raise _
  · exact safe_construct hM _ _ _ _
  · exact safe_construct hM _ _ _ _

theorem safe_aprObjects (hM : GoodMethods P M) (time : HTime K) (d : AprArg V) : Safe P X (aprObjects P M time d) := by
  cases d with
  | obj l =>
    refine (safe_getRel _).bind fun o => ?_
    split
    · exact (safe_getSignal0 hM _).bind fun _ => safe_pure _
    split
    · exact (safe_getSpectrum0 hM _).bind fun _ => safe_pure _
    · exact (safe_construct hM _ _ _ _).bind fun _ => (safe_getSignal0 hM _).bind fun _ => safe_pure _
  | other y => exact (safe_aprSignal hM _ _).bind fun _ => (safe_getSpectrum0 hM _).bind fun _ => safe_pure _

theorem safe_genInit_given (hM : GoodMethods P M) (linear ones : PyFun K V) (time : HTime K) (d e : Desc K V) :
    Safe P X (genInit P G M linear ones time (.given d) (.given e)) := by
  refine safe_config.bind fun g => ?_
  have h : Safe P X (genTime M g time) := by
    cases time
    · exact safe_pure _
    · exact safe_pure _
    · exact (hM.fromArray _ _ _ _).of_empty.bind fun _ => safe_pure _
  exact h.bind fun _ => (safe_pure _).bind fun _ => (safe_pure _).bind fun _ => safe_pure _

theorem safe_aprioriInit (hM : GoodMethods P M) (linear ones : PyFun K V) {Q : ℕ → Convert K V} (hQ : ∀ n s, Safe P ∅ (Q n s))
    (time : HTime K) (data : AprArg V) {method : Option (Convert K V)} (hm : ∀ q ∈ method, ∀ s, Safe P ∅ (q s)) :
    Safe P X (aprioriInit P G M linear ones Q time data method) := by
  refine safe_config.bind fun g => (safe_aprObjects hM _ _).bind fun p => ?_
  have h : Safe P X (method.getD (Q g.freq2time) p.2) := by
    cases method with
    | none => exact (hQ _ _).of_empty
    | some q => exact (hm q rfl _).of_empty
  exact h.bind fun _ => (safe_newY _).bind fun _ => (safe_newY _).bind fun _ => (safe_genInit_given hM _ _ _ _ _).bind fun _ =>
    safe_pure _

end SweepDesign.Mem
