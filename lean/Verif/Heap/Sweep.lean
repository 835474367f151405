import Verif.Heap.Own

/-!
# Heap layer: the sweep generators

`/repo/sweep_design/uncalculated_sweep.py` and `InterpolateArray` of `/repo/sweep_design/defaults/sweep_methods.py` as heap
programs. A generator is the tuple of its attributes, which are only assigned in `__init__`. A description that is a
function is taken to be a pure function, given by what it does on the numbers in `time.array` and on one number: functions
that write into the array they are given are not modelled.
-/

set_option linter.unusedSectionVars false

namespace SweepDesign.Mem

open HM

variable {K V : Type}

/-- a callable description: what it returns for an array, and for a number (it is called with numbers by `quad`) -/
structure PyFun (K V : Type) where
  onArray : List K → Except Err (List V)
  onNumber : K → V

/-- The further number operations of the generators, and the method `Config.integrate_function_method`. -/
structure GenPrims (K V : Type) where
  /-- `x * ((end - start) / x[-1]) - x[0] + start` (`defaults/sweep_methods.py:95-97`) -/
  stretch : List K → K → K → Except Err (List K)
  /-- `(start - end) / (size - 1)` (`defaults/sweep_methods.py:246`) -/
  respace : K → K → ℕ → Except Err K
  /-- `np.append([0.0], 2 * np.pi * y)` (`uncalculated_sweep.py:184-185`) -/
  phaseOf : List V → List V
  /-- `amplitude * np.sin(tht + tht0)` (`uncalculated_sweep.py:153-154`) -/
  swing : List V → List V → V → Except Err (List V)
  /-- `Config.integrate_function_method` -/
  intFun : ℕ → PyFun K V → Loc → HM K V (Loc × Loc)
  /-- `sqrt(norm_a_prior) / sqrt(norm_sweep)` (`uncalculated_sweep.py:266`) -/
  normRatio : V → V → Except Err V

/-- a description as stored by the generator: a function, or an `InterpolateArray` with its arrays `_x` and `_y`
(`defaults/sweep_methods.py:47-83`) -/
inductive Desc (K V : Type)
  | func (f : PyFun K V)
  | interp (x : List K) (y : Loc)

/-- The attributes of `UncalculatedSweep` (`uncalculated_sweep.py:65-96`); `intFun` and `fromArray` are the captured Config
methods. -/
structure Gen (K V : Type) where
  time : Option Loc
  freq : Desc K V
  amp : Desc K V
  intFun : ℕ
  fromArray : ℕ

/-- the `time` argument (`uncalculated_sweep.py:38`, `68-69`): absent, an axis object, or an array-like -/
inductive HTime (K : Type)
  | none
  | axis (l : Loc)
  | array (x : List K) (isFloat : Bool)

/-- a description as given by the user (`uncalculated_sweep.py:71-90`): absent, a function or `InterpolateArray`, a relation,
or an array-like (converted by `np.array` unless it is an ndarray) -/
inductive DescArg (K V : Type)
  | absent
  | given (d : Desc K V)
  | rel (r : Loc)
  | arr (l : Loc)

section
variable (P : Prims K V) (G : GenPrims K V) (M : Methods K V)

/-- `InterpolateArray(relation)` (`defaults/sweep_methods.py:70-73`) -/
def interpOfRel (r : Loc) : HM K V (Desc K V) := do
  let o ← getRel r
  let x ← axisValues P o.x
  let y ← getY o.y
  let l ← newY y
  pure (.interp x l)

/-- `InterpolateArray(axis, y)` (`defaults/sweep_methods.py:78-81`) -/
def interpOfAxis (t : Loc) (y : Loc) : HM K V (Desc K V) := do
  let v ← getY y
  let l ← newY v
  let x ← axisValues P t
  pure (.interp x l)

/-- `_extract_x_t` (`defaults/sweep_methods.py:223-257`) after the default function has been put in for an absent
description; `t` is an axis or absent -/
def extractDesc (t : Option Loc) (dflt : PyFun K V) : DescArg K V → HM K V (Desc K V)
  | .absent => pure (.func dflt)
  | .given d => pure d
  | .rel r => interpOfRel P r
  | .arr l =>
    match t with
    | none => raise .badInput
    | some t => do
      let n ← axisSize P t
      let y ← getY l
      if n ≠ y.length then do
        let a ← getAxis t
        let d ← lift (G.respace a.start a.stop y.length)
        let c ← axisNew a.start a.stop d
        let lx ← axisArray P c
        let g ← config
        let y' ← M.interp g.interp lx l t
        interpOfAxis P t y'
      else interpOfAxis P t l

/-- the stored time (`uncalculated_sweep.py:68-69`): a given axis object itself, or a new one for an array -/
def genTime (g : ConfigIds) : HTime K → HM K V (Option Loc)
  | .none => pure none
  | .axis l => pure (some l)
  | .array x isFloat => do
    let l ← M.fromArray g.fromArray x isFloat true
    pure (some l)

/-- `UncalculatedSweep.__init__` (`uncalculated_sweep.py:65-96`) with `get_info_from_ftat`
(`defaults/sweep_methods.py:173-220`). `linear` and `ones` are the default descriptions. -/
def genInit (linear ones : PyFun K V) (time : HTime K) (f a : DescArg K V) : HM K V (Gen K V) := do
  let g ← config
  let t ← genTime M g time
  let fd ← extractDesc P G M t linear f
  let ad ← extractDesc P G M t ones a
  pure { time := t, freq := fd, amp := ad, intFun := g.intFun, fromArray := g.fromArray }

/-- a description on an axis: `InterpolateArray.__call__` (`defaults/sweep_methods.py:85-102`, with the interpolation method
`Config` has at the time of the call and the stored `_y` itself as its argument), or the function applied to `array` -/
def descOn (d : Desc K V) (t : Loc) : HM K V Loc :=
  match d with
  | .interp x y => do
    let a ← getAxis t
    let x' ← lift (G.stretch x a.start a.stop)
    let lx ← newX x'
    let g ← config
    M.interp g.interp lx y t
  | .func f => do
    let xs ← axisValues P t
    let ys ← lift (f.onArray xs)
    newY ys

/-- the y values of `tht(calc_time)` (`uncalculated_sweep.py:167-188`); `v` is the first evaluation of an interpolated
description, made when `tht` is built -/
def thtOn (gen : Gen K V) (v : Option Loc) (t : Loc) : HM K V (List V) :=
  match gen.freq, v with
  | .func f, _ => do
    let (x, y) ← G.intFun gen.intFun f t
    let r ← relInit P M .relation (.axis x) (.arr y) none
    let o ← getRel r
    getY o.y
  | .interp _ _, some v => do
    let r ← relInit P M .relation (.axis t) (.arr v) none
    let q ← relIntegrate P M r
    let o ← getRel q
    let y ← getY o.y
    let r' ← relInit P M .relation (.axis t) (.list (G.phaseOf y)) none
    let o ← getRel r'
    getY o.y
  | .interp _ _, none => raise .typeError

/-- which axis object a call calculates on (`uncalculated_sweep.py:127-136`) -/
def calcTime (gen : Gen K V) : HTime K → HM K V Loc
  | .axis l => pure l
  | .array x isFloat => M.fromArray gen.fromArray x isFloat true
  | .none =>
    match gen.time with
    | none => raise .badInput
    | some t => pure t

/-- the value an interpolated frequency description is given before `tht` is built (`uncalculated_sweep.py:139`) -/
def firstFreq (gen : Gen K V) (t : Loc) : HM K V (Option Loc) :=
  match gen.freq with
  | .interp _ _ => do
    let v ← descOn P G M gen.freq t
    pure (some v)
  | .func _ => pure none

/-- the part of `__call__` after the axis has been chosen (`uncalculated_sweep.py:138-165`) -/
def calculate (gen : Gen K V) (tht0 : V) (t : Loc) : HM K V Loc := do
  let v ← firstFreq P G M gen t
  let w ← descOn P G M gen.freq t
  let ft ← relInit P M .relation (.axis t) (.arr w) none
  let amp ← descOn P G M gen.amp t
  let a ← getY amp
  let th ← thtOn P G M gen v t
  let y ← lift (G.swing a th tht0)
  let at' ← relInit P M .relation (.axis t) (.arr amp) none
  let s ← relInit P M .sweep (.axis t) (.list y) none
  sweepInit M s (some ft) (some at') none

/-- `UncalculatedSweep.__call__` (`uncalculated_sweep.py:98-165`) -/
def genCall (gen : Gen K V) (time : HTime K) (tht0 : V) : HM K V Loc := do
  let t ← calcTime M gen time
  calculate P G M gen tht0 t

/-- `self.a_prior_signal = ..` and `self.amplitude_time = ..` -/
def setAprior (s : Loc) (ap : Option Loc) : HM K V Unit := do
  let o ← getRel s
  putRel s { o with aPrior := ap }

/-- the normalisation of an a-priori sweep (`uncalculated_sweep.py:263-268`) -/
def normalise (s ap : Loc) : HM K V Loc := do
  let ns ← getNorm P M s
  let na ← getNorm P M ap
  let c ← lift (G.normRatio na ns)
  let o ← getRel s
  match o.ampTime with
  | none => raise .typeError
  | some a => do
    let a' ← operator P M a (.number c) .mul
    let o ← getRel s
    putRel s { o with ampTime := some a' }
    operator P M s (.number c) .mul

/-- `ApriorUncalculatedSweep.__call__` (`uncalculated_sweep.py:239-271`); `ap` is `_a_prior_signal` -/
def aprioriCall (gen : Gen K V) (ap : Loc) (time : HTime K) (tht0 : V) (isNormalize : Bool) : HM K V Loc := do
  let s ← genCall P G M gen time tht0
  let s' ← (if isNormalize then normalise P G M s ap else pure s : HM K V Loc)
  setAprior s' (some ap)
  pure s'

end

/-- Contract for `Config.integrate_function_method`. -/
def GoodGen (P : Prims K V) (G : GenPrims K V) : Prop := ∀ n f t, Safe P ∅ (G.intFun n f t)

/-- the y array objects a description keeps -/
def Desc.ys : Desc K V → Set Loc
  | .func _ => ∅
  | .interp _ y => {y}

/-- the y array objects a generator keeps: the interpolation method is handed them at every call -/
def Gen.ys (gen : Gen K V) : Set Loc := gen.freq.ys ∪ gen.amp.ys

variable {P : Prims K V} {G : GenPrims K V} {M : Methods K V} {X : Ex}

theorem safe_descOn (hM : GoodMethods P M) (d : Desc K V) (t : Loc) (hd : d.ys ⊆ X.ys) : Safe P X (descOn P G M d t) := by
  unfold descOn
  split
  · exact (safe_getAxis _).bind fun _ => (safe_lift _).bind fun _ => (safe_newX _).bind fun _ => safe_config.bind fun _ =>
      (hM.interp _ _ _ _).mono (Set.empty_subset _) (Set.empty_subset _) hd
  · exact (safe_axisValues _).bind fun _ => (safe_lift _).bind fun _ => safe_newY _

theorem safe_firstFreq (hM : GoodMethods P M) (gen : Gen K V) (t : Loc) (hd : gen.freq.ys ⊆ X.ys) :
    Safe P X (firstFreq P G M gen t) := by
  unfold firstFreq
  split
  · exact (safe_descOn hM _ _ hd).bind fun _ => safe_pure _
  · exact safe_pure _

theorem safe_thtOn (hM : GoodMethods P M) (hG : GoodGen P G) (gen : Gen K V) (v : Option Loc) (t : Loc) :
    Safe P X (thtOn P G M gen v t) := by
  unfold thtOn
  split
  · exact (hG _ _ _).of_empty.bind fun _ => (safe_relInit hM _ _ _ _).bind fun _ => (safe_getRel _).bind fun _ => safe_getY _
  · exact (safe_relInit hM _ _ _ _).bind fun _ => (safe_relIntegrate hM _).bind fun _ => (safe_getRel _).bind fun _ =>
      (safe_getY _).bind fun _ => (safe_relInit hM _ _ _ _).bind fun _ => (safe_getRel _).bind fun _ => safe_getY _
  · exact safe_raise _

theorem safe_calcTime (hM : GoodMethods P M) (gen : Gen K V) (time : HTime K) : Safe P X (calcTime M gen time) := by
  unfold calcTime
  split
  · exact safe_pure _
  · exact (hM.fromArray _ _ _ _).of_empty
  · split
    · exact safe_raise _
    · exact safe_pure _

theorem safe_calculate (hM : GoodMethods P M) (hG : GoodGen P G) (gen : Gen K V) (tht0 : V) (t : Loc) (hd : gen.ys ⊆ X.ys) :
    Safe P X (calculate P G M gen tht0 t) := by
  have h1 : gen.freq.ys ⊆ X.ys := Set.subset_union_left.trans hd
  have h2 : gen.amp.ys ⊆ X.ys := Set.subset_union_right.trans hd
  unfold calculate
  exact (safe_firstFreq hM _ _ h1).bind fun _ => (safe_descOn hM _ _ h1).bind fun _ => (safe_relInit hM _ _ _ _).bind fun _ =>
    (safe_descOn hM _ _ h2).bind fun _ => (safe_getY _).bind fun _ => (safe_thtOn hM hG _ _ _).bind fun _ =>
    (safe_lift _).bind fun _ => (safe_relInit hM _ _ _ _).bind fun _ =>
    Safe.bindR (safe_relInit hM _ _ _ _) (fresh_relInit hM _ _ _ _) fun _ => safe_sweepInit hM (Set.mem_insert _ _) _ _ _

/-- a call changes nothing that existed before, except through an interpolation method that writes into the y values -/
theorem safe_genCall (hM : GoodMethods P M) (hG : GoodGen P G) (gen : Gen K V) (time : HTime K) (tht0 : V)
    (hd : gen.ys ⊆ X.ys) : Safe P X (genCall P G M gen time tht0) :=
  (safe_calcTime hM _ _).bind fun _ => safe_calculate hM hG _ _ _ hd

theorem le_of_run {α : Type} {m : HM K V α} (w : Safe P X m) {h h' : Heap K V} {a : Except Err α} (hm : m h = (a, h')) :
    Le X h h' := by
  have := (w h).1
  rwa [hm] at this

theorem coh_of_run {α : Type} {m : HM K V α} (w : Safe P X m) {h h' : Heap K V} {a : Except Err α} (hm : m h = (a, h'))
    (c : Coh P h) : Coh P h' := by
  have := (w h).2 c
  rwa [hm] at this

/-- the descriptions a sweep is given are the ones it has -/
theorem sweepInit_desc (hM : GoodMethods P M) {l l' f a : Loc} {ap : Option Loc} {h h' : Heap K V}
    (hh : sweepInit M l (some f) (some a) ap h = (.ok l', h')) :
    ∃ o, h'.rels[l]? = some o ∧ o.freqTime = some f ∧ o.ampTime = some a ∧ o.aPrior = ap := by
  unfold sweepInit at hh
  obtain ⟨g, _, hg, hh1⟩ := bind_ok.1 hh
  simp only [config, Prod.mk.injEq, Except.ok.injEq] at hg
  obtain ⟨-, rfl⟩ := hg
  obtain ⟨f', _, hf, hh2⟩ := bind_ok.1 hh1
  simp only [givenOr, pure_run, Prod.mk.injEq, Except.ok.injEq] at hf
  obtain ⟨rfl, rfl⟩ := hf
  obtain ⟨o1, _, ho1, hh3⟩ := bind_ok.1 hh2
  obtain ⟨ho1, rfl⟩ := getRel_ok.1 ho1
  rw [bind_of_ok putRel_run] at hh3
  obtain ⟨a', _, ha, hh4⟩ := bind_ok.1 hh3
  simp only [givenOr, pure_run, Prod.mk.injEq, Except.ok.injEq] at ha
  obtain ⟨rfl, rfl⟩ := ha
  rw [bind_of_ok (getRel_run (set_getElem?_self ho1)), bind_of_ok putRel_run] at hh4
  obtain ⟨_, h2, hs, hh5⟩ := bind_ok.1 hh4
  have w := le_of_run (hM.spectrogram g.spectrogram l) hs
  obtain ⟨o2, ho2, -, m⟩ := w.rels l _ (set_getElem?_self (set_getElem?_self ho1))
  have m := m (Set.notMem_empty _)
  rw [bind_of_ok (getRel_run ho2), bind_of_ok putRel_run] at hh5
  simp only [pure_run, Prod.mk.injEq, Except.ok.injEq] at hh5
  obtain ⟨-, rfl⟩ := hh5
  exact ⟨_, set_getElem?_self ho2, m.freqTime _ rfl, m.ampTime _ rfl, rfl⟩

end SweepDesign.Mem
