import Verif.Heap.Prepared
import Verif.Heap.History

/-!
# Heap layer: whole sessions

A session is any list of actions of a user: calls of methods and assignments as in `Heap/Calls`, calls of the functions of
`prepared_sweeps` and `utility_functions` (`Heap/Prepared`), decompositions (`Heap/Emd`), making generators (`UncalculatedSweep`,
`ApriorUncalculatedSweep`) and calling the generators made so far. An action that raises leaves the heap it raised in, and makes no
generator.
-/

set_option linter.unusedSectionVars false

namespace SweepDesign.Mem

open HM Spec

variable {K V : Type}

/-- everything the heap programs take as parameters: number operations, the methods that can be named in `Config` and `SweepConfig`, and
the default descriptions of a generator -/
structure Package (K V : Type) where
  prims : Prims K V
  gen : GenPrims K V
  lib : LibPrims K V
  methods : Methods K V
  conv : ConvMethods K V
  linear : PyFun K V
  ones : PyFun K V
  freq2time : ℕ → Convert K V

/-- what a user can do; generators are named by the order in which they were made -/
inductive Act (K V : Type)
  | step (s : Step K V)
  | lib (c : LibCall K V)
  /-- `get_IMFs_emd`, `get_IMFs_ceemdan` -/
  | decompose (E : List V → Except Err (List (List V))) (r : Loc)
  /-- `UncalculatedSweep(time, frequency_time, amplitude_time)` (`uncalculated_sweep.py:37-96`) -/
  | newGen (time : HTime K) (f a : DescArg K V)
  /-- `generator(time, tht0)` (`uncalculated_sweep.py:98-165`) -/
  | callGen (i : ℕ) (time : HTime K) (tht0 : V)
  /-- `ApriorUncalculatedSweep(time, a_prior_data, ftat_method)` (`uncalculated_sweep.py:207-237`) -/
  | newApr (time : HTime K) (data : AprArg V) (method : Option (Convert K V))
  /-- `generator(time, tht0, is_normalize)` (`uncalculated_sweep.py:239-271`) -/
  | callApr (i : ℕ) (time : HTime K) (tht0 : V) (isNormalize : Bool)

/-- the objects: the heap, and the generators with their attributes -/
structure World (K V : Type) where
  heap : Heap K V
  gens : List (Gen K V)
  aprs : List (Gen K V × Loc)

/-- the outcome of a constructor call: the generator is there if it did not raise -/
def made {α : Type} (gs : List α) : Except Err α → List α
  | .ok g => gs ++ [g]
  | .error _ => gs

/-- one action -/
def Act.run (S : Package K V) (w : World K V) : Act K V → World K V
  | .step s => { w with heap := s.run S.prims S.methods S.conv w.heap }
  | .lib c => { w with heap := (c.exec S.prims S.gen S.lib S.methods S.conv S.linear S.ones w.heap).2 }
  | .decompose E r => { w with heap := (getIMFs S.prims S.methods E r w.heap).2 }
  | .newGen time f a =>
    let p := genInit S.prims S.gen S.methods S.linear S.ones time f a w.heap
    { w with heap := p.2, gens := made w.gens p.1 }
  | .callGen i time c =>
    match w.gens[i]? with
    | none => w
    | some g => { w with heap := (genCall S.prims S.gen S.methods g time c w.heap).2 }
  | .newApr time data method =>
    let p := aprioriInit S.prims S.gen S.methods S.linear S.ones S.freq2time time data method w.heap
    { w with heap := p.2, aprs := made w.aprs p.1 }
  | .callApr i time c b =>
    match w.aprs[i]? with
    | none => w
    | some g => { w with heap := (aprioriCall S.prims S.gen S.methods g.1 g.2 time c b w.heap).2 }

/-- a session -/
def runSession (S : Package K V) : List (Act K V) → World K V → World K V
  | [], w => w
  | a :: as, w => runSession S as (a.run S w)

theorem runSession_append (S : Package K V) (as bs : List (Act K V)) (w : World K V) :
    runSession S (as ++ bs) w = runSession S bs (runSession S as w) := by
  induction as generalizing w with
  | nil => rfl
  | cons a as ih => exact ih _

/-- The contract for everything that can be plugged in: nothing is changed but new objects, empty caches and empty counterparts. -/
structure GoodPackage (S : Package K V) : Prop where
  methods : GoodMethods S.prims S.methods
  interp : ∀ n lx ly nx, Safe S.prims ∅ (S.methods.interp n lx ly nx)
  conv : GoodConvMethods S.prims S.conv
  gen : GoodGen S.prims S.gen
  freq2time : ∀ n s, Safe S.prims ∅ (S.freq2time n s)

/-- the methods handed over in an action keep the contract -/
def Act.Good (P : Prims K V) : Act K V → Prop
  | .lib c => c.Good P
  | .newApr _ _ (some q) => ∀ s, Safe P ∅ (q s)
  | _ => True

/-! ## generators when the interpolation method does not write into the y values it is given -/

section
variable {P : Prims K V} {G : GenPrims K V} {M : Methods K V} {X : Ex}

theorem safe_descOn_tight (hI : ∀ n lx ly nx, Safe P ∅ (M.interp n lx ly nx)) (d : Desc K V) (t : Loc) :
    Safe P X (descOn P G M d t) := by
  unfold descOn
  split
  · exact (safe_getAxis _).bind fun _ => (safe_lift _).bind fun _ => (safe_newX _).bind fun _ => safe_config.bind fun _ =>
      (hI _ _ _ _).of_empty
  · exact (safe_axisValues _).bind fun _ => (safe_lift _).bind fun _ => safe_newY _

theorem safe_firstFreq_tight (hI : ∀ n lx ly nx, Safe P ∅ (M.interp n lx ly nx)) (gen : Gen K V) (t : Loc) :
    Safe P X (firstFreq P G M gen t) := by
  unfold firstFreq
  split
  · exact (safe_descOn_tight hI _ _).bind fun _ => safe_pure _
  · exact safe_pure _

theorem safe_genCall_tight (hM : GoodMethods P M) (hI : ∀ n lx ly nx, Safe P ∅ (M.interp n lx ly nx)) (hG : GoodGen P G)
    (gen : Gen K V) (time : HTime K) (c : V) : Safe P X (genCall P G M gen time c) := by
  refine (safe_calcTime hM _ _).bind fun t => ?_
  unfold calculate
  exact (safe_firstFreq_tight hI _ _).bind fun _ => (safe_descOn_tight hI _ _).bind fun _ => (safe_relInit hM _ _ _ _).bind fun _ =>
    (safe_descOn_tight hI _ _).bind fun _ => (safe_getY _).bind fun _ => (safe_thtOn hM hG _ _ _).bind fun _ =>
    (safe_lift _).bind fun _ => (safe_relInit hM _ _ _ _).bind fun _ =>
    Safe.bindR (safe_relInit hM _ _ _ _) (fresh_relInit hM _ _ _ _) fun _ => safe_sweepInit hM (Set.mem_insert _ _) _ _ _

theorem safe_extractDesc_tight (hI : ∀ n lx ly nx, Safe P ∅ (M.interp n lx ly nx)) (t : Option Loc) (d : PyFun K V)
    (a : DescArg K V) : Safe P X (extractDesc P G M t d a) := by
  cases a with
  | absent => exact safe_pure _
  | given d => exact safe_pure _
  | rel r => exact safe_interpOfRel _
  | arr l =>
    cases t with
    | none => exact safe_raise _
    | some t =>
      refine (safe_axisSize _).bind fun _ => (safe_getY _).bind fun _ => ?_
      split
      · exact (safe_getAxis _).bind fun _ => (safe_lift _).bind fun _ => (safe_axisNew _ _ _).bind fun _ =>
          (safe_axisArray _).bind fun _ => safe_config.bind fun _ => (hI _ _ _ _).of_empty.bind fun _ => safe_interpOfAxis _ _
      · exact safe_interpOfAxis _ _

theorem safe_genInit_tight (hM : GoodMethods P M) (hI : ∀ n lx ly nx, Safe P ∅ (M.interp n lx ly nx)) (linear ones : PyFun K V)
    (time : HTime K) (f a : DescArg K V) : Safe P X (genInit P G M linear ones time f a) :=
  safe_config.bind fun _ => (safe_genTime hM _ _).bind fun _ => (safe_extractDesc_tight hI _ _ _).bind fun _ =>
    (safe_extractDesc_tight hI _ _ _).bind fun _ => safe_pure _

theorem safe_aprioriCall_tight (hM : GoodMethods P M) (hI : ∀ n lx ly nx, Safe P ∅ (M.interp n lx ly nx)) (hG : GoodGen P G)
    (gen : Gen K V) (ap : Loc) (time : HTime K) (c : V) (b : Bool) : Safe P X (aprioriCall P G M gen ap time c b) := by
  unfold aprioriCall
  refine Safe.bindR (safe_genCall_tight hM hI hG _ _ _) (fresh_genCall hM hG _ _ _) fun s => ?_
  cases b
  · rw [if_neg (by simp)]
    show Safe P _ (setAprior s (some ap) >>= fun _ => pure s)
    exact (safe_setAprior (Set.mem_insert _ _) _).bind fun _ => safe_pure _
  · rw [if_pos rfl]
    exact Safe.bindR (safe_normalise hM (Set.mem_insert _ _) _) (ownM_normalise hM _ _).freshR fun s' =>
      (safe_setAprior (Set.mem_insert _ _) _).bind fun _ => safe_pure _

end

/-! ## what an action leaves alone -/

/-- the objects whose counterpart an action is asked to recompute, and the y arrays it is told to write into -/
def Act.refreshes : Act K V → Set Loc
  | .step (.call c) => c.refreshes
  | _ => ∅

def Act.starts : Act K V → Set Loc
  | .lib c => c.startArray
  | _ => ∅

/-- an action that is not an edit by hand -/
theorem act_le {S : Package K V} (hS : GoodPackage S) (a : Act K V) (ha : a.Good S.prims) (hn : ∀ e, a ≠ .step (.edit e))
    (w : World K V) :
    Le ⟨∅, a.refreshes, a.starts⟩ w.heap (a.run S w).heap ∧ (Coh S.prims w.heap → Coh S.prims (a.run S w).heap) := by
  cases a with
  | step s =>
    cases s with
    | call c => exact safe_call hS.methods hS.conv c w.heap
    | edit e => exact absurd rfl (hn e)
  | lib c => exact safe_libCall hS.methods hS.conv hS.gen S.linear S.ones c ha (Set.Subset.refl _) w.heap
  | decompose E r => exact safe_getIMFs hS.methods E r w.heap
  | newGen time f a => exact safe_genInit_tight hS.methods hS.interp _ _ _ _ _ w.heap
  | callGen i time c =>
    unfold Act.run
    dsimp only
    split
    · exact ⟨Le.refl _ _, fun c => c⟩
    · exact safe_genCall_tight hS.methods hS.interp hS.gen _ _ _ w.heap
  | newApr time data method =>
    refine safe_aprioriInit hS.methods _ _ hS.freq2time _ _ ?_ w.heap
    rintro q ⟨⟩
    exact ha
  | callApr i time c b =>
    unfold Act.run
    dsimp only
    split
    · exact ⟨Le.refl _ _, fun c => c⟩
    · exact safe_aprioriCall_tight hS.methods hS.interp hS.gen _ _ _ _ _ w.heap

end SweepDesign.Mem
