import Verif.Heap.Ops

/-!
# Heap layer: calls, edits and histories

`Call` lists the calls of the package, `Edit` what a user may do by hand: assignments to attributes and Config, and
in-place writes into arrays. A history is any list of both; a call that raises leaves the heap it raised in.
-/

namespace SweepDesign.Mem

open HM

variable {K V : Type}

/-- operations on `ArrayAxis` objects -/
inductive AxisCall (K : Type)
  | new (start stop sample : K)
  | array (l : Loc)
  | size (l : Loc)
  | actualSample (l : Loc)
  | setStart (l : Loc) (v : K)
  | setStop (l : Loc) (v : K)
  | setSample (l : Loc) (v : K)
  | copy (l : Loc)

/-- what the caller sees -/
inductive AxisReply (K : Type)
  | object (l : Loc)
  | array (v : List K)
  | size (n : ℕ)
  | number (v : K)
  | none
  | raised (e : Err)

def AxisReply.of {α : Type} (f : α → AxisReply K) : Except Err α → AxisReply K
  | .ok a => f a
  | .error e => .raised e

/-- run one axis operation -/
def AxisCall.run (P : Prims K V) (c : AxisCall K) (h : Heap K V) : AxisReply K × Heap K V :=
  match c with
  | .new s e d => let p := axisNew s e d h; (.of .object p.1, p.2)
  | .array l => let p := axisValues P l h; (.of .array p.1, p.2)
  | .size l => let p := axisSize P l h; (.of .size p.1, p.2)
  | .actualSample l => let p := axisActual P l h; (.of .number p.1, p.2)
  | .setStart l v => let p := axisSetStart l v h; (.of (fun _ => .none) p.1, p.2)
  | .setStop l v => let p := axisSetStop l v h; (.of (fun _ => .none) p.1, p.2)
  | .setSample l v => let p := axisSetSample l v h; (.of (fun _ => .none) p.1, p.2)
  | .copy l => let p := axisCopy l h; (.of .object p.1, p.2)

/-- run a history of axis operations; the replies in order -/
def AxisCall.runAll (P : Prims K V) : List (AxisCall K) → Heap K V → List (AxisReply K) × Heap K V
  | [], h => ([], h)
  | c :: cs, h =>
    let p := c.run P h
    let q := runAll P cs p.2
    (p.1 :: q.1, q.2)

/-- calls of the package -/
inductive Call (K V : Type)
  | axisNew (start stop sample : K)
  | axisArray (l : Loc)
  | axisActual (l : Loc)
  | axisCopy (l : Loc)
  | construct (c : Cls) (x : HXArg K) (y : HYArg V)
  | getData (r : Loc)
  | max (r : Loc)
  | min (r : Loc)
  | norm (r : Loc)
  | select (r : Loc) (s e : Option K)
  | exp (r : Loc)
  | diff (r : Loc)
  | integrate (r : Loc)
  | interp (r : Loc) (x : HXArg K)
  | shift (r : Loc) (d : K)
  | equalize (r1 r2 : Loc)
  | operator (r : Loc) (b : PyOperand V) (op : MathOp)
  | len (r : Loc)
  | item (r : Loc) (v : K)
  | getSpectrum (r : Loc) (f : HSize) (z : Bool)
  | getSignal (r : Loc) (t : HSize) (z : Option K)
  | getAmp (r : Loc)
  | getPhase (r : Loc)
  | sgAmp (r : Loc) (f : HSize) (z : Bool)
  | sgPhase (r : Loc) (f : HSize) (z : Bool)
  | spAddPhase (r : Loc) (o : PyOperand V) (op : MathOp)
  | sgAddPhase (r : Loc) (o : PyOperand V) (op : MathOp)
  | reverseFilter (r : Loc) (p : K) (b : Bool) (fs fe : Option K)
  | reverseSignal (r : Loc) (p : K) (b : Bool) (fs fe : Option K)
  | fromAmpPhase (a p : Loc)
  | convolve (c : Cls) (a b : PyOperand V)
  | correlate (c : Cls) (a b : PyOperand V)

/-- the convolution and correlation methods named in the current Config -/
def ConvMethods.convolveCall (C : ConvMethods K V) : ConvCall K V := fun g => C.convolve g.convolve
def ConvMethods.correlateCall (C : ConvMethods K V) : ConvCall K V := fun g => C.correlate g.correlate

section
variable (P : Prims K V) (M : Methods K V) (C : ConvMethods K V)

def one {α : Type} (m : HM K V α) (f : α → List Loc) : HM K V (List Loc) := m >>= fun a => pure (f a)

/-- run a call; the result lists the relation objects it returned -/
def Call.exec : Call K V → HM K V (List Loc)
  | .axisNew s e d => one (Mem.axisNew s e d) fun _ => []
  | .axisArray l => one (Mem.axisArray P l) fun _ => []
  | .axisActual l => one (Mem.axisActual P l) fun _ => []
  | .axisCopy l => one (Mem.axisCopy l) fun _ => []
  | .construct c x y => one (Mem.construct P M c x y) fun l => [l]
  | .getData r => one (relGetData P r) fun _ => []
  | .max r => one (relMax P r) fun _ => []
  | .min r => one (relMin P r) fun _ => []
  | .norm r => one (getNorm P M r) fun _ => []
  | .select r s e => one (relSelect P M r s e) fun l => [l]
  | .exp r => one (relExp P M r) fun l => [l]
  | .diff r => one (relDiff P M r) fun l => [l]
  | .integrate r => one (relIntegrate P M r) fun l => [l]
  | .interp r x => one (relInterp P M r x) fun l => [l]
  | .shift r d => one (Mem.shift P M r d) fun l => [l]
  | .equalize r1 r2 => one (relEqualize P M r1 r2) fun p => [p.1, p.2]
  | .operator r b op => one (Mem.operator P M r b op) fun l => [l]
  | .len r => one (relLen P r) fun _ => []
  | .item r v => one (relItem P r v) fun _ => []
  | .getSpectrum r f z => one (Mem.getSpectrum P M r f z) fun l => [l]
  | .getSignal r f z => one (Mem.getSignal P M r f z) fun l => [l]
  | .getAmp r => one (Mem.getAmp P M r) fun l => [l]
  | .getPhase r => one (Mem.getPhase P M r) fun l => [l]
  | .sgAmp r f z => one (Mem.sgAmp P M r f z) fun l => [l]
  | .sgPhase r f z => one (Mem.sgPhase P M r f z) fun l => [l]
  | .spAddPhase r o op => one (Mem.spAddPhase P M r o op) fun l => [l]
  | .sgAddPhase r o op => one (Mem.sgAddPhase P M r o op) fun l => [l]
  | .reverseFilter r p b fs fe => one (Mem.reverseFilter P M r p b fs fe) fun l => [l]
  | .reverseSignal r p b fs fe => one (Mem.reverseSignal P M r p b fs fe) fun l => [l]
  | .fromAmpPhase a p => one (Mem.fromAmpPhase P M a p) fun l => [l]
  | .convolve c a b => one (clsConv P M C.convolveCall c a b) fun l => [l]
  | .correlate c a b => one (clsConv P M C.correlateCall c a b) fun l => [l]

/-- the object whose cached counterpart is replaced by the call: explicit frequency or time -/
def Call.refreshes : Call K V → Set Loc
  | .getSpectrum r f _ | .sgAmp r f _ | .sgPhase r f _ | .getSignal r f _ => {l | f.truthy = true ∧ l = r}
  | _ => ∅

/-- Edits by hand. `pokeX`, `pokeY`: any in-place change of an ndarray. -/
inductive Edit (K V : Type)
  | setStart (l : Loc) (v : K)
  | setStop (l : Loc) (v : K)
  | setSample (l : Loc) (v : K)
  | pokeX (l : Loc) (f : List K → List K)
  | pokeY (l : Loc) (f : List V → List V)
  | setConfig (g : ConfigIds)

def pokeX (l : Loc) (f : List K → List K) : HM K V Unit := fun h => (.ok (), { h with xarrs := h.xarrs.modify l f })

def pokeY (l : Loc) (f : List V → List V) : HM K V Unit := fun h => (.ok (), { h with yarrs := h.yarrs.modify l f })

/-- assignment to `Config`/`SweepConfig` attributes -/
def setConfig (g : ConfigIds) : HM K V Unit := fun h => (.ok (), { h with config := g })

def Edit.exec : Edit K V → HM K V Unit
  | .setStart l v => axisSetStart l v
  | .setStop l v => axisSetStop l v
  | .setSample l v => axisSetSample l v
  | .pokeX l f => Mem.pokeX l f
  | .pokeY l f => Mem.pokeY l f
  | .setConfig g => Mem.setConfig g

/-- one step of a history -/
inductive Step (K V : Type)
  | call (c : Call K V)
  | edit (e : Edit K V)

def Step.run (s : Step K V) (h : Heap K V) : Heap K V :=
  match s with
  | .call c => (c.exec P M C h).2
  | .edit e => (e.exec h).2

/-- a history; exceptions are caught by the caller -/
def runSteps : List (Step K V) → Heap K V → Heap K V
  | [], h => h
  | s :: ss, h => runSteps ss (s.run P M C h)

end

/-- Contract for the convolution methods. -/
structure GoodConvMethods (P : Prims K V) (C : ConvMethods K V) : Prop where
  convolve : GoodConv P C.convolveCall
  correlate : GoodConv P C.correlateCall

variable {P : Prims K V} {M : Methods K V} {C : ConvMethods K V} {X : Ex}

theorem good_defaultConvMethods (hM : GoodMethods P M) : GoodConvMethods P (defaultConvMethods P M) :=
  ⟨fun _ _ _ _ => safe_defConv hM _ _ _, fun _ _ _ _ => safe_defConv hM _ _ _⟩

theorem safe_one {α : Type} {m : HM K V α} (f : α → List Loc) (h : Safe P X m) : Safe P X (one m f) :=
  h.bind fun _ => safe_pure _

/-- Every call is safe, up to the counterpart it is explicitly asked to recompute. -/
theorem safe_call (hM : GoodMethods P M) (hC : GoodConvMethods P C) (c : Call K V) :
    Safe P ⟨∅, c.refreshes, ∅⟩ (c.exec P M C) := by
  cases c with
  | axisNew => exact safe_one _ (safe_axisNew _ _ _)
  | axisArray => exact safe_one _ (safe_axisArray _)
  | axisActual => exact safe_one _ (safe_axisActual _)
  | axisCopy => exact safe_one _ (safe_axisCopy _)
  | construct => exact safe_one _ (safe_construct hM _ _ _ _)
  | getData => exact safe_one _ (safe_relGetData _)
  | max => exact safe_one _ (safe_relMax _)
  | min => exact safe_one _ (safe_relMin _)
  | norm => exact safe_one _ (safe_getNorm hM _)
  | select => exact safe_one _ (safe_relSelect hM _ _ _)
  | exp => exact safe_one _ (safe_relExp hM _)
  | diff => exact safe_one _ (safe_relDiff hM _)
  | integrate => exact safe_one _ (safe_relIntegrate hM _)
  | interp => exact safe_one _ (safe_relInterp hM _ _)
  | shift => exact safe_one _ (safe_shift hM _ _)
  | equalize => exact safe_one _ (safe_relEqualize hM _ _)
  | operator => exact safe_one _ (safe_operator hM _ _ _)
  | len => exact safe_one _ (safe_relLen _)
  | item => exact safe_one _ (safe_relItem _ _)
  | getSpectrum r f z => exact safe_one _ (safe_getSpectrum hM _ _ fun h => ⟨h, rfl⟩)
  | getSignal r f z => exact safe_one _ (safe_getSignal hM _ _ fun h => ⟨h, rfl⟩)
  | getAmp => exact safe_one _ (safe_getAmp hM _)
  | getPhase => exact safe_one _ (safe_getPhase hM _)
  | sgAmp r f z => exact safe_one _ (safe_sgAmp hM _ _ fun h => ⟨h, rfl⟩)
  | sgPhase r f z => exact safe_one _ (safe_sgPhase hM _ _ fun h => ⟨h, rfl⟩)
  | spAddPhase => exact safe_one _ (safe_spAddPhase hM _ _ _)
  | sgAddPhase => exact safe_one _ (safe_sgAddPhase hM _ _ _)
  | reverseFilter => exact safe_one _ (safe_reverseFilter hM _ _ _ _ _)
  | reverseSignal => exact safe_one _ (safe_reverseSignal hM _ _ _ _ _)
  | fromAmpPhase => exact safe_one _ (safe_fromAmpPhase hM _ _)
  | convolve => exact safe_one _ (safe_clsConv hM hC.convolve _ _ _)
  | correlate => exact safe_one _ (safe_clsConv hM hC.correlate _ _ _)

end SweepDesign.Mem
