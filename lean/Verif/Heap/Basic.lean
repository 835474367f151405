import Verif.Model.Relation

/-!
# Heap layer: Python objects, references, caches

The value layer treats axes and relations as values. Here they are objects in a store, referenced by location, as in
Python: `ArrayAxis` objects with their lazily filled caches, `ndarray` objects, `Relation`/`Signal`/`Spectrum`/`Sweep`
objects that hold references to an axis and a y array, the Config methods captured at construction, and the cached
counterpart (`_spectrum`/`_signal`). Calls are computations that return a value or raise, and in both cases leave a
(changed) heap behind.

* Locations are indices into four lists (one per kind of object); allocation appends. Nothing is ever freed: garbage is
  unobservable.
* `K`, `V` are arbitrary types (axis numbers, y numbers); all number crunching goes through the record `Prims`, so
  the results hold for every arithmetic, also IEEE floats. `exactPrims` instantiates it with the value layer.
* The methods of `Config` are stored in the heap as method names (natural numbers); what a name does is given by the
  record `Methods`, whose fields are arbitrary heap computations. So a theorem that quantifies over `Methods` holds for
  user-supplied Config methods as well.
-/

namespace SweepDesign.Mem

/-- reference to an object -/
abbrev Loc := ℕ

/-- `ArrayAxis` object (`/repo/sweep_design/axis.py:9-27`): the three fields and the two caches `_array` (reference to an
ndarray) and `_actual_sample`. -/
structure AxisObj (K : Type) where
  start : K
  stop : K
  sample : K
  arr : Option Loc
  actual : Option K

/-- The classes of `/repo/sweep_design/relation.py`, `signal.py`, `spectrum.py`, `sweep.py`. -/
inductive Cls
  | relation | signal | spectrum | sweep
  deriving DecidableEq, Repr

/-- `issubclass(c, Signal)` -/
def Cls.isSignal : Cls → Bool
  | .signal | .sweep => true
  | _ => false

/-- The class attributes of `Config` (`/repo/sweep_design/config/base_config.py:222-236`) and `SweepConfig`
(`/repo/sweep_design/config/sweep_config.py:75-81`), as method names. -/
structure ConfigIds where
  fromArray : ℕ
  interp : ℕ
  mathOp : ℕ
  integrateOne : ℕ
  integrate : ℕ
  differentiate : ℕ
  correlate : ℕ
  convolve : ℕ
  commonX : ℕ
  spectrum2signal : ℕ
  signal2spectrum : ℕ
  getFt : ℕ
  getAt : ℕ
  spectrogram : ℕ
  intFun : ℕ
  freq2time : ℕ

/-- The methods an object captures when constructed (`relation.py:82-87`, `signal.py:57`, `spectrum.py:61`). -/
structure Captured where
  fromArray : ℕ
  mathOp : ℕ
  interp : ℕ
  integrateOne : ℕ
  integrate : ℕ
  differentiate : ℕ
  /-- `_signal2spectrum_method_default` of a signal, `_spectrum2signal_method_default` of a spectrum -/
  transform : ℕ

/-- `Relation` object or an object of a subclass. `counterpart` is `_spectrum` for signals and `_signal` for spectra. The
last three fields are `frequency_time`, `amplitude_time` and `a_prior_signal` of a sweep (`sweep.py:69-86`). -/
structure RelObj where
  cls : Cls
  x : Loc
  y : Loc
  caps : Captured
  counterpart : Option Loc
  freqTime : Option Loc
  ampTime : Option Loc
  aPrior : Option Loc

/-- The state of the interpreter as far as the package is concerned. -/
structure Heap (K V : Type) where
  axes : List (AxisObj K)
  xarrs : List (List K)
  yarrs : List (List V)
  rels : List RelObj
  config : ConfigIds

variable {K V : Type}

/-- A call: returns or raises, and in both cases leaves a heap. -/
def HM (K V α : Type) : Type := Heap K V → Except Err α × Heap K V

namespace HM
variable {α β : Type}

def ret (a : α) : HM K V α := fun h => (.ok a, h)

def andThen (m : HM K V α) (f : α → HM K V β) : HM K V β := fun h =>
  match m h with
  | (.ok a, h') => f a h'
  | (.error e, h') => (.error e, h')

instance : Monad (HM K V) where
  pure := ret
  bind := andThen

/-- raise -/
def raise (e : Err) : HM K V α := fun h => (.error e, h)

/-- a pure computation that may raise -/
def lift (x : Except Err α) : HM K V α := fun h => (x, h)

/-- the state -/
def get : HM K V (Heap K V) := fun h => (.ok h, h)

end HM

open HM

/-! ## memory access

Dereferencing a location that does not exist raises `.typeError`; the interpreter never produces such references. -/

def getAxis (l : Loc) : HM K V (AxisObj K) := fun h =>
  match h.axes[l]? with
  | some a => (.ok a, h)
  | none => (.error .typeError, h)

def putAxis (l : Loc) (a : AxisObj K) : HM K V Unit := fun h => (.ok (), { h with axes := h.axes.set l a })

def newAxis (a : AxisObj K) : HM K V Loc := fun h => (.ok h.axes.length, { h with axes := h.axes ++ [a] })

def getX (l : Loc) : HM K V (List K) := fun h =>
  match h.xarrs[l]? with
  | some a => (.ok a, h)
  | none => (.error .typeError, h)

def newX (a : List K) : HM K V Loc := fun h => (.ok h.xarrs.length, { h with xarrs := h.xarrs ++ [a] })

def getY (l : Loc) : HM K V (List V) := fun h =>
  match h.yarrs[l]? with
  | some a => (.ok a, h)
  | none => (.error .typeError, h)

def newY (a : List V) : HM K V Loc := fun h => (.ok h.yarrs.length, { h with yarrs := h.yarrs ++ [a] })

def getRel (l : Loc) : HM K V RelObj := fun h =>
  match h.rels[l]? with
  | some a => (.ok a, h)
  | none => (.error .typeError, h)

def putRel (l : Loc) (r : RelObj) : HM K V Unit := fun h => (.ok (), { h with rels := h.rels.set l r })

def newRel (r : RelObj) : HM K V Loc := fun h => (.ok h.rels.length, { h with rels := h.rels ++ [r] })

/-- read a `Config` attribute -/
def config : HM K V ConfigIds := fun h => (.ok h.config, h)

/-! ## primitive number operations -/

/-- The numpy/Python number operations the heap programs call, over arbitrary number types. -/
structure Prims (K V : Type) where
  /-- `np.linspace(start, end, round(abs((end - start) / sample)) + 1)` (`axis.py:41-44`) -/
  mkArr : K → K → K → Except Err (List K)
  /-- `get_actual_sample` (`axis.py:103-116`) -/
  minDiff : List K → Except Err K
  /-- start, end and sample of `get_array_axis_from_array(x, round_dx)` (`axis.py:131-136`) -/
  axisOf : List K → Bool → Bool → Except Err (K × K × K)
  add : K → K → K
  sub : K → K → K
  neg : K → K
  half : K → K
  le : K → K → Bool
  zero : K
  /-- the numpy part of `select_data` (`relation.py:274-282`): first and last selected x and the selected y -/
  select : List K → List V → K → K → Except Err (K × K × List V)
  /-- `np.exp` -/
  exp : List V → List V
  /-- `__getitem__` with a number (`relation.py:519-522`) -/
  nearest : List K → List V → K → Except Err (K × V)
  /-- `cumulative_trapezoid(y) * dx` (`defaults/methods.py:105`) -/
  cumTrapz : List V → K → List V
  /-- `np.diff(y) / dx` (`defaults/methods.py:124`) -/
  diff : List V → K → List V
  /-- `trapezoid(y, x)` (`defaults/methods.py:86`) -/
  trapz : List V → List K → V
  /-- division of the integral by the sample (`relation.py:251`) -/
  divBySample : V → K → Except Err V
  /-- the number 2 of `self**2` (`relation.py:250`) -/
  two : V
  /-- `interp1d(x, y, bounds_error=False, fill_value=0.0)(new_x)` (`defaults/methods.py:151-156`) -/
  interp : List K → List V → List K → Except Err (List V)
  /-- `math_operation` (`defaults/methods.py:42-70`) -/
  mathOp : List V → NpOperand V → MathOp → Except Err (List V)
  /-- `np.convolve(.., "full")` and `np.correlate(.., "full")` (`defaults/methods.py:203, 225`) -/
  npConvolve : List V → List V → List V
  npCorrelate : List V → List V → List V
  /-- `y.max()` (`relation.py:231`) -/
  max : List V → Except Err V
  min : List V → Except Err V
  /-- `np.abs`, `np.unwrap(np.angle(..))` (`spectrum.py:125, 137`) -/
  abs : List V → List V
  phase : List V → List V
  /-- `max * percent / 100` (`spectrum.py:166`) -/
  percentOf : V → K → V
  /-- the numbers 1, -1, 1.0j -/
  one : V
  minusOne : V
  imag : V
  /-- `np.exp(-1j * f * 2 * pi * d)` (`signal.py:154`) -/
  shiftFactor : List K → K → List V
  /-- `np.zeros(n)` (`defaults/methods.py:283, 290`) -/
  zeros : ℤ → Except Err (List V)
  /-- `np.append(amplitude[t >= 0.0], amplitude[t < 0.0])` (`defaults/methods.py:240, 340`) -/
  reorder : List K → List V → Except Err (List V)
  /-- `np.fft.rfft(a, n)`, `np.fft.rfftfreq(n, d)`, `np.fft.irfft(a, n)` -/
  rfft : List V → Option ℤ → Except Err (List V)
  rfftfreq : ℕ → K → Except Err (List K)
  irfft : List V → Option ℤ → Except Err (List V)
  /-- the arrays of `get_f_t` and `get_a_t` (`defaults/sweep_methods.py:299-304, 321`), Hilbert transform included -/
  instFreq : List V → K → Except Err (List V)
  envelope : List V → Except Err (List V)
  /-- `spectrogram(y, 1 / sample, ..)` and the padding in `_get_spectrogram` (`sweep_methods.py:276-283`,
  `sweep.py:90-119`); only whether it raises matters here -/
  spectrogram : List V → K → Except Err Unit
  /-- `dt = 1 / (2 * (end - start))` and `start + (n - 1) * dt` (`defaults/methods.py:331-338`) -/
  dt : K → K → Except Err K
  timeEnd : K → ℕ → K → K

/-! ## `ArrayAxis` (`axis.py`) -/

section Axis
variable (P : Prims K V)

/-- `ArrayAxis(start, end, sample)` (`axis.py:11-27`) -/
def axisNew (s e d : K) : HM K V Loc := newAxis { start := s, stop := e, sample := d, arr := none, actual := none }

/-- property `array` (`axis.py:33-46`): fills the cache, hands out the cached ndarray object itself -/
def axisArray (l : Loc) : HM K V Loc := do
  let a ← getAxis l
  match a.arr with
  | some j => pure j
  | none => do
    let v ← lift (P.mkArr a.start a.stop a.sample)
    let j ← newX v
    putAxis l { a with arr := some j }
    pure j

/-- the numbers in `array` -/
def axisValues (l : Loc) : HM K V (List K) := do
  let j ← axisArray P l
  getX j

/-- property `size` (`axis.py:81-83`) -/
def axisSize (l : Loc) : HM K V ℕ := do
  let v ← axisValues P l
  pure v.length

/-- property `actual_sample` (`axis.py:66-70`) -/
def axisActual (l : Loc) : HM K V K := do
  let a ← getAxis l
  match a.actual with
  | some v => pure v
  | none => do
    let v ← axisValues P l
    let d ← lift (P.minDiff v)
    let a ← getAxis l
    putAxis l { a with actual := some d }
    pure d

/-- setter of `start` (`axis.py:52-55`) with `_reset_property` (`axis.py:29-31`) -/
def axisSetStart (l : Loc) (v : K) : HM K V Unit := do
  let a ← getAxis l
  putAxis l { a with start := v, arr := none, actual := none }

/-- setter of `end` (`axis.py:61-64`) -/
def axisSetStop (l : Loc) (v : K) : HM K V Unit := do
  let a ← getAxis l
  putAxis l { a with stop := v, arr := none, actual := none }

/-- setter of `sample` (`axis.py:76-79`) -/
def axisSetSample (l : Loc) (v : K) : HM K V Unit := do
  let a ← getAxis l
  putAxis l { a with sample := v, arr := none, actual := none }

/-- `copy()` (`axis.py:85-91`): a shallow copy, so the cached ndarray is shared -/
def axisCopy (l : Loc) : HM K V Loc := do
  let a ← getAxis l
  newAxis a

/-- `get_array_axis_from_array` (`axis.py:119-136`) -/
def axisFromArray (x : List K) (isFloat roundDx : Bool) : HM K V Loc := do
  let (s, e, d) ← lift (P.axisOf x isFloat roundDx)
  axisNew s e d

end Axis

/-! ## user-supplied methods -/

/-- right operand of `math_operation` (`defaults/methods.py`): an ndarray object or something else -/
inductive HOperand (V : Type)
  | arr (l : Loc)
  | num (c : V)
  | bad

/-- the optional `frequency`/`time` argument of the transforms (`signal.py:85`, `spectrum.py:86`) -/
inductive HSize
  | none
  | int (k : ℤ)
  | axis (l : Loc)

/-- truth value of that argument in `if self._spectrum is None or frequency` (`signal.py:101`): `ArrayAxis` has no
`__bool__`/`__len__`, so every axis is true -/
def HSize.truthy : HSize → Bool
  | .none => false
  | .int k => k != 0
  | .axis _ => true

/-- What the method names in `Config`/`SweepConfig` stand for: arbitrary computations on the heap.
Axis and y results are references, so a method may hand back existing objects. -/
structure Methods (K V : Type) where
  fromArray : ℕ → List K → Bool → Bool → HM K V Loc
  mathOp : ℕ → Loc → HOperand V → MathOp → HM K V Loc
  interp : ℕ → Loc → Loc → Loc → HM K V Loc
  integrateOne : ℕ → Loc → HM K V V
  integrate : ℕ → Loc → HM K V (Loc × Loc)
  differentiate : ℕ → Loc → HM K V (Loc × Loc)
  commonX : ℕ → Loc → Loc → HM K V Loc
  signal2spectrum : ℕ → Loc → HSize → Bool → HM K V (Loc × Loc)
  spectrum2signal : ℕ → Loc → HSize → Option K → HM K V (Loc × Loc)
  getFt : ℕ → Loc → HM K V Loc
  getAt : ℕ → Loc → HM K V Loc
  spectrogram : ℕ → Loc → HM K V Unit

/-- The two methods that call back into `Relation.shift` and `Relation.equalize`. -/
structure ConvMethods (K V : Type) where
  correlate : ℕ → Cls → Loc → Loc → HM K V (Loc × Loc)
  convolve : ℕ → Cls → Loc → Loc → HM K V (Loc × Loc)

/-! ## `Relation` objects (`relation.py`) -/

/-- first constructor argument (`relation.py:59`) -/
inductive HXArg (K : Type)
  | rel (l : Loc)
  | axis (l : Loc)
  | array (x : List K) (isFloat : Bool)

/-- second constructor argument (`relation.py:60`): absent, an ndarray object, or another array-like -/
inductive HYArg (V : Type)
  | absent
  | arr (l : Loc)
  | list (y : List V)

section Relation
variable (P : Prims K V) (M : Methods K V)

/-- the methods captured from the current `Config` (`relation.py:82-87`, `signal.py:57`, `spectrum.py:61`) -/
def capture (c : Cls) (g : ConfigIds) : Captured :=
  { fromArray := g.fromArray, mathOp := g.mathOp, interp := g.interp, integrateOne := g.integrateOne,
    integrate := g.integrate, differentiate := g.differentiate,
    transform := if c.isSignal then g.signal2spectrum else g.spectrum2signal }

/-- the object with given class, axis and y array -/
def mkRelObj (c : Cls) (g : ConfigIds) (x y : Loc) (counterpart : Option Loc) : RelObj :=
  { cls := c, x := x, y := y, caps := capture c g, counterpart := counterpart, freqTime := none, ampTime := none,
    aPrior := none }

/-- `np.array(y)` (`relation.py:99`): always a new ndarray -/
def npArray (y : HYArg V) : HM K V Loc :=
  match y with
  | .absent => raise .badInput
  | .arr l => do
    let v ← getY l
    newY v
  | .list v => newY v

/-- the branch of `Relation.__init__` taken for an axis object (`relation.py:96-107`): the axis is shared, the y array
copied; the counterpart is assigned in `Signal.__init__` (`signal.py:57-59`) and `Spectrum.__init__`
(`spectrum.py:60-62`) -/
def initAxis (c : Cls) (g : ConfigIds) (ax : Loc) (ly : Loc) (counterpart : Option Loc) : HM K V Loc := do
  let n ← axisSize P ax
  let v ← getY ly
  if n ≠ v.length then raise (.notEqual n v.length)
  else newRel (mkRelObj c g ax ly counterpart)

/-- `Relation.__init__` (`relation.py:57-107`) -/
def relInit (c : Cls) (x : HXArg K) (y : HYArg V) (counterpart : Option Loc) : HM K V Loc := do
  let g ← config
  match x with
  | .rel r => do
    let o ← getRel r
    let ax ← axisCopy o.x
    let v ← getY o.y
    let ly ← newY v
    newRel (mkRelObj c g ax ly counterpart)
  | .axis ax => do
    let ly ← npArray y
    initAxis P c g ax ly counterpart
  | .array l isFloat => do
    let ly ← npArray y
    let ax ← M.fromArray g.fromArray l isFloat true
    initAxis P c g ax ly counterpart

/-- a given object, or one obtained by a call -/
def givenOr (o : Option Loc) (m : HM K V Loc) : HM K V Loc :=
  match o with
  | some l => pure l
  | none => m

/-- `Sweep.__init__` after `super().__init__` (`sweep.py:37-86`): missing descriptions are derived from the sweep, the
spectrogram is computed -/
def sweepInit (l : Loc) (ft at' ap : Option Loc) : HM K V Loc := do
  let g ← config
  let f ← givenOr ft (M.getFt g.getFt l)
  let o ← getRel l
  putRel l { o with freqTime := some f }
  let a ← givenOr at' (M.getAt g.getAt l)
  let o ← getRel l
  putRel l { o with ampTime := some a }
  M.spectrogram g.spectrogram l
  let o ← getRel l
  putRel l { o with aPrior := ap }
  pure l

/-- `type(self)(x, y)`: the constructor of the class (`relation.py:57-107`, `signal.py`, `spectrum.py`, `sweep.py`) -/
def construct (c : Cls) (x : HXArg K) (y : HYArg V) (counterpart : Option Loc := none) : HM K V Loc := do
  let l ← relInit P M c x y counterpart
  if c = .sweep then sweepInit M l none none none else pure l

/-- properties `x`, `y` (`relation.py:109-125`) -/
def relX (r : Loc) : HM K V Loc := do
  let o ← getRel r
  pure o.x

/-- the `y` property (`relation.py:118-125`) -/
def relY (r : Loc) : HM K V Loc := do
  let o ← getRel r
  pure o.y

/-- setter of `start` (`relation.py:136-143`) -/
def relSetStart (r : Loc) (v : K) : HM K V Unit := do
  let o ← getRel r
  axisSetStart o.x v

/-- setter of `end` (`relation.py:154-161`) -/
def relSetStop (r : Loc) (v : K) : HM K V Unit := do
  let o ← getRel r
  axisSetStop o.x v

/-- setter of `sample` (`relation.py:172-179`) -/
def relSetSample (r : Loc) (v : K) : HM K V Unit := do
  let o ← getRel r
  axisSetSample o.x v

/-- `get_data` (`relation.py:208-223`): references to two new ndarrays -/
def relGetData (r : Loc) : HM K V (Loc × Loc) := do
  let o ← getRel r
  let n ← axisSize P o.x
  let y ← getY o.y
  if n ≠ y.length then raise (.notEqual n y.length)
  else do
    let x ← axisValues P o.x
    let lx ← newX x
    let ly ← newY y
    pure (lx, ly)

/-- `max`, `min` (`relation.py:225-239`) -/
def relMax (r : Loc) : HM K V V := do
  let o ← getRel r
  let y ← getY o.y
  lift (P.max y)

/-- `Relation.min` (`relation.py:233-239`) -/
def relMin (r : Loc) : HM K V V := do
  let o ← getRel r
  let y ← getY o.y
  lift (P.min y)

/-- `select_data` (`relation.py:253-282`) -/
def relSelect (r : Loc) (start stop : Option K) : HM K V Loc := do
  let o ← getRel r
  let a ← getAxis o.x
  let x ← axisValues P o.x
  let y ← getY o.y
  let (s, e, y') ← lift (P.select x y (start.getD a.start) (stop.getD a.stop))
  let nx ← axisNew s e a.sample
  construct P M o.cls (.axis nx) (.list y')

/-- `exp` (`relation.py:284-293`) -/
def relExp (r : Loc) : HM K V Loc := do
  let o ← getRel r
  let nx ← axisCopy o.x
  let y ← getY o.y
  construct P M o.cls (.axis nx) (.list (P.exp y))

/-- `diff` (`relation.py:295-305`) -/
def relDiff (r : Loc) : HM K V Loc := do
  let o ← getRel r
  let (nx, ny) ← M.differentiate o.caps.differentiate r
  construct P M o.cls (.axis nx) (.arr ny)

/-- `integrate` (`relation.py:307-317`) -/
def relIntegrate (r : Loc) : HM K V Loc := do
  let o ← getRel r
  let (nx, ny) ← M.integrate o.caps.integrate r
  construct P M o.cls (.axis nx) (.arr ny)

/-- the axis `interpolate_extrapolate` works with (`relation.py:331-336`) -/
def interpAxisOf (caps : Captured) (x : HXArg K) : HM K V Loc :=
  match x with
  | .rel q => do
    let p ← getRel q
    axisCopy p.x
  | .axis a => axisCopy a
  | .array l isFloat => M.fromArray caps.fromArray l isFloat false

/-- `interpolate_extrapolate` (`relation.py:319-340`) -/
def relInterp (r : Loc) (newX' : HXArg K) : HM K V Loc := do
  let o ← getRel r
  let nx ← interpAxisOf M o.caps newX'
  let x ← axisValues P o.x
  let lx ← newX x
  let y ← getY o.y
  let ly ← newY y
  let ny ← M.interp o.caps.interp lx ly nx
  construct P M o.cls (.axis nx) (.arr ny)

/-- `Relation.shift` (`relation.py:342-356`) -/
def relShift (r : Loc) (d : K) : HM K V Loc := do
  let o ← getRel r
  let nx ← axisCopy o.x
  let a ← getAxis nx
  axisSetStart nx (P.add a.start d)
  let a ← getAxis nx
  axisSetStop nx (P.add a.stop d)
  construct P M o.cls (.axis nx) (.arr o.y)

/-- shift all references by the given offsets -/
def AxisObj.offset (n : ℕ) (a : AxisObj K) : AxisObj K := { a with arr := a.arr.map (· + n) }

def RelObj.offset (na ny nr : ℕ) (r : RelObj) : RelObj :=
  { r with x := r.x + na, y := r.y + ny, counterpart := r.counterpart.map (· + nr),
           freqTime := r.freqTime.map (· + nr), ampTime := r.ampTime.map (· + nr), aPrior := r.aPrior.map (· + nr) }

/-- `copy.deepcopy(r)` (`relation.py:372`): everything reachable from `r` is copied, keeping the sharing inside the
copy. The model copies the whole store and returns the copy of `r`; copies of objects that are not reachable from `r`
are garbage. Functions (the captured methods) are not copied by `deepcopy`. -/
def deepcopy (r : Loc) : HM K V Loc := fun h =>
  match h.rels[r]? with
  | none => (.error .typeError, h)
  | some _ => (.ok (h.rels.length + r),
    { h with
      axes := h.axes ++ h.axes.map (AxisObj.offset h.xarrs.length)
      xarrs := h.xarrs ++ h.xarrs
      yarrs := h.yarrs ++ h.yarrs
      rels := h.rels ++ h.rels.map (RelObj.offset h.axes.length h.yarrs.length h.rels.length) })

/-- `Relation.equalize` (`relation.py:358-378`) -/
def relEqualize (r1 r2 : Loc) : HM K V (Loc × Loc) := do
  let o1 ← getRel r1
  let o2 ← getRel r2
  if o1.x = o2.x then do
    let q1 ← deepcopy r1
    let q2 ← deepcopy r2
    pure (q1, q2)
  else do
    let g ← config
    let nx ← M.commonX g.commonX o1.x o2.x
    let q1 ← relInterp P M r1 (.axis nx)
    let q2 ← relInterp P M r2 (.axis nx)
    pure (q1, q2)

/-- right operand of an arithmetic operator (`relation.py:432-438`): a relation object, or what is handed to
`math_operation` as it is -/
inductive HArg (V : Type)
  | rel (l : Loc)
  | other (o : HOperand V)

/-- `_operation` followed by `type(self)(...)` (`relation.py:425-480`) -/
def relOperation (a : Loc) (b : HArg V) (op : MathOp) : HM K V Loc := do
  let o ← getRel a
  match b with
  | .rel b => do
    let (r1, r2) ← relEqualize P M a b
    let o1 ← getRel r1
    let o2 ← getRel r2
    let nx ← axisCopy o1.x
    let y1 ← getY o1.y
    let l1 ← newY y1
    let y2 ← getY o2.y
    let l2 ← newY y2
    let ny ← M.mathOp o.caps.mathOp l1 (.arr l2) op
    construct P M o.cls (.axis nx) (.arr ny)
  | .other v => do
    let nx ← axisCopy o.x
    let y1 ← getY o.y
    let l1 ← newY y1
    let ny ← M.mathOp o.caps.mathOp l1 v op
    construct P M o.cls (.axis nx) (.arr ny)

/-- `get_norm` (`relation.py:241-251`) -/
def relNorm (r : Loc) (pow2 : HM K V Loc) : HM K V V := do
  let o ← getRel r
  let sq ← pow2
  let i ← M.integrateOne o.caps.integrateOne sq
  let a ← getAxis o.x
  lift (P.divBySample i a.sample)

/-- `__len__` (`relation.py:497-498`) -/
def relLen (r : Loc) : HM K V ℕ := do
  let o ← getRel r
  axisSize P o.x

/-- `__getitem__` with a number (`relation.py:519-522`) -/
def relItem (r : Loc) (v : K) : HM K V (K × V) := do
  let o ← getRel r
  let x ← axisValues P o.x
  let y ← getY o.y
  lift (P.nearest x y v)

end Relation

/-! ## `Signal` and `Spectrum` objects (`signal.py`, `spectrum.py`) -/

section Spectral
variable (P : Prims K V) (M : Methods K V)

/-- `Signal.get_spectrum` (`signal.py:83-107`) -/
def getSpectrum (s : Loc) (frequency : HSize := .none) (isStartZero : Bool := false) : HM K V Loc := do
  let o ← getRel s
  match o.counterpart, frequency.truthy with
  | some c, false => pure c
  | _, _ => do
    let (f, a) ← M.signal2spectrum o.caps.transform s frequency isStartZero
    let sp ← construct P M .spectrum (.axis f) (.arr a) (some s)
    let o ← getRel s
    putRel s { o with counterpart := some sp }
    pure sp

/-- `Spectrum.get_signal` (`spectrum.py:84-111`) -/
def getSignal (s : Loc) (time : HSize := .none) (startTime : Option K := none) : HM K V Loc := do
  let o ← getRel s
  match o.counterpart, time.truthy with
  | some c, false => pure c
  | _, _ => do
    let (t, a) ← M.spectrum2signal o.caps.transform s time startTime
    let sg ← construct P M .signal (.axis t) (.arr a) (some s)
    let o ← getRel s
    putRel s { o with counterpart := some sg }
    pure sg

/-- `Spectrum.get_amp_spectrum` (`spectrum.py:113-125`) -/
def getAmp (s : Loc) : HM K V Loc := do
  let o ← getRel s
  let nx ← axisCopy o.x
  let y ← getY o.y
  construct P M .relation (.axis nx) (.list (P.abs y))

/-- `Spectrum.get_phase_spectrum` (`spectrum.py:127-137`) -/
def getPhase (s : Loc) : HM K V Loc := do
  let o ← getRel s
  let nx ← axisCopy o.x
  let y ← getY o.y
  construct P M .relation (.axis nx) (.list (P.phase y))

/-- an operand in Python: an object of one of the classes, a number (`int`, `float`, `complex`), or something else (an
ndarray, a numpy scalar, ..) -/
inductive PyOperand (V : Type)
  | obj (l : Loc)
  | number (c : V)
  | other (o : HOperand V)

/-- the operand as `_operation` sees it (`relation.py:432-438`) -/
def PyOperand.toHArg : PyOperand V → HArg V
  | .obj l => .rel l
  | .number c => .other (.num c)
  | .other o => .other o

/-- `_inp2signal_operation` (`signal.py:284-288`) -/
def inp2signalOperation (a : PyOperand V) : HM K V (HArg V) :=
  match a with
  | .obj l => do
    let o ← getRel l
    if o.cls = .spectrum then do
      let s ← getSignal P M l
      pure (.rel s)
    else pure (.rel l)
  | a => pure a.toHArg

/-- `_input2spectrum_operation` (`spectrum.py:294-301`) -/
def input2spectrumOperation (a : PyOperand V) : HM K V (HArg V) :=
  match a with
  | .obj l => do
    let o ← getRel l
    if o.cls.isSignal then do
      let s ← getSpectrum P M l
      pure (.rel s)
    else pure (.rel l)
  | .number c => pure (.other (.num c))
  | .other _ => raise .converting

/-- the forward operators are overridden by `Signal` and `Spectrum` (`signal.py:263-281`, `spectrum.py:273-291`), the
reflected ones are not -/
def MathOp.isForward : MathOp → Bool
  | .add | .sub | .mul | .truediv | .pow => true
  | _ => false

/-- what the operator of class `c` does to its operand first (`signal.py:263-288`, `spectrum.py:273-304`) -/
def convertOperand (c : Cls) (b : PyOperand V) (op : MathOp) : HM K V (HArg V) :=
  if MathOp.isForward op then
    (if c.isSignal then inp2signalOperation P M b
     else if c = .spectrum then input2spectrumOperation P M b
     else pure b.toHArg)
  else pure b.toHArg

/-- operator method `op` of the object `a` with operand `b` (`relation.py:440-496`, `signal.py:263-281`,
`spectrum.py:273-291`) -/
def operator (a : Loc) (b : PyOperand V) (op : MathOp) : HM K V Loc := do
  let o ← getRel a
  let b' ← convertOperand P M o.cls b op
  relOperation P M a b' op

/-- `get_norm` (`relation.py:241-251`) on an object of any class: `self**2` is the class's own operator -/
def getNorm (r : Loc) : HM K V V := relNorm P M r (operator P M r (.number P.two) .pow)

/-- `_inp2signal` (`signal.py:291-299`) -/
def inp2signal (a : PyOperand V) : HM K V Loc :=
  match a with
  | .obj l => do
    let o ← getRel l
    if o.cls = .spectrum then getSignal P M l
    else if o.cls.isSignal then pure l
    else construct P M .signal (.rel l) .absent
  | _ => raise .converting

/-- `_input2spectrum` (`spectrum.py:304-314`) -/
def input2spectrum (a : PyOperand V) : HM K V Loc :=
  match a with
  | .obj l => do
    let o ← getRel l
    if o.cls.isSignal then getSpectrum P M l
    else if o.cls = .spectrum then pure l
    else construct P M .spectrum (.rel l) .absent
  | _ => raise .converting

/-- `Spectrum.get_spectrum_from_amp_phase` (`spectrum.py:218-237`) -/
def fromAmpPhase (amp phase : Loc) : HM K V Loc := do
  let p ← operator P M phase (.number P.imag) .rmul
  let e ← relExp P M p
  let m ← operator P M amp (.obj e) .mul
  construct P M .spectrum (.rel m) .absent

/-- `Spectrum.add_phase`, `Spectrum.sub_phase` (`spectrum.py:179-216`) -/
def spAddPhase (s : Loc) (other : PyOperand V) (op : MathOp) : HM K V Loc := do
  let so ← input2spectrum P M other
  let amp ← getAmp P M s
  let p1 ← getPhase P M s
  let p2 ← getPhase P M so
  let p ← operator P M p1 (.obj p2) op
  fromAmpPhase P M amp p

/-- `Signal.add_phase`, `Signal.sub_phase` (`signal.py:199-227`) -/
def sgAddPhase (s : Loc) (other : PyOperand V) (op : MathOp) : HM K V Loc := do
  let o ← getRel s
  let sp ← getSpectrum P M s
  let q ← spAddPhase P M sp other op
  let g ← getSignal P M q (.axis o.x)
  construct P M o.cls (.rel g) .absent

/-- `Spectrum.get_reverse_filter` (`spectrum.py:139-177`) -/
def reverseFilter (s : Loc) (percent : K) (subtract : Bool) (fs fe : Option K) : HM K V Loc := do
  let w ← relSelect P M s fs fe
  let amp ← getAmp P M w
  let m ← relMax P amp
  let amp ← operator P M amp (.number (P.percentOf m percent)) .add
  let rev ← operator P M amp (.number P.one) .rtruediv
  let ph ← getPhase P M w
  let ph ← operator P M ph (.number (if subtract then P.minusOne else P.one)) .rmul
  fromAmpPhase P M rev ph

/-- `Signal.get_reverse_signal` (`signal.py:158-197`) -/
def reverseSignal (s : Loc) (percent : K) (subtract : Bool) (fs fe : Option K) : HM K V Loc := do
  let o ← getRel s
  let sp ← getSpectrum P M s
  let q ← reverseFilter P M sp percent subtract fs fe
  let g ← getSignal P M q (.axis o.x)
  construct P M o.cls (.rel g) .absent

/-- `Signal.shift` (`signal.py:150-156`): the auxiliary spectrum is built on the frequency axis *object* of the cached
spectrum -/
def sgShift (s : Loc) (d : K) : HM K V Loc := do
  let sp ← getSpectrum P M s
  let o ← getRel sp
  let f ← axisValues P o.x
  let sh ← construct P M .spectrum (.axis o.x) (.list (P.shiftFactor f d))
  sgAddPhase P M s (.obj sh) .add

/-- the `shift` method of the object's class (`relation.py:342`, `signal.py:150`) -/
def shift (r : Loc) (d : K) : HM K V Loc := do
  let o ← getRel r
  if o.cls.isSignal then sgShift P M r d else relShift P M r d

/-- `Signal.get_amplitude_spectrum`, `get_phase_spectrum` (`signal.py:109-148`) -/
def sgAmp (s : Loc) (frequency : HSize) (isStartZero : Bool) : HM K V Loc := do
  let sp ← getSpectrum P M s frequency isStartZero
  getAmp P M sp

/-- `Signal.get_phase_spectrum` (`signal.py:130-148`) -/
def sgPhase (s : Loc) (frequency : HSize) (isStartZero : Bool) : HM K V Loc := do
  let sp ← getSpectrum P M s frequency isStartZero
  getPhase P M sp

/-- a convolution or correlation method: called with the current Config -/
abbrev ConvCall (K V : Type) := ConfigIds → Cls → Loc → Loc → HM K V (Loc × Loc)

/-- `Relation.convolve`/`correlate` as class methods of `cls` (`relation.py:380-423`) on relation objects -/
def relConv (C : ConvCall K V) (cls : Cls) (r1 r2 : Loc) : HM K V Loc := do
  let g ← config
  let (nx, ny) ← C g cls r1 r2
  construct P M cls (.axis nx) (.arr ny)

/-- `cls.convolve`/`cls.correlate` (`relation.py:380-423`, `signal.py:229-261`, `spectrum.py:239-271`) -/
def clsConv (C : ConvCall K V) (cls : Cls) (a b : PyOperand V) : HM K V Loc :=
  match cls with
  | .relation =>
    match a, b with
    | .obj r1, .obj r2 => relConv P M C cls r1 r2
    | _, _ => raise .typeFunc
  | .spectrum => do
    let r1 ← input2spectrum P M a
    let r2 ← input2spectrum P M b
    relConv P M C cls r1 r2
  | _ => do
    let r1 ← inp2signal P M a
    let r2 ← inp2signal P M b
    let q ← relConv P M C cls r1 r2
    construct P M cls (.rel q) .absent

end Spectral

end SweepDesign.Mem
