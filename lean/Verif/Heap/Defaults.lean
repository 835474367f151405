import Verif.Heap.Basic

/-!
# Heap layer: the default methods

`/repo/sweep_design/defaults/methods.py` and the sweep methods of `/repo/sweep_design/defaults/sweep_methods.py` as heap
programs. Every method name stands for the default method in `defaultMethods`.
-/

namespace SweepDesign.Mem

open HM

variable {K V : Type} (P : Prims K V)

/-- the operand as numpy sees it -/
def npOperand (w : HOperand V) : HM K V (NpOperand V) :=
  match w with
  | .arr l2 => do
    let y2 ← getY l2
    pure (NpOperand.arr y2)
  | .num c => pure (NpOperand.num c)
  | .bad => pure NpOperand.bad

/-- `math_operation` (`defaults/methods.py:42-70`) -/
def defMathOp (l1 : Loc) (w : HOperand V) (op : MathOp) : HM K V Loc := do
  let y1 ← getY l1
  let o ← npOperand w
  let y ← lift (P.mathOp y1 o op)
  newY y

/-- `interpolate_extrapolate(x, y)(new_x)` (`defaults/methods.py:127-158`) -/
def defInterp (lx ly : Loc) (nx : Loc) : HM K V Loc := do
  let x ← getX lx
  let y ← getY ly
  let xs ← axisValues P nx
  let y' ← lift (P.interp x y xs)
  newY y'

/-- `one_integrate` (`defaults/methods.py:73-86`) -/
def defIntegrateOne (r : Loc) : HM K V V := do
  let (lx, ly) ← relGetData P r
  let x ← getX lx
  let y ← getY ly
  pure (P.trapz y x)

/-- `integrate` (`defaults/methods.py:89-105`) -/
def defIntegrate (r : Loc) : HM K V (Loc × Loc) := do
  let o ← getRel r
  let nx ← axisCopy o.x
  let a ← getAxis nx
  axisSetStart nx (P.add a.start a.sample)
  let y ← getY o.y
  let ny ← newY (P.cumTrapz y a.sample)
  pure (nx, ny)

/-- `differentiate` (`defaults/methods.py:108-124`) -/
def defDifferentiate (r : Loc) : HM K V (Loc × Loc) := do
  let o ← getRel r
  let nx ← axisCopy o.x
  let a ← getAxis nx
  axisSetStart nx (P.add a.start (P.half a.sample))
  axisSetStop nx (P.sub a.stop (P.half a.sample))
  let y ← getY o.y
  let ny ← newY (P.diff y a.sample)
  pure (nx, ny)

/-- `get_common_x` (`defaults/methods.py:161-181`) -/
def defCommonX (l1 l2 : Loc) : HM K V Loc := do
  let a1 ← getAxis l1
  let a2 ← getAxis l2
  axisNew (if P.le a1.start a2.start then a1.start else a2.start)
    (if P.le a2.stop a1.stop then a1.stop else a2.stop)
    (if P.le a1.sample a2.sample then a1.sample else a2.sample)

/-- size argument of `rfft`/`irfft` -/
def sizeOf (f : HSize) : HM K V (Option ℤ) :=
  match f with
  | .none => pure none
  | .int k => pure (some k)
  | .axis l => do
    let n ← axisSize P l
    pure (some n)

/-- the frequency axis of a spectrum (`defaults/methods.py:244-248`): a frequency axis that is passed in is handed back -/
def freqAxis (time : Loc) (n : ℕ) (f : HSize) : HM K V Loc :=
  match f with
  | .axis l => pure l
  | _ => do
    let a ← getAxis time
    let fs ← lift (P.rfftfreq n a.sample)
    axisFromArray P fs true false

/-- the time axis of a signal (`defaults/methods.py:328-338`): a time axis that is passed in is handed back -/
def timeAxis (fr : Loc) (n : ℕ) (t : HSize) (ts : Option K) : HM K V Loc :=
  match t with
  | .axis l => pure l
  | _ => do
    let a ← getAxis fr
    let dt ← lift (P.dt a.start a.stop)
    axisNew (ts.getD P.zero) (P.timeEnd (ts.getD P.zero) n dt) dt

/-- `_calculate_spectrum` (`defaults/methods.py:230-250`) -/
def calculateSpectrum (time : Loc) (amp : List V) (f : HSize) : HM K V (Loc × Loc) := do
  let size ← sizeOf P f
  let t ← axisValues P time
  let amp ← lift (P.reorder t amp)
  let sp ← lift (P.rfft amp size)
  let fr ← freqAxis P time amp.length f
  let l ← newY sp
  pure (fr, l)

/-- `signal2spectrum` (`defaults/methods.py:253-293`) -/
def defSignal2Spectrum (r : Loc) (f : HSize) (isStartZero : Bool) : HM K V (Loc × Loc) := do
  let o ← getRel r
  let nt ← axisCopy o.x
  let amp ← getY o.y
  let a ← getAxis nt
  if isStartZero then calculateSpectrum P nt amp f
  else if !(P.le a.start P.zero) then do
    axisSetStart nt P.zero
    let n ← axisSize P nt
    let z ← lift (P.zeros ((n : ℤ) - amp.length))
    calculateSpectrum P nt (z ++ amp) f
  else if !(P.le P.zero a.stop) then do
    axisSetStop nt P.zero
    let n ← axisSize P nt
    let z ← lift (P.zeros ((n : ℤ) - amp.length))
    calculateSpectrum P nt (amp ++ z) f
  else calculateSpectrum P nt amp f

/-- `spectrum2signal` (`defaults/methods.py:296-343`) -/
def defSpectrum2Signal (r : Loc) (t : HSize) (ts : Option K) : HM K V (Loc × Loc) := do
  let o ← getRel r
  let sp ← getY o.y
  let fr ← axisCopy o.x
  let size ← sizeOf P t
  let amp ← lift (P.irfft sp size)
  let time ← timeAxis P fr amp.length t ts
  let tv ← axisValues P time
  let amp ← lift (P.reorder tv amp)
  let l ← newY amp
  pure (time, l)

/-- `get_f_t` (`defaults/sweep_methods.py:286-306`): the relation is built on the axis object of the sweep -/
def defGetFt (s : Loc) : HM K V Loc := do
  let o ← getRel s
  let y ← getY o.y
  let a ← getAxis o.x
  let v ← lift (P.instFreq y a.sample)
  let g ← config
  let ly ← newY v
  initAxis P .relation g o.x ly none

/-- `get_a_t` (`defaults/sweep_methods.py:309-322`) -/
def defGetAt (s : Loc) : HM K V Loc := do
  let o ← getRel s
  let y ← getY o.y
  let v ← lift (P.envelope y)
  let g ← config
  let ly ← newY v
  initAxis P .relation g o.x ly none

/-- `get_spectrogram` (`defaults/sweep_methods.py:263-283`) and `_get_spectrogram` (`sweep.py:90-119`) -/
def defSpectrogram (s : Loc) : HM K V Unit := do
  let o ← getRel s
  let y ← getY o.y
  let a ← getAxis o.x
  lift (P.spectrogram y a.sample)

/-- all names stand for the default methods -/
def defaultMethods : Methods K V where
  fromArray _ := axisFromArray P
  mathOp _ := defMathOp P
  interp _ := defInterp P
  integrateOne _ := defIntegrateOne P
  integrate _ := defIntegrate P
  differentiate _ := defDifferentiate P
  commonX _ := defCommonX P
  signal2spectrum _ := defSignal2Spectrum P
  spectrum2signal _ := defSpectrum2Signal P
  getFt _ := defGetFt P
  getAt _ := defGetAt P
  spectrogram _ := defSpectrogram P

variable (M : Methods K V)

/-- shared part of `correlate` and `convolve` (`defaults/methods.py:184-225`) -/
def defConv (np : List V → List V → List V) (r1 r2 : Loc) : HM K V (Loc × Loc) := do
  let o1 ← getRel r1
  let a1 ← getAxis o1.x
  let q1 ← shift P M r1 (P.neg a1.start)
  let o2 ← getRel r2
  let a2 ← getAxis o2.x
  let q2 ← shift P M r2 (P.neg a2.start)
  let (e1, e2) ← relEqualize P M q1 q2
  let o1 ← getRel e1
  let a ← getAxis o1.x
  let nx ← axisNew (P.neg a.stop) a.stop a.sample
  let y1 ← getY o1.y
  let o2 ← getRel e2
  let y2 ← getY o2.y
  let ny ← newY (np y1 y2)
  pure (nx, ny)

def defaultConvMethods : ConvMethods K V where
  correlate _ _ := defConv P M P.npCorrelate
  convolve _ _ := defConv P M P.npConvolve

end SweepDesign.Mem
