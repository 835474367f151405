import Verif.Heap.Calls
import Verif.Py.Pow

/-!
# Heap layer: the number operations of the value layer

`exactPrims` fills in the record `Prims` with the exact-arithmetic functions of the value layer; the operations that
need more than a field (exponential, Fourier transforms, phases) are parameters. `ratPrims` is an executable instance
over ℚ used in the examples, with stand-ins for those operations.
-/

namespace SweepDesign.Mem

variable {K : Type} [Field K] [LinearOrder K] [IsStrictOrderedRing K] [FloorRing K]
variable {V : Type} [Field V] [Algebra K V] [Star V] [DecidableEq V] [PyPow V]

/-- the operations beyond field arithmetic -/
structure Transcendental (K V : Type) where
  exp : V → V
  max : List V → Except Err V
  min : List V → Except Err V
  abs : V → V
  phase : List V → List V
  imag : V
  shiftFactor : K → K → V
  rfft : List V → Option ℤ → Except Err (List V)
  rfftfreq : ℕ → K → Except Err (List K)
  irfft : List V → Option ℤ → Except Err (List V)
  instFreq : List V → K → Except Err (List V)
  envelope : List V → Except Err (List V)
  spectrogram : List V → K → Except Err Unit

def exactPrims (T : Transcendental K V) : Prims K V where
  mkArr s e d := Axis.array { start := s, stop := e, sample := d }
  minDiff := getActualSample
  axisOf x f r := (SweepDesign.axisFromArray x f r).map fun a => (a.start, a.stop, a.sample)
  add a b := a + b
  sub a b := a - b
  neg a := -a
  half a := a / 2
  le a b := decide (a ≤ b)
  zero := 0
  select x y a b := do
    let m := x.map fun t => decide (a ≤ t) && decide (t ≤ b)
    let sx ← maskSelect m x
    match sx.head?, sx.getLast? with
    | some s, some e => do
      let y' ← maskSelect m y
      pure (s, e, y')
    | _, _ => .error .index
  exp y := y.map T.exp
  nearest x y v := do
    let idx ← argmin (x.map fun t => |t - v|)
    match x[idx]?, y[idx]? with
    | some t, some w => pure (t, w)
    | _, _ => .error .index
  cumTrapz y dx := (SweepDesign.cumTrapz y).map fun v => dx • v
  diff y dx := (npDiff y).map fun v => dx⁻¹ • v
  trapz y x := SweepDesign.trapz y x
  divBySample v d := .ok (d⁻¹ • v)
  two := 2
  interp := interp1d
  mathOp := mathOperation
  npConvolve := SweepDesign.npConvolve
  npCorrelate := SweepDesign.npCorrelate
  max := T.max
  min := T.min
  abs y := y.map T.abs
  phase := T.phase
  percentOf m p := p • m / 100
  one := 1
  minusOne := -1
  imag := T.imag
  shiftFactor f d := f.map fun t => T.shiftFactor t d
  zeros n := if n < 0 then .error .value else .ok (List.replicate n.toNat 0)
  reorder t y := do
    let a ← maskSelect (t.map fun v => decide (0 ≤ v)) y
    let b ← maskSelect (t.map fun v => decide (v < 0)) y
    pure (a ++ b)
  rfft := T.rfft
  rfftfreq := T.rfftfreq
  irfft := T.irfft
  instFreq := T.instFreq
  envelope := T.envelope
  spectrogram := T.spectrogram
  dt s e := if e - s = 0 then .error .zeroDivision else .ok (1 / (2 * (e - s)))
  timeEnd s n dt := s + ((n : K) - 1) * dt

/-- Stand-ins over ℚ for the examples: the `transform` keeps the first `n` entries and the phase is zero. -/
def ratT : Transcendental ℚ ℚ :=
  { exp := fun v => v + 1
    max := npMax
    min := npMin
    abs := fun v => |v|
    phase := fun y => y.map fun _ => 0
    imag := 0
    shiftFactor := fun _ _ => 1
    rfft := fun a _ => .ok (a.take (a.length / 2 + 1))
    rfftfreq := fun n d => .ok ((List.range (n / 2 + 1)).map fun k : ℕ => (k : ℚ) / (n * d))
    irfft := fun a n => .ok (((List.range ((n.getD (2 * ((a.length : ℤ) - 1))).toNat))).map fun i => at0 a i)
    instFreq := fun y _ => .ok (y.map fun _ => 1)
    envelope := fun y => .ok (y.map fun v => |v|)
    spectrogram := fun _ _ => .ok () }

def ratPrims : Prims ℚ ℚ := exactPrims ratT

def noConfig : ConfigIds := ⟨0, 0, 0, 0, 0, 0, 0, 0, 0, 0, 0, 0, 0, 0, 0, 0⟩

/-- nothing allocated yet -/
def emptyHeap (K V : Type) : Heap K V := { axes := [], xarrs := [], yarrs := [], rels := [], config := noConfig }

theorem coh_empty {K V : Type} (P : Prims K V) : Coh P (emptyHeap K V) := by
  intro i a ha; simp [emptyHeap] at ha

end SweepDesign.Mem
