import Verif.Heap.Sweep
import Verif.Heap.Exact
import Verif.Model.Aprior

/-!
# Heap layer: the number operations of sweeps and generators

`exactGen` fills in the record `GenPrims` with the exact-arithmetic functions of `Model/Sweep.lean`, and with the default
`Config.integrate_function_method`. Sine, π, `quad`, the spectrogram and the square root are parameters.
-/

namespace SweepDesign.Mem

open HM

variable {K : Type} [Field K] [LinearOrder K] [IsStrictOrderedRing K] [FloorRing K]

/-- `np.sin`, `np.pi`, `quad(f, a, b)[0]`, the spectrogram method on samples and a step, and `math.sqrt` -/
structure SweepNumbers (K : Type) where
  sin : K → K
  pi : K
  quad : (K → K) → K → K → K
  spectro : List K → K → Except Err (SpectroData K)
  sqrt : K → Except Err K

/-- the operations of `T`, with the outcome of `Sweep._get_spectrogram` (`sweep.py:89-119`) on the data of `N` -/
def SweepNumbers.over (N : SweepNumbers K) (T : Transcendental K K) : Transcendental K K :=
  { T with spectrogram := fun y d => (N.spectro y d >>= getSpectrogram).map fun _ => () }

/-- `integrate_function` (`defaults/methods.py:346-372`): the axis it is given, and `2 * np.pi` times the integrals from its
start to its positions. -/
def defIntFun (P : Prims K K) (N : SweepNumbers K) (f : PyFun K K) (t : Loc) : HM K K (Loc × Loc) := do
  let xs ← axisValues P t
  let a ← getAxis t
  let l ← newY (0 :: xs.tail.map fun x => 2 * N.pi * N.quad f.onNumber a.start x)
  pure (t, l)

def exactGen (P : Prims K K) (N : SweepNumbers K) : GenPrims K K where
  stretch x s e :=
    match x.head?, x.getLast? with
    | some x0, some xl =>
      if xl = 0 then .error .nonFinite else .ok (x.map fun v => v * ((e - s) / xl) - x0 + s)
    | _, _ => .error .index
  respace s e n := if n = 1 then .error .zeroDivision else .ok ((s - e) / ((n : K) - 1))
  phaseOf y := 0 :: y.map fun v => 2 * N.pi * v
  swing a th c := npMul a (th.map fun v => N.sin (v + c))
  intFun _ := defIntFun P N
  normRatio na ns := do
    let a ← N.sqrt na
    let b ← N.sqrt ns
    if b = 0 then .error .zeroDivision else .ok (a / b)

omit [LinearOrder K] [IsStrictOrderedRing K] [FloorRing K] in
theorem safe_defIntFun {P : Prims K K} (N : SweepNumbers K) {X : Ex} (f : PyFun K K) (t : Loc) :
    Safe P X (defIntFun P N f t) :=
  (safe_axisValues _).bind fun _ => (safe_getAxis _).bind fun _ => (safe_newY _).bind fun _ => safe_pure _

omit [IsStrictOrderedRing K] [FloorRing K] in
theorem goodGen_exact (P : Prims K K) (N : SweepNumbers K) : GoodGen P (exactGen P N) := fun _ _ _ => safe_defIntFun N _ _

/-- `linear_time` (`defaults/sweep_methods.py:194-195`) -/
def linearFun : PyFun K K := ⟨fun l => .ok l, id⟩

/-- `const_one` (`defaults/sweep_methods.py:203-204`) -/
def onesFun : PyFun K K := ⟨fun l => .ok (List.replicate l.length 1), fun _ => 1⟩

/-- Stand-ins over ℚ for the examples: no sine and no factor 2π, the trapezoid with one panel for `quad`, the identity
for the square root. -/
def ratN : SweepNumbers ℚ where
  sin := id
  pi := 1 / 2
  quad f a b := (f a + f b) / 2 * (b - a)
  spectro _ _ := .ok ⟨[0, 1], [0, 1], []⟩
  sqrt v := if v < 0 then .error .value else .ok v

end SweepDesign.Mem
