import Verif.Props.FloatItem
import Verif.Props.HeapRefine
import Verif.Props.Sweep
import Verif.Model.Prepared

/-!
# The project's own tests, in the model

What `/repo/tests` expects of the code, as theorems about the model. The tests were read, not run. Where a test compares numbers exactly
(`assertEqual`, `assert_array_equal`) the theorem is about doubles (`fl64`) and states equality of doubles; a decimal `0.1` of a test is
the double nearest to 1/10.
-/

namespace SweepDesign.Tests

/-- the double written as a decimal `a / b` in a test -/
def dbl (a : ℤ) (b : ℕ) : ℚ := fl64 (a / b)

/-- `assertAlmostEqual(x, y)`: seven decimal places (Python `unittest`) -/
def almost (x y : ℚ) : Prop := |x - y| < 5 / 10 ^ 8

instance (x y : ℚ) : Decidable (almost x y) := inferInstanceAs (Decidable (_ < _))

/-- `assert_array_almost_equal(x, y)`: six decimal places (`numpy.testing`) -/
def alike (x y : List ℚ) : Prop := x.length = y.length ∧ ∀ p ∈ x.zip y, |p.1 - p.2| < 15 / 10 ^ 7

instance (x y : List ℚ) : Decidable (alike x y) := inferInstanceAs (Decidable (_ ∧ _))

/-! ## `tests/test_axis.py` -/

/-- `test_axis.py:17-34` -/
theorem axis_from_list :
    axisFromArray ([2, 3, 4, 5, 6, 7] : List ℚ) false true = .ok ⟨2, 7, 1⟩ ∧
    axisFromArray ([-5, 0, 5, 10, 15, 20, 25] : List ℚ) false true = .ok ⟨-5, 25, 5⟩ ∧
    flAxisFromArray fl64 [0, dbl 1 10, dbl 2 10, dbl 3 10, dbl 4 10, dbl 5 10] = .ok ⟨0, dbl 5 10, dbl 1 10⟩ ∧
    flAxisFromArray fl64 [dbl (-55) 10, dbl (-25) 10, dbl 15 10, dbl 45 10] = .ok ⟨dbl (-55) 10, dbl 45 10, 3⟩ := by
  refine ⟨?_, ?_, ?_, ?_⟩ <;> decide +kernel

/-- `test_axis.py:35-43`: `int((5.6 - -3.0) / 0.2) + 1` is 43 in doubles, not 44, so `linspace` makes steps of 8.6 / 42; the axis has step
0.2 all the same, because 42 / 8.6 rounds to 5. -/
theorem axis_from_np_array :
    ⌊fl64 (fl64 (dbl 56 10 - -3) / dbl 2 10)⌋.toNat + 1 = 43 ∧
    flAxisFromArray fl64 (flLinspace fl64 (-3) (dbl 56 10) 43) = .ok ⟨-3, dbl 56 10, dbl 2 10⟩ := by
  refine ⟨?_, ?_⟩ <;> decide +kernel

/-- `test_axis.py:52-65` -/
theorem changed_axis :
    let size := fun a : Axis ℚ => (a.flArray fl64).map List.length
    size ⟨0, 10, dbl 1 10⟩ = .ok 101 ∧ size ⟨1, 10, dbl 1 10⟩ = .ok 91 ∧ size ⟨0, 9, dbl 1 10⟩ = .ok 91 ∧ size ⟨0, 10, 2⟩ = .ok 6 := by
  refine ⟨?_, ?_, ?_, ?_⟩ <;> decide +kernel

/-! ## `tests/test_relation.py` -/

/-- `test_relation.py:19` -/
def xAxis : Axis ℚ := ⟨0, dbl 1 2, dbl 1 10⟩

/-- `test_relation.py:23-24` -/
def simple : Rel ℚ ℚ := ⟨xAxis, [10, 20, 30, 40, 50, 60]⟩

/-- `test_relation.py:20-21` -/
def relation : Rel ℚ ℚ := ⟨xAxis, [dbl 101 10, dbl (-5231) 1000, 123, 0, dbl 12465 1000, 5]⟩

/-- `test_relation.py:29-49` -/
theorem init_sample :
    (∃ l s, (⟨0, 10, dbl 5 100⟩ : Axis ℚ).flArray fl64 = .ok l ∧ l.length = 201 ∧ flActualSample fl64 l = .ok s ∧ almost (dbl 5 100) s) ∧
    (∃ a l s, flAxisFromArray fl64 (flLinspace fl64 0 10 (⌊fl64 (10 / dbl 5 100)⌋.toNat + 1)) = .ok a ∧ a.flArray fl64 = .ok l ∧
      l.length = 201 ∧ flActualSample fl64 l = .ok s ∧ almost (dbl 5 100) s) ∧
    (Rel.init (V := ℚ) (.array ([0, 1, 2, 3, 4, 5] : List ℚ) false) (some [10, 20, 30, 40, 50, 60])).bind (fun r => r.x.actualSample) =
      .ok 1 := by
  have h1 : (⟨0, 10, dbl 5 100⟩ : Axis ℚ).flArray fl64 = .ok (flLinspace fl64 0 10 201) := by decide +kernel
  have h2 : ∃ s, flActualSample fl64 (flLinspace fl64 0 10 201) = .ok s ∧ almost (dbl 5 100) s :=
    ⟨fl64 (fl64 (200 * dbl 5 100) - fl64 (199 * dbl 5 100)), by decide +kernel, by decide +kernel⟩
  obtain ⟨s, h3, h4⟩ := h2
  refine ⟨⟨_, s, h1, ?_, h3, h4⟩, ⟨⟨0, 10, dbl 5 100⟩, _, s, ?_, h1, ?_, h3, h4⟩, ?_⟩ <;> decide +kernel

/-- `test_relation.py:55-59` -/
theorem init_errors :
    Rel.init (.array ([1, 2, 3] : List ℚ) false) (some ([1, 2] : List ℚ)) = .error (.notEqual 3 2) ∧
    Rel.init (.array ([1, 2, 3] : List ℚ) false) (none : Option (List ℚ)) = .error .badInput := by
  refine ⟨?_, ?_⟩ <;> decide +kernel

/-- `test_relation.py:111-116` -/
theorem select_data :
    flSelectData fl64 xAxis relation.y (some (dbl 1 10)) (some (dbl 45 100)) =
      .ok (⟨dbl 1 10, dbl 4 10, dbl 1 10⟩, [dbl (-5231) 1000, 123, 0, dbl 12465 1000]) := by decide +kernel

/-- `test_relation.py:118-128` -/
theorem items :
    (∃ t, simple.flGetItem fl64 (dbl 3 10) = .ok (t, 40) ∧ almost t (dbl 3 10)) ∧
    (∃ t, simple.flGetItem fl64 (dbl 35 100) = .ok (t, 40) ∧ almost t (dbl 3 10)) ∧
    (∃ t, simple.flGetItem fl64 (dbl 25 100) = .ok (t, 30) ∧ almost t (dbl 2 10)) := by
  refine ⟨⟨fl64 (3 * dbl 1 10), ?_, ?_⟩, ⟨fl64 (3 * dbl 1 10), ?_, ?_⟩, ⟨dbl 2 10, ?_, ?_⟩⟩ <;> decide +kernel

/-- `test_relation.py:130-135` -/
theorem slice :
    ∃ a, flSelectData fl64 xAxis simple.y (some (dbl 25 100)) (some (dbl 43 100)) = .ok (a, [40, 50]) ∧ almost a.start (dbl 3 10) ∧
      almost a.stop (dbl 4 10) ∧ almost a.sample (dbl 1 10) := by
  refine ⟨⟨fl64 (3 * dbl 1 10), dbl 4 10, dbl 1 10⟩, ?_, ?_, ?_, ?_⟩ <;> decide +kernel

/-- `test_relation.py:149-161` -/
theorem differentiation :
    ∃ l q, xAxis.flArray fl64 = .ok l ∧ simple.flDiff fl64 = .ok q ∧ q.y = [100, 100, 100, 100, 100] ∧
      q.x.flArray fl64 = .ok (l.dropLast.map fun t => fl64 (t + fl64 (dbl 1 10 / 2))) := by
  refine ⟨[0, dbl 1 10, dbl 2 10, fl64 (3 * dbl 1 10), dbl 4 10, dbl 1 2], ⟨xAxis.flDiff fl64, [100, 100, 100, 100, 100]⟩, ?_, ?_, ?_, ?_⟩ <;>
    decide +kernel

/-- `test_relation.py:163-174` -/
theorem integration :
    ∃ l q, xAxis.flArray fl64 = .ok l ∧ simple.flIntegrate fl64 = .ok q ∧ q.y = [3 / 2, 4, 15 / 2, 12, 35 / 2] ∧
      q.x.flArray fl64 = .ok l.tail := by
  refine ⟨[0, dbl 1 10, dbl 2 10, fl64 (3 * dbl 1 10), dbl 4 10, dbl 1 2], ⟨xAxis.flIntegrate fl64, [3 / 2, 4, 15 / 2, 12, 35 / 2]⟩,
    ?_, ?_, ?_, ?_⟩ <;> decide +kernel

/-- `test_relation.py:176-198`: the array from -0.1 with step 0.05 has a negative double instead of 0, so its third entry is outside -/
theorem interpolation :
    simple.flInterpAxis fl64 ⟨0, dbl 1 2, dbl 5 100⟩ =
      .ok ⟨⟨0, dbl 1 2, dbl 5 100⟩, [10, 15, 20, 25, 30, 35, 40, 45, 50, 55, 60]⟩ ∧
    ∃ y, simple.flInterpAxis fl64 ⟨dbl (-1) 10, dbl 6 10, dbl 5 100⟩ = .ok ⟨⟨dbl (-1) 10, dbl 6 10, dbl 5 100⟩, y⟩ ∧
      alike y [0, 0, 0, 15, 20, 25, 30, 35, 40, 45, 50, 55, 60, 0, 0] := by
  refine ⟨by decide +kernel, [0, 0, 0, 15, 20, 7036874417766399 / 281474976710656, 30, 4925812092436479 / 140737488355328,
    2814749767106559 / 70368744177664, 6333186975989759 / 140737488355328, 3518437208883199 / 70368744177664,
    7740561859543039 / 140737488355328, 60, 0, 0], ?_, ?_⟩ <;> decide +kernel

/-- `test_relation.py:200-226` -/
theorem equalize :
    flAxisFromArray fl64 [dbl (-1) 10, dbl (-5) 100, 0, dbl 5 100, dbl 1 10, dbl 15 100] =
      .ok ⟨dbl (-1) 10, dbl 15 100, dbl 5 100⟩ ∧
    ∃ y1 y2, Rel.flEqualize fl64 false ⟨⟨dbl (-1) 10, dbl 15 100, dbl 5 100⟩, [1, 10, -10, dbl 25 10, dbl (-25) 10, 1]⟩ simple =
      .ok (⟨⟨dbl (-1) 10, dbl 5 10, dbl 5 100⟩, y1⟩, ⟨⟨dbl (-1) 10, dbl 5 10, dbl 5 100⟩, y2⟩) ∧
      alike y1 [1, 10, -10, dbl 25 10, dbl (-25) 10, 1, 0, 0, 0, 0, 0, 0, 0] ∧
      alike y2 [0, 0, 0, 15, 20, 25, 30, 35, 40, 45, 50, 55, 60] := by
  refine ⟨by decide +kernel, [1, 10, -2814749767106559 / 281474976710656, 351843720888319 / 140737488355328,
      -2814749767106557 / 1125899906842624, 2251799813685243 / 2251799813685248, 0, 0, 0, 0, 0, 0, 0],
    [0, 0, 0, 15, 20, 7036874417766399 / 281474976710656, 30, 4925812092436479 / 140737488355328,
      2814749767106559 / 70368744177664, 6333186975989759 / 140737488355328, 3518437208883199 / 70368744177664,
      7740561859543039 / 140737488355328, 60], ?_, ?_, ?_⟩ <;> decide +kernel

/-- `test_relation.py:228-250`: the impulse gives the relation back, behind its mirror axis -/
theorem convolve_impulse :
    (simple.flConv fl64 (fun a b => npConvolve a b) ⟨xAxis, [1, 0, 0, 0, 0, 0]⟩).map (fun r => (r.x, r.y)) =
      .ok (⟨-dbl 1 2, dbl 1 2, dbl 1 10⟩, [10, 20, 30, 40, 50, 60, 0, 0, 0, 0, 0]) ∧
    (simple.flConv fl64 (fun a b => npCorrelate a b) ⟨xAxis, [1, 0, 0, 0, 0, 0]⟩).map (fun r => (r.x, r.y)) =
      .ok (⟨-dbl 1 2, dbl 1 2, dbl 1 10⟩, [0, 0, 0, 0, 0, 10, 20, 30, 40, 50, 60]) := by
  refine ⟨?_, ?_⟩ <;> decide +kernel

/-- `test_relation.py:252-291` for the basic operations: `r1`, `r2` on one axis object, results in doubles -/
theorem math_operations :
    let x : Axis ℚ := ⟨0, 4, 1⟩
    let r1 : Rel ℚ ℚ := ⟨x, [10, 20, 30, 40, 50]⟩
    let r2 : Rel ℚ ℚ := ⟨x, [2, 4, 6, 8, 10]⟩
    x.flArray fl64 = .ok [0, 1, 2, 3, 4] ∧
    r1.flOperation fl64 true r2 .add = .ok ⟨x, [12, 24, 36, 48, 60]⟩ ∧
    r1.flOperation fl64 true r2 .sub = .ok ⟨x, [8, 16, 24, 32, 40]⟩ ∧
    r1.flOperation fl64 true r2 .mul = .ok ⟨x, [20, 80, 180, 320, 500]⟩ ∧
    r1.flOperation fl64 true r2 .truediv = .ok ⟨x, [5, 5, 5, 5, 5]⟩ := by
  refine ⟨?_, ?_, ?_, ?_, ?_⟩ <;> decide +kernel

/-- `test_relation.py:252-291` for numbers, for powers and for a wrong type, in exact arithmetic -/
theorem math_operations_exact :
    let x : Axis ℚ := ⟨0, 4, 1⟩
    let r1 : Rel ℚ ℚ := ⟨x, [10, 20, 30, 40, 50]⟩
    let r2 : Rel ℚ ℚ := ⟨x, [2, 4, 6, 8, 10]⟩
    r1.add (.other (.num 2)) = .ok ⟨x, [12, 22, 32, 42, 52]⟩ ∧
    r1.sub (.other (.num 2)) = .ok ⟨x, [8, 18, 28, 38, 48]⟩ ∧
    r1.mul (.other (.num 2)) = .ok ⟨x, [20, 40, 60, 80, 100]⟩ ∧
    r1.truediv (.other (.num 2)) = .ok ⟨x, [5, 10, 15, 20, 25]⟩ ∧
    r1.pow (.other (.num 2)) = .ok ⟨x, [100, 400, 900, 1600, 2500]⟩ ∧
    r1.pow (.rel true r2) = .ok ⟨x, [10 ^ 2, 20 ^ 4, 30 ^ 6, 40 ^ 8, 50 ^ 10]⟩ ∧
    r1.add (.other .bad) = .error .typeFunc := by
  refine ⟨?_, ?_, ?_, ?_, ?_, ?_, ?_⟩ <;> decide +kernel

/-- `test_relation.py:295-306` -/
theorem shift :
    ∃ l q, xAxis.flArray fl64 = .ok l ∧ simple.flShift fl64 (dbl 5 100) = .ok q ∧ q.x = ⟨dbl 5 100, dbl 55 100, dbl 1 10⟩ ∧
      q.y = [10, 20, 30, 40, 50, 60] ∧ q.x.flArray fl64 = .ok (l.map fun t => fl64 (t + dbl 5 100)) := by
  refine ⟨[0, dbl 1 10, dbl 2 10, fl64 (3 * dbl 1 10), dbl 4 10, dbl 1 2],
    ⟨⟨dbl 5 100, dbl 55 100, dbl 1 10⟩, [10, 20, 30, 40, 50, 60]⟩, ?_, ?_, ?_, ?_, ?_⟩ <;> decide +kernel

section
open Mem Spec

/-- the calls of `test_relation.py:77-84` on the objects of `setUp`: start 5, end 11, sample 1 are assigned through the relation -/
def properties : List (Step ℚ ℚ) :=
  [.call (.axisNew 0 (1 / 2) (1 / 10)),
    .call (.construct .relation (.axis 0) (.list [101 / 10, -5231 / 1000, 123, 0, 12465 / 1000, 5])),
    .edit (.setStart 0 5), .edit (.setStop 0 11), .edit (.setSample 0 1)]

/-- `test_relation.py:71-89`: the relation holds the axis object it was given; after the assignments its array is 5, .., 11 and `get_data`
raises `NotEqualError`. -/
theorem assigned_fields :
    let h := runSteps ratPrims (defaultMethods ratPrims) (defaultConvMethods ratPrims (defaultMethods ratPrims)) properties
      (emptyHeap ℚ ℚ)
    (h.rels[0]?.map fun o => o.x) = some 0 ∧
    (valueAt h 0).map (fun p => p.2.x) = some ⟨5, 11, 1⟩ ∧
    (let p := axisArray ratPrims 0 h; p.1.toOption.bind fun l => p.2.xarrs[l]?) = some [5, 6, 7, 8, 9, 10, 11] ∧
    (relGetData ratPrims 0 h).1.toOption = none ∧
    (relGetData ratPrims 0 h).1 = .error (.notEqual 7 6) := by
  refine ⟨?_, ?_, ?_, ?_, ?_⟩ <;> decide +kernel

/-- `test_relation.py:91-99` -/
theorem max_min :
    let h := runSteps ratPrims (defaultMethods ratPrims) (defaultConvMethods ratPrims (defaultMethods ratPrims))
      [.call (.construct .relation (.array [1 / 10, 2 / 10, 3 / 10] true) (.list [2123123 / 1000000, 10123 / 1000, -10123 / 1000])),
        .call (.construct .relation (.array [0, 1 / 10, 2 / 10, 3 / 10] true)
          (.list [0, 2123123 / 1000000, 10123 / 1000, -10123 / 1000]))]
      (emptyHeap ℚ ℚ)
    (relMax ratPrims 0 h).1 = .ok (10123 / 1000) ∧ (relMin ratPrims 1 h).1 = .ok (-10123 / 1000) := by
  refine ⟨?_, ?_⟩ <;> decide +kernel

/-- `test_relation.py:272-273`, `test_signals.py:50-51`, `test_spectrum.py:49-50`: adding a string is a `TypeFuncError` for relations,
signals and sweeps, a `ConvertingError` for spectra. -/
theorem wrong_type (c : Cls) :
    let h := runSteps ratPrims (defaultMethods ratPrims) (defaultConvMethods ratPrims (defaultMethods ratPrims))
      [.call (.axisNew 0 4 1), .call (.construct c (.axis 0) (.list [10, 20, 30, 40, 50]))] (emptyHeap ℚ ℚ)
    (Mem.operator ratPrims (defaultMethods ratPrims) 0 (.other .bad) .add h).1.map (fun _ => ()) =
      .error (if c = .spectrum then .converting else .typeFunc) := by
  cases c <;> decide +kernel

end

/-! ## `tests/test_uncalculated_sweep.py` -/

/-- the times of `test_uncalculated_sweep.py:13-17`, in exact arithmetic -/
def times : List (TimeArg ℚ) := [.none, .axis ⟨0, 10, 1 / 10⟩, .array [0, 1, 2, 3, 4, 5, 6] false]

/-- the descriptions of `test_uncalculated_sweep.py:18-24`, with a flag for lists -/
def descriptions : List (Bool × Ftat ℚ) :=
  [(true, .array [10, 20, 30, 40, 50, 60, 70]),
    (false, .func (fun l => .ok (l.map fun t => 10 * t + 1)) fun t => 10 * t + 1),
    (false, .rel ⟨⟨0, 5, 1⟩, [10, 20, 30, 40, 50, 60]⟩),
    (false, .interp ⟨[0, 1, 2, 3, 4, 5], [10, 20, 30, 40, 50, 60]⟩)]

def isNone : TimeArg ℚ → Bool
  | .none => true
  | _ => false

/-- what `check_creation` asks of the axis of the sweep (`test_uncalculated_sweep.py:36-44`) -/
def axisAsked (second : TimeArg ℚ) (a : Axis ℚ) : Bool :=
  match second with
  | .none => true
  | .axis b => a = b
  | .array _ _ => a = ⟨0, 6, 1⟩

/-- `test_uncalculated_sweep.py:26-66`: the 144 combinations; `BadInputError` exactly where the test expects it, else a sweep with the
axis it expects. The black boxes are `toyPrims`. -/
theorem input_data :
    ∀ time ∈ times, ∀ f ∈ descriptions, ∀ a ∈ descriptions, ∀ second ∈ times,
      let sweep := (UncalculatedSweep.init time f.2 a.2).bind fun u => (u.call toyPrims second 0).map fun s => s.rel.x
      if isNone time && (f.1 || a.1) || isNone time && isNone second then sweep = .error .badInput
      else sweep.map (axisAsked second) = .ok true := by
  unfold times descriptions
  simp only [List.forall_mem_cons, List.not_mem_nil, false_imp_iff, implies_true, and_true]
  refine ⟨?_, ?_, ?_⟩ <;> (refine ⟨?_, ?_, ?_, ?_⟩ <;> decide +kernel)

/-! ## `tests/test_utility_functions.py` -/

/-- `test_utility_functions.py:48-61`, in exact arithmetic -/
theorem linear_functions :
    (⟨0, 10, 1 / 10⟩ : Axis ℚ).array.map (fun l => (l.head?, l.getLast?)) = .ok (some 0, some 10) ∧
    ftLinear (0 : ℚ) 10 5 95 0 = .ok 5 ∧ ftLinear (0 : ℚ) 10 5 95 10 = .ok 95 ∧
    ((⟨0, 10, 1 / 10⟩ : Axis ℚ).array.bind fun l => (ftLinearArray l 10 75).map fun v => (v.head?, v.getLast?)) =
      .ok (some 10, some 75) := by
  refine ⟨?_, ?_, ?_, ?_⟩ <;> decide +kernel

end SweepDesign.Tests
