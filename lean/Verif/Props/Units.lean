import Verif.Props.Moved
import Verif.Props.Spectral

/-!
# C107 The unit of time

The same samples on an axis whose numbers are all multiplied by `c > 0` (seconds written as milliseconds). Every operation gives the same
result in the new unit: positions are multiplied by `c`, integrals are multiplied by `c`, derivatives divided by `c`, frequencies divided
by `c`; all other values, and all exceptions, are the same.
-/

set_option linter.unusedSectionVars false

namespace SweepDesign

section
variable {K : Type} [Field K] [LinearOrder K] [IsStrictOrderedRing K] [FloorRing K]
variable {V : Type} [Field V] [Algebra K V]

/-- the axis with its numbers in a unit `c` times as small -/
def Spec.axisIn (c : K) (a : Axis K) : Axis K := ⟨c * a.start, c * a.stop, c * a.sample⟩

/-- the same samples, the positions in a unit `c` times as small -/
def Spec.relIn (c : K) (r : Rel K V) : Rel K V := ⟨Spec.axisIn c r.x, r.y⟩

open Spec

/-! ## Machinery -/

theorem except_map_bind {α β γ : Type} (f : α → β) (m : Except Err α) (g : β → Except Err γ) :
    (m.map f >>= g) = (m >>= fun a => g (f a)) := by cases m <;> rfl

theorem except_bind_map {α β γ : Type} (f : β → γ) (m : Except Err α) (g : α → Except Err β) :
    (m >>= g).map f = (m >>= fun a => (g a).map f) := by cases m <;> rfl

theorem except_bind_congr {α β : Type} {m : Except Err α} {f g : α → Except Err β} (h : ∀ a, m = .ok a → f a = g a) :
    (m >>= f) = (m >>= g) := by
  cases m with
  | error e => rfl
  | ok a => exact h a rfl

variable {c : K}

theorem linspace_in (a b : K) (n : ℕ) : linspace (c * a) (c * b) n = (linspace a b n).map (c * ·) := by
  unfold linspace
  split
  · simp
  · rw [List.map_map]
    refine List.map_congr_left fun i _ => ?_
    simp only [Function.comp]
    split
    · rfl
    · rw [← mul_sub, mul_div_assoc]; ring

theorem array_in (hc : 0 < c) (a : Axis K) : (axisIn c a).array = a.array.map (List.map (c * ·)) := by
  unfold Axis.array axisIn
  simp only [mul_eq_zero, hc.ne', false_or]
  split
  · rfl
  · rw [← mul_sub, mul_div_mul_left _ _ hc.ne', linspace_in]; rfl

theorem size_in (hc : 0 < c) (a : Axis K) : (axisIn c a).size = a.size := by
  unfold Axis.size
  rw [array_in hc]
  cases a.array <;> simp [Except.map]

theorem make_in (hc : 0 < c) (a : Axis K) (y : List V) : Rel.make (axisIn c a) y = (Rel.make a y).map (relIn c) := by
  unfold Rel.make
  rw [size_in hc, except_bind_map]
  refine except_bind_congr fun n _ => ?_
  split <;> rfl

theorem sort_in (hc : 0 < c) (l : List (K × V)) :
    (l.map (fun p => (c * p.1, p.2))).insertionSort (fun p q => p.1 ≤ q.1) =
      (l.insertionSort (fun p q => p.1 ≤ q.1)).map (fun p => (c * p.1, p.2)) := by
  symm
  apply List.map_insertionSort
  intro a _ b _
  simp [mul_le_mul_iff_right₀ hc]

theorem interpAt_in (hc : 0 < c) (x : List K) (y : List V) (t : K) : interpAt (x.map (c * ·)) y (c * t) = interpAt x y t := by
  have hn : (x.map (c * ·)).countP (fun s => decide (s ≤ c * t)) = x.countP (fun s => decide (s ≤ t)) := by
    rw [List.countP_map]
    refine List.countP_congr fun s _ => ?_
    simp [mul_le_mul_iff_right₀ hc]
  unfold interpAt
  rw [List.head?_map, List.getLast?_map, hn, List.length_map]
  rcases hx : x.head? with _ | x0
  · rfl
  rcases hl : x.getLast? with _ | xl
  · rfl
  have hlen : 0 < x.length := by
    cases x with
    | nil => simp at hx
    | cons => simp
  have hj : x.countP (fun s => decide (s ≤ t)) ≤ x.length := List.countP_le_length
  have hat : ∀ i, i < x.length → at0 (x.map (c * ·)) i = c * at0 x i := by
    intro i hi
    simp [at0, List.getD, hi]
  simp only [Option.map_some, mul_lt_mul_iff_right₀ hc]
  split
  · rfl
  split
  · rfl
  split
  · rfl
  · rename_i hne
    rw [hat _ (by omega), hat _ (by omega), ← mul_sub, ← mul_sub, smul_smul, smul_smul, mul_inv, ← mul_assoc, mul_right_comm c,
      mul_inv_cancel₀ hc.ne', one_mul]

theorem interp1d_in (hc : 0 < c) (x : List K) (y : List V) (xs : List K) :
    interp1d (x.map (c * ·)) y (xs.map (c * ·)) = interp1d x y xs := by
  unfold interp1d
  rw [List.length_map]
  split
  · rfl
  split
  · rfl
  · have e : (x.map (c * ·)).zip y = (x.zip y).map (fun p => (c * p.1, p.2)) := by rw [List.zip_map_left]; rfl
    rw [e, sort_in hc]
    simp only [List.map_map]
    congr 1
    refine List.map_congr_left fun t _ => ?_
    have h1 : (Prod.fst ∘ fun p : K × V => (c * p.1, p.2)) = (c * ·) ∘ Prod.fst := rfl
    have h2 : (Prod.snd ∘ fun p : K × V => (c * p.1, p.2)) = Prod.snd := rfl
    rw [h1, h2, ← List.map_map]
    exact interpAt_in hc _ _ t

theorem interpAxis_in (hc : 0 < c) (r : Rel K V) (a : Axis K) :
    (relIn c r).interpAxis (axisIn c a) = (r.interpAxis a).map (relIn c) := by
  unfold Rel.interpAxis
  show ((axisIn c r.x).array >>= _) = _
  rw [array_in hc, array_in hc, except_map_bind, except_bind_map]
  refine except_bind_congr fun x _ => ?_
  rw [except_map_bind, except_bind_map]
  refine except_bind_congr fun xs _ => ?_
  show (interp1d (x.map (c * ·)) r.y (xs.map (c * ·)) >>= _) = _
  rw [interp1d_in hc, except_bind_map]
  exact except_bind_congr fun y _ => make_in hc a y

theorem commonX_in (hc : 0 < c) (a b : Axis K) : commonX (axisIn c a) (axisIn c b) = axisIn c (commonX a b) := by
  unfold commonX axisIn
  simp only [mul_le_mul_iff_right₀ hc, ge_iff_le, Axis.mk.injEq]
  refine ⟨?_, ?_, ?_⟩ <;> split <;> rfl

theorem selectData_in (hc : 0 < c) (r : Rel K V) (s e : Option K) :
    (relIn c r).selectData (s.map (c * ·)) (e.map (c * ·)) = (r.selectData s e).map (relIn c) := by
  unfold Rel.selectData
  have g : ∀ (o : Option K) (t : K), (o.map (c * ·)).getD (c * t) = c * o.getD t := by
    intro o t; cases o <;> rfl
  show ((axisIn c r.x).array >>= _) = _
  rw [array_in hc]
  rcases r.x.array with err | x
  · rfl
  simp only [Except.map, except_bind_ok]
  have hm : ((x.map (c * ·)).map fun t => decide ((s.map (c * ·)).getD (relIn c r).x.start ≤ t) &&
      decide (t ≤ (e.map (c * ·)).getD (relIn c r).x.stop)) =
      x.map fun t => decide (s.getD r.x.start ≤ t) && decide (t ≤ e.getD r.x.stop) := by
    rw [List.map_map]
    refine List.map_congr_left fun t _ => ?_
    simp only [Function.comp, relIn, axisIn, g, mul_le_mul_iff_right₀ hc]
  rw [hm, maskSelect_map]
  generalize (x.map fun t => decide (s.getD r.x.start ≤ t) && decide (t ≤ e.getD r.x.stop)) = m
  rcases maskSelect m x with err | xs
  · rfl
  simp only [Except.map, except_bind_ok, List.head?_map, List.getLast?_map]
  rcases xs.head? with _ | a
  · rfl
  rcases xs.getLast? with _ | b
  · rfl
  simp only [Option.map_some]
  show (maskSelect m r.y >>= _) = _
  rcases maskSelect m r.y with err | y
  · rfl
  exact make_in hc ⟨a, b, r.x.sample⟩ y

theorem argminFrom_in (hc : 0 < c) (l : List K) : ∀ (i : ℕ) (b : ℕ × K),
    argminFrom i (b.1, c * b.2) (l.map (c * ·)) = argminFrom i b l := by
  induction l with
  | nil => intro i b; rfl
  | cons a l ih =>
    intro i b
    simp only [List.map_cons, argminFrom, mul_lt_mul_iff_right₀ hc]
    split
    · exact ih (i + 1) (i, a)
    · exact ih (i + 1) b

theorem argmin_in (hc : 0 < c) (l : List K) : argmin (l.map (c * ·)) = argmin l := by
  cases l with
  | nil => rfl
  | cons a l => exact congrArg Except.ok (argminFrom_in hc l 1 (0, a))

theorem getItem_in (hc : 0 < c) (r : Rel K V) (v : K) :
    (relIn c r).getItem (c * v) = (r.getItem v).map fun p => (c * p.1, p.2) := by
  unfold Rel.getItem
  show ((axisIn c r.x).array >>= _) = _
  rw [array_in hc]
  rcases r.x.array with err | x
  · rfl
  simp only [Except.map, except_bind_ok, List.map_map]
  have hm : x.map ((fun t => |t - c * v|) ∘ (c * ·)) = (x.map fun t => |t - v|).map (c * ·) := by
    rw [List.map_map]
    refine List.map_congr_left fun t _ => ?_
    simp only [Function.comp, ← mul_sub, abs_mul, abs_of_pos hc]
  rw [hm, argmin_in hc]
  rcases argmin (x.map fun t => |t - v|) with err | i
  · rfl
  simp only [except_bind_ok, List.getElem?_map, relIn]
  rcases x[i]? with _ | t
  · rfl
  rcases r.y[i]? with _ | w <;> rfl

/-- the values multiplied as well -/
theorem make_values (hc : 0 < c) (a : Axis K) (y : List V) (f : V → V) :
    Rel.make (axisIn c a) (y.map f) = (Rel.make a y).map fun q => ⟨axisIn c q.x, q.y.map f⟩ := by
  unfold Rel.make
  rw [size_in hc, except_bind_map]
  refine except_bind_congr fun n _ => ?_
  rw [List.length_map]
  split <;> rfl

theorem integrate_in (hc : 0 < c) (r : Rel K V) :
    (relIn c r).integrate = r.integrate.map fun q => ⟨axisIn c q.x, q.y.map (c • ·)⟩ := by
  unfold Rel.integrate
  simp only []
  rw [← make_values hc]
  congr 1
  · simp [relIn, axisIn, mul_add]
  · rw [List.map_map]
    exact List.map_congr_left fun v _ => mul_smul _ _ _

theorem diff_in (hc : 0 < c) (r : Rel K V) :
    (relIn c r).diff = r.diff.map fun q => ⟨axisIn c q.x, q.y.map (c⁻¹ • ·)⟩ := by
  unfold Rel.diff
  simp only []
  rw [← make_values hc]
  congr 1
  · simp [relIn, axisIn, mul_add, mul_sub, mul_div_assoc]
  · rw [List.map_map]
    refine List.map_congr_left fun v _ => ?_
    show (c * r.x.sample)⁻¹ • v = _
    rw [mul_inv, mul_smul]; rfl

theorem exp_in (hc : 0 < c) (f : V → V) (r : Rel K V) : (relIn c r).exp f = (r.exp f).map (relIn c) := make_in hc _ _

theorem shift_in (hc : 0 < c) (r : Rel K V) (d : K) : (relIn c r).shift (c * d) = (r.shift d).map (relIn c) := by
  unfold Rel.shift
  rw [← make_in hc]
  congr 1
  simp [relIn, axisIn, mul_add]

theorem npDiff_in (x : List K) : npDiff (x.map (c * ·)) = (npDiff x).map (c * ·) := by
  unfold npDiff
  rw [← List.map_tail, List.zipWith_map, List.map_zipWith]
  simp only [mul_sub]

theorem trapz_in (y : List V) (x : List K) : trapz y (x.map (c * ·)) = c • trapz y x := by
  unfold trapz
  rw [npDiff_in, List.zipWith_map_left, List.smul_sum, List.map_zipWith]
  simp only [mul_smul]

theorem oneIntegrate_in (hc : 0 < c) (r : Rel K V) : (relIn c r).oneIntegrate = r.oneIntegrate.map (c • ·) := by
  unfold Rel.oneIntegrate Rel.getData
  show ((axisIn c r.x).size >>= _ >>= _) = _
  rw [size_in hc]
  rcases r.x.size with err | n
  · rfl
  simp only [except_bind_ok]
  show ((if n ≠ r.y.length then _ else _) >>= _) = _
  split
  · rfl
  · show (((axisIn c r.x).array >>= _) >>= _) = _
    rw [array_in hc]
    rcases r.x.array with err | x
    · rfl
    · exact congrArg Except.ok (trapz_in r.y x)

theorem equalize_in (hc : 0 < c) (same : Bool) (a b : Rel K V) :
    Rel.equalize same (relIn c a) (relIn c b) = (Rel.equalize same a b).map fun p => (relIn c p.1, relIn c p.2) := by
  unfold Rel.equalize
  cases same with
  | true => rfl
  | false =>
    simp only [Bool.false_eq_true, if_false]
    have e : commonX (relIn c a).x (relIn c b).x = axisIn c (commonX a.x b.x) := commonX_in hc _ _
    rw [e, interpAxis_in hc, interpAxis_in hc, except_map_bind, except_bind_map]
    refine except_bind_congr fun q1 _ => ?_
    rw [except_map_bind, except_bind_map]
    exact except_bind_congr fun q2 _ => rfl

variable [DecidableEq V] [PyPow V]

theorem operation_rel_in (hc : 0 < c) (same : Bool) (a b : Rel K V) (op : MathOp) :
    (relIn c a).operation (.rel same (relIn c b)) op = (a.operation (.rel same b) op).map (relIn c) := by
  unfold Rel.operation
  simp only []
  rw [equalize_in hc, except_map_bind, except_bind_map]
  refine except_bind_congr fun p _ => ?_
  rw [except_bind_map]
  exact except_bind_congr fun y _ => make_in hc p.1.x y

theorem operation_other_in (hc : 0 < c) (a : Rel K V) (o : NpOperand V) (op : MathOp) :
    (relIn c a).operation (.other o) op = (a.operation (.other o) op).map (relIn c) := by
  unfold Rel.operation
  simp only []
  rw [except_bind_map]
  exact except_bind_congr fun y _ => make_in hc a.x y

theorem getNorm_in (hc : 0 < c) (r : Rel K V) : (relIn c r).getNorm = r.getNorm := by
  unfold Rel.getNorm Rel.pow
  rw [operation_other_in hc, except_map_bind]
  refine except_bind_congr fun q _ => ?_
  rw [oneIntegrate_in hc, except_map_bind]
  refine except_bind_congr fun i _ => ?_
  show Except.ok ((c * r.x.sample)⁻¹ • c • i) = Except.ok _
  rw [smul_smul, mul_inv, mul_right_comm, inv_mul_cancel₀ hc.ne', one_mul]

theorem alignForConv_in (hc : 0 < c) (a b : Rel K V) :
    Rel.alignForConv (relIn c a) (relIn c b) =
      (Rel.alignForConv a b).map fun p => (relIn c p.1, relIn c p.2.1, axisIn c p.2.2) := by
  unfold Rel.alignForConv
  have e : ∀ r : Rel K V, (relIn c r).shift (-(relIn c r).x.start) = (r.shift (-r.x.start)).map (relIn c) := by
    intro r
    rw [← shift_in hc]
    congr 1
    show -(c * r.x.start) = _
    ring
  rw [e, e, except_map_bind, except_bind_map]
  refine except_bind_congr fun q1 _ => ?_
  rw [except_map_bind, except_bind_map]
  refine except_bind_congr fun q2 _ => ?_
  rw [equalize_in hc, except_map_bind, except_bind_map]
  refine except_bind_congr fun p _ => ?_
  show Except.ok _ = Except.ok _
  simp [relIn, axisIn]

theorem convolve_in (hc : 0 < c) (a b : Rel K V) : (relIn c a).convolve (relIn c b) = (a.convolve b).map (relIn c) := by
  unfold Rel.convolve
  rw [alignForConv_in hc, except_map_bind, except_bind_map]
  exact except_bind_congr fun p _ => make_in hc _ _

theorem correlate_in [Star V] (hc : 0 < c) (a b : Rel K V) :
    (relIn c a).correlate (relIn c b) = (a.correlate b).map (relIn c) := by
  unfold Rel.correlate
  rw [alignForConv_in hc, except_map_bind, except_bind_map]
  exact except_bind_congr fun p _ => make_in hc _ _

end

/-! ## signals and spectra -/

section
variable {c : ℝ}

open Spec

/-- the optional argument of the transforms in another unit -/
noncomputable def Spec.argIn (c : ℝ) : SizeArg → SizeArg
  | .none => .none
  | .int k => .int k
  | .axis a => .axis (axisIn c a)

theorem argSize_in (hc : 0 < c) (a : SizeArg) : (argIn c a).size = a.size := by
  cases a with
  | none => rfl
  | int => rfl
  | axis a => show ((axisIn c a).size >>= _) = (a.size >>= _); rw [size_in hc]

theorem reorderByTime_in (hc : 0 < c) (t : Axis ℝ) (a : List ℝ) : reorderByTime (axisIn c t) a = reorderByTime t a := by
  unfold reorderByTime
  rw [array_in hc, except_map_bind]
  refine except_bind_congr fun x _ => ?_
  simp only [List.map_map]
  have h1 : x.map ((fun v => decide (0 ≤ v)) ∘ (c * ·)) = x.map fun v => decide (0 ≤ v) :=
    List.map_congr_left fun v _ => by simp [mul_nonneg_iff_of_pos_left hc]
  have h2 : x.map ((fun v => decide (v < 0)) ∘ (c * ·)) = x.map fun v => decide (v < 0) :=
    List.map_congr_left fun v _ => by simp [mul_neg_iff, hc, hc.not_gt]
  rw [h1, h2]

theorem foldl_min_in (hc : 0 < c) (l : List ℝ) : ∀ a, (l.map (c * ·)).foldl min (c * a) = c * l.foldl min a := by
  induction l with
  | nil => intro a; rfl
  | cons b l ih =>
    intro a
    rw [List.map_cons, List.foldl_cons, List.foldl_cons, ← mul_min_of_nonneg _ _ hc.le, ih]

theorem axisFromArray_in (hc : 0 < c) (x : List ℝ) (b : Bool) :
    axisFromArray (x.map (c * ·)) b false = (axisFromArray x b false).map (axisIn c) := by
  unfold axisFromArray getActualSample
  rw [npDiff_in]
  have e : npMin ((npDiff x).map (c * ·)) = (npMin (npDiff x)).map (c * ·) := by
    cases npDiff x with
    | nil => rfl
    | cons a l => exact congrArg Except.ok (foldl_min_in hc l a)
  rw [e, except_map_bind, except_bind_map]
  refine except_bind_congr fun d _ => ?_
  simp only [Bool.false_and, Bool.false_eq_true, if_false, except_pure, except_bind_ok, List.head?_map, List.getLast?_map]
  rcases x.head? with _ | s
  · rfl
  rcases x.getLast? with _ | e <;> rfl

theorem rfftfreq_in (n : ℕ) (d : ℝ) : rfftfreq n (c * d) = (rfftfreq n d).map (c⁻¹ * ·) := by
  unfold rfftfreq
  rw [List.map_map]
  refine List.map_congr_left fun k _ => ?_
  simp only [Function.comp, one_div, mul_inv]
  ring

theorem calculateSpectrum_in (hc : 0 < c) (t : Axis ℝ) (a : List ℝ) (f : SizeArg) :
    calculateSpectrum (axisIn c t) a (argIn c⁻¹ f) = (calculateSpectrum t a f).map fun p => (axisIn c⁻¹ p.1, p.2) := by
  have hi : 0 < c⁻¹ := inv_pos.2 hc
  unfold calculateSpectrum
  rw [argSize_in hi, reorderByTime_in hc, except_bind_map]
  refine except_bind_congr fun n _ => ?_
  rw [except_bind_map]
  refine except_bind_congr fun y _ => ?_
  rw [except_bind_map]
  refine except_bind_congr fun sp _ => ?_
  have k : (axisFromArray (rfftfreq y.length (axisIn c t).sample) true false >>= fun f => Except.ok (f, sp)) =
      (axisFromArray (rfftfreq y.length t.sample) true false >>= fun f => Except.ok (f, sp)).map
        fun p : Axis ℝ × List ℂ => (axisIn c⁻¹ p.1, p.2) := by
    show (axisFromArray (rfftfreq y.length (c * t.sample)) true false >>= _) = _
    rw [rfftfreq_in, axisFromArray_in hi, except_map_bind, except_bind_map]
    exact except_bind_congr fun _ _ => rfl
  cases f with
  | none => exact k
  | int => exact k
  | axis a => rfl

theorem signal2spectrum_in (hc : 0 < c) (r : Rel ℝ ℝ) (f : SizeArg) (z : Bool) :
    signal2spectrum (relIn c r) (argIn c⁻¹ f) z = (signal2spectrum r f z).map fun p => (axisIn c⁻¹ p.1, p.2) := by
  unfold signal2spectrum
  have e1 : ({ (relIn c r).x with start := 0 } : Axis ℝ) = axisIn c { r.x with start := 0 } := by simp [relIn, axisIn]
  have e2 : ({ (relIn c r).x with stop := 0 } : Axis ℝ) = axisIn c { r.x with stop := 0 } := by simp [relIn, axisIn]
  have p1 : 0 < (relIn c r).x.start ↔ 0 < r.x.start := by simp [relIn, axisIn, hc]
  have p2 : (relIn c r).x.stop < 0 ↔ r.x.stop < 0 := by simp [relIn, axisIn, mul_neg_iff, hc, hc.not_gt]
  simp only [p1, p2, e1, e2, size_in hc]
  split
  · exact calculateSpectrum_in hc _ _ _
  split
  · rw [except_bind_map]
    refine except_bind_congr fun n _ => ?_
    rw [except_bind_map]
    exact except_bind_congr fun z _ => calculateSpectrum_in hc _ _ _
  split
  · rw [except_bind_map]
    refine except_bind_congr fun n _ => ?_
    rw [except_bind_map]
    exact except_bind_congr fun z _ => calculateSpectrum_in hc _ _ _
  · exact calculateSpectrum_in hc _ _ _

theorem getSpectrum_in (hc : 0 < c) (r : Rel ℝ ℝ) (f : SizeArg) (z : Bool) :
    (relIn c r).getSpectrum (argIn c⁻¹ f) z = (r.getSpectrum f z).map (relIn c⁻¹) := by
  unfold Rel.getSpectrum
  rw [signal2spectrum_in hc, except_map_bind, except_bind_map]
  exact except_bind_congr fun p _ => make_in (inv_pos.2 hc) _ _

theorem spectrum2signal_in (hc : 0 < c) (r : Rel ℝ ℂ) (t : SizeArg) (t0 : Option ℝ) :
    spectrum2signal (relIn c⁻¹ r) (argIn c t) (t0.map (c * ·)) = (spectrum2signal r t t0).map fun p => (axisIn c p.1, p.2) := by
  have e : (relIn c⁻¹ r).x.stop - (relIn c⁻¹ r).x.start = c⁻¹ * (r.x.stop - r.x.start) := by
    simp [relIn, axisIn, mul_sub]
  have g : (t0.map (c * ·)).getD 0 = c * t0.getD 0 := by cases t0 <;> simp
  have fin : ∀ (a : Axis ℝ) (y : List ℝ), (reorderByTime (axisIn c a) y >>= fun v => (Except.ok (axisIn c a, v) : Except Err _)) =
      (reorderByTime a y >>= fun v => (Except.ok (a, v) : Except Err _)).map fun p => (axisIn c p.1, p.2) := by
    intro a y
    rw [reorderByTime_in hc, except_bind_map]
    rfl
  have hd : 1 / (2 * (c⁻¹ * (r.x.stop - r.x.start))) = c * (1 / (2 * (r.x.stop - r.x.start))) := by
    have := hc.ne'
    rw [one_div, one_div, mul_inv, mul_inv, mul_inv, inv_inv]; ring
  have ax : ∀ n : ℕ, (⟨c * t0.getD 0, c * t0.getD 0 + ((n : ℝ) - 1) * (c * (1 / (2 * (r.x.stop - r.x.start)))),
      c * (1 / (2 * (r.x.stop - r.x.start)))⟩ : Axis ℝ) =
      axisIn c ⟨t0.getD 0, t0.getD 0 + ((n : ℝ) - 1) * (1 / (2 * (r.x.stop - r.x.start))), 1 / (2 * (r.x.stop - r.x.start))⟩ := by
    intro n
    simp only [axisIn, Axis.mk.injEq]
    exact ⟨trivial, by ring, trivial⟩
  unfold spectrum2signal
  rw [argSize_in hc]
  rcases t.size with err | n
  · rfl
  simp only [except_bind_ok]
  show (irfft r.y n >>= _) = _
  rcases irfft r.y n with err | y
  · rfl
  simp only [except_bind_ok]
  have k : (if (relIn c⁻¹ r).x.stop - (relIn c⁻¹ r).x.start = 0 then
        (Except.error Err.zeroDivision >>= fun a => reorderByTime a y >>= fun v => (Except.ok (a, v) : Except Err _))
      else ((Except.ok ⟨(t0.map (c * ·)).getD 0, (t0.map (c * ·)).getD 0 + ((y.length : ℝ) - 1) *
        (1 / (2 * ((relIn c⁻¹ r).x.stop - (relIn c⁻¹ r).x.start))), 1 / (2 * ((relIn c⁻¹ r).x.stop - (relIn c⁻¹ r).x.start))⟩ :
        Except Err (Axis ℝ)) >>= fun a => reorderByTime a y >>= fun v => (Except.ok (a, v) : Except Err _))) =
      Except.map (fun p => (axisIn c p.1, p.2)) (if r.x.stop - r.x.start = 0 then
        (Except.error Err.zeroDivision >>= fun a => reorderByTime a y >>= fun v => (Except.ok (a, v) : Except Err _))
      else ((Except.ok ⟨t0.getD 0, t0.getD 0 + ((y.length : ℝ) - 1) * (1 / (2 * (r.x.stop - r.x.start))),
        1 / (2 * (r.x.stop - r.x.start))⟩ : Except Err (Axis ℝ)) >>= fun a => reorderByTime a y >>= fun v =>
          (Except.ok (a, v) : Except Err _))) := by
    rw [e, g, hd, ax]
    simp only [mul_eq_zero, inv_eq_zero, hc.ne', false_or]
    split
    · rfl
    · exact fin _ y
  cases t with
  | none => exact k
  | int => exact k
  | axis a => exact fin a y

theorem getSignal_in (hc : 0 < c) (r : Rel ℝ ℂ) (t : SizeArg) (t0 : Option ℝ) :
    (relIn c⁻¹ r).getSignal (argIn c t) (t0.map (c * ·)) = (r.getSignal t t0).map (relIn c) := by
  unfold Rel.getSignal
  rw [spectrum2signal_in hc, except_map_bind, except_bind_map]
  exact except_bind_congr fun p _ => make_in hc _ _

theorem getAmp_in (hc : 0 < c) (r : Rel ℝ ℂ) : (relIn c r).getAmpSpectrum = r.getAmpSpectrum.map (relIn c) := make_in hc _ _

theorem getPhase_in (hc : 0 < c) (r : Rel ℝ ℂ) : (relIn c r).getPhaseSpectrum = r.getPhaseSpectrum.map (relIn c) := make_in hc _ _

theorem fromAmpPhase_in (hc : 0 < c) (a p : Rel ℝ ℝ) :
    Rel.fromAmpPhase (relIn c a) (relIn c p) = (Rel.fromAmpPhase a p).map (relIn c) := by
  unfold Rel.fromAmpPhase
  show ((relIn c p.toComplex).operation _ _ >>= _) = _
  rw [operation_other_in hc, except_map_bind, except_bind_map]
  refine except_bind_congr fun q _ => ?_
  rw [exp_in hc, except_map_bind, except_bind_map]
  refine except_bind_congr fun e _ => ?_
  show ((relIn c a.toComplex).operation _ _ >>= _) = _
  rw [operation_rel_in hc, except_map_bind, except_bind_map]
  exact except_bind_congr fun m _ => rfl

theorem phases_in (hc : 0 < c) (op : MathOp) (r o : Rel ℝ ℂ) :
    ((relIn c r).getAmpSpectrum >>= fun amp => (relIn c r).getPhaseSpectrum >>= fun p1 => (relIn c o).getPhaseSpectrum >>= fun p2 =>
      p1.operation (.rel false p2) op >>= fun p => Rel.fromAmpPhase amp p) =
    (r.getAmpSpectrum >>= fun amp => r.getPhaseSpectrum >>= fun p1 => o.getPhaseSpectrum >>= fun p2 =>
      p1.operation (.rel false p2) op >>= fun p => Rel.fromAmpPhase amp p).map (relIn c) := by
  rw [getAmp_in hc, except_map_bind, except_bind_map]
  refine except_bind_congr fun amp _ => ?_
  rw [getPhase_in hc, except_map_bind, except_bind_map]
  refine except_bind_congr fun p1 _ => ?_
  rw [getPhase_in hc, except_map_bind, except_bind_map]
  refine except_bind_congr fun p2 _ => ?_
  rw [operation_rel_in hc, except_map_bind, except_bind_map]
  exact except_bind_congr fun p _ => fromAmpPhase_in hc _ _

theorem addPhase_in (hc : 0 < c) (r o : Rel ℝ ℂ) : (relIn c r).addPhase (relIn c o) = (r.addPhase o).map (relIn c) :=
  phases_in hc .add r o

theorem subPhase_in (hc : 0 < c) (r o : Rel ℝ ℂ) : (relIn c r).subPhase (relIn c o) = (r.subPhase o).map (relIn c) :=
  phases_in hc .sub r o

theorem getReverseFilter_in (hc : 0 < c) (r : Rel ℝ ℂ) (pc : ℝ) (b : Bool) (s e : Option ℝ) :
    (relIn c r).getReverseFilter pc b (s.map (c * ·)) (e.map (c * ·)) = (r.getReverseFilter pc b s e).map (relIn c) := by
  unfold Rel.getReverseFilter Rel.add Rel.rtruediv Rel.rmul
  rw [selectData_in hc, except_map_bind, except_bind_map]
  refine except_bind_congr fun sp _ => ?_
  rw [getAmp_in hc, except_map_bind, except_bind_map]
  refine except_bind_congr fun ab _ => ?_
  show (ab.max >>= _) = _
  rw [except_bind_map]
  refine except_bind_congr fun m _ => ?_
  rw [operation_other_in hc, except_map_bind, except_bind_map]
  refine except_bind_congr fun q1 _ => ?_
  rw [operation_other_in hc, except_map_bind, except_bind_map]
  refine except_bind_congr fun q2 _ => ?_
  rw [getPhase_in hc, except_map_bind, except_bind_map]
  refine except_bind_congr fun p _ => ?_
  rw [operation_other_in hc, except_map_bind, except_bind_map]
  exact except_bind_congr fun p' _ => fromAmpPhase_in hc _ _

theorem getSpectrum_in0 (hc : 0 < c) (r : Rel ℝ ℝ) : (relIn c r).getSpectrum = r.getSpectrum.map (relIn c⁻¹) :=
  getSpectrum_in hc r .none false

/-- back to a signal on the axis of the signal -/
theorem back_in (hc : 0 < c) (r : Rel ℝ ℝ) (sp : Rel ℝ ℂ) :
    ((relIn c⁻¹ sp).getSignal (.axis (relIn c r).x) >>= fun s => Rel.init (.rel s) none) =
      (sp.getSignal (.axis r.x) >>= fun s => Rel.init (.rel s) none).map (relIn c) := by
  have := getSignal_in hc sp (.axis r.x) none
  rw [show (.axis (relIn c r).x : SizeArg) = argIn c (.axis r.x) from rfl]
  rw [show (none : Option ℝ) = none.map (c * ·) from rfl, this, except_map_bind, except_bind_map]
  rfl

theorem signalAddPhase_in (hc : 0 < c) (r : Rel ℝ ℝ) (o : Rel ℝ ℂ) :
    (relIn c r).signalAddPhase (relIn c⁻¹ o) = (r.signalAddPhase o).map (relIn c) := by
  unfold Rel.signalAddPhase
  rw [getSpectrum_in0 hc, except_map_bind, except_bind_map]
  refine except_bind_congr fun sp _ => ?_
  rw [addPhase_in (inv_pos.2 hc), except_map_bind, except_bind_map]
  exact except_bind_congr fun q _ => back_in hc r q

theorem signalSubPhase_in (hc : 0 < c) (r : Rel ℝ ℝ) (o : Rel ℝ ℂ) :
    (relIn c r).signalSubPhase (relIn c⁻¹ o) = (r.signalSubPhase o).map (relIn c) := by
  unfold Rel.signalSubPhase
  rw [getSpectrum_in0 hc, except_map_bind, except_bind_map]
  refine except_bind_congr fun sp _ => ?_
  rw [subPhase_in (inv_pos.2 hc), except_map_bind, except_bind_map]
  exact except_bind_congr fun q _ => back_in hc r q

theorem getReverseSignal_in (hc : 0 < c) (r : Rel ℝ ℝ) (pc : ℝ) (b : Bool) (s e : Option ℝ) :
    (relIn c r).getReverseSignal pc b (s.map (c⁻¹ * ·)) (e.map (c⁻¹ * ·)) = (r.getReverseSignal pc b s e).map (relIn c) := by
  unfold Rel.getReverseSignal
  rw [getSpectrum_in0 hc, except_map_bind, except_bind_map]
  refine except_bind_congr fun sp _ => ?_
  rw [getReverseFilter_in (inv_pos.2 hc), except_map_bind, except_bind_map]
  exact except_bind_congr fun q _ => back_in hc r q

theorem signalShift_in (hc : 0 < c) (r : Rel ℝ ℝ) (d : ℝ) : (relIn c r).signalShift (c * d) = (r.signalShift d).map (relIn c) := by
  have hi := inv_pos.2 hc
  unfold Rel.signalShift
  rw [getSpectrum_in0 hc, except_map_bind, except_bind_map]
  refine except_bind_congr fun sp _ => ?_
  show ((axisIn c⁻¹ sp.x).array >>= _) = _
  rw [array_in hi, except_map_bind, except_bind_map]
  refine except_bind_congr fun f _ => ?_
  have e : ((f.map (c⁻¹ * ·)).map fun v : ℝ => Complex.exp (-Complex.I * v * 2 * Real.pi * (c * d : ℝ))) =
      f.map fun v : ℝ => Complex.exp (-Complex.I * v * 2 * Real.pi * d) := by
    rw [List.map_map]
    refine List.map_congr_left fun v _ => ?_
    simp only [Function.comp]
    congr 1
    push_cast
    have : (c : ℂ) ≠ 0 := by exact_mod_cast hc.ne'
    field_simp
  show (Rel.make (axisIn c⁻¹ sp.x) _ >>= _) = _
  rw [e, make_in hi, except_map_bind, except_bind_map]
  exact except_bind_congr fun q _ => signalAddPhase_in hc r q

theorem signalAlign_in (hc : 0 < c) (a b : Rel ℝ ℝ) :
    Rel.signalAlign (relIn c a) (relIn c b) =
      (Rel.signalAlign a b).map fun p => (relIn c p.1, relIn c p.2.1, axisIn c p.2.2) := by
  unfold Rel.signalAlign
  have e : ∀ r : Rel ℝ ℝ, (relIn c r).signalShift (-(relIn c r).x.start) = (r.signalShift (-r.x.start)).map (relIn c) := by
    intro r
    rw [← signalShift_in hc]
    congr 1
    show -(c * r.x.start) = _
    ring
  rw [e, e, except_map_bind, except_bind_map]
  refine except_bind_congr fun q1 _ => ?_
  rw [except_map_bind, except_bind_map]
  refine except_bind_congr fun q2 _ => ?_
  rw [equalize_in hc, except_map_bind, except_bind_map]
  refine except_bind_congr fun p _ => ?_
  show Except.ok _ = Except.ok _
  simp [relIn, axisIn]

theorem signalConvolve_in (hc : 0 < c) (a b : Rel ℝ ℝ) :
    (relIn c a).signalConvolve (relIn c b) = (a.signalConvolve b).map (relIn c) := by
  unfold Rel.signalConvolve
  rw [signalAlign_in hc, except_map_bind, except_bind_map]
  refine except_bind_congr fun p _ => ?_
  show (Rel.make (axisIn c p.2.2) _ >>= _) = _
  rw [make_in hc, except_map_bind, except_bind_map]
  rfl

theorem signalCorrelate_in (hc : 0 < c) (a b : Rel ℝ ℝ) :
    (relIn c a).signalCorrelate (relIn c b) = (a.signalCorrelate b).map (relIn c) := by
  unfold Rel.signalCorrelate
  rw [signalAlign_in hc, except_map_bind, except_bind_map]
  refine except_bind_congr fun p _ => ?_
  show (Rel.make (axisIn c p.2.2) _ >>= _) = _
  rw [make_in hc, except_map_bind, except_bind_map]
  rfl

end

/-! ## C107 -/

section
variable {K : Type} [Field K] [LinearOrder K] [IsStrictOrderedRing K] [FloorRing K]
variable {V : Type} [Field V] [Algebra K V]
open Spec

/-- **C107** An axis in another unit has as many points, at the same places in the new unit; the common axis of two axes is the common
axis in the new unit. -/
theorem C107_axis {c : K} (hc : 0 < c) (a b : Axis K) :
    (axisIn c a).size = a.size ∧ (axisIn c a).array = a.array.map (List.map (c * ·)) ∧
      commonX (axisIn c a) (axisIn c b) = axisIn c (commonX a b) :=
  ⟨size_in hc a, array_in hc a, commonX_in hc a b⟩

/-- **C107** One relation. Every method gives in the new unit what it gives in the old one: the same object with its positions
multiplied by `c` (`shift`, `select_data` and slices, item access, `exp`, `interpolate_extrapolate`, operators with a number or an array);
running integrals and `one_integrate` multiplied by `c`, derivatives divided by `c`; the same norm. An exception is the same
exception. -/
theorem C107_relation [DecidableEq V] [PyPow V] {c : K} (hc : 0 < c) (r : Rel K V) :
    (∀ y : List V, Rel.make (axisIn c r.x) y = (Rel.make r.x y).map (relIn c)) ∧
    (∀ d, (relIn c r).shift (c * d) = (r.shift d).map (relIn c)) ∧
    (∀ s e, (relIn c r).selectData (s.map (c * ·)) (e.map (c * ·)) = (r.selectData s e).map (relIn c)) ∧
    (∀ v, (relIn c r).getItem (c * v) = (r.getItem v).map fun p => (c * p.1, p.2)) ∧
    (∀ f, (relIn c r).exp f = (r.exp f).map (relIn c)) ∧
    (∀ a, (relIn c r).interpAxis (axisIn c a) = (r.interpAxis a).map (relIn c)) ∧
    (∀ o op, (relIn c r).operation (.other o) op = (r.operation (.other o) op).map (relIn c)) ∧
    (relIn c r).integrate = r.integrate.map (fun q => ⟨axisIn c q.x, q.y.map (c • ·)⟩) ∧
    (relIn c r).diff = r.diff.map (fun q => ⟨axisIn c q.x, q.y.map (c⁻¹ • ·)⟩) ∧
    (relIn c r).oneIntegrate = r.oneIntegrate.map (c • ·) ∧
    (relIn c r).getNorm = r.getNorm :=
  ⟨fun y => make_in hc r.x y, shift_in hc r, selectData_in hc r, getItem_in hc r, fun f => exp_in hc f r, interpAxis_in hc r,
    operation_other_in hc r, integrate_in hc r, diff_in hc r, oneIntegrate_in hc r, getNorm_in hc r⟩

/-- **C107** Two relations, both in the new unit: `equalize`, the operators, `convolve` and `correlate` give the old results in the new
unit. In particular the samples of a convolution do not change with the unit: the code sums products without a factor for the step. -/
theorem C107_two [DecidableEq V] [PyPow V] [Star V] {c : K} (hc : 0 < c) (a b : Rel K V) :
    (∀ same, Rel.equalize same (relIn c a) (relIn c b) = (Rel.equalize same a b).map fun p => (relIn c p.1, relIn c p.2)) ∧
    (∀ same op, (relIn c a).operation (.rel same (relIn c b)) op = (a.operation (.rel same b) op).map (relIn c)) ∧
    (relIn c a).convolve (relIn c b) = (a.convolve b).map (relIn c) ∧
    (relIn c a).correlate (relIn c b) = (a.correlate b).map (relIn c) :=
  ⟨fun same => equalize_in hc same a b, fun same op => operation_rel_in hc same a b op, convolve_in hc a b, correlate_in hc a b⟩

end

section
open Spec

/-- **C107** Spectra. The spectrum of the signal in the new unit has the old samples over frequencies divided by `c`, whatever its
size was asked to be; and back. -/
theorem C107_spectrum {c : ℝ} (hc : 0 < c) (r : Rel ℝ ℝ) (s : Rel ℝ ℂ) (a : SizeArg) :
    (∀ z, (relIn c r).getSpectrum (argIn c⁻¹ a) z = (r.getSpectrum a z).map (relIn c⁻¹)) ∧
    (∀ t0, (relIn c⁻¹ s).getSignal (argIn c a) (t0.map (c * ·)) = (s.getSignal a t0).map (relIn c)) :=
  ⟨getSpectrum_in hc r a, getSignal_in hc s a⟩

/-- **C107** Amplitudes, phases and filters of spectra in any unit. -/
theorem C107_phases {c : ℝ} (hc : 0 < c) (s o : Rel ℝ ℂ) (amp phase : Rel ℝ ℝ) :
    (relIn c s).getAmpSpectrum = s.getAmpSpectrum.map (relIn c) ∧
    (relIn c s).getPhaseSpectrum = s.getPhaseSpectrum.map (relIn c) ∧
    Rel.fromAmpPhase (relIn c amp) (relIn c phase) = (Rel.fromAmpPhase amp phase).map (relIn c) ∧
    (relIn c s).addPhase (relIn c o) = (s.addPhase o).map (relIn c) ∧
    (relIn c s).subPhase (relIn c o) = (s.subPhase o).map (relIn c) ∧
    (∀ percent sub f g, (relIn c s).getReverseFilter percent sub (f.map (c * ·)) (g.map (c * ·)) =
      (s.getReverseFilter percent sub f g).map (relIn c)) :=
  ⟨getAmp_in hc s, getPhase_in hc s, fromAmpPhase_in hc amp phase, addPhase_in hc s o, subPhase_in hc s o, getReverseFilter_in hc s⟩

/-- **C107** Signals: adding and subtracting phases, shifting through the spectrum, inverse signals, convolution and correlation. -/
theorem C107_signal {c : ℝ} (hc : 0 < c) (r q : Rel ℝ ℝ) (o : Rel ℝ ℂ) :
    (relIn c r).signalAddPhase (relIn c⁻¹ o) = (r.signalAddPhase o).map (relIn c) ∧
    (relIn c r).signalSubPhase (relIn c⁻¹ o) = (r.signalSubPhase o).map (relIn c) ∧
    (∀ d, (relIn c r).signalShift (c * d) = (r.signalShift d).map (relIn c)) ∧
    (∀ percent sub f g, (relIn c r).getReverseSignal percent sub (f.map (c⁻¹ * ·)) (g.map (c⁻¹ * ·)) =
      (r.getReverseSignal percent sub f g).map (relIn c)) ∧
    (relIn c r).signalConvolve (relIn c q) = (r.signalConvolve q).map (relIn c) ∧
    (relIn c r).signalCorrelate (relIn c q) = (r.signalCorrelate q).map (relIn c) :=
  ⟨signalAddPhase_in hc r o, signalSubPhase_in hc r o, signalShift_in hc r, getReverseSignal_in hc r, signalConvolve_in hc r q,
    signalCorrelate_in hc r q⟩

end

/-- **C107** The constructor from an array of floats is outside this: it rounds the step, to an integer from 1 up and to one over an
integer below. 0, 1.5, 3, 4.5 seconds give an axis of step 2 on which four samples do not fit; the same array in milliseconds gives the
step 1500 and a relation with all four. Without the rounding the axis follows the unit. -/
theorem C107_array_witness :
    (Rel.init (.array [0, 3/2, 3, 9/2] true) (some [1, 2, 3, 4]) : Except Err (Rel ℚ ℚ)) = .error (.notEqual 3 4) ∧
    (Rel.init (.array [0, 1500, 3000, 4500] true) (some [1, 2, 3, 4]) : Except Err (Rel ℚ ℚ)) = .ok ⟨⟨0, 4500, 1500⟩, [1, 2, 3, 4]⟩ ∧
    ∀ {c : ℝ}, 0 < c → ∀ (x : List ℝ) (isFloat : Bool),
      axisFromArray (x.map (c * ·)) isFloat false = (axisFromArray x isFloat false).map (Spec.axisIn c) :=
  ⟨by decide +kernel, by decide +kernel, fun hc x b => axisFromArray_in hc x b⟩

/-- seconds and milliseconds: a ramp on 0, 1/2, 1 s and its integral, derivative, item, selection and convolution -/
example : Spec.relIn 1000 (⟨⟨0, 1, 1/2⟩, [1, 3, 5]⟩ : Rel ℚ ℚ) = ⟨⟨0, 1000, 500⟩, [1, 3, 5]⟩ ∧
    (⟨⟨0, 1, 1/2⟩, [1, 3, 5]⟩ : Rel ℚ ℚ).integrate = .ok ⟨⟨1/2, 1, 1/2⟩, [1, 3]⟩ ∧
    (⟨⟨0, 1000, 500⟩, [1, 3, 5]⟩ : Rel ℚ ℚ).integrate = .ok ⟨⟨500, 1000, 500⟩, [1000, 3000]⟩ ∧
    (⟨⟨0, 1, 1/2⟩, [1, 3, 5]⟩ : Rel ℚ ℚ).diff = .ok ⟨⟨1/4, 3/4, 1/2⟩, [4, 4]⟩ ∧
    (⟨⟨0, 1000, 500⟩, [1, 3, 5]⟩ : Rel ℚ ℚ).diff = .ok ⟨⟨250, 750, 500⟩, [1/250, 1/250]⟩ ∧
    (⟨⟨0, 1, 1/2⟩, [1, 3, 5]⟩ : Rel ℚ ℚ).getItem (2/3) = .ok (1/2, 3) ∧
    (⟨⟨0, 1000, 500⟩, [1, 3, 5]⟩ : Rel ℚ ℚ).getItem (2000/3) = .ok (500, 3) ∧
    (⟨⟨0, 1000, 500⟩, [1, 3, 5]⟩ : Rel ℚ ℚ).convolve ⟨⟨0, 500, 500⟩, [1, 2]⟩ = .ok ⟨⟨-1000, 1000, 500⟩, [1, 5, 11, 10, 0]⟩ := by
  refine ⟨?_, ?_, ?_, ?_, ?_, ?_, ?_, ?_⟩ <;> decide +kernel

end SweepDesign
