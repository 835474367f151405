import Verif.Props.Arithmetic
import Verif.Props.Convolution

/-!
# C102 Moving a relation in time and then working with it is working with it and then moving the result

`r.shift(d)` moves the axis by `d`. Calculus, selection, indexing, interpolation and arithmetic commute with it, errors
included. Convolution and correlation do not depend on where their operands are at all.
-/

set_option linter.unusedSectionVars false

namespace SweepDesign

open Spec

section
variable {K : Type} [Field K] [LinearOrder K] [IsStrictOrderedRing K] [FloorRing K]
variable {V : Type} [Field V] [Algebra K V]

/-! ## Machinery -/

/-- the axis moved by `d` -/
def Axis.mv (d : K) (a : Axis K) : Axis K := ⟨a.start + d, a.stop + d, a.sample⟩

def Rel.mv (d : K) (r : Rel K V) : Rel K V := ⟨r.x.mv d, r.y⟩

theorem linspace_mv (a b d : K) (n : ℕ) : linspace (a + d) (b + d) n = (linspace a b n).map (· + d) := by
  unfold linspace
  split
  · simp
  · rw [List.map_map]
    refine List.map_congr_left fun i _ => ?_
    simp only [Function.comp, add_sub_add_right_eq_sub]
    split
    · rfl
    · ring

theorem array_mv (d : K) (a : Axis K) : (a.mv d).array = a.array.map (List.map (· + d)) := by
  unfold Axis.array Axis.mv
  simp only [add_sub_add_right_eq_sub]
  split
  · rfl
  · rw [linspace_mv]; rfl

theorem size_mv (d : K) (a : Axis K) : (a.mv d).size = a.size := by
  unfold Axis.size
  rw [array_mv]
  cases a.array <;> simp [Except.map]

theorem make_mv (d : K) (a : Axis K) (y : List V) : (Rel.make a y >>= fun q => q.shift d) = Rel.make (a.mv d) y := by
  unfold Rel.make
  rw [size_mv]
  rcases hn : a.size with e | n
  · rfl
  · simp only [except_bind_ok]
    split
    · rfl
    · rename_i h
      simp only [not_not] at h
      show Rel.make (a.mv d) y = _
      exact make_ok (by rw [size_mv, hn, h])

theorem shift_mv {r : Rel K V} {d : K} {q : Rel K V} (h : r.shift d = .ok q) : q = r.mv d :=
  ((make_ok_iff _ _ _).1 h).2

theorem pairs_mv (d : K) (x : List K) (y : List V) :
    (x.map (· + d)).zip y = (x.zip y).map (fun p => (p.1 + d, p.2)) := by
  rw [List.zip_map_left]; rfl

theorem sort_mv (d : K) (l : List (K × V)) :
    (l.map (fun p => (p.1 + d, p.2))).insertionSort (fun p q => p.1 ≤ q.1) =
      (l.insertionSort (fun p q => p.1 ≤ q.1)).map (fun p => (p.1 + d, p.2)) := by
  symm
  apply List.map_insertionSort
  intro a _ b _
  simp

theorem interpAt_mv (d : K) (x : List K) (y : List V) (t : K) : interpAt (x.map (· + d)) y (t + d) = interpAt x y t := by
  have hc : (x.map (· + d)).countP (fun s => decide (s ≤ t + d)) = x.countP (fun s => decide (s ≤ t)) := by
    rw [List.countP_map]
    refine List.countP_congr fun s _ => ?_
    simp
  unfold interpAt
  rw [List.head?_map, List.getLast?_map, hc, List.length_map]
  rcases hx : x.head? with _ | x0
  · rfl
  rcases hl : x.getLast? with _ | xl
  · rfl
  have hlen : 0 < x.length := by
    cases x with
    | nil => simp at hx
    | cons => simp
  have hj : x.countP (fun s => decide (s ≤ t)) ≤ x.length := List.countP_le_length
  have hat : ∀ i, i < x.length → at0 (x.map (· + d)) i = at0 x i + d := by
    intro i hi
    simp [at0, List.getD, hi]
  simp only [Option.map_some, add_lt_add_iff_right]
  split
  · rfl
  split
  · rfl
  split
  · rfl
  · rename_i hne
    rw [hat _ (by omega), hat _ (by omega), add_sub_add_right_eq_sub, add_sub_add_right_eq_sub]

theorem interp1d_mv (d : K) (x : List K) (y : List V) (xs : List K) :
    interp1d (x.map (· + d)) y (xs.map (· + d)) = interp1d x y xs := by
  unfold interp1d
  rw [List.length_map]
  split
  · rfl
  split
  · rfl
  · rw [pairs_mv, sort_mv]
    simp only [List.map_map]
    congr 1
    refine List.map_congr_left fun t _ => ?_
    have h1 : (Prod.fst ∘ fun p : K × V => (p.1 + d, p.2)) = (· + d) ∘ Prod.fst := rfl
    have h2 : (Prod.snd ∘ fun p : K × V => (p.1 + d, p.2)) = Prod.snd := rfl
    rw [h1, h2, ← List.map_map]
    exact interpAt_mv d _ _ t

theorem interpAxis_mv (d : K) (r : Rel K V) (a : Axis K) :
    (r.mv d).interpAxis (a.mv d) = (r.interpAxis a >>= fun q => q.shift d) := by
  unfold Rel.interpAxis
  show ((r.x.mv d).array >>= _) = _
  rw [array_mv, array_mv]
  rcases r.x.array with e | x
  · rfl
  rcases a.array with e | xs
  · rfl
  simp only [Except.map, except_bind_ok]
  show (interp1d (x.map (· + d)) r.y (xs.map (· + d)) >>= _) = _
  rw [interp1d_mv]
  rcases interp1d x r.y xs with e | y
  · rfl
  simp only [except_bind_ok]
  exact (make_mv d a y).symm

theorem commonX_mv (d : K) (a b : Axis K) : commonX (a.mv d) (b.mv d) = (commonX a b).mv d := by
  unfold commonX Axis.mv
  simp only [add_le_add_iff_right, ge_iff_le, Axis.mk.injEq]
  refine ⟨?_, ?_, trivial⟩ <;> split <;> rfl

theorem maskSelect_map {α β : Type} (f : α → β) (m : List Bool) (l : List α) :
    maskSelect m (l.map f) = (maskSelect m l).map (List.map f) := by
  unfold maskSelect
  rw [List.length_map]
  split
  · rw [List.zip_map_left, List.filterMap_map]
    show Except.ok _ = Except.ok _
    congr 1
    rw [List.map_filterMap]
    refine List.filterMap_congr fun p _ => ?_
    rcases p with ⟨a, b⟩
    cases b <;> rfl
  · rfl

theorem selectData_mv (d : K) (r : Rel K V) (s e : Option K) :
    (r.mv d).selectData (s.map (· + d)) (e.map (· + d)) = (r.selectData s e >>= fun q => q.shift d) := by
  unfold Rel.selectData
  have g : ∀ (o : Option K) (t : K), (o.map (· + d)).getD (t + d) = o.getD t + d := by
    intro o t; cases o <;> rfl
  show ((r.x.mv d).array >>= _) = _
  rw [array_mv]
  rcases r.x.array with err | x
  · rfl
  simp only [Except.map, except_bind_ok]
  have hm : ((x.map (· + d)).map fun t => decide ((s.map (· + d)).getD (r.mv d).x.start ≤ t) &&
      decide (t ≤ (e.map (· + d)).getD (r.mv d).x.stop)) =
      x.map fun t => decide (s.getD r.x.start ≤ t) && decide (t ≤ e.getD r.x.stop) := by
    rw [List.map_map]
    refine List.map_congr_left fun t _ => ?_
    simp only [Function.comp, Rel.mv, Axis.mv, g, add_le_add_iff_right]
  rw [hm, maskSelect_map]
  generalize (x.map fun t => decide (s.getD r.x.start ≤ t) && decide (t ≤ e.getD r.x.stop)) = m
  rcases maskSelect m x with err | xs
  · rfl
  simp only [Except.map, except_bind_ok, List.head?_map, List.getLast?_map]
  rcases xs.head? with _ | a
  · rfl
  rcases xs.getLast? with _ | b
  · rfl
  simp only [Option.map_some]
  show (maskSelect m r.y >>= _) = _
  rcases maskSelect m r.y with err | y
  · rfl
  simp only [except_bind_ok]
  exact (make_mv d ⟨a, b, r.x.sample⟩ y).symm

theorem getItem_mv (d : K) (r : Rel K V) (v : K) :
    (r.mv d).getItem (v + d) = (r.getItem v).map fun p => (p.1 + d, p.2) := by
  unfold Rel.getItem
  show ((r.x.mv d).array >>= _) = _
  rw [array_mv]
  rcases r.x.array with err | x
  · rfl
  simp only [Except.map, except_bind_ok, List.map_map]
  have hm : x.map ((fun t => |t - (v + d)|) ∘ (· + d)) = x.map fun t => |t - v| :=
    List.map_congr_left fun t _ => by simp
  rw [hm]
  rcases argmin (x.map fun t => |t - v|) with err | i
  · rfl
  simp only [except_bind_ok, List.getElem?_map, Rel.mv]
  rcases x[i]? with _ | t
  · rfl
  rcases r.y[i]? with _ | w <;> rfl

theorem integrate_mv (d : K) (r : Rel K V) : (r.mv d).integrate = (r.integrate >>= fun q => q.shift d) := by
  unfold Rel.integrate
  rw [make_mv]
  simp only [Rel.mv, Axis.mv, add_right_comm]

theorem diff_mv (d : K) (r : Rel K V) : (r.mv d).diff = (r.diff >>= fun q => q.shift d) := by
  unfold Rel.diff
  rw [make_mv]
  simp only [Rel.mv, Axis.mv, add_right_comm, add_sub_right_comm]

theorem exp_mv (f : V → V) (d : K) (r : Rel K V) : (r.mv d).exp f = (r.exp f >>= fun q => q.shift d) := by
  unfold Rel.exp
  rw [make_mv]
  rfl

theorem npDiff_mv (d : K) (x : List K) : npDiff (x.map (· + d)) = npDiff x := by
  unfold npDiff
  rw [← List.map_tail, List.zipWith_map]
  simp

theorem oneIntegrate_mv (d : K) (r : Rel K V) : (r.mv d).oneIntegrate = r.oneIntegrate := by
  unfold Rel.oneIntegrate Rel.getData
  show ((r.x.mv d).size >>= _ >>= _) = _
  rw [size_mv]
  rcases r.x.size with err | n
  · rfl
  simp only [except_bind_ok]
  show ((if n ≠ r.y.length then _ else _) >>= _) = _
  split
  · rfl
  · show (((r.x.mv d).array >>= _) >>= _) = _
    rw [array_mv]
    rcases r.x.array with err | x
    · rfl
    · simp only [Except.map, except_bind_ok, except_pure]
      show Except.ok (trapz r.y _) = Except.ok (trapz r.y _)
      unfold trapz
      rw [npDiff_mv]

theorem shift_of_make {a : Axis K} {y : List V} {q : Rel K V} (h : Rel.make a y = .ok q) (d : K) : q.shift d = .ok (q.mv d) := by
  obtain ⟨hn, rfl⟩ := (make_ok_iff _ _ _).1 h
  exact make_ok (by show (a.mv d).size = _; rw [size_mv, hn])

theorem shift_of_interpAxis {r : Rel K V} {a : Axis K} {q : Rel K V} (h : r.interpAxis a = .ok q) (d : K) :
    q.shift d = .ok (q.mv d) := by
  unfold Rel.interpAxis at h
  simp only [except_bind_eq_ok] at h
  obtain ⟨_, -, _, -, _, -, h⟩ := h
  exact shift_of_make h d

theorem equalize_mv (d : K) (same : Bool) (a b : Rel K V) :
    Rel.equalize same (a.mv d) (b.mv d) = (Rel.equalize same a b).map fun p => (p.1.mv d, p.2.mv d) := by
  unfold Rel.equalize
  cases same with
  | true => rfl
  | false =>
    simp only [Bool.false_eq_true, if_false]
    have e : commonX (a.mv d).x (b.mv d).x = (commonX a.x b.x).mv d := commonX_mv d _ _
    rw [e, interpAxis_mv, interpAxis_mv]
    rcases h1 : a.interpAxis (commonX a.x b.x) with err | q1
    · rfl
    simp only [except_bind_ok]
    rw [shift_of_interpAxis h1 d]
    rcases h2 : b.interpAxis (commonX a.x b.x) with err | q2
    · rfl
    simp only [except_bind_ok]
    rw [shift_of_interpAxis h2 d]
    rfl

variable [DecidableEq V] [PyPow V]

theorem operation_rel_mv (d : K) (same : Bool) (a b : Rel K V) (op : MathOp) :
    (a.mv d).operation (.rel same (b.mv d)) op = (a.operation (.rel same b) op >>= fun q => q.shift d) := by
  unfold Rel.operation
  simp only []
  rw [equalize_mv]
  rcases Rel.equalize same a b with err | ⟨q1, q2⟩
  · rfl
  simp only [Except.map, except_bind_ok]
  show (mathOperation q1.y (.arr q2.y) op >>= _) = _
  rcases mathOperation q1.y (.arr q2.y) op with err | y
  · rfl
  simp only [except_bind_ok]
  exact (make_mv d q1.x y).symm

theorem operation_other_mv (d : K) (a : Rel K V) (o : NpOperand V) (op : MathOp) :
    (a.mv d).operation (.other o) op = (a.operation (.other o) op >>= fun q => q.shift d) := by
  unfold Rel.operation
  show (mathOperation a.y o op >>= _) = ((mathOperation a.y o op >>= _) >>= _)
  rcases mathOperation a.y o op with err | y
  · rfl
  simp only [except_bind_ok]
  exact (make_mv d a.x y).symm

theorem getNorm_mv (d : K) (r : Rel K V) : (r.mv d).getNorm = r.getNorm := by
  unfold Rel.getNorm Rel.pow
  rw [operation_other_mv]
  rcases h : r.operation (.other (.num 2)) .pow with err | q
  · rfl
  simp only [except_bind_ok]
  have hq : ∃ a y, Rel.make a y = .ok q := by
    unfold Rel.operation at h
    simp only [except_bind_eq_ok] at h
    obtain ⟨y, -, h⟩ := h
    exact ⟨_, _, h⟩
  obtain ⟨a, y, hq⟩ := hq
  rw [shift_of_make hq d, except_bind_ok, oneIntegrate_mv]
  rfl

end

/-! ## C102 -/

section
variable {K : Type} [Field K] [LinearOrder K] [IsStrictOrderedRing K] [FloorRing K]
variable {V : Type} [Field V] [Algebra K V] [DecidableEq V] [PyPow V]

/-- Calculus, selection and indexing of a moved relation. -/
theorem C102_one (r q : Rel K V) (d : K) (h : r.shift d = .ok q) :
    q.integrate = (r.integrate >>= fun p => p.shift d) ∧
    q.diff = (r.diff >>= fun p => p.shift d) ∧
    (∀ e, q.exp e = (r.exp e >>= fun p => p.shift d)) ∧
    (∀ s e, q.selectData (s.map (· + d)) (e.map (· + d)) = (r.selectData s e >>= fun p => p.shift d)) ∧
    (∀ v, q.getItem (v + d) = (r.getItem v).map fun p => (p.1 + d, p.2)) ∧
    q.getNorm = r.getNorm := by
  obtain rfl := shift_mv h
  exact ⟨integrate_mv d r, diff_mv d r, fun e => exp_mv e d r, fun s e => selectData_mv d r s e, fun v => getItem_mv d r v,
    getNorm_mv d r⟩

/-- Arithmetic and interpolation: both operands moved by the same amount. -/
theorem C102_two (r1 r2 q1 q2 : Rel K V) (d : K) (h1 : r1.shift d = .ok q1) (h2 : r2.shift d = .ok q2) :
    (∀ same op, q1.operation (.rel same q2) op = (r1.operation (.rel same r2) op >>= fun p => p.shift d)) ∧
    (∀ o op, q1.operation (.other o) op = (r1.operation (.other o) op >>= fun p => p.shift d)) ∧
    q1.interpolateExtrapolate (.rel q2) = (r1.interpolateExtrapolate (.rel r2) >>= fun p => p.shift d) := by
  obtain rfl := shift_mv h1
  obtain rfl := shift_mv h2
  exact ⟨fun same op => operation_rel_mv d same r1 r2 op, fun o op => operation_other_mv d r1 o op, interpAxis_mv d r1 r2.x⟩

/-- The result of `convolve` and `correlate` does not tell where the operands were: moving them, each by its own amount, changes
nothing. -/
theorem C102_position_forgotten [Star V] (r1 r2 q1 q2 : Rel K V) (d1 d2 : K) (h1 : r1.shift d1 = .ok q1)
    (h2 : r2.shift d2 = .ok q2) : q1.convolve q2 = r1.convolve r2 ∧ q1.correlate q2 = r1.correlate r2 := by
  have key : ∀ (r : Rel K V) (d : K), (r.mv d).shift (-(r.mv d).x.start) = r.shift (-r.x.start) := by
    intro r d
    unfold Rel.shift
    congr 1
    simp only [Rel.mv, Axis.mv, Axis.mk.injEq]
    refine ⟨by ring, by ring, trivial⟩
  obtain rfl := shift_mv h1
  obtain rfl := shift_mv h2
  unfold Rel.convolve Rel.correlate Rel.alignForConv
  rw [key, key]
  exact ⟨rfl, rfl⟩

end

/-! Concrete cases -/

example : (⟨⟨0, 2, 1⟩, [1, 3, 5]⟩ : Rel ℚ ℚ).shift (1/2) = .ok ⟨⟨1/2, 5/2, 1⟩, [1, 3, 5]⟩ ∧
    (⟨⟨1/2, 5/2, 1⟩, [1, 3, 5]⟩ : Rel ℚ ℚ).integrate = .ok ⟨⟨3/2, 5/2, 1⟩, [2, 6]⟩ ∧
    (⟨⟨0, 2, 1⟩, [1, 3, 5]⟩ : Rel ℚ ℚ).integrate = .ok ⟨⟨1, 2, 1⟩, [2, 6]⟩ ∧
    (⟨⟨1/2, 5/2, 1⟩, [1, 3, 5]⟩ : Rel ℚ ℚ).convolve ⟨⟨7, 8, 1⟩, [1, 2]⟩ = .ok ⟨⟨-2, 2, 1⟩, [1, 5, 11, 10, 0]⟩ ∧
    (⟨⟨0, 2, 1⟩, [1, 3, 5]⟩ : Rel ℚ ℚ).convolve ⟨⟨0, 1, 1⟩, [1, 2]⟩ = .ok ⟨⟨-2, 2, 1⟩, [1, 5, 11, 10, 0]⟩ := by
  refine ⟨?_, ?_, ?_, ?_, ?_⟩ <;> decide +kernel

/-- moving only one operand of an operator changes the values, not only the axis -/
example : (⟨⟨0, 2, 1⟩, [1, 3, 5]⟩ : Rel ℚ ℚ).operation (.rel false ⟨⟨0, 2, 1⟩, [1, 1, 1]⟩) .add = .ok ⟨⟨0, 2, 1⟩, [2, 4, 6]⟩ ∧
    (⟨⟨1, 3, 1⟩, [1, 3, 5]⟩ : Rel ℚ ℚ).operation (.rel false ⟨⟨0, 2, 1⟩, [1, 1, 1]⟩) .add = .ok ⟨⟨0, 3, 1⟩, [1, 2, 4, 5]⟩ := by
  refine ⟨?_, ?_⟩ <;> decide +kernel

end SweepDesign
