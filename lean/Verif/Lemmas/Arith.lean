import Verif.Lemmas.Interp

/-! # Pointwise operations -/

set_option linter.unusedSectionVars false
set_option linter.unnecessarySeqFocus false

namespace SweepDesign
open Spec

section
variable {V : Type}

theorem mapM_id_eq_some (l : List (Option V)) (m : List V) : l.mapM id = some m ↔ l = m.map some := by
  induction l generalizing m with
  | nil => cases m <;> simp
  | cons a l ih =>
    cases a with
    | none => cases m <;> simp [List.mapM_cons]
    | some a =>
      cases h : l.mapM id with
      | none =>
        have h' := fun m => (ih m).not.1 (by rw [h]; simp)
        cases m with
        | nil => simp [List.mapM_cons, h]
        | cons b m => simp [List.mapM_cons, h, h' m]
      | some k =>
        have hk := (ih k).1 h
        subst hk
        cases m with
        | nil => simp [List.mapM_cons, h]
        | cons b m =>
          simp [List.mapM_cons, h]
          rw [List.map_inj_right (by simp)]
          exact fun _ => Iff.rfl

theorem finite_ok_iff (l : List (Option V)) (m : List V) : finite l = .ok m ↔ l = m.map some := by
  rw [← mapM_id_eq_some]
  unfold finite
  cases l.mapM id <;> simp

theorem finite_map_some (m : List V) : finite (m.map some) = .ok m := (finite_ok_iff _ _).2 rfl

theorem mapM_id_eq_none (l : List (Option V)) : l.mapM id = none ↔ none ∈ l := by
  induction l with
  | nil => simp
  | cons a l ih =>
    cases a with
    | none => simp [List.mapM_cons]
    | some a =>
      cases h : l.mapM id with
      | none => simp [List.mapM_cons, h, ih.1 h]
      | some m =>
        have : none ∉ l := fun hn => by rw [ih.2 hn] at h; simp at h
        simp [List.mapM_cons, h, this]

theorem finite_error (l : List (Option V)) (h : none ∈ l) : finite l = .error .nonFinite := by
  unfold finite
  rw [(mapM_id_eq_none l).2 h]

theorem finite_ne_notEqual (l : List (Option V)) (m n : ℕ) : finite l ≠ .error (.notEqual m n) := by
  unfold finite
  cases l.mapM id <;> simp

theorem zipWith_some (f : V → V → V) (a b : List V) :
    List.zipWith (fun x y => some (f x y)) a b = (List.zipWith f a b).map some := by
  rw [List.map_zipWith]

end

section
variable {V : Type} [Field V] [DecidableEq V] [PyPow V]

theorem mathOperation_arr (a b : List V) (op : MathOp) (h : a.length = b.length) :
    mathOperation a (.arr b) op = finite (List.zipWith op.fn a b) := by
  simp [mathOperation, h]

theorem mathOperation_num (a : List V) (c : V) (op : MathOp) :
    mathOperation a (.num c) op = finite (a.map fun x => op.fn x c) := rfl

end

section
variable {K : Type} [Field K] [LinearOrder K] [IsStrictOrderedRing K] [FloorRing K]
variable {V : Type} [Field V] [Algebra K V] [DecidableEq V] [PyPow V]

omit [DecidableEq V] [PyPow V] in
theorem Rel.ext' {a b : Rel K V} (hx : a.x = b.x) (hy : a.y = b.y) : a = b := by
  cases a; cases b; simp_all

omit [DecidableEq V] [PyPow V] in
theorem equalize_equal_axes (same : Bool) (r1 r2 : Rel K V) (h1 : Balanced r1) (h2 : Balanced r2)
    (hx : r1.x = r2.x) : Rel.equalize same r1 r2 = .ok (r1, r2) := by
  unfold Rel.equalize
  split_ifs with hs
  · rfl
  · have hc : commonX r1.x r2.x = r1.x := by
      rw [← hx]
      simp [commonX]
    simp only [hc, interpAxis_self r1 h1, except_bind_ok]
    rw [hx, interpAxis_self r2 h2]
    rfl

omit [DecidableEq V] [PyPow V] in
theorem balanced_length_eq {V' : Type} {r1 : Rel K V} {r2 : Rel K V'} (h1 : Balanced r1) (h2 : Balanced r2)
    (hx : r1.x = r2.x) : r1.y.length = r2.y.length := by
  rw [((balanced_iff r1).1 h1).2, ((balanced_iff r2).1 h2).2, hx]

theorem operation_equal_axes (same : Bool) (r1 r2 : Rel K V) (op : MathOp) (h1 : Balanced r1) (h2 : Balanced r2)
    (hx : r1.x = r2.x) :
    r1.operation (.rel same r2) op = (finite (List.zipWith op.fn r1.y r2.y)).map fun y => ⟨r1.x, y⟩ := by
  have hl := balanced_length_eq h1 h2 hx
  simp only [Rel.operation, equalize_equal_axes same r1 r2 h1 h2 hx, except_bind_ok, mathOperation_arr _ _ _ hl]
  cases hf : finite (List.zipWith op.fn r1.y r2.y) with
  | error e => rfl
  | ok y =>
    have hy := (finite_ok_iff _ _).1 hf
    have hly : y.length = r1.y.length := by
      have := congrArg List.length hy
      simp at this
      omega
    simp only [except_bind_ok, Except.map]
    apply make_ok
    rw [h1, hly]

theorem operation_num (r : Rel K V) (c : V) (op : MathOp) (h : Balanced r) :
    r.operation (.other (.num c)) op = (finite (r.y.map fun a => op.fn a c)).map fun y => ⟨r.x, y⟩ := by
  simp only [Rel.operation, mathOperation_num]
  cases hf : finite (r.y.map fun a => op.fn a c) with
  | error e => rfl
  | ok y =>
    have hy := (finite_ok_iff _ _).1 hf
    have hly : y.length = r.y.length := by
      have := congrArg List.length hy
      simp at this
      omega
    simp only [except_bind_ok, Except.map]
    apply make_ok
    rw [h, hly]

end

end SweepDesign

namespace SweepDesign
open Spec

section
variable {V : Type} [Field V] [DecidableEq V] [PyPow V]

theorem fn_eq_some_iff (op : MathOp) (a b v : V) : op.fn a b = some v ↔ OpResult op a b v := by
  cases op <;> simp only [MathOp.fn, OpResult, Option.some.injEq, eq_comm (a := v)]
  · by_cases h : b = 0
    · simp [h]
    · simp only [h, if_false, Option.some.injEq, ne_eq, not_false_eq_true, true_and, div_eq_iff h]
      exact eq_comm
  · by_cases h : a = 0
    · simp [h]
    · simp only [h, if_false, Option.some.injEq, ne_eq, not_false_eq_true, true_and, div_eq_iff h]
      exact eq_comm

theorem finite_zipWith_ok_iff (op : MathOp) (a b y : List V) (h : a.length = b.length) :
    finite (List.zipWith op.fn a b) = .ok y ↔
      y.length = a.length ∧ ∀ i (h1 : i < a.length) (h2 : i < b.length) (h3 : i < y.length),
        OpResult op a[i] b[i] y[i] := by
  rw [finite_ok_iff]
  constructor
  · intro e
    have hl : y.length = a.length := by
      have := congrArg List.length e
      simp at this
      omega
    refine ⟨hl, ?_⟩
    intro i h1 h2 h3
    rw [← fn_eq_some_iff]
    have := List.getElem_of_eq e (i := i) (by simp; omega)
    simpa using this
  · rintro ⟨hl, hv⟩
    apply List.ext_getElem (by simp; omega)
    intro i h1 h2
    simp at h1 h2
    simpa using (fn_eq_some_iff op _ _ _).2 (hv i h1.1 h1.2 h2)

theorem finite_map_ok_iff (op : MathOp) (a : List V) (c : V) (y : List V) :
    finite (a.map fun x => op.fn x c) = .ok y ↔
      y.length = a.length ∧ ∀ i (h1 : i < a.length) (h3 : i < y.length), OpResult op a[i] c y[i] := by
  rw [finite_ok_iff]
  constructor
  · intro e
    have hl : y.length = a.length := by
      have := congrArg List.length e
      simp at this
      omega
    refine ⟨hl, ?_⟩
    intro i h1 h3
    rw [← fn_eq_some_iff]
    have := List.getElem_of_eq e (i := i) (by simp; omega)
    simpa using this
  · rintro ⟨hl, hv⟩
    apply List.ext_getElem (by simp; omega)
    intro i h1 h2
    simp at h1 h2
    simpa using (fn_eq_some_iff op _ _ _).2 (hv i h1 h2)

theorem finite_cases (l : List (Option V)) : (∃ y, finite l = .ok y) ∨ finite l = .error .nonFinite := by
  unfold finite
  cases l.mapM id <;> simp

end

section Trapz

theorem list_sum_eq {V : Type} [AddCommMonoid V] (l : List V) :
    l.sum = ∑ i ∈ Finset.range l.length, l.getD i 0 := by
  induction l with
  | nil => simp
  | cons a l ih =>
    rw [List.sum_cons, List.length_cons, Finset.sum_range_succ', ih, add_comm]
    simp

variable {K : Type} [Field K] {V : Type} [Field V] [Algebra K V]

theorem trapz_eq (y : List V) (x : List K) (h : x.length = y.length) :
    trapz y x = ∑ j ∈ Finset.range (y.length - 1),
      (x.getD (j + 1) 0 - x.getD j 0) • ((y.getD j 0 + y.getD (j + 1) 0) / 2) := by
  unfold trapz
  rw [list_sum_eq]
  have hl : (List.zipWith (fun (d : K) (v : V) => d • v) (npDiff x)
      (List.zipWith (fun a b => (b + a) / 2) y y.tail)).length = y.length - 1 := by
    simp [npDiff_length, h]
  rw [hl]
  apply Finset.sum_congr rfl
  intro j hj
  have hj' : j < y.length - 1 := Finset.mem_range.1 hj
  have hx1 : j + 1 < x.length := by omega
  rw [getD_lt _ _ _ (by rw [hl]; exact hj'), List.getElem_zipWith, npDiff_getElem x j (by rw [npDiff_length]; omega) hx1,
    List.getElem_zipWith, List.getElem_tail, getD_lt _ _ _ hx1, getD_lt _ _ _ (by omega), getD_lt _ _ _ (by omega),
    getD_lt _ _ _ (by omega), add_comm y[j + 1]]

end Trapz

section
variable {K : Type} [Field K] [LinearOrder K] [IsStrictOrderedRing K] [FloorRing K]
variable {V : Type} [Field V] [Algebra K V] [DecidableEq V] [PyPow V]

theorem getNorm_eq (r : Rel K V) (lx : List K) (ly : List V) (h : r.getData = .ok (lx, ly)) :
    r.getNorm = .ok (r.x.sample⁻¹ • ∑ j ∈ Finset.range (ly.length - 1),
      (lx.getD (j + 1) 0 - lx.getD j 0) • ((ly.getD j 0 ^ 2 + ly.getD (j + 1) 0 ^ 2) / 2)) := by
  have hb : Balanced r := (balanced_iff_getData r).2 ⟨_, h⟩
  obtain ⟨hx, rfl, hlen⟩ := (getData_ok_iff _ _ _).1 h
  have hsq : r.pow (.other (.num 2)) = .ok ⟨r.x, r.y.map fun a => a * a⟩ := by
    rw [Rel.pow, operation_num r 2 .pow hb]
    have : (r.y.map fun a => MathOp.fn .pow a 2) = (r.y.map fun a => a * a).map some := by
      simp [MathOp.fn, PyPow.ppow_two]
    rw [this, finite_map_some]
    rfl
  have hg : (⟨r.x, r.y.map fun a => a * a⟩ : Rel K V).getData = .ok (lx, r.y.map fun a => a * a) :=
    (getData_ok_iff _ _ _).2 ⟨hx, rfl, by simpa using hlen⟩
  simp only [Rel.getNorm, hsq, except_bind_ok, Rel.oneIntegrate, hg, except_pure]
  rw [trapz_eq _ _ (by simpa using hlen)]
  congr 2
  simp only [List.length_map]
  apply Finset.sum_congr rfl
  intro j hj
  have hj' : j < r.y.length - 1 := Finset.mem_range.1 hj
  rw [getD_lt (r.y.map _) _ _ (by simp; omega), getD_lt (r.y.map _) _ _ (by simp; omega), List.getElem_map,
    List.getElem_map, getD_lt r.y _ _ (by omega), getD_lt r.y _ _ (by omega), pow_two, pow_two]

omit [DecidableEq V] [PyPow V] in
theorem balanced_map {r : Rel K V} (f : V → V) (h : Balanced r) : Balanced (⟨r.x, r.y.map f⟩ : Rel K V) := by
  rw [balanced_iff] at *
  simpa using h

omit [DecidableEq V] [PyPow V] in
theorem balanced_zipWith {p q : Rel K V} (f : V → V → V) (hp : Balanced p) (hq : Balanced q) (hx : p.x = q.x) :
    Balanced (⟨p.x, List.zipWith f p.y q.y⟩ : Rel K V) := by
  have := balanced_length_eq hp hq hx
  rw [balanced_iff] at hp ⊢
  simpa [← this] using hp

omit [DecidableEq V] [PyPow V] in
theorem make_error_congr (a : Axis K) {l1 l2 : List V} (h : l1.length = l2.length) (e : Err) :
    Rel.make a l1 = .error e ↔ Rel.make a l2 = .error e := by
  unfold Rel.make
  cases a.size with
  | error e => simp
  | ok n =>
    simp only [except_bind_ok, h]
    split_ifs <;> simp

end

theorem getD_ge {α : Type} (l : List α) (i : ℕ) (d : α) (h : l.length ≤ i) : l.getD i d = d := by
  simp [List.getD, List.getElem?_eq_none h]

end SweepDesign
