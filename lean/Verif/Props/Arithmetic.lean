import Verif.Lemmas.Arith
import Verif.Py.Pow
import Verif.Props.Relation
import Verif.Props.Axis
import Mathlib.LinearAlgebra.Complex.Module

/-!
# C17–C27: linearity, norm, interpolation, equalize, arithmetic, shift
-/

set_option linter.unusedSectionVars false

namespace SweepDesign
open Spec

variable {K : Type} [Field K] [LinearOrder K] [IsStrictOrderedRing K] [FloorRing K]
variable {V : Type} [Field V] [Algebra K V]

section
variable [DecidableEq V] [PyPow V]

/-- **C23.** Arithmetic with a number: exact result for each operator. -/
theorem C23_with_number (r : Rel K V) (h : Balanced r) (c : V) :
    r.add (.other (.num c)) = .ok ⟨r.x, r.y.map fun a => a + c⟩ ∧
    r.radd (.other (.num c)) = .ok ⟨r.x, r.y.map fun a => c + a⟩ ∧
    r.sub (.other (.num c)) = .ok ⟨r.x, r.y.map fun a => a - c⟩ ∧
    r.rsub (.other (.num c)) = .ok ⟨r.x, r.y.map fun a => c - a⟩ ∧
    r.mul (.other (.num c)) = .ok ⟨r.x, r.y.map fun a => a * c⟩ ∧
    r.rmul (.other (.num c)) = .ok ⟨r.x, r.y.map fun a => c * a⟩ ∧
    (c ≠ 0 → r.truediv (.other (.num c)) = .ok ⟨r.x, r.y.map fun a => a / c⟩) ∧
    ((∀ a ∈ r.y, a ≠ 0) → r.rtruediv (.other (.num c)) = .ok ⟨r.x, r.y.map fun a => c / a⟩) ∧
    r.pow (.other (.num 2)) = .ok ⟨r.x, r.y.map fun a => a * a⟩ := by
  have key : ∀ (op : MathOp) (d : V) (f : V → V), (∀ a ∈ r.y, op.fn a d = some (f a)) →
      r.operation (.other (.num d)) op = .ok ⟨r.x, r.y.map f⟩ := by
    intro op d f hf
    rw [operation_num r d op h]
    have : (r.y.map fun a => op.fn a d) = (r.y.map f).map some := by
      rw [List.map_map]
      exact List.map_congr_left hf
    rw [this, finite_map_some]
    rfl
  refine ⟨key _ _ _ fun _ _ => rfl, key _ _ _ fun _ _ => rfl, key _ _ _ fun _ _ => rfl, key _ _ _ fun _ _ => rfl,
    key _ _ _ fun _ _ => rfl, key _ _ _ fun _ _ => rfl, ?_, ?_, ?_⟩
  · intro hc
    exact key _ _ _ fun a _ => by simp [MathOp.fn, hc]
  · intro hc
    exact key _ _ _ fun a ha => by simp [MathOp.fn, hc a ha]
  · exact key _ _ _ fun a _ => by simp [MathOp.fn, PyPow.ppow_two]

/-- **C23.** All ten operators with a number, success and failure: the result is the pointwise one, and the only
failure is a value that is not a finite number. -/
theorem C23_all_operators (r : Rel K V) (h : Balanced r) (c : V) (op : MathOp) :
    (∀ q, r.operation (.other (.num c)) op = .ok q ↔ q.x = r.x ∧ q.y.length = r.y.length ∧
      ∀ i (h1 : i < r.y.length) (h2 : i < q.y.length), OpResult op r.y[i] c q.y[i]) ∧
    (∀ e, r.operation (.other (.num c)) op = .error e → e = .nonFinite) := by
  rw [operation_num r c op h]
  constructor
  · intro q
    rw [← finite_map_ok_iff]
    cases hf : finite (r.y.map fun a => op.fn a c) with
    | error e =>
      simp only [Except.map, reduceCtorEq, false_iff, not_and]
      simp
    | ok y =>
      simp only [Except.map, Except.ok.injEq]
      constructor
      · rintro rfl; exact ⟨rfl, rfl⟩
      · rintro ⟨h1, h2⟩; exact Rel.ext' h1.symm h2
  · intro e he
    rcases finite_cases (r.y.map fun a => op.fn a c) with ⟨y, hy⟩ | hy
    · rw [hy] at he; simp [Except.map] at he
    · rw [hy] at he; simpa [Except.map] using he.symm

example : (⟨⟨0, 2, 1⟩, [1, 2, 4]⟩ : Rel ℚ ℚ).rsub (.other (.num 10)) = .ok ⟨⟨0, 2, 1⟩, [9, 8, 6]⟩ ∧
    (⟨⟨0, 2, 1⟩, [1, 2, 4]⟩ : Rel ℚ ℚ).rtruediv (.other (.num 8)) = .ok ⟨⟨0, 2, 1⟩, [8, 4, 2]⟩ ∧
    (⟨⟨0, 2, 1⟩, [1, 2, 4]⟩ : Rel ℚ ℚ).pow (.other (.num 3)) = .ok ⟨⟨0, 2, 1⟩, [1, 8, 64]⟩ ∧
    (⟨⟨0, 2, 1⟩, [1, 2, 3]⟩ : Rel ℚ ℚ).rpow (.other (.num 2)) = .ok ⟨⟨0, 2, 1⟩, [2, 4, 8]⟩ ∧
    (⟨⟨0, 2, 1⟩, [1, 0, 3]⟩ : Rel ℚ ℚ).rtruediv (.other (.num 2)) = .error .nonFinite := by decide +kernel

/-- **C24.** Relations with equal axes (same object or not): pointwise for every operator; the only failure is a
non-finite value. -/
theorem C24_equal_axes (same : Bool) (r1 r2 : Rel K V) (h1 : Balanced r1) (h2 : Balanced r2) (hx : r1.x = r2.x)
    (op : MathOp) :
    (∀ q, r1.operation (.rel same r2) op = .ok q ↔ q.x = r1.x ∧ q.y.length = r1.y.length ∧
      ∀ i (a : i < r1.y.length) (b : i < r2.y.length) (c : i < q.y.length), OpResult op r1.y[i] r2.y[i] q.y[i]) ∧
    (∀ e, r1.operation (.rel same r2) op = .error e → e = .nonFinite) ∧
    (op = .add ∨ op = .sub ∨ op = .mul ∨ op = .radd ∨ op = .rsub ∨ op = .rmul →
      ∃ q, r1.operation (.rel same r2) op = .ok q) ∧
    (op = .truediv → (∀ b ∈ r2.y, b ≠ 0) → ∃ q, r1.operation (.rel same r2) op = .ok q) := by
  have hl := balanced_length_eq h1 h2 hx
  rw [operation_equal_axes same r1 r2 op h1 h2 hx]
  refine ⟨?_, ?_, ?_, ?_⟩
  · intro q
    rw [← finite_zipWith_ok_iff op _ _ _ hl]
    cases hf : finite (List.zipWith op.fn r1.y r2.y) with
    | error e => simp [Except.map]
    | ok y =>
      simp only [Except.map, Except.ok.injEq]
      constructor
      · rintro rfl; exact ⟨rfl, rfl⟩
      · rintro ⟨h1, h2⟩; exact Rel.ext' h1.symm h2
  · intro e he
    rcases finite_cases (List.zipWith op.fn r1.y r2.y) with ⟨y, hy⟩ | hy
    · rw [hy] at he; simp [Except.map] at he
    · rw [hy] at he; simpa [Except.map] using he.symm
  · have key : ∀ f : V → V → V, (∀ a b, op.fn a b = some (f a b)) →
        ∃ q, (finite (List.zipWith op.fn r1.y r2.y)).map (fun y => (⟨r1.x, y⟩ : Rel K V)) = .ok q := by
      intro f hf
      have : op.fn = fun a b => some (f a b) := by funext a b; exact hf a b
      rw [this, zipWith_some, finite_map_some]
      exact ⟨_, rfl⟩
    rintro (rfl | rfl | rfl | rfl | rfl | rfl)
    · exact key (fun a b => a + b) fun _ _ => rfl
    · exact key (fun a b => a - b) fun _ _ => rfl
    · exact key (fun a b => a * b) fun _ _ => rfl
    · exact key (fun a b => b + a) fun _ _ => rfl
    · exact key (fun a b => b - a) fun _ _ => rfl
    · exact key (fun a b => b * a) fun _ _ => rfl
  · rintro rfl hb
    rw [(finite_zipWith_ok_iff .truediv _ _ (List.zipWith (fun a b => a / b) r1.y r2.y) hl).2]
    · exact ⟨_, rfl⟩
    · refine ⟨by simp [hl], ?_⟩
      intro i a b c
      have := hb _ (List.getElem_mem b)
      simp only [OpResult, List.getElem_zipWith]
      exact ⟨this, by field_simp⟩

example : (⟨⟨0, 2, 1⟩, [1, 2, 4]⟩ : Rel ℚ ℚ).sub (.rel false ⟨⟨0, 2, 1⟩, [5, 5, 5]⟩) =
      .ok ⟨⟨0, 2, 1⟩, [-4, -3, -1]⟩ ∧
    (⟨⟨0, 2, 1⟩, [1, 2, 4]⟩ : Rel ℚ ℚ).truediv (.rel false ⟨⟨0, 2, 1⟩, [2, 4, 5]⟩) =
      .ok ⟨⟨0, 2, 1⟩, [1/2, 1/2, 4/5]⟩ := by decide +kernel

/-- **C17.** `integrate` is linear: acceptance of `c*r1 + r2` follows acceptance of `r1`, and values combine. -/
theorem C17_integrate_linear (same : Bool) (r1 r2 m s : Rel K V) (c : V) (h1 : Balanced r1) (h2 : Balanced r2)
    (hx : r1.x = r2.x) (hm : r1.rmul (.other (.num c)) = .ok m) (hs : m.add (.rel same r2) = .ok s) :
    (∀ e, r1.integrate = .error e ↔ s.integrate = .error e) ∧
    ∀ q1 q2, r1.integrate = .ok q1 → r2.integrate = .ok q2 →
      ∃ p, s.integrate = .ok p ∧ p.x = q1.x ∧ p.x = q2.x ∧
        p.y = List.zipWith (fun a b => c * a + b) q1.y q2.y := by
  obtain rfl : m = ⟨r1.x, r1.y.map fun a => c * a⟩ := by
    have := (C23_with_number r1 h1 c).2.2.2.2.2.1
    rw [hm] at this; simpa using this
  have hbm : Balanced (⟨r1.x, r1.y.map fun a => c * a⟩ : Rel K V) := balanced_map _ h1
  have hl := balanced_length_eq h1 h2 hx
  obtain ⟨hsx, hsl, hsv⟩ := ((C24_equal_axes same _ r2 hbm h2 hx .add).1 s).1 hs
  simp only [List.length_map] at hsl hsx
  have hsy : ∀ i, s.y.getD i 0 = c * r1.y.getD i 0 + r2.y.getD i 0 := by
    intro i
    by_cases hi : i < r1.y.length
    · have := hsv i (by simpa using hi) (by omega) (by omega)
      simp only [OpResult, List.getElem_map] at this
      rw [getD_lt _ _ _ (by omega), getD_lt _ _ _ hi, getD_lt _ _ _ (by omega), this]
    · rw [getD_ge _ _ _ (by omega : r1.y.length ≤ i), getD_ge _ _ _ (by omega : r2.y.length ≤ i),
        getD_ge _ _ _ (by omega : s.y.length ≤ i), mul_zero, add_zero]
  have hlen : ((cumTrapz s.y).map fun v => s.x.sample • v).length =
      ((cumTrapz r1.y).map fun v => r1.x.sample • v).length := by
    simp [cumTrapz_length, hsl]
  constructor
  · intro e
    unfold Rel.integrate
    rw [hsx] at hlen ⊢
    exact make_error_congr _ hlen.symm e
  · intro q1 q2 hq1 hq2
    obtain ⟨hz, rfl⟩ := (make_ok_iff _ _ _).1 hq1
    obtain ⟨hz2, rfl⟩ := (make_ok_iff _ _ _).1 hq2
    refine ⟨_, make_ok (by rw [hlen, hsx]; exact hz), by simp [hsx], by simp [hsx, hx], ?_⟩
    apply List.ext_getElem
    · simp [cumTrapz_length, hsl, hl]
    · intro i a b
      simp only [List.length_map, List.length_zipWith] at a b
      simp only [List.getElem_map, List.getElem_zipWith]
      rw [cumTrapz_getElem, cumTrapz_getElem, cumTrapz_getElem, hsx, hx, mul_smul_comm, ← smul_add, Finset.mul_sum,
        ← Finset.sum_add_distrib]
      congr 1
      apply Finset.sum_congr rfl
      intro j _
      unfold at0
      rw [hsy, hsy]
      ring

/-- **C17.** `diff` is linear. -/
theorem C17_diff_linear (same : Bool) (r1 r2 m s : Rel K V) (c : V) (h1 : Balanced r1) (h2 : Balanced r2)
    (hx : r1.x = r2.x) (hm : r1.rmul (.other (.num c)) = .ok m) (hs : m.add (.rel same r2) = .ok s) :
    (∀ e, r1.diff = .error e ↔ s.diff = .error e) ∧
    ∀ q1 q2, r1.diff = .ok q1 → r2.diff = .ok q2 →
      ∃ p, s.diff = .ok p ∧ p.x = q1.x ∧ p.x = q2.x ∧
        p.y = List.zipWith (fun a b => c * a + b) q1.y q2.y := by
  obtain rfl : m = ⟨r1.x, r1.y.map fun a => c * a⟩ := by
    have := (C23_with_number r1 h1 c).2.2.2.2.2.1
    rw [hm] at this; simpa using this
  have hbm : Balanced (⟨r1.x, r1.y.map fun a => c * a⟩ : Rel K V) := balanced_map _ h1
  have hl := balanced_length_eq h1 h2 hx
  obtain ⟨hsx, hsl, hsv⟩ := ((C24_equal_axes same _ r2 hbm h2 hx .add).1 s).1 hs
  simp only [List.length_map] at hsl hsx
  have hlen : ((npDiff s.y).map fun v => s.x.sample⁻¹ • v).length =
      ((npDiff r1.y).map fun v => r1.x.sample⁻¹ • v).length := by
    simp [npDiff_length, hsl]
  constructor
  · intro e
    unfold Rel.diff
    rw [hsx] at hlen ⊢
    exact make_error_congr _ hlen.symm e
  · intro q1 q2 hq1 hq2
    obtain ⟨hz, rfl⟩ := (make_ok_iff _ _ _).1 hq1
    obtain ⟨hz2, rfl⟩ := (make_ok_iff _ _ _).1 hq2
    refine ⟨_, make_ok (by rw [hlen, hsx]; exact hz), by simp [hsx], by simp [hsx, hx], ?_⟩
    apply List.ext_getElem
    · simp [npDiff_length, hsl, hl]
    · intro i a b
      simp only [List.length_map, List.length_zipWith, npDiff_length] at a b
      have v1 := hsv i (by simp; omega) (by omega) (by omega)
      have v2 := hsv (i + 1) (by simp; omega) (by omega) (by omega)
      simp only [OpResult, List.getElem_map] at v1 v2
      simp only [List.getElem_map, List.getElem_zipWith]
      rw [npDiff_getElem _ _ _ (by omega), npDiff_getElem _ _ _ (by omega), npDiff_getElem _ _ _ (by omega), v1, v2,
        hsx, hx, mul_smul_comm, ← smul_add]
      congr 1
      ring

example : (⟨⟨0, 4, 2⟩, [1, 2, 4]⟩ : Rel ℚ ℚ).rmul (.other (.num 3)) = .ok ⟨⟨0, 4, 2⟩, [3, 6, 12]⟩ ∧
    (⟨⟨0, 4, 2⟩, [3, 6, 12]⟩ : Rel ℚ ℚ).add (.rel true ⟨⟨0, 4, 2⟩, [1, 0, 1]⟩) = .ok ⟨⟨0, 4, 2⟩, [4, 6, 13]⟩ ∧
    (⟨⟨0, 4, 2⟩, [4, 6, 13]⟩ : Rel ℚ ℚ).diff = .ok ⟨⟨1, 3, 2⟩, [1, 7/2]⟩ ∧
    (⟨⟨0, 4, 2⟩, [4, 6, 13]⟩ : Rel ℚ ℚ).integrate = .ok ⟨⟨2, 4, 2⟩, [10, 29]⟩ := by decide +kernel

/-- **C18.** `get_norm` of a balanced relation: trapezoid integral of the squares divided by the sample. -/
theorem C18_norm_formula (r : Rel K V) (lx : List K) (ly : List V) (h : r.getData = .ok (lx, ly)) :
    r.getNorm = .ok (r.x.sample⁻¹ • ∑ j ∈ Finset.range (ly.length - 1),
      (lx.getD (j + 1) 0 - lx.getD j 0) • ((ly.getD j 0 ^ 2 + ly.getD (j + 1) 0 ^ 2) / 2)) :=
  getNorm_eq r lx ly h

/-- **C18.** Scaling a relation by `c` scales its norm by `c²`. -/
theorem C18_norm_scaling (r m : Rel K V) (h : Balanced r) (c v : V) (hm : r.rmul (.other (.num c)) = .ok m)
    (hv : r.getNorm = .ok v) : m.getNorm = .ok (c ^ 2 * v) := by
  obtain rfl : m = ⟨r.x, r.y.map fun a => c * a⟩ := by
    have := (C23_with_number r h c).2.2.2.2.2.1
    rw [hm] at this; simpa using this
  obtain ⟨⟨lx, ly⟩, hd⟩ := (balanced_iff_getData r).1 h
  obtain ⟨hx, rfl, hlen⟩ := (getData_ok_iff _ _ _).1 hd
  rw [getNorm_eq r lx r.y hd] at hv
  simp only [Except.ok.injEq] at hv
  rw [getNorm_eq _ lx _ ((getData_ok_iff (⟨r.x, r.y.map fun a => c * a⟩ : Rel K V) _ _).2
    ⟨hx, rfl, by simpa using hlen⟩), ← hv]
  congr 1
  rw [mul_smul_comm, Finset.mul_sum]
  simp only [List.length_map]
  congr 1
  apply Finset.sum_congr rfl
  intro j hj
  have hj' : j < r.y.length - 1 := Finset.mem_range.1 hj
  rw [getD_lt (r.y.map _) _ _ (by simp; omega), getD_lt (r.y.map _) _ _ (by simp; omega), List.getElem_map,
    List.getElem_map, getD_lt r.y _ _ (by omega), getD_lt r.y _ _ (by omega), mul_smul_comm]
  congr 1
  ring

end

/-- **C18.** Real values, increasing axis, positive sample: the norm is non-negative, and with at least two points it
vanishes only for the zero relation. -/
theorem C18_norm_positive [PyPow K] (r : Rel K K) (h : Balanced r) (hinc : r.x.start < r.x.stop)
    (hs : 0 < r.x.sample) :
    ∃ v, r.getNorm = .ok v ∧ 0 ≤ v ∧ (2 ≤ r.y.length → (v = 0 ↔ ∀ a ∈ r.y, a = 0)) := by
  obtain ⟨⟨lx, ly⟩, hd⟩ := (balanced_iff_getData r).1 h
  obtain ⟨hx, rfl, hlen⟩ := (getData_ok_iff _ _ _).1 hd
  have hsp := Axis.array_spaced hx
  refine ⟨_, getNorm_eq r lx r.y hd, ?_⟩
  have hterm : ∀ j ∈ Finset.range (r.y.length - 1),
      (lx.getD (j + 1) 0 - lx.getD j 0) • ((r.y.getD j 0 ^ 2 + r.y.getD (j + 1) 0 ^ 2) / 2) =
      r.x.step * ((r.y.getD j 0 ^ 2 + r.y.getD (j + 1) 0 ^ 2) / 2) := by
    intro j hj
    have hj' : j < r.y.length - 1 := Finset.mem_range.1 hj
    rw [getD_lt lx _ _ (by omega), getD_lt lx _ _ (by omega), hsp.2 _ (by omega), hsp.2 _ (by omega), smul_eq_mul]
    push_cast
    ring
  rw [Finset.sum_congr rfl hterm, smul_eq_mul]
  have hnn : 0 ≤ r.x.step := by
    unfold Axis.step
    have : 0 ≤ r.x.stop - r.x.start := by linarith
    positivity
  have hge : ∀ j ∈ Finset.range (r.y.length - 1),
      0 ≤ r.x.step * ((r.y.getD j 0 ^ 2 + r.y.getD (j + 1) 0 ^ 2) / 2) := by
    intro j _
    positivity
  refine ⟨mul_nonneg (inv_nonneg.2 hs.le) (Finset.sum_nonneg hge), ?_⟩
  intro h2
  have hsteps : r.x.steps ≠ 0 := by
    have h1 := hsp.1
    omega
  have hpos : 0 < r.x.step := lt_of_le_of_ne hnn (Ne.symm (Axis.step_ne_zero hsteps))
  rw [mul_eq_zero, inv_eq_zero, or_iff_right hs.ne', Finset.sum_eq_zero_iff_of_nonneg hge]
  constructor
  · intro hz a ha
    obtain ⟨i, hi, rfl⟩ := List.mem_iff_getElem.1 ha
    rcases Nat.lt_or_ge i (r.y.length - 1) with h1 | h1
    · have := hz i (Finset.mem_range.2 h1)
      rw [mul_eq_zero, or_iff_right hpos.ne', getD_lt _ _ _ hi] at this
      nlinarith [sq_nonneg (r.y.getD (i + 1) 0), sq_nonneg r.y[i], pow_eq_zero_iff (n := 2) two_ne_zero (a := r.y[i])]
    · have hi1 : i - 1 + 1 = i := by omega
      have := hz (i - 1) (Finset.mem_range.2 (by omega))
      rw [hi1, mul_eq_zero, or_iff_right hpos.ne', getD_lt _ i _ hi] at this
      nlinarith [sq_nonneg (r.y.getD (i - 1) 0), sq_nonneg r.y[i], pow_eq_zero_iff (n := 2) two_ne_zero (a := r.y[i])]
  · intro hz j hj
    have hj' : j < r.y.length - 1 := Finset.mem_range.1 hj
    rw [getD_lt _ _ _ (by omega), getD_lt _ _ _ (by omega), hz _ (List.getElem_mem _), hz _ (List.getElem_mem _)]
    ring

example : (⟨⟨0, 5, 2⟩, [1, -2, 4]⟩ : Rel ℚ ℚ).getNorm = .ok (125/8) ∧
    (⟨⟨0, 5, 2⟩, [3, -6, 12]⟩ : Rel ℚ ℚ).getNorm = .ok (3^2 * (125/8)) := by decide +kernel

/-- **C18.** On an axis that runs backwards and has a positive sample the "norm" of real values is never positive, and
negative unless all samples are zero. -/
theorem C18_norm_backwards [PyPow K] (r : Rel K K) (h : Balanced r) (hdec : r.x.stop < r.x.start)
    (hs : 0 < r.x.sample) :
    ∃ v, r.getNorm = .ok v ∧ v ≤ 0 ∧ (2 ≤ r.y.length → (v = 0 ↔ ∀ a ∈ r.y, a = 0)) := by
  have hst : (⟨r.x.stop, r.x.start, r.x.sample⟩ : Axis K).steps = r.x.steps := by
    unfold Axis.steps
    rw [abs_div, abs_div, abs_sub_comm]
  obtain ⟨h0, hl⟩ := (balanced_iff r).1 h
  have hb : Balanced (⟨⟨r.x.stop, r.x.start, r.x.sample⟩, r.y⟩ : Rel K K) :=
    (balanced_iff _).2 ⟨h0, by rw [hst]; exact hl⟩
  obtain ⟨v, h1, h2, h3⟩ := C18_norm_positive _ hb hdec hs
  obtain ⟨⟨lx, ly⟩, hd⟩ := (balanced_iff_getData r).1 h
  obtain ⟨⟨lx', ly'⟩, hd'⟩ := (balanced_iff_getData _).1 hb
  obtain ⟨hx, rfl, hlen⟩ := (getData_ok_iff _ _ _).1 hd
  obtain ⟨hx', rfl, hlen'⟩ := (getData_ok_iff _ _ _).1 hd'
  obtain ⟨n1, s1⟩ := Axis.array_spaced hx
  obtain ⟨n2, s2⟩ := Axis.array_spaced hx'
  have hstep : (⟨r.x.stop, r.x.start, r.x.sample⟩ : Axis K).step = -r.x.step := by
    unfold Axis.step
    rw [hst]
    ring
  rw [hst] at n2
  rw [getNorm_eq _ _ _ hd', Except.ok.injEq] at h1
  refine ⟨-v, ?_, by linarith, fun h => by rw [neg_eq_zero]; exact h3 h⟩
  rw [getNorm_eq _ _ _ hd, Except.ok.injEq, ← h1, ← smul_neg, ← Finset.sum_neg_distrib]
  congr 1
  apply Finset.sum_congr rfl
  intro j hj
  have hj' : j < r.y.length - 1 := Finset.mem_range.1 hj
  rw [getD_lt lx _ _ (by omega), getD_lt lx _ _ (by omega), getD_lt lx' _ _ (by omega), getD_lt lx' _ _ (by omega),
    s1 _ (by omega), s1 _ (by omega), s2 _ (by omega), s2 _ (by omega), hstep, smul_eq_mul, smul_eq_mul]
  push_cast
  ring

example : (⟨⟨5, 0, 2⟩, [4, -2, 1]⟩ : Rel ℚ ℚ).getNorm = .ok (-125/8) := by decide +kernel

/-- **C18.** An axis with the opposite sample gives the opposite "norm". -/
theorem C18_norm_opposite_sample [PyPow K] (r : Rel K K) (h : Balanced r) (v : K) (hv : r.getNorm = .ok v) :
    (⟨⟨r.x.start, r.x.stop, -r.x.sample⟩, r.y⟩ : Rel K K).getNorm = .ok (-v) := by
  have hst : (⟨r.x.start, r.x.stop, -r.x.sample⟩ : Axis K).steps = r.x.steps := by
    unfold Axis.steps
    rw [div_neg, abs_neg]
  obtain ⟨⟨lx, ly⟩, hd⟩ := (balanced_iff_getData r).1 h
  obtain ⟨hx, rfl, hlen⟩ := (getData_ok_iff _ _ _).1 hd
  have h0 : r.x.sample ≠ 0 := ((balanced_iff r).1 h).1
  have hx' : (⟨r.x.start, r.x.stop, -r.x.sample⟩ : Axis K).array = .ok lx := by
    rw [Axis.array_eq _ (neg_ne_zero.2 h0), hst, ← hx, Axis.array_eq _ h0]
  rw [getNorm_eq _ _ _ hd, Except.ok.injEq] at hv
  rw [getNorm_eq _ _ _ ((getData_ok_iff (⟨⟨r.x.start, r.x.stop, -r.x.sample⟩, r.y⟩ : Rel K K) _ _).2 ⟨hx', rfl, hlen⟩),
    Except.ok.injEq, ← hv, inv_neg, neg_smul]

/-- **C18.** With a negative sample, as `ArrayAxis.get_from_array` gives it for falling numbers, the signs are exchanged:
on an axis that runs backwards the "norm" is an energy, on an axis that runs forwards it is never positive. -/
theorem C18_norm_negative_sample [PyPow K] (r : Rel K K) (h : Balanced r) (hs : r.x.sample < 0) :
    (r.x.stop < r.x.start →
      ∃ v, r.getNorm = .ok v ∧ 0 ≤ v ∧ (2 ≤ r.y.length → (v = 0 ↔ ∀ a ∈ r.y, a = 0))) ∧
    (r.x.start < r.x.stop →
      ∃ v, r.getNorm = .ok v ∧ v ≤ 0 ∧ (2 ≤ r.y.length → (v = 0 ↔ ∀ a ∈ r.y, a = 0))) := by
  have hst : (⟨r.x.start, r.x.stop, -r.x.sample⟩ : Axis K).steps = r.x.steps := by
    unfold Axis.steps
    rw [div_neg, abs_neg]
  obtain ⟨h0, hl⟩ := (balanced_iff r).1 h
  have hb : Balanced (⟨⟨r.x.start, r.x.stop, -r.x.sample⟩, r.y⟩ : Rel K K) :=
    (balanced_iff _).2 ⟨neg_ne_zero.2 h0, by rw [hst]; exact hl⟩
  have hs' : 0 < -r.x.sample := neg_pos.2 hs
  refine ⟨fun hd => ?_, fun hd => ?_⟩
  · obtain ⟨v, h1, h2, h3⟩ := C18_norm_backwards _ hb hd hs'
    have h4 := C18_norm_opposite_sample _ hb v h1
    simp only [neg_neg] at h4
    exact ⟨-v, h4, neg_nonneg.2 h2, fun h => by rw [neg_eq_zero]; exact h3 h⟩
  · obtain ⟨v, h1, h2, h3⟩ := C18_norm_positive _ hb hd hs'
    have h4 := C18_norm_opposite_sample _ hb v h1
    simp only [neg_neg] at h4
    exact ⟨-v, h4, neg_nonpos.2 h2, fun h => by rw [neg_eq_zero]; exact h3 h⟩

example : (⟨⟨5, 0, -2⟩, [4, -2, 1]⟩ : Rel ℚ ℚ).getNorm = .ok (125/8) ∧
    (⟨⟨0, 5, -2⟩, [4, -2, 1]⟩ : Rel ℚ ℚ).getNorm = .ok (-125/8) := by decide +kernel

/-- **C18.** For complex values the "norm" is not an energy: it is the integral of the plain square, and vanishes on a
non-zero relation. -/
theorem C18_complex_witness :
    (⟨⟨0, 1, 1⟩, [1, Complex.I]⟩ : Rel ℝ ℂ).getNorm = .ok 0 := by
  have h1 : Axis.steps (⟨0, 1, 1⟩ : Axis ℝ) = 1 := by
    rw [Axis.steps_eq_iff, ← pyRound_eq_iff]
    simpa using pyRound_natCast (K := ℝ) 1
  have ha : (⟨0, 1, 1⟩ : Axis ℝ).array = .ok [0, 1] := by
    rw [Axis.array_eq _ one_ne_zero, h1]
    norm_num [linspace, List.range_succ]
  rw [getNorm_eq (⟨⟨0, 1, 1⟩, [1, Complex.I]⟩ : Rel ℝ ℂ) [0, 1] [1, Complex.I] ((getData_ok_iff _ _ _).2 ⟨ha, rfl, rfl⟩)]
  norm_num [Finset.sum_range_succ]

/-- **C19.** Interpolating onto an axis with the same start, end and sample changes nothing, whichever way the axis
is passed. -/
theorem C19_own_axis (r : Rel K V) (h : Balanced r) (a : Axis K) (h1 : a.start = r.x.start) (h2 : a.stop = r.x.stop)
    (h3 : a.sample = r.x.sample) (q : Rel K V) (hq : q.x = a) :
    r.interpolateExtrapolate (.axis a) = .ok r ∧ r.interpolateExtrapolate (.rel q) = .ok r := by
  have ha : a = r.x := Axis.ext' h1 h2 h3
  constructor
  · rw [ha]; exact interpAxis_self r h
  · simp only [Rel.interpolateExtrapolate, hq, ha]; exact interpAxis_self r h

/-- also on decreasing axes and on axes whose spacing is not the sample -/
example : (⟨⟨5, 0, 2⟩, [1, 7, 4]⟩ : Rel ℚ ℚ).interpolateExtrapolate (.axis ⟨5, 0, 2⟩) = .ok ⟨⟨5, 0, 2⟩, [1, 7, 4]⟩ := by
  decide +kernel

/-- **C20.** Interpolation onto any axis with a non-zero sample succeeds for a balanced relation, keeps the new axis,
and each value is the zero-extended piecewise linear interpolant at the new point. -/
theorem C20_piecewise_linear (r : Rel K V) (lx : List K) (ly : List V) (h : r.getData = .ok (lx, ly)) (a : Axis K)
    (hs : a.sample ≠ 0) :
    ∃ q xs ys, r.interpolateExtrapolate (.axis a) = .ok q ∧ q.x = a ∧ q.getData = .ok (xs, ys) ∧
      ∀ i (h : i < xs.length) (h' : i < ys.length), IsInterpolant lx ly xs[i] ys[i] := by
  obtain ⟨q, xs, ys, h1, h2, -, -, h5, h6⟩ := interpAxis_spec r lx ly h a hs
  exact ⟨q, xs, ys, h1, h2, h5, h6⟩

/-- **C20.** Given another relation, the values are taken on the axis of that relation; given evenly spaced positions as an
array-like, they are taken at exactly these positions: the step is not rounded. -/
theorem C20_at_relation_or_points (r : Rel K V) (lx : List K) (ly : List V) (h : r.getData = .ok (lx, ly)) :
    (∀ p : Rel K V, r.interpolateExtrapolate (.rel p) = r.interpolateExtrapolate (.axis p.x)) ∧
    (∀ (l : List K) (isFloat : Bool) (a d : K) (n : ℕ), EvenlySpaced l a d n → 2 ≤ n → d ≠ 0 →
      ∃ q ys, r.interpolateExtrapolate (.array l isFloat) = .ok q ∧ q.getData = .ok (l, ys) ∧
        ∀ i (h : i < l.length) (h' : i < ys.length), IsInterpolant lx ly l[i] ys[i]) := by
  refine ⟨fun p => rfl, fun l isFloat a d n hl hn hd => ?_⟩
  obtain ⟨ax, e1, e2, e3⟩ := C04_unrounded_lossless l isFloat a d n hl hn hd
  obtain ⟨q, xs, ys, f1, f2, f3, f4⟩ := C20_piecewise_linear r lx ly h ax (by rw [e3]; exact hd)
  have hxs : xs = l := by
    have := ((getData_ok_iff _ _ _).1 f3).1
    rw [f2, e2, Except.ok.injEq] at this
    exact this.symm
  subst hxs
  refine ⟨q, ys, ?_, f3, f4⟩
  show (axisFromArray xs isFloat false >>= fun a => r.interpAxis a) = .ok q
  rw [e1]
  exact f1

/-- a step of 0.7 is kept, where rounding would make it 1 -/
example : (⟨⟨0, 3, 1⟩, [0, 10, 20, 30]⟩ : Rel ℚ ℚ).interpolateExtrapolate (.array [1, 17/10, 24/10] true) =
    .ok ⟨⟨1, 24/10, 7/10⟩, [10, 17, 24]⟩ := by decide +kernel

/-- **C20.** The interpolant at a point is unique, so C20 determines every value: each point is out of range, a
sample, or between two neighbouring samples. -/
theorem C20_determined (r : Rel K V) (lx : List K) (ly : List V) (h : r.getData = .ok (lx, ly)) (t : K) :
    (∀ v w, IsInterpolant lx ly t v → IsInterpolant lx ly t w → v = w) ∧
    (InRange lx t → (∃ i, ∃ hi : i < lx.length, lx[i] = t) ∨
      (∃ i, ∃ hi : i + 1 < lx.length, min lx[i] lx[i + 1] ≤ t ∧ t ≤ max lx[i] lx[i + 1])) := by
  obtain ⟨hx, rfl, hlen⟩ := (getData_ok_iff _ _ _).1 h
  exact ⟨fun v w h1 h2 => IsInterpolant.unique hlen (Axis.array_monotone hx) h1 h2,
    fun hr => inRange_cases (Axis.array_monotone hx) hr⟩

theorem interpolant_bounds (r : Rel K K) (lx : List K) (ly : List K) (h : r.getData = .ok (lx, ly)) (lo hi t v : K)
    (hb : ∀ a ∈ ly, lo ≤ a ∧ a ≤ hi) (hr : InRange lx t) (hv : IsInterpolant lx ly t v) : lo ≤ v ∧ v ≤ hi := by
  obtain ⟨hx, rfl, hlen⟩ := (getData_ok_iff _ _ _).1 h
  rcases inRange_cases (Axis.array_monotone hx) hr with ⟨i, hi', he⟩ | ⟨i, hi', h1, h2⟩
  · rw [hv.sample i hi' (by omega) he]
    exact hb _ (List.getElem_mem _)
  · rw [hv.between i hi' (by omega) h1 h2, smul_eq_mul]
    have b1 := hb _ (List.getElem_mem (by omega : i < r.y.length))
    have b2 := hb _ (List.getElem_mem (by omega : i + 1 < r.y.length))
    set a := r.y[i]
    set b := r.y[i + 1]
    set u := lx[i]
    set w := lx[i + 1]
    have hw : 0 ≤ (t - u) / (w - u) ∧ (t - u) / (w - u) ≤ 1 := by
      rcases lt_trichotomy u w with huw | huw | huw
      · rw [min_eq_left huw.le] at h1
        rw [max_eq_right huw.le] at h2
        exact ⟨div_nonneg (by linarith) (by linarith), by rw [div_le_one (by linarith)]; linarith⟩
      · rw [huw, sub_self, div_zero]; exact ⟨le_refl _, zero_le_one⟩
      · rw [min_eq_right huw.le] at h1
        rw [max_eq_left huw.le] at h2
        refine ⟨div_nonneg_of_nonpos (by linarith) (by linarith), ?_⟩
        rw [div_le_one_of_neg (by linarith)]; linarith
    set s := (t - u) / (w - u)
    have e : a + s * (b - a) = (1 - s) * a + s * b := by ring
    rw [e]
    constructor
    · nlinarith [mul_nonneg hw.1 (by linarith : 0 ≤ b - lo), mul_nonneg (by linarith : 0 ≤ 1 - s) (by linarith : 0 ≤ a - lo)]
    · nlinarith [mul_nonneg hw.1 (by linarith : 0 ≤ hi - b), mul_nonneg (by linarith : 0 ≤ 1 - s) (by linarith : 0 ≤ hi - a)]

/-- **C20.** Real values inside the old range stay between any bounds on the old values. -/
theorem C20_bounds (r : Rel K K) (lx : List K) (ly : List K) (h : r.getData = .ok (lx, ly)) (lo hi : K)
    (hb : ∀ a ∈ ly, lo ≤ a ∧ a ≤ hi) (a : Axis K) (hs : a.sample ≠ 0) :
    ∃ q xs ys, r.interpolateExtrapolate (.axis a) = .ok q ∧ q.x = a ∧ q.getData = .ok (xs, ys) ∧
      ∀ i (h : i < xs.length) (h' : i < ys.length), InRange lx xs[i] → lo ≤ ys[i] ∧ ys[i] ≤ hi := by
  obtain ⟨q, xs, ys, h1, h2, h3, h4⟩ := C20_piecewise_linear r lx ly h a hs
  exact ⟨q, xs, ys, h1, h2, h3, fun i hi1 hi2 hr => interpolant_bounds r lx ly h lo hi _ _ hb hr (h4 i hi1 hi2)⟩

theorem interpolant_lines (r : Rel K V) (lx : List K) (ly : List V) (h : r.getData = .ok (lx, ly)) (p q : V)
    (hline : ∀ i (h : i < lx.length) (h' : i < ly.length), ly[i] = lx[i] • p + q) (t : K) (v : V)
    (hr : InRange lx t) (hv : IsInterpolant lx ly t v) : v = t • p + q := by
  obtain ⟨hx, rfl, hlen⟩ := (getData_ok_iff _ _ _).1 h
  rcases inRange_cases (Axis.array_monotone hx) hr with ⟨i, hi', he⟩ | ⟨i, hi', h1, h2⟩
  · rw [hv.sample i hi' (by omega) he, hline i hi' (by omega), he]
  · have hne : lx[i + 1] - lx[i] ≠ 0 := by
      rcases Axis.array_monotone hx with hm | hm
      · exact sub_ne_zero.2 (ne_of_gt ((List.pairwise_iff_getElem.1 hm) i (i + 1) (by omega) hi' (by omega)))
      · exact sub_ne_zero.2 (ne_of_lt ((List.pairwise_iff_getElem.1 hm) i (i + 1) (by omega) hi' (by omega)))
    rw [hv.between i hi' (by omega) h1 h2, hline i (by omega) (by omega), hline (i + 1) hi' (by omega),
      add_sub_add_right_eq_sub, ← sub_smul, smul_smul, div_mul_cancel₀ _ hne, sub_smul]
    abel

/-- **C21.** Samples of a straight line are interpolated exactly at every new point inside the old range. -/
theorem C21_lines (r : Rel K V) (lx : List K) (ly : List V) (h : r.getData = .ok (lx, ly)) (p q : V)
    (hline : ∀ i (h : i < lx.length) (h' : i < ly.length), ly[i] = lx[i] • p + q) (a : Axis K) (hs : a.sample ≠ 0) :
    ∃ w xs ys, r.interpolateExtrapolate (.axis a) = .ok w ∧ w.x = a ∧ w.getData = .ok (xs, ys) ∧
      ∀ i (h : i < xs.length) (h' : i < ys.length), InRange lx xs[i] → ys[i] = xs[i] • p + q := by
  obtain ⟨w, xs, ys, h1, h2, h3, h4⟩ := C20_piecewise_linear r lx ly h a hs
  exact ⟨w, xs, ys, h1, h2, h3, fun i hi1 hi2 hr => interpolant_lines r lx ly h p q hline _ _ hr (h4 i hi1 hi2)⟩

example : (⟨⟨0, 2, 1⟩, [1, 3, 5]⟩ : Rel ℚ ℚ).interpolateExtrapolate (.axis ⟨-1/2, 3, 1/2⟩) =
    .ok ⟨⟨-1/2, 3, 1/2⟩, [0, 1, 2, 3, 4, 5, 0, 0]⟩ := by decide +kernel
example : InRange ([0, 1, 2] : List ℚ) (3/2) := ⟨1, by simp, 2, by simp, by norm_num, by norm_num⟩

/-- **C22.** `equalize` succeeds on balanced relations and returns two balanced relations on the common axis; the
arguments can be swapped. -/
theorem C22_equalize (r1 r2 : Rel K V) (h1 : Balanced r1) (h2 : Balanced r2) :
    ∃ q1 q2, Rel.equalize false r1 r2 = .ok (q1, q2) ∧ Rel.equalize false r2 r1 = .ok (q2, q1) ∧
      q1.x = q2.x ∧ q1.x.start = min r1.x.start r2.x.start ∧ q1.x.stop = max r1.x.stop r2.x.stop ∧
      q1.x.sample = min r1.x.sample r2.x.sample ∧ Balanced q1 ∧ Balanced q2 ∧
      r1.interpolateExtrapolate (.axis q1.x) = .ok q1 ∧ r2.interpolateExtrapolate (.axis q2.x) = .ok q2 := by
  obtain ⟨hs1, -⟩ := (balanced_iff r1).1 h1
  obtain ⟨hs2, -⟩ := (balanced_iff r2).1 h2
  obtain ⟨⟨l1, y1⟩, d1⟩ := (balanced_iff_getData r1).1 h1
  obtain ⟨⟨l2, y2⟩, d2⟩ := (balanced_iff_getData r2).1 h2
  have hc := sample_min_ne_zero hs1 hs2
  obtain ⟨q1, xs, ys, a1, a2, a3, a4, a5, -⟩ := interpAxis_spec r1 l1 y1 d1 _ hc
  obtain ⟨q2, xs2, ys2, b1, b2, b3, b4, b5, -⟩ := interpAxis_spec r2 l2 y2 d2 _ hc
  obtain ⟨c1, c2, c3, -⟩ := C06_common_axis r1.x r2.x
  refine ⟨q1, q2, ?_, ?_, by rw [a2, b2], by rw [a2, c1], by rw [a2, c2], by rw [a2, c3],
    (balanced_iff_getData q1).2 ⟨_, a5⟩, (balanced_iff_getData q2).2 ⟨_, b5⟩, by rw [a2]; exact a1,
    by rw [b2]; exact b1⟩
  · simp [Rel.equalize, a1, b1]
  · simp [Rel.equalize, (C06_semilattice r2.x r1.x r1.x).1, a1, b1]

section
variable [DecidableEq V] [PyPow V]

/-- **C22.** Sharing one axis object or having two equal ones makes no difference to the data. -/
theorem C22_identity_irrelevant (r1 r2 : Rel K V) (h1 : Balanced r1) (h2 : Balanced r2) (hx : r1.x = r2.x) :
    Rel.equalize true r1 r2 = .ok (r1, r2) ∧ Rel.equalize false r1 r2 = .ok (r1, r2) :=
  ⟨equalize_equal_axes true r1 r2 h1 h2 hx, equalize_equal_axes false r1 r2 h1 h2 hx⟩

example : Rel.equalize false (⟨⟨0, 2, 1⟩, [1, 3, 5]⟩ : Rel ℚ ℚ) ⟨⟨1, 3, 2⟩, [4, 6]⟩ =
    .ok (⟨⟨0, 3, 1⟩, [1, 3, 5, 0]⟩, ⟨⟨0, 3, 1⟩, [0, 4, 5, 6]⟩) := by decide +kernel

/-- **C25.** Relations on arbitrary axes: the result lives on the common axis and its value at each point is the
operation applied to the two interpolants; the only possible failure is a non-finite value. -/
theorem C25_different_axes (r1 r2 : Rel K V) (l1 l2 : List K) (y1 y2 : List V) (h1 : r1.getData = .ok (l1, y1))
    (h2 : r2.getData = .ok (l2, y2)) (op : MathOp) :
    (∀ q, r1.operation (.rel false r2) op = .ok q →
      q.x.start = min r1.x.start r2.x.start ∧ q.x.stop = max r1.x.stop r2.x.stop ∧
      q.x.sample = min r1.x.sample r2.x.sample ∧
      ∃ xs, q.getData = .ok (xs, q.y) ∧ ∀ i (a : i < xs.length) (b : i < q.y.length), ∃ v1 v2,
        IsInterpolant l1 y1 xs[i] v1 ∧ IsInterpolant l2 y2 xs[i] v2 ∧ OpResult op v1 v2 q.y[i]) ∧
    (∀ e, r1.operation (.rel false r2) op = .error e → e = .nonFinite) ∧
    (op = .add ∨ op = .sub ∨ op = .mul → ∃ q, r1.operation (.rel false r2) op = .ok q) := by
  have b1 : Balanced r1 := (balanced_iff_getData r1).2 ⟨_, h1⟩
  have b2 : Balanced r2 := (balanced_iff_getData r2).2 ⟨_, h2⟩
  obtain ⟨hs1, -⟩ := (balanced_iff r1).1 b1
  obtain ⟨hs2, -⟩ := (balanced_iff r2).1 b2
  have hc := sample_min_ne_zero hs1 hs2
  obtain ⟨p1, xs, ys1, a1, a2, a3, a4, a5, a6⟩ := interpAxis_spec r1 l1 y1 h1 _ hc
  obtain ⟨p2, xs2, ys2, c1, c2, c3, c4, c5, c6⟩ := interpAxis_spec r2 l2 y2 h2 _ hc
  rw [a3] at c3
  simp only [Except.ok.injEq] at c3
  subst c3
  have bp1 : Balanced p1 := (balanced_iff_getData p1).2 ⟨_, a5⟩
  have bp2 : Balanced p2 := (balanced_iff_getData p2).2 ⟨_, c5⟩
  have hpx : p1.x = p2.x := by rw [a2, c2]
  have heq : r1.operation (.rel false r2) op = p1.operation (.rel true p2) op := by
    simp [Rel.operation, Rel.equalize, a1, c1]
  obtain ⟨e1, e2, e3, -⟩ := C06_common_axis r1.x r2.x
  obtain ⟨f1, f2, f3, -⟩ := C24_equal_axes true p1 p2 bp1 bp2 hpx op
  rw [heq]
  refine ⟨?_, f2, fun h => f3 (by tauto)⟩
  intro q hq
  obtain ⟨g1, g2, g3⟩ := (f1 q).1 hq
  have hlen1 := ((getData_ok_iff _ _ _).1 a5).2.2
  have hlen2 := ((getData_ok_iff _ _ _).1 c5).2.2
  refine ⟨by rw [g1, a2, e1], by rw [g1, a2, e2], by rw [g1, a2, e3], xs, ?_, ?_⟩
  · rw [getData_ok_iff]
    exact ⟨by rw [g1, a2, a3], rfl, by rw [g2, a4, hlen1]⟩
  · intro i a b
    refine ⟨ys1[i]'(by omega), ys2[i]'(by omega), a6 i a (by omega), c6 i a (by omega), ?_⟩
    have := g3 i (by rw [a4]; omega) (by rw [c4]; omega) b
    simpa only [a4, c4] using this

/-- **C25.** Sum and product do not depend on the order of the operands, whatever the axes. -/
theorem C25_commutative (r1 r2 : Rel K V) (h1 : Balanced r1) (h2 : Balanced r2) :
    r1.add (.rel false r2) = r2.add (.rel false r1) ∧ r1.mul (.rel false r2) = r2.mul (.rel false r1) := by
  obtain ⟨q1, q2, e1, e2, e3, -, -, -, b1, b2, -⟩ := C22_equalize r1 r2 h1 h2
  have hl := balanced_length_eq b1 b2 e3
  constructor
  · simp only [Rel.add, Rel.operation, e1, e2, except_bind_ok, mathOperation_arr _ _ _ hl,
      mathOperation_arr _ _ _ hl.symm, e3]
    rw [List.zipWith_comm_of_comm (f := MathOp.fn .add)]
    intro x y
    simp [MathOp.fn, add_comm]
  · simp only [Rel.mul, Rel.operation, e1, e2, except_bind_ok, mathOperation_arr _ _ _ hl,
      mathOperation_arr _ _ _ hl.symm, e3]
    rw [List.zipWith_comm_of_comm (f := MathOp.fn .mul)]
    intro x y
    simp [MathOp.fn, mul_comm]

example : (⟨⟨0, 2, 1⟩, [1, 3, 5]⟩ : Rel ℚ ℚ).add (.rel false ⟨⟨1, 3, 2⟩, [4, 6]⟩) =
    .ok ⟨⟨0, 3, 1⟩, [1, 7, 10, 6]⟩ := by decide +kernel

/-- sum, difference and product on equal axes in closed form -/
theorem op_closed (same : Bool) (r1 r2 : Rel K V) (h1 : Balanced r1) (h2 : Balanced r2) (hx : r1.x = r2.x) :
    r1.add (.rel same r2) = .ok ⟨r1.x, List.zipWith (fun a b => a + b) r1.y r2.y⟩ ∧
    r1.sub (.rel same r2) = .ok ⟨r1.x, List.zipWith (fun a b => a - b) r1.y r2.y⟩ ∧
    r1.mul (.rel same r2) = .ok ⟨r1.x, List.zipWith (fun a b => a * b) r1.y r2.y⟩ := by
  have key : ∀ (op : MathOp) (f : V → V → V), (∀ a b, op.fn a b = some (f a b)) →
      r1.operation (.rel same r2) op = .ok ⟨r1.x, List.zipWith f r1.y r2.y⟩ := by
    intro op f hf
    rw [operation_equal_axes same r1 r2 op h1 h2 hx]
    have : op.fn = fun a b => some (f a b) := by funext a b; exact hf a b
    rw [this, zipWith_some, finite_map_some]
    rfl
  exact ⟨key .add _ fun _ _ => rfl, key .sub _ fun _ _ => rfl, key .mul _ fun _ _ => rfl⟩

/-- **C26.** Ring laws on equal axes (each operator call may or may not see the same axis object). -/
theorem C26_ring_laws (s1 s2 s3 s4 s5 : Bool) (a b c : Rel K V) (ha : Balanced a) (hb : Balanced b)
    (hc : Balanced c) (hab : a.x = b.x) (hbc : b.x = c.x) :
    (a.add (.rel s1 b) = b.add (.rel s2 a)) ∧
    (a.mul (.rel s1 b) = b.mul (.rel s2 a)) ∧
    ((do (← a.add (.rel s1 b)).add (.rel s2 c)) = (do a.add (.rel s4 (← b.add (.rel s3 c))))) ∧
    ((do (← a.mul (.rel s1 b)).mul (.rel s2 c)) = (do a.mul (.rel s4 (← b.mul (.rel s3 c))))) ∧
    ((do a.mul (.rel s1 (← b.add (.rel s2 c)))) =
      (do (← a.mul (.rel s3 b)).add (.rel s4 (← a.mul (.rel s5 c))))) ∧
    (a.sub (.rel s1 a) = .ok ⟨a.x, a.y.map fun _ => 0⟩) ∧
    ((do (← a.add (.rel s1 b)).sub (.rel s2 b)) = .ok a) ∧
    (a.sub (.rel s1 b) = (do a.add (.rel s2 (← b.rmul (.other (.num (-1))))))) := by
  have lab := balanced_length_eq ha hb hab
  have lbc := balanced_length_eq hb hc hbc
  refine ⟨?_, ?_, ?_, ?_, ?_, ?_, ?_, ?_⟩
  · rw [(op_closed s1 a b ha hb hab).1, (op_closed s2 b a hb ha hab.symm).1,
      List.zipWith_comm_of_comm (f := fun x y : V => x + y) (fun x y => add_comm x y), hab]
  · rw [(op_closed s1 a b ha hb hab).2.2, (op_closed s2 b a hb ha hab.symm).2.2,
      List.zipWith_comm_of_comm (f := fun x y : V => x * y) (fun x y => mul_comm x y), hab]
  · rw [(op_closed s1 a b ha hb hab).1, (op_closed s3 b c hb hc hbc).1]
    simp only [except_bind_ok]
    rw [(op_closed s2 _ c (balanced_zipWith _ ha hb hab) hc (hab.trans hbc)).1,
      (op_closed s4 a _ ha (balanced_zipWith _ hb hc hbc) hab).1]
    congr 2
    apply List.ext_getElem (by simp [Nat.min_assoc])
    intro i h1 h2
    simp [add_assoc]
  · rw [(op_closed s1 a b ha hb hab).2.2, (op_closed s3 b c hb hc hbc).2.2]
    simp only [except_bind_ok]
    rw [(op_closed s2 _ c (balanced_zipWith _ ha hb hab) hc (hab.trans hbc)).2.2,
      (op_closed s4 a _ ha (balanced_zipWith _ hb hc hbc) hab).2.2]
    congr 2
    apply List.ext_getElem (by simp [Nat.min_assoc])
    intro i h1 h2
    simp [mul_assoc]
  · rw [(op_closed s2 b c hb hc hbc).1, (op_closed s3 a b ha hb hab).2.2,
      (op_closed s5 a c ha hc (hab.trans hbc)).2.2]
    simp only [except_bind_ok]
    rw [(op_closed s1 a _ ha (balanced_zipWith _ hb hc hbc) hab).2.2,
      (op_closed s4 _ _ (balanced_zipWith _ ha hb hab) (balanced_zipWith _ ha hc (hab.trans hbc)) rfl).1]
    congr 2
    apply List.ext_getElem (by simp; omega)
    intro i h1 h2
    simp [mul_add]
  · rw [(op_closed s1 a a ha ha rfl).2.1]
    congr 2
    apply List.ext_getElem (by simp)
    intro i h1 h2
    simp
  · rw [(op_closed s1 a b ha hb hab).1]
    simp only [except_bind_ok]
    rw [(op_closed s2 _ b (balanced_zipWith _ ha hb hab) hb hab).2.1]
    congr 1
    refine Rel.ext' (b := a) rfl ?_
    apply List.ext_getElem (by simp; omega)
    intro i h1 h2
    simp
  · rw [(C23_with_number b hb (-1)).2.2.2.2.2.1, (op_closed s1 a b ha hb hab).2.1]
    simp only [except_bind_ok]
    rw [(op_closed s2 a _ ha (balanced_map _ hb) hab).1]
    congr 2
    apply List.ext_getElem (by simp)
    intro i h1 h2
    simp [sub_eq_add_neg]

/-- on different axes `(a + b) - b` is not `a`: the axis changes -/
example : ((⟨⟨0, 1, 1⟩, [1, 3]⟩ : Rel ℚ ℚ).add (.rel false ⟨⟨0, 2, 1⟩, [4, 6, 7]⟩) >>= fun s =>
      s.sub (.rel false ⟨⟨0, 2, 1⟩, [4, 6, 7]⟩)) = .ok ⟨⟨0, 2, 1⟩, [1, 3, 0]⟩ := by decide +kernel
example : Balanced (⟨⟨0, 2, 1⟩, [4, 6, 7]⟩ : Rel ℚ ℚ) := by unfold Balanced; decide +kernel

end

/-- **C27.** `shift` moves every x by `d` and keeps the rest; shifts add up; shifting by zero is the identity. -/
theorem C27_shift (r : Rel K V) (lx : List K) (ly : List V) (h : r.getData = .ok (lx, ly)) (d e : K) :
    (∃ q, r.shift d = .ok q ∧ q.getData = .ok (lx.map (· + d), ly) ∧ q.x.sample = r.x.sample ∧
      q.shift e = r.shift (d + e)) ∧ r.shift 0 = .ok r := by
  obtain ⟨hx, rfl, hlen⟩ := (getData_ok_iff _ _ _).1 h
  have hb : Balanced r := (balanced_iff_getData r).2 ⟨_, h⟩
  obtain ⟨hs, hl⟩ := (balanced_iff r).1 hb
  have hst : ∀ d, Axis.steps ({ r.x with start := r.x.start + d, stop := r.x.stop + d } : Axis K) = r.x.steps := by
    intro d
    simp only [Axis.steps, add_sub_add_right_eq_sub]
  have hmk : ∀ d, r.shift d = .ok ⟨{ r.x with start := r.x.start + d, stop := r.x.stop + d }, r.y⟩ := by
    intro d
    apply make_ok
    rw [Axis.size_eq _ (by exact hs), hst d, hl]
  refine ⟨⟨_, hmk d, ?_, rfl, ?_⟩, ?_⟩
  · rw [getData_ok_iff]
    refine ⟨?_, rfl, by simpa using hlen⟩
    rw [Axis.array_eq _ (by exact hs), hst d]
    congr 1
    have hsp := Axis.array_spaced hx
    apply List.ext_getElem
    · rw [linspace_length, List.length_map, hsp.1]
    · intro i h1 h2
      rw [linspace_getElem, List.getElem_map, hsp.2]
      unfold Axis.step
      push_cast
      ring
  · rw [hmk (d + e)]
    simp only [Rel.shift]
    rw [← add_assoc, ← add_assoc]
    have := hmk (d + e)
    simp only [Rel.shift, ← add_assoc] at this
    exact this
  · rw [hmk 0]
    simp

example : (⟨⟨0, 5, 2⟩, [1, 3, 5]⟩ : Rel ℚ ℚ).shift 10 = .ok ⟨⟨10, 15, 2⟩, [1, 3, 5]⟩ := by decide +kernel

end SweepDesign
