import Verif.Props.Arithmetic
import Verif.Props.FreqTime
import Verif.Py.Pow
import Mathlib.Analysis.SpecialFunctions.Pow.Complex

/-!
# Powers and the exponential

`**` with a number or a relation on either side, and `exp`, for real samples (`PyPow ℝ`) and, where a law holds
there too, for complex samples (`PyPow ℂ`). The right-hand sides below use only `x ^ n` for a natural number `n`,
the real power of a positive number, and the exponential.
-/

set_option linter.unusedSectionVars false

namespace SweepDesign
open Spec

section
variable {K : Type} [Field K] [LinearOrder K] [IsStrictOrderedRing K] [FloorRing K]
variable {V : Type} [Field V] [Algebra K V] [DecidableEq V] [PyPow V]

theorem balanced_same_length {r : Rel K V} {x : Axis K} (h : Balanced r) (hx : x = r.x) (l : List V)
    (hl : l.length = r.y.length) : Balanced (⟨x, l⟩ : Rel K V) := by
  rw [balanced_iff] at h ⊢
  subst hx
  exact ⟨h.1, hl.trans h.2⟩

theorem op_num_total {r : Rel K V} (h : Balanced r) {c : V} {op : MathOp} (f : V → V)
    (hf : ∀ a ∈ r.y, op.fn a c = some (f a)) : r.operation (.other (.num c)) op = .ok ⟨r.x, r.y.map f⟩ := by
  rw [operation_num r c op h]
  have : (r.y.map fun a => op.fn a c) = (r.y.map f).map some := by
    rw [List.map_map]
    exact List.map_congr_left hf
  rw [this, finite_map_some]
  rfl

theorem op_num_fails {r : Rel K V} (h : Balanced r) {c : V} {op : MathOp} {a : V} (ha : a ∈ r.y)
    (hf : op.fn a c = none) : r.operation (.other (.num c)) op = .error .nonFinite := by
  rw [operation_num r c op h]
  have : (r.y.map fun a => op.fn a c).mapM id = none := by
    rw [mapM_id_eq_none]
    exact List.mem_map.2 ⟨a, ha, hf⟩
  unfold finite
  rw [this]
  rfl

theorem op_rel_total {r q : Rel K V} (same : Bool) (h : Balanced r) (h' : Balanced q) (hx : r.x = q.x) {op : MathOp}
    (f : V → V → V) (hf : ∀ a ∈ r.y, ∀ b ∈ q.y, op.fn a b = some (f a b)) :
    r.operation (.rel same q) op = .ok ⟨r.x, List.zipWith f r.y q.y⟩ := by
  rw [operation_equal_axes same r q op h h' hx]
  have : List.zipWith op.fn r.y q.y = (List.zipWith f r.y q.y).map some := by
    rw [List.map_zipWith]
    refine List.ext_getElem (by simp) fun i h1 h2 => ?_
    simp only [List.getElem_zipWith]
    exact hf _ (List.getElem_mem _) _ (List.getElem_mem _)
  rw [this, finite_map_some]
  rfl

end

section Real
variable {K : Type} [Field K] [LinearOrder K] [IsStrictOrderedRing K] [FloorRing K] [Algebra K ℝ]

theorem ppow_nat (a : ℝ) (n : ℕ) : PyPow.ppow a (n : ℝ) = some (a ^ n) := by
  have h1 : ¬ ((n : ℝ) < 0) := by simp
  have h2 : ∃ k : ℤ, (k : ℝ) = n := ⟨n, by simp⟩
  simp [PyPow.ppow, h1, h2]

theorem ppow_int {a : ℝ} (ha : a ≠ 0) (n : ℤ) : PyPow.ppow a (n : ℝ) = some (a ^ n) := by
  have h2 : ∃ k : ℤ, (k : ℝ) = n := ⟨n, rfl⟩
  simp only [PyPow.ppow, ha, h2, not_true, and_false, false_and, or_false, if_false]
  rw [Real.rpow_intCast]

theorem ppow_of_pos {a : ℝ} (ha : 0 < a) (b : ℝ) : PyPow.ppow a b = some (a ^ b) := by
  have h1 : ¬ (a < 0) := not_lt.2 ha.le
  simp [PyPow.ppow, h1, ha.ne']

theorem ppow_root {a : ℝ} (ha : 0 ≤ a) {b : ℝ} (hb : 0 ≤ b) : PyPow.ppow a b = some (a ^ b) := by
  simp [PyPow.ppow, not_lt.2 ha, not_lt.2 hb]

/-- **C142.** A power with a whole exponent: the samples are multiplied by themselves that often, on the same axis,
and nothing is raised — negative samples and zeros included; the power 0 is 1 everywhere. -/
theorem C142_whole (r : Rel K ℝ) (h : Balanced r) (n : ℕ) :
    r.pow (.other (.num (n : ℝ))) = .ok ⟨r.x, r.y.map fun a => a ^ n⟩ :=
  op_num_total h _ fun a _ => ppow_nat a n

example : (⟨⟨0, 2, 1⟩, [-2, 0, 3]⟩ : Rel ℝ ℝ).pow (.other (.num ((3 : ℕ) : ℝ))) = .ok ⟨⟨0, 2, 1⟩, [-8, 0, 27]⟩ := by
  rw [C142_whole _ (balanced_whole _ 2 (by norm_num) (by norm_num) rfl)]
  norm_num

/-- **C142.** A negative whole exponent: the reciprocal of the power if no sample is zero, otherwise a sample that
is not a number. -/
theorem C142_reciprocal (r : Rel K ℝ) (h : Balanced r) (n : ℕ) (hn : 0 < n) :
    ((∀ a ∈ r.y, a ≠ 0) → r.pow (.other (.num (-(n : ℝ)))) = .ok ⟨r.x, r.y.map fun a => 1 / a ^ n⟩) ∧
    (0 ∈ r.y → r.pow (.other (.num (-(n : ℝ)))) = .error .nonFinite) := by
  constructor
  · intro hz
    refine op_num_total h _ fun a ha => ?_
    have := ppow_int (hz a ha) (-(n : ℤ))
    simp only [MathOp.fn]
    push_cast at this
    rw [this]
    simp
  · intro hz
    refine op_num_fails h hz ?_
    have : -(n : ℝ) < 0 := by simpa using hn
    simp [MathOp.fn, PyPow.ppow, hn]

/-- **C142.** The power `1/n`: for samples that are not negative it is the `n`-th root, and a negative sample gives
a sample that is not a number. -/
theorem C142_root (r : Rel K ℝ) (h : Balanced r) (n : ℕ) (hn : 2 ≤ n) :
    ((∀ a ∈ r.y, 0 ≤ a) → ∃ q, r.pow (.other (.num (1 / (n : ℝ)))) = .ok q ∧ q.x = r.x ∧
      q.y.length = r.y.length ∧ (∀ b ∈ q.y, 0 ≤ b) ∧
      q.pow (.other (.num (n : ℝ))) = .ok r) ∧
    ((∃ a ∈ r.y, a < 0) → r.pow (.other (.num (1 / (n : ℝ)))) = .error .nonFinite) := by
  have hn0 : (n : ℝ) ≠ 0 := by positivity
  constructor
  · intro hp
    refine ⟨⟨r.x, r.y.map fun a => a ^ (1 / (n : ℝ))⟩, op_num_total h _ fun a ha => ?_, rfl, by simp, ?_, ?_⟩
    · exact ppow_root (hp a ha) (by positivity)
    · intro b hb
      obtain ⟨a, ha, rfl⟩ := List.mem_map.1 hb
      exact Real.rpow_nonneg (hp a ha) _
    · rw [C142_whole _ (balanced_same_length h rfl _ (by simp))]
      rw [List.map_map]
      have : r.y.map ((fun a : ℝ => a ^ n) ∘ fun a => a ^ (1 / (n : ℝ))) = r.y := by
        conv_rhs => rw [← List.map_id r.y]
        refine List.map_congr_left fun a ha => ?_
        simp only [Function.comp, id]
        rw [← Real.rpow_natCast, ← Real.rpow_mul (hp a ha), one_div, inv_mul_cancel₀ hn0, Real.rpow_one]
      rw [this]
  · rintro ⟨a, ha, hneg⟩
    refine op_num_fails h ha ?_
    have : ¬ ∃ k : ℤ, (k : ℝ) = 1 / (n : ℝ) := by
      rintro ⟨k, hk⟩
      have h2 : (2 : ℝ) ≤ n := by exact_mod_cast hn
      have h3 : (0 : ℝ) < k := by rw [hk]; positivity
      have h4 : (k : ℝ) < 1 := by rw [hk, div_lt_one (by positivity)]; linarith
      have h5 : (0 : ℤ) < k := by exact_mod_cast h3
      have h6 : k < (1 : ℤ) := by exact_mod_cast h4
      omega
    have hg : (a = 0 ∧ 1 / (n : ℝ) < 0) ∨ (a < 0 ∧ ¬ ∃ k : ℤ, (k : ℝ) = 1 / (n : ℝ)) := Or.inr ⟨hneg, this⟩
    simp only [MathOp.fn, PyPow.ppow]
    rw [if_pos hg]

/-- **C142.** The laws of powers, for positive samples and any exponents: powers of one relation multiply by adding
the exponents, divide by subtracting them, and are raised by multiplying them. -/
theorem C142_exponents (same : Bool) (r : Rel K ℝ) (h : Balanced r) (hp : ∀ a ∈ r.y, 0 < a) (b c : ℝ) :
    (do let p ← r.pow (.other (.num b))
        let q ← r.pow (.other (.num c))
        p.mul (.rel same q)) = r.pow (.other (.num (b + c))) ∧
    (do let p ← r.pow (.other (.num b))
        let q ← r.pow (.other (.num c))
        p.truediv (.rel same q)) = r.pow (.other (.num (b - c))) ∧
    (do let p ← r.pow (.other (.num b))
        p.pow (.other (.num c))) = r.pow (.other (.num (b * c))) ∧
    ∃ p, r.pow (.other (.num b)) = .ok p ∧ p.x = r.x ∧ p.y.length = r.y.length ∧ ∀ a ∈ p.y, 0 < a := by
  have key : ∀ e : ℝ, r.pow (.other (.num e)) = .ok ⟨r.x, r.y.map fun a => a ^ e⟩ := fun e =>
    op_num_total h _ fun a ha => ppow_of_pos (hp a ha) e
  have bal : ∀ e : ℝ, Balanced (⟨r.x, r.y.map fun a => a ^ e⟩ : Rel K ℝ) := fun e =>
    balanced_same_length h rfl _ (by simp)
  have zip : ∀ (f : ℝ → ℝ → ℝ) (g : ℝ → ℝ), (∀ a ∈ r.y, f (a ^ b) (a ^ c) = g a) →
      List.zipWith f (r.y.map fun a => a ^ b) (r.y.map fun a => a ^ c) = r.y.map g := by
    intro f g hg
    rw [List.zipWith_map, List.zipWith_self]
    exact List.map_congr_left hg
  simp only [key, except_bind_ok]
  refine ⟨?_, ?_, ?_, _, rfl, rfl, by simp, ?_⟩
  · rw [Rel.mul, op_rel_total same (bal b) (bal c) rfl (fun u v => u * v) fun _ _ _ _ => rfl]
    rw [zip _ _ fun a ha => (Real.rpow_add (hp a ha) b c).symm]
  · rw [Rel.truediv, op_rel_total same (bal b) (bal c) rfl (fun u v => u / v) fun u _ v hv => ?_]
    · rw [zip _ _ fun a ha => (Real.rpow_sub (hp a ha) b c).symm]
    · obtain ⟨a, ha, rfl⟩ := List.mem_map.1 hv
      simp only [MathOp.fn]
      rw [if_neg (Real.rpow_pos_of_pos (hp a ha) c).ne']
  · rw [Rel.pow, op_num_total (bal b) (fun a => a ^ c) fun u hu => ?_]
    · rw [List.map_map]
      congr 2
      exact List.map_congr_left fun a ha => (Real.rpow_mul (hp a ha).le b c).symm
    · obtain ⟨a, ha, rfl⟩ := List.mem_map.1 hu
      exact ppow_of_pos (Real.rpow_pos_of_pos (hp a ha) b) c
  · intro v hv
    obtain ⟨a, ha, rfl⟩ := List.mem_map.1 hv
    exact Real.rpow_pos_of_pos (hp a ha) b

/-- **C142.** The square root of the square is the magnitude. -/
theorem C142_magnitude (r : Rel K ℝ) (h : Balanced r) :
    (do let p ← r.pow (.other (.num 2))
        p.pow (.other (.num (1 / 2)))) = .ok ⟨r.x, r.y.map fun a => |a|⟩ := by
  have e1 := C142_whole r h 2
  push_cast at e1
  have hb : Balanced (⟨r.x, r.y.map fun a => a ^ 2⟩ : Rel K ℝ) := balanced_same_length h rfl _ (by simp)
  rw [e1, except_bind_ok, Rel.pow, op_num_total hb (fun a => a ^ (1 / 2 : ℝ)) fun u hu => ?_]
  · rw [List.map_map]
    congr 2
    refine List.map_congr_left fun a _ => ?_
    simp only [Function.comp]
    rw [← Real.sqrt_eq_rpow, Real.sqrt_sq_eq_abs]
  · obtain ⟨a, -, rfl⟩ := List.mem_map.1 hu
    exact ppow_root (sq_nonneg a) (by norm_num)

/-- For samples that are not positive the last law fails: the square root of the square of -1 is 1, its first
power is -1. -/
theorem C142_root_of_square : ∃ (r : Rel ℝ ℝ) (b c : ℝ), Balanced r ∧
    (do let p ← r.pow (.other (.num b))
        p.pow (.other (.num c))) ≠ r.pow (.other (.num (b * c))) ∧
    b * c = 1 ∧ ∃ p q, (do let p ← r.pow (.other (.num b))
                           p.pow (.other (.num c))) = .ok p ∧ p.y = [1, 1] ∧
      r.pow (.other (.num (b * c))) = .ok q ∧ q = r ∧ r.y = [-1, 1] := by
  have h : Balanced (⟨⟨0, 1, 1⟩, [-1, 1]⟩ : Rel ℝ ℝ) := 
    balanced_whole _ 1 (by norm_num) (by norm_num) rfl
  have h1 : Balanced (⟨⟨0, 1, 1⟩, [1, 1]⟩ : Rel ℝ ℝ) := 
    balanced_whole _ 1 (by norm_num) (by norm_num) rfl
  have e1 : (⟨⟨0, 1, 1⟩, [-1, 1]⟩ : Rel ℝ ℝ).pow (.other (.num 2)) = .ok ⟨⟨0, 1, 1⟩, [1, 1]⟩ := by
    have := C142_whole _ h 2
    push_cast at this
    rw [this]
    norm_num
  have e2 : (⟨⟨0, 1, 1⟩, [1, 1]⟩ : Rel ℝ ℝ).pow (.other (.num (1 / 2))) = .ok ⟨⟨0, 1, 1⟩, [1, 1]⟩ := by
    rw [Rel.pow, op_num_total h1 (fun a => a ^ (1 / 2 : ℝ)) fun a ha => ppow_root (by
      simp at ha; rw [ha]; norm_num) (by norm_num)]
    simp
  have e3 : (⟨⟨0, 1, 1⟩, [-1, 1]⟩ : Rel ℝ ℝ).pow (.other (.num (2 * (1 / 2)))) = .ok ⟨⟨0, 1, 1⟩, [-1, 1]⟩ := by
    have := C142_whole _ h 1
    rw [show (2 : ℝ) * (1 / 2) = ((1 : ℕ) : ℝ) by norm_num, this]
    norm_num
  refine ⟨⟨⟨0, 1, 1⟩, [-1, 1]⟩, 2, 1 / 2, h, ?_, by norm_num, ⟨⟨0, 1, 1⟩, [1, 1]⟩, _, ?_, rfl, e3, rfl, rfl⟩
  · rw [e1, except_bind_ok, e2, e3]
    simp
    norm_num
  · rw [e1, except_bind_ok, e2]

/-- **C142.** The power of a product is the product of the powers, for positive samples and any exponent, and for
any samples and a whole exponent. -/
theorem C142_product (same same' : Bool) (r q : Rel K ℝ) (h : Balanced r) (h' : Balanced q) (hx : r.x = q.x) (c : ℝ)
    (hc : (∃ n : ℕ, c = n) ∨ (∀ a ∈ r.y, 0 < a) ∧ ∀ a ∈ q.y, 0 < a) :
    (do let p ← r.mul (.rel same q)
        p.pow (.other (.num c))) =
    (do let p ← r.pow (.other (.num c))
        let s ← q.pow (.other (.num c))
        p.mul (.rel same' s)) := by
  have hl := balanced_length_eq h h' hx
  have m : r.mul (.rel same q) = .ok ⟨r.x, List.zipWith (fun a b => a * b) r.y q.y⟩ :=
    op_rel_total same h h' hx _ fun _ _ _ _ => rfl
  have bm : Balanced (⟨r.x, List.zipWith (fun a b => a * b) r.y q.y⟩ : Rel K ℝ) :=
    balanced_same_length h rfl _ (by simp [hl])
  have aux : ∃ f : ℝ → ℝ, (∀ a ∈ r.y, PyPow.ppow a c = some (f a)) ∧ (∀ a ∈ q.y, PyPow.ppow a c = some (f a)) ∧
      (∀ a ∈ r.y, ∀ b ∈ q.y, PyPow.ppow (a * b) c = some (f a * f b)) := by
    rcases hc with ⟨n, rfl⟩ | ⟨hr, hq⟩
    · refine ⟨fun a => a ^ n, fun a _ => ppow_nat a n, fun a _ => ppow_nat a n, fun a _ b _ => ?_⟩
      rw [ppow_nat, mul_pow]
    · refine ⟨fun a => a ^ c, fun a ha => ppow_of_pos (hr a ha) c, fun a ha => ppow_of_pos (hq a ha) c,
        fun a ha b hb => ?_⟩
      rw [ppow_of_pos (mul_pos (hr a ha) (hq b hb)), Real.mul_rpow (hr a ha).le (hq b hb).le]
  obtain ⟨f, f1, f2, f3⟩ := aux
  have er : r.pow (.other (.num c)) = .ok ⟨r.x, r.y.map f⟩ := op_num_total h f f1
  have eq : q.pow (.other (.num c)) = .ok ⟨q.x, q.y.map f⟩ := op_num_total h' f f2
  rw [m, er, eq]
  simp only [except_bind_ok]
  have br : Balanced (⟨r.x, r.y.map f⟩ : Rel K ℝ) := balanced_same_length h rfl _ (by simp)
  have bq : Balanced (⟨q.x, q.y.map f⟩ : Rel K ℝ) := balanced_same_length h' rfl _ (by simp)
  rw [Rel.mul, op_rel_total same' br bq hx (fun u v => u * v) fun _ _ _ _ => rfl]
  rw [Rel.pow, operation_num _ c .pow bm]
  have : (List.zipWith (fun a b => a * b) r.y q.y).map (fun a => MathOp.pow.fn a c) =
      (List.zipWith (fun u v => u * v) (r.y.map f) (q.y.map f)).map some := by
    refine List.ext_getElem (by simp) fun i h1 h2 => ?_
    simp only [List.getElem_map, List.getElem_zipWith, MathOp.fn]
    exact f3 _ (List.getElem_mem _) _ (List.getElem_mem _)
  simp only [this, finite_map_some]
  rfl

/-- **C142.** A positive number raised to a relation: never fails, the samples are positive, and sums of relations
on one axis become products. -/
theorem C142_base (same same' : Bool) (r q : Rel K ℝ) (h : Balanced r) (h' : Balanced q) (hx : r.x = q.x) (c : ℝ)
    (hc : 0 < c) :
    (∃ p, r.rpow (.other (.num c)) = .ok p ∧ p.x = r.x ∧ p.y.length = r.y.length ∧ ∀ a ∈ p.y, 0 < a) ∧
    (do let s ← r.add (.rel same q)
        s.rpow (.other (.num c))) =
    (do let p ← r.rpow (.other (.num c))
        let s ← q.rpow (.other (.num c))
        p.mul (.rel same' s)) := by
  have hl := balanced_length_eq h h' hx
  have m : r.add (.rel same q) = .ok ⟨r.x, List.zipWith (fun a b => a + b) r.y q.y⟩ :=
    op_rel_total same h h' hx _ fun _ _ _ _ => rfl
  have bm : Balanced (⟨r.x, List.zipWith (fun a b => a + b) r.y q.y⟩ : Rel K ℝ) :=
    balanced_same_length h rfl _ (by simp [hl])
  have key : ∀ s : Rel K ℝ, Balanced s → s.rpow (.other (.num c)) = .ok ⟨s.x, s.y.map fun a => c ^ a⟩ := fun s hs =>
    op_num_total hs _ fun a _ => ppow_of_pos hc a
  rw [m, key r h, key q h']
  simp only [except_bind_ok]
  refine ⟨⟨_, rfl, rfl, by simp, ?_⟩, ?_⟩
  · intro a ha
    obtain ⟨b, -, rfl⟩ := List.mem_map.1 ha
    exact Real.rpow_pos_of_pos hc b
  · rw [key _ bm]
    have br : Balanced (⟨r.x, r.y.map fun a => c ^ a⟩ : Rel K ℝ) := balanced_same_length h rfl _ (by simp)
    have bq : Balanced (⟨q.x, q.y.map fun a => c ^ a⟩ : Rel K ℝ) := balanced_same_length h' rfl _ (by simp)
    rw [Rel.mul, op_rel_total same' br bq hx (fun u v => u * v) fun _ _ _ _ => rfl]
    congr 2
    refine List.ext_getElem (by simp) fun i h1 h2 => ?_
    simp only [List.getElem_map, List.getElem_zipWith]
    exact Real.rpow_add hc _ _

/-- **C142.** The number zero raised to a relation: 1 where the sample is zero and 0 where it is positive; a negative
sample gives a sample that is not a number. -/
theorem C142_zero_base (r : Rel K ℝ) (h : Balanced r) :
    ((∀ a ∈ r.y, 0 ≤ a) → r.rpow (.other (.num 0)) = .ok ⟨r.x, r.y.map fun a => if a = 0 then 1 else 0⟩) ∧
    ((∃ a ∈ r.y, a < 0) → r.rpow (.other (.num 0)) = .error .nonFinite) := by
  refine ⟨fun hp => op_num_total h _ fun a ha => ?_, fun ⟨a, ha, hn⟩ => op_num_fails h ha ?_⟩
  · simp only [MathOp.fn]
    rw [ppow_root le_rfl (hp a ha)]
    by_cases h0 : a = 0
    · simp [h0]
    · simp [h0, Real.zero_rpow h0]
  · simp [MathOp.fn, PyPow.ppow, hn]

/-- **C142.** A negative number raised to a relation: its whole powers if every sample is a whole number, otherwise
a sample that is not a number. -/
theorem C142_negative_base (r : Rel K ℝ) (h : Balanced r) (c : ℝ) (hc : c < 0) :
    (∀ k : List ℤ, r.y = k.map (fun n : ℤ => (n : ℝ)) →
      r.rpow (.other (.num c)) = .ok ⟨r.x, k.map fun n => c ^ n⟩) ∧
    ((∃ a ∈ r.y, ∀ n : ℤ, (n : ℝ) ≠ a) → r.rpow (.other (.num c)) = .error .nonFinite) := by
  refine ⟨fun k hk => ?_, fun ⟨a, ha, hn⟩ => op_num_fails h ha ?_⟩
  · have := op_num_total h (c := c) (op := .rpow) (fun a => c ^ a) fun a ha => by
      rw [hk] at ha
      obtain ⟨n, -, rfl⟩ := List.mem_map.1 ha
      simp only [MathOp.fn]
      rw [ppow_int hc.ne, Real.rpow_intCast]
    rw [Rel.rpow, this, hk, List.map_map]
    congr 2
    exact List.map_congr_left fun n _ => by simp
  · have : ¬ ∃ n : ℤ, (n : ℝ) = a := fun ⟨n, e⟩ => hn n e
    simp only [MathOp.fn, PyPow.ppow]
    rw [if_pos (.inr ⟨hc, this⟩)]

example : (⟨⟨0, 2, 1⟩, [-1, 0, 3]⟩ : Rel ℝ ℝ).rpow (.other (.num (-2))) = .ok ⟨⟨0, 2, 1⟩, [-(1 / 2), 1, -8]⟩ := by
  rw [(C142_negative_base _ (balanced_whole _ 2 (by norm_num) (by norm_num) rfl) (-2) (by norm_num)).1 [-1, 0, 3] (by norm_num)]
  norm_num

/-- **C142.** A relation raised to a relation on the same axis, sample by sample; positive samples never fail. -/
theorem C142_relation (same : Bool) (r q : Rel K ℝ) (h : Balanced r) (h' : Balanced q) (hx : r.x = q.x)
    (hp : ∀ a ∈ r.y, 0 < a) :
    r.pow (.rel same q) = .ok ⟨r.x, List.zipWith (fun a b => Real.exp (b * Real.log a)) r.y q.y⟩ ∧
    q.rpow (.rel same r) = .ok ⟨r.x, List.zipWith (fun a b => Real.exp (b * Real.log a)) r.y q.y⟩ := by
  constructor
  · refine op_rel_total same h h' hx _ fun a ha b _ => ?_
    simp only [MathOp.fn]
    rw [ppow_of_pos (hp a ha), Real.rpow_def_of_pos (hp a ha), mul_comm]
  · rw [Rel.rpow, op_rel_total same h' h hx.symm (fun b a => Real.exp (b * Real.log a)) fun b _ a ha => ?_]
    · rw [List.zipWith_comm, hx]
    · simp only [MathOp.fn]
      rw [ppow_of_pos (hp a ha), Real.rpow_def_of_pos (hp a ha), mul_comm]

/-- **C142.** `exp`: positive samples on the same axis; sums on one axis become products, the number `e` raised to
the relation is the same, and multiplying the relation by a number raises the exponential to that power. -/
theorem C142_exp (same same' : Bool) (r q : Rel K ℝ) (h : Balanced r) (h' : Balanced q) (hx : r.x = q.x) (c : ℝ) :
    (∃ p, r.exp Real.exp = .ok p ∧ p.x = r.x ∧ p.y.length = r.y.length ∧ ∀ a ∈ p.y, 0 < a) ∧
    (do let s ← r.add (.rel same q)
        s.exp Real.exp) =
    (do let p ← r.exp Real.exp
        let s ← q.exp Real.exp
        p.mul (.rel same' s)) ∧
    r.rpow (.other (.num (Real.exp 1))) = r.exp Real.exp ∧
    (do let s ← r.mul (.other (.num c))
        s.exp Real.exp) =
    (do let p ← r.exp Real.exp
        p.pow (.other (.num c))) := by
  have hl := balanced_length_eq h h' hx
  have key : ∀ s : Rel K ℝ, Balanced s → s.exp Real.exp = .ok ⟨s.x, s.y.map Real.exp⟩ := by
    intro s hs
    unfold Rel.exp
    exact make_ok (by rw [List.length_map]; exact hs)
  have e1 : r.rpow (.other (.num (Real.exp 1))) = .ok ⟨r.x, r.y.map Real.exp⟩ :=
    op_num_total h _ fun a _ => by simp only [MathOp.fn]; rw [ppow_of_pos (Real.exp_pos 1), Real.exp_one_rpow]
  have m : r.add (.rel same q) = .ok ⟨r.x, List.zipWith (fun a b => a + b) r.y q.y⟩ :=
    op_rel_total same h h' hx _ fun _ _ _ _ => rfl
  have bm : Balanced (⟨r.x, List.zipWith (fun a b => a + b) r.y q.y⟩ : Rel K ℝ) :=
    balanced_same_length h rfl _ (by simp [hl])
  have t : r.mul (.other (.num c)) = .ok ⟨r.x, r.y.map fun a => a * c⟩ := op_num_total h _ fun _ _ => rfl
  have bt : Balanced (⟨r.x, r.y.map fun a => a * c⟩ : Rel K ℝ) := balanced_same_length h rfl _ (by simp)
  have br : Balanced (⟨r.x, r.y.map Real.exp⟩ : Rel K ℝ) := balanced_same_length h rfl _ (by simp)
  have bq : Balanced (⟨q.x, q.y.map Real.exp⟩ : Rel K ℝ) := balanced_same_length h' rfl _ (by simp)
  rw [m, t, key r h, key q h']
  simp only [except_bind_ok]
  refine ⟨⟨_, rfl, rfl, by simp, ?_⟩, ?_, e1, ?_⟩
  · intro a ha
    obtain ⟨b, -, rfl⟩ := List.mem_map.1 ha
    exact Real.exp_pos b
  · rw [key _ bm, Rel.mul, op_rel_total same' br bq hx (fun u v => u * v) fun _ _ _ _ => rfl]
    congr 2
    refine List.ext_getElem (by simp) fun i h1 h2 => ?_
    simp only [List.getElem_map, List.getElem_zipWith]
    exact Real.exp_add _ _
  · rw [key _ bt, Rel.pow, op_num_total br (fun a => a ^ c) fun u hu => ?_]
    · rw [List.map_map, List.map_map]
      congr 2
      exact List.map_congr_left fun a _ => Real.exp_mul a c
    · obtain ⟨a, -, rfl⟩ := List.mem_map.1 hu
      exact ppow_of_pos (Real.exp_pos a) c

end Real

section Complex
variable {K : Type} [Field K] [LinearOrder K] [IsStrictOrderedRing K] [FloorRing K] [Algebra K ℂ]

theorem ppow_complex {a : ℂ} (ha : a ≠ 0) (b : ℂ) : PyPow.ppow a b = some (a ^ b) := by
  simp [PyPow.ppow, ha]

/-- **C142.** Complex samples (a spectrum): whole powers, products of powers of samples that are not zero, and the
exponential of a sum. -/
theorem C142_complex (same same' : Bool) (r q : Rel K ℂ) (h : Balanced r) (h' : Balanced q) (hx : r.x = q.x)
    (n : ℕ) (b c : ℂ) :
    r.pow (.other (.num (n : ℂ))) = .ok ⟨r.x, r.y.map fun a => a ^ n⟩ ∧
    ((∀ a ∈ r.y, a ≠ 0) →
      (do let p ← r.pow (.other (.num b))
          let q ← r.pow (.other (.num c))
          p.mul (.rel same q)) = r.pow (.other (.num (b + c)))) ∧
    (do let s ← r.add (.rel same q)
        s.exp Complex.exp) =
    (do let p ← r.exp Complex.exp
        let s ← q.exp Complex.exp
        p.mul (.rel same' s)) := by
  have hl := balanced_length_eq h h' hx
  refine ⟨op_num_total h _ fun a _ => ?_, fun hz => ?_, ?_⟩
  · have hg : ¬ (a = 0 ∧ (n : ℂ) ≠ 0 ∧ (n : ℂ).re ≤ 0) := by
      rintro ⟨-, h1, h2⟩
      have : (n : ℝ) ≤ 0 := by simpa using h2
      have h3 : n = 0 := by exact_mod_cast le_antisymm this (Nat.cast_nonneg n)
      exact h1 (by simp [h3])
    simp only [MathOp.fn, PyPow.ppow]
    rw [if_neg hg, Complex.cpow_natCast]
  · have key : ∀ e : ℂ, r.pow (.other (.num e)) = .ok ⟨r.x, r.y.map fun a => a ^ e⟩ := fun e =>
      op_num_total h _ fun a ha => ppow_complex (hz a ha) e
    have bal : ∀ e : ℂ, Balanced (⟨r.x, r.y.map fun a => a ^ e⟩ : Rel K ℂ) := fun e =>
      balanced_same_length h rfl _ (by simp)
    simp only [key, except_bind_ok]
    rw [Rel.mul, op_rel_total same (bal b) (bal c) rfl (fun u v => u * v) fun _ _ _ _ => rfl]
    rw [List.zipWith_map, List.zipWith_self]
    congr 2
    exact List.map_congr_left fun a ha => (Complex.cpow_add b c (hz a ha)).symm
  · have key : ∀ s : Rel K ℂ, Balanced s → s.exp Complex.exp = .ok ⟨s.x, s.y.map Complex.exp⟩ := by
      intro s hs
      unfold Rel.exp
      exact make_ok (by rw [List.length_map]; exact hs)
    have m : r.add (.rel same q) = .ok ⟨r.x, List.zipWith (fun a b => a + b) r.y q.y⟩ :=
      op_rel_total same h h' hx _ fun _ _ _ _ => rfl
    have bm : Balanced (⟨r.x, List.zipWith (fun a b => a + b) r.y q.y⟩ : Rel K ℂ) :=
      balanced_same_length h rfl _ (by simp [hl])
    have br : Balanced (⟨r.x, r.y.map Complex.exp⟩ : Rel K ℂ) := balanced_same_length h rfl _ (by simp)
    have bq : Balanced (⟨q.x, q.y.map Complex.exp⟩ : Rel K ℂ) := balanced_same_length h' rfl _ (by simp)
    rw [m, key r h, key q h']
    simp only [except_bind_ok]
    rw [key _ bm, Rel.mul, op_rel_total same' br bq hx (fun u v => u * v) fun _ _ _ _ => rfl]
    congr 2
    refine List.ext_getElem (by simp) fun i h1 h2 => ?_
    simp only [List.getElem_map, List.getElem_zipWith]
    exact Complex.exp_add _ _

end Complex

/-- A concrete case: two relations with positive samples on one axis. -/
example : Balanced (⟨⟨0, 2, 1⟩, [1, 2, 3]⟩ : Rel ℝ ℝ) ∧ Balanced (⟨⟨0, 2, 1⟩, [5, 1 / 2, 7]⟩ : Rel ℝ ℝ) ∧
    (∀ a ∈ [(1 : ℝ), 2, 3], 0 < a) ∧ ∀ a ∈ [(5 : ℝ), 1 / 2, 7], 0 < a :=
  ⟨balanced_whole _ 2 (by norm_num) (by norm_num) rfl, balanced_whole _ 2 (by norm_num) (by norm_num) rfl,
    by simp, by simp⟩

/-- A relation of zeros on 0..1 and one on 1..2. -/
def zeros01 : Rel ℚ ℚ := ⟨⟨0, 1, 1⟩, [0, 0]⟩
def zeros12 : Rel ℚ ℚ := ⟨⟨1, 2, 1⟩, [0, 0]⟩

/-- On different axes sums do not become products: outside its axis a relation counts as 0, the exponential of which
is 1, but the exponential of the relation also counts as 0 there. For any function taking 0 to 1 in place of the
exponential. -/
theorem C142_other_axes (e : ℚ → ℚ) (he : e 0 = 1) :
    (do let s ← zeros01.add (.rel false zeros12)
        s.exp e) = .ok ⟨⟨0, 2, 1⟩, [1, 1, 1]⟩ ∧
    (do let p ← zeros01.exp e
        let s ← zeros12.exp e
        p.mul (.rel false s)) = .ok ⟨⟨0, 2, 1⟩, [0, 1, 0]⟩ := by
  have h1 : zeros01.add (.rel false zeros12) = .ok ⟨⟨0, 2, 1⟩, [0, 0, 0]⟩ := by decide +kernel
  have h2 : (⟨⟨0, 1, 1⟩, [1, 1]⟩ : Rel ℚ ℚ).mul (.rel false ⟨⟨1, 2, 1⟩, [1, 1]⟩) = .ok ⟨⟨0, 2, 1⟩, [0, 1, 0]⟩ := by
    decide +kernel
  have e1 : zeros01.exp e = .ok ⟨⟨0, 1, 1⟩, [1, 1]⟩ := by
    simp only [Rel.exp, zeros01, List.map, he]
    decide +kernel
  have e2 : zeros12.exp e = .ok ⟨⟨1, 2, 1⟩, [1, 1]⟩ := by
    simp only [Rel.exp, zeros12, List.map, he]
    decide +kernel
  have e3 : (⟨⟨0, 2, 1⟩, [0, 0, 0]⟩ : Rel ℚ ℚ).exp e = .ok ⟨⟨0, 2, 1⟩, [1, 1, 1]⟩ := by
    simp only [Rel.exp, List.map, he]
    decide +kernel
  rw [h1, e1, e2]
  simp only [except_bind_ok]
  exact ⟨e3, h2⟩

end SweepDesign
