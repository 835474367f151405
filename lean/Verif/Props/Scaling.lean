import Verif.Props.UnitsSweep
import Verif.Lemmas.ToComplex

/-!
# C109 The unit of the samples

The same object with all its samples multiplied by one number.
-/

set_option linter.unusedSectionVars false

namespace SweepDesign

section
variable {K : Type} [Field K] [LinearOrder K] [IsStrictOrderedRing K] [FloorRing K]
variable {V : Type} [Field V] [Algebra K V]

/-- all samples multiplied by `k` -/
def Spec.times (k : V) (r : Rel K V) : Rel K V := ⟨r.x, r.y.map (k * ·)⟩

open Spec

/-! ## Machinery -/

variable (k : V)

theorem make_times (a : Axis K) (y : List V) : Rel.make a (y.map (k * ·)) = (Rel.make a y).map (times k) := by
  unfold Rel.make
  rw [except_bind_map]
  refine except_bind_congr fun n _ => ?_
  rw [List.length_map]
  split <;> rfl

theorem shift_times (r : Rel K V) (d : K) : (times k r).shift d = (r.shift d).map (times k) := make_times k _ _

theorem selectData_times (r : Rel K V) (s e : Option K) : (times k r).selectData s e = (r.selectData s e).map (times k) := by
  unfold Rel.selectData
  show (r.x.array >>= _) = _
  rw [except_bind_map]
  refine except_bind_congr fun x _ => ?_
  rw [except_bind_map]
  refine except_bind_congr fun sx _ => ?_
  rcases sx.head? with _ | a
  · rfl
  rcases sx.getLast? with _ | b
  · rfl
  show (maskSelect _ (r.y.map (k * ·)) >>= _) = _
  rw [maskSelect_map, except_map_bind, except_bind_map]
  exact except_bind_congr fun y _ => make_times k _ _

theorem getItem_times (r : Rel K V) (v : K) : (times k r).getItem v = (r.getItem v).map fun p => (p.1, k * p.2) := by
  unfold Rel.getItem
  show (r.x.array >>= _) = _
  rw [except_bind_map]
  refine except_bind_congr fun x _ => ?_
  rw [except_bind_map]
  refine except_bind_congr fun i _ => ?_
  show (match x[i]?, (r.y.map (k * ·))[i]? with | some t, some w => _ | _, _ => _) = _
  rw [List.getElem?_map]
  rcases x[i]? with _ | t
  · rfl
  rcases r.y[i]? with _ | w <;> rfl

theorem at0_times (y : List V) (i : ℕ) : at0 (y.map (k * ·)) i = k * at0 y i := by
  rcases lt_or_ge i y.length with hi | hi <;> simp [at0, List.getD, hi]

theorem interpAt_times (x : List K) (y : List V) (t : K) : interpAt x (y.map (k * ·)) t = k * interpAt x y t := by
  unfold interpAt
  rcases x.head? with _ | x0
  · simp
  rcases x.getLast? with _ | xl
  · simp
  simp only [at0_times]
  split
  · simp
  split
  · simp
  split
  · rfl
  · rw [← mul_sub, mul_add, mul_smul_comm, mul_smul_comm]

theorem interp1d_times (x : List K) (y : List V) (xs : List K) :
    interp1d x (y.map (k * ·)) xs = (interp1d x y xs).map (List.map (k * ·)) := by
  unfold interp1d
  rw [List.length_map]
  split
  · rfl
  split
  · rfl
  · have e : x.zip (y.map (k * ·)) = (x.zip y).map (fun p => (p.1, k * p.2)) := by rw [List.zip_map_right]; rfl
    have hs : ((x.zip y).map (fun p => (p.1, k * p.2))).insertionSort (fun p q => p.1 ≤ q.1) =
        ((x.zip y).insertionSort (fun p q => p.1 ≤ q.1)).map (fun p => (p.1, k * p.2)) := by
      symm
      apply List.map_insertionSort
      intro a _ b _
      simp
    rw [e, hs]
    simp only [List.map_map]
    show Except.ok _ = Except.ok _
    congr 1
    rw [List.map_map]
    refine List.map_congr_left fun t _ => ?_
    have h1 : (Prod.fst ∘ fun p : K × V => (p.1, k * p.2)) = Prod.fst := rfl
    have h2 : (Prod.snd ∘ fun p : K × V => (p.1, k * p.2)) = (k * ·) ∘ Prod.snd := rfl
    rw [h1, h2, ← List.map_map]
    exact interpAt_times k _ _ t

theorem interpAxis_times (r : Rel K V) (a : Axis K) : (times k r).interpAxis a = (r.interpAxis a).map (times k) := by
  unfold Rel.interpAxis
  show (r.x.array >>= _) = _
  rw [except_bind_map]
  refine except_bind_congr fun x _ => ?_
  rw [except_bind_map]
  refine except_bind_congr fun xs _ => ?_
  show (interp1d x (r.y.map (k * ·)) xs >>= _) = _
  rw [interp1d_times, except_map_bind, except_bind_map]
  exact except_bind_congr fun y _ => make_times k a y

theorem equalize_times (k' : V) (same : Bool) (a b : Rel K V) :
    Rel.equalize same (times k a) (times k' b) = (Rel.equalize same a b).map fun p => (times k p.1, times k' p.2) := by
  unfold Rel.equalize
  cases same with
  | true => rfl
  | false =>
    show ((times k a).interpAxis (commonX a.x b.x) >>= fun q1 => (times k' b).interpAxis (commonX a.x b.x) >>= _) = _
    rw [interpAxis_times, except_map_bind]
    show _ = Except.map _ (a.interpAxis (commonX a.x b.x) >>= _)
    rw [except_bind_map]
    refine except_bind_congr fun q1 _ => ?_
    rw [interpAxis_times, except_map_bind, except_bind_map]
    rfl

theorem cumsumFrom_times (a : V) (l : List V) : cumsumFrom (k * a) (l.map (k * ·)) = (cumsumFrom a l).map (k * ·) := by
  induction l generalizing a with
  | nil => rfl
  | cons b l ih => simp [cumsumFrom, ← mul_add, ih]

theorem means_times (y : List V) :
    List.zipWith (fun a b => (b + a) / 2) (y.map (k * ·)) (y.map (k * ·)).tail =
      (List.zipWith (fun a b => (b + a) / 2) y y.tail).map (k * ·) := by
  rw [← List.map_tail, List.zipWith_map, List.map_zipWith]
  congr 1
  funext a b
  rw [← mul_add, mul_div_assoc]

theorem cumTrapz_times (y : List V) : cumTrapz (y.map (k * ·)) = (cumTrapz y).map (k * ·) := by
  unfold cumTrapz cumsum
  rw [← cumsumFrom_times, mul_zero, means_times]

theorem integrate_times (r : Rel K V) : (times k r).integrate = r.integrate.map (times k) := by
  unfold Rel.integrate
  simp only []
  rw [← make_times]
  show Rel.make _ ((cumTrapz (r.y.map (k * ·))).map fun v => r.x.sample • v) = _
  rw [cumTrapz_times, List.map_map, List.map_map]
  congr 1
  exact List.map_congr_left fun v _ => (mul_smul_comm _ _ _).symm

theorem diff_times (r : Rel K V) : (times k r).diff = r.diff.map (times k) := by
  unfold Rel.diff
  simp only []
  rw [← make_times]
  show Rel.make _ ((npDiff (r.y.map (k * ·))).map fun v => r.x.sample⁻¹ • v) = _
  have e : npDiff (r.y.map (k * ·)) = (npDiff r.y).map (k * ·) := by
    unfold npDiff
    rw [← List.map_tail, List.zipWith_map, List.map_zipWith]
    congr 1
    funext a b
    rw [mul_sub]
  rw [e, List.map_map, List.map_map]
  congr 1
  exact List.map_congr_left fun v _ => (mul_smul_comm _ _ _).symm

theorem trapz_times (y : List V) (x : List K) : trapz (y.map (k * ·)) x = k * trapz y x := by
  unfold trapz
  rw [means_times, List.zipWith_map_right]
  have e : ∀ l : List V, k * l.sum = (l.map (k * ·)).sum := fun l => by rw [List.sum_map_mul_left]; simp
  rw [e, List.map_zipWith]
  congr 2
  funext d v
  rw [mul_smul_comm]

theorem oneIntegrate_times (r : Rel K V) : (times k r).oneIntegrate = r.oneIntegrate.map (k * ·) := by
  have e : (times k r).getData = r.getData.map fun p => (p.1, p.2.map (k * ·)) := by
    unfold Rel.getData
    show (r.x.size >>= _) = _
    rw [except_bind_map]
    refine except_bind_congr fun n _ => ?_
    show (if n ≠ (r.y.map (k * ·)).length then Except.error (Err.notEqual n (r.y.map (k * ·)).length) else _) = _
    rw [List.length_map]
    split
    · rfl
    · rw [except_bind_map]; rfl
  unfold Rel.oneIntegrate
  rw [e, except_map_bind, except_bind_map]
  exact except_bind_congr fun p _ => congrArg Except.ok (trapz_times k p.2 p.1)

section
variable [DecidableEq V] [PyPow V]

/-- the entries of an operand that is not a relation, multiplied -/
def NpOperand.times (k : V) : NpOperand V → NpOperand V
  | .num c => .num (k * c)
  | .arr l => .arr (l.map (k * ·))
  | .bad => .bad

theorem finite_map (l : List (Option V)) (f : V → V) : finite (l.map (Option.map f)) = (finite l).map (List.map f) := by
  by_cases h : none ∈ l
  · rw [finite_error l h, finite_error _ (List.mem_map.2 ⟨none, h, rfl⟩)]; rfl
  · obtain ⟨m, rfl⟩ : ∃ m : List V, l = m.map some := by
      induction l with
      | nil => exact ⟨[], rfl⟩
      | cons a l ih =>
        obtain ⟨m, hm⟩ := ih fun hh => h (List.mem_cons_of_mem _ hh)
        cases a with
        | none => simp at h
        | some a => exact ⟨a :: m, by simp [hm]⟩
    rw [List.map_map, finite_map_some, show (Option.map f ∘ some : V → Option V) = some ∘ f from rfl, ← List.map_map, finite_map_some]
    rfl

/-- an operation on multiplied entries is the operation, multiplied -/
theorem mathOperation_times {k1 k2 k3 : V} {op : MathOp} (h : ∀ a b, op.fn (k1 * a) (k2 * b) = (op.fn a b).map (k3 * ·))
    (y : List V) (o : NpOperand V) :
    mathOperation (y.map (k1 * ·)) (o.times k2) op = (mathOperation y o op).map (List.map (k3 * ·)) := by
  have hn : ∀ c, finite ((y.map (k1 * ·)).map fun a => op.fn a (k2 * c)) =
      (finite (y.map fun a => op.fn a c)).map (List.map (k3 * ·)) := by
    intro c
    rw [← finite_map, List.map_map, List.map_map]
    congr 1
    exact List.map_congr_left fun a _ => h a c
  cases o with
  | num c => exact hn c
  | bad => rfl
  | arr l =>
    simp only [mathOperation, NpOperand.times, List.length_map]
    split
    · rw [← finite_map, List.zipWith_map, List.map_zipWith]
      congr 2
      funext a b
      exact h a b
    · rename_i hne
      rcases y with _ | ⟨a, _ | ⟨a', y⟩⟩ <;> rcases l with _ | ⟨b, _ | ⟨b', l⟩⟩ <;>
        simp only [List.map_nil, List.map_cons] at hn ⊢ <;> first
        | rfl
        | exact absurd rfl hne
        | exact hn b
        | (rw [← finite_map]
           simp only [List.map_cons, List.map_map, h]
           congr 3
           exact List.map_congr_left fun b _ => h a b)

theorem operation_rel_times {k1 k2 k3 : V} {op : MathOp} (h : ∀ a b, op.fn (k1 * a) (k2 * b) = (op.fn a b).map (k3 * ·))
    (same : Bool) (a b : Rel K V) :
    (times k1 a).operation (.rel same (times k2 b)) op = (a.operation (.rel same b) op).map (times k3) := by
  unfold Rel.operation
  simp only []
  rw [equalize_times, except_map_bind, except_bind_map]
  refine except_bind_congr fun p _ => ?_
  have := mathOperation_times h p.1.y (.arr p.2.y)
  show (mathOperation (p.1.y.map (k1 * ·)) (.arr (p.2.y.map (k2 * ·))) op >>= _) = _
  rw [show NpOperand.arr (p.2.y.map (k2 * ·)) = (NpOperand.arr p.2.y).times k2 from rfl, this, except_map_bind, except_bind_map]
  exact except_bind_congr fun y _ => make_times k3 p.1.x y

theorem operation_other_times {k1 k2 k3 : V} {op : MathOp} (h : ∀ a b, op.fn (k1 * a) (k2 * b) = (op.fn a b).map (k3 * ·))
    (a : Rel K V) (o : NpOperand V) :
    (times k1 a).operation (.other (o.times k2)) op = (a.operation (.other o) op).map (times k3) := by
  unfold Rel.operation
  simp only []
  show (mathOperation (a.y.map (k1 * ·)) _ op >>= _) = _
  rw [mathOperation_times h, except_map_bind, except_bind_map]
  exact except_bind_congr fun y _ => make_times k3 a.x y

theorem fn_add (op : MathOp) (ho : op = .add ∨ op = .radd ∨ op = .sub ∨ op = .rsub) (a b : V) :
    op.fn (k * a) (k * b) = (op.fn a b).map (k * ·) := by
  rcases ho with rfl | rfl | rfl | rfl <;> simp [MathOp.fn, mul_add, mul_sub]

theorem fn_mul (k1 k2 : V) (op : MathOp) (ho : op = .mul ∨ op = .rmul) (a b : V) :
    op.fn (k1 * a) (k2 * b) = (op.fn a b).map (k1 * k2 * ·) := by
  rcases ho with rfl | rfl <;> simp [MathOp.fn] <;> ring

theorem fn_div (k1 : V) {k2 : V} (h2 : k2 ≠ 0) (a b : V) :
    MathOp.truediv.fn (k1 * a) (k2 * b) = (MathOp.truediv.fn a b).map (k1 / k2 * ·) := by
  by_cases hb : b = 0
  · simp [MathOp.fn, hb]
  · simp [MathOp.fn, hb, h2]; field_simp

theorem fn_rdiv {k1 : V} (h1 : k1 ≠ 0) (k2 : V) (a b : V) :
    MathOp.rtruediv.fn (k1 * a) (k2 * b) = (MathOp.rtruediv.fn a b).map (k2 / k1 * ·) := by
  by_cases ha : a = 0
  · simp [MathOp.fn, ha]
  · simp [MathOp.fn, ha, h1]; field_simp

theorem getNorm_times (r : Rel K V) : (times k r).getNorm = r.getNorm.map (k * k * ·) := by
  have hp : ∀ r : Rel K V, r.pow (.other (.num 2)) = Rel.make r.x (r.y.map fun a => a * a) := by
    intro r
    unfold Rel.pow Rel.operation mathOperation
    simp only []
    rw [show (r.y.map fun a => MathOp.pow.fn a 2) = (r.y.map fun a => a * a).map some by
      rw [List.map_map]; exact List.map_congr_left fun a _ => PyPow.ppow_two a, finite_map_some]
    rfl
  unfold Rel.getNorm
  rw [hp, hp]
  have e : ((times k r).y.map fun a => a * a) = (r.y.map fun a => a * a).map (k * k * ·) := by
    show (r.y.map (k * ·)).map _ = _
    rw [List.map_map, List.map_map]
    refine List.map_congr_left fun a _ => ?_
    simp only [Function.comp]; ring
  rw [e, show (times k r).x = r.x from rfl, make_times, except_map_bind, except_bind_map]
  refine except_bind_congr fun q _ => ?_
  rw [oneIntegrate_times, except_map_bind, except_bind_map]
  refine except_bind_congr fun i _ => ?_
  exact congrArg Except.ok (mul_smul_comm _ _ _).symm

end

theorem npConvolve_times (k' : V) (a v : List V) : npConvolve (a.map (k * ·)) (v.map (k' * ·)) = (npConvolve a v).map (k * k' * ·) := by
  unfold npConvolve
  rw [List.length_map, List.length_map, List.map_map]
  refine List.map_congr_left fun n _ => ?_
  simp only [Function.comp, ← List.sum_map_mul_left]
  congr 1
  refine List.map_congr_left fun i _ => ?_
  simp only [at0_times]
  ring

theorem alignForConv_times (k' : V) (a b : Rel K V) :
    Rel.alignForConv (times k a) (times k' b) =
      (Rel.alignForConv a b).map fun p => (times k p.1, times k' p.2.1, p.2.2) := by
  unfold Rel.alignForConv
  rw [shift_times, shift_times, except_map_bind, except_bind_map]
  refine except_bind_congr fun q1 _ => ?_
  rw [except_map_bind, except_bind_map]
  refine except_bind_congr fun q2 _ => ?_
  rw [equalize_times, except_map_bind, except_bind_map]
  rfl

theorem convolve_times (k' : V) (a b : Rel K V) : (times k a).convolve (times k' b) = (a.convolve b).map (times (k * k')) := by
  unfold Rel.convolve
  rw [alignForConv_times, except_map_bind, except_bind_map]
  refine except_bind_congr fun p _ => ?_
  show Rel.make p.2.2 (npConvolve (p.1.y.map (k * ·)) (p.2.1.y.map (k' * ·))) = _
  rw [npConvolve_times]
  exact make_times _ _ _

theorem correlate_times [StarRing V] (k' : V) (a b : Rel K V) :
    (times k a).correlate (times k' b) = (a.correlate b).map (times (k * star k')) := by
  unfold Rel.correlate
  rw [alignForConv_times, except_map_bind, except_bind_map]
  refine except_bind_congr fun p _ => ?_
  show Rel.make p.2.2 (npConvolve (p.1.y.map (k * ·)) (((p.2.1.y.map (k' * ·)).map star).reverse)) = _
  have e : ((p.2.1.y.map (k' * ·)).map star).reverse = ((p.2.1.y.map star).reverse).map (star k' * ·) := by
    rw [List.map_map, List.map_reverse, List.map_map]
    congr 1
    refine List.map_congr_left fun v _ => ?_
    simp only [Function.comp, star_mul']
  rw [e, npConvolve_times]
  exact make_times _ _ _

end

section
open Spec
variable (k : ℝ)

theorem reorderByTime_times (t : Axis ℝ) (a : List ℝ) :
    reorderByTime t (a.map (k * ·)) = (reorderByTime t a).map (List.map (k * ·)) := by
  unfold reorderByTime
  rw [except_bind_map]
  refine except_bind_congr fun x _ => ?_
  rw [maskSelect_map, maskSelect_map, except_map_bind, except_bind_map]
  refine except_bind_congr fun u _ => ?_
  rw [except_map_bind, except_bind_map]
  refine except_bind_congr fun v _ => ?_
  exact congrArg Except.ok List.map_append.symm

theorem rfft_times (a : List ℝ) (n : Option ℤ) : rfft (a.map (k * ·)) n = (rfft a n).map (List.map ((k : ℂ) * ·)) := by
  unfold rfft
  simp only [List.length_map, at0_times]
  split
  · rfl
  · show Except.ok _ = Except.ok _
    rw [List.map_map]
    congr 1
    refine List.map_congr_left fun j _ => ?_
    simp only [Function.comp]
    rw [Finset.mul_sum]
    refine Finset.sum_congr rfl fun i _ => ?_
    push_cast
    ring

theorem irfft_times (a : List ℂ) (n : Option ℤ) : irfft (a.map ((k : ℂ) * ·)) n = (irfft a n).map (List.map (k * ·)) := by
  have h : ∀ m i, hermitianExt (a.map ((k : ℂ) * ·)) m i = (k : ℂ) * hermitianExt a m i := by
    intro m i
    unfold hermitianExt
    split
    · exact at0_times _ _ _
    · rw [at0_times, map_mul, Complex.conj_ofReal]
  unfold irfft
  simp only [List.length_map, h]
  split
  · rfl
  · show Except.ok _ = Except.ok _
    rw [List.map_map]
    congr 1
    refine List.map_congr_left fun j _ => ?_
    simp only [Function.comp]
    rw [← mul_div_assoc, Finset.mul_sum]
    congr 1
    refine Finset.sum_congr rfl fun i _ => ?_
    rw [mul_assoc, Complex.re_ofReal_mul]

theorem calculateSpectrum_times (t : Axis ℝ) (a : List ℝ) (f : SizeArg) :
    calculateSpectrum t (a.map (k * ·)) f = (calculateSpectrum t a f).map fun p => (p.1, p.2.map ((k : ℂ) * ·)) := by
  unfold calculateSpectrum
  rw [reorderByTime_times, except_bind_map]
  refine except_bind_congr fun n _ => ?_
  rw [except_map_bind, except_bind_map]
  refine except_bind_congr fun y _ => ?_
  rw [rfft_times, except_map_bind, except_bind_map]
  refine except_bind_congr fun sp _ => ?_
  cases f <;> first | rfl | (rw [List.length_map, except_bind_map]; rfl)

theorem signal2spectrum_times (r : Rel ℝ ℝ) (f : SizeArg) (z : Bool) :
    signal2spectrum (times k r) f z = (signal2spectrum r f z).map fun p => (p.1, p.2.map ((k : ℂ) * ·)) := by
  have hz : ∀ (m : ℤ) (l : List ℝ), npZeros m = .ok l → l.map (k * ·) = l := by
    intro m l h
    unfold npZeros at h
    split at h
    · cases h
    · cases h; simp
  unfold signal2spectrum
  simp only [show (times k r).x = r.x from rfl, show (times k r).y = r.y.map (k * ·) from rfl, List.length_map]
  split
  · exact calculateSpectrum_times _ _ _ _
  split
  · rw [except_bind_map]
    refine except_bind_congr fun n _ => ?_
    rw [except_bind_map]
    refine except_bind_congr fun l hl => ?_
    rw [← calculateSpectrum_times, List.map_append, hz _ _ hl]
  split
  · rw [except_bind_map]
    refine except_bind_congr fun n _ => ?_
    rw [except_bind_map]
    refine except_bind_congr fun l hl => ?_
    rw [← calculateSpectrum_times, List.map_append, hz _ _ hl]
  · exact calculateSpectrum_times _ _ _ _

theorem getSpectrum_times (r : Rel ℝ ℝ) (f : SizeArg) (z : Bool) :
    (times k r).getSpectrum f z = (r.getSpectrum f z).map (times (k : ℂ)) := by
  unfold Rel.getSpectrum
  rw [signal2spectrum_times, except_map_bind, except_bind_map]
  exact except_bind_congr fun p _ => make_times _ _ _

theorem spectrum2signal_times (r : Rel ℝ ℂ) (t : SizeArg) (t0 : Option ℝ) :
    spectrum2signal (times (k : ℂ) r) t t0 = (spectrum2signal r t t0).map fun p => (p.1, p.2.map (k * ·)) := by
  have fin : ∀ (a : Axis ℝ) (y : List ℝ), (reorderByTime a (y.map (k * ·)) >>= fun v => (Except.ok (a, v) : Except Err _)) =
      (reorderByTime a y >>= fun v => (Except.ok (a, v) : Except Err _)).map fun p => (p.1, p.2.map (k * ·)) := by
    intro a y
    rw [reorderByTime_times, except_map_bind, except_bind_map]
    rfl
  unfold spectrum2signal
  rcases t.size with err | n
  · rfl
  simp only [except_bind_ok]
  show (irfft (r.y.map ((k : ℂ) * ·)) n >>= _) = _
  rw [irfft_times]
  rcases irfft r.y n with err | y
  · rfl
  simp only [Except.map, except_bind_ok, List.length_map]
  cases t with
  | axis a => exact fin a y
  | none =>
    show (if r.x.stop - r.x.start = 0 then _ else _) = _
    split
    · rfl
    · exact fin _ y
  | int =>
    show (if r.x.stop - r.x.start = 0 then _ else _) = _
    split
    · rfl
    · exact fin _ y

theorem getSignal_times (r : Rel ℝ ℂ) (t : SizeArg) (t0 : Option ℝ) :
    (times (k : ℂ) r).getSignal t t0 = (r.getSignal t t0).map (times k) := by
  unfold Rel.getSignal
  rw [spectrum2signal_times, except_map_bind, except_bind_map]
  exact except_bind_congr fun p _ => make_times _ _ _

theorem getAmp_times (r : Rel ℝ ℂ) (z : ℂ) : (times z r).getAmpSpectrum = r.getAmpSpectrum.map (times ‖z‖) := by
  unfold Rel.getAmpSpectrum
  rw [← make_times]
  show Rel.make r.x ((r.y.map (z * ·)).map _) = _
  rw [List.map_map, List.map_map]
  congr 1
  exact List.map_congr_left fun w _ => norm_mul _ _

variable {k}

theorem getPhase_times (hk : 0 < k) (r : Rel ℝ ℂ) : (times (k : ℂ) r).getPhaseSpectrum = r.getPhaseSpectrum := by
  unfold Rel.getPhaseSpectrum
  show Rel.make r.x (unwrap ((r.y.map ((k : ℂ) * ·)).map npAngle)) = _
  rw [List.map_map]
  congr 2
  exact List.map_congr_left fun w _ => Complex.arg_real_mul w hk

theorem toComplex_times (k : ℝ) (r : Rel ℝ ℝ) : (times k r).toComplex = times (k : ℂ) r.toComplex := by
  simp [Rel.toComplex, times]

theorem times_one {K V : Type} [Field V] (r : Rel K V) : times 1 r = r := by simp [times]

theorem fromAmpPhase_times (k : ℝ) (a p : Rel ℝ ℝ) :
    Rel.fromAmpPhase (times k a) p = (Rel.fromAmpPhase a p).map (times (k : ℂ)) := by
  unfold Rel.fromAmpPhase
  rw [except_bind_map]
  refine except_bind_congr fun q _ => ?_
  rw [except_bind_map]
  refine except_bind_congr fun e _ => ?_
  have := operation_rel_times (k1 := (k : ℂ)) (k2 := 1) (k3 := (k : ℂ)) (op := .mul)
    (fun a b => by have := fn_mul (k : ℂ) 1 .mul (.inl rfl) a b; rwa [mul_one] at this) false a.toComplex e
  rw [times_one] at this
  unfold Rel.mul
  rw [toComplex_times, this, except_map_bind, except_bind_map]
  rfl

theorem addPhase_times (hk : 0 < k) (r o : Rel ℝ ℂ) : (times (k : ℂ) r).addPhase o = (r.addPhase o).map (times (k : ℂ)) := by
  unfold Rel.addPhase
  rw [getAmp_times, getPhase_times hk, except_map_bind, except_bind_map]
  refine except_bind_congr fun amp _ => ?_
  rw [except_bind_map]
  refine except_bind_congr fun p1 _ => ?_
  rw [except_bind_map]
  refine except_bind_congr fun p2 _ => ?_
  rw [except_bind_map]
  refine except_bind_congr fun p _ => ?_
  have := fromAmpPhase_times k amp p
  rwa [show ‖(k : ℂ)‖ = k by rw [Complex.norm_real, Real.norm_eq_abs, abs_of_pos hk]]

theorem subPhase_times (hk : 0 < k) (r o : Rel ℝ ℂ) : (times (k : ℂ) r).subPhase o = (r.subPhase o).map (times (k : ℂ)) := by
  unfold Rel.subPhase
  rw [getAmp_times, getPhase_times hk, except_map_bind, except_bind_map]
  refine except_bind_congr fun amp _ => ?_
  rw [except_bind_map]
  refine except_bind_congr fun p1 _ => ?_
  rw [except_bind_map]
  refine except_bind_congr fun p2 _ => ?_
  rw [except_bind_map]
  refine except_bind_congr fun p _ => ?_
  have := fromAmpPhase_times k amp p
  rwa [show ‖(k : ℂ)‖ = k by rw [Complex.norm_real, Real.norm_eq_abs, abs_of_pos hk]]

theorem phase_of_other_times (hk : 0 < k) (r o : Rel ℝ ℂ) :
    r.addPhase (times (k : ℂ) o) = r.addPhase o ∧ r.subPhase (times (k : ℂ) o) = r.subPhase o := by
  unfold Rel.addPhase Rel.subPhase
  rw [getPhase_times hk]
  exact ⟨rfl, rfl⟩

theorem max_times (hk : 0 < k) (r : Rel ℝ ℝ) : (times k r).max = r.max.map (k * ·) := by
  unfold Rel.max
  show npMax (r.y.map (k * ·)) = _
  cases r.y with
  | nil => rfl
  | cons a l =>
    show Except.ok _ = Except.ok _
    congr 1
    clear r
    induction l generalizing a with
    | nil => rfl
    | cons b l ih =>
      simp only [List.map_cons, List.foldl_cons]
      rw [← mul_max_of_nonneg _ _ hk.le]
      exact ih _

theorem min_times (hk : 0 < k) (r : Rel ℝ ℝ) : (times k r).min = r.min.map (k * ·) := by
  unfold Rel.min
  show npMin (r.y.map (k * ·)) = _
  cases r.y with
  | nil => rfl
  | cons a l =>
    show Except.ok _ = Except.ok _
    congr 1
    clear r
    induction l generalizing a with
    | nil => rfl
    | cons b l ih =>
      simp only [List.map_cons, List.foldl_cons]
      rw [← mul_min_of_nonneg _ _ hk.le]
      exact ih _

theorem getReverseFilter_times (hk : 0 < k) (r : Rel ℝ ℂ) (pc : ℝ) (b : Bool) (s e : Option ℝ) :
    (times (k : ℂ) r).getReverseFilter pc b s e = (r.getReverseFilter pc b s e).map (times ((k⁻¹ : ℝ) : ℂ)) := by
  have hn : ‖(k : ℂ)‖ = k := by rw [Complex.norm_real, Real.norm_eq_abs, abs_of_pos hk]
  unfold Rel.getReverseFilter Rel.add Rel.rtruediv
  rw [selectData_times, except_map_bind, except_bind_map]
  refine except_bind_congr fun sp _ => ?_
  rw [getAmp_times, hn, getPhase_times hk, except_map_bind, except_bind_map]
  refine except_bind_congr fun ab _ => ?_
  rw [max_times hk, except_map_bind, except_bind_map]
  refine except_bind_congr fun m _ => ?_
  have h1 := operation_other_times (fn_add k .add (.inl rfl)) ab (.num (m * pc / 100))
  rw [show (NpOperand.num (m * pc / 100)).times k = .num (k * m * pc / 100) by simp only [NpOperand.times]; congr 1; ring] at h1
  rw [h1, except_map_bind, except_bind_map]
  refine except_bind_congr fun q1 _ => ?_
  have h2 := operation_other_times (fn_rdiv hk.ne' 1) q1 (.num 1)
  rw [show (NpOperand.num (1 : ℝ)).times 1 = .num 1 by simp [NpOperand.times], one_div] at h2
  rw [h2, except_map_bind, except_bind_map]
  refine except_bind_congr fun q2 _ => ?_
  rw [except_bind_map]
  refine except_bind_congr fun p _ => ?_
  rw [except_bind_map]
  exact except_bind_congr fun p' _ => fromAmpPhase_times _ _ _

theorem back_times (k : ℝ) (r : Rel ℝ ℝ) (sp : Rel ℝ ℂ) :
    ((times (k : ℂ) sp).getSignal (.axis r.x) >>= fun s => Rel.init (.rel s) none) =
      (sp.getSignal (.axis r.x) >>= fun s => Rel.init (.rel s) none).map (times k) := by
  rw [getSignal_times, except_map_bind, except_bind_map]
  rfl

theorem signalAddPhase_times (hk : 0 < k) (r : Rel ℝ ℝ) (o : Rel ℝ ℂ) :
    (times k r).signalAddPhase o = (r.signalAddPhase o).map (times k) := by
  unfold Rel.signalAddPhase
  rw [getSpectrum_times, except_map_bind, except_bind_map]
  refine except_bind_congr fun sp _ => ?_
  rw [addPhase_times hk, except_map_bind, except_bind_map]
  exact except_bind_congr fun q _ => back_times k r q

theorem signalSubPhase_times (hk : 0 < k) (r : Rel ℝ ℝ) (o : Rel ℝ ℂ) :
    (times k r).signalSubPhase o = (r.signalSubPhase o).map (times k) := by
  unfold Rel.signalSubPhase
  rw [getSpectrum_times, except_map_bind, except_bind_map]
  refine except_bind_congr fun sp _ => ?_
  rw [subPhase_times hk, except_map_bind, except_bind_map]
  exact except_bind_congr fun q _ => back_times k r q

theorem signalShift_times (hk : 0 < k) (r : Rel ℝ ℝ) (d : ℝ) : (times k r).signalShift d = (r.signalShift d).map (times k) := by
  unfold Rel.signalShift
  rw [getSpectrum_times, except_map_bind, except_bind_map]
  refine except_bind_congr fun sp _ => ?_
  show (sp.x.array >>= _) = _
  rw [except_bind_map]
  refine except_bind_congr fun f _ => ?_
  rw [except_bind_map]
  exact except_bind_congr fun q _ => signalAddPhase_times hk r q

theorem getReverseSignal_times (hk : 0 < k) (r : Rel ℝ ℝ) (pc : ℝ) (b : Bool) (s e : Option ℝ) :
    (times k r).getReverseSignal pc b s e = (r.getReverseSignal pc b s e).map (times k⁻¹) := by
  unfold Rel.getReverseSignal
  rw [getSpectrum_times, except_map_bind, except_bind_map]
  refine except_bind_congr fun sp _ => ?_
  rw [getReverseFilter_times hk, except_map_bind, except_bind_map]
  exact except_bind_congr fun q _ => back_times k⁻¹ r q

theorem signalAlign_times {k' : ℝ} (hk : 0 < k) (hk' : 0 < k') (a b : Rel ℝ ℝ) :
    Rel.signalAlign (times k a) (times k' b) = (Rel.signalAlign a b).map fun p => (times k p.1, times k' p.2.1, p.2.2) := by
  unfold Rel.signalAlign
  rw [signalShift_times hk, signalShift_times hk', except_map_bind, except_bind_map]
  refine except_bind_congr fun q1 _ => ?_
  rw [except_map_bind, except_bind_map]
  refine except_bind_congr fun q2 _ => ?_
  rw [equalize_times, except_map_bind, except_bind_map]
  rfl

theorem signalConvolve_times {k' : ℝ} (hk : 0 < k) (hk' : 0 < k') (a b : Rel ℝ ℝ) :
    (times k a).signalConvolve (times k' b) = (a.signalConvolve b).map (times (k * k')) := by
  unfold Rel.signalConvolve
  rw [signalAlign_times hk hk', except_map_bind, except_bind_map]
  refine except_bind_congr fun p _ => ?_
  show (Rel.make p.2.2 (npConvolve (p.1.y.map (k * ·)) (p.2.1.y.map (k' * ·))) >>= _) = _
  rw [npConvolve_times, make_times, except_map_bind, except_bind_map]
  rfl

theorem signalCorrelate_times {k' : ℝ} (hk : 0 < k) (hk' : 0 < k') (a b : Rel ℝ ℝ) :
    (times k a).signalCorrelate (times k' b) = (a.signalCorrelate b).map (times (k * k')) := by
  unfold Rel.signalCorrelate
  rw [signalAlign_times hk hk', except_map_bind, except_bind_map]
  refine except_bind_congr fun p _ => ?_
  show (Rel.make p.2.2 (npConvolve (p.1.y.map (k * ·)) (((p.2.1.y.map (k' * ·)).map star).reverse)) >>= _) = _
  have e : ((p.2.1.y.map (k' * ·)).map star).reverse = ((p.2.1.y.map star).reverse).map (k' * ·) := by
    rw [List.map_map, List.map_reverse, List.map_map]
    exact congrArg List.reverse (List.map_congr_left fun v _ => by simp)
  rw [e, npConvolve_times, make_times, except_map_bind, except_bind_map]
  rfl

end

/-! ## C109 -/

section
variable {K : Type} [Field K] [LinearOrder K] [IsStrictOrderedRing K] [FloorRing K]
variable {V : Type} [Field V] [Algebra K V]
open Spec

/-- **C109** One relation. With all samples multiplied by any number `k`, positive or not: the constructor, `shift`, `select_data`, item
access, `interpolate_extrapolate`, `integrate`, `diff` and `one_integrate` give the old result multiplied by `k`, and `get_norm` the old
one multiplied by `k²`. An exception is the same exception. -/
theorem C109_relation [DecidableEq V] [PyPow V] (k : V) (r : Rel K V) :
    (∀ a y, Rel.make (K := K) a (y.map (k * ·)) = (Rel.make a y).map (times k)) ∧
    (∀ d, (times k r).shift d = (r.shift d).map (times k)) ∧
    (∀ s e, (times k r).selectData s e = (r.selectData s e).map (times k)) ∧
    (∀ v, (times k r).getItem v = (r.getItem v).map fun p => (p.1, k * p.2)) ∧
    (∀ a, (times k r).interpAxis a = (r.interpAxis a).map (times k)) ∧
    (times k r).integrate = r.integrate.map (times k) ∧
    (times k r).diff = r.diff.map (times k) ∧
    (times k r).oneIntegrate = r.oneIntegrate.map (k * ·) ∧
    (times k r).getNorm = r.getNorm.map (k * k * ·) :=
  ⟨make_times k, shift_times k r, selectData_times k r, getItem_times k r, interpAxis_times k r, integrate_times k r, diff_times k r,
    oneIntegrate_times k r, getNorm_times k r⟩

/-- **C109** Operators with another relation. Sums and differences follow a factor common to both operands, products the product of the
factors, quotients their quotient. A quotient that raises for a zero sample raises for every nonzero factor. -/
theorem C109_operators [DecidableEq V] [PyPow V] (k k' : V) (same : Bool) (a b : Rel K V) :
    (∀ op, op = .add ∨ op = .radd ∨ op = .sub ∨ op = .rsub →
      (times k a).operation (.rel same (times k b)) op = (a.operation (.rel same b) op).map (times k)) ∧
    (∀ op, op = .mul ∨ op = .rmul →
      (times k a).operation (.rel same (times k' b)) op = (a.operation (.rel same b) op).map (times (k * k'))) ∧
    (k' ≠ 0 → (times k a).operation (.rel same (times k' b)) .truediv = (a.operation (.rel same b) .truediv).map (times (k / k'))) ∧
    (k ≠ 0 → (times k a).operation (.rel same (times k' b)) .rtruediv = (a.operation (.rel same b) .rtruediv).map (times (k' / k))) :=
  ⟨fun op h => operation_rel_times (fn_add k op h) same a b, fun op h => operation_rel_times (fn_mul k k' op h) same a b,
    fun h => operation_rel_times (fn_div k h) same a b, fun h => operation_rel_times (fn_rdiv h k') same a b⟩

/-- **C109** Operators with a number: the number takes the factor a second relation would have. -/
theorem C109_numbers [DecidableEq V] [PyPow V] (k k' c : V) (a : Rel K V) :
    (∀ op, op = .add ∨ op = .radd ∨ op = .sub ∨ op = .rsub →
      (times k a).operation (.other (.num (k * c))) op = (a.operation (.other (.num c)) op).map (times k)) ∧
    (∀ op, op = .mul ∨ op = .rmul →
      (times k a).operation (.other (.num (k' * c))) op = (a.operation (.other (.num c)) op).map (times (k * k'))) ∧
    (k' ≠ 0 → (times k a).operation (.other (.num (k' * c))) .truediv = (a.operation (.other (.num c)) .truediv).map (times (k / k'))) ∧
    (k ≠ 0 → (times k a).operation (.other (.num (k' * c))) .rtruediv = (a.operation (.other (.num c)) .rtruediv).map (times (k' / k))) :=
  ⟨fun op h => operation_other_times (fn_add k op h) a (.num c), fun op h => operation_other_times (fn_mul k k' op h) a (.num c),
    fun h => operation_other_times (fn_div k h) a (.num c), fun h => operation_other_times (fn_rdiv h k') a (.num c)⟩

/-- **C109** Two relations: `equalize` keeps the factors apart, a convolution takes their product and a correlation the product with the
conjugate of the second. -/
theorem C109_two [StarRing V] (k k' : V) (a b : Rel K V) :
    (∀ same, Rel.equalize same (times k a) (times k' b) = (Rel.equalize same a b).map fun p => (times k p.1, times k' p.2)) ∧
    (times k a).convolve (times k' b) = (a.convolve b).map (times (k * k')) ∧
    (times k a).correlate (times k' b) = (a.correlate b).map (times (k * star k')) :=
  ⟨fun same => equalize_times k k' same a b, convolve_times k k' a b, correlate_times k k' a b⟩

end

section
open Spec

/-- **C109** Spectra and signals: the transforms follow every real factor, whatever size was asked for. -/
theorem C109_spectrum (k : ℝ) (r : Rel ℝ ℝ) (s : Rel ℝ ℂ) (a : SizeArg) :
    (∀ z, (times k r).getSpectrum a z = (r.getSpectrum a z).map (times (k : ℂ))) ∧
    (∀ t0, (times (k : ℂ) s).getSignal a t0 = (s.getSignal a t0).map (times k)) ∧
    (∀ c : ℂ, (times c s).getAmpSpectrum = s.getAmpSpectrum.map (times ‖c‖)) ∧
    (∀ phase amp, Rel.fromAmpPhase (times k amp) phase = (Rel.fromAmpPhase amp phase).map (times (k : ℂ))) :=
  ⟨getSpectrum_times k r a, getSignal_times k s a, fun c => getAmp_times s c, fun phase amp => fromAmpPhase_times k amp phase⟩

/-- **C109** Phases do not depend on a positive factor, of the spectrum or of the one whose phase is added or subtracted. The reverse
filter is of degree -1, regularisation included: its threshold is a percentage of the largest amplitude. -/
theorem C109_phases {k k' : ℝ} (hk : 0 < k) (hk' : 0 < k') (s o : Rel ℝ ℂ) :
    (times (k : ℂ) s).getPhaseSpectrum = s.getPhaseSpectrum ∧
    (times (k : ℂ) s).addPhase (times (k' : ℂ) o) = (s.addPhase o).map (times (k : ℂ)) ∧
    (times (k : ℂ) s).subPhase (times (k' : ℂ) o) = (s.subPhase o).map (times (k : ℂ)) ∧
    (∀ percent sub f g, (times (k : ℂ) s).getReverseFilter percent sub f g =
      (s.getReverseFilter percent sub f g).map (times ((k⁻¹ : ℝ) : ℂ))) :=
  ⟨getPhase_times hk s, by rw [(phase_of_other_times hk' _ o).1, addPhase_times hk], by rw [(phase_of_other_times hk' _ o).2, subPhase_times hk],
    getReverseFilter_times hk s⟩

/-- **C109** Signals. -/
theorem C109_signal {k k' : ℝ} (hk : 0 < k) (hk' : 0 < k') (r q : Rel ℝ ℝ) (o : Rel ℝ ℂ) :
    (times k r).signalAddPhase (times (k' : ℂ) o) = (r.signalAddPhase o).map (times k) ∧
    (times k r).signalSubPhase (times (k' : ℂ) o) = (r.signalSubPhase o).map (times k) ∧
    (∀ d, (times k r).signalShift d = (r.signalShift d).map (times k)) ∧
    (∀ percent sub f g, (times k r).getReverseSignal percent sub f g = (r.getReverseSignal percent sub f g).map (times k⁻¹)) ∧
    (times k r).signalConvolve (times k' q) = (r.signalConvolve q).map (times (k * k')) ∧
    (times k r).signalCorrelate (times k' q) = (r.signalCorrelate q).map (times (k * k')) ∧
    (times k r).max = r.max.map (k * ·) ∧ (times k r).min = r.min.map (k * ·) := by
  refine ⟨?_, ?_, signalShift_times hk r, getReverseSignal_times hk r, signalConvolve_times hk hk' r q, signalCorrelate_times hk hk' r q,
    max_times hk r, min_times hk r⟩
  · unfold Rel.signalAddPhase
    simp only [(phase_of_other_times hk' _ o).1]
    exact signalAddPhase_times hk r o
  · unfold Rel.signalSubPhase
    simp only [(phase_of_other_times hk' _ o).2]
    exact signalSubPhase_times hk r o

end

section
variable {K : Type} [Field K] [LinearOrder K] [IsStrictOrderedRing K] [FloorRing K]
open Spec

/-- a description of amplitudes with all its values multiplied by `k`; no description stands for the amplitude 1 -/
def Spec.louder (k : K) : Ftat K → Ftat K
  | .absent => .func (fun l => .ok (l.map fun _ => k)) fun _ => k
  | .func g φ => .func (fun l => (g l).map (List.map (k * ·))) fun t => k * φ t
  | .interp f => .interp ⟨f.x, f.y.map (k * ·)⟩
  | .rel r => .rel (times k r)
  | .array l => .array (l.map (k * ·))

/-- the stored description -/
def louderDescr (k : K) : Descr K → Descr K
  | .func g φ => .func (fun l => (g l).map (List.map (k * ·))) fun t => k * φ t
  | .interp f => .interp ⟨f.x, f.y.map (k * ·)⟩

theorem resample_times (k : K) (t : Axis K) (l : List K) :
    resample t (l.map (k * ·)) = (resample t l).map (List.map (k * ·)) := by
  unfold resample
  rw [List.length_map]
  split
  · rfl
  · simp only []
    rw [except_bind_map]
    refine except_bind_congr fun x _ => ?_
    rw [except_bind_map]
    exact except_bind_congr fun xs _ => interp1d_times k x l xs

theorem extract_times (k : K) (t : Option (Axis K)) (x : Ftat K) :
    extract t (louder k x) constOne = (extract t x constOne).map (louderDescr k) := by
  have o : ∀ t y, InterpArr.ofAxis t (y.map (k * ·)) = (InterpArr.ofAxis t y).map fun f => (⟨f.x, f.y.map (k * ·)⟩ : InterpArr K) := by
    intro t y
    unfold InterpArr.ofAxis
    rw [except_bind_map]
    rfl
  cases x with
  | absent =>
    show Except.ok _ = Except.ok _
    simp [louderDescr, constOne, Except.map]
  | func g φ => rfl
  | interp f => rfl
  | rel r =>
    show (InterpArr.ofAxis r.x (r.y.map (k * ·)) >>= _) = Except.map _ (InterpArr.ofAxis r.x r.y >>= _)
    rw [o, except_map_bind, except_bind_map]
    rfl
  | array l =>
    cases t with
    | none => rfl
    | some t =>
      show (t.size >>= _) = Except.map _ (t.size >>= _)
      rw [except_bind_map]
      refine except_bind_congr fun n _ => ?_
      rw [List.length_map]
      split
      · rw [resample_times, except_map_bind, except_bind_map]
        refine except_bind_congr fun y _ => ?_
        rw [o, except_map_bind, except_bind_map]
        rfl
      · simp only [except_bind_ok]
        rw [o, except_map_bind, except_bind_map]
        rfl

theorem values_times (k : K) (d : Descr K) (t : Axis K) : (louderDescr k d).values t = (d.values t).map (List.map (k * ·)) := by
  cases d with
  | interp f =>
    show InterpArr.call _ t = (f.call t).map _
    unfold InterpArr.call
    rw [except_bind_map]
    refine except_bind_congr fun s _ => ?_
    rw [except_bind_map]
    exact except_bind_congr fun xs _ => interp1d_times k s f.y xs
  | func g φ =>
    show (t.array >>= _) = Except.map _ (t.array >>= _)
    rw [except_bind_map]

theorem npMul_times (k : K) (a b : List K) : npMul (a.map (k * ·)) b = (npMul a b).map (List.map (k * ·)) := by
  unfold npMul
  rw [List.length_map]
  split
  · show Except.ok _ = Except.ok _
    congr 1
    rw [List.zipWith_map_left, List.map_zipWith]
    congr 1
    funext u v
    ring
  · rcases a with _ | ⟨c, _ | ⟨c', a⟩⟩ <;> rcases b with _ | ⟨d, _ | ⟨d', b⟩⟩ <;> simp [Except.map, mul_assoc]

/-- two generators that differ in the amplitudes by a factor -/
theorem call_louder (P : SweepPrims K) (k : K) (u u' : UncalculatedSweep K) (ht : u'.time = u.time)
    (hf : ∀ x, u'.frequencyTime.values x = u.frequencyTime.values x)
    (hp : ∀ v x, u'.frequencyTime.tht P v x = u.frequencyTime.tht P v x)
    (ha : ∀ x, u'.amplitudeTime.values x = (u.amplitudeTime.values x).map (List.map (k * ·))) (t : TimeArg K) (tht0 : K) (s : Sweep K)
    (hs : u.call P t tht0 = .ok s) :
    (SpectrogramWorks P (times k s.rel) → ∃ s', u'.call P t tht0 = .ok s') ∧
    ∀ s', u'.call P t tht0 = .ok s' →
      s'.rel = times k s.rel ∧ s'.frequencyTime = s.frequencyTime ∧ s'.amplitudeTime = times k s.amplitudeTime := by
  unfold UncalculatedSweep.call at hs
  obtain ⟨ax, h1, hs⟩ := except_bind_eq_ok.1 hs
  obtain ⟨fv, h2, hs⟩ := except_bind_eq_ok.1 hs
  obtain ⟨fr, h3, hs⟩ := except_bind_eq_ok.1 hs
  obtain ⟨av, h4, hs⟩ := except_bind_eq_ok.1 hs
  obtain ⟨th, h5, hs⟩ := except_bind_eq_ok.1 hs
  obtain ⟨sw, h6, hs⟩ := except_bind_eq_ok.1 hs
  obtain ⟨ar, h7, hs⟩ := except_bind_eq_ok.1 hs
  have h1' : u'.calcTime t = .ok ax := by rw [← h1]; unfold UncalculatedSweep.calcTime; rw [ht]
  have hcall : u'.call P t tht0 = Sweep.init P (.axis ax) (some (sw.map (k * ·))) (some fr) (some (times k ar)) none := by
    unfold UncalculatedSweep.call
    simp only [h1', hf, h2, h3, ha, h4, hp, h5, Except.map, except_bind_ok, npMul_times, h6, make_times, h7]
  obtain ⟨k1, hrf, hra⟩ : Rel.make ax sw = .ok s.rel ∧ s.frequencyTime = fr ∧ s.amplitudeTime = ar := by
    obtain ⟨r, k1, hs⟩ := except_bind_eq_ok.1 hs
    obtain ⟨f1, k2, hs⟩ := except_bind_eq_ok.1 hs
    obtain ⟨a1, k3, hs⟩ := except_bind_eq_ok.1 hs
    obtain ⟨_, _, hs⟩ := except_bind_eq_ok.1 hs
    obtain ⟨_, _, hs⟩ := except_bind_eq_ok.1 hs
    cases k2
    cases k3
    cases hs
    exact ⟨k1, rfl, rfl⟩
  obtain ⟨hsz, hrel⟩ := (make_ok_iff _ _ _).1 k1
  constructor
  · intro hw
    have hw' : SpectrogramWorks P ⟨ax, sw.map (k * ·)⟩ := by rw [hrel] at hw; exact hw
    obtain ⟨g, hg⟩ := sweepInit_given P ax (sw.map (k * ·)) fr (times k ar) none (by rw [hsz, List.length_map]) hw'
    exact ⟨_, by rw [hcall, hg]⟩
  · intro s' hs'
    rw [hcall] at hs'
    obtain ⟨r', k1', hs'⟩ := except_bind_eq_ok.1 hs'
    obtain ⟨f1', k2', hs'⟩ := except_bind_eq_ok.1 hs'
    obtain ⟨a1', k3', hs'⟩ := except_bind_eq_ok.1 hs'
    obtain ⟨_, _, hs'⟩ := except_bind_eq_ok.1 hs'
    obtain ⟨_, _, hs'⟩ := except_bind_eq_ok.1 hs'
    have k4' : Rel.make ax (sw.map (k * ·)) = .ok r' := k1'
    rw [make_times, k1] at k4'
    cases k4'
    cases k2'
    cases k3'
    cases hs'
    exact ⟨rfl, hrf.symm, by rw [hra]⟩

/-- **C109** Sweeps: the values of the amplitude description multiplied by `k` multiply the samples and `amplitude_time` by `k` and leave
`frequency_time`; the generator exists exactly when the old one does, and makes a sweep when the old one does and the spectrogram of the
new samples can be made. -/
theorem C109_sweep (P : SweepPrims K) (k : K) (t0 t : TimeArg K) (f a : Ftat K) (tht0 : K) :
    (∀ e, UncalculatedSweep.init t0 f a = .error e → UncalculatedSweep.init t0 f (louder k a) = .error e) ∧
    ∀ u, UncalculatedSweep.init t0 f a = .ok u →
      ∃ u', UncalculatedSweep.init t0 f (louder k a) = .ok u' ∧
        ∀ s, u.call P t tht0 = .ok s →
          (SpectrogramWorks P (times k s.rel) → ∃ s', u'.call P t tht0 = .ok s') ∧
          ∀ s', u'.call P t tht0 = .ok s' →
            s'.rel = times k s.rel ∧ s'.frequencyTime = s.frequencyTime ∧ s'.amplitudeTime = times k s.amplitudeTime := by
  have hi : UncalculatedSweep.init t0 f (louder k a) =
      (UncalculatedSweep.init t0 f a).map fun u => ⟨u.time, u.frequencyTime, louderDescr k u.amplitudeTime⟩ := by
    unfold UncalculatedSweep.init
    rw [except_bind_map]
    refine except_bind_congr fun x _ => ?_
    rw [except_bind_map]
    refine except_bind_congr fun y _ => ?_
    rw [extract_times, except_map_bind, except_bind_map]
    rfl
  refine ⟨fun e he => by rw [hi, he]; rfl, fun u hu => ⟨_, by rw [hi, hu]; rfl, ?_⟩⟩
  exact call_louder P k u ⟨u.time, u.frequencyTime, louderDescr k u.amplitudeTime⟩ rfl (fun _ => rfl) (fun _ _ => rfl)
    (values_times k u.amplitudeTime) t tht0

end

/-- a ramp and the same ramp upside down and twice as high: item, integral, derivative, norm, and the convolution with a relation ten
times as high -/
example : Spec.times (-2) (⟨⟨0, 2, 1⟩, [1, 3, 5]⟩ : Rel ℚ ℚ) = ⟨⟨0, 2, 1⟩, [-2, -6, -10]⟩ ∧
    (⟨⟨0, 2, 1⟩, [1, 3, 5]⟩ : Rel ℚ ℚ).integrate = .ok ⟨⟨1, 2, 1⟩, [2, 6]⟩ ∧
    (⟨⟨0, 2, 1⟩, [-2, -6, -10]⟩ : Rel ℚ ℚ).integrate = .ok ⟨⟨1, 2, 1⟩, [-4, -12]⟩ ∧
    (⟨⟨0, 2, 1⟩, [1, 3, 5]⟩ : Rel ℚ ℚ).getNorm = .ok 22 ∧ (⟨⟨0, 2, 1⟩, [-2, -6, -10]⟩ : Rel ℚ ℚ).getNorm = .ok 88 ∧
    (⟨⟨0, 2, 1⟩, [-2, -6, -10]⟩ : Rel ℚ ℚ).max = .ok (-2) ∧ (⟨⟨0, 2, 1⟩, [1, 3, 5]⟩ : Rel ℚ ℚ).max = .ok 5 ∧
    (⟨⟨0, 2, 1⟩, [1, 3, 5]⟩ : Rel ℚ ℚ).convolve ⟨⟨0, 1, 1⟩, [1, 2]⟩ = .ok ⟨⟨-2, 2, 1⟩, [1, 5, 11, 10, 0]⟩ ∧
    (⟨⟨0, 2, 1⟩, [-2, -6, -10]⟩ : Rel ℚ ℚ).convolve ⟨⟨0, 1, 1⟩, [10, 20]⟩ = .ok ⟨⟨-2, 2, 1⟩, [-20, -100, -220, -200, 0]⟩ := by
  refine ⟨?_, ?_, ?_, ?_, ?_, ?_, ?_, ?_, ?_⟩ <;> decide +kernel

/-- a quotient and one that raises; powers are outside the theorem: the exponent cannot take a factor -/
example :
    (⟨⟨0, 1, 1⟩, [6, 8]⟩ : Rel ℚ ℚ).operation (.rel false ⟨⟨0, 1, 1⟩, [2, 4]⟩) .truediv = .ok ⟨⟨0, 1, 1⟩, [3, 2]⟩ ∧
    (⟨⟨0, 1, 1⟩, [60, 80]⟩ : Rel ℚ ℚ).operation (.rel false ⟨⟨0, 1, 1⟩, [-4, -8]⟩) .truediv = .ok ⟨⟨0, 1, 1⟩, [-15, -10]⟩ ∧
    (⟨⟨0, 1, 1⟩, [6, 8]⟩ : Rel ℚ ℚ).operation (.rel false ⟨⟨0, 1, 1⟩, [2, 0]⟩) .truediv = .error .nonFinite ∧
    (⟨⟨0, 1, 1⟩, [60, 80]⟩ : Rel ℚ ℚ).operation (.rel false ⟨⟨0, 1, 1⟩, [-4, 0]⟩) .truediv = .error .nonFinite ∧
    (⟨⟨0, 1, 1⟩, [6, 8]⟩ : Rel ℚ ℚ).operation (.other (.num 2)) .pow = .ok ⟨⟨0, 1, 1⟩, [36, 64]⟩ ∧
    (⟨⟨0, 1, 1⟩, [60, 80]⟩ : Rel ℚ ℚ).operation (.other (.num 2)) .pow = .ok ⟨⟨0, 1, 1⟩, [3600, 6400]⟩ := by
  refine ⟨?_, ?_, ?_, ?_, ?_, ?_⟩ <;> decide +kernel

/-- the sweep of the examples of `C50` three times as loud, its amplitudes given as an array that is resampled -/
example :
    Spec.louder 3 (.array [1, 3] : Ftat ℚ) = .array [3, 9] ∧
    ((UncalculatedSweep.init (.axis ⟨0, 2, 1⟩) (.array [10, 20, 30]) (.array [3, 9])).bind fun u =>
      (u.call toyPrims .none 0).map fun s => (s.rel, s.frequencyTime, s.amplitudeTime)) =
      .ok (⟨⟨0, 2, 1⟩, [0, 90, 360]⟩, ⟨⟨0, 2, 1⟩, [10, 20, 30]⟩, ⟨⟨0, 2, 1⟩, [3, 6, 9]⟩) := by
  refine ⟨?_, ?_⟩
  · show Ftat.array _ = _
    norm_num
  · decide +kernel

/-- a negative factor does turn phases: the angle of 1 is 0 and the angle of -1 is π -/
example : npAngle 1 = 0 ∧ npAngle (((-1 : ℝ) : ℂ) * 1) = Real.pi := by
  simp [npAngle, Complex.arg_neg_one]

end SweepDesign
