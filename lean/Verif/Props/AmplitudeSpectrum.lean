import Verif.Props.FourierSum
import Verif.Props.SignalShift
import Verif.Lemmas.Phase
import Verif.Model.SignalSpectra

/-!
# C112: the amplitude spectrum of a signal

`Signal.get_amplitude_spectrum` and `Signal.get_phase_spectrum`: the absolute value and the phase of the spectrum of the
signal. What the amplitude spectrum of a signal tells, and what it does not: the sign, the direction of time and a circular
delay are not in it.
-/

set_option linter.unusedSectionVars false

namespace SweepDesign
open Spec

theorem unitRoot_norm (n : ℕ) (a : ℤ) : ‖unitRoot n a‖ = 1 := by
  unfold unitRoot
  rw [show (2 * Real.pi * Complex.I * (a : ℂ) / (n : ℂ)) = ((2 * Real.pi * a / n : ℝ) : ℂ) * Complex.I by push_cast; ring]
  exact Complex.norm_exp_ofReal_mul_I _

/-- The spectrum of signals on one axis: sums of the samples with the same factors on the unit circle. -/
theorem getSpectrum_sum (r : Rel ℝ ℝ) (hb : Balanced r) (hi : r.x.start ≤ r.x.stop) (hn : 2 ≤ r.y.length) :
    ∃ (N : ℕ) (p : ℤ), r.y.length ≤ N ∧ ∀ y' : List ℝ, y'.length = r.y.length →
      (⟨r.x, y'⟩ : Rel ℝ ℝ).getSpectrum = .ok ⟨⟨0, ((N / 2 : ℕ) : ℝ) * (1 / ((N : ℝ) * r.x.sample)), 1 / ((N : ℝ) * r.x.sample)⟩,
        (List.range (N / 2 + 1)).map fun k : ℕ => ∑ j ∈ Finset.range r.y.length, ((at0 y' j : ℝ) : ℂ) * unitRoot N (-((p + j) * k))⟩ := by
  obtain ⟨N, p, m, h1, h2, h3, h4⟩ := getSpectrum_rotate r hb hi hn
  refine ⟨N, (p : ℤ) - m, h1, fun y' hy' => ?_⟩
  obtain ⟨y, g1, g2, g3⟩ := h4 y' hy'
  rw [g3]
  congr 2
  apply List.map_congr_left
  intro k hk
  rw [dft_rotate y N m g1 h2]
  rw [show N = p + (r.y.length + (N - p - r.y.length)) by omega, Finset.sum_range_add, Finset.sum_range_add,
    ← show N = p + (r.y.length + (N - p - r.y.length)) by omega]
  rw [Finset.sum_eq_zero (s := Finset.range p), zero_add, Finset.sum_eq_zero (s := Finset.range (N - p - r.y.length)), add_zero]
  · refine Finset.sum_congr rfl fun j hj => ?_
    have := Finset.mem_range.1 hj
    rw [g2, if_pos ⟨by omega, by omega⟩]
    congr 2
    · congr 2; omega
    · push_cast; ring
  · intro j _
    rw [g2, if_neg (by omega)]; simp
  · intro j hj
    have := Finset.mem_range.1 hj
    rw [g2, if_neg (by omega)]; simp

/-- the amplitude spectrum as a function of the samples -/
theorem signalAmplitude_sum (r : Rel ℝ ℝ) (hb : Balanced r) (hi : r.x.start ≤ r.x.stop) (hn : 2 ≤ r.y.length) :
    ∃ (N : ℕ) (p : ℤ) (fx : Axis ℝ), 2 ≤ N ∧ ∀ y' : List ℝ, y'.length = r.y.length →
      (⟨r.x, y'⟩ : Rel ℝ ℝ).signalAmplitude = .ok ⟨fx, (List.range (N / 2 + 1)).map fun k : ℕ =>
        ‖∑ j ∈ Finset.range r.y.length, ((at0 y' j : ℝ) : ℂ) * unitRoot N (-((p + j) * k))‖⟩ := by
  obtain ⟨N, p, h1, h2⟩ := getSpectrum_sum r hb hi hn
  obtain ⟨hs, -⟩ := (balanced_iff r).1 hb
  refine ⟨N, p, ⟨0, ((N / 2 : ℕ) : ℝ) * (1 / ((N : ℝ) * r.x.sample)), 1 / ((N : ℝ) * r.x.sample)⟩, by omega, fun y' hy' => ?_⟩
  unfold Rel.signalAmplitude
  rw [h2 y' hy', except_bind_ok, amp_eq]
  · rw [List.map_map]; rfl
  · unfold Balanced
    simp only [List.length_map, List.length_range]
    exact freqAxis_size N r.x.sample (by omega) hs

theorem sum_at0 (f : ℝ → ℝ) (l : List ℝ) : ∑ j ∈ Finset.range l.length, f (at0 l j) = (l.map f).sum := by
  induction l with
  | nil => simp
  | cons a l ih =>
    rw [List.length_cons, Finset.sum_range_succ', List.map_cons, List.sum_cons, ← ih, add_comm]
    congr 1

/-- **C112.** An amplitude is never negative and at most the sum of the absolute samples; at frequency zero it is the absolute
value of the sum of the samples. The phase spectrum has the same axis, and amplitude and phase together are the spectrum. -/
theorem C112_bounds (r : Rel ℝ ℝ) (hb : Balanced r) (hi : r.x.start ≤ r.x.stop) (hn : 2 ≤ r.y.length) :
    ∃ s a p, r.getSpectrum = .ok s ∧ r.signalAmplitude = .ok a ∧ r.signalPhase = .ok p ∧ a.x = s.x ∧ p.x = s.x ∧
      a.y.length = s.y.length ∧ p.y.length = s.y.length ∧ a.x.start = 0 ∧
      (∀ v ∈ a.y, 0 ≤ v ∧ v ≤ (r.y.map fun v => |v|).sum) ∧
      a.y.head? = some |r.y.sum| ∧
      ∀ k (h1 : k < s.y.length) (h2 : k < a.y.length) (h3 : k < p.y.length),
        s.y[k] = (a.y[k] : ℂ) * Complex.exp (Complex.I * (p.y[k] : ℂ)) := by
  obtain ⟨N, p, h1, h2⟩ := getSpectrum_sum r hb hi hn
  obtain ⟨hs, -⟩ := (balanced_iff r).1 hb
  have h2 := h2 r.y rfl
  set s : Rel ℝ ℂ := ⟨⟨0, ((N / 2 : ℕ) : ℝ) * (1 / ((N : ℝ) * r.x.sample)), 1 / ((N : ℝ) * r.x.sample)⟩,
        (List.range (N / 2 + 1)).map fun k : ℕ => ∑ j ∈ Finset.range r.y.length, ((at0 r.y j : ℝ) : ℂ) * unitRoot N (-((p + j) * k))⟩ with hsdef
  have hbs : Balanced s := by
    unfold Balanced
    simp only [hsdef, List.length_map, List.length_range]
    exact freqAxis_size N r.x.sample (by omega) hs
  have e : r.getSpectrum = .ok s := h2
  refine ⟨s, ⟨s.x, s.y.map fun z => ‖z‖⟩, ⟨s.x, unwrap (s.y.map npAngle)⟩, e, ?_, ?_, rfl, rfl, by simp, by simp [unwrap_length], rfl,
    ?_, ?_, ?_⟩
  · unfold Rel.signalAmplitude
    rw [e, except_bind_ok, amp_eq _ hbs]
  · unfold Rel.signalPhase
    rw [e, except_bind_ok, phase_eq _ hbs]
  · intro v hv
    simp only [hsdef, List.map_map, List.mem_map] at hv
    obtain ⟨k, -, rfl⟩ := hv
    refine ⟨norm_nonneg _, (norm_sum_le _ _).trans ?_⟩
    rw [← sum_at0 (fun v => |v|)]
    refine Finset.sum_le_sum fun j _ => ?_
    rw [norm_mul, unitRoot_norm, mul_one, Complex.norm_real, Real.norm_eq_abs]
  · simp only [hsdef, List.range_succ_eq_map, List.map_cons, List.head?_cons, Option.some.injEq]
    simp only [Nat.cast_zero, mul_zero, neg_zero, unitRoot_zero, mul_one]
    have := sum_at0 id r.y
    rw [List.map_id] at this
    simp only [id] at this
    rw [← this, ← Complex.ofReal_sum, Complex.norm_real, Real.norm_eq_abs]
  · intro k h1 h2 h3
    simp only [List.getElem_map]
    rw [exp_unwrap s.y k h3 h1, mul_comm Complex.I]
    exact (Complex.norm_mul_exp_arg_mul_I _).symm

/-- **C112.** The amplitude spectrum of a sum or a difference is at most the sum of the amplitude spectra, and at least the
absolute value of their difference. -/
theorem C112_triangle (r1 r2 q : Rel ℝ ℝ) (h1 : Balanced r1) (h2 : Balanced r2) (hx : r1.x = r2.x) (hi : r1.x.start ≤ r1.x.stop)
    (hn : 2 ≤ r1.y.length) (same : Bool) (hq : r1.add (.rel same r2) = .ok q ∨ r1.sub (.rel same r2) = .ok q) :
    ∃ a1 a2 a, r1.signalAmplitude = .ok a1 ∧ r2.signalAmplitude = .ok a2 ∧ q.signalAmplitude = .ok a ∧ a1.x = a.x ∧ a2.x = a.x ∧
      a1.y.length = a.y.length ∧ a2.y.length = a.y.length ∧
      ∀ k (g1 : k < a1.y.length) (g2 : k < a2.y.length) (g : k < a.y.length),
        |a1.y[k] - a2.y[k]| ≤ a.y[k] ∧ a.y[k] ≤ a1.y[k] + a2.y[k] := by
  obtain ⟨N, p, fx, hN, hA⟩ := signalAmplitude_sum r1 h1 hi hn
  have hl := balanced_length_eq h1 h2 hx
  have key : ∃ ε : ℝ, |ε| = 1 ∧ q = ⟨r1.x, List.zipWith (fun a b => a + ε * b) r1.y r2.y⟩ := by
    rcases hq with hq | hq
    · refine ⟨1, by simp, ?_⟩
      unfold Rel.add at hq
      rw [operation_equal_axes same r1 r2 _ h1 h2 hx] at hq
      have : (MathOp.add.fn : ℝ → ℝ → Option ℝ) = fun a b => some (a + b) := rfl
      rw [this, zipWith_some, finite_map_some] at hq
      rw [← Except.ok.inj hq]
      simp
    · refine ⟨-1, by simp, ?_⟩
      unfold Rel.sub at hq
      rw [operation_equal_axes same r1 r2 _ h1 h2 hx] at hq
      have : (MathOp.sub.fn : ℝ → ℝ → Option ℝ) = fun a b => some (a - b) := rfl
      rw [this, zipWith_some, finite_map_some] at hq
      rw [← Except.ok.inj hq]
      simp only [neg_one_mul, ← sub_eq_add_neg]
  obtain ⟨ε, hε, rfl⟩ := key
  have e1 := hA r1.y rfl
  have e2 := hA r2.y hl.symm
  have e3 := hA (List.zipWith (fun a b => a + ε * b) r1.y r2.y) (by simp [hl])
  rw [hx] at e2
  refine ⟨_, _, _, e1, e2, e3, rfl, rfl, by simp, by simp, ?_⟩
  intro k g1 g2 g
  simp only [List.getElem_map, List.getElem_range]
  set S1 := ∑ j ∈ Finset.range r1.y.length, ((at0 r1.y j : ℝ) : ℂ) * unitRoot N (-((p + j) * k)) with hS1
  set S2 := ∑ j ∈ Finset.range r1.y.length, ((at0 r2.y j : ℝ) : ℂ) * unitRoot N (-((p + j) * k)) with hS2
  have hS : ∑ j ∈ Finset.range r1.y.length, ((at0 (List.zipWith (fun a b => a + ε * b) r1.y r2.y) j : ℝ) : ℂ) *
      unitRoot N (-((p + j) * k)) = S1 + (ε : ℂ) * S2 := by
    rw [hS1, hS2, Finset.mul_sum, ← Finset.sum_add_distrib]
    refine Finset.sum_congr rfl fun j hj => ?_
    have := Finset.mem_range.1 hj
    rw [at0_eq _ _ (by simp; omega), at0_eq _ _ (by omega), at0_eq _ _ (by omega), List.getElem_zipWith]
    push_cast; ring
  rw [hS]
  have hn2 : ‖(ε : ℂ) * S2‖ = ‖S2‖ := by rw [norm_mul, Complex.norm_real, Real.norm_eq_abs, hε, one_mul]
  refine ⟨?_, by rw [← hn2]; exact norm_add_le _ _⟩
  have := abs_norm_sub_norm_le S1 (-((ε : ℂ) * S2))
  rw [norm_neg, hn2, sub_neg_eq_add] at this
  exact this

/-- **C112.** Multiplying a signal by any number multiplies its amplitude spectrum by the absolute value of the number. -/
theorem C112_factor (r q : Rel ℝ ℝ) (hb : Balanced r) (hi : r.x.start ≤ r.x.stop) (hn : 2 ≤ r.y.length) (c : ℝ)
    (hq : r.mul (.other (.num c)) = .ok q) :
    ∃ a, r.signalAmplitude = .ok a ∧ q.signalAmplitude = .ok ⟨a.x, a.y.map fun v => |c| * v⟩ := by
  obtain ⟨N, p, fx, hN, hA⟩ := signalAmplitude_sum r hb hi hn
  rw [(C23_with_number r hb c).2.2.2.2.1] at hq
  obtain rfl := Except.ok.inj hq
  refine ⟨_, hA r.y rfl, ?_⟩
  rw [hA _ (by simp), List.map_map]
  congr 2
  apply List.map_congr_left
  intro k _
  simp only [Function.comp]
  rw [← Real.norm_eq_abs, ← Complex.norm_real, ← norm_mul, Finset.mul_sum]
  congr 1
  refine Finset.sum_congr rfl fun j hj => ?_
  have := Finset.mem_range.1 hj
  rw [at0_eq _ _ (by simpa using this), at0_eq _ _ this, List.getElem_map]
  push_cast; ring

/-- **C112.** A signal played backwards (the samples reversed on the same axis) has the same amplitude spectrum. -/
theorem C112_backwards (r : Rel ℝ ℝ) (hb : Balanced r) (hi : r.x.start ≤ r.x.stop) (hn : 2 ≤ r.y.length) :
    ∃ a, r.signalAmplitude = .ok a ∧ (⟨r.x, r.y.reverse⟩ : Rel ℝ ℝ).signalAmplitude = .ok a := by
  obtain ⟨N, p, fx, hN, hA⟩ := signalAmplitude_sum r hb hi hn
  refine ⟨_, hA r.y rfl, ?_⟩
  rw [hA _ (by simp)]
  congr 2
  apply List.map_congr_left
  intro k _
  have : ∑ j ∈ Finset.range r.y.length, ((at0 r.y.reverse j : ℝ) : ℂ) * unitRoot N (-((p + j) * k)) =
      unitRoot N (-((2 * p + r.y.length - 1) * k)) *
        (starRingEnd ℂ) (∑ j ∈ Finset.range r.y.length, ((at0 r.y j : ℝ) : ℂ) * unitRoot N (-((p + j) * k))) := by
    rw [map_sum, Finset.mul_sum, ← Finset.sum_range_reflect]
    refine Finset.sum_congr rfl fun j hj => ?_
    have hj := Finset.mem_range.1 hj
    rw [map_mul, Complex.conj_ofReal, unitRoot_conj, at0_eq _ _ (by simp; omega), at0_eq _ _ hj, List.getElem_reverse]
    rw [mul_left_comm, ← unitRoot_add]
    congr 2
    · congr 2; omega
    · rw [Nat.cast_sub (by omega), Nat.cast_sub (by omega)]; push_cast; ring
  rw [this, norm_mul, unitRoot_norm, one_mul, RCLike.norm_conj]

/-- the spectrum of a signal that starts at zero -/
theorem getSpectrum_from_zero (r : Rel ℝ ℝ) (hb : Balanced r) (h0 : r.x.start = 0) (hi : r.x.start < r.x.stop) (hn : 2 ≤ r.y.length) :
    r.getSpectrum = .ok ⟨⟨0, ((r.y.length / 2 : ℕ) : ℝ) * (1 / ((r.y.length : ℝ) * r.x.sample)), 1 / ((r.y.length : ℝ) * r.x.sample)⟩,
      (List.range (r.y.length / 2 + 1)).map fun k : ℕ => dft r.y.length (at0 r.y) k⟩ := by
  obtain ⟨y, z, e1, e2, e3, e4, e5, e6⟩ := getSpectrum_eq r hb hi.le hn
  obtain ⟨p1, rfl⟩ := e3 h0.le (by linarith)
  obtain ⟨⟨lx, ly⟩, hd⟩ := (balanced_iff_getData r).1 hb
  obtain ⟨hx, rfl, hlen⟩ := (getData_ok_iff _ _ _).1 hd
  have hc : (lx.countP fun t => decide (t < 0)) = 0 := by
    rw [List.countP_eq_zero]
    intro t ht
    obtain ⟨i, hi', rfl⟩ := List.mem_iff_getElem.1 ht
    rw [(Axis.array_spaced hx).2 i hi', h0]
    have := r.x.step_nonneg hi.le
    simp only [zero_add, decide_eq_true_eq, not_lt]
    positivity
  rw [p1, reorder_sorted r.x lx r.y hx hlen hi.le, hc] at e4
  simp only [List.rotate_zero, Except.ok.injEq] at e4
  subst e4
  exact e6

/-- **C112.** A shift of a signal that starts at zero by a whole number of samples does not change its amplitude spectrum. -/
theorem C112_shift (r q : Rel ℝ ℝ) (hb : Balanced r) (h0 : r.x.start = 0) (hi : r.x.start < r.x.stop) (hn : 2 ≤ r.y.length) (m : ℤ)
    (hq : r.signalShift (m * r.x.sample) = .ok q) : ∃ a, r.signalAmplitude = .ok a ∧ q.signalAmplitude = .ok a := by
  obtain ⟨hs, -⟩ := (balanced_iff r).1 hb
  obtain ⟨q', g1, g2, g3, g4⟩ := C41_circular_delay r hb hn h0 hi m
  rw [hq] at g1
  obtain rfl := Except.ok.inj g1
  set n := r.y.length with hndef
  have hnz : (0 : ℤ) < n := by omega
  -- the shifted samples are a rotation
  have hrot : q.y = r.y.rotate ((-m) % n).toNat := by
    apply List.ext_getElem (by simp [g3, ← hndef])
    intro j j1 j2
    rw [List.getElem_rotate]
    have hj0 : 0 ≤ (-m) % (n : ℤ) := Int.emod_nonneg _ hnz.ne'
    have := g4 ((j + ((-m) % n).toNat) % n) (Nat.mod_lt _ (by omega))
    have e : (((((j + ((-m) % (n : ℤ)).toNat) % n : ℕ) : ℤ) + m) % (n : ℤ)).toNat = j := by
      have : ((((j + ((-m) % (n : ℤ)).toNat) % n : ℕ) : ℤ) + m) % (n : ℤ) = j := by
        push_cast
        rw [Int.toNat_of_nonneg hj0, Int.emod_add_emod, add_right_comm, Int.add_emod_emod, add_neg_cancel_right, Int.emod_eq_of_lt (by omega) (by omega)]
      rw [this, Int.toNat_natCast]
    rw [e, List.getElem?_eq_getElem j1] at this
    exact Option.some.inj this
  have hm' : ((-m) % (n : ℤ)).toNat ≤ n := by
    have := Int.emod_lt_of_pos (-m) hnz
    omega
  have hbq : Balanced q := by
    unfold Balanced
    rw [g2, g3]; exact hb
  have e1 := getSpectrum_from_zero r hb h0 hi hn
  have e2 := getSpectrum_from_zero q hbq (by rw [g2]; exact h0) (by rw [g2]; exact hi) (by omega)
  have hbal : ∀ l : List ℂ, l.length = n / 2 + 1 → Balanced (⟨⟨0, ((n / 2 : ℕ) : ℝ) * (1 / ((n : ℝ) * r.x.sample)),
      1 / ((n : ℝ) * r.x.sample)⟩, l⟩ : Rel ℝ ℂ) := by
    intro l hl
    unfold Balanced
    simp only [hl]
    exact freqAxis_size n r.x.sample (by omega) hs
  rw [g3, g2] at e2
  refine ⟨_, by unfold Rel.signalAmplitude; rw [e1, except_bind_ok, amp_eq _ (hbal _ (by simp [← hndef]))], ?_⟩
  unfold Rel.signalAmplitude
  rw [e2, except_bind_ok, amp_eq _ (hbal _ (by simp))]
  congr 2
  rw [List.map_map, List.map_map]
  apply List.map_congr_left
  intro k _
  simp only [Function.comp]
  rw [hrot, dft_rotate r.y n _ rfl hm']
  have : ∑ i ∈ Finset.range n, ((at0 r.y i : ℝ) : ℂ) * unitRoot n (-(((i : ℤ) - ((-m) % (n : ℤ)).toNat) * k)) =
      unitRoot n (((-m) % (n : ℤ)).toNat * k) * dft n (at0 r.y) k := by
    unfold dft
    rw [Finset.mul_sum]
    refine Finset.sum_congr rfl fun i _ => ?_
    rw [mul_left_comm, ← unitRoot_add]
    congr 2
    ring
  rw [this, norm_mul, unitRoot_norm, one_mul]

/-- The hypotheses of all five, on a signal of four samples that starts at zero. -/
example : ∃ a q, (⟨⟨0, 3, 1⟩, [10, 20, 30, -40]⟩ : Rel ℝ ℝ).signalAmplitude = .ok a ∧ a.y.head? = some 20 ∧
    (⟨⟨0, 3, 1⟩, [10, 20, 30, -40]⟩ : Rel ℝ ℝ).signalShift 2 = .ok q ∧ q.signalAmplitude = .ok a ∧
    (⟨⟨0, 3, 1⟩, [-40, 30, 20, 10]⟩ : Rel ℝ ℝ).signalAmplitude = .ok a := by
  have hb : Balanced (⟨⟨0, 3, 1⟩, [10, 20, 30, -40]⟩ : Rel ℝ ℝ) := balanced_whole _ 3 (by norm_num) (by norm_num) rfl
  obtain ⟨s, a, p, -, e1, -, -, -, -, -, -, -, e2, -⟩ := C112_bounds _ hb (by norm_num) (by simp)
  obtain ⟨q, f1, -⟩ := C41_circular_delay _ hb (by simp) rfl (by norm_num) 2
  obtain ⟨b, g1, g2⟩ := C112_shift _ q hb rfl (by norm_num) (by simp) 2 f1
  obtain ⟨c, k1, k2⟩ := C112_backwards _ hb (by norm_num) (by simp)
  rw [e1] at g1 k1
  obtain rfl := Except.ok.inj g1
  obtain rfl := Except.ok.inj k1
  refine ⟨a, q, e1, ?_, by simpa using f1, g2, by simpa using k2⟩
  rw [e2]
  norm_num

end SweepDesign
