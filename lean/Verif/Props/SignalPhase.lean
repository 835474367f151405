import Verif.Props.Reverse

/-!
# C81: adding and subtracting the phase of a signal
-/

set_option linter.unusedSectionVars false

namespace SweepDesign
open Spec

/-- the value `get_spectrum` of the signal of the spectrum `g` on `t` has no loss if both ends are real -/
theorem signal_of_real_ends (g : Rel ℝ ℂ) (t : Axis ℝ) (h0 : t.start = 0) (hinc : t.start < t.stop) (n : ℕ) (hn : 2 ≤ n)
    (hsz : t.size = .ok n) (hl : g.y.length = n / 2 + 1)
    (hx : g.x = ⟨0, ((n / 2 : ℕ) : ℝ) * (1 / ((n : ℝ) * t.sample)), 1 / ((n : ℝ) * t.sample)⟩)
    (hre : ∀ k (hk : k < g.y.length), k = 0 ∨ 2 * k = n → (starRingEnd ℂ) g.y[k] = g.y[k]) :
    ∃ q, g.getSignal (.axis t) = .ok q ∧ q.x = t ∧ q.y.length = n ∧ q.getSpectrum = .ok g := by
  obtain ⟨q, s, q1, q2, q3, q4, q5, q6, q7⟩ := C79_time_given g t h0 hinc n hn hsz
  refine ⟨q, q1, q2, q3, ?_⟩
  rw [q4]
  congr 1
  refine Rel.ext' (by rw [q5, hx]) (List.ext_getElem (by omega) fun k k1 k2 => ?_)
  rw [q7 k k1]
  unfold kept
  rw [getD_lt _ _ _ k2]
  split
  · rename_i h
    exact Complex.conj_eq_iff_re.1 (hre k k2 h)
  · rfl

/-- the spectrum of a signal that starts at 0 is balanced and real at both ends -/
theorem spectrum_facts (r : Rel ℝ ℝ) (hb : Balanced r) (hn : 2 ≤ r.y.length) (h0 : r.x.start = 0) (hinc : r.x.start < r.x.stop)
    (hs : 0 < r.x.sample) (sp : Rel ℝ ℂ) (hsp : r.getSpectrum = .ok sp) :
    Balanced sp ∧ sp.y.length = r.y.length / 2 + 1 ∧
      sp.x = ⟨0, ((r.y.length / 2 : ℕ) : ℝ) * (1 / ((r.y.length : ℝ) * r.x.sample)), 1 / ((r.y.length : ℝ) * r.x.sample)⟩ ∧
      (∀ k (hk : k < sp.y.length), sp.y[k] = dft r.y.length (at0 r.y) (k : ℕ)) ∧
      ∀ k (hk : k < sp.y.length), k = 0 ∨ 2 * k = r.y.length → (starRingEnd ℂ) sp.y[k] = sp.y[k] := by
  rw [spectrum_zero_start r hb hn h0 hinc, Except.ok.injEq] at hsp
  subst hsp
  have hnp : (0 : ℝ) < r.y.length := by exact_mod_cast (by omega : 0 < r.y.length)
  refine ⟨balanced_whole _ (r.y.length / 2) (by simp only; positivity) (by simp) (by simp), by simp, rfl, fun k hk => by simp,
    fun k hk h => ?_⟩
  simp only [List.getElem_map, List.getElem_range]
  exact dft_real_ends _ (by omega) _ _ h

/-- **C81.** Two signals on one time axis that starts at 0: `add_phase` multiplies the spectrum at every frequency by the unit factor
of the other spectrum, `sub_phase` divides by it; nothing is lost at the ends. -/
theorem C81_spectrum (r o : Rel ℝ ℝ) (hb : Balanced r) (ho : Balanced o) (hx : o.x = r.x) (hn : 2 ≤ r.y.length)
    (h0 : r.x.start = 0) (hinc : r.x.start < r.x.stop) (hs : 0 < r.x.sample) (sp so : Rel ℝ ℂ) (hsp : r.getSpectrum = .ok sp)
    (hso : o.getSpectrum = .ok so) :
    (∃ q, r.signalAddPhase so = .ok q ∧ q.x = r.x ∧ q.y.length = r.y.length ∧
      q.getSpectrum = .ok ⟨sp.x, List.zipWith (fun z w => z * unitFactor w) sp.y so.y⟩) ∧
    ∃ q, r.signalSubPhase so = .ok q ∧ q.x = r.x ∧ q.y.length = r.y.length ∧
      q.getSpectrum = .ok ⟨sp.x, List.zipWith (fun z w => z * (unitFactor w)⁻¹) sp.y so.y⟩ := by
  have hl : o.y.length = r.y.length := balanced_length_eq ho hb hx
  obtain ⟨a1, a2, a3, -, a4⟩ := spectrum_facts r hb hn h0 hinc hs sp hsp
  obtain ⟨b1, b2, b3, -, b4⟩ := spectrum_facts o ho (by omega) (by rw [hx, h0]) (by rw [hx]; exact hinc) (by rw [hx]; exact hs) so hso
  rw [hl] at b2 b3 b4
  have hxx : sp.x = so.x := by rw [a3, b3, hx]
  constructor
  · obtain ⟨q, q1, q2, q3, q4⟩ := signal_of_real_ends ⟨sp.x, List.zipWith (fun z w => z * unitFactor w) sp.y so.y⟩ r.x h0 hinc
      r.y.length hn hb (by simp [a2, b2]) a3 (fun k hk h => by
        have k1 : k < sp.y.length ∧ k < so.y.length := by simpa using hk
        simp only [List.getElem_zipWith]
        rw [map_mul, a4 k k1.1 h, unitFactor_star, b4 k k1.2 h])
    refine ⟨q, ?_, q2, q3, q4⟩
    unfold Rel.signalAddPhase
    simp only [hsp, except_bind_ok, addPhase_eq sp so a1 b1 hxx, q1]
    rfl
  · obtain ⟨q, q1, q2, q3, q4⟩ := signal_of_real_ends ⟨sp.x, List.zipWith (fun z w => z * (unitFactor w)⁻¹) sp.y so.y⟩ r.x h0 hinc
      r.y.length hn hb (by simp [a2, b2]) a3 (fun k hk h => by
        have k1 : k < sp.y.length ∧ k < so.y.length := by simpa using hk
        simp only [List.getElem_zipWith]
        rw [map_mul, a4 k k1.1 h, map_inv₀, unitFactor_star, b4 k k1.2 h])
    refine ⟨q, ?_, q2, q3, q4⟩
    unfold Rel.signalSubPhase
    simp only [hsp, except_bind_ok, subPhase_eq sp so a1 b1 hxx, q1]
    rfl

theorem unitFactor_ne_zero (z : ℂ) : unitFactor z ≠ 0 := fun e => by
  have := unitFactor_norm z
  rw [e] at this
  simp at this

/-- **C81.** Subtracting the phase just added, or adding the phase just subtracted, returns the signal exactly. -/
theorem C81_round_trip (r o : Rel ℝ ℝ) (hb : Balanced r) (ho : Balanced o) (hx : o.x = r.x) (hn : 2 ≤ r.y.length)
    (h0 : r.x.start = 0) (hinc : r.x.start < r.x.stop) (hs : 0 < r.x.sample) (so : Rel ℝ ℂ) (hso : o.getSpectrum = .ok so) :
    (∃ q, r.signalAddPhase so = .ok q ∧ q.signalSubPhase so = .ok r) ∧
    ∃ q, r.signalSubPhase so = .ok q ∧ q.signalAddPhase so = .ok r := by
  have hl : o.y.length = r.y.length := balanced_length_eq ho hb hx
  obtain ⟨sp, hsp, hrt⟩ := C36_round_trip r hb hn h0 hinc
  obtain ⟨a1, a2, a3, -⟩ := spectrum_facts r hb hn h0 hinc hs sp hsp
  obtain ⟨b1, b2, b3, -⟩ := spectrum_facts o ho (by omega) (by rw [hx, h0]) (by rw [hx]; exact hinc) (by rw [hx]; exact hs) so hso
  rw [hl] at b2 b3
  have hxx : sp.x = so.x := by rw [a3, b3, hx]
  obtain ⟨⟨q, q1, q2, q3, q4⟩, p, p1, p2, p3, p4⟩ := C81_spectrum r o hb ho hx hn h0 hinc hs sp so hsp hso
  have bal : ∀ f : ℂ → ℂ → ℂ, Balanced (⟨sp.x, List.zipWith f sp.y so.y⟩ : Rel ℝ ℂ) :=
    fun f => balanced_of_length a1 _ (by simp [a2, b2])
  refine ⟨⟨q, q1, ?_⟩, p, p1, ?_⟩
  · unfold Rel.signalSubPhase
    simp only [q4, except_bind_ok]
    rw [subPhase_eq _ so (bal _) b1 hxx]
    simp only [except_bind_ok, q2]
    rw [show (⟨sp.x, List.zipWith (fun z w => z * (unitFactor w)⁻¹) (List.zipWith (fun z w => z * unitFactor w) sp.y so.y) so.y⟩ :
      Rel ℝ ℂ) = sp from Rel.ext' rfl (List.ext_getElem (by simp [a2, b2]) fun k k1 k2 => by
        simp only [List.getElem_zipWith]
        rw [mul_assoc, mul_inv_cancel₀ (unitFactor_ne_zero _), mul_one]), hrt]
    rfl
  · unfold Rel.signalAddPhase
    simp only [p4, except_bind_ok]
    rw [addPhase_eq _ so (bal _) b1 hxx]
    simp only [except_bind_ok, p2]
    rw [show (⟨sp.x, List.zipWith (fun z w => z * unitFactor w) (List.zipWith (fun z w => z * (unitFactor w)⁻¹) sp.y so.y) so.y⟩ :
      Rel ℝ ℂ) = sp from Rel.ext' rfl (List.ext_getElem (by simp [a2, b2]) fun k k1 k2 => by
        simp only [List.getElem_zipWith]
        rw [mul_assoc, inv_mul_cancel₀ (unitFactor_ne_zero _), mul_one]), hrt]
    rfl

/-- equal amplitudes give equal energy -/
theorem energy_of_amplitudes (r q : Rel ℝ ℝ) (hb : Balanced r) (hx : q.x = r.x) (hl : q.y.length = r.y.length)
    (hn : 2 ≤ r.y.length) (hinc : r.x.start ≤ r.x.stop) (s t : Rel ℝ ℂ) (hs : r.getSpectrum = .ok s) (ht : q.getSpectrum = .ok t)
    (h : ∀ k, ‖t.y.getD k 0‖ = ‖s.y.getD k 0‖) : (q.y.map fun v => v ^ 2).sum = (r.y.map fun v => v ^ 2).sum := by
  have hqb : Balanced q := by show q.x.size = _; rw [hx, hl]; exact hb
  obtain ⟨s', N, a1, a2, -, a3⟩ := C71_parseval r hb hinc hn
  obtain ⟨t', N', b1, b2, -, b3⟩ := C71_parseval q hqb (by rw [hx]; exact hinc) (by omega)
  rw [hs, Except.ok.injEq] at a2
  rw [ht, Except.ok.injEq] at b2
  subst a2 b2
  rw [hx, a1, Except.ok.injEq] at b1
  subst b1
  simp only [h] at b3
  rw [a3] at b3
  have hN : (N : ℝ) ≠ 0 := by
    intro e
    have e' : N = 0 := by exact_mod_cast e
    subst e'
    obtain ⟨-, c⟩ := (Axis.size_ok_iff _ 0).1 a1
    omega
  exact (mul_left_cancel₀ hN b3).symm

/-- **C81.** Neither changes the energy of the signal. -/
theorem C81_energy (r o : Rel ℝ ℝ) (hb : Balanced r) (ho : Balanced o) (hx : o.x = r.x) (hn : 2 ≤ r.y.length)
    (h0 : r.x.start = 0) (hinc : r.x.start < r.x.stop) (hs : 0 < r.x.sample) (so : Rel ℝ ℂ) (hso : o.getSpectrum = .ok so) :
    (∃ q, r.signalAddPhase so = .ok q ∧ (q.y.map fun v => v ^ 2).sum = (r.y.map fun v => v ^ 2).sum) ∧
    ∃ q, r.signalSubPhase so = .ok q ∧ (q.y.map fun v => v ^ 2).sum = (r.y.map fun v => v ^ 2).sum := by
  have hl : o.y.length = r.y.length := balanced_length_eq ho hb hx
  obtain ⟨sp, hsp, -⟩ := C36_round_trip r hb hn h0 hinc
  obtain ⟨-, a2, -⟩ := spectrum_facts r hb hn h0 hinc hs sp hsp
  obtain ⟨-, b2, -⟩ := spectrum_facts o ho (by omega) (by rw [hx, h0]) (by rw [hx]; exact hinc) (by rw [hx]; exact hs) so hso
  rw [hl] at b2
  obtain ⟨⟨q, q1, q2, q3, q4⟩, p, p1, p2, p3, p4⟩ := C81_spectrum r o hb ho hx hn h0 hinc hs sp so hsp hso
  have amp : ∀ f : ℂ → ℂ → ℂ, (∀ z w, ‖f z w‖ = ‖z‖) → ∀ k, ‖(List.zipWith f sp.y so.y).getD k 0‖ = ‖sp.y.getD k 0‖ := by
    intro f hf k
    rcases Nat.lt_or_ge k sp.y.length with h | h
    · rw [getD_lt _ _ _ h, getD_lt _ _ _ (by simp; omega), List.getElem_zipWith, hf]
    · rw [getD_ge _ _ _ h, getD_ge _ _ _ (by simp; omega)]
  refine ⟨⟨q, q1, energy_of_amplitudes r q hb q2 q3 hn hinc.le sp _ hsp q4 (amp _ fun z w => ?_)⟩, p, p1,
    energy_of_amplitudes r p hb p2 p3 hn hinc.le sp _ hsp p4 (amp _ fun z w => ?_)⟩
  · rw [norm_mul, unitFactor_norm, mul_one]
  · rw [norm_mul, norm_inv, unitFactor_norm, inv_one, mul_one]

/-- **C81.** Subtracting its own phase from a signal gives a zero-phase signal: symmetric about 0 (counted around the axis) with the
greatest absolute value at 0. -/
theorem C81_zero_phase (r : Rel ℝ ℝ) (hb : Balanced r) (hn : 2 ≤ r.y.length) (h0 : r.x.start = 0) (hinc : r.x.start < r.x.stop)
    (hs : 0 < r.x.sample) (sp : Rel ℝ ℂ) (hsp : r.getSpectrum = .ok sp) :
    ∃ q, r.signalSubPhase sp = .ok q ∧ q.x = r.x ∧ q.y.length = r.y.length ∧
      (∀ j, 0 < j → j < r.y.length → q.y.getD (r.y.length - j) 0 = q.y.getD j 0) ∧
      ∀ j, |q.y.getD j 0| ≤ q.y.getD 0 0 := by
  obtain ⟨a1, a2, a3, a4, a5⟩ := spectrum_facts r hb hn h0 hinc hs sp hsp
  obtain ⟨-, q, q1, q2, q3, q4⟩ := C81_spectrum r r hb hb rfl hn h0 hinc hs sp sp hsp hsp
  refine ⟨q, q1, q2, q3, ?_⟩
  set n := r.y.length with hnd
  have hn0 : 0 < n := by omega
  have hnp : (0 : ℝ) < n := by exact_mod_cast hn0
  have hqb : Balanced q := by show q.x.size = _; rw [q2, q3]; exact hb
  obtain ⟨-, c2, -, c4, -⟩ := spectrum_facts q hqb (by omega) (by rw [q2, h0]) (by rw [q2]; exact hinc) (by rw [q2]; exact hs) _ q4
  rw [q3] at c2 c4
  have hlow : ∀ k ≤ n / 2, dft n (at0 q.y) (k : ℕ) = (‖dft n (at0 r.y) (k : ℕ)‖ : ℝ) := by
    intro k hk
    rw [← c4 k (by omega), List.getElem_zipWith, unitFactor_mul, a4 k (by omega)]
  have hall : ∀ k < n, dft n (at0 q.y) (k : ℕ) = (‖dft n (at0 r.y) (k : ℕ)‖ : ℝ) := by
    intro k hk
    rcases Nat.lt_or_ge (n / 2) k with h | h
    · have c1 : ∀ a : ℕ → ℝ, dft n a k = (starRingEnd ℂ) (dft n a ((n - k : ℕ) : ℤ)) := by
        intro a
        rw [Nat.cast_sub hk.le]
        exact (dft_conj n hn0 a k).symm
      rw [c1, c1 (at0 r.y), hlow (n - k) (by omega), Complex.conj_ofReal, Complex.norm_conj]
    · exact hlow k h
  have hform : ∀ j < n, (n : ℝ) * q.y.getD j 0 =
      ∑ k ∈ Finset.range n, ‖dft n (at0 r.y) (k : ℕ)‖ * Real.cos (2 * Real.pi * ((j : ℤ) * k : ℤ) / n) := by
    intro j hj
    have e := dft_inverse n hn0 (at0 q.y) 0 j
    simp only [mul_zero, neg_zero, unitRoot_zero, mul_one, sub_zero] at e
    rw [Int.emod_eq_of_lt (by omega) (by omega), Int.toNat_natCast] at e
    have e1 := congrArg Complex.re e
    rw [Complex.re_sum, ← Complex.ofReal_natCast, ← Complex.ofReal_mul, Complex.ofReal_re] at e1
    refine e1.symm.trans (Finset.sum_congr rfl fun k hk => ?_)
    rw [hall k (Finset.mem_range.1 hk), Complex.re_ofReal_mul, unitRoot_re]
  constructor
  · intro j hj0 hj
    have : (n : ℝ) * q.y.getD (n - j) 0 = n * q.y.getD j 0 := by
      rw [hform _ (by omega), hform _ hj]
      refine Finset.sum_congr rfl fun k _ => ?_
      congr 1
      rw [show 2 * Real.pi * ((((n - j : ℕ) : ℤ) * (k : ℤ) : ℤ) : ℝ) / n = (k : ℕ) * (2 * Real.pi) - 2 * Real.pi *
        (((j : ℤ) * (k : ℤ) : ℤ) : ℝ) / n by
          push_cast [Nat.cast_sub hj.le]
          field_simp]
      rw [Real.cos_nat_mul_two_pi_sub]
    exact mul_left_cancel₀ hnp.ne' this
  · intro j
    have hz : (n : ℝ) * q.y.getD 0 0 = ∑ k ∈ Finset.range n, ‖dft n (at0 r.y) (k : ℕ)‖ := by
      rw [hform 0 hn0]
      refine Finset.sum_congr rfl fun k _ => by simp
    rcases Nat.lt_or_ge j n with hj | hj
    · have : (n : ℝ) * |q.y.getD j 0| ≤ n * q.y.getD 0 0 := by
        rw [← abs_of_pos hnp, ← abs_mul, abs_of_pos hnp, hz, hform j hj]
        refine (Finset.abs_sum_le_sum_abs _ _).trans (Finset.sum_le_sum fun k _ => ?_)
        rw [abs_mul, abs_norm]
        exact mul_le_of_le_one_right (norm_nonneg _) (Real.abs_cos_le_one _)
      exact le_of_mul_le_mul_left this hnp
    · rw [getD_ge _ _ _ (by omega), abs_zero]
      have : 0 ≤ (n : ℝ) * q.y.getD 0 0 := by
        rw [hz]
        exact Finset.sum_nonneg fun k _ => norm_nonneg _
      exact nonneg_of_mul_nonneg_right this hnp

/-- **C81, spectra that belong to no signal.** If the other is a spectrum with a phase at frequency 0 the signal can be lost: the
constant signal with the phase 90° added is silence. -/
theorem C81_lost : (⟨⟨0, 1, 1⟩, [1, 1]⟩ : Rel ℝ ℝ).signalAddPhase ⟨⟨0, 1 / 2, 1 / 2⟩, [Complex.I, 1]⟩ =
    .ok ⟨⟨0, 1, 1⟩, [0, 0]⟩ := by
  have hb : Balanced (⟨⟨0, 1, 1⟩, [1, 1]⟩ : Rel ℝ ℝ) := balanced_whole _ 1 (by norm_num) (by norm_num) rfl
  have hsp := spectrum_zero_start _ hb (by simp) rfl (by norm_num)
  have hd : dft 2 (at0 [1, 1]) ((0 : ℕ) : ℤ) = 2 ∧ dft 2 (at0 [1, 1]) ((1 : ℕ) : ℤ) = 0 := by
    have h1 : unitRoot 2 (-1) = -1 := by
      unfold unitRoot
      rw [show (2 * Real.pi * Complex.I * ((-1 : ℤ) : ℂ) / ((2 : ℕ) : ℂ) : ℂ) = -(Real.pi * Complex.I) by push_cast; ring, Complex.exp_neg,
        Complex.exp_pi_mul_I]
      norm_num
    constructor
    · norm_num [dft, Finset.sum_range_succ, at0, unitRoot_zero]
    · norm_num [dft, Finset.sum_range_succ, at0, unitRoot_zero, h1]
  have hsp' : (⟨⟨0, 1, 1⟩, [1, 1]⟩ : Rel ℝ ℝ).getSpectrum = .ok ⟨⟨0, 1 / 2, 1 / 2⟩, [2, 0]⟩ := by
    rw [hsp]
    simp only [List.length_cons, List.length_nil, Nat.reduceAdd, Nat.reduceDiv, List.range_succ, List.range_zero, List.nil_append,
      List.cons_append, List.map_cons, List.map_nil, hd.1, hd.2]
    norm_num
  have bs : ∀ a b : ℂ, Balanced (⟨⟨0, 1 / 2, 1 / 2⟩, [a, b]⟩ : Rel ℝ ℂ) := fun a b =>
    balanced_whole _ 1 (by norm_num) (by norm_num) rfl
  have hadd := addPhase_eq _ _ (bs 2 0) (bs Complex.I 1) rfl
  unfold Rel.signalAddPhase
  simp only [hsp', except_bind_ok, hadd]
  have hz : (⟨0, 1, 1⟩ : Axis ℝ).size = .ok 2 := hb
  obtain ⟨⟨qx, qy⟩, t, q1, q2, q3, q4, q5, q6, q7⟩ := C79_time_given ⟨⟨0, 1 / 2, 1 / 2⟩,
    List.zipWith (fun z w => z * unitFactor w) [2, 0] [Complex.I, 1]⟩ ⟨0, 1, 1⟩ rfl (by norm_num) 2 (by norm_num) hz
  simp only at q2 q3
  subst q2
  rw [q1]
  have hqb : Balanced (⟨⟨0, 1, 1⟩, qy⟩ : Rel ℝ ℝ) := by show Axis.size _ = _; rw [hz, q3]
  rw [spectrum_zero_start _ hqb (by simp [q3]) rfl (by norm_num), Except.ok.injEq] at q4
  have ht : ∀ k ≤ 1, dft 2 (at0 qy) (k : ℕ) = 0 := by
    intro k hk
    have h1 : k < t.y.length := by omega
    have h2 := q7 k h1
    have h3 : t.y[k] = dft 2 (at0 qy) (k : ℕ) := by
      subst q4
      simp [q3]
    rw [← h3, h2]
    interval_cases k <;> simp [kept, unitFactor]
  have hq0 : ∀ v ∈ qy, v = 0 := by
    by_contra hc
    push Not at hc
    obtain ⟨k, hk, hk0⟩ := dft_ne_zero 2 (by norm_num) qy q3 hc
    exact hk0 (ht k hk)
  have : qy = [0, 0] := by
    match qy, q3 with
    | [a, b], _ => rw [hq0 a (by simp), hq0 b (by simp)]
  rw [this]
  rfl

/-- two signals of three samples meet the hypotheses -/
example : ∃ so q, Rel.getSpectrum ⟨⟨0, 1, 1 / 2⟩, [3, -1, 2]⟩ = .ok so ∧
    Rel.signalAddPhase ⟨⟨0, 1, 1 / 2⟩, [1, 2, 5]⟩ so = .ok q ∧ q.signalSubPhase so = .ok ⟨⟨0, 1, 1 / 2⟩, [1, 2, 5]⟩ := by
  have hb : ∀ a b c : ℝ, Balanced (⟨⟨0, 1, 1 / 2⟩, [a, b, c]⟩ : Rel ℝ ℝ) := fun a b c =>
    balanced_whole _ 2 (by norm_num) (by norm_num) rfl
  obtain ⟨so, h1, -⟩ := C36_round_trip _ (hb 3 (-1) 2) (by simp) rfl (by norm_num)
  obtain ⟨⟨q, h2, h3⟩, -⟩ := C81_round_trip _ _ (hb 1 2 5) (hb 3 (-1) 2) rfl (by simp) rfl (by norm_num) (by norm_num) so h1
  exact ⟨so, q, h1, h2, h3⟩

end SweepDesign
