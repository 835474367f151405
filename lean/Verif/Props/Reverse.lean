import Verif.Props.Phase
import Verif.Props.SpectrumRound
import Verif.Props.FourierSum

/-!
# C80: the reverse signal
-/

set_option linter.unusedSectionVars false

namespace SweepDesign
open Spec

/-- circular convolution of two lists of `n` numbers -/
noncomputable def Spec.circular (a b : List ℝ) (n : ℕ) (j : ℤ) : ℝ :=
  ∑ i ∈ Finset.range n, a.getD i 0 * b.getD ((j - i) % n).toNat 0

theorem circular_dft (a b : List ℝ) (n : ℕ) (hn : 0 < n) (j : ℤ) :
    (n : ℂ) * (circular a b n j : ℂ) = ∑ k ∈ Finset.range n, dft n (at0 a) k * dft n (at0 b) k * unitRoot n (j * k) := by
  have h : ∀ i : ℕ, (n : ℂ) * ((at0 b ((j - i) % n).toNat : ℝ) : ℂ) = ∑ k ∈ Finset.range n, dft n (at0 b) k * unitRoot n ((j - i) * k) := by
    intro i
    have := dft_inverse n hn (at0 b) 0 (j - i)
    simp only [mul_zero, neg_zero, unitRoot_zero, mul_one, sub_zero] at this
    exact this.symm
  have h2 : ∀ k : ℕ, dft n (at0 a) k * dft n (at0 b) k * unitRoot n (j * k) =
      ∑ i ∈ Finset.range n, ((at0 a i : ℝ) : ℂ) * (dft n (at0 b) k * unitRoot n ((j - i) * k)) := by
    intro k
    conv_lhs => rw [dft, mul_assoc, Finset.sum_mul]
    refine Finset.sum_congr rfl fun i _ => ?_
    rw [show (j - (i : ℤ)) * (k : ℤ) = -((i : ℤ) * k) + j * k by ring, unitRoot_add]
    ring
  simp only [h2]
  rw [Finset.sum_comm]
  simp only [← Finset.mul_sum, ← h]
  unfold circular
  push_cast
  rw [Finset.mul_sum]
  refine Finset.sum_congr rfl fun i _ => ?_
  simp only [at0]
  ring

/-- the filter as a map over the selected values -/
theorem reverseFilter_eq (r w : Rel ℝ ℂ) (fs fe : Option ℝ) (hw : r.selectData fs fe = .ok w) (p M : ℝ)
    (hM : npMax (w.y.map fun z => ‖z‖) = .ok M) (hpos : ∀ z ∈ w.y, 0 < ‖z‖ + M * p / 100) (sub : Bool) :
    r.getReverseFilter p sub fs fe = .ok ⟨w.x, w.y.map fun z => ((1 / (‖z‖ + M * p / 100) : ℝ) : ℂ) *
      (if sub then (unitFactor z)⁻¹ else unitFactor z)⟩ := by
  have hb : Balanced w := selectData_balanced hw
  have bamp : Balanced (⟨w.x, w.y.map fun z => ‖z‖⟩ : Rel ℝ ℝ) := balanced_of_length hb _ (by simp)
  have bph : Balanced (⟨w.x, unwrap (w.y.map npAngle)⟩ : Rel ℝ ℝ) := balanced_of_length hb _ (by simp [unwrap_length])
  set c : ℝ := M * p / 100 with hc
  set σ : ℝ := if sub then -1 else 1 with hσ
  have hgen : r.getReverseFilter p sub fs fe = .ok ⟨w.x, List.zipWith (fun a q : ℝ => (a : ℂ) *
      Complex.exp (Complex.I * q)) (((w.y.map fun z => ‖z‖).map fun a => a + c).map fun a => 1 / a)
      ((unwrap (w.y.map npAngle)).map fun a => σ * a)⟩ := by
    unfold Rel.getReverseFilter
    rw [hw]
    simp only [except_bind_ok, amp_eq w hb, Rel.max, hM]
    rw [(C23_with_number _ bamp c).1]
    simp only [except_bind_ok]
    rw [(C23_with_number _ (balanced_of_length hb _ (by simp)) 1).2.2.2.2.2.2.2.1]
    · simp only [except_bind_ok, phase_eq w hb]
      rw [(C23_with_number _ bph σ).2.2.2.2.2.1]
      simp only [except_bind_ok]
      have b1 : Balanced (⟨w.x, ((w.y.map fun z => ‖z‖).map fun a => a + c).map fun a => 1 / a⟩ : Rel ℝ ℝ) :=
        balanced_of_length hb _ (by simp)
      have b2 : Balanced (⟨w.x, (unwrap (w.y.map npAngle)).map fun a => σ * a⟩ : Rel ℝ ℝ) :=
        balanced_of_length hb _ (by simp [unwrap_length])
      rw [fromAmpPhase_eq _ _ b1 b2 rfl]
    · intro a ha
      simp only [List.map_map, List.mem_map, Function.comp] at ha
      obtain ⟨z, hz, rfl⟩ := ha
      exact (hpos z hz).ne'
  rw [hgen]
  congr 2
  refine List.ext_getElem (by simp [unwrap_length]) fun k k1 k2 => ?_
  simp only [List.getElem_zipWith, List.getElem_map]
  have hk : k < w.y.length := by simpa using k2
  have hexp := exp_unwrap w.y k (by simpa [unwrap_length] using hk) hk
  congr 1
  rw [unitFactor_eq, ← hexp]
  cases sub with
  | true =>
    simp only [hσ, if_true, neg_one_mul, Complex.ofReal_neg, mul_neg, Complex.exp_neg]
  | false => simp [hσ]

/-- **C80.** The reverse signal of a signal that starts at 0: its spectrum is the reverse filter of the spectrum, value by value and
counted from frequency 0, whatever the first frequency selected; the imaginary parts at both ends are lost. -/
theorem C80_spectrum (r : Rel ℝ ℝ) (hb : Balanced r) (hn : 2 ≤ r.y.length) (h0 : r.x.start = 0) (hinc : r.x.start < r.x.stop)
    (p : ℝ) (sub : Bool) (fs fe : Option ℝ) (sp g : Rel ℝ ℂ) (hsp : r.getSpectrum = .ok sp)
    (hg : sp.getReverseFilter p sub fs fe = .ok g) :
    ∃ q s, r.getReverseSignal p sub fs fe = .ok q ∧ q.x = r.x ∧ q.y.length = r.y.length ∧ q.getSpectrum = .ok s ∧ s.x = sp.x ∧
      s.y.length = sp.y.length ∧ ∀ k (hk : k < s.y.length), s.y[k] = kept g.y r.y.length k := by
  obtain ⟨q, s, q1, q2, q3, q4, q5, q6, q7⟩ := C79_time_given g r.x h0 hinc r.y.length hn hb
  obtain ⟨y, z, e1, e2, e3, e4, e5, e6⟩ := getSpectrum_eq r hb hinc.le hn
  obtain ⟨p1, rfl⟩ := e3 h0.le (by linarith)
  rw [hsp, Except.ok.injEq] at e6
  refine ⟨q, s, ?_, q2, q3, q4, by rw [q5, e6], by rw [q6, e6]; simp, q7⟩
  unfold Rel.getReverseSignal
  simp only [hsp, except_bind_ok, hg, q1]
  rfl

theorem select_all {V : Type} [Field V] [Algebra ℝ V] (r : Rel ℝ V) (hb : Balanced r) (hinc : r.x.start < r.x.stop) (hn : 2 ≤ r.y.length) :
    r.selectData none none = .ok r := by
  obtain ⟨hs, -⟩ := (balanced_iff r).1 hb
  obtain ⟨l, k, d, h1, h2, -, -, h5, h6, h7, h8, -⟩ := C02_array_shape r.x hs
  have hlen : l.length = r.y.length := by
    rw [show r.x.size = .ok r.y.length from hb] at h2
    simpa using h2.symm
  have hlast := h6 (by omega)
  have hmem : ∀ v ∈ l, (decide (r.x.start ≤ v) && decide (v ≤ r.x.stop)) = true := by
    intro v hv
    obtain ⟨i, hi, rfl⟩ := List.mem_iff_getElem.1 hv
    have hp := h8 hinc
    rw [List.head?_eq_getElem?, List.getElem?_eq_getElem (by omega), Option.some.injEq] at h5
    rw [List.getLast?_eq_getElem?, List.getElem?_eq_getElem (by omega), Option.some.injEq] at hlast
    simp only [Bool.and_eq_true, decide_eq_true_eq]
    rw [← h5, ← hlast]
    exact ⟨pairwise_lt_getElem_le hp (by omega) hi (by omega), pairwise_lt_getElem_le hp hi (by omega) (by omega)⟩
  simp only [Rel.selectData, Option.getD_none, h1, except_bind_ok]
  rw [maskSelect_true _ l l rfl hmem]
  simp only [except_bind_ok, h5, hlast, maskSelect_true _ l r.y hlen hmem]
  exact make_ok hb

/-- all `n` values of the two-sided spectrum of a signal that starts at 0 -/
theorem spectrum_zero_start (r : Rel ℝ ℝ) (hb : Balanced r) (hn : 2 ≤ r.y.length) (h0 : r.x.start = 0)
    (hinc : r.x.start < r.x.stop) :
    r.getSpectrum = .ok ⟨⟨0, ((r.y.length / 2 : ℕ) : ℝ) * (1 / ((r.y.length : ℝ) * r.x.sample)),
          1 / ((r.y.length : ℝ) * r.x.sample)⟩,
        (List.range (r.y.length / 2 + 1)).map fun k : ℕ => dft r.y.length (at0 r.y) k⟩ := by
  obtain ⟨⟨l, w'⟩, hdt⟩ := (balanced_iff_getData _).1 hb
  obtain ⟨hx, rfl, hlen⟩ := (getData_ok_iff _ _ _).1 hdt
  obtain ⟨y, z, e1, e2, e3, e4, e5, e6⟩ := getSpectrum_eq r hb hinc.le hn
  obtain ⟨p1, rfl⟩ := e3 h0.le (by linarith)
  rw [p1, reorder_sorted _ l _ hx hlen hinc.le, countP_zero_start hx h0 hinc.le] at e4
  simp only [List.rotate_zero, Except.ok.injEq] at e4
  subst e4
  exact e6

theorem dft_real_ends (n : ℕ) (hn : 0 < n) (a : ℕ → ℝ) (k : ℕ) (hk : k = 0 ∨ 2 * k = n) :
    (starRingEnd ℂ) (dft n a k) = dft n a k := by
  rcases hk with rfl | hk
  · simp [dft, unitRoot_zero]
  · have := dft_conj n hn a k
    rwa [show ((n : ℤ) - k) = k by omega] at this

theorem unitFactor_conj (z : ℂ) : (starRingEnd ℂ) (unitFactor z) = (unitFactor z)⁻¹ := by
  have h := unitFactor_norm z
  rw [Complex.inv_def, Complex.normSq_eq_norm_sq, h]
  simp

theorem unitFactor_star (z : ℂ) : (starRingEnd ℂ) (unitFactor z) = unitFactor ((starRingEnd ℂ) z) := by
  unfold unitFactor
  by_cases h : z = 0
  · simp [h]
  · rw [if_neg h, if_neg (by simpa using h), map_div₀, Complex.conj_ofReal, Complex.norm_conj]

theorem unitFactor_mul (z : ℂ) : z * (unitFactor z)⁻¹ = (‖z‖ : ℝ) := by
  unfold unitFactor
  by_cases h : z = 0
  · simp [h]
  · rw [if_neg h]
    have : (‖z‖ : ℂ) ≠ 0 := by simpa using h
    field_simp

theorem unitRoot_re (n : ℕ) (m : ℤ) : (unitRoot n m).re = Real.cos (2 * Real.pi * m / n) := by
  unfold unitRoot
  rw [show (2 * Real.pi * Complex.I * m / n : ℂ) = ((2 * Real.pi * m / n : ℝ) : ℂ) * Complex.I by push_cast; ring]
  exact Complex.exp_ofReal_mul_I_re _

theorem reverse_core (r : Rel ℝ ℝ) (hb : Balanced r) (hn : 2 ≤ r.y.length) (h0 : r.x.start = 0) (hinc : r.x.start < r.x.stop)
    (hs : 0 < r.x.sample) (p M : ℝ) (n : ℕ) (hnn : n = r.y.length)
    (hM : npMax (((List.range (n / 2 + 1)).map fun k : ℕ => dft n (at0 r.y) k).map fun z => ‖z‖) = .ok M)
    (hpos : ∀ k ≤ n / 2, 0 < ‖dft n (at0 r.y) (k : ℕ)‖ + M * p / 100) :
    ∃ q, r.getReverseSignal p true none none = .ok q ∧ q.x = r.x ∧ q.y.length = n ∧
      ∀ j : ℤ, (n : ℝ) * circular r.y q.y n j = ∑ k ∈ Finset.range n,
        ‖dft n (at0 r.y) (k : ℕ)‖ / (‖dft n (at0 r.y) (k : ℕ)‖ + M * p / 100) * Real.cos (2 * Real.pi * (j * k : ℤ) / n) := by
  have hsp := spectrum_zero_start r hb hn h0 hinc
  have hn0 : 0 < n := by omega
  rw [← hnn] at hsp
  set X : ℕ → ℂ := fun k => dft n (at0 r.y) (k : ℕ) with hX
  set sp : Rel ℝ ℂ := ⟨⟨0, ((n / 2 : ℕ) : ℝ) * (1 / ((n : ℝ) * r.x.sample)), 1 / ((n : ℝ) * r.x.sample)⟩,
    (List.range (n / 2 + 1)).map X⟩ with hspd
  have hnp : (0 : ℝ) < n := by exact_mod_cast hn0
  have hspb : Balanced sp := balanced_whole _ (n / 2) (by simp only [hspd]; positivity) (by simp [hspd]) (by simp [hspd])
  have hsel : sp.selectData none none = .ok sp := by
    refine select_all sp hspb ?_ (by simp [hspd]; omega)
    have : (0 : ℝ) < ((n / 2 : ℕ) : ℝ) := by exact_mod_cast (by omega : 0 < n / 2)
    simp only [hspd]
    positivity
  have hg := reverseFilter_eq sp sp none none hsel p M hM (by
    intro z hz
    simp only [hspd, List.mem_map, List.mem_range] at hz
    obtain ⟨k, hk, rfl⟩ := hz
    exact hpos k (by omega)) true
  obtain ⟨w, w1, w2, w3⟩ := dft_irfft (sp.y.map fun z => ((1 / (‖z‖ + M * p / 100) : ℝ) : ℂ) * (unitFactor z)⁻¹) n hn0
    (some (n : ℤ)) rfl
  obtain ⟨q, s, q1, q2, q3, q4, q5, q6, q7⟩ := C80_spectrum r hb hn h0 hinc p true none none sp _ hsp hg
  refine ⟨q, q1, q2, by omega, fun j => ?_⟩
  have hqb : Balanced q := by show q.x.size = _; rw [q2, q3]; exact hb
  have hqs := spectrum_zero_start q hqb (by omega) (by rw [q2, h0]) (by rw [q2]; exact hinc)
  rw [q4, Except.ok.injEq] at hqs
  -- the product of the two transforms
  have hlow : ∀ k ≤ n / 2, X k * dft n (at0 q.y) k = ((‖X k‖ / (‖X k‖ + M * p / 100) : ℝ) : ℂ) := by
    intro k hk
    have e1 : dft n (at0 q.y) k = kept (sp.y.map fun z => ((1 / (‖z‖ + M * p / 100) : ℝ) : ℂ) * (unitFactor z)⁻¹) n k := by
      have hks : k < s.y.length := by rw [q6]; simp [hspd]; omega
      have := q7 k hks
      rw [← hnn] at this
      simp only [if_true] at this
      rw [← this]
      have e2 : s.y = (List.range (n / 2 + 1)).map fun k : ℕ => dft n (at0 q.y) k := by
        rw [hqs, q3, hnn]
      rw [List.getElem_of_eq e2, List.getElem_map, List.getElem_range]
    have e3 : kept (sp.y.map fun z => ((1 / (‖z‖ + M * p / 100) : ℝ) : ℂ) * (unitFactor z)⁻¹) n k =
        ((1 / (‖X k‖ + M * p / 100) : ℝ) : ℂ) * (unitFactor (X k))⁻¹ := by
      unfold kept
      rw [getD_lt _ _ _ (by simp [hspd]; omega)]
      simp only [hspd, List.getElem_map, List.getElem_range]
      split
      · rename_i hk2
        have hr := dft_real_ends n hn0 (at0 r.y) k hk2
        rw [← Complex.conj_eq_iff_re, map_mul, Complex.conj_ofReal, ← unitFactor_conj, unitFactor_star, unitFactor_star,
          Complex.conj_conj, hr]
      · rfl
    rw [e1, e3, mul_left_comm, unitFactor_mul, ← Complex.ofReal_mul, one_div_mul_eq_div]
  have hall : ∀ k < n, X k * dft n (at0 q.y) k = ((‖X k‖ / (‖X k‖ + M * p / 100) : ℝ) : ℂ) := by
    intro k hk
    rcases Nat.lt_or_ge (n / 2) k with h | h
    · have c1 : ∀ a : ℕ → ℝ, dft n a k = (starRingEnd ℂ) (dft n a ((n - k : ℕ) : ℤ)) := by
        intro a
        rw [Nat.cast_sub hk.le]
        exact (dft_conj n hn0 a k).symm
      have := hlow (n - k) (by omega)
      simp only [hX] at this ⊢
      rw [c1, c1 (at0 q.y), ← map_mul, this, Complex.conj_ofReal, Complex.norm_conj]
    · exact hlow k h
  have hc := circular_dft r.y q.y n hn0 j
  have hre := congrArg Complex.re hc
  rw [Complex.re_sum] at hre
  have e4 : ((n : ℂ) * (circular r.y q.y n j : ℂ)).re = (n : ℝ) * circular r.y q.y n j := by
    rw [← Complex.ofReal_natCast, ← Complex.ofReal_mul, Complex.ofReal_re]
  rw [e4] at hre
  rw [hre]
  refine Finset.sum_congr rfl fun k hk => ?_
  have hk' := Finset.mem_range.1 hk
  have := hall k hk'
  simp only [hX] at this
  rw [this, Complex.re_ofReal_mul, unitRoot_re]

theorem dft_ne_zero (n : ℕ) (hn : 0 < n) (a : List ℝ) (hl : a.length = n) (h : ∃ v ∈ a, v ≠ 0) :
    ∃ k ≤ n / 2, dft n (at0 a) (k : ℕ) ≠ 0 := by
  by_contra hc
  push Not at hc
  have hall : ∀ k < n, dft n (at0 a) (k : ℕ) = 0 := by
    intro k hk
    rcases Nat.lt_or_ge (n / 2) k with h | h
    · have := dft_conj n hn (at0 a) k
      rw [← Nat.cast_sub hk.le, hc (n - k) (by omega), map_zero] at this
      exact this.symm
    · exact hc k h
  obtain ⟨v, hv, hv0⟩ := h
  obtain ⟨i, hi, rfl⟩ := List.mem_iff_getElem.1 hv
  have := dft_inverse n hn (at0 a) 0 i
  rw [Finset.sum_congr rfl (g := fun _ => 0) fun k hk => by rw [hall k (Finset.mem_range.1 hk)]; simp] at this
  simp only [Finset.sum_const_zero, sub_zero] at this
  rw [Int.emod_eq_of_lt (by omega) (by omega), Int.toNat_natCast, at0_eq _ _ hi] at this
  have hnC : (n : ℂ) ≠ 0 := by exact_mod_cast hn.ne'
  rcases mul_eq_zero.1 this.symm with h | h
  · exact hnC h
  · exact hv0 (by exact_mod_cast h)

/-- **C80.** A signal that starts at 0 and is not silent, a noise level `p > 0`, no band: the circular convolution of the signal with
its reverse signal is a symmetric pulse with its greatest value, which is between 0 and 1, at 0. -/
theorem C80_pulse (r : Rel ℝ ℝ) (hb : Balanced r) (hn : 2 ≤ r.y.length) (h0 : r.x.start = 0) (hinc : r.x.start < r.x.stop)
    (hs : 0 < r.x.sample) (p : ℝ) (hp : 0 < p) (hne : ∃ v ∈ r.y, v ≠ 0) :
    ∃ q, r.getReverseSignal p true none none = .ok q ∧ q.x = r.x ∧ q.y.length = r.y.length ∧
      (∀ j, |circular r.y q.y r.y.length j| ≤ circular r.y q.y r.y.length 0) ∧ 0 < circular r.y q.y r.y.length 0 ∧
      circular r.y q.y r.y.length 0 < 1 ∧ ∀ j, circular r.y q.y r.y.length (-j) = circular r.y q.y r.y.length j := by
  set n := r.y.length with hnd
  have hn0 : 0 < n := by omega
  have hnp : (0 : ℝ) < n := by exact_mod_cast hn0
  obtain ⟨k0, hk0, hX0⟩ := dft_ne_zero n hn0 r.y rfl hne
  obtain ⟨M, hM, hMm, hMle⟩ := npMax_spec (((List.range (n / 2 + 1)).map fun k : ℕ => dft n (at0 r.y) k).map fun z => ‖z‖)
    (by simp)
  have hMpos : 0 < M := by
    refine lt_of_lt_of_le (norm_pos_iff.2 hX0) (hMle _ ?_)
    simp only [List.map_map, List.mem_map, List.mem_range, Function.comp]
    exact ⟨k0, by omega, rfl⟩
  have hcp : 0 < M * p / 100 := by positivity
  obtain ⟨q, q1, q2, q3, q4⟩ := reverse_core r hb hn h0 hinc hs p M n hnd hM fun k _ => by positivity
  set lam : ℕ → ℝ := fun k => ‖dft n (at0 r.y) (k : ℕ)‖ / (‖dft n (at0 r.y) (k : ℕ)‖ + M * p / 100) with hlam
  have l0 : ∀ k, 0 ≤ lam k := fun k => by simp only [hlam]; positivity
  have l1 : ∀ k, lam k < 1 := fun k => by
    simp only [hlam]
    rw [div_lt_one (by positivity)]
    linarith
  have hz : (n : ℝ) * circular r.y q.y n 0 = ∑ k ∈ Finset.range n, lam k := by
    rw [q4]
    refine Finset.sum_congr rfl fun k _ => ?_
    simp [hlam]
  refine ⟨q, q1, q2, q3, fun j => ?_, ?_, ?_, fun j => ?_⟩
  · have : (n : ℝ) * |circular r.y q.y n j| ≤ n * circular r.y q.y n 0 := by
      rw [← abs_of_pos hnp, ← abs_mul, abs_of_pos hnp, hz, q4]
      refine (Finset.abs_sum_le_sum_abs _ _).trans (Finset.sum_le_sum fun k _ => ?_)
      rw [abs_mul]
      calc _ ≤ |lam k| * 1 := mul_le_mul_of_nonneg_left (Real.abs_cos_le_one _) (abs_nonneg _)
        _ = lam k := by rw [mul_one, abs_of_nonneg (l0 k)]
    exact le_of_mul_le_mul_left this hnp
  · have : 0 < (n : ℝ) * circular r.y q.y n 0 := by
      rw [hz]
      refine Finset.sum_pos' (fun k _ => l0 k) ⟨k0, Finset.mem_range.2 (by omega), ?_⟩
      simp only [hlam]
      have := norm_pos_iff.2 hX0
      positivity
    exact pos_of_mul_pos_right this hnp.le
  · have : (n : ℝ) * circular r.y q.y n 0 < n * 1 := by
      rw [hz, mul_one]
      calc _ < ∑ k ∈ Finset.range n, (1 : ℝ) :=
            Finset.sum_lt_sum_of_nonempty ⟨0, Finset.mem_range.2 hn0⟩ fun k _ => l1 k
        _ = n := by simp
    exact lt_of_mul_lt_mul_left this hnp.le
  · have : (n : ℝ) * circular r.y q.y n (-j) = n * circular r.y q.y n j := by
      rw [q4, q4]
      refine Finset.sum_congr rfl fun k _ => ?_
      congr 1
      rw [← Real.cos_neg]
      congr 1
      push_cast
      ring
    exact mul_left_cancel₀ hnp.ne' this

/-- **C80.** With noise level 0 and a spectrum without zeros the circular convolution with the reverse signal is exactly the unit
pulse: the reverse signal is the inverse of the signal. -/
theorem C80_inverse (r : Rel ℝ ℝ) (hb : Balanced r) (hn : 2 ≤ r.y.length) (h0 : r.x.start = 0) (hinc : r.x.start < r.x.stop)
    (hs : 0 < r.x.sample) (sp : Rel ℝ ℂ) (hsp : r.getSpectrum = .ok sp) (hne : ∀ z ∈ sp.y, z ≠ 0) :
    ∃ q, r.getReverseSignal 0 true none none = .ok q ∧ q.x = r.x ∧ q.y.length = r.y.length ∧
      ∀ j < r.y.length, circular r.y q.y r.y.length (j : ℕ) = if j = 0 then 1 else 0 := by
  set n := r.y.length with hnd
  have hn0 : 0 < n := by omega
  have hnp : (0 : ℝ) < n := by exact_mod_cast hn0
  have hsp' := spectrum_zero_start r hb hn h0 hinc
  rw [hsp, ← hnd, Except.ok.injEq] at hsp'
  have hX : ∀ k ≤ n / 2, dft n (at0 r.y) (k : ℕ) ≠ 0 := by
    intro k hk
    refine hne _ ?_
    rw [hsp']
    simp only [List.mem_map, List.mem_range]
    exact ⟨k, by omega, rfl⟩
  obtain ⟨M, hM, -⟩ := npMax_spec (((List.range (n / 2 + 1)).map fun k : ℕ => dft n (at0 r.y) k).map fun z => ‖z‖) (by simp)
  obtain ⟨q, q1, q2, q3, q4⟩ := reverse_core r hb hn h0 hinc hs 0 M n hnd hM fun k hk => by
    have := norm_pos_iff.2 (hX k hk)
    simpa using hX k hk
  refine ⟨q, q1, q2, q3, fun j hj => ?_⟩
  have hX' : ∀ k < n, dft n (at0 r.y) (k : ℕ) ≠ 0 := by
    intro k hk
    rcases Nat.lt_or_ge (n / 2) k with h | h
    · have := dft_conj n hn0 (at0 r.y) k
      rw [← Nat.cast_sub hk.le] at this
      rw [← this]
      simpa using hX (n - k) (by omega)
    · exact hX k h
  have e : (n : ℝ) * circular r.y q.y n j = (∑ k ∈ Finset.range n, unitRoot n (j * k)).re := by
    rw [q4, Complex.re_sum]
    refine Finset.sum_congr rfl fun k hk => ?_
    have := norm_pos_iff.2 (hX' k (Finset.mem_range.1 hk))
    rw [unitRoot_re, mul_zero, zero_div, add_zero, div_self this.ne', one_mul]
  rw [unitRoot_sum n hn0] at e
  by_cases hj0 : j = 0
  · rw [if_pos hj0]
    rw [if_pos (by rw [hj0]; simp)] at e
    have : (n : ℝ) * circular r.y q.y n j = n * 1 := by rw [e]; simp
    exact mul_left_cancel₀ hnp.ne' this
  · rw [if_neg hj0]
    rw [if_neg] at e
    · simp only [Complex.zero_re, mul_eq_zero, Nat.cast_eq_zero] at e
      rcases e with e | e
      · omega
      · exact e
    · intro hd
      have := Int.natCast_dvd_natCast.1 hd
      exact hj0 (Nat.eq_zero_of_dvd_of_lt this hj)

/-- **C80, what a band does.** The unit pulse has the same value at every frequency; its reverse signal for the band from 1/4 (half
of the frequencies up) has values at the frequencies 0 and 1/4 and nothing at 1/2: the band has been moved down to frequency 0. -/
theorem C80_band_moved :
    ∃ q s, Rel.getReverseSignal ⟨⟨0, 3, 1⟩, [1, 0, 0, 0]⟩ 0 true (some (1 / 4)) none = .ok q ∧ q.getSpectrum = .ok s ∧
      s.x = ⟨0, 1 / 2, 1 / 4⟩ ∧ s.y = [1, 1, 0] := by
  have hb : Balanced (⟨⟨0, 3, 1⟩, [1, 0, 0, 0]⟩ : Rel ℝ ℝ) := balanced_whole _ 3 (by norm_num) (by norm_num) rfl
  have hsp := spectrum_zero_start ⟨⟨0, 3, 1⟩, [1, 0, 0, 0]⟩ hb (by simp) rfl (by norm_num)
  have hd : ∀ k : ℤ, dft 4 (at0 [1, 0, 0, 0]) k = 1 := by
    intro k
    simp [dft, Finset.sum_range_succ, at0, unitRoot_zero]
  have hsp' : (⟨⟨0, 3, 1⟩, [1, 0, 0, 0]⟩ : Rel ℝ ℝ).getSpectrum = .ok ⟨⟨0, 1 / 2, 1 / 4⟩, [1, 1, 1]⟩ := by
    rw [hsp]
    simp only [List.length_cons, List.length_nil, hd]
    norm_num [List.range_succ]
  have harr := array_whole (⟨0, 1 / 2, 1 / 4⟩ : Axis ℝ) 2 (by norm_num) (by norm_num)
  have bw : Balanced (⟨⟨1 / 4, 1 / 2, 1 / 4⟩, [1, 1]⟩ : Rel ℝ ℂ) := balanced_whole _ 1 (by norm_num) (by norm_num) rfl
  have hsel : (⟨⟨0, 1 / 2, 1 / 4⟩, [1, 1, 1]⟩ : Rel ℝ ℂ).selectData (some (1 / 4)) none =
      .ok ⟨⟨1 / 4, 1 / 2, 1 / 4⟩, [1, 1]⟩ := by
    have := make_ok bw
    simp only [Rel.selectData, harr, except_bind_ok, Option.getD_none, Option.getD_some]
    norm_num [List.range_succ, maskSelect, except_bind_ok]
    norm_num at this
    exact this
  have hM : npMax (([1, 1] : List ℂ).map fun z => ‖z‖) = .ok 1 := by simp [npMax]
  have hf := reverseFilter_eq _ _ (some (1 / 4)) none hsel 0 1 hM (by simp) true
  obtain ⟨q, s, h1, -, -, h2, h3, h4, h5⟩ := C80_spectrum _ hb (by simp) rfl (by norm_num) 0 true (some (1 / 4)) none _ _ hsp' hf
  refine ⟨q, s, h1, h2, h3, List.ext_getElem (by rw [h4]; rfl) fun k k1 k2 => ?_⟩
  rw [h5 k k1]
  match k, k2 with
  | 0, _ => simp [kept, unitFactor]
  | 1, _ => simp [kept, unitFactor]
  | 2, _ => simp [kept, unitFactor]

/-- a signal of four samples meets the hypotheses of both theorems -/
example : (∃ q, Rel.getReverseSignal ⟨⟨0, 3, 1⟩, [2, 1, 0, 0]⟩ 5 true none none = .ok q ∧
      0 < circular [2, 1, 0, 0] q.y 4 0 ∧ circular [2, 1, 0, 0] q.y 4 0 < 1) ∧
    ∃ q, Rel.getReverseSignal ⟨⟨0, 3, 1⟩, [2, 1, 0, 0]⟩ 0 true none none = .ok q ∧
      ∀ j < 4, circular [2, 1, 0, 0] q.y 4 (j : ℕ) = if j = 0 then 1 else 0 := by
  have hb : Balanced (⟨⟨0, 3, 1⟩, [2, 1, 0, 0]⟩ : Rel ℝ ℝ) := balanced_whole _ 3 (by norm_num) (by norm_num) rfl
  constructor
  · obtain ⟨q, h1, -, -, -, h2, h3, -⟩ := C80_pulse _ hb (by simp) rfl (by norm_num) (by norm_num) 5 (by norm_num)
      ⟨2, by simp, by norm_num⟩
    exact ⟨q, h1, h2, h3⟩
  · obtain ⟨q, h1, -, -, h2⟩ := C80_inverse _ hb (by simp) rfl (by norm_num) (by norm_num) _
      (spectrum_zero_start _ hb (by simp) rfl (by norm_num)) (by
        intro z hz h0
        simp only [List.mem_map] at hz
        obtain ⟨k, -, rfl⟩ := hz
        simp only [List.length_cons, List.length_nil, dft, Finset.sum_range_succ, Finset.sum_range_zero, at0] at h0
        simp only [zero_add, List.getD_cons_zero, List.getD_cons_succ, Complex.ofReal_zero, zero_mul, add_zero, Nat.cast_zero,
          neg_zero, unitRoot_zero, mul_one, Complex.ofReal_one, one_mul] at h0
        have h1 : ‖unitRoot 4 (-(((1 : ℕ) : ℤ) * (k : ℤ)))‖ = 1 := by
          unfold unitRoot
          rw [Complex.norm_exp]
          simp
        rw [← neg_eq_of_add_eq_zero_right h0] at h1
        norm_num at h1)
    exact ⟨q, h1, h2⟩

end SweepDesign
