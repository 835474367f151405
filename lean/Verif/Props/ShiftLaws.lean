import Verif.Props.SignalShift
import Verif.Props.SpectrumRound
import Verif.Props.FourierSum

/-!
# C128: shifting a signal by any amount

C41 describes `Signal.shift` by a whole number of samples. Here the amount is any number. A signal with an even number of samples has a
component at half the sampling frequency, and `np.fft.irfft` keeps only the real part of it; shifts by fractions of a sample change it.
-/

set_option linter.unusedSectionVars false

namespace SweepDesign
open Spec

noncomputable section

/-- a signal of at least two samples on a rising axis that begins at zero -/
structure Spec.FromZero (r : Rel ℝ ℝ) : Prop where
  balanced : Balanced r
  two : 2 ≤ r.y.length
  start : r.x.start = 0
  rising : r.x.start < r.x.stop

/-- `y 0 - y 1 + y 2 - …` -/
def Spec.alternating (y : List ℝ) : ℝ := ∑ j ∈ Finset.range y.length, (-1) ^ j * y.getD j 0

/-- `d` is a whole number of samples of length `s` -/
def Spec.WholeSamples (d s : ℝ) : Prop := ∃ m : ℤ, d = m * s

theorem spectrum_zero {r : Rel ℝ ℝ} (h : FromZero r) :
    r.getSpectrum = .ok ⟨⟨0, ((r.y.length / 2 : ℕ) : ℝ) * (1 / ((r.y.length : ℝ) * r.x.sample)), 1 / ((r.y.length : ℝ) * r.x.sample)⟩,
      (List.range (r.y.length / 2 + 1)).map fun k : ℕ => dft r.y.length (at0 r.y) k⟩ := by
  obtain ⟨⟨l, w'⟩, hdt⟩ := (balanced_iff_getData _).1 h.balanced
  obtain ⟨hx, rfl, hlen⟩ := (getData_ok_iff _ _ _).1 hdt
  obtain ⟨y', z, e1, e2, e3, e4, e5, e6⟩ := getSpectrum_eq _ h.balanced h.rising.le h.two
  obtain ⟨p1, rfl⟩ := e3 h.start.le (by linarith [h.start, h.rising])
  rw [p1, reorder_sorted r.x l r.y hx hlen h.rising.le, countP_zero_start hx h.start h.rising.le] at e4
  simp only [List.rotate_zero, Except.ok.injEq] at e4
  subst e4
  exact e6

/-- a signal that begins at zero is determined by its spectrum -/
theorem eq_of_spectrum {r q : Rel ℝ ℝ} (h : FromZero r) (hq : FromZero q) (hx : q.x = r.x)
    (he : ∀ k : ℕ, 2 * k ≤ r.y.length → dft r.y.length (at0 q.y) k = dft r.y.length (at0 r.y) k) : q = r := by
  have hl : q.y.length = r.y.length := balanced_length_eq hq.balanced h.balanced hx
  obtain ⟨s1, a1, a2⟩ := C36_round_trip r h.balanced h.two h.start h.rising
  obtain ⟨s2, b1, b2⟩ := C36_round_trip q hq.balanced hq.two hq.start hq.rising
  rw [spectrum_zero h, Except.ok.injEq] at a1
  rw [spectrum_zero hq, Except.ok.injEq, hl, hx] at b1
  have : s2 = s1 := by
    rw [← a1, ← b1]
    congr 1
    refine List.map_congr_left fun k hk => he k ?_
    have := List.mem_range.1 hk
    omega
  rw [this, hx, a2, Except.ok.injEq] at b2
  exact b2.symm

theorem dft_real_zero (n : ℕ) (a : ℕ → ℝ) : dft n a 0 = ((∑ j ∈ Finset.range n, a j : ℝ) : ℂ) := by
  simp [dft, unitRoot_zero]

theorem dft_half {n k : ℕ} (hk : 2 * k = n) (hn : 0 < n) (a : ℕ → ℝ) :
    dft n a k = ((∑ j ∈ Finset.range n, (-1) ^ j * a j : ℝ) : ℂ) := by
  unfold dft
  push_cast
  refine Finset.sum_congr rfl fun j _ => ?_
  have hnc : (n : ℂ) ≠ 0 := by exact_mod_cast hn.ne'
  have hkc : (k : ℂ) ≠ 0 := by
    have : k ≠ 0 := by omega
    exact_mod_cast this
  have e : unitRoot n (-(j * k)) = (-1) ^ j := by
    rw [unitRoot]
    rw [show (2 * Real.pi * Complex.I * ((-((j : ℤ) * (k : ℤ)) : ℤ) : ℂ) / n : ℂ) = (j : ℂ) * (-(Real.pi * Complex.I)) by
      rw [← hk]; push_cast; field_simp]
    rw [Complex.exp_nat_mul, Complex.exp_neg, Complex.exp_pi_mul_I]
    norm_num
  rw [e, mul_comm]

theorem dft_alternating {y : List ℝ} {k : ℕ} (hk : 2 * k = y.length) (hn : 0 < y.length) :
    dft y.length (at0 y) k = ((alternating y : ℝ) : ℂ) := by
  rw [dft_half hk hn]
  rfl

/-- the factor of frequency `k` -/
def turn (n : ℕ) (s d : ℝ) (k : ℕ) : ℂ := if 2 * k = n then ((Real.cos (Real.pi * d / s) : ℝ) : ℂ) else
  Complex.exp (-(2 * Real.pi * (k * d / (n * s)) : ℝ) * Complex.I)

theorem shift_spectrum {r : Rel ℝ ℝ} (h : FromZero r) (d : ℝ) :
    ∃ q, r.signalShift d = .ok q ∧ FromZero q ∧ q.x = r.x ∧ q.y.length = r.y.length ∧
      ∀ k : ℕ, 2 * k ≤ r.y.length → dft r.y.length (at0 q.y) k = dft r.y.length (at0 r.y) k * turn r.y.length r.x.sample d k := by
  obtain ⟨hs, hl⟩ := (balanced_iff r).1 h.balanced
  have hn := h.two
  obtain ⟨⟨l, w'⟩, hdt⟩ := (balanced_iff_getData _).1 h.balanced
  obtain ⟨hx, rfl, hlen⟩ := (getData_ok_iff _ _ _).1 hdt
  obtain ⟨y, z, w, q, e1, e2, e3, e4, e5, e6, e7, e8, e9⟩ := signalShift_eq r h.balanced h.rising.le hn d
  obtain ⟨p1, rfl⟩ := e2 h.start.le (by linarith [h.start, h.rising])
  rw [p1, reorder_sorted r.x l r.y hx hlen h.rising.le, countP_zero_start hx h.start h.rising.le] at e3
  simp only [List.rotate_zero, Except.ok.injEq] at e3
  subst e3
  rw [reorder_sorted r.x l w hx (by omega) h.rising.le, countP_zero_start hx h.start h.rising.le] at e7
  simp only [List.rotate_zero, Except.ok.injEq] at e7
  subst e7
  obtain ⟨w', h1, h2, h3⟩ := dft_irfft _ r.y.length (by omega) (some (r.y.length : ℤ)) rfl
  rw [e5, Except.ok.injEq] at h1
  subst h1
  refine ⟨_, e9, ⟨?_, by simpa [e8] using hn, h.start, h.rising⟩, rfl, e8, fun k hk => ?_⟩
  · show r.x.size = _
    rw [e8]; exact h.balanced
  have hN : 0 < r.y.length := by omega
  have hNr : (r.y.length : ℝ) ≠ 0 := by exact_mod_cast hN.ne'
  simp only
  rw [h3 k (by omega), twoSided_kept _ _ _ hk, kept, List.getD_eq_getElem?_getD, List.getElem?_map,
    List.getElem?_range (by omega), Option.map_some, Option.getD_some]
  have harg : -Complex.I * (((k : ℝ) * (1 / ((r.y.length : ℝ) * r.x.sample)) : ℝ) : ℂ) * 2 * Real.pi * d =
      (((-(2 * Real.pi * (k * d / (r.y.length * r.x.sample)))) : ℝ) : ℂ) * Complex.I := by
    push_cast; field_simp
  rw [harg]
  unfold turn
  by_cases hk2 : 2 * k = r.y.length
  · rw [if_pos (.inr hk2), if_pos hk2, dft_alternating hk2 hN, Complex.re_ofReal_mul, Complex.exp_ofReal_mul_I_re]
    have : (-(2 * Real.pi * (k * d / (r.y.length * r.x.sample))) : ℝ) = -(Real.pi * d / r.x.sample) := by
      have : (r.y.length : ℝ) = 2 * k := by exact_mod_cast hk2.symm
      have hk0 : (k : ℝ) ≠ 0 := by
        have : k ≠ 0 := by omega
        exact_mod_cast this
      rw [this]; field_simp
    rw [this, Real.cos_neg]
    push_cast; rfl
  · rw [if_neg hk2]
    by_cases hk0 : k = 0
    · subst hk0
      rw [if_pos (.inl rfl)]
      have := dft_real_zero r.y.length (at0 r.y)
      simp only [Nat.cast_zero] at this ⊢
      rw [this]
      simp
    · rw [if_neg (by rintro (hc | hc); exacts [hk0 hc, hk2 hc])]
      push_cast; rfl

theorem turn_add {n k : ℕ} (hk : 2 * k ≠ n) (s d1 d2 : ℝ) : turn n s d1 k * turn n s d2 k = turn n s (d1 + d2) k := by
  unfold turn
  rw [if_neg hk, if_neg hk, if_neg hk, ← Complex.exp_add]
  congr 1
  push_cast; ring

theorem sin_zero_iff {s d : ℝ} (hs : s ≠ 0) : Real.sin (Real.pi * d / s) = 0 ↔ WholeSamples d s := by
  rw [Real.sin_eq_zero_iff]
  constructor
  · rintro ⟨m, hm⟩
    refine ⟨m, ?_⟩
    have : (m : ℝ) = d / s := by
      have hp := Real.pi_ne_zero
      field_simp at hm ⊢
      linarith
    rw [this]; field_simp
  · rintro ⟨m, rfl⟩
    exact ⟨m, by field_simp⟩

/-- **C128** The spectrum of a shifted signal: every value is turned by the angle `2π f d`, except that the value at half the sampling
frequency (present if the number of samples is even) is multiplied by the cosine `cos (π d / sample)`. -/
theorem C128_spectrum {r : Rel ℝ ℝ} (h : FromZero r) (d : ℝ) :
    ∃ q sp p, r.signalShift d = .ok q ∧ q.x = r.x ∧ q.y.length = r.y.length ∧ r.getSpectrum = .ok sp ∧ q.getSpectrum = .ok p ∧ p.x = sp.x ∧
      sp.y.length = r.y.length / 2 + 1 ∧ p.y.length = sp.y.length ∧
      ∀ k < sp.y.length,
        (2 * k ≠ r.y.length → p.y.getD k 0 =
          sp.y.getD k 0 * Complex.exp (-(2 * Real.pi * (k * d / (r.y.length * r.x.sample)) : ℝ) * Complex.I)) ∧
        (2 * k = r.y.length → p.y.getD k 0 = sp.y.getD k 0 * (Real.cos (Real.pi * d / r.x.sample) : ℝ)) := by
  obtain ⟨q, e1, e2, e3, e4, e5⟩ := shift_spectrum h d
  refine ⟨q, _, _, e1, e3, e4, spectrum_zero h, spectrum_zero e2, ?_, by simp, by simp [e4], fun k hk => ?_⟩
  · simp only; rw [e3, e4]
  · simp only [List.length_map, List.length_range] at hk
    have hk' : 2 * k ≤ r.y.length := by omega
    have := e5 k hk'
    simp only [e4]
    rw [getD_lt _ _ _ (by simpa using hk), getD_lt _ _ _ (by simpa using hk)]
    simp only [List.getElem_map, List.getElem_range]
    rw [this]
    unfold turn
    exact ⟨fun hne => by rw [if_neg hne], fun he => by rw [if_pos he]⟩

/-- **C128** `shift(0)` returns the signal. -/
theorem C128_zero {r : Rel ℝ ℝ} (h : FromZero r) : r.signalShift 0 = .ok r := by
  obtain ⟨q, e1, e2, e3, e4, e5⟩ := shift_spectrum h 0
  rw [e1, eq_of_spectrum h e2 e3 fun k hk => ?_]
  rw [e5 k hk]
  unfold turn
  split <;> simp

/-- the double shift at every frequency -/
theorem shift_twice {r : Rel ℝ ℝ} (h : FromZero r) (d1 d2 : ℝ) :
    ∃ q w, r.signalShift d1 = .ok q ∧ q.signalShift d2 = .ok w ∧ FromZero w ∧ w.x = r.x ∧ w.y.length = r.y.length ∧
      ∀ k : ℕ, 2 * k ≤ r.y.length → dft r.y.length (at0 w.y) k =
        dft r.y.length (at0 r.y) k * (turn r.y.length r.x.sample d1 k * turn r.y.length r.x.sample d2 k) := by
  obtain ⟨q, e1, e2, e3, e4, e5⟩ := shift_spectrum h d1
  obtain ⟨w, f1, f2, f3, f4, f5⟩ := shift_spectrum e2 d2
  rw [e4, e3] at f5
  refine ⟨q, w, e1, f1, f2, by rw [f3, e3], by rw [f4, e4], fun k hk => ?_⟩
  rw [f5 k hk, e5 k hk, mul_assoc]

/-- **C128** Two shifts one after the other are one shift by the sum of the amounts exactly if the number of samples is odd, or the
alternating sum of the samples is zero, or one of the amounts is a whole number of samples. -/
theorem C128_twice {r : Rel ℝ ℝ} (h : FromZero r) (d1 d2 : ℝ) :
    ∃ q w u, r.signalShift d1 = .ok q ∧ q.signalShift d2 = .ok w ∧ r.signalShift (d1 + d2) = .ok u ∧
      (w = u ↔ r.y.length % 2 = 1 ∨ alternating r.y = 0 ∨ WholeSamples d1 r.x.sample ∨ WholeSamples d2 r.x.sample) := by
  obtain ⟨hs, -⟩ := (balanced_iff r).1 h.balanced
  obtain ⟨q, w, e1, e2, e3, e4, e5, e6⟩ := shift_twice h d1 d2
  obtain ⟨u, f1, f2, f3, f4, f5⟩ := shift_spectrum h (d1 + d2)
  refine ⟨q, w, u, e1, e2, f1, ?_⟩
  have hN : 0 < r.y.length := by have := h.two; omega
  have half : ∀ k, 2 * k = r.y.length → (dft r.y.length (at0 w.y) k = dft r.y.length (at0 u.y) k ↔
      alternating r.y = 0 ∨ WholeSamples d1 r.x.sample ∨ WholeSamples d2 r.x.sample) := by
    intro k hk
    rw [e6 k hk.le, f5 k hk.le, dft_alternating hk hN]
    unfold turn
    rw [if_pos hk, if_pos hk, if_pos hk]
    norm_cast
    rw [mul_add, add_div, Real.cos_add, mul_sub, ← sin_zero_iff hs, ← sin_zero_iff hs, ← mul_eq_zero, ← mul_eq_zero]
    constructor <;> intro hh <;> linarith
  constructor
  · intro he
    by_cases hodd : r.y.length % 2 = 1
    · exact .inl hodd
    · exact .inr ((half (r.y.length / 2) (by omega)).1 (by rw [he]))
  · intro hh
    refine eq_of_spectrum f2 e3 (by rw [e4, f3]) fun k hk => ?_
    rw [f4] at hk ⊢
    by_cases hk2 : 2 * k = r.y.length
    · rw [half k hk2]
      exact hh.resolve_left (by omega)
    · rw [e6 k hk, f5 k hk, turn_add hk2]

/-- **C128** Shifting back and forth returns the signal under the same condition. -/
theorem C128_back {r : Rel ℝ ℝ} (h : FromZero r) (d : ℝ) :
    ∃ q w, r.signalShift d = .ok q ∧ q.signalShift (-d) = .ok w ∧
      (w = r ↔ r.y.length % 2 = 1 ∨ alternating r.y = 0 ∨ WholeSamples d r.x.sample) := by
  obtain ⟨q, w, u, e1, e2, e3, e4⟩ := C128_twice h d (-d)
  rw [add_neg_cancel, C128_zero h, Except.ok.injEq] at e3
  subst e3
  refine ⟨q, w, e1, e2, e4.trans ?_⟩
  have : WholeSamples (-d) r.x.sample ↔ WholeSamples d r.x.sample := by
    constructor
    · rintro ⟨m, hm⟩; exact ⟨-m, by push_cast; linarith⟩
    · rintro ⟨m, hm⟩; exact ⟨-m, by push_cast; linarith⟩
  rw [this, or_self]

/-- **C128** The order of two shifts does not matter. -/
theorem C128_order {r : Rel ℝ ℝ} (h : FromZero r) (d1 d2 : ℝ) :
    (r.signalShift d1 >>= fun q => q.signalShift d2) = (r.signalShift d2 >>= fun q => q.signalShift d1) ∧
    ∃ w, (r.signalShift d1 >>= fun q => q.signalShift d2) = .ok w := by
  obtain ⟨q, w, e1, e2, e3, e4, e5, e6⟩ := shift_twice h d1 d2
  obtain ⟨q', w', f1, f2, f3, f4, f5, f6⟩ := shift_twice h d2 d1
  rw [e1, f1]
  simp only [except_bind_ok]
  rw [e2, f2]
  refine ⟨congrArg _ (eq_of_spectrum f3 e3 (by rw [e4, f4]) fun k hk => ?_), _, rfl⟩
  rw [f5] at hk ⊢
  rw [e6 k hk, f6 k hk, mul_comm (turn _ _ d1 k)]

/-- **C128** Sum and energy: a shift keeps the sum of the samples. It keeps the sum of their squares if their number is odd; otherwise it
loses `(alternating sum)² sin² (π d / sample) / n`. -/
theorem C128_energy {r : Rel ℝ ℝ} (h : FromZero r) (d : ℝ) :
    ∃ q, r.signalShift d = .ok q ∧ q.y.sum = r.y.sum ∧
      (r.y.length % 2 = 1 → (q.y.map fun v => v ^ 2).sum = (r.y.map fun v => v ^ 2).sum) ∧
      (r.y.length % 2 = 0 → (q.y.map fun v => v ^ 2).sum = (r.y.map fun v => v ^ 2).sum -
        alternating r.y ^ 2 * Real.sin (Real.pi * d / r.x.sample) ^ 2 / r.y.length) := by
  obtain ⟨q, e1, e2, e3, e4, e5⟩ := shift_spectrum h d
  have hN : 0 < r.y.length := by have := h.two; omega
  refine ⟨q, e1, ?_, ?_⟩
  · have := e5 0 (by omega)
    simp only [Nat.cast_zero] at this
    rw [dft_real_zero, dft_real_zero] at this
    have t0 : turn r.y.length r.x.sample d 0 = 1 := by
      unfold turn
      rw [if_neg (by omega)]
      simp
    rw [t0, mul_one] at this
    have h1 : ∑ j ∈ Finset.range r.y.length, at0 q.y j = ∑ j ∈ Finset.range r.y.length, at0 r.y j := by exact_mod_cast this
    rw [list_sum_eq, list_sum_eq, e4]
    exact h1
  have hn : ∀ k < r.y.length, 2 * k ≠ r.y.length → ‖dft r.y.length (at0 q.y) k‖ = ‖dft r.y.length (at0 r.y) k‖ := by
    have low : ∀ k : ℕ, 2 * k ≤ r.y.length → 2 * k ≠ r.y.length → ‖dft r.y.length (at0 q.y) k‖ = ‖dft r.y.length (at0 r.y) k‖ := by
      intro k hk hk2
      rw [e5 k hk, norm_mul]
      unfold turn
      rw [if_neg hk2]
      have := Complex.norm_exp_ofReal_mul_I (-(2 * Real.pi * (k * d / (r.y.length * r.x.sample))))
      push_cast at this ⊢
      rw [this, mul_one]
    intro k hk hk2
    rcases le_or_gt (2 * k) r.y.length with hle | hgt
    · exact low k hle hk2
    · have := low (r.y.length - k) (by omega) (by omega)
      rw [Nat.cast_sub hk.le] at this
      rwa [norm_dft_neg _ hN, norm_dft_neg _ hN] at this
  have hE : ∀ y : List ℝ, y.length = r.y.length → (r.y.length : ℝ) * (y.map fun v => v ^ 2).sum =
      ∑ k ∈ Finset.range r.y.length, ‖dft r.y.length (at0 y) k‖ ^ 2 := by
    intro y hy
    rw [dft_parseval _ hN, list_sum_eq, List.length_map, hy]
    congr 1
    refine Finset.sum_congr rfl fun j hj => ?_
    have hj' : j < y.length := by rw [hy]; exact Finset.mem_range.1 hj
    rw [getD_lt _ _ _ (by simpa using hj'), List.getElem_map, at0_eq _ _ hj']
  have hNr : (r.y.length : ℝ) ≠ 0 := by exact_mod_cast hN.ne'
  have h1 := hE q.y e4
  have h2 := hE r.y rfl
  constructor
  · intro hodd
    have : ∑ k ∈ Finset.range r.y.length, ‖dft r.y.length (at0 q.y) k‖ ^ 2 = ∑ k ∈ Finset.range r.y.length, ‖dft r.y.length (at0 r.y) k‖ ^ 2 :=
      Finset.sum_congr rfl fun k hk => by rw [hn k (Finset.mem_range.1 hk) (by omega)]
    rw [← h1, ← h2] at this
    exact mul_left_cancel₀ hNr this
  · intro heven
    set m := r.y.length / 2 with hm
    have hm2 : 2 * m = r.y.length := by omega
    have hmem : m ∈ Finset.range r.y.length := Finset.mem_range.2 (by omega)
    rw [← Finset.add_sum_erase _ _ hmem] at h1 h2
    have : ∑ k ∈ (Finset.range r.y.length).erase m, ‖dft r.y.length (at0 q.y) k‖ ^ 2 =
        ∑ k ∈ (Finset.range r.y.length).erase m, ‖dft r.y.length (at0 r.y) k‖ ^ 2 := by
      refine Finset.sum_congr rfl fun k hk => ?_
      obtain ⟨k1, k2⟩ := Finset.mem_erase.1 hk
      rw [hn k (Finset.mem_range.1 k2) (by omega)]
    have t : turn r.y.length r.x.sample d m = ((Real.cos (Real.pi * d / r.x.sample) : ℝ) : ℂ) := by
      unfold turn; rw [if_pos hm2]
    rw [this, e5 m hm2.le, t, dft_alternating hm2 hN, norm_mul, Complex.norm_real, Complex.norm_real, mul_pow, Real.norm_eq_abs,
      Real.norm_eq_abs, sq_abs, sq_abs] at h1
    rw [dft_alternating hm2 hN, Complex.norm_real, Real.norm_eq_abs, sq_abs] at h2
    have hc := Real.sin_sq_add_cos_sq (Real.pi * d / r.x.sample)
    refine mul_left_cancel₀ hNr ?_
    rw [mul_sub, h2, mul_div_cancel₀ _ hNr, h1]
    have : Real.cos (Real.pi * d / r.x.sample) ^ 2 = 1 - Real.sin (Real.pi * d / r.x.sample) ^ 2 := by linarith
    rw [this]; ring

/-! ## examples -/

/-- 1, -1 shifted by half a sample is silent; shifting back does not bring it back -/
example : ∃ q w, (⟨⟨0, 1, 1⟩, [1, -1]⟩ : Rel ℝ ℝ).signalShift (1 / 2) = .ok q ∧ q.y = [0, 0] ∧
    q.signalShift (-(1 / 2)) = .ok w ∧ w ≠ ⟨⟨0, 1, 1⟩, [1, -1]⟩ := by
  have h : FromZero ⟨⟨0, 1, 1⟩, [1, -1]⟩ := ⟨balanced_whole _ 1 (by norm_num) (by norm_num) rfl, by simp, rfl, by norm_num⟩
  have ha : alternating [1, -1] = 2 := by norm_num [alternating, Finset.sum_range_succ]
  obtain ⟨q, w, e1, e2, e3⟩ := C128_back h (1 / 2)
  refine ⟨q, w, e1, ?_, e2, fun he => ?_⟩
  · obtain ⟨q', f1, -, -, f2⟩ := C128_energy h (1 / 2)
    obtain ⟨q'', -, -, g1, -, g2, -⟩ := C128_spectrum h (1 / 2)
    rw [e1, Except.ok.injEq] at f1 g1
    subst f1 g1
    have := f2 (by simp)
    simp only [List.length_cons, List.length_nil] at g2
    have hsin : Real.sin (Real.pi * (1 / 2) / 1) = 1 := by
      rw [div_one, mul_one_div, Real.sin_pi_div_two]
    simp only [ha, hsin] at this
    rcases q with ⟨x, _ | ⟨u, _ | ⟨v, _ | ⟨t, l⟩⟩⟩⟩ <;> simp at g2
    norm_num at this
    have hu : u = 0 := by nlinarith [sq_nonneg u, sq_nonneg v]
    have hv : v = 0 := by nlinarith [sq_nonneg u, sq_nonneg v]
    rw [hu, hv]
  · rcases e3.1 he with h1 | h1 | ⟨m, hm⟩
    · simp at h1
    · rw [ha] at h1; norm_num at h1
    · have : (2 * m : ℤ) = 1 := by
        have : (2 * m : ℝ) = 1 := by simp only at hm; linarith
        exact_mod_cast this
      omega

/-- three samples shifted by a third and by two thirds of a sample: one place in all -/
example : ∃ q w, (⟨⟨0, 2, 1⟩, [1, 2, 4]⟩ : Rel ℝ ℝ).signalShift (1 / 3) = .ok q ∧ q.signalShift (2 / 3) = .ok w ∧
    (⟨⟨0, 2, 1⟩, [1, 2, 4]⟩ : Rel ℝ ℝ).signalShift 1 = .ok w := by
  have h : FromZero ⟨⟨0, 2, 1⟩, [1, 2, 4]⟩ := ⟨balanced_whole _ 2 (by norm_num) (by norm_num) rfl, by simp, rfl, by norm_num⟩
  obtain ⟨q, w, u, e1, e2, e3, e4⟩ := C128_twice h (1 / 3) (2 / 3)
  refine ⟨q, w, e1, e2, ?_⟩
  rw [e4.2 (.inl (by simp))]
  norm_num at e3
  exact e3

end

end SweepDesign
