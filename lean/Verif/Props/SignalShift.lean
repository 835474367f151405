import Verif.Props.Phase

/-!
# C41, C42, C69: the spectrum as a Fourier sum, `Signal.shift`, convolution of signals
-/

set_option linter.unusedSectionVars false

namespace SweepDesign
open Spec

theorem unitFactor_of_norm_one (z : ℂ) (h : ‖z‖ = 1) : Spec.unitFactor z = z := by
  unfold Spec.unitFactor
  rw [if_neg (by rintro rfl; simp at h), h]
  simp

/-- `Signal.shift`, spelled out -/
theorem signalShift_eq (r : Rel ℝ ℝ) (hb : Balanced r) (hi : r.x.start ≤ r.x.stop) (hn : 2 ≤ r.y.length) (d : ℝ) :
    ∃ (y z w q : List ℝ), r.paddedTime.size = .ok y.length ∧
      (r.x.start ≤ 0 → 0 ≤ r.x.stop → r.paddedTime = r.x ∧ y = r.y) ∧
      reorderByTime r.paddedTime y = .ok z ∧ z.length = y.length ∧
      irfft ((List.range (y.length / 2 + 1)).map fun k : ℕ => dft y.length (at0 z) k *
        Complex.exp (-Complex.I * ((k : ℝ) * (1 / ((y.length : ℝ) * r.x.sample)) : ℝ) * 2 * Real.pi * d))
        (some (r.y.length : ℤ)) = .ok w ∧ w.length = r.y.length ∧ reorderByTime r.x w = .ok q ∧
      q.length = r.y.length ∧ r.signalShift d = .ok ⟨r.x, q⟩ := by
  obtain ⟨hs, hl⟩ := (balanced_iff r).1 hb
  obtain ⟨y, z, e1, e2, e3, e4, e5, e6⟩ := getSpectrum_eq r hb hi hn
  have hy2 : 2 ≤ y.length := hn.trans e2
  set fx : Axis ℝ := ⟨0, ((y.length / 2 : ℕ) : ℝ) * (1 / ((y.length : ℝ) * r.x.sample)),
    1 / ((y.length : ℝ) * r.x.sample)⟩ with hfx
  have hfa : fx.array = .ok (rfftfreq y.length r.x.sample) := (freqAxis_eq _ _ hy2 hs).2
  have hfs : fx.size = .ok (y.length / 2 + 1) := freqAxis_size _ _ hy2 hs
  set sh : List ℂ := (rfftfreq y.length r.x.sample).map fun v : ℝ =>
    Complex.exp (-Complex.I * v * 2 * Real.pi * d) with hsh
  have hshl : sh.length = y.length / 2 + 1 := by simp [hsh, rfftfreq]
  have hbs : Balanced (⟨fx, (List.range (y.length / 2 + 1)).map fun k : ℕ => dft y.length (at0 z) k⟩ : Rel ℝ ℂ) := by
    unfold Balanced
    simpa using hfs
  have hbo : Balanced (⟨fx, sh⟩ : Rel ℝ ℂ) := by
    unfold Balanced
    rw [hshl]
    exact hfs
  have hnorm : ∀ v : ℝ, ‖Complex.exp (-Complex.I * v * 2 * Real.pi * d)‖ = 1 := by
    intro v
    have : -Complex.I * v * 2 * Real.pi * d = ((-(v * 2 * Real.pi * d) : ℝ) : ℂ) * Complex.I := by
      push_cast; ring
    rw [this]
    exact Complex.norm_exp_ofReal_mul_I _
  have hzip : List.zipWith (fun z w => z * Spec.unitFactor w)
      ((List.range (y.length / 2 + 1)).map fun k : ℕ => dft y.length (at0 z) k) sh =
      (List.range (y.length / 2 + 1)).map fun k : ℕ => dft y.length (at0 z) k *
        Complex.exp (-Complex.I * ((k : ℝ) * (1 / ((y.length : ℝ) * r.x.sample)) : ℝ) * 2 * Real.pi * d) := by
    apply List.ext_getElem
    · simp [hshl]
    intro i h1 h2
    simp only [List.getElem_zipWith, List.getElem_map, List.getElem_range, hsh, rfftfreq]
    rw [unitFactor_of_norm_one _ (hnorm _)]
  obtain ⟨w, hw, hwl⟩ := irfft_length ((List.range (y.length / 2 + 1)).map fun k : ℕ => dft y.length (at0 z) k *
        Complex.exp (-Complex.I * ((k : ℝ) * (1 / ((y.length : ℝ) * r.x.sample)) : ℝ) * 2 * Real.pi * d))
    r.y.length (by omega)
  obtain ⟨q, q1, q2, q3⟩ := getSignal_axis ⟨fx, (List.range (y.length / 2 + 1)).map fun k : ℕ =>
    dft y.length (at0 z) k *
        Complex.exp (-Complex.I * ((k : ℝ) * (1 / ((y.length : ℝ) * r.x.sample)) : ℝ) * 2 * Real.pi * d)⟩
    r.x w r.y.length hb hw hwl
  refine ⟨y, z, w, q, e1, e3, e4, e5, hw, hwl, q1, q2, ?_⟩
  unfold Rel.signalShift
  rw [e6]
  simp only [except_bind_ok]
  rw [hfa]
  simp only [except_bind_ok]
  rw [← hsh, make_ok hbo]
  simp only [except_bind_ok]
  unfold Rel.signalAddPhase
  rw [e6]
  simp only [except_bind_ok]
  rw [addPhase_eq _ _ hbs hbo rfl]
  simp only [except_bind_ok]
  rw [hzip, q3]
  rfl

/-- **C41.** On a zero-start increasing axis, `shift(m * sample)` for an integer `m` keeps the time axis and moves sample
`i` to position `(i + m) mod n`. -/
theorem C41_circular_delay (r : Rel ℝ ℝ) (h : Balanced r) (hn : 2 ≤ r.y.length) (h0 : r.x.start = 0)
    (hinc : r.x.start < r.x.stop) (m : ℤ) :
    ∃ q, r.signalShift (m * r.x.sample) = .ok q ∧ q.x = r.x ∧ q.y.length = r.y.length ∧
      ∀ i (hi : i < r.y.length), q.y[((i + m) % r.y.length).toNat]? = some r.y[i] := by
  obtain ⟨hs, hl⟩ := (balanced_iff r).1 h
  obtain ⟨⟨lx, ly⟩, hd⟩ := (balanced_iff_getData r).1 h
  obtain ⟨hx, rfl, hlen⟩ := (getData_ok_iff _ _ _).1 hd
  obtain ⟨y, z, w, q, e1, e2, e3, e4, e5, e6, e7, e8, e9⟩ := signalShift_eq r h hinc.le hn (m * r.x.sample)
  obtain ⟨p1, rfl⟩ := e2 h0.le (by linarith)
  have hc : (lx.countP fun t => decide (t < 0)) = 0 := by
    rw [List.countP_eq_zero]
    intro t ht
    obtain ⟨i, hi, rfl⟩ := List.mem_iff_getElem.1 ht
    rw [(Axis.array_spaced hx).2 i hi, h0]
    have := r.x.step_nonneg hinc.le
    simp only [zero_add, decide_eq_true_eq, not_lt]
    positivity
  rw [p1, reorder_sorted r.x lx r.y hx hlen hinc.le, hc] at e3
  simp only [List.rotate_zero, Except.ok.injEq] at e3
  subst e3
  rw [reorder_sorted r.x lx w hx (by omega) hinc.le, hc] at e7
  simp only [List.rotate_zero, Except.ok.injEq] at e7
  subst e7
  set n := r.y.length with hndef
  have hn0 : (n : ℝ) ≠ 0 := by exact_mod_cast (by omega : n ≠ 0)
  have hn0c : (n : ℂ) ≠ 0 := by exact_mod_cast (by omega : n ≠ 0)
  have hsc : (r.x.sample : ℂ) ≠ 0 := by exact_mod_cast hs
  rw [irfft_dft (at0 r.y) n (by omega) m _ _ rfl] at e5
  · simp only [Except.ok.injEq] at e5
    refine ⟨_, e9, rfl, e8, ?_⟩
    intro i hi
    have hnz : (0 : ℤ) < n := by omega
    have hj0 : 0 ≤ ((i : ℤ) + m) % n := Int.emod_nonneg _ hnz.ne'
    have hj1 : ((i : ℤ) + m) % n < n := Int.emod_lt_of_pos _ hnz
    have hj : ((((i : ℤ) + m) % n).toNat : ℤ) = ((i : ℤ) + m) % n := Int.toNat_of_nonneg hj0
    show w[(((i : ℤ) + m) % n).toNat]? = some r.y[i]
    rw [← e5, List.getElem?_map, List.getElem?_range (by omega)]
    simp only [Option.map_some, Option.some.injEq]
    have : ((((i : ℤ) + m) % n).toNat - m) % (n : ℤ) = i := by
      rw [hj, Int.emod_sub_emod, add_sub_cancel_right, Int.emod_eq_of_lt (by omega) (by omega)]
    rw [this, Int.toNat_natCast, at0_eq _ _ hi]
  · intro k hk
    rw [at0_eq _ _ (by simp; omega)]
    simp only [List.getElem_map, List.getElem_range]
    congr 1
    unfold unitRoot
    congr 1
    push_cast
    field_simp


example : ∃ q, (⟨⟨0, 3, 1⟩, [10, 20, 30, 40]⟩ : Rel ℝ ℝ).signalShift 1 = .ok q ∧ q.y = [40, 10, 20, 30] := by
  obtain ⟨q, h1, h2, h3, h4⟩ := C41_circular_delay ⟨⟨0, 3, 1⟩, [10, 20, 30, 40]⟩
    (balanced_whole _ 3 (by norm_num) (by norm_num) rfl) (by simp) rfl (by norm_num) 1
  refine ⟨q, by simpa using h1, ?_⟩
  have e0 := h4 0 (by simp)
  have e1 := h4 1 (by simp)
  have e2 := h4 2 (by simp)
  have e3 := h4 3 (by simp)
  apply List.ext_getElem? 
  intro i
  match i with
  | 0 => simpa using e3
  | 1 => simpa using e0
  | 2 => simpa using e1
  | 3 => simpa using e2
  | k + 4 =>
    rw [List.getElem?_eq_none (by rw [h3]; simp), List.getElem?_eq_none (by simp)]

theorem signalShift_axis (r : Rel ℝ ℝ) (hb : Balanced r) (hi : r.x.start ≤ r.x.stop) (hn : 2 ≤ r.y.length) (d : ℝ) :
    ∃ q, r.signalShift d = .ok q ∧ q.x = r.x ∧ q.y.length = r.y.length := by
  obtain ⟨y, z, w, q, e1, e2, e3, e4, e5, e6, e7, e8, e9⟩ := signalShift_eq r hb hi hn d
  exact ⟨_, e9, rfl, e8⟩

/-- **C42.** `Signal.shift` keeps the time axis, so `Signal.convolve` and `Signal.correlate` of two signals that share
start, end and sample succeed exactly if the axis `[-end, end]` has `2n - 1` points, and raise `NotEqualError`
otherwise. -/
theorem C42_convolve (r1 r2 : Rel ℝ ℝ) (h1 : Balanced r1) (h2 : Balanced r2) (hx : r1.x = r2.x)
    (hinc : r1.x.start ≤ r1.x.stop) (hn : 2 ≤ r1.y.length) :
    (∀ d, ∃ q, r1.signalShift d = .ok q ∧ q.x = r1.x) ∧
    ∃ N, Axis.size ⟨-r1.x.stop, r1.x.stop, r1.x.sample⟩ = .ok N ∧
      (N = 2 * r1.y.length - 1 → (∃ q, r1.signalConvolve r2 = .ok q) ∧ ∃ q, r1.signalCorrelate r2 = .ok q) ∧
      (N ≠ 2 * r1.y.length - 1 →
        r1.signalConvolve r2 = .error (.notEqual N (2 * r1.y.length - 1)) ∧
        r1.signalCorrelate r2 = .error (.notEqual N (2 * r1.y.length - 1))) := by
  obtain ⟨hs, hl⟩ := (balanced_iff r1).1 h1
  have hl12 := balanced_length_eq h1 h2 hx
  obtain ⟨q1, a1, a2, a3⟩ := signalShift_axis r1 h1 hinc hn (-r1.x.start)
  obtain ⟨q2, b1, b2, b3⟩ := signalShift_axis r2 h2 (hx ▸ hinc) (by omega) (-r2.x.start)
  have bq1 : Balanced q1 := by unfold Balanced; rw [a2, a3]; exact h1
  have bq2 : Balanced q2 := by unfold Balanced; rw [b2, b3]; exact h2
  have hal : Rel.signalAlign r1 r2 = .ok (q1, q2, ⟨-r1.x.stop, r1.x.stop, r1.x.sample⟩) := by
    unfold Rel.signalAlign
    rw [a1]
    simp only [except_bind_ok]
    rw [b1]
    simp only [except_bind_ok]
    rw [equalize_equal_axes false q1 q2 bq1 bq2 (by rw [a2, b2, hx])]
    simp only [except_bind_ok, a2]
    rfl
  refine ⟨fun d => ?_, ?_⟩
  · obtain ⟨q, c1, c2, -⟩ := signalShift_axis r1 h1 hinc hn d
    exact ⟨q, c1, c2⟩
  · set ax : Axis ℝ := ⟨-r1.x.stop, r1.x.stop, r1.x.sample⟩ with hax
    have hsz : ax.size = .ok (ax.steps + 1) := ax.size_eq hs
    have len1 : (npConvolve q1.y q2.y).length = 2 * r1.y.length - 1 := by
      rw [npConvolve_length]; omega
    have len2 : (npCorrelate q1.y q2.y).length = 2 * r1.y.length - 1 := by
      rw [npCorrelate_length]; omega
    refine ⟨_, hsz, ?_, ?_⟩
    · intro hN
      constructor
      · refine ⟨⟨ax, npConvolve q1.y q2.y⟩, ?_⟩
        unfold Rel.signalConvolve
        rw [hal]
        simp only [except_bind_ok]
        rw [make_ok (by rw [hsz, hN, len1])]
        rfl
      · refine ⟨⟨ax, npCorrelate q1.y q2.y⟩, ?_⟩
        unfold Rel.signalCorrelate
        rw [hal]
        simp only [except_bind_ok]
        rw [make_ok (by rw [hsz, hN, len2])]
        rfl
    · intro hN
      constructor
      · unfold Rel.signalConvolve
        rw [hal]
        simp only [except_bind_ok]
        unfold Rel.make
        rw [hsz]
        simp only [except_bind_ok]
        rw [if_pos (by rw [len1]; exact hN), len1]
        rfl
      · unfold Rel.signalCorrelate
        rw [hal]
        simp only [except_bind_ok]
        unfold Rel.make
        rw [hsz]
        simp only [except_bind_ok]
        rw [if_pos (by rw [len2]; exact hN), len2]
        rfl

/-- **C42.** Signals on the axis from `i * s` to `j * s` with `i < j`, `0 < j` and `i ≠ 0` cannot be convolved or
correlated: `NotEqualError`. -/
theorem C42_nonzero_start (r1 r2 : Rel ℝ ℝ) (h1 : Balanced r1) (h2 : Balanced r2) (hx : r1.x = r2.x) (i j : ℤ) (s : ℝ)
    (hs : 0 < s) (hsample : r1.x.sample = s) (hstart : r1.x.start = i * s) (hstop : r1.x.stop = j * s) (hij : i < j)
    (hj : 0 < j) (hi : i ≠ 0) :
    ∃ a b, r1.signalConvolve r2 = .error (.notEqual a b) ∧ r1.signalCorrelate r2 = .error (.notEqual a b) := by
  have hd : r1.x.stop - r1.x.start = ((j - i).toNat : ℝ) * r1.x.sample := by
    rw [hstop, hstart, hsample]
    have : (((j - i).toNat : ℤ) : ℝ) = ((j - i : ℤ) : ℝ) := by rw [Int.toNat_of_nonneg (by omega)]
    push_cast at this
    rw [this]
    ring
  have hsz1 := Axis.size_of_array (array_whole r1.x (j - i).toNat (by rw [hsample]; exact hs) hd)
  have hlen : r1.y.length = (j - i).toNat + 1 := by
    have := h1
    unfold Balanced at this
    rw [hsz1] at this
    simpa using this.symm
  have hinc : r1.x.start ≤ r1.x.stop := by
    rw [hstart, hstop]
    have : (i : ℝ) ≤ j := by exact_mod_cast hij.le
    exact mul_le_mul_of_nonneg_right this hs.le
  obtain ⟨-, N, hN, -, hne⟩ := C42_convolve r1 r2 h1 h2 hx hinc (by omega)
  have hsz2 := Axis.size_of_array (array_whole (⟨-r1.x.stop, r1.x.stop, r1.x.sample⟩ : Axis ℝ) (2 * j).toNat
    (by simpa [hsample] using hs) (by
      simp only [hstop, hsample]
      have : (((2 * j).toNat : ℤ) : ℝ) = ((2 * j : ℤ) : ℝ) := by rw [Int.toNat_of_nonneg (by omega)]
      push_cast at this
      rw [this]
      ring))
  rw [hN] at hsz2
  simp at hsz2
  obtain ⟨e1, e2⟩ := hne (by omega)
  exact ⟨_, _, e1, e2⟩

example : ∃ a b, (⟨⟨1, 3, 1⟩, [10, 20, 30]⟩ : Rel ℝ ℝ).signalConvolve ⟨⟨1, 3, 1⟩, [1, 2, 3]⟩ =
    .error (.notEqual a b) := by
  obtain ⟨a, b, h, -⟩ := C42_nonzero_start ⟨⟨1, 3, 1⟩, [10, 20, 30]⟩ ⟨⟨1, 3, 1⟩, [1, 2, 3]⟩
    (balanced_whole _ 2 (by norm_num) (by norm_num) rfl) (balanced_whole _ 2 (by norm_num) (by norm_num) rfl) rfl
    1 3 1 (by norm_num) rfl (by norm_num) (by norm_num) (by norm_num) (by norm_num) (by norm_num)
  exact ⟨a, b, h⟩

end SweepDesign
