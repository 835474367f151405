import Verif.Props.CalculusSpectrum

/-!
# C146: spectra of signals whose axis runs backwards
-/

set_option linter.unusedSectionVars false

namespace SweepDesign
open Spec

/-- an axis with the signs of its three numbers changed -/
def Spec.negated (a : Axis ℝ) : Axis ℝ := ⟨-a.start, -a.stop, -a.sample⟩

/-- the same values at the opposite frequencies -/
def Spec.opposite (sp : Rel ℝ ℂ) : Rel ℝ ℂ := ⟨negated sp.x, sp.y⟩

/-! ## The sign of the sample -/

theorem array_neg_sample (a : Axis ℝ) : ({ a with sample := -a.sample } : Axis ℝ).array = a.array := by
  simp only [Axis.array, neg_eq_zero, div_neg, abs_neg]

theorem size_neg_sample (a : Axis ℝ) : ({ a with sample := -a.sample } : Axis ℝ).size = a.size := by
  unfold Axis.size
  rw [array_neg_sample]

theorem size_negated (a : Axis ℝ) : (negated a).size = a.size := by
  unfold negated
  by_cases h : a.sample = 0
  · rw [Axis.size_zero _ h, Axis.size_zero _ (by simp [h])]
  · rw [Axis.size_eq _ h, Axis.size_eq _ (by simpa using h)]
    congr 2
    simp only [Axis.steps]
    rw [show (-a.stop - -a.start) / -a.sample = (a.stop - a.start) / a.sample by rw [← neg_div_neg_eq]; congr 1 <;> ring]

theorem freqAxis_neg (n : ℕ) (d : ℝ) (hd : d ≠ 0) :
    axisFromArray (rfftfreq n (-d)) true false = (axisFromArray (rfftfreq n d) true false).map negated := by
  rcases Nat.lt_or_ge n 2 with hn | hn
  · have h0 : n / 2 = 0 := by omega
    simp [axisFromArray, getActualSample, npDiff, npMin, rfftfreq, h0, Except.map]
  · rw [(freqAxis_eq n d hn hd).1, (freqAxis_eq n (-d) hn (neg_ne_zero.2 hd)).1]
    simp only [Except.map, negated, mul_neg, div_neg, neg_zero]

/-- the transform with the sample of the other sign -/
theorem calculateSpectrum_neg (T : Axis ℝ) (y : List ℝ) (fr : SizeArg) (hs : T.sample ≠ 0) :
    (∀ ax, calculateSpectrum { T with sample := -T.sample } y (.axis ax) = calculateSpectrum T y (.axis ax)) ∧
    ((∀ ax, fr ≠ .axis ax) → calculateSpectrum { T with sample := -T.sample } y fr =
      (calculateSpectrum T y fr).map fun p => (negated p.1, p.2)) := by
  have hre : reorderByTime { T with sample := -T.sample } y = reorderByTime T y := by
    unfold reorderByTime
    rw [array_neg_sample]
  constructor
  · intro ax
    unfold calculateSpectrum
    rw [hre]
  · intro hfr
    unfold calculateSpectrum
    rw [hre]
    cases hz : fr.size with
    | error e => rfl
    | ok sz =>
      simp only [except_bind_ok]
      cases reorderByTime T y with
      | error e => rfl
      | ok amp =>
        simp only [except_bind_ok]
        cases rfft amp sz with
        | error e => rfl
        | ok v =>
          simp only [except_bind_ok, freqAxis_neg _ _ hs]
          cases fr with
          | axis ax => exact absurd rfl (hfr ax)
          | none =>
            cases axisFromArray (rfftfreq amp.length T.sample) true false <;> rfl
          | int k =>
            cases axisFromArray (rfftfreq amp.length T.sample) true false <;> rfl

/-! ## The signal that is transformed instead -/

/-- The same samples played forwards: an axis that ends where the backward one ends, if that begins after time zero, and
begins where the backward one begins otherwise. -/
def Spec.played (r : Rel ℝ ℝ) (a b : ℤ) (s : ℝ) : Rel ℝ ℝ :=
  if 0 < a then ⟨⟨((2 * b - a : ℤ) : ℝ) * s, b * s, s⟩, r.y⟩ else ⟨⟨a * s, ((2 * a - b : ℤ) : ℝ) * s, s⟩, r.y⟩

theorem size_zero_whole (t0 t1 s : ℝ) (hs : 0 < s) (k : ℕ) (h : |t1 - t0| = k * s) : Axis.size ⟨t0, t1, s⟩ = .ok (k + 1) := by
  rw [Axis.size_eq _ hs.ne']
  congr 2
  simp only [Axis.steps]
  rw [abs_div, h, abs_of_pos hs, mul_div_assoc, div_self hs.ne', mul_one, pyRound_natCast, Int.toNat_natCast]

/-- the transform of a backward signal whose sample is positive is that of the samples played forwards -/
theorem signal2spectrum_backward (y : List ℝ) (s : ℝ) (hs : 0 < s) (a b : ℤ) (hab : b < a) (hy : (y.length : ℤ) = a - b + 1)
    (fr : SizeArg) :
    ((0 < a ∧ a ≤ 2 * b) ∨ (a ≤ 0 ∧ 2 * a ≤ b) → ∃ (T : Axis ℝ) (amp : List ℝ), T.sample = s ∧
      signal2spectrum ⟨⟨a * s, b * s, s⟩, y⟩ fr false = calculateSpectrum T amp fr ∧
      signal2spectrum ⟨⟨a * s, b * s, -s⟩, y⟩ fr false = calculateSpectrum { T with sample := -T.sample } amp fr ∧
      signal2spectrum (played ⟨⟨a * s, b * s, s⟩, y⟩ a b s) fr false = calculateSpectrum T amp fr) ∧
    (¬((0 < a ∧ a ≤ 2 * b) ∨ (a ≤ 0 ∧ 2 * a ≤ b)) →
      signal2spectrum ⟨⟨a * s, b * s, s⟩, y⟩ fr false = .error .value ∧
      signal2spectrum ⟨⟨a * s, b * s, -s⟩, y⟩ fr false = .error .value) := by
  have pos : ∀ z : ℤ, (0 : ℝ) < z * s ↔ 0 < z := fun z => by rw [mul_pos_iff_of_pos_right hs]; exact_mod_cast Iff.rfl
  have neg : ∀ z : ℤ, (z : ℝ) * s < 0 ↔ z < 0 := fun z => by
    rw [mul_neg_iff]
    constructor
    · rintro (⟨-, h⟩ | ⟨h, -⟩)
      · linarith
      · exact_mod_cast h
    · intro h
      exact .inr ⟨by exact_mod_cast h, hs⟩
  have zero : ∀ z : ℤ, (z : ℝ) * s = 0 ↔ z = 0 := fun z => by simp [hs.ne']
  rcases lt_or_ge 0 a with ha | ha
  · -- the start is moved to zero
    have hsz : Axis.size ⟨0, b * s, s⟩ = .ok (b.natAbs + 1) := size_zero_whole _ _ s hs _ (by
      rw [sub_zero, abs_mul, abs_of_pos hs, Nat.cast_natAbs, Int.cast_abs])
    have hsz' : Axis.size ⟨0, b * s, -s⟩ = .ok (b.natAbs + 1) := by
      rw [← hsz]; exact size_neg_sample ⟨0, b * s, s⟩
    have e1 : ∀ sa : ℝ, Axis.size ⟨0, b * s, sa⟩ = .ok (b.natAbs + 1) →
        signal2spectrum ⟨⟨a * s, b * s, sa⟩, y⟩ fr false =
        (do let z ← npZeros (((b.natAbs + 1 : ℕ) : ℤ) - y.length)
            calculateSpectrum ⟨0, b * s, sa⟩ (z ++ y) fr) := by
      intro sa h
      unfold signal2spectrum
      simp only [Bool.false_eq_true, if_false, (pos a).2 ha, if_true, h, except_bind_ok]
    constructor
    · rintro (⟨-, h⟩ | ⟨h, -⟩)
      · have hz : npZeros (((b.natAbs + 1 : ℕ) : ℤ) - y.length) = .ok (List.replicate (2 * b - a).toNat 0) := by
          unfold npZeros
          rw [if_neg (by omega)]
          congr 2
          omega
        refine ⟨⟨0, b * s, s⟩, List.replicate (2 * b - a).toNat 0 ++ y, rfl, ?_, ?_, ?_⟩
        · rw [e1 s hsz, hz]; rfl
        · rw [e1 (-s) hsz', hz]; rfl
        · unfold played
          rw [if_pos ha]
          unfold signal2spectrum
          simp only [Bool.false_eq_true, if_false, pos]
          by_cases h0 : 0 < 2 * b - a
          · simp only [h0, if_true, hsz, except_bind_ok, hz]
          · have h1 : 2 * b - a = 0 := by omega
            have h2 : ¬ (b < 0) := by omega
            simp only [h1, lt_irrefl, if_false, neg, h2, Int.toNat_zero, List.replicate_zero, List.nil_append, Int.cast_zero, zero_mul]
      · omega
    · intro h
      have hz : npZeros (((b.natAbs + 1 : ℕ) : ℤ) - y.length) = .error .value := by
        unfold npZeros
        rw [if_pos (by omega)]
      exact ⟨by rw [e1 s hsz, hz]; rfl, by rw [e1 (-s) hsz', hz]; rfl⟩
  · -- the end is moved to zero
    have hsz : Axis.size ⟨a * s, 0, s⟩ = .ok (a.natAbs + 1) := size_zero_whole _ _ s hs _ (by
      rw [zero_sub, abs_neg, abs_mul, abs_of_pos hs, Nat.cast_natAbs, Int.cast_abs])
    have hsz' : Axis.size ⟨a * s, 0, -s⟩ = .ok (a.natAbs + 1) := by
      rw [← hsz]; exact size_neg_sample ⟨a * s, 0, s⟩
    have hna : ¬ (0 < a) := by omega
    have hnb : b < 0 := by omega
    have e1 : ∀ sa : ℝ, Axis.size ⟨a * s, 0, sa⟩ = .ok (a.natAbs + 1) →
        signal2spectrum ⟨⟨a * s, b * s, sa⟩, y⟩ fr false =
        (do let z ← npZeros (((a.natAbs + 1 : ℕ) : ℤ) - y.length)
            calculateSpectrum ⟨a * s, 0, sa⟩ (y ++ z) fr) := by
      intro sa h
      unfold signal2spectrum
      simp only [Bool.false_eq_true, if_false, pos, hna, neg, hnb, if_true, h, except_bind_ok]
    constructor
    · rintro (⟨h, -⟩ | ⟨-, h⟩)
      · omega
      · have hz : npZeros (((a.natAbs + 1 : ℕ) : ℤ) - y.length) = .ok (List.replicate (b - 2 * a).toNat 0) := by
          unfold npZeros
          rw [if_neg (by omega)]
          congr 2
          omega
        refine ⟨⟨a * s, 0, s⟩, y ++ List.replicate (b - 2 * a).toNat 0, rfl, ?_, ?_, ?_⟩
        · rw [e1 s hsz, hz]; rfl
        · rw [e1 (-s) hsz', hz]; rfl
        · unfold played
          rw [if_neg hna]
          unfold signal2spectrum
          simp only [Bool.false_eq_true, if_false, pos, hna, neg]
          by_cases h0 : 2 * a - b < 0
          · simp only [h0, if_true, hsz, except_bind_ok, hz]
          · have h1 : 2 * a - b = 0 := by omega
            have h2 : b - 2 * a = 0 := by omega
            simp only [h1, lt_irrefl, if_false, h2, Int.toNat_zero, List.replicate_zero, List.append_nil, Int.cast_zero, zero_mul]
    · intro h
      have hz : npZeros (((a.natAbs + 1 : ℕ) : ℤ) - y.length) = .error .value := by
        unfold npZeros
        rw [if_pos (by omega)]
      exact ⟨by rw [e1 s hsz, hz]; rfl, by rw [e1 (-s) hsz', hz]; rfl⟩

/-- `get_spectrum` with the frequencies negated -/
theorem make_negated (p : Axis ℝ × List ℂ) : Rel.make (negated p.1) p.2 = (Rel.make p.1 p.2).map opposite := by
  unfold Rel.make
  rw [size_negated]
  cases p.1.size with
  | error e => rfl
  | ok n =>
    simp only [except_bind_ok]
    split_ifs <;> rfl

theorem array_negated {a : Axis ℝ} {l : List ℝ} (h : a.array = .ok l) : (negated a).array = .ok (l.map fun v => -v) := by
  obtain ⟨h0, -⟩ := (a.array_ok_iff l).1 h
  obtain ⟨l', h'⟩ : ∃ l', (negated a).array = .ok l' := ⟨_, (negated a).array_eq (by simpa [negated] using h0)⟩
  rw [h']
  congr 1
  obtain ⟨n1, v1⟩ := Axis.array_spaced h
  obtain ⟨n2, v2⟩ := Axis.array_spaced h'
  have hst : (negated a).steps = a.steps := by
    simp only [Axis.steps, negated]
    rw [show (-a.stop - -a.start) / -a.sample = (a.stop - a.start) / a.sample by rw [← neg_div_neg_eq]; congr 1 <;> ring]
  refine List.ext_getElem (by simp; omega) fun i i1 i2 => ?_
  rw [List.getElem_map, v2 i i1, v1 i (by omega)]
  simp only [Axis.step, hst]
  simp only [negated]
  ring

theorem phase_neg (f t : ℝ) : phase (-f) t = (starRingEnd ℂ) (phase f t) := by
  unfold phase
  rw [← Complex.exp_conj]
  congr 1
  simp only [map_neg, map_mul, Complex.conj_I, Complex.conj_ofReal, map_ofNat]
  push_cast
  ring

theorem phase_norm (f t : ℝ) : ‖phase f t‖ = 1 := by
  unfold phase
  rw [Complex.norm_exp]
  simp

theorem fourierSum_neg (lt ly : List ℝ) (f : ℝ) : fourierSum lt ly (-f) = (starRingEnd ℂ) (fourierSum lt ly f) := by
  unfold fourierSum
  rw [map_sum]
  refine Finset.sum_congr rfl fun j _ => ?_
  rw [map_mul, Complex.conj_ofReal]
  exact congrArg _ (phase_neg f _)

/-- times mirrored about `c` -/
theorem fourierSum_mirrored (lt lp ly : List ℝ) (c f : ℝ) (h : ∀ j < ly.length, lp.getD j 0 = 2 * c - lt.getD j 0) :
    fourierSum lp ly f = phase f (2 * c) * (starRingEnd ℂ) (fourierSum lt ly f) := by
  rw [← fourierSum_neg]
  unfold fourierSum
  rw [Finset.mul_sum]
  refine Finset.sum_congr rfl fun j hj => ?_
  rw [h j (Finset.mem_range.1 hj), mul_left_comm]
  congr 1
  unfold phase
  rw [← Complex.exp_add]
  congr 1
  push_cast
  ring

section
variable (r : Rel ℝ ℝ) (s : ℝ) (hs : 0 < s) (a b : ℤ) (hab : b < a) (hstart : r.x.start = a * s) (hstop : r.x.stop = b * s)
include hs hab hstart hstop

theorem backward_length (hb : Balanced r) (hsam : r.x.sample = s ∨ r.x.sample = -s) : (r.y.length : ℤ) = a - b + 1 := by
  obtain ⟨h0, hl⟩ := (balanced_iff r).1 hb
  have : r.x.steps = (a - b).toNat := by
    simp only [Axis.steps]
    have h1 : |(r.x.stop - r.x.start) / r.x.sample| = ((a - b).toNat : ℕ) := by
      have e : |r.x.sample| = s := by
        rcases hsam with h | h <;> rw [h]
        · exact abs_of_pos hs
        · rw [abs_neg, abs_of_pos hs]
      have hc : (((a - b).toNat : ℕ) : ℝ) = ((a - b : ℤ) : ℝ) := by
        have : (((a - b).toNat : ℕ) : ℤ) = a - b := Int.toNat_of_nonneg (by omega)
        exact_mod_cast congrArg (fun z : ℤ => (z : ℝ)) this
      rw [abs_div, e, hstart, hstop, ← sub_mul, abs_mul, abs_of_pos hs, mul_div_assoc, div_self hs.ne', mul_one, hc]
      have : (b : ℝ) - a < 0 := by
        have : (b : ℝ) < a := by exact_mod_cast hab
        linarith
      rw [abs_of_neg this]; push_cast; ring
    rw [h1, pyRound_natCast, Int.toNat_natCast]
  omega

/-- **C146.** A backward axis with a positive sample: `get_spectrum` is that of the same samples played forwards, or
raises `ValueError`. -/
theorem C146_positive_sample (hb : Balanced r) (hsam : r.x.sample = s) (fr : SizeArg) :
    ((0 < a ∧ a ≤ 2 * b) ∨ (a ≤ 0 ∧ 2 * a ≤ b) → r.getSpectrum fr = (played r a b s).getSpectrum fr) ∧
    (¬((0 < a ∧ a ≤ 2 * b) ∨ (a ≤ 0 ∧ 2 * a ≤ b)) → r.getSpectrum fr = .error .value) := by
  have hl := backward_length r s hs a b hab hstart hstop hb (.inl hsam)
  obtain ⟨⟨r0, r1, r2⟩, y⟩ := r
  simp only at hstart hstop hsam hl
  subst hstart hstop hsam
  obtain ⟨h1, h2⟩ := signal2spectrum_backward y r2 hs a b hab hl fr
  constructor
  · intro h
    obtain ⟨T, amp, -, e1, -, e3⟩ := h1 h
    simp only [Rel.getSpectrum, e1, e3]
  · intro h
    simp only [Rel.getSpectrum, (h2 h).1]
    rfl

/-- **C146.** A backward axis with a negative sample, as an axis made from a falling array has it: the same values, at the
opposite frequencies unless an axis of frequencies is given. -/
theorem C146_negative_sample (hb : Balanced r) (hsam : r.x.sample = -s) (fr : SizeArg) :
    ((0 < a ∧ a ≤ 2 * b) ∨ (a ≤ 0 ∧ 2 * a ≤ b) →
      (∀ ax, r.getSpectrum (.axis ax) = (played r a b s).getSpectrum (.axis ax)) ∧
      ((∀ ax, fr ≠ .axis ax) → r.getSpectrum fr = ((played r a b s).getSpectrum fr).map opposite)) ∧
    (¬((0 < a ∧ a ≤ 2 * b) ∨ (a ≤ 0 ∧ 2 * a ≤ b)) → r.getSpectrum fr = .error .value) := by
  have hl := backward_length r s hs a b hab hstart hstop hb (.inr hsam)
  obtain ⟨⟨r0, r1, r2⟩, y⟩ := r
  simp only at hstart hstop hsam hl
  subst hstart hstop hsam
  have hpl : played ⟨⟨a * s, b * s, -s⟩, y⟩ a b s = played ⟨⟨a * s, b * s, s⟩, y⟩ a b s := rfl
  rw [hpl]
  constructor
  · intro h
    constructor
    · intro ax
      obtain ⟨T, amp, hT, e1, e2, e3⟩ := (signal2spectrum_backward y s hs a b hab hl (.axis ax)).1 h
      simp only [Rel.getSpectrum, e2, e3, (calculateSpectrum_neg T amp fr (by rw [hT]; exact hs.ne')).1]
    · intro hfr
      obtain ⟨T, amp, hT, e1, e2, e3⟩ := (signal2spectrum_backward y s hs a b hab hl fr).1 h
      simp only [Rel.getSpectrum, e2, e3, (calculateSpectrum_neg T amp fr (by rw [hT]; exact hs.ne')).2 hfr]
      cases calculateSpectrum T amp fr with
      | error e => rfl
      | ok p => exact make_negated p
  · intro h
    simp only [Rel.getSpectrum, ((signal2spectrum_backward y s hs a b hab hl fr).2 h).2]
    rfl

/-- the times of a backward axis -/
theorem backward_times (hsam : r.x.sample = s ∨ r.x.sample = -s) (lt ly : List ℝ) (h : r.getData = .ok (lt, ly)) :
    ly = r.y ∧ lt.length = ly.length ∧ ∀ j < lt.length, lt.getD j 0 = ((a : ℝ) - j) * s := by
  have hl := backward_length r s hs a b hab hstart hstop ((balanced_iff_getData r).2 ⟨_, h⟩) hsam
  obtain ⟨hx, rfl, hlen⟩ := (getData_ok_iff _ _ _).1 h
  refine ⟨rfl, hlen, fun j hj => ?_⟩
  obtain ⟨l1, l2⟩ := Axis.array_spaced hx
  rw [getD_lt _ _ _ hj, l2 j hj]
  have hst : r.x.steps = (a - b).toNat := by omega
  have hc : (((a - b).toNat : ℕ) : ℝ) = (a : ℝ) - b := by
    have : (((a - b).toNat : ℕ) : ℤ) = a - b := Int.toNat_of_nonneg (by omega)
    exact_mod_cast congrArg (fun z : ℤ => (z : ℝ)) this
  have h0 : (a : ℝ) - b ≠ 0 := by
    have : (b : ℝ) < a := by exact_mod_cast hab
    intro h; linarith
  have hstep : r.x.step = -s := by
    simp only [Axis.step, hst, hc]
    rw [hstart, hstop]
    field_simp
    ring
  rw [hstep, hstart]
  ring

/-- **C146.** The values: the sum that belongs to a delay by twice the end (or twice the start) of the axis of the signal
played backwards in time. The amplitudes are those of the signal. -/
theorem C146_values (lt ly : List ℝ) (h : r.getData = .ok (lt, ly)) (σ : ℝ) (hσ : σ = 1 ∨ σ = -1) (hsam : r.x.sample = σ * s)
    (hfit : (0 < a ∧ a ≤ 2 * b) ∨ (a ≤ 0 ∧ 2 * a ≤ b)) (c : ℤ) (hc : c = if 0 < a then b else a) (N : ℕ) (hN : (N : ℤ) = |c| + 1) :
    ∃ sp lf lv, r.getSpectrum = .ok sp ∧ sp.getData = .ok (lf, lv) ∧ lf.length = N / 2 + 1 ∧ lv.length = N / 2 + 1 ∧
      ∀ k (h1 : k < lf.length) (h2 : k < lv.length), lf[k] = σ * (k / (N * s)) ∧
        lv[k] = phase (k / (N * s)) (2 * (c * s)) * (starRingEnd ℂ) (fourierSum lt ly (k / (N * s))) ∧
        ‖lv[k]‖ = ‖fourierSum lt ly lf[k]‖ := by
  have hb := (balanced_iff_getData r).2 ⟨_, h⟩
  have hsam' : r.x.sample = s ∨ r.x.sample = -s := by
    rcases hσ with rfl | rfl
    · left; rw [hsam, one_mul]
    · right; rw [hsam, neg_one_mul]
  have hl := backward_length r s hs a b hab hstart hstop hb hsam'
  obtain ⟨rfl, hlt, htimes⟩ := backward_times r s hs a b hab hstart hstop hsam' lt ly h
  -- the axis of the samples played forwards
  obtain ⟨A, B, hAB, hpx, hmax, hAc⟩ : ∃ A B : ℤ, A < B ∧ played r a b s = ⟨⟨A * s, B * s, s⟩, r.y⟩ ∧
      (N : ℤ) = max B 0 - min A 0 + 1 ∧ A = 2 * c - a := by
    unfold played
    split_ifs at hc ⊢ with ha
    · subst hc
      have : |c| = c := abs_of_nonneg (by omega)
      exact ⟨2 * c - a, c, by omega, rfl, by omega, rfl⟩
    · subst hc
      have : |c| = -c := abs_of_nonpos (by omega)
      exact ⟨c, 2 * c - b, by omega, rfl, by omega, by omega⟩
  have hBA : B - A = a - b := by
    have := congrArg (fun q : Rel ℝ ℝ => q.x.stop - q.x.start) hpx
    unfold played at this
    split_ifs at this with ha
    all_goals
      simp only [← sub_mul] at this
      have := mul_right_cancel₀ hs.ne' this
      have : ((B - A : ℤ) : ℝ) = ((a - b : ℤ) : ℝ) := by push_cast at this ⊢; linarith
      exact_mod_cast this
  have hpb : Balanced (played r a b s) := by
    rw [hpx]
    refine balanced_whole _ (B - A).toNat hs ?_ ?_
    · have : (((B - A).toNat : ℕ) : ℤ) = B - A := Int.toNat_of_nonneg (by omega)
      have : (((B - A).toNat : ℕ) : ℝ) = (B : ℝ) - A := by exact_mod_cast congrArg (fun z : ℤ => (z : ℝ)) this
      simp only [this]
      ring
    · simp only
      omega
  obtain ⟨⟨lp, yp⟩, hp⟩ := (balanced_iff_getData _).1 hpb
  obtain ⟨hpa, hy, hpl⟩ := (getData_ok_iff _ _ _).1 hp
  have hy' : yp = r.y := by rw [hy, hpx]
  subst hy'
  obtain ⟨sp, lf, lv, h1, h2, h3, h4, h5⟩ := C69_fourier_sum _ lp r.y hp s hs A B hAB (by rw [hpx]) (by rw [hpx]) (by rw [hpx]) N hmax
  -- its times
  have hmir : ∀ j < r.y.length, lp.getD j 0 = 2 * (c * s) - lt.getD j 0 := by
    intro j hj
    have hw := array_whole (played r a b s).x (B - A).toNat (by rw [hpx]; exact hs) (by
      have : (((B - A).toNat : ℕ) : ℤ) = B - A := Int.toNat_of_nonneg (by omega)
      have : (((B - A).toNat : ℕ) : ℝ) = (B : ℝ) - A := by exact_mod_cast congrArg (fun z : ℤ => (z : ℝ)) this
      rw [hpx, this]
      ring)
    rw [hpa] at hw
    obtain rfl := Except.ok.inj hw
    rw [htimes j (by omega), getD_lt _ _ _ (by simp; omega), List.getElem_map, List.getElem_range, hpx]
    have : (A : ℝ) = 2 * c - a := by rw [hAc]; push_cast; ring
    simp only [this]
    ring
  have hval : ∀ k (h1 : k < lf.length) (h2 : k < lv.length), lf[k] = k / (N * s) ∧
      lv[k] = phase (k / (N * s)) (2 * (c * s)) * (starRingEnd ℂ) (fourierSum lt r.y (k / (N * s))) := by
    intro k k1 k2
    obtain ⟨e1, e2⟩ := h5 k k1 k2
    refine ⟨e1, ?_⟩
    rw [← fourierSum_mirrored lt lp r.y (c * s) _ hmir, ← e1]
    exact e2
  have hnorm : ∀ f : ℝ, ‖phase f (2 * (c * s)) * (starRingEnd ℂ) (fourierSum lt r.y f)‖ = ‖fourierSum lt r.y f‖ := by
    intro f
    rw [norm_mul, phase_norm, one_mul, RCLike.norm_conj]
  rcases hσ with rfl | rfl
  · refine ⟨sp, lf, lv, ?_, h2, h3, h4, fun k k1 k2 => ?_⟩
    · rw [(C146_positive_sample r s hs a b hab hstart hstop hb (by rw [hsam, one_mul]) .none).1 hfit, h1]
    · obtain ⟨e1, e2⟩ := hval k k1 k2
      exact ⟨by rw [e1, one_mul], e2, by rw [e2, hnorm, e1]⟩
  · obtain ⟨g1, g2, g3⟩ := (getData_ok_iff _ _ _).1 h2
    refine ⟨opposite sp, lf.map fun v => -v, lv, ?_, ?_, by simpa using h3, h4, fun k k1 k2 => ?_⟩
    · rw [((C146_negative_sample r s hs a b hab hstart hstop hb (by rw [hsam, neg_one_mul]) .none).1 hfit).2 (by simp), h1]
      rfl
    · exact (getData_ok_iff _ _ _).2 ⟨array_negated g1, g2, by simpa using g3⟩
    · obtain ⟨e1, e2⟩ := hval k (by simpa using k1) k2
      rw [List.getElem_map, e1]
      refine ⟨by ring, e2, ?_⟩
      rw [e2, hnorm, fourierSum_neg, RCLike.norm_conj]

end

/-- the samples `1, 2, 3` at the times 4, 3, 2 are transformed as if they stood at 0, 1, 2; at the times 4, 3, 2, 1
there is no transform -/
theorem C146_witness :
    (⟨⟨4, 2, 1⟩, [1, 2, 3]⟩ : Rel ℝ ℝ).getSpectrum = (⟨⟨0, 2, 1⟩, [1, 2, 3]⟩ : Rel ℝ ℝ).getSpectrum ∧
    (⟨⟨4, 2, -1⟩, [1, 2, 3]⟩ : Rel ℝ ℝ).getSpectrum = ((⟨⟨0, 2, 1⟩, [1, 2, 3]⟩ : Rel ℝ ℝ).getSpectrum).map opposite ∧
    (⟨⟨4, 1, 1⟩, [1, 2, 3, 4]⟩ : Rel ℝ ℝ).getSpectrum = .error .value := by
  have two : pyRound (2 : ℝ) = 2 := by simpa using pyRound_natCast (K := ℝ) 2
  have three : pyRound (3 : ℝ) = 3 := by simpa using pyRound_natCast (K := ℝ) 3
  have hp : ∀ σ : ℝ, played (⟨⟨4, 2, σ⟩, [1, 2, 3]⟩ : Rel ℝ ℝ) 4 2 1 = ⟨⟨0, 2, 1⟩, [1, 2, 3]⟩ := by
    intro σ; unfold played; norm_num
  have b1 : Balanced (⟨⟨4, 2, 1⟩, [1, 2, 3]⟩ : Rel ℝ ℝ) := by
    rw [balanced_iff]; norm_num [Axis.steps, two]; rfl
  have b2 : Balanced (⟨⟨4, 2, -1⟩, [1, 2, 3]⟩ : Rel ℝ ℝ) := by
    rw [balanced_iff]; norm_num [Axis.steps, two]; rfl
  have b3 : Balanced (⟨⟨4, 1, 1⟩, [1, 2, 3, 4]⟩ : Rel ℝ ℝ) := by
    rw [balanced_iff]; norm_num [Axis.steps, three]; rfl
  refine ⟨?_, ?_, ?_⟩
  · have := (C146_positive_sample _ 1 one_pos 4 2 (by norm_num) (by norm_num) (by norm_num) b1 rfl .none).1 (by norm_num)
    rw [this, hp]
  · have := ((C146_negative_sample _ 1 one_pos 4 2 (by norm_num) (by norm_num) (by norm_num) b2 rfl .none).1 (by norm_num)).2 (by simp)
    rw [this, hp]
  · exact (C146_positive_sample _ 1 one_pos 4 1 (by norm_num) (by norm_num) (by norm_num) b3 rfl .none).2 (by norm_num)

end SweepDesign
