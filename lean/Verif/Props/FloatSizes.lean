import Verif.Props.FloatSelect

/-!
# C96: numbers of points computed in two ways agree in double precision
-/

set_option linter.unusedSectionVars false

namespace SweepDesign

open Spec

section
variable {K : Type} [Field K] [LinearOrder K] [IsStrictOrderedRing K] [FloorRing K]
variable {V W : Type} {fl : K → K} {u : K} {x : Axis K} {l : List K} {n : ℕ} {M : K} {y : List V}

theorem Spec.WellResolved.accepts (h : WellResolved fl u x l n M y) (p q : K) (k : ℕ) (hk : k ≤ n) (z : List W)
    (hz : z.length = k + 1) (t : K) (ht : |(q - p) - k * x.sample| ≤ t) (ht4 : t ≤ x.sample / 4) :
    flMake fl ⟨p, q, x.sample⟩ z = .ok (⟨p, q, x.sample⟩, z) := by
  have hs := h.positive
  have hunits := h.units
  have hu := relErr_nonneg h.rel
  have hkK : (k : K) ≤ n := by exact_mod_cast hk
  refine flMake_stretch h.rel x.sample p q hs k z hz (1 / 4) ?_ ?_ (by linarith [h.unit])
  · have e : (q - p) / x.sample - k = (q - p - k * x.sample) / x.sample := by field_simp
    rw [e, abs_div, abs_of_pos hs, div_le_iff₀ hs]
    linarith
  · have : (k + 1) * (3 * u) ≤ 3 * (n * u) + 3 * u := by
      have := mul_le_mul_of_nonneg_right hkK hu
      linarith
    have := h.unit
    linarith

/-- **C96** The integral of a relation of `n + 1` samples has `n` values and an axis of `n` points. -/
theorem C96_integrate (h : WellResolved fl u x l n M y) (z : List W) (hz : z.length = n) :
    flMake fl (x.flIntegrate fl) z = .ok (x.flIntegrate fl, z) := by
  obtain ⟨k, rfl⟩ : ∃ k, n = k + 1 := ⟨n - 1, by have := h.many; omega⟩
  have hs := h.positive
  have hu := relErr_nonneg h.rel
  have e1 := abs_le.1 (h.rel (x.start + x.sample))
  have hb : u * |x.start + x.sample| ≤ u * M + u * x.sample := by
    have : |x.start + x.sample| ≤ M + x.sample := by
      have := abs_add_le x.start x.sample
      rw [abs_of_pos hs] at this
      linarith [h.startBound]
    have := mul_le_mul_of_nonneg_left this hu
    linarith
  have hus : u * x.sample ≤ 1 / 100 * x.sample := mul_le_mul_of_nonneg_right h.unit hs.le
  have hr := h.resolved
  have hf := abs_le.1 h.fits
  push_cast at hf
  refine h.accepts _ x.stop k (by omega) z hz (x.sample / 4) ?_ le_rfl
  rw [abs_le]
  constructor <;> linarith [e1.1, e1.2, hf.1, hf.2]

/-- **C96** The derivative likewise. -/
theorem C96_diff (h : WellResolved fl u x l n M y) (z : List W) (hz : z.length = n) :
    flMake fl (x.flDiff fl) z = .ok (x.flDiff fl, z) := by
  obtain ⟨k, rfl⟩ : ∃ k, n = k + 1 := ⟨n - 1, by have := h.many; omega⟩
  have hs := h.positive
  have hu := relErr_nonneg h.rel
  have e0 := h.rel (x.sample / 2)
  have e0' := abs_le.1 e0
  rw [abs_of_pos (by positivity : 0 < x.sample / 2)] at e0'
  have hus : u * (x.sample / 2) ≤ 1 / 100 * (x.sample / 2) := mul_le_mul_of_nonneg_right h.unit (by positivity)
  set g := fl (x.sample / 2) with hg
  have hg1 : |g| ≤ x.sample := by
    rw [abs_le]; constructor <;> linarith [e0'.1, e0'.2]
  have hus' : u * x.sample ≤ 1 / 100 * x.sample := mul_le_mul_of_nonneg_right h.unit hs.le
  have e1 := abs_le.1 (h.rel (x.start + g))
  have e2 := abs_le.1 (h.rel (x.stop - g))
  have hb1 : u * |x.start + g| ≤ u * M + u * x.sample := by
    have : |x.start + g| ≤ M + x.sample := by linarith [abs_add_le x.start g, h.startBound]
    have := mul_le_mul_of_nonneg_left this hu
    linarith
  have hb2 : u * |x.stop - g| ≤ u * M + u * x.sample := by
    have : |x.stop - g| ≤ M + x.sample := by linarith [abs_sub x.stop g, h.stopBound]
    have := mul_le_mul_of_nonneg_left this hu
    linarith
  have hr := h.resolved
  have hf := abs_le.1 h.fits
  push_cast at hf
  refine h.accepts _ _ k (by omega) z hz (x.sample / 4) ?_ le_rfl
  rw [abs_le]
  constructor <;> linarith [e1.1, e1.2, e2.1, e2.2, hf.1, hf.2, e0'.1, e0'.2]

/-- **C96** A shifted relation keeps its number of points if the step is not lost in the rounding of the new positions. -/
theorem C96_shift (h : WellResolved fl u x l n M y) (a : K) (ha : 32 * u * |a| ≤ x.sample) :
    flMake fl (x.flShift fl a) y = .ok (x.flShift fl a, y) := by
  have hs := h.positive
  have hu := relErr_nonneg h.rel
  have e1 := abs_le.1 (h.rel (x.start + a))
  have e2 := abs_le.1 (h.rel (x.stop + a))
  have hb1 : u * |x.start + a| ≤ u * M + u * |a| := by
    have : |x.start + a| ≤ M + |a| := by linarith [abs_add_le x.start a, h.startBound]
    have := mul_le_mul_of_nonneg_left this hu
    linarith
  have hb2 : u * |x.stop + a| ≤ u * M + u * |a| := by
    have : |x.stop + a| ≤ M + |a| := by linarith [abs_add_le x.stop a, h.stopBound]
    have := mul_le_mul_of_nonneg_left this hu
    linarith
  have hr := h.resolved
  have hf := abs_le.1 h.fits
  refine h.accepts _ _ n le_rfl y h.values (x.sample / 4) ?_ le_rfl
  rw [abs_le]
  constructor <;> linarith [e1.1, e1.2, e2.1, e2.2, hf.1, hf.2]

/-- **C96** The correlation and the convolution of two relations of `n + 1` samples, whose common axis starts at zero, have
`2 n + 1` values and an axis of `2 n + 1` points. -/
theorem C96_correlate (h : WellResolved fl u x l n M y) (h0 : x.start = 0) (z : List W) (hz : z.length = 2 * n + 1) :
    flMake fl x.flMirror z = .ok (x.flMirror, z) := by
  have hs := h.positive
  have hu := relErr_nonneg h.rel
  have hunits := h.units
  have hf := h.fits
  rw [h0, zero_add] at hf
  have hf' := abs_le.1 hf
  refine flMake_stretch h.rel x.sample _ _ hs (2 * n) z (by rw [hz]) (1 / 4) ?_ ?_ (by linarith [h.unit])
  · have e : (x.stop - -x.stop) / x.sample - ((2 * n : ℕ) : K) = 2 * (x.stop - n * x.sample) / x.sample := by
      push_cast; field_simp; ring
    rw [e, abs_div, abs_of_pos hs, div_le_iff₀ hs, abs_le]
    constructor <;> linarith [hf'.1, hf'.2]
  · push_cast
    have := h.unit
    linarith

/-- **C96** The signal of a spectrum with `N` amplitudes: the time axis has `N` points if the start time is not so far from zero that
the step is lost in the rounding. -/
theorem C96_signal (hfl : RelErr fl u) (hu : u ≤ 1 / 100) (f : Axis K) (hf : f.start < f.stop) (ts : Option K) (N : ℕ)
    (hN : 1 ≤ N) (hNu : 16 * N * u ≤ 1) (dt : K) (hdt : dt = fl (1 / fl (2 * fl (f.stop - f.start))))
    (hts : ∀ t ∈ ts, 16 * u * |t| ≤ dt) (z : List W) (hz : z.length = N) :
    ∃ ax, flSignalTime fl f ts N = .ok ax ∧ ax.sample = dt ∧ ax.start = ts.getD 0 ∧ flMake fl ax z = .ok (ax, z) := by
  have hu0 := relErr_nonneg hfl
  have hpos : ∀ v : K, 0 < v → 0 < fl v := by
    intro v hv
    have := abs_le.1 (hfl v)
    rw [abs_of_pos hv] at this
    have : u * v ≤ 1 / 100 * v := mul_le_mul_of_nonneg_right hu hv.le
    linarith [(abs_le.1 (hfl v)).1, abs_of_pos hv]
  have hw : 0 < fl (2 * fl (f.stop - f.start)) := hpos _ (mul_pos two_pos (hpos _ (by linarith)))
  have hdt0 : 0 < dt := by rw [hdt]; exact hpos _ (by positivity)
  obtain ⟨k, rfl⟩ : ∃ k, N = k + 1 := ⟨N - 1, by omega⟩
  have hk0 : (0 : K) ≤ k := Nat.cast_nonneg _
  have hcast : (((k + 1 : ℕ) : K)) - 1 = k := by push_cast; ring
  push_cast at hNu
  set L := fl ((k : K) * dt) with hL
  have hL1 : |L - k * dt| ≤ u * (k * dt) := by
    have := hfl ((k : K) * dt)
    rwa [abs_of_nonneg (by positivity : 0 ≤ (k : K) * dt)] at this
  have hukdt : 16 * (u * (k * dt)) ≤ dt := by
    have : (16 * (k * u)) * dt ≤ 1 * dt := mul_le_mul_of_nonneg_right (by linarith) hdt0.le
    linarith
  have hL2 := abs_le.1 hL1
  have hrest : 1 / 4 + (k + 1) * (3 * u) < 1 / 2 := by linarith
  cases ts with
  | none =>
    refine ⟨⟨0, L, dt⟩, ?_, rfl, rfl, ?_⟩
    · unfold flSignalTime
      simp only [if_neg hw.ne', ← hdt, hcast, ← hL]
    · refine flMake_stretch hfl dt 0 L hdt0 k z hz (1 / 4) ?_ hrest (by linarith)
      have e : (L - 0) / dt - k = (L - k * dt) / dt := by field_simp; ring
      rw [e, abs_div, abs_of_pos hdt0, div_le_iff₀ hdt0]
      linarith
  | some t =>
    have ht := hts t rfl
    have e2 := abs_le.1 (hfl (t + L))
    have hb : u * |t + L| ≤ u * |t| + 2 * (u * (k * dt)) := by
      have h1 : |L| ≤ 2 * (k * dt) := by
        have : u * (k * dt) ≤ 1 / 100 * (k * dt) := mul_le_mul_of_nonneg_right hu (by positivity)
        have : 0 ≤ k * dt := by positivity
        rw [abs_le]; constructor <;> linarith [hL2.1, hL2.2]
      have : |t + L| ≤ |t| + 2 * (k * dt) := by linarith [abs_add_le t L]
      have := mul_le_mul_of_nonneg_left this hu0
      linarith
    refine ⟨⟨t, fl (t + L), dt⟩, ?_, rfl, rfl, ?_⟩
    · unfold flSignalTime
      simp only [if_neg hw.ne', ← hdt, hcast, ← hL]
    · refine flMake_stretch hfl dt t _ hdt0 k z hz (1 / 4) ?_ hrest (by linarith)
      have e : (fl (t + L) - t) / dt - k = (fl (t + L) - t - k * dt) / dt := by field_simp
      rw [e, abs_div, abs_of_pos hdt0, div_le_iff₀ hdt0, abs_le]
      constructor <;> linarith [hL2.1, hL2.2, e2.1, e2.2]

end

/-- **C96** The bound of `C96_shift` matters: 0, 0.1, ..., 1 shifted by 2^54 does not fit its axis any more. -/
theorem C96_shift_witness :
    flMake fl64 ((⟨0, 1, fl64 (1 / 10)⟩ : Axis ℚ).flShift fl64 (2 ^ 54)) (List.range 11) = .error (.notEqual 1 11) := by
  decide +kernel

example : flMake fl64 ((⟨0, 1, fl64 (1 / 10)⟩ : Axis ℚ).flIntegrate fl64) (List.range 10) =
    .ok (⟨fl64 (1 / 10), 1, fl64 (1 / 10)⟩, List.range 10) := by
  rw [C96_integrate tenths_wellResolved (List.range 10) (by simp)]
  decide +kernel

example := C96_diff tenths_wellResolved (List.range 10) (by simp)

example := C96_shift tenths_wellResolved 1000000 (by decide +kernel)

example := C96_correlate tenths_wellResolved rfl (List.range 21) (by simp)

example : ∃ ax, flSignalTime fl64 ⟨0, 50, 1 / 2⟩ (some (-3)) 200 = .ok ax ∧ ax.sample = fl64 (1 / 100) ∧ ax.start = -3 ∧
    flMake fl64 ax (List.range 200) = .ok (ax, List.range 200) :=
  C96_signal fl64_relErr (by norm_num) ⟨0, 50, 1 / 2⟩ (by norm_num) (some (-3)) 200 (by norm_num) (by norm_num) _
    (by decide +kernel) (by simp only [Option.mem_def, Option.some.injEq, forall_eq']; decide +kernel) _ (by simp)

end SweepDesign
