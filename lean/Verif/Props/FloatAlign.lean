import Verif.Props.FloatRoundTrip
import Verif.Props.FloatValues

/-!
# C154: convolution and correlation of relations whose lengths differ by a rounding

Both operations first move the operands to start at zero. Of two relations with the same step and number of samples the computed ends
`end - start` can differ in the last bit, and then the operand with the smaller one loses its last sample on the common axis. C104 is the
case of equal computed ends.
-/

set_option linter.unusedSectionVars false

namespace SweepDesign

/-- `z` is `y` on the common axis: the first sample is kept, the last sample is kept or zero, the others are right up to `A`. -/
structure Spec.LastLost {K : Type} [Field K] [LinearOrder K] (n : ℕ) (keeps : Prop) (A : K → K → K) (y z : List K) : Prop where
  length : z.length = n + 1
  first : z.getD 0 0 = y.getD 0 0
  kept : keeps → z.getD n 0 = y.getD n 0
  lost : ¬ keeps → z.getD n 0 = 0
  inner : ∀ J Y : K, (∀ i < n, |y.getD (i + 1) 0 - y.getD i 0| ≤ J) → (∀ i ≤ n, |y.getD i 0| ≤ Y) →
    ∀ k, 0 < k → k < n → |z.getD k 0 - y.getD k 0| ≤ A J Y

open Spec

section
variable {K : Type} [Field K] [LinearOrder K] [IsStrictOrderedRing K] [FloorRing K]
variable {fl : K → K} {u : K} {n : ℕ} {M : K}

/-! ## Machinery -/

theorem getD_getElem {l : List K} {i : ℕ} (h : i < l.length) : l.getD i 0 = l[i] := by
  rw [List.getD_eq_getElem?_getD, List.getElem?_eq_getElem h, Option.getD_some]

theorem convolved_error (hfl : RelErr fl u) (few : 2 * (((n + 1 : ℕ) : K) * u) ≤ 1) {z1 z2 : List K} (h1 : z1.length = n + 1)
    (h2 : z2.length = n + 1) {np : List K → List K → List K} (hnp : SumsProducts fl u convProducts np) :
    (np z1 z2).length = 2 * n + 1 ∧ ∀ k (hk : k < (np z1 z2).length),
      |(np z1 z2)[k] - ∑ i ∈ Finset.range (n + 1), if i ≤ k then z1.getD i 0 * z2.getD (k - i) 0 else 0| ≤
        2 * ((n + 1) * u) * ∑ i ∈ Finset.range (n + 1), if i ≤ k then |z1.getD i 0 * z2.getD (k - i) 0| else 0 := by
  have ne : ∀ {y : List K}, y.length = n + 1 → y ≠ [] := fun h e => by rw [e] at h; simp at h
  obtain ⟨hlen, hk⟩ := hnp z1 z2 (ne h1) (ne h2)
  refine ⟨by omega, fun k hk' => ?_⟩
  obtain ⟨t, ht, hsum⟩ := hk k hk'
  unfold convProducts at ht
  rw [h1] at ht
  have := nearProducts_error hfl (fun i => i ≤ k ∧ k - i < z2.length) (fun i => z1.getD i 0 * z2.getD (k - i) 0) (n + 1)
    few t _ ht hsum
  have hz : ∀ i, ¬ k - i < z2.length → z2.getD (k - i) 0 = 0 := fun i h => by
    rw [List.getD_eq_getElem?_getD, List.getElem?_eq_none (by omega), Option.getD_none]
  have e1 : ∀ i, (if i ≤ k ∧ k - i < z2.length then z1.getD i 0 * z2.getD (k - i) 0 else 0) =
      if i ≤ k then z1.getD i 0 * z2.getD (k - i) 0 else 0 := by
    intro i
    by_cases h : k - i < z2.length
    · simp only [h, and_true]
    · simp only [h, and_false, hz i h, mul_zero, ite_self]
  have e2 : ∀ i, (if i ≤ k ∧ k - i < z2.length then |z1.getD i 0 * z2.getD (k - i) 0| else 0) =
      if i ≤ k then |z1.getD i 0 * z2.getD (k - i) 0| else 0 := by
    intro i
    by_cases h : k - i < z2.length
    · simp only [h, and_true]
    · simp only [h, and_false, hz i h, mul_zero, abs_zero, ite_self]
  simp only [e1, e2] at this
  push_cast at this
  exact this

theorem correlated_error (hfl : RelErr fl u) (few : 2 * (((n + 1 : ℕ) : K) * u) ≤ 1) {z1 z2 : List K} (h1 : z1.length = n + 1)
    (h2 : z2.length = n + 1) {np : List K → List K → List K} (hnp : SumsProducts fl u corrProducts np) :
    (np z1 z2).length = 2 * n + 1 ∧ ∀ k (hk : k < (np z1 z2).length),
      |(np z1 z2)[k] - ∑ i ∈ Finset.range (n + 1), if k ≤ n + i ∧ i ≤ k then z1.getD i 0 * z2.getD (n + i - k) 0 else 0| ≤
        2 * ((n + 1) * u) *
          ∑ i ∈ Finset.range (n + 1), if k ≤ n + i ∧ i ≤ k then |z1.getD i 0 * z2.getD (n + i - k) 0| else 0 := by
  have ne : ∀ {y : List K}, y.length = n + 1 → y ≠ [] := fun h e => by rw [e] at h; simp at h
  obtain ⟨hlen, hk⟩ := hnp z1 z2 (ne h1) (ne h2)
  refine ⟨by omega, fun k hk' => ?_⟩
  obtain ⟨t, ht, hsum⟩ := hk k hk'
  unfold corrProducts at ht
  simp only [h1, h2, Nat.add_sub_cancel] at ht
  have := nearProducts_error hfl (fun i => k < n + 1 + i ∧ i ≤ k) (fun i => z1.getD i 0 * z2.getD (n + i - k) 0) (n + 1)
    few t _ ht hsum
  have e : ∀ i, k < n + 1 + i ↔ k ≤ n + i := fun i => by omega
  simp only [e] at this
  push_cast at this
  exact this

/-- the operand moved to start at zero -/
theorem moved_resolved {x : Axis K} {l y : List K} (h : WellResolved fl u x l n M y)
    (hfit : |x.stop - (x.start + n * x.sample)| ≤ x.sample / 16) (hr : 384 * u * M ≤ x.sample) :
    Rel.flShift fl ⟨x, y⟩ (-x.start) = .ok ⟨⟨0, fl (x.stop - x.start), x.sample⟩, y⟩ ∧
      ∃ l', WellResolved fl u ⟨0, fl (x.stop - x.start), x.sample⟩ l' n (3 * M) y := by
  have hu := relErr_nonneg h.rel
  have hs := h.positive
  have hM0 : 0 ≤ M := (abs_nonneg _).trans h.startBound
  have hM : 0 ≤ u * M := mul_nonneg hu hM0
  have hm := C96_shift h (-x.start) (by
    rw [abs_neg]
    have := mul_le_mul_of_nonneg_left h.startBound hu
    linarith)
  have e : x.flShift fl (-x.start) = ⟨0, fl (x.stop - x.start), x.sample⟩ := by
    unfold Axis.flShift
    rw [add_neg_cancel, fl_zero h.rel, ← sub_eq_add_neg]
  rw [e] at hm
  have b1 := abs_le.1 h.startBound
  have b2 := abs_le.1 h.stopBound
  have hw : |x.stop - x.start| ≤ 2 * M := by
    rw [abs_le]
    constructor <;> linarith [b1.1, b1.2, b2.1, b2.2]
  have hr1 := abs_le.1 ((h.rel (x.stop - x.start)).trans (mul_le_mul_of_nonneg_left hw hu))
  have hw' := abs_le.1 hw
  have huM : u * M ≤ 1 / 100 * M := mul_le_mul_of_nonneg_right h.unit hM0
  have f := abs_le.1 hfit
  obtain ⟨l', hl', hlen⟩ := flMake_array hm
  refine ⟨?_, l', h.rel, h.unit, hl', h.many, hlen.trans h.values, h.values, ?_, ?_, ?_, ?_, hs⟩
  · unfold Rel.flShift
    simp only [e]
    exact flRel_ok hl' hlen
  · simpa using hM0
  · show |fl (x.stop - x.start)| ≤ 3 * M
    rw [abs_le]
    constructor <;> linarith [hr1.1, hr1.2, hw'.1, hw'.2]
  · show |fl (x.stop - x.start) - (0 + n * x.sample)| ≤ x.sample / 8
    rw [abs_le]
    constructor <;> linarith [hr1.1, hr1.2, f.1, f.2]
  · show 128 * u * (3 * M) ≤ x.sample
    linarith

theorem lastLost_of {y z : List K} {keeps : Prop} [Decidable keeps] {A : K → K → K} (hy : y.length = n + 1) (hz : z.length = n + 1)
    (g0 : ∀ (_ : 0 < z.length) (_ : 0 < y.length), z[0] = y[0])
    (gn : ∀ (_ : n < z.length) (_ : n < y.length), z[n] = if keeps then y[n] else 0)
    (gi : ∀ J Y : K, (∀ i (p : i + 1 < y.length), |y[i + 1] - y[i]| ≤ J) → (∀ v ∈ y, |v| ≤ Y) →
      ∀ k (_ : 0 < k) (_ : k < n) (p : k < z.length) (p' : k < y.length), |z[k] - y[k]| ≤ A J Y) :
    LastLost n keeps A y z := by
  refine ⟨hz, ?_, fun c => ?_, fun c => ?_, ?_⟩
  · rw [getD_getElem (by omega), getD_getElem (by omega)]
    exact g0 _ _
  · rw [getD_getElem (by omega), getD_getElem (by omega), gn (by omega) (by omega), if_pos c]
  · rw [getD_getElem (by omega), gn (by omega) (by omega), if_neg c]
  · intro J Y hJ hY k k0 kn
    rw [getD_getElem (by omega), getD_getElem (by omega)]
    refine gi J Y (fun i p => ?_) (fun v hv => ?_) k k0 kn (by omega) (by omega)
    · have := hJ i (by omega)
      rwa [getD_getElem (by omega), getD_getElem (by omega)] at this
    · obtain ⟨m, hm, rfl⟩ := List.mem_iff_getElem.1 hv
      have := hY m (by omega)
      rwa [getD_getElem (by omega)] at this

/-- what `convolve` and `correlate` hand to numpy -/
theorem flConv_align {x1 x2 : Axis K} {l1 l2 y1 y2 : List K} (h1 : WellResolved fl u x1 l1 n M y1)
    (h2 : WellResolved fl u x2 l2 n M y2) (hs : x2.sample = x1.sample)
    (hf1 : |x1.stop - (x1.start + n * x1.sample)| ≤ x1.sample / 16)
    (hf2 : |x2.stop - (x2.start + n * x2.sample)| ≤ x2.sample / 16) (hr : 384 * u * M ≤ x1.sample)
    (hL : 16 * |fl (x1.stop - x1.start) - fl (x2.stop - x2.start)| ≤ x1.sample) (np : List K → List K → List K)
    (hnp : ∀ z1 z2 : List K, z1.length = n + 1 → z2.length = n + 1 → (np z1 z2).length = 2 * n + 1) :
    ∃ z1 z2, Rel.flConv fl np ⟨x1, y1⟩ ⟨x2, y2⟩ =
        .ok ⟨⟨-max (fl (x1.stop - x1.start)) (fl (x2.stop - x2.start)), max (fl (x1.stop - x1.start)) (fl (x2.stop - x2.start)),
          x1.sample⟩, np z1 z2⟩ ∧
      LastLost n (fl (x2.stop - x2.start) ≤ fl (x1.stop - x1.start)) (fun J Y =>
        2 * (|fl (x1.stop - x1.start) - fl (x2.stop - x2.start)| + 16 * u * (3 * M)) / x1.sample * J + 14 * u * Y) y1 z1 ∧
      LastLost n (fl (x1.stop - x1.start) ≤ fl (x2.stop - x2.start)) (fun J Y =>
        2 * (|fl (x1.stop - x1.start) - fl (x2.stop - x2.start)| + 16 * u * (3 * M)) / x1.sample * J + 14 * u * Y) y2 z2 := by
  obtain ⟨s1, l1', w1⟩ := moved_resolved h1 hf1 hr
  obtain ⟨s2, l2', w2⟩ := moved_resolved h2 hf2 (hs ▸ hr)
  have f0 := fl_zero h1.rel
  have v1 := h1.values
  have v2 := h2.values
  set L1 := fl (x1.stop - x1.start) with hL1
  set L2 := fl (x2.stop - x2.start) with hL2
  obtain ⟨q1, q2, he, e1, -, n1, n2, p0, pn, i1, i2⟩ :=
    C153_equalize (r1 := ⟨⟨0, L1, x1.sample⟩, y1⟩) (r2 := ⟨⟨0, L2, x2.sample⟩, y2⟩) w1 w2 |L1 - L2|
      (by simp) le_rfl hL (by simpa only [hs] using hL) f0 f0
  have hax : q1.x = ⟨0, max L1 L2, x1.sample⟩ := by rw [e1]; simp [hs]
  have hlen := hnp q1.y q2.y n1 n2
  have hmake : flMake fl q1.x.flMirror (np q1.y q2.y) = .ok (q1.x.flMirror, np q1.y q2.y) := by
    rw [hax]
    rcases max_cases L1 L2 with ⟨e, -⟩ | ⟨e, -⟩ <;> rw [e]
    · exact C96_correlate w1 rfl _ hlen
    · rw [← hs]
      exact C96_correlate w2 rfl _ hlen
  obtain ⟨l', hl', hlen'⟩ := flMake_array hmake
  refine ⟨q1.y, q2.y, ?_, ?_, ?_⟩
  · unfold Rel.flConv
    simp only [s1, s2, except_bind_ok, he]
    have := flRel_ok hl' hlen'
    rw [this, hax]
    rfl
  · refine lastLost_of v1 n1 (fun a b => ?_) (fun a b => ?_) i1
    · have := (p0 a (by omega) b (by simp only; omega)).1
      rwa [if_pos le_rfl] at this
    · exact (pn a (by omega) b (by simp only; omega)).1
  · refine lastLost_of v2 n2 (fun a b => ?_) (fun a b => ?_) (fun J Y hJ hY k k0 kn p p' => ?_)
    · have := (p0 (by omega) a (by simp only; omega) b).2
      rwa [if_pos le_rfl] at this
    · exact (pn (by omega) a (by simp only; omega) b).2
    · have := i2 J Y hJ hY k k0 kn p p'
      simp only [hs] at this
      exact this

/-! ## C154 -/

/-- **C154** Convolution of two relations of `n + 1` samples with the same step. The result is the convolution of the samples `z1` and
`z2` up to the rounding of the sums; the operand whose computed length is the smaller one has lost its last sample. If the computed
lengths differ, the last value of the convolution is zero whatever the samples. -/
theorem C154_convolve {x1 x2 : Axis K} {l1 l2 y1 y2 : List K} (h1 : WellResolved fl u x1 l1 n M y1)
    (h2 : WellResolved fl u x2 l2 n M y2) (hs : x2.sample = x1.sample)
    (hf1 : |x1.stop - (x1.start + n * x1.sample)| ≤ x1.sample / 16)
    (hf2 : |x2.stop - (x2.start + n * x2.sample)| ≤ x2.sample / 16) (hr : 384 * u * M ≤ x1.sample)
    (hL : 16 * |fl (x1.stop - x1.start) - fl (x2.stop - x2.start)| ≤ x1.sample) (np : List K → List K → List K)
    (hnp : SumsProducts fl u convProducts np) :
    ∃ q z1 z2, Rel.flConv fl np ⟨x1, y1⟩ ⟨x2, y2⟩ = .ok q ∧
      LastLost n (fl (x2.stop - x2.start) ≤ fl (x1.stop - x1.start)) (fun J Y =>
        2 * (|fl (x1.stop - x1.start) - fl (x2.stop - x2.start)| + 16 * u * (3 * M)) / x1.sample * J + 14 * u * Y) y1 z1 ∧
      LastLost n (fl (x1.stop - x1.start) ≤ fl (x2.stop - x2.start)) (fun J Y =>
        2 * (|fl (x1.stop - x1.start) - fl (x2.stop - x2.start)| + 16 * u * (3 * M)) / x1.sample * J + 14 * u * Y) y2 z2 ∧
      q.y.length = 2 * n + 1 ∧
      (∀ k (hk : k < q.y.length),
        |q.y[k] - ∑ i ∈ Finset.range (n + 1), if i ≤ k then z1.getD i 0 * z2.getD (k - i) 0 else 0| ≤
          2 * ((n + 1) * u) * ∑ i ∈ Finset.range (n + 1), if i ≤ k then |z1.getD i 0 * z2.getD (k - i) 0| else 0) ∧
      (fl (x1.stop - x1.start) ≠ fl (x2.stop - x2.start) → ∀ hk : 2 * n < q.y.length, q.y[2 * n] = 0) := by
  have few := h1.few (n + 1) (by have := h1.many; omega)
  obtain ⟨z1, z2, he, a1, a2⟩ := flConv_align h1 h2 hs hf1 hf2 hr hL np
    fun z1 z2 e1 e2 => (convolved_error h1.rel few e1 e2 hnp).1
  obtain ⟨hlen, herr⟩ := convolved_error h1.rel few a1.length a2.length hnp
  refine ⟨_, z1, z2, he, a1, a2, hlen, herr, fun hne hk => ?_⟩
  have := herr (2 * n) hk
  have hz : ∀ i ∈ Finset.range (n + 1), z1.getD i 0 * z2.getD (2 * n - i) 0 = 0 := by
    intro i hi
    rw [Finset.mem_range] at hi
    by_cases hin : i = n
    · subst hin
      have e : 2 * i - i = i := by omega
      rw [e]
      rcases lt_or_gt_of_ne hne with c | c
      · rw [a1.lost (not_le.2 c), zero_mul]
      · rw [a2.lost (not_le.2 c), mul_zero]
    · have : z2.getD (2 * n - i) 0 = 0 := by
        rw [List.getD_eq_getElem?_getD, List.getElem?_eq_none (by rw [a2.length]; omega), Option.getD_none]
      rw [this, mul_zero]
  rw [Finset.sum_eq_zero (fun i hi => by rw [hz i hi, ite_self]),
    Finset.sum_eq_zero (fun i hi => by rw [hz i hi, abs_zero, ite_self]), mul_zero, sub_zero] at this
  exact abs_eq_zero.1 (le_antisymm this (abs_nonneg _))

/-- **C154** Correlation in the same way. If the second operand has lost its last sample the first value of the correlation is zero, if
the first operand has lost it the last value is. -/
theorem C154_correlate {x1 x2 : Axis K} {l1 l2 y1 y2 : List K} (h1 : WellResolved fl u x1 l1 n M y1)
    (h2 : WellResolved fl u x2 l2 n M y2) (hs : x2.sample = x1.sample)
    (hf1 : |x1.stop - (x1.start + n * x1.sample)| ≤ x1.sample / 16)
    (hf2 : |x2.stop - (x2.start + n * x2.sample)| ≤ x2.sample / 16) (hr : 384 * u * M ≤ x1.sample)
    (hL : 16 * |fl (x1.stop - x1.start) - fl (x2.stop - x2.start)| ≤ x1.sample) (np : List K → List K → List K)
    (hnp : SumsProducts fl u corrProducts np) :
    ∃ q z1 z2, Rel.flConv fl np ⟨x1, y1⟩ ⟨x2, y2⟩ = .ok q ∧
      LastLost n (fl (x2.stop - x2.start) ≤ fl (x1.stop - x1.start)) (fun J Y =>
        2 * (|fl (x1.stop - x1.start) - fl (x2.stop - x2.start)| + 16 * u * (3 * M)) / x1.sample * J + 14 * u * Y) y1 z1 ∧
      LastLost n (fl (x1.stop - x1.start) ≤ fl (x2.stop - x2.start)) (fun J Y =>
        2 * (|fl (x1.stop - x1.start) - fl (x2.stop - x2.start)| + 16 * u * (3 * M)) / x1.sample * J + 14 * u * Y) y2 z2 ∧
      q.y.length = 2 * n + 1 ∧
      (∀ k (hk : k < q.y.length),
        |q.y[k] - ∑ i ∈ Finset.range (n + 1), if k ≤ n + i ∧ i ≤ k then z1.getD i 0 * z2.getD (n + i - k) 0 else 0| ≤
          2 * ((n + 1) * u) *
            ∑ i ∈ Finset.range (n + 1), if k ≤ n + i ∧ i ≤ k then |z1.getD i 0 * z2.getD (n + i - k) 0| else 0) ∧
      (fl (x2.stop - x2.start) < fl (x1.stop - x1.start) → ∀ hk : 0 < q.y.length, q.y[0] = 0) ∧
      (fl (x1.stop - x1.start) < fl (x2.stop - x2.start) → ∀ hk : 2 * n < q.y.length, q.y[2 * n] = 0) := by
  have few := h1.few (n + 1) (by have := h1.many; omega)
  obtain ⟨z1, z2, he, a1, a2⟩ := flConv_align h1 h2 hs hf1 hf2 hr hL np
    fun z1 z2 e1 e2 => (correlated_error h1.rel few e1 e2 hnp).1
  obtain ⟨hlen, herr⟩ := correlated_error h1.rel few a1.length a2.length hnp
  refine ⟨_, z1, z2, he, a1, a2, hlen, herr, fun c hk => ?_, fun c hk => ?_⟩
  · have := herr 0 hk
    have hz : ∀ i ∈ Finset.range (n + 1), (if 0 ≤ n + i ∧ i ≤ 0 then z1.getD i 0 * z2.getD (n + i - 0) 0 else 0) = 0 ∧
        (if 0 ≤ n + i ∧ i ≤ 0 then |z1.getD i 0 * z2.getD (n + i - 0) 0| else 0) = 0 := by
      intro i _
      by_cases h0 : i = 0
      · subst h0
        simp only [Nat.add_zero, Nat.sub_zero, a2.lost (not_le.2 c), mul_zero, abs_zero, ite_self, and_self]
      · rw [if_neg (by omega), if_neg (by omega)]
        exact ⟨rfl, rfl⟩
    rw [Finset.sum_eq_zero fun i hi => (hz i hi).1, Finset.sum_eq_zero fun i hi => (hz i hi).2, mul_zero, sub_zero] at this
    exact abs_eq_zero.1 (le_antisymm this (abs_nonneg _))
  · have := herr (2 * n) hk
    have hz : ∀ i ∈ Finset.range (n + 1),
        (if 2 * n ≤ n + i ∧ i ≤ 2 * n then z1.getD i 0 * z2.getD (n + i - 2 * n) 0 else 0) = 0 ∧
        (if 2 * n ≤ n + i ∧ i ≤ 2 * n then |z1.getD i 0 * z2.getD (n + i - 2 * n) 0| else 0) = 0 := by
      intro i hi
      rw [Finset.mem_range] at hi
      by_cases hin : i = n
      · subst hin
        simp only [a1.lost (not_le.2 c), zero_mul, abs_zero, ite_self, and_self]
      · rw [if_neg (by omega), if_neg (by omega)]
        exact ⟨rfl, rfl⟩
    rw [Finset.sum_eq_zero fun i hi => (hz i hi).1, Finset.sum_eq_zero fun i hi => (hz i hi).2, mul_zero, sub_zero] at this
    exact abs_eq_zero.1 (le_antisymm this (abs_nonneg _))

end

/-! Concrete cases -/

/-- numpy's sums from left to right -/
private def conv64 : List ℚ → List ℚ → List ℚ := fun a b =>
  (List.range (a.length + b.length - 1)).map fun k => leftSum fl64 ((convProducts a b k).map fl64)

private def corr64 : List ℚ → List ℚ → List ℚ := fun a b =>
  (List.range (a.length + b.length - 1)).map fun k => leftSum fl64 ((corrProducts a b k).map fl64)

/-- **C154** Three samples at 0.3, 0.4, 0.5 and three at 0.1, 0.2, 0.3, all of them 1. The convolution of 1, 1, 1 with itself is
1, 2, 3, 2, 1; here it is 1, 2, 2, 1, 0, because `0.3 - 0.1` is smaller than `0.5 - 0.3`. -/
theorem C154_witness : ∃ np : List ℚ → List ℚ → List ℚ, SumsProducts fl64 (2 ^ (-53 : ℤ)) convProducts np ∧
    np [1, 1, 1] [1, 1, 1] = [1, 2, 3, 2, 1] ∧
    (Rel.flConv fl64 np ⟨⟨fl64 (3 / 10), fl64 (1 / 2), fl64 (1 / 10)⟩, [1, 1, 1]⟩
      ⟨⟨fl64 (1 / 10), fl64 (3 / 10), fl64 (1 / 10)⟩, [1, 1, 1]⟩).map Rel.y = .ok [1, 2, 2, 1, 0] := by
  refine ⟨conv64, sumsProducts_rounded fl64_relErr convProducts convProducts_ne, ?_, ?_⟩ <;> decide +kernel

theorem threeTenths_values (y : List ℚ) (hy : y.length = 3) : Spec.WellResolved fl64 (2 ^ (-53 : ℤ))
    ⟨fl64 (3 / 10), fl64 (1 / 2), fl64 (1 / 10)⟩ (flLinspace fl64 (fl64 (3 / 10)) (fl64 (1 / 2)) 3) 2 1 y where
  rel := fl64_relErr
  unit := by norm_num
  array := by decide +kernel
  many := by norm_num
  points := flLinspace_length _ _ _ _
  values := hy
  startBound := by decide +kernel
  stopBound := by decide +kernel
  fits := by decide +kernel
  resolved := by decide +kernel
  positive := by decide +kernel

theorem oneTenth_values (y : List ℚ) (hy : y.length = 3) : Spec.WellResolved fl64 (2 ^ (-53 : ℤ))
    ⟨fl64 (1 / 10), fl64 (3 / 10), fl64 (1 / 10)⟩ (flLinspace fl64 (fl64 (1 / 10)) (fl64 (3 / 10)) 3) 2 1 y where
  rel := fl64_relErr
  unit := by norm_num
  array := by decide +kernel
  many := by norm_num
  points := flLinspace_length _ _ _ _
  values := hy
  startBound := by decide +kernel
  stopBound := by decide +kernel
  fits := by decide +kernel
  resolved := by decide +kernel
  positive := by decide +kernel

example := C154_convolve (threeTenths_values [1, 2, 4] rfl) (oneTenth_values [1, -1, 3] rfl) rfl (by decide +kernel) (by decide +kernel)
  (by decide +kernel) (by decide +kernel) _ (sumsProducts_rounded fl64_relErr convProducts convProducts_ne)

example := C154_correlate (threeTenths_values [1, 2, 4] rfl) (oneTenth_values [1, -1, 3] rfl) rfl (by decide +kernel)
  (by decide +kernel) (by decide +kernel) (by decide +kernel) _ (sumsProducts_rounded fl64_relErr corrProducts corrProducts_ne)

example : fl64 (fl64 (3 / 10) - fl64 (1 / 10)) < fl64 (fl64 (1 / 2) - fl64 (3 / 10)) ∧
    (Rel.flConv fl64 corr64 ⟨⟨fl64 (3 / 10), fl64 (1 / 2), fl64 (1 / 10)⟩, [1, 1, 1]⟩
      ⟨⟨fl64 (1 / 10), fl64 (3 / 10), fl64 (1 / 10)⟩, [1, 1, 1]⟩).map Rel.y = .ok [0, 1, 2, 2, 1] := by
  constructor <;> decide +kernel

end SweepDesign
