import Verif.Props.Extremes

/-!
# Resampling on a finer axis (C115)

An axis that contains every point of a relation's axis loses nothing: interpolating back returns the relation, and when the
two axes have the same ends, every later resampling, the integral and the extreme values are the ones of the relation itself.
-/

set_option linter.unusedSectionVars false

namespace SweepDesign

open Spec

/-- every point of the axis `a` is a point of the axis `b` -/
def Spec.Refines {K : Type} [Field K] [LinearOrder K] [FloorRing K] (b a : Axis K) : Prop :=
  ∃ la lb, a.array = .ok la ∧ b.array = .ok lb ∧ ∀ t ∈ la, t ∈ lb

section
variable {K : Type} [Field K] [LinearOrder K] [IsStrictOrderedRing K] [FloorRing K]
variable {V : Type} [Field V] [Algebra K V]

theorem array_sample_ne {a : Axis K} {l : List K} (h : a.array = .ok l) : a.sample ≠ 0 := by
  intro h0
  simp [Axis.array, h0] at h

theorem array_pairwise {a : Axis K} {l : List K} (h : a.array = .ok l) (hle : a.start ≤ a.stop) : l.Pairwise (· < ·) := by
  have hsp := Axis.array_spaced h
  rcases Nat.eq_zero_or_pos a.steps with h0 | h0
  · rw [h0] at hsp
    match l, hsp with
    | [b], _ => simp
    | [], h => simp
    | _ :: _ :: _, h => simp [EvenlySpaced] at h
  · refine hsp.pairwise_lt (lt_of_le_of_ne (div_nonneg (sub_nonneg.2 hle) (Nat.cast_nonneg _)) ?_)
    exact (Axis.step_ne_zero (by omega)).symm

theorem array_inRange {a : Axis K} {l : List K} (h : a.array = .ok l) (hle : a.start ≤ a.stop) (h2 : 2 ≤ l.length) (t : K) :
    InRange l t ↔ a.start ≤ t ∧ t ≤ a.stop := by
  obtain ⟨hl, hsp⟩ := Axis.array_spaced h
  have hn : (a.steps : K) ≠ 0 := by
    have : a.steps ≠ 0 := by omega
    exact_mod_cast this
  have hstep : (a.steps : K) * a.step = a.stop - a.start := by
    unfold Axis.step
    field_simp
  have hnn : 0 ≤ a.step := div_nonneg (sub_nonneg.2 hle) (Nat.cast_nonneg _)
  constructor
  · rintro ⟨b, hb, c, hc, h1, h3⟩
    obtain ⟨i, hi, rfl⟩ := List.mem_iff_getElem.1 hb
    obtain ⟨j, hj, rfl⟩ := List.mem_iff_getElem.1 hc
    rw [hsp i hi] at h1
    rw [hsp j hj] at h3
    constructor
    · have : (0 : K) ≤ i * a.step := mul_nonneg (Nat.cast_nonneg _) hnn
      linarith
    · have hj' : (j : K) ≤ a.steps := by
        have : j ≤ a.steps := by omega
        exact_mod_cast this
      have := mul_le_mul_of_nonneg_right hj' hnn
      linarith
  · rintro ⟨h1, h3⟩
    refine ⟨l[0], List.getElem_mem (by omega), l[a.steps], List.getElem_mem (by omega), ?_, ?_⟩
    · rw [hsp 0 (by omega)]; simpa using h1
    · rw [hsp a.steps (by omega), hstep]; linarith

/-- interpolating an interpolation is interpolating the original when the intermediate points contain all original ones and
no point outside their range -/
theorem interpolant_through {lx xs : List K} {ly ys : List V} (hxy : xs.length = ys.length) (hl : lx.length = ly.length)
    (hlx : lx.Pairwise (· < ·)) (hxs : xs.Pairwise (· < ·)) (hsub : ∀ t ∈ lx, t ∈ xs)
    (hr : ∀ t, InRange xs t → InRange lx t)
    (hq : ∀ i (h : i < xs.length) (h' : i < ys.length), IsInterpolant lx ly xs[i] ys[i])
    {t : K} {w : V} (hw : IsInterpolant xs ys t w) : IsInterpolant lx ly t w := by
  have hmono : ∀ i j (hi : i < xs.length) (hj : j < xs.length), xs[i] < xs[j] → i < j := by
    intro i j hi hj h
    by_contra hc
    rcases Nat.lt_or_eq_of_le (Nat.not_lt.1 hc) with h1 | h1
    · exact absurd (List.pairwise_iff_getElem.1 hxs j i hj hi h1) (not_lt.2 h.le)
    · subst h1; exact lt_irrefl _ h
  refine ⟨fun ho => hw.outside fun hc => ho (hr t hc), ?_, ?_⟩
  · intro i h h' he
    obtain ⟨j, hj, hje⟩ := List.mem_iff_getElem.1 (hsub _ (List.getElem_mem h))
    have h1 := hw.sample j hj (by omega) (hje.trans he)
    rw [h1]
    exact (hq j hj (by omega)).sample i h h' hje.symm
  · intro i h h' h1 h2
    have hlt : lx[i] < lx[i + 1] := List.pairwise_iff_getElem.1 hlx i (i + 1) (by omega) h (by omega)
    have hin : InRange xs t := by
      rw [min_eq_left hlt.le] at h1
      rw [max_eq_right hlt.le] at h2
      exact ⟨_, hsub _ (List.getElem_mem _), _, hsub _ (List.getElem_mem _), h1, h2⟩
    rcases inRange_cases_inc hxs hin with ⟨j, hj, rfl⟩ | ⟨j, hj, h3, h4⟩
    · rw [hw.sample j hj (by omega) rfl]
      exact (hq j hj (by omega)).between i h h' h1 h2
    · have hlt' : xs[j] < xs[j + 1] := h3.trans h4
      rw [min_eq_left hlt.le] at h1
      rw [max_eq_right hlt.le] at h2
      obtain ⟨a, ha, hae⟩ := List.mem_iff_getElem.1 (hsub _ (List.getElem_mem (by omega : i < lx.length)))
      obtain ⟨b, hb, hbe⟩ := List.mem_iff_getElem.1 (hsub _ (List.getElem_mem h))
      have hle : ∀ i j (hi : i < xs.length) (hj : j < xs.length), i ≤ j → xs[i] ≤ xs[j] := by
        intro i j hi hj hij
        rcases Nat.lt_or_eq_of_le hij with h1 | h1
        · exact (List.pairwise_iff_getElem.1 hxs i j hi hj h1).le
        · subst h1; exact le_rfl
      have haj : lx[i] ≤ xs[j] := by
        have := hmono a (j + 1) ha hj (by rw [hae]; exact lt_of_le_of_lt h1 h4)
        rw [← hae]
        exact hle _ _ _ _ (by omega)
      have hbj : xs[j + 1] ≤ lx[i + 1] := by
        have := hmono j b (by omega) hb (by rw [hbe]; exact lt_of_lt_of_le h3 h2)
        rw [← hbe]
        exact hle _ _ _ _ (by omega)
      have e1 := (hq j (by omega) (by omega)).between i h h' (by rw [min_eq_left hlt.le]; exact haj)
        (by rw [max_eq_right hlt.le]; exact hlt'.le.trans hbj)
      have e2 := (hq (j + 1) hj (by omega)).between i h h' (by rw [min_eq_left hlt.le]; exact haj.trans hlt'.le)
        (by rw [max_eq_right hlt.le]; exact hbj)
      have e3 := hw.between j hj (by omega) ((min_le_left _ _).trans h3.le) (h4.le.trans (le_max_right _ _))
      have hd : xs[j + 1] - xs[j] ≠ 0 := (sub_pos.2 hlt').ne'
      have hD : lx[i + 1] - lx[i] ≠ 0 := (sub_pos.2 hlt).ne'
      rw [e3, e1, e2, add_sub_add_left_eq_sub, ← sub_smul, smul_smul, add_assoc, ← add_smul]
      congr 2
      field_simp
      ring

/-- **C115** Interpolating to an axis that contains all points of the relation's axis, and back, returns the relation. -/
theorem C115_there_and_back (r : Rel K V) (hb : Balanced r) (a : Axis K) (ha : Refines a r.x) :
    ∃ q, r.interpolateExtrapolate (.axis a) = .ok q ∧ q.interpolateExtrapolate (.axis r.x) = .ok r ∧
      q.interpolateExtrapolate (.rel r) = .ok r := by
  obtain ⟨la, lb, h1, h2, hsub⟩ := ha
  obtain ⟨⟨lx, ly⟩, hd⟩ := (balanced_iff_getData r).1 hb
  obtain ⟨hx, rfl, hlen⟩ := (getData_ok_iff _ _ _).1 hd
  obtain rfl : la = lx := Except.ok.inj (h1.symm.trans hx)
  obtain ⟨q, xs, ys, e1, e2, e3, e4, e5, e6⟩ := interpAxis_spec r _ _ hd a (array_sample_ne h2)
  obtain rfl : lb = xs := Except.ok.inj (h2.symm.trans e3)
  subst e4
  have hlq := ((getData_ok_iff _ _ _).1 e5).2.2
  obtain ⟨p, xs', ys', f1, f2, f3, f4, f5, f6⟩ := interpAxis_spec q _ _ e5 r.x (array_sample_ne h1)
  obtain rfl : la = xs' := Except.ok.inj (h1.symm.trans f3)
  subst f4
  have hlp := ((getData_ok_iff _ _ _).1 f5).2.2
  have hp : p = r := by
    refine Rel.ext' f2 ?_
    apply List.ext_getElem (by omega)
    intro i hi1 hi2
    have hi : i < la.length := by omega
    obtain ⟨j, hj, hje⟩ := List.mem_iff_getElem.1 (hsub _ (List.getElem_mem hi))
    rw [(f6 i hi hi1).sample j hj (by omega) hje]
    exact (e6 j hj (by omega)).sample i hi hi2 hje.symm
  subst hp
  exact ⟨q, e1, f1, f1⟩

/-- **C115** When the finer axis has the same ends, every later resampling gives what it gives from the relation itself. -/
theorem C115_through (r : Rel K V) (hb : Balanced r) (h2 : 2 ≤ r.y.length) (hle : r.x.start ≤ r.x.stop) (a : Axis K)
    (ha : Refines a r.x) (hst : a.start = r.x.start) (hsp : a.stop = r.x.stop) (b : Axis K) (hbs : b.sample ≠ 0) :
    ∃ q p, r.interpolateExtrapolate (.axis a) = .ok q ∧ q.interpolateExtrapolate (.axis b) = .ok p ∧
      r.interpolateExtrapolate (.axis b) = .ok p := by
  obtain ⟨la, lb, h1, h3, hsub⟩ := ha
  obtain ⟨⟨lx, ly⟩, hd⟩ := (balanced_iff_getData r).1 hb
  obtain ⟨hx, rfl, hlen⟩ := (getData_ok_iff _ _ _).1 hd
  obtain rfl : la = lx := Except.ok.inj (h1.symm.trans hx)
  obtain ⟨q, xs, ys, e1, e2, e3, e4, e5, e6⟩ := interpAxis_spec r _ _ hd a (array_sample_ne h3)
  obtain rfl : lb = xs := Except.ok.inj (h3.symm.trans e3)
  subst e4
  have hlq := ((getData_ok_iff _ _ _).1 e5).2.2
  obtain ⟨p, xs', ys', f1, f2, f3, f4, f5, f6⟩ := interpAxis_spec q _ _ e5 b hbs
  obtain ⟨p', xs'', ys'', g1, g2, g3, g4, g5, g6⟩ := interpAxis_spec r _ _ hd b hbs
  obtain rfl : xs' = xs'' := Except.ok.inj (f3.symm.trans g3)
  subst f4 g4
  have hlp := ((getData_ok_iff _ _ _).1 f5).2.2
  have hlp' := ((getData_ok_iff _ _ _).1 g5).2.2
  have hpa := array_pairwise h1 hle
  have hpb := array_pairwise h3 (by rw [hst, hsp]; exact hle)
  have hla : 2 ≤ la.length := by omega
  have hlb : 2 ≤ lb.length := by
    obtain ⟨i, hi, h5⟩ := List.mem_iff_getElem.1 (hsub _ (List.getElem_mem (by omega : 0 < la.length)))
    obtain ⟨j, hj, h6⟩ := List.mem_iff_getElem.1 (hsub _ (List.getElem_mem (by omega : 1 < la.length)))
    have hlt : la[0] < la[1] := List.pairwise_iff_getElem.1 hpa 0 1 (by omega) (by omega) (by omega)
    by_contra hc
    obtain rfl : i = j := by omega
    rw [← h5, ← h6] at hlt
    exact lt_irrefl _ hlt
  have hp : p = p' := by
    refine Rel.ext' (f2.trans g2.symm) ?_
    apply List.ext_getElem (by omega)
    intro i hi1 hi2
    have hi : i < xs'.length := by omega
    refine IsInterpolant.unique hlen (.inl hpa) (interpolant_through (by omega) hlen hpa hpb hsub ?_ e6 (f6 i hi hi1))
      (g6 i hi hi2)
    intro t ht
    rw [array_inRange h3 (by rw [hst, hsp]; exact hle) hlb, hst, hsp] at ht
    rwa [array_inRange h1 hle hla]
  subst hp
  exact ⟨q, p, e1, f1, g1⟩

/-- the axis in steps of 1/2 contains the points of the axis in steps of 1; the value half way is the mean -/
example : Refines (⟨0, 2, 1 / 2⟩ : Axis ℚ) ⟨0, 2, 1⟩ :=
  ⟨[0, 1, 2], [0, 1 / 2, 1, 3 / 2, 2], by decide +kernel, by decide +kernel, by decide +kernel⟩
example : (⟨⟨0, 2, 1⟩, [1, 5, 4]⟩ : Rel ℚ ℚ).interpolateExtrapolate (.axis ⟨0, 2, 1 / 2⟩) =
      .ok ⟨⟨0, 2, 1 / 2⟩, [1, 3, 5, 9 / 2, 4]⟩ ∧
    (⟨⟨0, 2, 1 / 2⟩, [1, 3, 5, 9 / 2, 4]⟩ : Rel ℚ ℚ).interpolateExtrapolate (.axis ⟨0, 2, 1⟩) =
      .ok ⟨⟨0, 2, 1⟩, [1, 5, 4]⟩ := by decide +kernel
/-- an axis that misses a point loses it: steps of 2/3 and back -/
example : (⟨⟨0, 2, 1⟩, [1, 5, 4]⟩ : Rel ℚ ℚ).interpolateExtrapolate (.axis ⟨0, 2, 2 / 3⟩) =
      .ok ⟨⟨0, 2, 2 / 3⟩, [1, 11 / 3, 14 / 3, 4]⟩ ∧
    (⟨⟨0, 2, 2 / 3⟩, [1, 11 / 3, 14 / 3, 4]⟩ : Rel ℚ ℚ).interpolateExtrapolate (.axis ⟨0, 2, 1⟩) =
      .ok ⟨⟨0, 2, 1⟩, [1, 25 / 6, 4]⟩ := by decide +kernel
/-- a finer axis with other ends: back on its own axis the relation is unchanged, but beyond its last point a third axis
sees the slope to the first zero (`C115_through` needs equal ends) -/
example : (⟨⟨0, 1, 1⟩, [1, 5]⟩ : Rel ℚ ℚ).interpolateExtrapolate (.axis ⟨0, 2, 1⟩) = .ok ⟨⟨0, 2, 1⟩, [1, 5, 0]⟩ ∧
    (⟨⟨0, 2, 1⟩, [1, 5, 0]⟩ : Rel ℚ ℚ).interpolateExtrapolate (.axis ⟨0, 2, 1 / 2⟩) =
      .ok ⟨⟨0, 2, 1 / 2⟩, [1, 3, 5, 5 / 2, 0]⟩ ∧
    (⟨⟨0, 1, 1⟩, [1, 5]⟩ : Rel ℚ ℚ).interpolateExtrapolate (.axis ⟨0, 2, 1 / 2⟩) =
      .ok ⟨⟨0, 2, 1 / 2⟩, [1, 3, 5, 0, 0]⟩ := by decide +kernel

end

section
variable {K : Type} [Field K] [LinearOrder K] [IsStrictOrderedRing K] [FloorRing K]

theorem sum_of_parts (f g : ℕ → K) (p n : ℕ) (h : ∀ i < n, ∑ k ∈ Finset.range p, f (i * p + k) = g i) :
    ∑ j ∈ Finset.range (n * p), f j = ∑ i ∈ Finset.range n, g i := by
  induction n with
  | zero => simp
  | succ n ih =>
    rw [Nat.succ_mul, Finset.sum_range_add, ih fun i hi => h i (by omega), h n (by omega), Finset.sum_range_succ]

/-- **C115** When the finer axis has the same ends, the integral is unchanged. -/
theorem C115_integral (r q : Rel K K) (hb : Balanced r) (h2 : 2 ≤ r.y.length) (hlt : r.x.start < r.x.stop) (a : Axis K)
    (ha : Refines a r.x) (hst : a.start = r.x.start) (hsp : a.stop = r.x.stop)
    (hq : r.interpolateExtrapolate (.axis a) = .ok q) : q.oneIntegrate = r.oneIntegrate := by
  obtain ⟨la, lb, h1, h3, hsub⟩ := ha
  obtain ⟨⟨lx, ly⟩, hd⟩ := (balanced_iff_getData r).1 hb
  obtain ⟨hx, rfl, hlen⟩ := (getData_ok_iff _ _ _).1 hd
  obtain rfl : la = lx := Except.ok.inj (h1.symm.trans hx)
  obtain ⟨q', xs, ys, e1, e2, e3, e4, e5, e6⟩ := interpAxis_spec r _ _ hd a (array_sample_ne h3)
  obtain rfl : lb = xs := Except.ok.inj (h3.symm.trans e3)
  subst e4
  obtain rfl : q = q' := Except.ok.inj (hq.symm.trans e1)
  have hlq := ((getData_ok_iff _ _ _).1 e5).2.2
  obtain ⟨n1, s1⟩ := Axis.array_spaced h1
  obtain ⟨n2, s2⟩ := Axis.array_spaced h3
  have hn : 0 < r.x.steps := by omega
  have hnK : (0 : K) < r.x.steps := by exact_mod_cast hn
  have hd1 : (r.x.steps : K) * r.x.step = r.x.stop - r.x.start := by
    unfold Axis.step
    field_simp
  have hd1p : 0 < r.x.step := div_pos (sub_pos.2 hlt) hnK
  obtain ⟨p, hp, hpe⟩ := List.mem_iff_getElem.1 (hsub _ (List.getElem_mem (by omega : 1 < la.length)))
  rw [s1 1 (by omega), s2 p hp, hst] at hpe
  have hpd : (p : K) * a.step = r.x.step := by
    have := add_left_cancel hpe
    simpa using this
  have hp0 : p ≠ 0 := by
    rintro rfl
    simp only [Nat.cast_zero, zero_mul] at hpd
    exact hd1p.ne hpd
  have hpK : (0 : K) < p := by exact_mod_cast Nat.pos_of_ne_zero hp0
  have hm : (a.steps : K) * a.step = a.stop - a.start := by
    have : (a.steps : K) ≠ 0 := by
      have : a.steps ≠ 0 := by omega
      exact_mod_cast this
    unfold Axis.step
    field_simp
  have hd2p : 0 < a.step := by
    by_contra hc
    have := mul_nonpos_of_nonneg_of_nonpos hpK.le (not_lt.1 hc)
    rw [hpd] at this
    exact absurd hd1p (not_lt.2 this)
  have hN : a.steps = r.x.steps * p := by
    have h5 : (a.steps : K) * a.step = (r.x.steps * p : ℕ) * a.step := by
      rw [hm, hst, hsp, ← hd1, ← hpd]
      push_cast; ring
    exact_mod_cast mul_right_cancel₀ hd2p.ne' h5
  have val : ∀ i k, i < r.x.steps → k ≤ p →
      q.y.getD (i * p + k) 0 = r.y.getD i 0 + (k / p) * (r.y.getD (i + 1) 0 - r.y.getD i 0) := by
    intro i k hi hk
    have hik : i * p + k < lb.length := by
      rw [n2, hN]
      have := Nat.mul_le_mul_right p (by omega : i + 1 ≤ r.x.steps)
      rw [Nat.succ_mul] at this
      omega
    rw [getD_lt _ _ _ (by omega), getD_lt _ _ _ (by omega), getD_lt _ _ _ (by omega)]
    have e := s2 _ hik
    have l1 := s1 i (by omega)
    have l2 := s1 (i + 1) (by omega)
    have hkp : (k : K) ≤ p := by exact_mod_cast hk
    have hk0 : (0 : K) ≤ k := Nat.cast_nonneg _
    have e' : lb[i * p + k] = la[i] + k * a.step := by
      rw [e, l1, hst, ← hpd]; push_cast; ring
    have l2' : la[i + 1] = la[i] + p * a.step := by
      rw [l2, l1, ← hpd]; push_cast; ring
    have hb1 := mul_le_mul_of_nonneg_right hkp hd2p.le
    have hb2 := mul_nonneg hk0 hd2p.le
    have := (e6 _ hik (by omega)).between i (by omega) (by omega)
      ((min_le_left _ _).trans (by rw [e']; linarith)) (le_trans (by rw [e', l2']; linarith) (le_max_right _ _))
    rw [this, e', l2', smul_eq_mul]
    congr 2
    field_simp
    ring
  have hbq : Balanced q := (balanced_iff_getData q).2 ⟨_, e5⟩
  rw [oneIntegrate_sum r hb, oneIntegrate_sum q hbq, e2]
  have c1 : q.y.length - 1 = r.x.steps * p := by omega
  have c2 : r.y.length - 1 = r.x.steps := by omega
  rw [c1, c2]
  congr 1
  apply sum_of_parts (fun j => a.step * ((q.y.getD j 0 + q.y.getD (j + 1) 0) / 2))
  intro i hi
  have part : ∀ m, m ≤ p → ∑ k ∈ Finset.range m, a.step * ((q.y.getD (i * p + k) 0 + q.y.getD (i * p + k + 1) 0) / 2) =
      a.step * (m * r.y.getD i 0 + m ^ 2 / (2 * p) * (r.y.getD (i + 1) 0 - r.y.getD i 0)) := by
    intro m hm
    induction m with
    | zero => simp
    | succ m ih =>
      rw [Finset.sum_range_succ, ih (by omega), val i m hi (by omega), add_assoc (i * p), val i (m + 1) hi hm]
      push_cast
      field_simp
      ring
  rw [part p le_rfl, ← hpd]
  field_simp
  ring

/-- **C115** When the finer axis has the same ends, the largest and the smallest values are unchanged. -/
theorem C115_extremes (r q : Rel K K) (hb : Balanced r) (h2 : 2 ≤ r.y.length) (hle : r.x.start ≤ r.x.stop) (a : Axis K)
    (ha : Refines a r.x) (hst : a.start = r.x.start) (hsp : a.stop = r.x.stop)
    (hq : r.interpolateExtrapolate (.axis a) = .ok q) : q.max = r.max ∧ q.min = r.min := by
  obtain ⟨la, lb, h1, h3, hsub⟩ := ha
  obtain ⟨⟨lx, ly⟩, hd⟩ := (balanced_iff_getData r).1 hb
  obtain ⟨hx, rfl, hlen⟩ := (getData_ok_iff _ _ _).1 hd
  obtain rfl : la = lx := Except.ok.inj (h1.symm.trans hx)
  obtain ⟨q', xs, ys, e1, e2, e3, e4, e5, e6⟩ := interpAxis_spec r _ _ hd a (array_sample_ne h3)
  obtain rfl : lb = xs := Except.ok.inj (h3.symm.trans e3)
  subst e4
  obtain rfl : q = q' := Except.ok.inj (hq.symm.trans e1)
  have hlq := ((getData_ok_iff _ _ _).1 e5).2.2
  have hr : r.y ≠ [] := by intro h; rw [h] at h2; simp at h2
  have sub : ∀ v ∈ r.y, v ∈ q.y := by
    intro v hv
    obtain ⟨i, hi, rfl⟩ := List.getElem_of_mem hv
    obtain ⟨j, hj, hje⟩ := List.mem_iff_getElem.1 (hsub _ (List.getElem_mem (by omega : i < la.length)))
    rw [← (e6 j hj (by omega)).sample i (by omega) hi hje.symm]
    exact List.getElem_mem _
  have hq0 : q.y ≠ [] := by
    intro h
    have := sub _ (List.getElem_mem (by omega : 0 < r.y.length))
    rw [h] at this
    simp at this
  obtain ⟨M, m, k1, k2, k3, k4⟩ := (C114_max_min r).2 hr
  obtain ⟨M', m', k1', k2', k3', k4'⟩ := (C114_max_min q).2 hq0
  have ends : ∀ t ∈ lb, a.start ≤ t ∧ t ≤ a.stop := by
    intro t ht
    have hlb : 2 ≤ lb.length ∨ lb.length = 1 := by
      have := List.length_pos_of_mem ht
      omega
    rcases hlb with hlb | hlb
    · exact (array_inRange h3 (by rw [hst, hsp]; exact hle) hlb t).1 ⟨t, ht, t, ht, le_rfl, le_rfl⟩
    · obtain ⟨n2, s2⟩ := Axis.array_spaced h3
      obtain ⟨i, hi, rfl⟩ := List.mem_iff_getElem.1 ht
      obtain rfl : i = 0 := by omega
      rw [s2 0 hi]
      simp [hst, hsp, hle]
  have bd : ∀ v ∈ q.y, m ≤ v ∧ v ≤ M := by
    intro v hv
    obtain ⟨i, hi, rfl⟩ := List.getElem_of_mem hv
    have hm := ends _ (List.getElem_mem (by omega : i < lb.length))
    rw [hst, hsp] at hm
    exact interpolant_bounds r la r.y hd m M _ _ (fun b hb => ⟨k4.2 hb, k3.2 hb⟩)
      ((array_inRange h1 hle (by omega) _).2 hm) (e6 i (by omega) hi)
  rw [k1, k2, k1', k2', Except.ok.injEq, Except.ok.injEq]
  exact ⟨le_antisymm (bd _ k3'.1).2 (k3'.2 (sub _ k3.1)), le_antisymm (k4'.2 (sub _ k4.1)) (bd _ k4'.1).1⟩

/-- integral and extreme values of the two samplings of the example above -/
example : (⟨⟨0, 2, 1⟩, [1, 5, 4]⟩ : Rel ℚ ℚ).oneIntegrate = .ok (15 / 2) ∧
    (⟨⟨0, 2, 1 / 2⟩, [1, 3, 5, 9 / 2, 4]⟩ : Rel ℚ ℚ).oneIntegrate = .ok (15 / 2) ∧
    (⟨⟨0, 2, 1 / 2⟩, [1, 3, 5, 9 / 2, 4]⟩ : Rel ℚ ℚ).max = .ok 5 := by decide +kernel
/-- the axis in steps of 2/3 misses the largest value and the integral -/
example : (⟨⟨0, 2, 2 / 3⟩, [1, 11 / 3, 14 / 3, 4]⟩ : Rel ℚ ℚ).oneIntegrate = .ok (65 / 9) ∧
    (⟨⟨0, 2, 2 / 3⟩, [1, 11 / 3, 14 / 3, 4]⟩ : Rel ℚ ℚ).max = .ok (14 / 3) := by decide +kernel

end

end SweepDesign
