import Verif.Model.FloatValues
import Verif.Props.FloatSizes
import Verif.Lemmas.Relation

/-!
# C105: item access in double precision
-/

set_option linter.unusedSectionVars false

namespace SweepDesign

open Spec

section
variable {K : Type} [Field K] [LinearOrder K] [IsStrictOrderedRing K] [FloorRing K]
variable {fl : K → K} {u : K} {x : Axis K} {l : List K} {n : ℕ} {M : K} {y : List K}

theorem argmin_getElem (l : List K) (h : l ≠ []) :
    ∃ (i : ℕ) (hi : i < l.length), argmin l = .ok i ∧ ∀ k (hk : k < l.length), l[i] ≤ l[k] := by
  obtain ⟨i, v, e, h1, h2⟩ := argmin_spec l h
  have hi : i < l.length := by
    by_contra hc
    rw [List.getElem?_eq_none (by omega)] at h1
    cases h1
  rw [List.getElem?_eq_getElem hi, Option.some.injEq] at h1
  exact ⟨i, hi, e, fun k hk => h1 ▸ (h2 k _ (List.getElem?_eq_getElem hk)).1⟩

/-- the sample whose computed distance is smaller than all others is returned -/
theorem flGetItem_of_lt (h : x.flArray fl = .ok l) (v : K) (j : ℕ) (hj : j < l.length) (hy : j < y.length)
    (hmin : ∀ k (hk : k < l.length), k ≠ j → |fl (l[j] - v)| < |fl (l[k] - v)|) :
    Rel.flGetItem fl ⟨x, y⟩ v = .ok (l[j], y[j]) := by
  have hne : (l.map fun t => |fl (t - v)|) ≠ [] := by
    intro e
    rw [List.map_eq_nil_iff] at e
    rw [e] at hj
    simp at hj
  obtain ⟨i, hi, e, hle⟩ := argmin_getElem _ hne
  have hi' : i < l.length := by simpa using hi
  have hij : i = j := by
    by_contra hne'
    have h1 := hmin i hi' hne'
    have h2 := hle j (by simpa using hj)
    simp only [List.getElem_map] at h2
    exact absurd h1 (not_lt.2 h2)
  subst hij
  unfold Rel.flGetItem
  simp only [h, except_bind_ok, e, List.getElem?_eq_getElem hj, List.getElem?_eq_getElem hy]
  rfl

/-- Where the nearest position has no sample, because the axis was stretched after construction, `IndexError` is raised. -/
theorem C105_no_sample (h : x.flArray fl = .ok l) (v : K) (j : ℕ) (hj : j < l.length) (hy : y.length ≤ j)
    (hmin : ∀ k (hk : k < l.length), k ≠ j → |fl (l[j] - v)| < |fl (l[k] - v)|) :
    Rel.flGetItem fl ⟨x, y⟩ v = .error .index := by
  have hne : (l.map fun t => |fl (t - v)|) ≠ [] := by
    intro e
    rw [List.map_eq_nil_iff] at e
    rw [e] at hj
    simp at hj
  obtain ⟨i, hi, e, hle⟩ := argmin_getElem _ hne
  have hi' : i < l.length := by simpa using hi
  have hij : i = j := by
    by_contra hne'
    have h1 := hmin i hi' hne'
    have h2 := hle j (by simpa using hj)
    simp only [List.getElem_map] at h2
    exact absurd h1 (not_lt.2 h2)
  subst hij
  unfold Rel.flGetItem
  simp only [h, except_bind_ok, e, List.getElem?_eq_getElem hj, List.getElem?_eq_none hy]

/-- A point of the axis, as computed, gives back itself and its sample. -/
theorem C105_own_point (hfl : RelErr fl u) (hu : u < 1) (h : x.flArray fl = .ok l) (hinc : l.Pairwise (· < ·)) (j : ℕ)
    (hj : j < l.length) (hy : j < y.length) : Rel.flGetItem fl ⟨x, y⟩ l[j] = .ok (l[j], y[j]) := by
  refine flGetItem_of_lt h _ j hj hy fun k hk hkj => ?_
  have e0 : fl (l[j] - l[j]) = 0 := by
    have := hfl (l[j] - l[j])
    rw [sub_self, abs_zero, mul_zero, sub_zero] at this
    rw [sub_self]
    exact abs_eq_zero.1 (le_antisymm this (abs_nonneg _))
  rw [e0, abs_zero, abs_pos]
  have hd : l[k] - l[j] ≠ 0 := by
    rw [sub_ne_zero]
    rcases lt_or_gt_of_ne hkj with c | c
    · exact (List.pairwise_iff_getElem.1 hinc k j hk hj c).ne
    · exact (List.pairwise_iff_getElem.1 hinc j k hj hk c).ne'
  intro e
  have := hfl (l[k] - l[j])
  rw [e, zero_sub, abs_neg] at this
  have hp := abs_pos.2 hd
  have : u * |l[k] - l[j]| < 1 * |l[k] - l[j]| := mul_lt_mul_of_pos_right hu hp
  linarith

/-- What is returned is a sample, and no other is clearly nearer: only distances that agree up to two roundings are not told apart. -/
theorem C105_nearest (hfl : RelErr fl u) (h : x.flArray fl = .ok l) (hl : l.length = y.length) (h0 : y ≠ []) (v : K) :
    ∃ (i : ℕ) (hi : i < l.length) (hy : i < y.length), Rel.flGetItem fl ⟨x, y⟩ v = .ok (l[i], y[i]) ∧
      ∀ k (hk : k < l.length), (1 - u) * |l[i] - v| ≤ (1 + u) * |l[k] - v| := by
  have hne : (l.map fun t => |fl (t - v)|) ≠ [] := by
    intro e
    rw [List.map_eq_nil_iff] at e
    rw [e] at hl
    exact h0 (List.length_eq_zero_iff.1 (by simpa using hl.symm))
  obtain ⟨i, hi, e, hle⟩ := argmin_getElem _ hne
  have hi' : i < l.length := by simpa using hi
  refine ⟨i, hi', by omega, ?_, fun k hk => ?_⟩
  · unfold Rel.flGetItem
    simp only [h, except_bind_ok, e, List.getElem?_eq_getElem hi', List.getElem?_eq_getElem (hl ▸ hi' : i < y.length)]
    rfl
  · have h2 := hle k (by simpa using hk)
    simp only [List.getElem_map] at h2
    have a := hfl (l[i] - v)
    have b := hfl (l[k] - v)
    have a' := abs_sub_abs_le_abs_sub (l[i] - v) (fl (l[i] - v))
    have b' := abs_sub_abs_le_abs_sub (fl (l[k] - v)) (l[k] - v)
    rw [abs_sub_comm (l[i] - v)] at a'
    linarith

/-- On a well resolved axis the sample at position `start + j * step` is returned for every `v` that is nearer to this position than half
a step, by a margin for the rounding. -/
theorem C105_position (h : WellResolved fl u x l n M y) (v d : K) (hd : d = (x.stop - x.start) / n) (j : ℕ) (hj : j < l.length)
    (hy : j < y.length) (hv : (1 + u) * (|v - (x.start + j * d)| + 8 * u * M) < (1 - u) * (d - |v - (x.start + j * d)| - 8 * u * M)) :
    Rel.flGetItem fl ⟨x, y⟩ v = .ok (l[j], y[j]) := by
  obtain ⟨-, -, hp⟩ := C92_points fl u h.rel h.unit x l h.array n h.many h.points M h.startBound h.stopBound
  rw [← hd] at hp
  have hu := relErr_nonneg h.rel
  have hu1 := h.unit
  have hdp : 0 < d := by have := h.step'.1; have := h.positive; rw [hd]; linarith
  refine flGetItem_of_lt h.array v j hj hy fun k hk hkj => ?_
  set e := |v - (x.start + j * d)| with he
  have near : |l[j] - v| ≤ e + 8 * u * M := by
    have e1 : l[j] - v = (l[j] - (x.start + j * d)) - (v - (x.start + j * d)) := by ring
    rw [e1]
    have := abs_sub (l[j] - (x.start + j * d)) (v - (x.start + j * d))
    have := hp j hj
    linarith
  have far : d - e - 8 * u * M ≤ |l[k] - v| := by
    have e1 : ((k : K) - j) * d = (l[k] - v) - (l[k] - (x.start + k * d)) + (v - (x.start + j * d)) := by ring
    have h1 : 1 ≤ |(k : K) - j| := by
      have : (1 : ℤ) ≤ |(k : ℤ) - j| := Int.one_le_abs (by omega)
      exact_mod_cast this
    have h2 : d ≤ |((k : K) - j) * d| := by
      rw [abs_mul, abs_of_pos hdp]
      calc d = 1 * d := by ring
        _ ≤ _ := mul_le_mul_of_nonneg_right h1 hdp.le
    rw [e1] at h2
    have h3 := abs_add_le ((l[k] - v) - (l[k] - (x.start + k * d))) (v - (x.start + j * d))
    have h4 := abs_sub (l[k] - v) (l[k] - (x.start + k * d))
    have h5 := hp k hk
    linarith
  have a := h.rel (l[j] - v)
  have b := h.rel (l[k] - v)
  have a' := abs_sub_abs_le_abs_sub (fl (l[j] - v)) (l[j] - v)
  have b' := abs_sub_abs_le_abs_sub (l[k] - v) (fl (l[k] - v))
  rw [abs_sub_comm (l[k] - v)] at b'
  have c1 : |fl (l[j] - v)| ≤ (1 + u) * (e + 8 * u * M) := by
    have := mul_le_mul_of_nonneg_left near (by linarith : 0 ≤ 1 + u)
    linarith
  have c2 : (1 - u) * (d - e - 8 * u * M) ≤ |fl (l[k] - v)| := by
    have := mul_le_mul_of_nonneg_left far (by linarith : 0 ≤ 1 - u)
    linarith
  linarith

end

/-! Concrete cases: the axis 0, 0.1, ..., 1 of doubles -/

private theorem tenths (y : List ℚ) (hy : y.length = 11) :
    WellResolved fl64 (2 ^ (-53 : ℤ)) ⟨0, 1, fl64 (1 / 10)⟩ (flLinspace fl64 0 1 11) 10 1 y where
  rel := fl64_relErr
  unit := by norm_num
  array := by decide +kernel
  many := by norm_num
  points := flLinspace_length _ _ _ _
  values := hy
  startBound := by norm_num
  stopBound := by norm_num
  fits := by decide +kernel
  resolved := by decide +kernel
  positive := by decide +kernel

example := C105_position (tenths [0, 1, 1/3, -2, 5, 0, 0, 7, 1, 1, -1] rfl) (349 / 1000) _ rfl 3
  (by rw [flLinspace_length]; norm_num) (by decide) (by norm_num [abs_of_pos])

/-- three samples left on four positions: the last position has none -/
example : Rel.flGetItem fl64 ⟨⟨0, 3, 1⟩, [5, 7, 6]⟩ 3 = .error .index ∧ Rel.flGetItem fl64 ⟨⟨0, 3, 1⟩, [5, 7, 6]⟩ 1 = .ok (1, 7) := by
  refine ⟨?_, ?_⟩ <;> decide +kernel

/-- Where two samples are equally near, exact arithmetic gives the lower one, and in doubles the rounding of the positions decides: on
the axis 0, 0.2, ..., 2.4 the value at 0.1 is the sample at 0.2, because 2.4 / 12 is rounded downwards. -/
theorem C105_tie : Rel.flGetItem fl64 ⟨⟨0, fl64 (12 / 5), fl64 (1 / 5)⟩, [0, 1, 2, 3, 4, 5, 6, 7, 8, 9, 10, 11, 12]⟩ (fl64 (1 / 10)) =
      .ok (fl64 (fl64 (12 / 5) / 12), 1) ∧
    Rel.getItem (⟨⟨0, 12 / 5, 1 / 5⟩, [0, 1, 2, 3, 4, 5, 6, 7, 8, 9, 10, 11, 12]⟩ : Rel ℚ ℚ) (1 / 10) = .ok (0, 0) := by
  refine ⟨?_, ?_⟩ <;> decide +kernel

end SweepDesign
