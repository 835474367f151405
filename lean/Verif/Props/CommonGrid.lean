import Verif.Lemmas.Grid

/-!
# Arithmetic of relations on one grid (C116)

Relations whose samples lie on one grid but cover different stretches of it: the laws of addition and multiplication hold
exactly, as equalities of relations with their axes. On different grids they fail (witnesses below).
-/

set_option linter.unusedSectionVars false

namespace SweepDesign

open Spec

section
variable {K : Type} [Field K] [LinearOrder K] [IsStrictOrderedRing K] [FloorRing K]
variable {V : Type} [Field V] [Algebra K V] [DecidableEq V] [PyPow V]

theorem grid_ext {p q : Rel K V} {o s : K} {k k' : ℤ} {n n' : ℕ} (hp : OnGrid p o s k n) (hq : OnGrid q o s k' n')
    (hk : k = k') (hn : n = n') (h : ∀ j : ℤ, zext p.y (j - k) = zext q.y (j - k')) : p = q := by
  subst hk hn
  refine Rel.ext' (hp.1.trans hq.1.symm) ?_
  apply List.ext_getElem (hp.2.trans hq.2.symm)
  intro i h1 h2
  have := h (k + i)
  rw [add_sub_cancel_left, zext_natCast, zext_natCast, getD_lt _ _ _ h1, getD_lt _ _ _ h2] at this
  exact this

theorem grid_sub {r1 r2 : Rel K V} {o s : K} (hs : 0 < s) {k1 k2 : ℤ} {n1 n2 : ℕ} (h1 : OnGrid r1 o s k1 n1)
    (h2 : OnGrid r2 o s k2 n2) :
    ∃ q, r1.sub (.rel false r2) = .ok q ∧
      OnGrid q o s (min k1 k2) (max (k1 + n1) (k2 + n2) - min k1 k2).toNat ∧
      ∀ j : ℤ, zext q.y (j - min k1 k2) = zext r1.y (j - k1) - zext r2.y (j - k2) :=
  grid_operation hs h1 h2 .sub (.inr (.inl rfl))

/-- interpolation of a relation on a grid to another stretch of the grid -/
theorem grid_interp {r : Rel K V} {o s : K} (hs : 0 < s) {k k' : ℤ} {n n' : ℕ} (h : OnGrid r o s k n) :
    ∃ q, r.interpolateExtrapolate (.axis ⟨o + k' * s, o + (k' + n') * s, s⟩) = .ok q ∧ OnGrid q o s k' n' ∧
      ∀ i, i ≤ n' → zext q.y i = zext r.y (k' + i - k) := by
  have g : r.getData = .ok (_, r.y) := (getData_ok_iff _ _ _).2 ⟨h.array hs, rfl, by simp [h.2]⟩
  obtain ⟨q, xs, ys, e1, e2, e3, e4, e5, e6⟩ := interpAxis_spec r _ _ g ⟨o + k' * s, o + (k' + n') * s, s⟩ hs.ne'
  subst e4
  have hxs : xs = (List.range (n' + 1)).map fun i : ℕ => o + (k' + i) * s := by
    have := array_whole (⟨o + k' * s, o + (k' + n') * s, s⟩ : Axis K) n' hs (by simp; ring)
    rw [e3, Except.ok.injEq] at this
    rw [this]
    apply List.map_congr_left
    intro i _
    simp only
    ring
  have hlq := ((getData_ok_iff _ _ _).1 e5).2.2
  have hl : q.y.length = n' + 1 := by rw [← hlq, hxs]; simp
  refine ⟨q, e1, ⟨e2, hl⟩, fun i hi => ?_⟩
  have hi1 : i < q.y.length := by omega
  have hi2 : i < xs.length := by omega
  rw [zext_natCast, getD_lt _ _ _ hi1]
  have := e6 i hi2 hi1
  have hx : xs[i] = o + ((k' + i : ℤ) : K) * s := by
    simp only [hxs, List.getElem_map, List.getElem_range]
    push_cast; ring
  rw [hx] at this
  exact grid_interpolant h hs _ _ this

/-- **C116** The laws of addition and multiplication for three relations on one grid, each on its own stretch of it. -/
theorem C116_laws (a b c : Rel K V) (o s : K) (hs : 0 < s) (ka kb kc : ℤ) (na nb nc : ℕ) (ha : OnGrid a o s ka na)
    (hb : OnGrid b o s kb nb) (hc : OnGrid c o s kc nc) :
    (∃ q, a.add (.rel false b) = .ok q ∧ b.add (.rel false a) = .ok q) ∧
    (∃ q, a.mul (.rel false b) = .ok q ∧ b.mul (.rel false a) = .ok q) ∧
    (∃ p q r, a.add (.rel false b) = .ok p ∧ b.add (.rel false c) = .ok q ∧
      p.add (.rel false c) = .ok r ∧ a.add (.rel false q) = .ok r) ∧
    (∃ p q r, a.mul (.rel false b) = .ok p ∧ b.mul (.rel false c) = .ok q ∧
      p.mul (.rel false c) = .ok r ∧ a.mul (.rel false q) = .ok r) ∧
    (∃ p q q' r, b.add (.rel false c) = .ok p ∧ a.mul (.rel false b) = .ok q ∧ a.mul (.rel false c) = .ok q' ∧
      a.mul (.rel false p) = .ok r ∧ q.add (.rel false q') = .ok r) := by
  obtain ⟨ab, e1, f1, g1⟩ := grid_add hs ha hb
  obtain ⟨ba, e2, f2, g2⟩ := grid_add hs hb ha
  obtain ⟨bc, e3, f3, g3⟩ := grid_add hs hb hc
  obtain ⟨mab, e4, f4, g4⟩ := grid_mul hs ha hb
  obtain ⟨mba, e5, f5, g5⟩ := grid_mul hs hb ha
  obtain ⟨mbc, e6, f6, g6⟩ := grid_mul hs hb hc
  obtain ⟨mac, e7, f7, g7⟩ := grid_mul hs ha hc
  obtain ⟨x1, u1, v1, w1⟩ := grid_add hs f1 hc
  obtain ⟨x2, u2, v2, w2⟩ := grid_add hs ha f3
  obtain ⟨x3, u3, v3, w3⟩ := grid_mul hs f4 hc
  obtain ⟨x4, u4, v4, w4⟩ := grid_mul hs ha f6
  obtain ⟨x5, u5, v5, w5⟩ := grid_mul hs ha f3
  obtain ⟨x6, u6, v6, w6⟩ := grid_add hs f4 f7
  refine ⟨⟨ab, e1, ?_⟩, ⟨mab, e4, ?_⟩, ⟨ab, bc, x1, e1, e3, u1, ?_⟩, ⟨mab, mbc, x3, e4, e6, u3, ?_⟩,
    ⟨bc, mab, mac, x5, e3, e4, e7, u5, ?_⟩⟩
  · rw [e2, Except.ok.injEq]
    refine grid_ext f2 f1 (by omega) (by omega) fun j => ?_
    rw [g1, g2, add_comm]
  · rw [e5, Except.ok.injEq]
    refine grid_ext f5 f4 (by omega) (by omega) fun j => ?_
    rw [g4, g5, mul_comm]
  · rw [u2, Except.ok.injEq]
    refine grid_ext v2 v1 (by omega) (by omega) fun j => ?_
    rw [w1, w2, g1, g3, add_assoc]
  · rw [u4, Except.ok.injEq]
    refine grid_ext v4 v3 (by omega) (by omega) fun j => ?_
    rw [w3, w4, g4, g6, mul_assoc]
  · rw [u6, Except.ok.injEq]
    refine grid_ext v6 v5 (by omega) (by omega) fun j => ?_
    rw [w5, w6, g3, g4, g7, mul_add]

/-- **C116** Subtracting what was added leaves the first relation, continued by zeros over the stretch of both; the
difference is the sum with the negated relation. -/
theorem C116_sub (a b : Rel K V) (o s : K) (hs : 0 < s) (ka kb : ℤ) (na nb : ℕ) (ha : OnGrid a o s ka na)
    (hb : OnGrid b o s kb nb) :
    (∃ p q, a.add (.rel false b) = .ok p ∧ p.sub (.rel false b) = .ok q ∧
      a.interpolateExtrapolate (.axis p.x) = .ok q ∧ q.interpolateExtrapolate (.axis a.x) = .ok a) ∧
    (∃ m q, b.mul (.other (.num (-1))) = .ok m ∧ a.sub (.rel false b) = .ok q ∧ a.add (.rel false m) = .ok q) := by
  obtain ⟨p, e1, f1, g1⟩ := grid_add hs ha hb
  obtain ⟨q, e2, f2, g2⟩ := grid_sub hs f1 hb
  obtain ⟨m, e3, f3, g3⟩ := grid_mul_num hs hb (-1)
  obtain ⟨d, e4, f4, g4⟩ := grid_sub hs ha hb
  obtain ⟨d', e5, f5, g5⟩ := grid_add hs ha f3
  obtain ⟨i, e6, f6, g6⟩ := grid_interp (k' := min ka kb) (n' := (max (ka + na) (kb + nb) - min ka kb).toNat) hs ha
  obtain ⟨i', e7, f7, g7⟩ := grid_interp (k' := ka) (n' := na) hs f2
  refine ⟨⟨p, q, e1, e2, ?_, ?_⟩, ⟨m, d, e3, e4, ?_⟩⟩
  · rw [f1.1, e6, Except.ok.injEq]
    refine grid_ext f6 f2 (by omega) (by omega) fun j => ?_
    rw [g2, g1, add_sub_cancel_right]
    have hl := f6.2
    have hla := ha.2
    by_cases hj : min ka kb ≤ j ∧ j ≤ max (ka + na) (kb + nb)
    · obtain ⟨t, ht⟩ := Int.eq_ofNat_of_zero_le (a := j - min ka kb) (by omega)
      have := g6 t (by omega)
      rw [ht, this]
      congr 1
      omega
    · rcases lt_or_ge j (min ka kb) with h | h
      · rw [zext_neg _ _ (by omega), zext_neg _ _ (by omega)]
      · rw [zext_ge _ _ (by rw [hl]; push_cast; omega), zext_ge _ _ (by rw [hla]; push_cast; omega)]
  · rw [ha.1, e7, Except.ok.injEq]
    refine grid_ext f7 ha rfl rfl fun j => ?_
    have hl := f7.2
    have hla := ha.2
    by_cases hj : ka ≤ j ∧ j ≤ ka + na
    · obtain ⟨t, ht⟩ := Int.eq_ofNat_of_zero_le (a := j - ka) (by omega)
      have h1 := g7 t (by omega)
      rw [ht, h1, g2, g1, add_sub_cancel_right]
      congr 1
      omega
    · rcases lt_or_ge j ka with h | h
      · rw [zext_neg _ _ (by omega), zext_neg _ _ (by omega)]
      · rw [zext_ge _ _ (by rw [hl]; push_cast; omega), zext_ge _ _ (by rw [hla]; push_cast; omega)]
  · rw [e5, Except.ok.injEq]
    refine grid_ext f5 f4 rfl rfl fun j => ?_
    rw [g4, g5, g3, zext_map]
    ring

/-- **C116** Relations on stretches of one grid that do not overlap have a product that is zero everywhere. -/
theorem C116_disjoint (a b : Rel K V) (o s : K) (hs : 0 < s) (ka kb : ℤ) (na nb : ℕ) (ha : OnGrid a o s ka na)
    (hb : OnGrid b o s kb nb) (hd : ka + na < kb) :
    ∃ q, a.mul (.rel false b) = .ok q ∧ q.x.start = a.x.start ∧ q.x.stop = b.x.stop ∧ ∀ v ∈ q.y, v = 0 := by
  obtain ⟨q, e, f, g⟩ := grid_mul hs ha hb
  refine ⟨q, e, ?_, ?_, ?_⟩
  · rw [f.1, ha.1, min_eq_left (by omega)]
  · rw [f.1, hb.1, min_eq_left (by omega)]
    have : (((max (ka + na) (kb + nb) - ka).toNat : ℕ) : ℤ) = kb + nb - ka := by omega
    have h' : ((((max (ka + na) (kb + nb) - ka).toNat : ℕ) : ℤ) : K) = ((kb + nb - ka : ℤ) : K) := by rw [this]
    rw [Int.cast_natCast] at h'
    rw [h']
    push_cast
    ring
  · intro v hv
    obtain ⟨i, hi, rfl⟩ := List.getElem_of_mem hv
    have := g (min ka kb + i)
    have hla := ha.2
    rw [add_sub_cancel_left, zext_natCast, getD_lt _ _ _ hi] at this
    rw [this]
    rcases lt_or_ge (ka + na) (min ka kb + i) with h | h
    · rw [zext_ge a.y _ (by rw [hla]; push_cast; omega), zero_mul]
    · rw [zext_neg b.y _ (by omega), mul_zero]

end

example : OnGrid (⟨⟨0, 1, 1⟩, [1, 3]⟩ : Rel ℚ ℚ) 0 1 0 1 ∧ OnGrid (⟨⟨1, 3, 1⟩, [4, 6, 7]⟩ : Rel ℚ ℚ) 0 1 1 2 ∧
    OnGrid (⟨⟨-2, -1, 1⟩, [5, 8]⟩ : Rel ℚ ℚ) 0 1 (-2) 1 := by
  refine ⟨⟨?_, rfl⟩, ⟨?_, rfl⟩, ⟨?_, rfl⟩⟩ <;> norm_num
example : (⟨⟨0, 1, 1⟩, [1, 3]⟩ : Rel ℚ ℚ).add (.rel false ⟨⟨1, 3, 1⟩, [4, 6, 7]⟩) = .ok ⟨⟨0, 3, 1⟩, [1, 7, 6, 7]⟩ ∧
    (⟨⟨0, 3, 1⟩, [1, 7, 6, 7]⟩ : Rel ℚ ℚ).add (.rel false ⟨⟨-2, -1, 1⟩, [5, 8]⟩) =
      .ok ⟨⟨-2, 3, 1⟩, [5, 8, 1, 7, 6, 7]⟩ := by decide +kernel
example : (⟨⟨-2, -1, 1⟩, [5, 8]⟩ : Rel ℚ ℚ).mul (.rel false ⟨⟨1, 3, 1⟩, [4, 6, 7]⟩) =
    .ok ⟨⟨-2, 3, 1⟩, [0, 0, 0, 0, 0, 0]⟩ := by decide +kernel

/-- **C116** Not on different grids: with steps 1, 1 (half a step apart) and 1/2, the order of additions matters. -/
theorem C116_different_grids :
    ((⟨⟨0, 2, 1⟩, [0, 0, 0]⟩ : Rel ℚ ℚ).add (.rel false ⟨⟨1 / 2, 3 / 2, 1⟩, [4, 6]⟩) >>= fun p =>
      p.add (.rel false ⟨⟨0, 2, 1 / 2⟩, [0, 0, 0, 0, 0]⟩)) = .ok ⟨⟨0, 2, 1 / 2⟩, [0, 5 / 2, 5, 5 / 2, 0]⟩ ∧
    ((⟨⟨1 / 2, 3 / 2, 1⟩, [4, 6]⟩ : Rel ℚ ℚ).add (.rel false ⟨⟨0, 2, 1 / 2⟩, [0, 0, 0, 0, 0]⟩) >>= fun q =>
      (⟨⟨0, 2, 1⟩, [0, 0, 0]⟩ : Rel ℚ ℚ).add (.rel false q)) = .ok ⟨⟨0, 2, 1 / 2⟩, [0, 4, 5, 6, 0]⟩ := by decide +kernel

end SweepDesign
