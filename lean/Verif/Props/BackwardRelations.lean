import Verif.Lemmas.Grid
import Verif.Props.Relation
import Verif.Props.Convolution

/-!
# C147: relations whose axes run backwards
-/

set_option linter.unusedSectionVars false

namespace SweepDesign
open Spec

variable {K : Type} [Field K] [LinearOrder K] [IsStrictOrderedRing K] [FloorRing K]
variable {V : Type} [Field V] [Algebra K V] [DecidableEq V] [PyPow V]

/-- the samples of `r` are the grid points `o + k s, o + (k - 1) s, …, o + (k - n) s`, in this order; the sample of the
axis may have either sign -/
def Spec.FallsOn (r : Rel K V) (o s : K) (k : ℤ) (n : ℕ) : Prop :=
  r.x.start = o + k * s ∧ r.x.stop = o + (k - n) * s ∧ |r.x.sample| = s ∧ r.y.length = n + 1

/-! ## Axes between two points of a grid -/

theorem grid_steps (o s σ : K) (hs : 0 < s) (hσ : |σ| = s) (a b : ℤ) :
    (⟨o + a * s, o + b * s, σ⟩ : Axis K).steps = (b - a).natAbs := by
  have : |(o + (b : K) * s - (o + a * s)) / σ| = (((b - a).natAbs : ℕ) : K) := by
    rw [abs_div, hσ, show o + (b : K) * s - (o + a * s) = ((b - a : ℤ) : K) * s by push_cast; ring, abs_mul,
      abs_of_pos hs, mul_div_assoc, div_self hs.ne', mul_one, ← Int.cast_abs, Int.abs_eq_natAbs]
    simp
  simp only [Axis.steps, this, pyRound_natCast, Int.toNat_natCast]

theorem grid_array (o s σ : K) (hs : 0 < s) (hσ : |σ| = s) (a b : ℤ) :
    (⟨o + a * s, o + b * s, σ⟩ : Axis K).array =
      .ok ((List.range ((b - a).natAbs + 1)).map fun i : ℕ => o + ((a + (b - a).sign * i : ℤ) : K) * s) := by
  have h0 : σ ≠ 0 := by rintro rfl; simp at hσ; exact hs.ne hσ
  rw [Axis.array_eq _ h0, grid_steps o s σ hs hσ]
  congr 1
  apply List.ext_getElem
  · simp [linspace_length]
  intro i h1 h2
  rw [linspace_getElem]
  simp only [List.getElem_map, List.getElem_range]
  simp only [List.length_map, List.length_range] at h2
  rcases Nat.eq_zero_or_pos (b - a).natAbs with hn | hn
  · have : i = 0 := by omega
    subst this
    simp
  · have hne : (((b - a).natAbs : ℕ) : K) ≠ 0 := by exact_mod_cast hn.ne'
    have hsg : ((b - a : ℤ) : K) = ((b - a).sign : K) * ((b - a).natAbs : ℕ) := by
      rw [← Int.cast_natCast (R := K), ← Int.cast_mul, Int.sign_mul_natAbs]
    have e : o + (b : K) * s - (o + a * s) = ((b - a : ℤ) : K) * s := by push_cast; ring
    rw [e, hsg, Int.cast_add, Int.cast_mul, Int.cast_natCast]
    generalize (b - a).natAbs = N at hne
    generalize (b - a).sign = S
    simp only [Nat.cast_add, Nat.cast_one, add_sub_cancel_right]
    field_simp
    ring

theorem grid_array' (ax : Axis K) (o s : K) (hs : 0 < s) (a b : ℤ) (h1 : ax.start = o + a * s) (h2 : ax.stop = o + b * s)
    (h3 : |ax.sample| = s) :
    ax.array = .ok ((List.range ((b - a).natAbs + 1)).map fun i : ℕ => o + ((a + (b - a).sign * i : ℤ) : K) * s) := by
  rcases ax with ⟨u, v, w⟩
  simp only at h1 h2 h3
  subst h1 h2
  exact grid_array o s w hs h3 a b

omit [Field V] [Algebra K V] [DecidableEq V] [PyPow V] in
theorem Spec.FallsOn.array {r : Rel K V} {o s : K} {k : ℤ} {n : ℕ} (h : FallsOn r o s k n) (hs : 0 < s) :
    r.x.array = .ok ((List.range (n + 1)).map fun i : ℕ => o + ((k - i : ℤ) : K) * s) := by
  rw [grid_array' r.x o s hs k (k - n) h.1 (by rw [h.2.1]; push_cast; rfl) h.2.2.1]
  have : (k - n - k).natAbs = n := by omega
  rw [this]
  congr 1
  apply List.map_congr_left
  intro i hi
  rw [List.mem_range] at hi
  rcases Nat.eq_zero_or_pos n with h0 | h0
  · have : i = 0 := by omega
    subst this
    simp
  · have : (k - n - k).sign = -1 := Int.sign_eq_neg_one_of_neg (by omega)
    rw [this]
    congr 3
    ring

omit [Field V] [Algebra K V] [DecidableEq V] [PyPow V] in
theorem Spec.FallsOn.getData {r : Rel K V} {o s : K} {k : ℤ} {n : ℕ} (h : FallsOn r o s k n) (hs : 0 < s) :
    r.getData = .ok ((List.range (n + 1)).map (fun i : ℕ => o + ((k - i : ℤ) : K) * s), r.y) :=
  (getData_ok_iff _ _ _).2 ⟨h.array hs, rfl, by simp [h.2.2.2]⟩

omit [Field V] [Algebra K V] [DecidableEq V] [PyPow V] in
theorem Spec.FallsOn.balanced {r : Rel K V} {o s : K} {k : ℤ} {n : ℕ} (h : FallsOn r o s k n) (hs : 0 < s) : Balanced r :=
  (balanced_iff_getData r).2 ⟨_, h.getData hs⟩

theorem falls_interpolant {r : Rel K V} {o s : K} {k : ℤ} {n : ℕ} (h : FallsOn r o s k n) (hs : 0 < s) (j : ℤ) (v : V)
    (hv : IsInterpolant ((List.range (n + 1)).map fun i : ℕ => o + ((k - i : ℤ) : K) * s) r.y (o + j * s) v) :
    v = zext r.y (k - j) := by
  have hl := h.2.2.2
  by_cases hj : j ≤ k ∧ k ≤ j + n
  · obtain ⟨i, hi⟩ := Int.eq_ofNat_of_zero_le (a := k - j) (by omega)
    rw [hi, zext_natCast, getD_lt _ _ _ (by omega)]
    refine hv.sample i (by simp; omega) (by omega) ?_
    have : j = k - i := by omega
    rw [List.getElem_map, List.getElem_range, this]
  · have : v = 0 := by
      apply hv.outside
      rintro ⟨a, ha, b, hb, h1, h2⟩
      simp only [List.mem_map, List.mem_range] at ha hb
      obtain ⟨i, hi, rfl⟩ := ha
      obtain ⟨i', hi', rfl⟩ := hb
      have e1 : ((k - i : ℤ) : K) ≤ j := le_of_mul_le_mul_right (by linarith) hs
      have e2 : (j : K) ≤ ((k - i' : ℤ) : K) := le_of_mul_le_mul_right (by linarith) hs
      have e1' : k - i ≤ j := by exact_mod_cast e1
      have e2' : j ≤ k - i' := by exact_mod_cast e2
      omega
    rw [this]
    by_cases hk : k < j
    · rw [zext_neg _ _ (by omega)]
    · rw [zext_ge _ _ (by rw [hl]; push_cast; omega)]

omit [Field V] [Algebra K V] [DecidableEq V] [PyPow V] in
theorem falls_common {r1 r2 : Rel K V} {o s : K} (hs : 0 < s) {k1 k2 : ℤ} {n1 n2 : ℕ} (h1 : FallsOn r1 o s k1 n1)
    (h2 : FallsOn r2 o s k2 n2) :
    min r1.x.start r2.x.start = o + ((min k1 k2 : ℤ) : K) * s ∧
    max r1.x.stop r2.x.stop = o + ((max (k1 - n1) (k2 - n2) : ℤ) : K) * s ∧ |min r1.x.sample r2.x.sample| = s := by
  have mono : ∀ a b : ℤ, a ≤ b → o + (a : K) * s ≤ o + (b : K) * s := by
    intro a b hab
    have : (a : K) ≤ b := by exact_mod_cast hab
    nlinarith
  refine ⟨?_, ?_, ?_⟩
  · rw [h1.1, h2.1]
    rcases le_total k1 k2 with hh | hh
    · rw [min_eq_left hh, min_eq_left (mono _ _ hh)]
    · rw [min_eq_right hh, min_eq_right (mono _ _ hh)]
  · have p1 : o + ((k1 : K) - n1) * s = o + ((k1 - n1 : ℤ) : K) * s := by push_cast; ring
    have p2 : o + ((k2 : K) - n2) * s = o + ((k2 - n2 : ℤ) : K) * s := by push_cast; ring
    rw [h1.2.1, h2.2.1, p1, p2]
    rcases le_total (k1 - n1 : ℤ) (k2 - n2) with hh | hh
    · rw [max_eq_right hh, max_eq_right (mono _ _ hh)]
    · rw [max_eq_left hh, max_eq_left (mono _ _ hh)]
  · rcases min_choice r1.x.sample r2.x.sample with h | h <;> rw [h]
    exacts [h1.2.2.1, h2.2.2.1]

/-! ## Arithmetic -/

/-- **C147.** Sum, difference and product of two backward relations on one grid: the axis runs from the smaller start to
the larger end, forwards if these are in that order, and the value at each of its points is the one from the values of
the two relations there, with zero outside their axes. -/
theorem C147_operation {r1 r2 : Rel K V} {o s : K} (hs : 0 < s) {k1 k2 : ℤ} {n1 n2 : ℕ} (h1 : FallsOn r1 o s k1 n1)
    (h2 : FallsOn r2 o s k2 n2) (op : MathOp) (hop : op = .add ∨ op = .sub ∨ op = .mul) :
    ∃ q, r1.operation (.rel false r2) op = .ok q ∧ q.x.start = min r1.x.start r2.x.start ∧
      q.x.stop = max r1.x.stop r2.x.stop ∧ q.x.sample = min r1.x.sample r2.x.sample ∧
      q.y.length = (min k1 k2 - max (k1 - n1) (k2 - n2)).natAbs + 1 ∧
      (max (k1 - n1) (k2 - n2) ≤ min k1 k2 → ∀ j (h : j < q.y.length),
        OpResult op (r1.y.getD ((k1 - min k1 k2).toNat + j) 0) (r2.y.getD ((k2 - min k1 k2).toNat + j) 0) q.y[j]) ∧
      (min k1 k2 < max (k1 - n1) (k2 - n2) → ∀ j (h : j < q.y.length),
        OpResult op (zext r1.y (k1 - min k1 k2 - j)) (zext r2.y (k2 - min k1 k2 - j)) q.y[j]) := by
  obtain ⟨c1, -, c3⟩ := C25_different_axes r1 r2 _ _ _ _ (h1.getData hs) (h2.getData hs) op
  obtain ⟨q, hq⟩ := c3 hop
  obtain ⟨e1, e2, e3, xs, e4, e5⟩ := c1 q hq
  obtain ⟨m1, m2, m3⟩ := falls_common hs h1 h2
  obtain ⟨a1, -, a3⟩ := (getData_ok_iff _ _ _).1 e4
  rw [grid_array' q.x o s hs _ _ (by rw [e1, m1]) (by rw [e2, m2]) (by rw [e3, m3]), Except.ok.injEq] at a1
  set a := min k1 k2 with ha
  set b := max (k1 - n1) (k2 - n2) with hb
  have hl : q.y.length = (b - a).natAbs + 1 := by rw [← a3, ← a1]; simp
  have key : ∀ j (h : j < q.y.length), OpResult op (zext r1.y (k1 - (a + (b - a).sign * j)))
      (zext r2.y (k2 - (a + (b - a).sign * j))) q.y[j] := by
    intro j hj
    have hj2 : j < xs.length := by rw [a3]; exact hj
    obtain ⟨v1, v2, w1, w2, w3⟩ := e5 j hj2 hj
    have hxj : xs[j] = o + ((a + (b - a).sign * j : ℤ) : K) * s := by
      simp only [← a1, List.getElem_map, List.getElem_range]
    rw [hxj] at w1 w2
    rw [← falls_interpolant h1 hs _ v1 w1, ← falls_interpolant h2 hs _ v2 w2]
    exact w3
  refine ⟨q, hq, e1, e2, e3, by rw [hl]; omega, fun hle j hj => ?_, fun hlt j hj => ?_⟩
  · have := key j hj
    have hsg : (b - a).sign * (j : ℤ) = -j := by
      rcases hle.lt_or_eq with h | h
      · rw [Int.sign_eq_neg_one_of_neg (by omega)]; ring
      · have : j = 0 := by omega
        subst this; simp
    have t1 : k1 - (a + -(j : ℤ)) = (((k1 - a).toNat + j : ℕ) : ℤ) := by omega
    have t2 : k2 - (a + -(j : ℤ)) = (((k2 - a).toNat + j : ℕ) : ℤ) := by omega
    rw [hsg, t1, t2, zext_natCast, zext_natCast] at this
    exact this
  · have := key j hj
    rw [Int.sign_eq_one_of_pos (by omega), one_mul] at this
    rw [sub_sub, sub_sub]
    exact this

/-- **C147.** If one of the relations lies after the other, of their sum only one sample of each is left: the result runs
forwards over the gap, begins with the first sample of the earlier relation, ends with the last sample of the later one,
and is zero between. Their product is zero. -/
theorem C147_apart {r1 r2 : Rel K V} {o s : K} (hs : 0 < s) {k1 k2 : ℤ} {n1 n2 : ℕ} (h1 : FallsOn r1 o s k1 n1)
    (h2 : FallsOn r2 o s k2 n2) (hap : k2 < k1 - n1) :
    (∃ q, r1.add (.rel false r2) = .ok q ∧ q.x.start = r2.x.start ∧ q.x.stop = r1.x.stop ∧
      q.x.sample = min r1.x.sample r2.x.sample ∧
      q.y = r2.y.getD 0 0 :: (List.replicate (k1 - n1 - k2 - 1).toNat 0 ++ [r1.y.getD n1 0])) ∧
    ∃ q, r1.mul (.rel false r2) = .ok q ∧ ∀ v ∈ q.y, v = 0 := by
  have l1 := h1.2.2.2
  have l2 := h2.2.2.2
  have ha : min k1 k2 = k2 := min_eq_right (by omega)
  have hb : max (k1 - n1) (k2 - n2) = k1 - n1 := max_eq_left (by omega)
  have hm : min r1.x.start r2.x.start = r2.x.start := by
    rw [(falls_common hs h1 h2).1, ha, h2.1]
  have hM : max r1.x.stop r2.x.stop = r1.x.stop := by
    rw [(falls_common hs h1 h2).2.1, hb, h1.2.1]; push_cast; rfl
  constructor
  · obtain ⟨q, e1, e2, e3, e4, e5, -, e7⟩ := C147_operation hs h1 h2 .add (.inl rfl)
    refine ⟨q, e1, by rw [e2, hm], by rw [e3, hM], e4, ?_⟩
    rw [ha, hb] at e5 e7
    apply List.ext_getElem
    · simp; omega
    intro j hj hj'
    have := e7 hap j hj
    simp only [OpResult] at this
    rw [this]
    rcases Nat.eq_zero_or_pos j with h0 | h0
    · subst h0
      rw [zext_ge r1.y _ (by rw [l1]; push_cast; omega)]
      simp [zext]
    · rw [zext_neg r2.y _ (by omega), add_zero]
      obtain ⟨i, rfl⟩ : ∃ i, j = i + 1 := ⟨j - 1, by omega⟩
      rw [List.getElem_cons_succ]
      rcases Nat.lt_or_ge i (k1 - n1 - k2 - 1).toNat with hi | hi
      · rw [List.getElem_append_left (by simpa using hi), List.getElem_replicate,
          zext_ge r1.y _ (by rw [l1]; push_cast; omega)]
      · have : i = (k1 - n1 - k2 - 1).toNat := by omega
        rw [List.getElem_append_right (by simpa using hi)]
        simp only [List.getElem_singleton]
        have t : k1 - k2 - ((i + 1 : ℕ) : ℤ) = (n1 : ℤ) := by omega
        rw [t, zext_natCast]
  · obtain ⟨q, e1, -, -, -, e5, -, e7⟩ := C147_operation hs h1 h2 .mul (.inr (.inr rfl))
    refine ⟨q, e1, fun v hv => ?_⟩
    rw [ha, hb] at e5 e7
    obtain ⟨j, hj, rfl⟩ := List.getElem_of_mem hv
    have := e7 hap j hj
    simp only [OpResult] at this
    rw [this]
    rcases Nat.eq_zero_or_pos j with h0 | h0
    · subst h0
      rw [zext_ge r1.y _ (by rw [l1]; push_cast; omega), zero_mul]
    · rw [zext_neg r2.y _ (by omega), mul_zero]

/-- one overlapping pair and one pair that is apart -/
theorem C147_witness_sum :
    (⟨⟨4, 1, 1⟩, [1, 2, 3, 4]⟩ : Rel ℚ ℚ).add (.rel false ⟨⟨2, 0, -1⟩, [10, 20, 30]⟩) = .ok ⟨⟨2, 1, -1⟩, [13, 24]⟩ ∧
    (⟨⟨7, 5, 1⟩, [1, 2, 3]⟩ : Rel ℚ ℚ).add (.rel false ⟨⟨2, 0, 1⟩, [10, 20, 30]⟩) = .ok ⟨⟨2, 5, 1⟩, [10, 0, 0, 3]⟩ := by
  decide +kernel

example : FallsOn (⟨⟨4, 1, 1⟩, [1, 2, 3, 4]⟩ : Rel ℚ ℚ) 0 1 4 3 ∧ FallsOn (⟨⟨2, 0, -1⟩, [10, 20, 30]⟩ : Rel ℚ ℚ) 0 1 2 2 := by
  simp [FallsOn]; norm_num

/-! ## Convolution and correlation -/

omit [Field V] [Algebra K V] [DecidableEq V] [PyPow V] in
theorem Spec.FallsOn.zeroed {r : Rel K V} {o s : K} {k : ℤ} {n : ℕ} (h : FallsOn r o s k n) : FallsOn r.zeroed 0 s 0 n := by
  refine ⟨by simp [Rel.zeroed], ?_, h.2.2.1, h.2.2.2⟩
  simp only [Rel.zeroed, h.1, h.2.1]
  push_cast; ring

omit [DecidableEq V] [PyPow V] in
theorem falls_cut {r q : Rel K V} {s : K} (hs : 0 < s) {n m : ℕ} (h : FallsOn r 0 s 0 n) (hm : m ≤ n) (ax : Axis K)
    (a1 : ax.start = 0) (a2 : ax.stop = -(m * s)) (a3 : |ax.sample| = s) (hq : r.interpAxis ax = .ok q) :
    q.y = r.y.take (m + 1) := by
  have h0 : ax.sample ≠ 0 := by intro h0; rw [h0] at a3; simp at a3; exact hs.ne a3
  have hl := h.2.2.2
  obtain ⟨q', xs, ys, e1, e2, e3, e4, e5, e6⟩ := interpAxis_spec r _ _ (h.getData hs) ax h0
  rw [hq] at e1
  cases e1
  have hfall : FallsOn (⟨ax, List.replicate (m + 1) 0⟩ : Rel K V) 0 s 0 m := by
    refine ⟨by simp [a1], by rw [a2]; push_cast; ring, a3, by simp⟩
  have hax := hfall.array hs
  simp only at hax
  rw [hax] at e3
  cases e3
  have hlen := ((getData_ok_iff _ _ _).1 e5).2.2
  simp at hlen
  rw [e4]
  apply List.ext_getElem
  · simp; omega
  intro i i1 i2
  have hint := e6 i (by simp; omega) i1
  simp only [List.getElem_map, List.getElem_range] at hint
  have := hint.sample i (by simp; omega) (by omega) (by simp)
  rw [this, List.getElem_take]

omit [DecidableEq V] [PyPow V] in
theorem falls_align {r1 r2 : Rel K V} {o1 o2 s : K} (hs : 0 < s) {k1 k2 : ℤ} {n1 n2 : ℕ} (h1 : FallsOn r1 o1 s k1 n1)
    (h2 : FallsOn r2 o2 s k2 n2) :
    ∃ q1 q2, Rel.alignForConv r1 r2 = .ok (q1, q2, ⟨(min n1 n2 : ℕ) * s, -((min n1 n2 : ℕ) * s), min r1.x.sample r2.x.sample⟩) ∧
      q1.y = r1.y.take (min n1 n2 + 1) ∧ q2.y = r2.y.take (min n1 n2 + 1) ∧
      |min r1.x.sample r2.x.sample| = s := by
  obtain ⟨q1, q2, -, -, hal, -, -, -, x1, x2, i1, i2⟩ := alignForConv_eq r1 r2 (h1.balanced hs) (h2.balanced hs)
  have z1 := h1.zeroed
  have z2 := h2.zeroed
  obtain ⟨m1, m2, m3⟩ := falls_common hs z1 z2
  have hsam : ∀ r : Rel K V, r.zeroed.x.sample = r.x.sample := fun _ => rfl
  rw [hsam, hsam] at m3
  have hM : max (0 - (n1 : ℤ)) (0 - n2) = -((min n1 n2 : ℕ) : ℤ) := by omega
  rw [hM] at m2
  have hc : commonX r1.zeroed.x r2.zeroed.x = ⟨0, -((min n1 n2 : ℕ) * s), min r1.x.sample r2.x.sample⟩ := by
    rw [commonX_eq, m1, m2, hsam, hsam]
    simp
  rw [hc] at hal i1 i2
  refine ⟨q1, q2, by rw [hal]; simp, ?_, ?_, m3⟩
  · exact falls_cut (r := r1.zeroed) hs z1 (min_le_left _ _) _ rfl rfl m3 i1
  · exact falls_cut (r := r2.zeroed) hs z2 (min_le_right _ _) _ rfl rfl m3 i2

theorem falls_size (s σ : K) (hs : 0 < s) (hσ : |σ| = s) (m : ℕ) :
    (⟨(m : K) * s, -((m : K) * s), σ⟩ : Axis K).size = .ok (2 * m + 1) := by
  have h0 : σ ≠ 0 := by rintro rfl; simp at hσ; exact hs.ne hσ
  have : (⟨(m : K) * s, -((m : K) * s), σ⟩ : Axis K) = ⟨0 + ((m : ℤ) : K) * s, 0 + ((-m : ℤ) : K) * s, σ⟩ := by
    simp
  rw [Axis.size_eq _ h0, this, grid_steps 0 s σ hs hσ]
  congr 1
  omega

omit [DecidableEq V] [PyPow V] in
/-- **C147.** Convolving two backward relations with `n1 + 1` and `n2 + 1` samples: both are cut to as many samples as the
shorter one has, from the beginning. The axis of the result runs from `+ m s` down to `- m s`, `m` the smaller of `n1`, `n2`. -/
theorem C147_convolve {r1 r2 : Rel K V} {o1 o2 s : K} (hs : 0 < s) {k1 k2 : ℤ} {n1 n2 : ℕ} (h1 : FallsOn r1 o1 s k1 n1)
    (h2 : FallsOn r2 o2 s k2 n2) :
    ∃ c, r1.convolve r2 = .ok c ∧ c.x.start = min n1 n2 * s ∧ c.x.stop = -(min n1 n2 * s) ∧
      c.x.sample = min r1.x.sample r2.x.sample ∧ c.y.length = 2 * min n1 n2 + 1 ∧
      ∀ k (h : k < c.y.length), c.y[k] = ∑ p ∈ Finset.antidiagonal k,
        if p.1 ≤ min n1 n2 ∧ p.2 ≤ min n1 n2 then r1.y.getD p.1 0 * r2.y.getD p.2 0 else 0 := by
  obtain ⟨q1, q2, hal, y1, y2, hm⟩ := falls_align hs h1 h2
  have l1 := h1.2.2.2
  have l2 := h2.2.2.2
  have hlen : (npConvolve q1.y q2.y).length = 2 * min n1 n2 + 1 := by
    rw [npConvolve_length, y1, y2]; simp; omega
  refine ⟨_, by simp only [Rel.convolve, hal, except_bind_ok]; exact make_ok (by rw [falls_size s _ hs hm, hlen]),
    by simp, by simp, rfl, hlen, ?_⟩
  intro k h
  simp only
  rw [npConvolve_getElem, y1, y2]
  apply Finset.sum_congr rfl
  intro p _
  have tk : ∀ (y : List V) (n i : ℕ), (y.take n).getD i 0 = if i < n then y.getD i 0 else 0 := by
    intro y n i
    rw [List.getD_eq_getElem?_getD, List.getElem?_take, List.getD_eq_getElem?_getD]
    split_ifs <;> simp
  rw [tk, tk]
  simp only [Nat.lt_succ_iff]
  by_cases a : p.1 ≤ min n1 n2 <;> by_cases b : p.2 ≤ min n1 n2 <;> simp only [a, b, and_self, and_true, and_false, if_true, if_false, mul_zero, zero_mul]

omit [DecidableEq V] [PyPow V] in
/-- **C147.** The same for correlation: sample `m + j` compares the second relation with the first one `j` samples later. -/
theorem C147_correlate [StarRing V] {r1 r2 : Rel K V} {o1 o2 s : K} (hs : 0 < s) {k1 k2 : ℤ} {n1 n2 : ℕ}
    (h1 : FallsOn r1 o1 s k1 n1) (h2 : FallsOn r2 o2 s k2 n2) :
    ∃ c, r1.correlate r2 = .ok c ∧ c.x.start = min n1 n2 * s ∧ c.x.stop = -(min n1 n2 * s) ∧
      c.x.sample = min r1.x.sample r2.x.sample ∧ c.y.length = 2 * min n1 n2 + 1 ∧
      ∀ j (h : j < c.y.length), c.y[j] = ∑ i ∈ Finset.range (min n1 n2 + 1),
        zext (r1.y.take (min n1 n2 + 1)) (i + ((j : ℤ) - min n1 n2)) * star (r2.y.getD i 0) := by
  obtain ⟨q1, q2, hal, y1, y2, hm⟩ := falls_align hs h1 h2
  have l1 := h1.2.2.2
  have l2 := h2.2.2.2
  have hlen : (npCorrelate q1.y q2.y).length = 2 * min n1 n2 + 1 := by
    simp only [npCorrelate]
    rw [npConvolve_length, y1, y2]; simp; omega
  refine ⟨_, by simp only [Rel.correlate, hal, except_bind_ok]; exact make_ok (by rw [falls_size s _ hs hm, hlen]),
    by simp, by simp, rfl, hlen, ?_⟩
  intro j h
  simp only
  have hl2 : q2.y.length = min n1 n2 + 1 := by rw [y2]; simp; omega
  rw [npCorrelate_getElem _ _ (by intro h0; rw [h0] at hl2; simp at hl2)]
  rw [hl2, y1]
  apply Finset.sum_congr rfl
  intro i hi
  rw [Finset.mem_range] at hi
  have e : (i : ℤ) + j - (((min n1 n2 + 1 : ℕ) : ℤ) - 1) = i + ((j : ℤ) - min n1 n2) := by push_cast; ring
  have g : q2.y.getD i 0 = r2.y.getD i 0 := by
    rw [y2, List.getD_eq_getElem?_getD, List.getElem?_take, if_pos hi, List.getD_eq_getElem?_getD]
  rw [g, e]

/-- the third sample of the longer relation is not used -/
theorem C147_witness_convolve :
    (⟨⟨3, 1, 1⟩, [1, 2, 3]⟩ : Rel ℚ ℚ).convolve ⟨⟨1, 0, 1⟩, [4, 5]⟩ = .ok ⟨⟨1, -1, 1⟩, [4, 13, 10]⟩ := by
  decide +kernel

/-! ## select_data -/

/-- **C147.** `select_data` on a backward axis: the bounds that are left out are the start and the end of the axis, which
here are in the wrong order. Without any bound it raises IndexError; with one bound it returns at most one sample, the last
or the first one, and raises IndexError if the bound excludes that too. With both bounds it works as on any axis (C10). -/
theorem C147_select {r : Rel K V} {o s : K} (hs : 0 < s) {k : ℤ} {n : ℕ} (h : FallsOn r o s k n) (hn : 0 < n) (c : K) :
    r.selectData none none = .error .index ∧
    (r.x.stop < c → r.selectData (some c) none = .error .index) ∧
    (c ≤ r.x.stop → ∃ q, r.selectData (some c) none = .ok q ∧ q.getData = .ok ([r.x.stop], [r.y.getD n 0])) ∧
    (c < r.x.start → r.selectData none (some c) = .error .index) ∧
    (r.x.start ≤ c → ∃ q, r.selectData none (some c) = .ok q ∧ q.getData = .ok ([r.x.start], [r.y.getD 0 0])) := by
  have hd := h.getData hs
  have hl := h.2.2.2
  have hlt : ∀ i j : ℤ, o + (i : K) * s ≤ o + (j : K) * s ↔ i ≤ j := by
    intro i j
    rw [add_le_add_iff_left, mul_le_mul_iff_of_pos_right hs]
    exact Int.cast_le
  have hst : r.x.start = o + ((k : ℤ) : K) * s := h.1
  have hsp : r.x.stop = o + ((k - n : ℤ) : K) * s := by rw [h.2.1]; push_cast; rfl
  have hzip : ((List.range (n + 1)).map fun i : ℕ => o + ((k - i : ℤ) : K) * s).zip r.y =
      (List.range (n + 1)).map fun i : ℕ => (o + ((k - i : ℤ) : K) * s, r.y.getD i 0) := by
    apply List.ext_getElem
    · simp; omega
    intro i a b
    simp at a b
    simp [List.getElem_zip, List.getD_eq_getElem?_getD, List.getElem?_eq_getElem (show i < r.y.length by omega)]
  have hfil : ∀ p : K × V → Bool, (∀ i : ℕ, i ≤ n → p (o + ((k - i : ℤ) : K) * s, r.y.getD i 0) = false) →
      (((List.range (n + 1)).map fun i : ℕ => o + ((k - i : ℤ) : K) * s).zip r.y).filter p = [] := by
    intro p hp
    rw [hzip, List.filter_eq_nil_iff]
    intro x hx
    simp only [List.mem_map, List.mem_range] at hx
    obtain ⟨i, hi, rfl⟩ := hx
    rw [hp i (by omega)]
    simp
  have h1 : (((List.range (n + 1)).map fun i : ℕ => o + ((k - i : ℤ) : K) * s).zip r.y) =
      (o + (k : K) * s, r.y.getD 0 0) ::
        (List.range n).map fun i : ℕ => (o + ((k - (i + 1 : ℕ) : ℤ) : K) * s, r.y.getD (i + 1) 0) := by
    rw [hzip, List.range_succ_eq_map]
    simp [Function.comp_def]
  have h2 : (((List.range (n + 1)).map fun i : ℕ => o + ((k - i : ℤ) : K) * s).zip r.y) =
      ((List.range n).map fun i : ℕ => (o + ((k - i : ℤ) : K) * s, r.y.getD i 0)) ++
        [(o + ((k - n : ℤ) : K) * s, r.y.getD n 0)] := by
    rw [hzip, List.range_succ]
    simp
  refine ⟨?_, ?_, ?_, ?_, ?_⟩
  · refine (C10_select_window r _ _ hd none none).1 (hfil _ fun i hi => ?_)
    simp only [Option.getD_none, hst, hsp, hlt]
    simp; omega
  · intro hc
    refine (C10_select_window r _ _ hd (some c) none).1 (hfil _ fun i hi => ?_)
    simp only [Option.getD_some, Option.getD_none, decide_eq_false_iff_not, not_and]
    intro a b
    exact absurd (lt_of_lt_of_le hc a) (not_lt.2 b)
  · intro hc
    have hw : (((List.range (n + 1)).map fun i : ℕ => o + ((k - i : ℤ) : K) * s).zip r.y).filter
        (fun p => decide (c ≤ p.1 ∧ p.1 ≤ r.x.stop)) = [(r.x.stop, r.y.getD n 0)] := by
      rw [h2, List.filter_append, List.filter_eq_nil_iff.2, List.nil_append]
      · rw [← hsp]; simp [hc]
      · intro x hx
        simp only [List.mem_map, List.mem_range] at hx
        obtain ⟨i, hi, rfl⟩ := hx
        rw [hsp]
        simp only [decide_eq_true_eq, not_and, hlt]
        intro _; omega
    obtain ⟨q, a, -, b⟩ := (C10_select_window r _ _ hd (some c) none).2
      (by simp only [Option.getD_some, Option.getD_none]; rw [hw]; simp)
    refine ⟨q, a, ?_⟩
    simp only [Option.getD_some, Option.getD_none] at b
    rw [b, hw]
    simp
  · intro hc
    refine (C10_select_window r _ _ hd none (some c)).1 (hfil _ fun i hi => ?_)
    simp only [Option.getD_some, Option.getD_none, decide_eq_false_iff_not, not_and]
    intro a b
    exact absurd (lt_of_le_of_lt b hc) (not_lt.2 a)
  · intro hc
    have hw : (((List.range (n + 1)).map fun i : ℕ => o + ((k - i : ℤ) : K) * s).zip r.y).filter
        (fun p => decide (r.x.start ≤ p.1 ∧ p.1 ≤ c)) = [(r.x.start, r.y.getD 0 0)] := by
      rw [h1, List.filter_cons, if_pos (by rw [← h.1]; simp [hc]), List.filter_eq_nil_iff.2]
      · rw [h.1]
      · intro x hx
        simp only [List.mem_map, List.mem_range] at hx
        obtain ⟨i, hi, rfl⟩ := hx
        rw [hst]
        simp only [decide_eq_true_eq, not_and_or, hlt]
        left; omega
    obtain ⟨q, a, -, b⟩ := (C10_select_window r _ _ hd none (some c)).2
      (by simp only [Option.getD_some, Option.getD_none]; rw [hw]; simp)
    refine ⟨q, a, ?_⟩
    simp only [Option.getD_some, Option.getD_none] at b
    rw [b, hw]
    simp

/-- the same samples on a forward axis are returned by `select_data()` -/
theorem C147_witness_select :
    (⟨⟨2, 0, 1⟩, [1, 2, 3]⟩ : Rel ℚ ℚ).selectData none none = .error .index ∧
    ((⟨⟨2, 0, 1⟩, [1, 2, 3]⟩ : Rel ℚ ℚ).selectData (some 0) none).bind (·.getData) = .ok ([0], [3]) ∧
    ((⟨⟨2, 0, 1⟩, [1, 2, 3]⟩ : Rel ℚ ℚ).selectData (some 0) (some 2)).bind (·.getData) = .ok ([2, 1, 0], [1, 2, 3]) := by
  decide +kernel

end SweepDesign
