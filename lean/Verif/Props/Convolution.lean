import Verif.Lemmas.Conv
import Verif.Props.Arithmetic

/-!
# C28–C30: convolution and correlation of relations
-/

set_option linter.unusedSectionVars false

namespace SweepDesign
open Spec

variable {K : Type} [Field K] [LinearOrder K] [IsStrictOrderedRing K] [FloorRing K]
variable {V : Type} [Field V] [Algebra K V]

/-- **C28.** Axes spanning `k1`, `k2` whole samples: convolution succeeds, lives on `[-E, E]`, and value `k` is the sum
of `y1[i] * y2[j]` over `i + j = k`, entries past the end of the shorter operand counting as zero. -/
theorem C28_values (r1 r2 : Rel K V) (h1 : Balanced r1) (h2 : Balanced r2) (k1 k2 : ℕ) (s : K) (hs : 0 < s)
    (s1 : r1.x.sample = s) (s2 : r2.x.sample = s) (d1 : r1.x.stop - r1.x.start = k1 * s)
    (d2 : r2.x.stop - r2.x.start = k2 * s) :
    ∃ c, r1.convolve r2 = .ok c ∧ c.x.start = -(max k1 k2 * s) ∧ c.x.stop = max k1 k2 * s ∧ c.x.sample = s ∧
      c.y.length = 2 * max k1 k2 + 1 ∧
      ∀ k (h : k < c.y.length), c.y[k] = ∑ p ∈ Finset.antidiagonal k, r1.y.getD p.1 0 * r2.y.getD p.2 0 := by
  obtain ⟨q1, q2, -, -, hal, -, b1, b2, x1, x2, i1, i2⟩ := alignForConv_eq r1 r2 h1 h2
  have hz1 : r1.zeroed = ⟨⟨0, k1 * s, s⟩, r1.y⟩ := by simp [Rel.zeroed, d1, s1]
  have hz2 : r2.zeroed = ⟨⟨0, k2 * s, s⟩, r2.y⟩ := by simp [Rel.zeroed, d2, s2]
  have hc : commonX r1.zeroed.x r2.zeroed.x = ⟨0, (max k1 k2 : ℕ) * s, s⟩ := by
    rw [hz1, hz2, commonX_eq]
    simp [max_mul_of_nonneg _ _ hs.le]
  have hlen : ∀ (r : Rel K V) (k : ℕ), Balanced r → r.x.sample = s → r.x.stop - r.x.start = k * s →
      r.y.length = k + 1 := by
    intro r k hb e1 e2
    rw [((balanced_iff r).1 hb).2]
    have : |(r.x.stop - r.x.start) / r.x.sample| = (k : K) := by
      rw [e1, e2, mul_div_assoc, div_self hs.ne', mul_one, Nat.abs_cast]
    simp only [Axis.steps, this, pyRound_natCast, Int.toNat_natCast]
  have l1 := hlen r1 k1 h1 s1 d1
  have l2 := hlen r2 k2 h2 s2 d2
  rw [hc] at i1 i2 hal
  rw [hz1] at i1
  rw [hz2] at i2
  obtain ⟨-, y1⟩ := interp_padded r1.y k1 (max k1 k2) s hs (le_max_left _ _) l1 q1 i1
  obtain ⟨-, y2⟩ := interp_padded r2.y k2 (max k1 k2) s hs (le_max_right _ _) l2 q2 i2
  have hsz : Axis.size (⟨-((max k1 k2 : ℕ) * s), (max k1 k2 : ℕ) * s, s⟩ : Axis K) =
      .ok (npConvolve q1.y q2.y).length := by
    rw [Axis.size_eq _ (by exact hs.ne'), npConvolve_length, y1, y2]
    have : |(((max k1 k2 : ℕ) : K) * s - -((max k1 k2 : ℕ) * s)) / s| = ((2 * max k1 k2 : ℕ) : K) := by
      rw [sub_neg_eq_add, ← two_mul, ← mul_assoc, mul_div_assoc, div_self hs.ne', mul_one, ← Nat.cast_ofNat,
        ← Nat.cast_mul, Nat.abs_cast]
    simp only [Axis.steps, this, pyRound_natCast, Int.toNat_natCast, List.length_map, List.length_range]
    congr 1
    omega
  refine ⟨_, by simp only [Rel.convolve, hal, except_bind_ok]; exact make_ok hsz, by simp, by simp, rfl, ?_, ?_⟩
  · rw [npConvolve_length, y1, y2]
    simp
    omega
  · intro k h
    simp only
    rw [npConvolve_getElem, y1, y2]
    apply Finset.sum_congr rfl
    intro p _
    rw [getD_padded _ _ _ (by omega), getD_padded _ _ _ (by omega)]

example : (⟨⟨1, 3, 1⟩, [1, 2, 3]⟩ : Rel ℚ ℚ).convolve ⟨⟨0, 1, 1⟩, [4, 5]⟩ =
    .ok ⟨⟨-2, 2, 1⟩, [4, 13, 22, 15, 0]⟩ := by decide +kernel

/-- **C28.** Arbitrary axes: whenever the convolution succeeds it is the discrete convolution of the operands after
`shift` to zero and `equalize` (whose results C27, C22 and C20 describe). -/
theorem C28_general (r1 r2 c : Rel K V) (h1 : Balanced r1) (h2 : Balanced r2) (hc : r1.convolve r2 = .ok c) :
    ∃ p1 p2 e1 e2, r1.shift (-r1.x.start) = .ok p1 ∧ r2.shift (-r2.x.start) = .ok p2 ∧
      Rel.equalize false p1 p2 = .ok (e1, e2) ∧
      c.x.start = -e1.x.stop ∧ c.x.stop = e1.x.stop ∧ c.x.sample = e1.x.sample ∧
      c.y.length = e1.y.length + e2.y.length - 1 ∧
      ∀ k (h : k < c.y.length), c.y[k] = ∑ p ∈ Finset.antidiagonal k, e1.y.getD p.1 0 * e2.y.getD p.2 0 := by
  obtain ⟨q1, q2, he, -, hal, -, b1, b2, x1, x2, i1, i2⟩ := alignForConv_eq r1 r2 h1 h2
  simp only [Rel.convolve, hal, except_bind_ok] at hc
  obtain ⟨-, rfl⟩ := (make_ok_iff _ _ _).1 hc
  refine ⟨_, _, q1, q2, shift_neg_start r1 h1, shift_neg_start r2 h2, he, by rw [x1], by rw [x1], by rw [x1],
    npConvolve_length _ _, ?_⟩
  intro k h
  exact npConvolve_getElem _ _ _ _

/-- **C28.** Convolution is commutative, on any axes, including its failures. -/
theorem C28_commutative (r1 r2 : Rel K V) (h1 : Balanced r1) (h2 : Balanced r2) :
    r1.convolve r2 = r2.convolve r1 := by
  obtain ⟨q1, q2, -, -, a1, a2, -⟩ := alignForConv_eq r1 r2 h1 h2
  simp only [Rel.convolve, a1, a2, except_bind_ok]
  rw [npConvolve_comm]

/-- **C28.** Convolution is linear in the first operand (hence, being commutative, bilinear), on any axes. -/
theorem C28_linear [DecidableEq V] [PyPow V] (same : Bool) (r1 r2 m s p : Rel K V) (c : V) (h1 : Balanced r1)
    (h2 : Balanced r2) (hp : Balanced p) (hx : r1.x = r2.x) (hm : r1.rmul (.other (.num c)) = .ok m)
    (hs : m.add (.rel same r2) = .ok s) :
    (∀ e, s.convolve p = .error e ↔ r1.convolve p = .error e) ∧
    ∀ q1 q2, r1.convolve p = .ok q1 → r2.convolve p = .ok q2 →
      ∃ q, s.convolve p = .ok q ∧ q.x = q1.x ∧ q.x = q2.x ∧ q.y = List.zipWith (fun a b => c * a + b) q1.y q2.y := by
  obtain rfl : m = ⟨r1.x, r1.y.map fun a => c * a⟩ := by
    have := (C23_with_number r1 h1 c).2.2.2.2.2.1
    rw [hm] at this; simpa using this
  have hl := balanced_length_eq h1 h2 hx
  have hse := (op_closed same _ r2 (balanced_map (fun a => c * a) h1) h2 hx).1
  rw [hs] at hse
  simp only [Except.ok.injEq] at hse
  have hsy : s = ⟨r1.x, List.zipWith (fun a b => c * a + b) r1.y r2.y⟩ := by
    rw [hse]
    congr 1
    apply List.ext_getElem (by simp)
    intro i a b
    simp
  have hsb : Balanced s := by
    rw [hsy]; exact balanced_zipWith _ h1 h2 hx
  have hz : s.zeroed.x = r1.zeroed.x := by rw [hsy]; rfl
  have hz2 : r2.zeroed.x = r1.zeroed.x := by simp only [Rel.zeroed, hx]
  obtain ⟨q1, e1, -, -, a1, -, b1, be1, x1, xe1, i1, ie1⟩ := alignForConv_eq r1 p h1 hp
  obtain ⟨q2, e2, -, -, a2, -, b2, be2, x2, xe2, i2, ie2⟩ := alignForConv_eq r2 p h2 hp
  obtain ⟨q3, e3, -, -, a3, -, b3, be3, x3, xe3, i3, ie3⟩ := alignForConv_eq s p hsb hp
  rw [hz] at i3 ie3 x3 a3 xe3
  rw [hz2] at i2 ie2 x2 a2 xe2
  rw [ie1] at ie2 ie3
  simp only [Except.ok.injEq] at ie2 ie3
  subst ie2; subst ie3
  have hsz : (commonX r1.zeroed.x p.zeroed.x).sample ≠ 0 :=
    sample_min_ne_zero ((balanced_iff _).1 (zeroed_balanced _ h1)).1 ((balanced_iff _).1 (zeroed_balanced _ hp)).1
  have hr2z : r2.zeroed = ⟨r1.zeroed.x, r2.y⟩ := by simp only [Rel.zeroed, hx]
  have hsz' : s.zeroed = ⟨r1.zeroed.x, List.zipWith (fun a b => c * a + b) r1.y r2.y⟩ := by rw [hsy]; rfl
  have bz2 : Balanced (⟨r1.zeroed.x, r2.y⟩ : Rel K V) := hr2z ▸ zeroed_balanced _ h2
  rw [hr2z] at i2
  rw [hsz'] at i3
  have hlin := interpAxis_linear r1.zeroed.x (commonX r1.zeroed.x p.zeroed.x) r1.y r2.y c q1 q2
    (zeroed_balanced _ h1) bz2 hsz i1 i2
  rw [i3] at hlin
  simp only [Except.ok.injEq] at hlin
  have lq : q1.y.length = q2.y.length := balanced_length_eq b1 b2 (x1.trans x2.symm)
  have hy3 : q3.y = List.zipWith (fun a b => c * a + b) q1.y q2.y := by rw [hlin]
  have hconv : npConvolve q3.y e1.y =
      List.zipWith (fun a b => c * a + b) (npConvolve q1.y e1.y) (npConvolve q2.y e1.y) := by
    apply List.ext_getElem
    · simp [npConvolve_length, hy3, ← lq]
    · intro i j1 j2
      rw [List.getElem_zipWith, npConvolve_getElem, npConvolve_getElem, npConvolve_getElem, Finset.mul_sum,
        ← Finset.sum_add_distrib]
      apply Finset.sum_congr rfl
      intro pr _
      have : q3.y.getD pr.1 0 = c * q1.y.getD pr.1 0 + q2.y.getD pr.1 0 := by
        rcases Nat.lt_or_ge pr.1 q1.y.length with hi | hi
        · rw [hy3, getD_lt _ _ _ (by simp; omega), List.getElem_zipWith, getD_lt _ _ _ hi, getD_lt _ _ _ (by omega)]
        · rw [hy3, getD_ge _ _ _ (by simp; omega), getD_ge _ _ _ hi, getD_ge _ _ _ (by omega), mul_zero, add_zero]
      rw [this]
      ring
  have hcl : (npConvolve q3.y e1.y).length = (npConvolve q1.y e1.y).length := by
    simp [npConvolve_length, hy3, ← lq]
  constructor
  · intro e
    simp only [Rel.convolve, a1, a3, except_bind_ok]
    exact make_error_congr _ hcl e
  · intro w1 w2 hw1 hw2
    simp only [Rel.convolve, a1, a2, except_bind_ok] at hw1 hw2
    obtain ⟨z1, rfl⟩ := (make_ok_iff _ _ _).1 hw1
    obtain ⟨z2, rfl⟩ := (make_ok_iff _ _ _).1 hw2
    refine ⟨⟨_, npConvolve q3.y e1.y⟩, ?_, rfl, rfl, hconv⟩
    simp only [Rel.convolve, a3, except_bind_ok]
    exact make_ok (by rw [hcl]; exact z1)

/-- **C28.** Convolving with a unit impulse (one sample of value one at the start, zeros after it) reproduces the
other operand, followed by zeros. -/
theorem C28_impulse (r d : Rel K V) (h1 : Balanced r) (h2 : Balanced d) (k1 k2 : ℕ) (s : K) (hs : 0 < s)
    (s1 : r.x.sample = s) (s2 : d.x.sample = s) (d1 : r.x.stop - r.x.start = k1 * s)
    (d2 : d.x.stop - d.x.start = k2 * s) (hd : ∃ n, d.y = 1 :: List.replicate n 0) :
    ∃ c, r.convolve d = .ok c ∧ ∀ k (h : k < c.y.length), c.y[k] = r.y.getD k 0 := by
  obtain ⟨c, e1, -, -, -, -, e2⟩ := C28_values r d h1 h2 k1 k2 s hs s1 s2 d1 d2
  refine ⟨c, e1, ?_⟩
  intro k h
  obtain ⟨n, hn⟩ := hd
  rw [e2 k h, Finset.sum_eq_single (k, 0)]
  · simp [hn]
  · rintro ⟨i, j⟩ hij hne
    simp only [Finset.mem_antidiagonal] at hij
    have hj : j ≠ 0 := by
      rintro rfl
      exact hne (by simp at hij; simp [hij])
    obtain ⟨j', rfl⟩ := Nat.exists_eq_succ_of_ne_zero hj
    have : d.y.getD (j' + 1) 0 = 0 := by
      rw [hn]
      rcases Nat.lt_or_ge j' n with h | h
      · rw [getD_lt _ _ _ (by simpa using h)]; simp
      · rw [getD_ge _ _ _ (by simpa using h)]
    rw [Nat.succ_eq_add_one, this, mul_zero]
  · intro h
    simp at h

example : (⟨⟨1, 3, 1⟩, [1, 2, 3]⟩ : Rel ℚ ℚ).convolve ⟨⟨5, 6, 1⟩, [1, 0]⟩ =
    .ok ⟨⟨-2, 2, 1⟩, [1, 2, 3, 0, 0]⟩ := by decide +kernel

/-- **C29.** Axes spanning `k1`, `k2` whole samples: value `j` of the correlation belongs to lag `j - max k1 k2` and is
the sum of `y1[i + lag] * conj(y2[i])`, entries outside the arrays counting as zero. -/
theorem C29_values [StarRing V] (r1 r2 : Rel K V) (h1 : Balanced r1) (h2 : Balanced r2) (k1 k2 : ℕ) (s : K)
    (hs : 0 < s) (s1 : r1.x.sample = s) (s2 : r2.x.sample = s) (d1 : r1.x.stop - r1.x.start = k1 * s)
    (d2 : r2.x.stop - r2.x.start = k2 * s) :
    ∃ c, r1.correlate r2 = .ok c ∧ c.x.start = -(max k1 k2 * s) ∧ c.x.stop = max k1 k2 * s ∧ c.x.sample = s ∧
      c.y.length = 2 * max k1 k2 + 1 ∧
      ∀ j (h : j < c.y.length), c.y[j] = ∑ i ∈ Finset.range (max k1 k2 + 1),
        zext r1.y (i + ((j : ℤ) - max k1 k2)) * star (r2.y.getD i 0) := by
  obtain ⟨c, hc, hx1, hx2, hx3, hcl, -⟩ := C28_values r1 r2 h1 h2 k1 k2 s hs s1 s2 d1 d2
  obtain ⟨q1, q2, -, -, hal, -, b1, b2, x1, x2, i1, i2⟩ := alignForConv_eq r1 r2 h1 h2
  have hz1 : r1.zeroed = ⟨⟨0, k1 * s, s⟩, r1.y⟩ := by simp [Rel.zeroed, d1, s1]
  have hz2 : r2.zeroed = ⟨⟨0, k2 * s, s⟩, r2.y⟩ := by simp [Rel.zeroed, d2, s2]
  have hcx : commonX r1.zeroed.x r2.zeroed.x = ⟨0, (max k1 k2 : ℕ) * s, s⟩ := by
    rw [hz1, hz2, commonX_eq]
    simp [max_mul_of_nonneg _ _ hs.le]
  have hlen : ∀ (r : Rel K V) (k : ℕ), Balanced r → r.x.sample = s → r.x.stop - r.x.start = k * s →
      r.y.length = k + 1 := by
    intro r k hb e1 e2
    rw [((balanced_iff r).1 hb).2]
    have : |(r.x.stop - r.x.start) / r.x.sample| = (k : K) := by
      rw [e1, e2, mul_div_assoc, div_self hs.ne', mul_one, Nat.abs_cast]
    simp only [Axis.steps, this, pyRound_natCast, Int.toNat_natCast]
  have l1 := hlen r1 k1 h1 s1 d1
  have l2 := hlen r2 k2 h2 s2 d2
  rw [hcx] at i1 i2 hal
  rw [hz1] at i1
  rw [hz2] at i2
  obtain ⟨-, y1⟩ := interp_padded r1.y k1 (max k1 k2) s hs (le_max_left _ _) l1 q1 i1
  obtain ⟨-, y2⟩ := interp_padded r2.y k2 (max k1 k2) s hs (le_max_right _ _) l2 q2 i2
  simp only [Rel.convolve, hal, except_bind_ok] at hc
  obtain ⟨hsz, rfl⟩ := (make_ok_iff _ _ _).1 hc
  have hll : (npCorrelate q1.y q2.y).length = (npConvolve q1.y q2.y).length := by
    rw [npCorrelate_length, npConvolve_length]
  refine ⟨⟨_, npCorrelate q1.y q2.y⟩, by simp only [Rel.correlate, hal, except_bind_ok]; exact make_ok (hll ▸ hsz), hx1, hx2, hx3,
    by simp only [hll]; exact hcl, ?_⟩
  intro j h
  simp only
  have hq2 : q2.y.length = max k1 k2 + 1 := by rw [y2]; simp
  rw [npCorrelate_getElem _ _ (by intro hn; rw [hn] at hq2; simp at hq2), hq2]
  apply Finset.sum_congr rfl
  intro i hi
  rw [y2, getD_padded _ _ _ (by omega)]
  congr 1
  have e : ((i : ℤ) + j - (((max k1 k2 + 1 : ℕ) : ℤ) - 1)) = i + ((j : ℤ) - (max k1 k2 : ℕ)) := by
    push_cast; ring
  rw [e]
  simp only [Nat.cast_max]
  unfold zext
  split_ifs with h0
  · rw [y1, getD_padded _ _ _ (by omega)]
  · rfl

/-- **C29.** Swapping the operands reverses and conjugates the correlation, on any axes. -/
theorem C29_swap [StarRing V] (r1 r2 : Rel K V) (h1 : Balanced r1) (h2 : Balanced r2) :
    r2.correlate r1 = (r1.correlate r2).map fun c => ⟨c.x, (c.y.map star).reverse⟩ := by
  obtain ⟨q1, q2, -, -, a1, a2, b1, b2, x1, x2, -⟩ := alignForConv_eq r1 r2 h1 h2
  have hl : q1.y.length = q2.y.length := balanced_length_eq b1 b2 (x1.trans x2.symm)
  simp only [Rel.correlate, a1, a2, except_bind_ok]
  rw [npCorrelate_swap q1.y q2.y hl]
  have hll : ((npCorrelate q1.y q2.y).map star).reverse.length = (npCorrelate q1.y q2.y).length := by simp
  generalize (⟨-(commonX r1.zeroed.x r2.zeroed.x).stop, (commonX r1.zeroed.x r2.zeroed.x).stop,
    (commonX r1.zeroed.x r2.zeroed.x).sample⟩ : Axis K) = ax
  simp only [Rel.make, hll]
  cases ax.size with
  | error e => rfl
  | ok n =>
    simp only [except_bind_ok]
    split_ifs <;> rfl

/-- **C29.** Real autocorrelation, on any axis for which it succeeds: odd number of values, symmetric, and the value at
lag zero (the middle one) is the sum of squares and the largest in absolute value. -/
theorem C29_autocorrelation (r c : Rel K K) [StarRing K] [TrivialStar K] (hb : Balanced r)
    (hc : r.correlate r = .ok c) :
    c.y.length = 2 * r.y.length - 1 ∧ c.y.reverse = c.y ∧
    (∀ h : r.y.length - 1 < c.y.length, c.y[r.y.length - 1] = ∑ i ∈ Finset.range r.y.length, r.y.getD i 0 ^ 2 ∧
      ∀ v ∈ c.y, |v| ≤ c.y[r.y.length - 1]) := by
  obtain ⟨q1, q2, -, -, a1, -, b1, b2, x1, x2, i1, i2⟩ := alignForConv_eq r r hb hb
  have hcx : commonX r.zeroed.x r.zeroed.x = r.zeroed.x := by
    rw [commonX_eq]; simp
  rw [hcx, interpAxis_self _ (zeroed_balanced _ hb)] at i1 i2
  simp only [Except.ok.injEq] at i1 i2
  subst i1
  subst i2
  simp only [Rel.correlate, a1, except_bind_ok] at hc
  obtain ⟨-, rfl⟩ := (make_ok_iff _ _ _).1 hc
  change (npCorrelate r.y r.y).length = _ ∧ (npCorrelate r.y r.y).reverse = npCorrelate r.y r.y ∧
    ∀ h : r.y.length - 1 < (npCorrelate r.y r.y).length, (npCorrelate r.y r.y)[r.y.length - 1] = _ ∧
      ∀ v ∈ npCorrelate r.y r.y, |v| ≤ (npCorrelate r.y r.y)[r.y.length - 1]
  have hpos : 0 < r.y.length := by
    rw [((balanced_iff r).1 hb).2]; omega
  have hne : r.y ≠ [] := List.length_pos_iff.1 hpos
  have hlen : (npCorrelate r.y r.y).length = 2 * r.y.length - 1 := by
    rw [npCorrelate_length]; omega
  refine ⟨hlen, ?_, ?_⟩
  · have := npCorrelate_swap r.y r.y rfl
    have hid : (npCorrelate r.y r.y).map star = npCorrelate r.y r.y := by
      rw [List.map_congr_left (g := id) (fun v _ => star_trivial v), List.map_id]
    rw [hid] at this
    exact this.symm
  · intro h
    have hmid : (npCorrelate r.y r.y)[r.y.length - 1] = ∑ i ∈ Finset.range r.y.length, r.y.getD i 0 ^ 2 := by
      rw [npCorrelate_getElem _ _ hne]
      apply Finset.sum_congr rfl
      intro i _
      have e : ((i : ℤ) + (r.y.length - 1 : ℕ) - ((r.y.length : ℤ) - 1)) = i := by omega
      rw [e, zext_natCast, star_trivial, pow_two]
    refine ⟨hmid, ?_⟩
    intro v hv
    obtain ⟨j, hj, rfl⟩ := List.mem_iff_getElem.1 hv
    rw [hmid, npCorrelate_getElem _ _ hne]
    have := abs_sum_zext_le r.y (j - ((r.y.length : ℤ) - 1))
    simpa only [star_trivial, add_sub_assoc] using this

example : (⟨⟨1, 3, 1⟩, [1, 2, 3]⟩ : Rel ℚ ℚ).correlate ⟨⟨0, 1, 1⟩, [4, 5]⟩ =
      .ok ⟨⟨-2, 2, 1⟩, [0, 5, 14, 23, 12]⟩ ∧
    (⟨⟨1, 3, 1⟩, [1, 2, 3]⟩ : Rel ℚ ℚ).correlate ⟨⟨1, 3, 1⟩, [1, 2, 3]⟩ =
      .ok ⟨⟨-2, 2, 1⟩, [3, 8, 14, 8, 3]⟩ := by decide +kernel

/-- **C30.** With positive samples and at least one non-negative duration: `E` the larger duration, `s` the smaller sample; both
calls succeed iff the fractional part of `E/s` is at most 1/4 or at least 3/4, and otherwise raise `NotEqualError`. -/
theorem C30_accepted [Star V] (r1 r2 : Rel K V) (h1 : Balanced r1) (h2 : Balanced r2) (s1 : 0 < r1.x.sample)
    (s2 : 0 < r2.x.sample) (d1 : r1.x.start ≤ r1.x.stop) :
    let q := max (r1.x.stop - r1.x.start) (r2.x.stop - r2.x.start) / min r1.x.sample r2.x.sample
    (∀ a b : ℤ, NearestEven q a → NearestEven (2 * q) b →
      ((∃ c, r1.convolve r2 = .ok c) ↔ b = 2 * a) ∧ ((∃ c, r1.correlate r2 = .ok c) ↔ b = 2 * a)) ∧
    ((∃ c, r1.convolve r2 = .ok c) ↔ Int.fract q ≤ 1 / 4 ∨ 3 / 4 ≤ Int.fract q) ∧
    ((∃ c, r1.correlate r2 = .ok c) ↔ Int.fract q ≤ 1 / 4 ∨ 3 / 4 ≤ Int.fract q) ∧
    (∀ e, r1.convolve r2 = .error e → ∃ m n, e = .notEqual m n ∧ m ≠ n) ∧
    (∀ e, r1.correlate r2 = .error e → ∃ m n, e = .notEqual m n ∧ m ≠ n) := by
  intro q
  obtain ⟨q1, q2, -, -, hal, -, b1, b2, x1, x2, -⟩ := alignForConv_eq r1 r2 h1 h2
  have hcx : commonX r1.zeroed.x r2.zeroed.x =
      ⟨0, max (r1.x.stop - r1.x.start) (r2.x.stop - r2.x.start), min r1.x.sample r2.x.sample⟩ := by
    rw [commonX_eq]; simp [Rel.zeroed]
  have hs : 0 < min r1.x.sample r2.x.sample := lt_min s1 s2
  have hE : 0 ≤ max (r1.x.stop - r1.x.start) (r2.x.stop - r2.x.start) := le_max_of_le_left (by linarith)
  set E := max (r1.x.stop - r1.x.start) (r2.x.stop - r2.x.start) with hEd
  set s := min r1.x.sample r2.x.sample with hsd
  rw [hcx] at x1 x2 hal
  simp only at hal
  have hq0 : 0 ≤ q := div_nonneg hE hs.le
  have hst : Axis.steps (⟨0, E, s⟩ : Axis K) = (pyRound q).toNat := by
    simp only [Axis.steps, sub_zero]
    rw [abs_of_nonneg hq0]
  have hst2 : Axis.steps (⟨-E, E, s⟩ : Axis K) = (pyRound (2 * q)).toNat := by
    simp only [Axis.steps]
    have : |(E - -E) / s| = 2 * q := by
      rw [abs_of_nonneg (div_nonneg (by linarith) hs.le)]
      simp only [q]
      ring
    rw [this]
  have ly1 : q1.y.length = (pyRound q).toNat + 1 := by
    rw [((balanced_iff _).1 b1).2, x1, hst]
  have ly2 : q2.y.length = (pyRound q).toNat + 1 := by
    rw [((balanced_iff _).1 b2).2, x2, hst]
  have hpos1 : 0 ≤ pyRound q := pyRound_nonneg hq0
  have hpos2 : 0 ≤ pyRound (2 * q) := pyRound_nonneg (by linarith)
  have core : ∀ l : List V, l.length = q1.y.length + q2.y.length - 1 →
      ((∃ c, Rel.make (⟨-E, E, s⟩ : Axis K) l = .ok c) ↔ pyRound (2 * q) = 2 * pyRound q) ∧
      (∀ e, Rel.make (⟨-E, E, s⟩ : Axis K) l = .error e → ∃ m n, e = .notEqual m n ∧ m ≠ n) := by
    intro l hl
    rw [make_eq _ _ (by exact hs.ne'), hst2]
    have hiff : (pyRound (2 * q)).toNat + 1 = l.length ↔ pyRound (2 * q) = 2 * pyRound q := by omega
    by_cases hc : (pyRound (2 * q)).toNat + 1 = l.length
    · rw [if_pos hc]
      simp [hiff.1 hc]
    · have hc' : ¬ pyRound (2 * q) = 2 * pyRound q := fun h => hc (hiff.2 h)
      simp only [hc, if_false, hc', reduceCtorEq, exists_false, true_and]
      rintro e he
      simp only [Except.error.injEq] at he
      exact ⟨_, _, he.symm, hc⟩
  obtain ⟨k1, k2⟩ := core (npConvolve q1.y q2.y) (npConvolve_length _ _)
  obtain ⟨m1, m2⟩ := core (npCorrelate q1.y q2.y) (npCorrelate_length _ _)
  simp only [Rel.convolve, Rel.correlate, hal, except_bind_ok]
  refine ⟨?_, ?_, ?_, k2, m2⟩
  · intro a b ha hb
    rw [k1, m1, (pyRound_eq_iff _ _).2 ha, (pyRound_eq_iff _ _).2 hb]
    exact ⟨Iff.rfl, Iff.rfl⟩
  · rw [k1, pyRound_two_mul]
  · rw [m1, pyRound_two_mul]

/-- rejected although both operands are valid relations: `E/s = 7/3`, fractional part 1/3 -/
example : (⟨⟨0, 7, 3⟩, [1, 2, 3]⟩ : Rel ℚ ℚ).convolve ⟨⟨0, 7, 3⟩, [1, 2, 3]⟩ = .error (.notEqual 6 5) ∧
    (⟨⟨0, 25/4, 3⟩, [1, 2, 3]⟩ : Rel ℚ ℚ).convolve ⟨⟨0, 6, 3⟩, [1, 2, 3]⟩ =
      .ok ⟨⟨-25/4, 25/4, 3⟩, [1, 97/24, 85/12, 49/8, 0]⟩ := by decide +kernel

end SweepDesign
