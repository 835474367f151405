import Verif.Lemmas.Conv
import Verif.Lemmas.Spectral
import Verif.Props.Arithmetic

set_option linter.unusedSectionVars false

/-!
# Relations on a common grid

The sum of two relations whose samples lie on one grid `o + j s` is the sum of their zero-extended values.
-/

namespace SweepDesign

open Spec

variable {K : Type} [Field K] [LinearOrder K] [IsStrictOrderedRing K] [FloorRing K]
variable {V : Type} [Field V] [Algebra K V] [DecidableEq V] [PyPow V]

/-- the samples of `r` are the grid points `o + k s, …, o + (k + n) s` -/
def Spec.OnGrid (r : Rel K V) (o s : K) (k : ℤ) (n : ℕ) : Prop :=
  r.x = ⟨o + k * s, o + (k + n) * s, s⟩ ∧ r.y.length = n + 1

omit [Field V] [Algebra K V] [DecidableEq V] [PyPow V] in
theorem Spec.OnGrid.whole {r : Rel K V} {o s : K} {k : ℤ} {n : ℕ} (h : OnGrid r o s k n) :
    r.x.sample = s ∧ r.x.stop - r.x.start = n * r.x.sample := by
  rw [h.1]
  exact ⟨rfl, by simp; ring⟩

omit [Field V] [Algebra K V] [DecidableEq V] [PyPow V] in
theorem Spec.OnGrid.balanced {r : Rel K V} {o s : K} {k : ℤ} {n : ℕ} (h : OnGrid r o s k n) (hs : 0 < s) : Balanced r :=
  balanced_whole r n (by rw [h.whole.1]; exact hs) h.whole.2 h.2

omit [Field V] [Algebra K V] [DecidableEq V] [PyPow V] in
theorem Spec.OnGrid.array {r : Rel K V} {o s : K} {k : ℤ} {n : ℕ} (h : OnGrid r o s k n) (hs : 0 < s) :
    r.x.array = .ok ((List.range (n + 1)).map fun i : ℕ => o + (k + i) * s) := by
  rw [array_whole r.x n (by rw [h.whole.1]; exact hs) h.whole.2, h.1]
  congr 1
  apply List.map_congr_left
  intro i _
  ring

theorem grid_interpolant {r : Rel K V} {o s : K} {k : ℤ} {n : ℕ} (h : OnGrid r o s k n) (hs : 0 < s) (j : ℤ) (v : V)
    (hv : IsInterpolant ((List.range (n + 1)).map fun i : ℕ => o + (k + i) * s) r.y (o + j * s) v) :
    v = zext r.y (j - k) := by
  by_cases hj : k ≤ j ∧ j ≤ k + n
  · obtain ⟨i, hi⟩ := Int.eq_ofNat_of_zero_le (a := j - k) (by omega)
    rw [hi, zext_natCast, getD_lt _ _ _ (by rw [h.2]; omega)]
    refine hv.sample i (by simp; omega) (by rw [h.2]; omega) ?_
    have : j = k + i := by omega
    rw [List.getElem_map, List.getElem_range, this]
    push_cast; ring
  · have : v = 0 := by
      apply hv.outside
      rintro ⟨a, ha, b, hb, h1, h2⟩
      simp only [List.mem_map, List.mem_range] at ha hb
      obtain ⟨i, hi, rfl⟩ := ha
      obtain ⟨i', hi', rfl⟩ := hb
      have e1 : ((k : K) + i) ≤ j := by
        have := le_of_mul_le_mul_right (by linarith : ((k : K) + i) * s ≤ j * s) hs
        exact this
      have e2 : (j : K) ≤ (k : K) + i' := by
        have := le_of_mul_le_mul_right (by linarith : (j : K) * s ≤ ((k : K) + i') * s) hs
        exact this
      have e1' : k + i ≤ j := by exact_mod_cast e1
      have e2' : j ≤ k + i' := by exact_mod_cast e2
      omega
    rw [this]
    by_cases hk : j < k
    · rw [zext_neg _ _ (by omega)]
    · rw [zext_ge _ _ (by rw [h.2]; push_cast; omega)]

/-- the sum, difference or product of two relations on one grid, whatever their position -/
theorem grid_operation {r1 r2 : Rel K V} {o s : K} (hs : 0 < s) {k1 k2 : ℤ} {n1 n2 : ℕ} (h1 : OnGrid r1 o s k1 n1)
    (h2 : OnGrid r2 o s k2 n2) (op : MathOp) (hop : op = .add ∨ op = .sub ∨ op = .mul) :
    ∃ q, r1.operation (.rel false r2) op = .ok q ∧
      OnGrid q o s (min k1 k2) (max (k1 + n1) (k2 + n2) - min k1 k2).toNat ∧
      ∀ j : ℤ, OpResult op (zext r1.y (j - k1)) (zext r2.y (j - k2)) (zext q.y (j - min k1 k2)) := by
  have g1 : r1.getData = .ok (_, r1.y) :=
    (getData_ok_iff _ _ _).2 ⟨h1.array hs, rfl, by simp [h1.2]⟩
  have g2 : r2.getData = .ok (_, r2.y) :=
    (getData_ok_iff _ _ _).2 ⟨h2.array hs, rfl, by simp [h2.2]⟩
  obtain ⟨c1, -, c3⟩ := C25_different_axes r1 r2 _ _ _ _ g1 g2 op
  obtain ⟨q, hq⟩ := c3 hop
  obtain ⟨e1, e2, e3, xs, e4, e5⟩ := c1 q hq
  set k := min k1 k2 with hk
  set n := (max (k1 + n1) (k2 + n2) - k).toNat with hn
  have hkn : ((k : K) + n) = ((max (k1 + n1) (k2 + n2) : ℤ) : K) := by
    have : (n : ℤ) = max (k1 + n1) (k2 + n2) - k := by
      rw [hn]; omega
    have h' : ((n : ℤ) : K) = ((max (k1 + n1) (k2 + n2) - k : ℤ) : K) := by rw [this]
    push_cast at h' ⊢
    rw [h']; ring
  have mono : ∀ a b : ℤ, a ≤ b → o + (a : K) * s ≤ o + (b : K) * s := by
    intro a b hab
    have : (a : K) ≤ b := by exact_mod_cast hab
    nlinarith
  have hx : q.x = ⟨o + k * s, o + (k + n) * s, s⟩ := by
    have hst : q.x.start = o + k * s := by
      rw [e1, h1.1, h2.1]
      rcases le_total k1 k2 with hh | hh
      · rw [hk, min_eq_left hh, min_eq_left (mono _ _ hh)]
      · rw [hk, min_eq_right hh, min_eq_right (mono _ _ hh)]
    have hsp : q.x.stop = o + (k + n) * s := by
      rw [e2, h1.1, h2.1, hkn]
      have p1 : o + ((k1 : K) + n1) * s = o + ((k1 + n1 : ℤ) : K) * s := by push_cast; ring
      have p2 : o + ((k2 : K) + n2) * s = o + ((k2 + n2 : ℤ) : K) * s := by push_cast; ring
      simp only [p1, p2]
      rcases le_total (k1 + n1 : ℤ) (k2 + n2) with hh | hh
      · rw [max_eq_right hh, max_eq_right (mono _ _ hh)]
      · rw [max_eq_left hh, max_eq_left (mono _ _ hh)]
    have hsm : q.x.sample = s := by rw [e3, h1.1, h2.1]; simp
    rcases hqx : q.x with ⟨a, b, c⟩
    rw [hqx] at hst hsp hsm
    simp only at hst hsp hsm
    rw [hst, hsp, hsm]
  obtain ⟨a1, -, a3⟩ := (getData_ok_iff _ _ _).1 e4
  have hxs : xs = (List.range (n + 1)).map fun i : ℕ => o + (k + i) * s := by
    have hd : q.x.sample = s ∧ q.x.stop - q.x.start = n * q.x.sample := by
      rw [hx]; exact ⟨rfl, by simp; ring⟩
    have := array_whole q.x n (by rw [hd.1]; exact hs) hd.2
    rw [a1, Except.ok.injEq] at this
    rw [this, hx]
    apply List.map_congr_left
    intro i _
    ring
  have hyl : q.y.length = n + 1 := by rw [← a3, hxs]; simp
  refine ⟨q, hq, ⟨hx, hyl⟩, fun j => ?_⟩
  by_cases hj : k ≤ j ∧ j ≤ k + n
  · obtain ⟨i, hi⟩ := Int.eq_ofNat_of_zero_le (a := j - k) (by omega)
    have hi1 : i < q.y.length := by rw [hyl]; omega
    have hi2 : i < xs.length := by rw [a3]; exact hi1
    obtain ⟨v1, v2, w1, w2, w3⟩ := e5 i hi2 hi1
    have hji : j = k + i := by omega
    have hxi : xs[i] = o + (j : K) * s := by
      simp only [hxs, List.getElem_map, List.getElem_range, hji]
      push_cast; ring
    rw [hxi] at w1 w2
    rw [hi, zext_natCast, getD_lt _ _ _ hi1, ← grid_interpolant h1 hs j v1 w1, ← grid_interpolant h2 hs j v2 w2]
    exact w3
  · have hl1 := h1.2
    have hl2 := h2.2
    by_cases hlt : j < k
    · rw [zext_neg _ _ (by omega), zext_neg _ _ (by omega), zext_neg _ _ (by omega)]
      rcases hop with rfl | rfl | rfl <;> simp [OpResult]
    · rw [zext_ge _ _ (by rw [hl1]; push_cast; omega), zext_ge _ _ (by rw [hl2]; push_cast; omega),
        zext_ge _ _ (by rw [hyl]; push_cast; omega)]
      rcases hop with rfl | rfl | rfl <;> simp [OpResult]

theorem grid_add {r1 r2 : Rel K V} {o s : K} (hs : 0 < s) {k1 k2 : ℤ} {n1 n2 : ℕ} (h1 : OnGrid r1 o s k1 n1)
    (h2 : OnGrid r2 o s k2 n2) :
    ∃ q, r1.add (.rel false r2) = .ok q ∧
      OnGrid q o s (min k1 k2) (max (k1 + n1) (k2 + n2) - min k1 k2).toNat ∧
      ∀ j : ℤ, zext q.y (j - min k1 k2) = zext r1.y (j - k1) + zext r2.y (j - k2) :=
  grid_operation hs h1 h2 .add (.inl rfl)

theorem grid_mul {r1 r2 : Rel K V} {o s : K} (hs : 0 < s) {k1 k2 : ℤ} {n1 n2 : ℕ} (h1 : OnGrid r1 o s k1 n1)
    (h2 : OnGrid r2 o s k2 n2) :
    ∃ q, r1.mul (.rel false r2) = .ok q ∧
      OnGrid q o s (min k1 k2) (max (k1 + n1) (k2 + n2) - min k1 k2).toNat ∧
      ∀ j : ℤ, zext q.y (j - min k1 k2) = zext r1.y (j - k1) * zext r2.y (j - k2) :=
  grid_operation hs h1 h2 .mul (.inr (.inr rfl))

omit [DecidableEq V] [PyPow V] in
theorem grid_integrate {r : Rel K V} {o s : K} (hs : 0 < s) {k : ℤ} {n : ℕ} (h : OnGrid r o s k (n + 1)) :
    ∃ q, r.integrate = .ok q ∧ OnGrid q o s (k + 1) n := by
  have hg : OnGrid (⟨{ r.x with start := r.x.start + r.x.sample }, (cumTrapz r.y).map fun v => r.x.sample • v⟩ : Rel K V)
      o s (k + 1) n := by
    constructor
    · rw [h.1]
      simp only [Axis.mk.injEq, and_true]
      push_cast
      exact ⟨by ring, by ring⟩
    · simp only [List.length_map, cumTrapz_length, h.2]; omega
  exact ⟨_, make_ok (hg.balanced hs), hg⟩

omit [DecidableEq V] [PyPow V] in
theorem grid_diff {r : Rel K V} {o s : K} (hs : 0 < s) {k : ℤ} {n : ℕ} (h : OnGrid r o s k (n + 1)) :
    ∃ q, r.diff = .ok q ∧ OnGrid q (o + s / 2) s k n := by
  have hg : OnGrid (⟨{ r.x with start := r.x.start + r.x.sample / 2, stop := r.x.stop - r.x.sample / 2 },
      (npDiff r.y).map fun v => r.x.sample⁻¹ • v⟩ : Rel K V) (o + s / 2) s k n := by
    constructor
    · rw [h.1]
      simp only [Axis.mk.injEq, and_true]
      push_cast
      exact ⟨by ring, by ring⟩
    · simp only [List.length_map, npDiff_length, h.2]; omega
  exact ⟨_, make_ok (hg.balanced hs), hg⟩

omit [Field V] [Algebra K V] [DecidableEq V] [PyPow V] in
theorem Spec.OnGrid.rebase {r : Rel K V} {o s : K} {k : ℤ} {n : ℕ} (h : OnGrid r (o + s) s k n) : OnGrid r o s (k + 1) n := by
  refine ⟨?_, h.2⟩
  rw [h.1]
  simp only [Axis.mk.injEq, and_true]
  push_cast
  exact ⟨by ring, by ring⟩

omit [DecidableEq V] [PyPow V] in
theorem grid_diff_diff {r : Rel K V} {o s : K} (hs : 0 < s) {k : ℤ} {n : ℕ} (h : OnGrid r o s k (n + 2)) :
    ∃ a q, r.diff = .ok a ∧ a.diff = .ok q ∧ OnGrid q o s (k + 1) n := by
  obtain ⟨a, h1, h2⟩ := grid_diff hs (n := n + 1) h
  obtain ⟨q, h3, h4⟩ := grid_diff hs h2
  refine ⟨a, q, h1, h3, Spec.OnGrid.rebase ?_⟩
  have : o + s / 2 + s / 2 = o + s := by ring
  rwa [this] at h4

theorem grid_mul_num {r : Rel K V} {o s : K} (hs : 0 < s) {k : ℤ} {n : ℕ} (h : OnGrid r o s k n) (c : V) :
    ∃ q, r.mul (.other (.num c)) = .ok q ∧ OnGrid q o s k n ∧ q.y = r.y.map fun v => v * c := by
  refine ⟨⟨r.x, r.y.map fun v => v * c⟩, ?_, ⟨h.1, by simpa using h.2⟩, rfl⟩
  rw [Rel.mul, operation_num _ _ _ (h.balanced hs)]
  have : (r.y.map fun a => MathOp.mul.fn a c) = (r.y.map fun a => a * c).map some := by
    rw [List.map_map]; rfl
  rw [this, finite_map_some]
  rfl

theorem grid_div_num {r : Rel K V} {o s : K} (hs : 0 < s) {k : ℤ} {n : ℕ} (h : OnGrid r o s k n) (c : V) (hc : c ≠ 0) :
    ∃ q, r.truediv (.other (.num c)) = .ok q ∧ OnGrid q o s k n ∧ q.y = r.y.map fun v => v / c := by
  refine ⟨⟨r.x, r.y.map fun v => v / c⟩, ?_, ⟨h.1, by simpa using h.2⟩, rfl⟩
  rw [Rel.truediv, operation_num _ _ _ (h.balanced hs)]
  have : (r.y.map fun a => MathOp.truediv.fn a c) = (r.y.map fun a => a / c).map some := by
    rw [List.map_map]
    apply List.map_congr_left
    intro a _
    simp [MathOp.fn, hc]
  rw [this, finite_map_some]
  rfl

theorem zext_map (y : List V) (c : V) (j : ℤ) : zext (y.map fun v => v * c) j = zext y j * c := by
  unfold zext
  split
  · rcases Nat.lt_or_ge j.toNat y.length with h | h
    · rw [getD_lt _ _ _ (by simpa using h), getD_lt _ _ _ h]; simp
    · rw [getD_ge _ _ _ (by simpa using h), getD_ge _ _ _ h]; simp
  · simp

theorem mul_num_ok (r : Rel K V) (h : Balanced r) (c : V) :
    r.mul (.other (.num c)) = .ok ⟨r.x, r.y.map fun v => v * c⟩ := by
  rw [Rel.mul, operation_num _ _ _ h]
  have : (r.y.map fun a => MathOp.mul.fn a c) = (r.y.map fun a => a * c).map some := by
    rw [List.map_map]; rfl
  rw [this, finite_map_some]
  rfl

end SweepDesign
