import Verif.Props.ConvAlgebra
import Mathlib.Algebra.Order.BigOperators.Ring.Finset

/-!
# C145: correlating a recording made of several echoes and noise
-/

set_option linter.unusedSectionVars false

namespace SweepDesign
open Spec

section Field
variable {K : Type} [Field K] [LinearOrder K] [IsStrictOrderedRing K] [FloorRing K]

/-- the sum of the squares of the samples -/
def Spec.energy (l : List K) : K := ∑ i ∈ Finset.range l.length, l.getD i 0 ^ 2

/-- what is left of a sequence `l` against `p` when `l` is moved by `t` places: `Σ l_{i+t} p_i` -/
def Spec.overlap (l p : List K) (t : ℤ) : K := ∑ i ∈ Finset.range p.length, zext l (i + t) * p.getD i 0

/-- a recording made of copies of `p`, the one that comes `d` samples late scaled by `a d`, and of noise `n` -/
def Spec.Recorded (q p n : List K) (E : Finset ℕ) (a : ℕ → K) : Prop :=
  n.length = q.length ∧
    ∀ i (h : i < q.length), q[i] = ∑ d ∈ E, a d * zext p ((i : ℤ) - d) + n.getD i 0

/-- the moved sum is at most what the energies allow -/
theorem overlap_sq_le (l p : List K) (t : ℤ) : overlap l p t ^ 2 ≤ energy l * energy p := by
  unfold overlap
  refine (Finset.sum_mul_sq_le_sq_mul_sq _ _ _).trans ?_
  exact mul_le_mul_of_nonneg_right (sum_zext_sq_le l _ t) (Finset.sum_nonneg fun _ _ => sq_nonneg _)

theorem overlap_self (p : List K) : overlap p p 0 = energy p := by
  unfold overlap energy
  apply Finset.sum_congr rfl
  intro i _
  simp [zext, sq]

/-- nothing is left once the copy has moved past the whole sequence -/
theorem overlap_far (p : List K) (t : ℤ) (h : (p.length : ℤ) ≤ |t|) : overlap p p t = 0 := by
  unfold overlap
  apply Finset.sum_eq_zero
  intro i hi
  simp only [Finset.mem_range] at hi
  rcases abs_cases t with ⟨h1, h2⟩ | ⟨h1, h2⟩
  · rw [zext_ge _ _ (by omega), zero_mul]
  · rw [zext_neg _ _ (by omega), zero_mul]

/-- what `correlate` gives for a recording of echoes: the times `(j - m) * s`, and at each of them the moved sums
of the pilot, one per echo, and the moved sum of the noise -/
def Spec.Correlated (c : Rel K K) (p n : List K) (m : ℕ) (s : K) (E : Finset ℕ) (a : ℕ → K) : Prop :=
  c.y.length = 2 * m + 1 ∧
  (∃ l, c.x.array = .ok l ∧ l.length = 2 * m + 1 ∧ ∀ j (h : j < l.length), l[j] = ((j : K) - m) * s) ∧
  ∀ j (h : j < c.y.length), c.y[j] =
    ∑ d ∈ E, a d * overlap p p ((j : ℤ) - m - d) + overlap n p ((j : ℤ) - m)

variable [StarRing K] [TrivialStar K]

/-- **C145** `Relation.correlate` of a recording made of echoes and noise with its pilot. -/
theorem C145_echoes (q r : Rel K K) (n : List K) (k m : ℕ) (s : K) (E : Finset ℕ) (a : ℕ → K) (hs : 0 < s)
    (hr : Whole r k s) (hq : Whole q m s) (hkm : k ≤ m) (hE : ∀ d ∈ E, k + d ≤ m) (hv : Recorded q.y r.y n E a) :
    ∃ c, q.correlate r = .ok c ∧ Correlated c r.y n m s E a := by
  obtain ⟨hn, hv⟩ := hv
  obtain ⟨c, hc, x1, x2, x3, hl, e⟩ := C29_values q r hq.1 hr.1 m k s hs hq.2.1 hr.2.1 hq.2.2 hr.2.2
  have hmk : max m k = m := max_eq_left hkm
  rw [hmk] at x1 x2 hl
  have lr := whole_length hs hr
  have lq := whole_length hs hq
  have hz : ∀ t : ℤ, zext q.y t = ∑ d ∈ E, a d * zext r.y (t - d) + zext n t := by
    intro t
    rcases lt_or_ge t 0 with h | h
    · rw [zext_neg _ _ h, zext_neg _ _ h, add_zero]
      symm
      apply Finset.sum_eq_zero
      intro d _
      rw [zext_neg _ _ (by omega), mul_zero]
    · rcases lt_or_ge t (q.y.length : ℤ) with h' | h'
      · obtain ⟨i, rfl⟩ := Int.eq_ofNat_of_zero_le h
        have hi : i < q.y.length := by exact_mod_cast h'
        have h1 : zext n (i : ℤ) = n.getD i 0 := by
          unfold zext; rw [if_pos (Int.natCast_nonneg i), Int.toNat_natCast]
        rw [h1, ← hv i hi]
        unfold zext
        rw [if_pos (Int.natCast_nonneg i), Int.toNat_natCast, getD_lt _ _ _ hi]
      · rw [zext_ge _ _ h', zext_ge n _ (by omega), add_zero]
        symm
        apply Finset.sum_eq_zero
        intro d hd
        have := hE d hd
        rw [zext_ge _ _ (by omega), mul_zero]
  have hs0 : c.x.sample ≠ 0 := by rw [x3]; exact hs.ne'
  have hst : c.x.steps = 2 * m := by
    have : (c.x.stop - c.x.start) / c.x.sample = ((2 * m : ℕ) : K) := by
      rw [x1, x2, x3]; field_simp; push_cast; ring
    simp only [Axis.steps, this, Nat.abs_cast, pyRound_natCast, Int.toNat_natCast]
  obtain ⟨l, hla⟩ : ∃ l, c.x.array = .ok l := ⟨_, c.x.array_eq hs0⟩
  obtain ⟨ll, lv⟩ := Axis.array_spaced hla
  refine ⟨c, hc, hl, ⟨l, hla, by omega, ?_⟩, ?_⟩
  · intro j h
    rw [lv _ h]
    rcases Nat.eq_zero_or_pos m with hm | hm
    · have : j = 0 := by omega
      subst hm this
      simp [x1]
    · have hstep : c.x.step = s := by
        have hm' : (m : K) ≠ 0 := by exact_mod_cast hm.ne'
        simp only [Axis.step, hst]
        rw [x1, x2]
        push_cast
        field_simp
        ring
      rw [hstep, x1]
      ring
  · intro j h
    rw [e j h, hmk]
    have h1 : ∑ i ∈ Finset.range (m + 1), zext q.y (i + ((j : ℤ) - m)) * star (r.y.getD i 0) =
        ∑ i ∈ Finset.range r.y.length, zext q.y (i + ((j : ℤ) - m)) * r.y.getD i 0 := by
      symm
      apply Finset.sum_subset_zero_on_sdiff
      · intro i hi
        simp only [Finset.mem_range] at hi ⊢
        omega
      · intro i hi
        simp only [Finset.mem_sdiff, Finset.mem_range] at hi
        rw [getD_ge r.y i 0 (by omega)]; simp
      · intro i _
        rw [star_trivial]
    rw [h1]
    simp only [overlap, hz, add_mul, Finset.sum_add_distrib, Finset.sum_mul, Finset.mul_sum]
    rw [Finset.sum_comm]
    congr 1
    apply Finset.sum_congr rfl
    intro d _
    apply Finset.sum_congr rfl
    intro i _
    rw [show (i : ℤ) + ((j : ℤ) - m) - d = i + ((j : ℤ) - m - d) by ring]
    ring

end Field

section Consequences
variable {K : Type} [Field K] [LinearOrder K] [IsStrictOrderedRing K] [FloorRing K]

/-- **C145** The noise moves no sample by more than the root of the product of the energies. -/
theorem C145_noise (c : Rel K K) (p n : List K) (m : ℕ) (s : K) (E : Finset ℕ) (a : ℕ → K)
    (hc : Correlated c p n m s E a) (j : ℕ) (h : j < c.y.length) :
    (c.y[j] - ∑ d ∈ E, a d * overlap p p ((j : ℤ) - m - d)) ^ 2 ≤ energy n * energy p := by
  rw [hc.2.2 j h, add_sub_cancel_left]
  exact overlap_sq_le n p _

/-- **C145** An echo with no other within the length of the pilot is measured at its own delay: the sample there is
its factor times the energy of the pilot, up to the noise. -/
theorem C145_apart (c : Rel K K) (p n : List K) (m : ℕ) (s : K) (E : Finset ℕ) (a : ℕ → K)
    (hc : Correlated c p n m s E a) (d : ℕ) (hd : d ∈ E) (hdm : d ≤ m)
    (hfar : ∀ d' ∈ E, d' ≠ d → (p.length : ℤ) ≤ |(d : ℤ) - d'|) :
    ∃ v, c.y[m + d]? = some v ∧ (v - a d * energy p) ^ 2 ≤ energy n * energy p := by
  have hl := hc.1
  refine ⟨_, List.getElem?_eq_getElem (by omega), ?_⟩
  have h := C145_noise c p n m s E a hc (m + d) (by omega)
  rw [Finset.sum_eq_single_of_mem d hd] at h
  · rw [show (((m + d : ℕ) : ℤ) - m - d) = 0 by push_cast; ring, overlap_self] at h
    exact h
  · intro d' hd' hne
    rw [show (((m + d : ℕ) : ℤ) - m - d') = (d : ℤ) - d' by push_cast; ring, overlap_far _ _ (hfar d' hd' hne), mul_zero]

/-- **C145** One echo in noise: the sample at its delay is larger than any sample where the pilot's own correlation
is at most `ρ` of its energy, as long as the noise is weak enough. -/
theorem C145_detect (c : Rel K K) (p n : List K) (m : ℕ) (s : K) (a : ℕ → K) (d : ℕ) (hc : Correlated c p n m s {d} a)
    (hdm : d ≤ m) (ρ : K) (hρ : ρ ≤ 1) (hn : 4 * energy n < (|a d| * (1 - ρ)) ^ 2 * energy p)
    (j : ℕ) (h : j < c.y.length) (hj : |overlap p p ((j : ℤ) - m - d)| ≤ ρ * energy p) :
    ∃ v, c.y[m + d]? = some v ∧ |c.y[j]| < |v| := by
  have hl := hc.1
  refine ⟨_, List.getElem?_eq_getElem (by omega), ?_⟩
  have e1 := hc.2.2 j h
  have e2 := hc.2.2 (m + d) (by omega)
  rw [Finset.sum_singleton] at e1 e2
  rw [show (((m + d : ℕ) : ℤ) - m - d) = 0 by push_cast; ring, overlap_self] at e2
  have n1 := overlap_sq_le n p ((j : ℤ) - m)
  have n2 := overlap_sq_le n p (((m + d : ℕ) : ℤ) - m)
  generalize overlap n p ((j : ℤ) - m) = x at *
  generalize overlap n p (((m + d : ℕ) : ℤ) - m) = y at *
  generalize overlap p p ((j : ℤ) - m - d) = w at *
  have hn0 : 0 ≤ energy n := Finset.sum_nonneg fun _ _ => sq_nonneg _
  have hp : 0 < energy p := by
    have h1 : 0 ≤ energy p := Finset.sum_nonneg fun _ _ => sq_nonneg _
    rcases h1.lt_or_eq with h0 | h0
    · exact h0
    · rw [← h0, mul_zero] at hn; linarith
  have hxy : |x| + |y| < |a d| * (1 - ρ) * energy p := by
    apply lt_of_pow_lt_pow_left₀ 2 (mul_nonneg (mul_nonneg (abs_nonneg _) (by linarith)) hp.le)
    calc (|x| + |y|) ^ 2 ≤ 2 * (x ^ 2 + y ^ 2) := by
          have := sq_nonneg (|x| - |y|)
          have h1 := sq_abs x
          have h2 := sq_abs y
          nlinarith
      _ ≤ 4 * energy n * energy p := by linarith
      _ < (|a d| * (1 - ρ)) ^ 2 * energy p * energy p := mul_lt_mul_of_pos_right hn hp
      _ = (|a d| * (1 - ρ) * energy p) ^ 2 := by ring
  have b1 : |c.y[j]| ≤ |a d| * (ρ * energy p) + |x| := by
    rw [e1]
    refine (abs_add_le _ _).trans ?_
    rw [abs_mul]
    have := mul_le_mul_of_nonneg_left hj (abs_nonneg (a d))
    linarith
  have b2 : |a d| * energy p - |y| ≤ |c.y[m + d]'(by omega)| := by
    rw [e2]
    have h1 : |a d * energy p| = |a d| * energy p := by rw [abs_mul, abs_of_pos hp]
    have h2 := abs_sub_abs_le_abs_sub (a d * energy p) (-y)
    rw [sub_neg_eq_add, abs_neg, h1] at h2
    exact h2
  calc |c.y[j]| ≤ |a d| * (ρ * energy p) + |x| := b1
    _ < |a d| * energy p - |y| := by nlinarith
    _ ≤ _ := b2

end Consequences

/-- **C145** The same recording as signals that begin at zero, through `Signal.correlate`. -/
theorem C145_signal (q r : Rel ℝ ℝ) (n : List ℝ) (k m : ℕ) (s : ℝ) (E : Finset ℕ) (a : ℕ → ℝ) (hs : 0 < s)
    (hr : Whole r k s) (hq : Whole q m s) (hk : 1 ≤ k) (hkm : k ≤ m) (s1 : q.x.start = 0) (s2 : r.x.start = 0)
    (hE : ∀ d ∈ E, k + d ≤ m) (hv : Recorded q.y r.y n E a) :
    ∃ c, q.signalCorrelate r = .ok c ∧ Correlated c r.y n m s E a := by
  have hpos : ∀ (p : Rel ℝ ℝ) (i : ℕ), Whole p i s → 1 ≤ i → p.x.start < p.x.stop := by
    intro p i h hn
    have : (0 : ℝ) < i * s := mul_pos (by exact_mod_cast hn) hs
    rw [← h.2.2] at this
    linarith
  rw [(signalConvolve_zero q r hq.1 hr.1 (by rw [whole_length hs hq]; omega) (by rw [whole_length hs hr]; omega) s1 s2
    (hpos q m hq (by omega)) (hpos r k hr hk)).2]
  exact C145_echoes q r n k m s E a hs hr hq hkm hE hv

/-- the pilot `2, -1`, twice in a recording of seven samples: whole at once and threefold four samples later, with
noise on two of the samples -/
theorem C145_witness :
    Recorded ([2, -1, 1, 0, 6, -2, 0] : List ℚ) [2, -1] [0, 0, 1, 0, 0, 1, 0] {0, 4} (fun d => if d = 4 then 3 else 1) ∧
      (⟨⟨0, 6, 1⟩, [2, -1, 1, 0, 6, -2, 0]⟩ : Rel ℚ ℚ).correlate ⟨⟨0, 1, 1⟩, [2, -1]⟩ =
        .ok ⟨⟨-6, 6, 1⟩, [0, 0, 0, 0, 0, -2, 5, -3, 2, -6, 14, -4, 0]⟩ ∧
      energy ([2, -1] : List ℚ) = 5 ∧ energy ([0, 0, 1, 0, 0, 1, 0] : List ℚ) = 2 := by
  refine ⟨⟨rfl, ?_⟩, ?_, ?_, ?_⟩ <;> decide +kernel

/-- the conditions of `C145_detect` for the echo of factor three and `ρ = 2/5`: they hold at every lag but its own -/
example : 4 * energy ([0, 0, 1, 0, 0, 1, 0] : List ℚ) < (|(3 : ℚ)| * (1 - 2 / 5)) ^ 2 * energy ([2, -1] : List ℚ) ∧
    ∀ j : ℕ, j < 13 → j ≠ 10 → |overlap ([2, -1] : List ℚ) [2, -1] ((j : ℤ) - (6 : ℕ) - (4 : ℕ))| ≤ 2 / 5 * energy ([2, -1] : List ℚ) := by
  constructor <;> decide +kernel

end SweepDesign
