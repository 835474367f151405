import Verif.Props.EnergyPeak
import Verif.Props.SineWaves
import Verif.Lemmas.Fourier

/-!
# C168: the energies of harmonics add
-/

set_option linter.unusedSectionVars false

namespace SweepDesign
open Spec Real

noncomputable section

/-- sine waves of `m` cycles in the time `T` -/
def Spec.harmonics (S : Finset ℕ) (A p : ℕ → ℝ) (T t : ℝ) : ℝ := ∑ m ∈ S, A m * sin (2 * π * m * t / T + p m)

theorem cosines_phase (k : ℕ) (hk : 0 < k) (a : ℤ) (φ : ℝ) :
    ∑ i ∈ Finset.range k, cos (2 * π * a * i / k + φ) = if (k : ℤ) ∣ a then k * cos φ else 0 := by
  have e : ∀ i ∈ Finset.range k, cos (2 * π * a * i / k + φ) = (Complex.exp (φ * Complex.I) * unitRoot k (a * i)).re := by
    intro i _
    unfold unitRoot
    rw [← Complex.exp_add, show (φ : ℂ) * Complex.I + 2 * π * Complex.I * ((a * i : ℤ) : ℂ) / (k : ℂ) =
      ((2 * π * a * i / k + φ : ℝ) : ℂ) * Complex.I by push_cast; ring, Complex.exp_ofReal_mul_I_re]
  rw [Finset.sum_congr rfl e, ← Complex.re_sum, ← Finset.mul_sum, unitRoot_sum k hk]
  split_ifs
  · rw [mul_comm, ← Complex.ofReal_natCast, Complex.re_ofReal_mul, Complex.exp_ofReal_mul_I_re]
  · simp

/-- two harmonics below half the number of samples -/
theorem harmonics_product (k : ℕ) (m n : ℕ) (hm : 1 ≤ m) (hn : 1 ≤ n) (hmk : 2 * m < k) (hnk : 2 * n < k) (α β : ℝ) :
    ∑ i ∈ Finset.range k, sin (2 * π * m * i / k + α) * sin (2 * π * n * i / k + β) = if m = n then k / 2 * cos (α - β) else 0 := by
  have e : ∀ i ∈ Finset.range k, sin (2 * π * m * i / k + α) * sin (2 * π * n * i / k + β) =
      (cos (2 * π * ((m - n : ℤ) : ℝ) * i / k + (α - β)) - cos (2 * π * ((m + n : ℤ) : ℝ) * i / k + (α + β))) / 2 := by
    intro i _
    rw [show 2 * π * ((m - n : ℤ) : ℝ) * i / k + (α - β) = (2 * π * m * i / k + α) - (2 * π * n * i / k + β) by push_cast; ring,
      show 2 * π * ((m + n : ℤ) : ℝ) * i / k + (α + β) = (2 * π * m * i / k + α) + (2 * π * n * i / k + β) by push_cast; ring,
      cos_sub (2 * π * m * i / k + α), cos_add (2 * π * m * i / k + α)]
    ring
  have h1 : ((k : ℤ) ∣ (m - n : ℤ)) ↔ m = n := by
    refine ⟨fun h => ?_, fun h => by simp [h]⟩
    have := Int.eq_zero_of_abs_lt_dvd h (by rw [abs_lt]; omega)
    omega
  have h2 : ¬ ((k : ℤ) ∣ (m + n : ℤ)) := by
    intro h
    have := Int.le_of_dvd (by omega) h
    omega
  rw [Finset.sum_congr rfl e, ← Finset.sum_div, Finset.sum_sub_distrib, cosines_phase k (by omega), cosines_phase k (by omega), if_neg h2,
    sub_zero]
  simp only [h1]
  split_ifs <;> ring

variable {r : Rel ℝ ℝ} {k : ℕ} {S : Finset ℕ} {A p : ℕ → ℝ}

theorem harmonics_at (hs : 0 < r.x.sample) (hk : 1 ≤ k) (j : ℕ) :
    harmonics S A p (k * r.x.sample) (r.x.start + (j : ℝ) * r.x.sample) =
      ∑ m ∈ S, A m * sin (2 * π * m * j / k + (2 * π * m * (r.x.start / r.x.sample) / k + p m)) := by
  unfold harmonics
  refine Finset.sum_congr rfl fun m _ => ?_
  congr 2
  have : (k : ℝ) ≠ 0 := by exact_mod_cast (by omega : k ≠ 0)
  field_simp
  ring

/-- **C168.** The norm of a sum of sine waves with whole numbers of cycles over the axis, fewer than half its steps, is half the number of
steps times the sum of the squared amplitudes, whatever the phases. -/
theorem C168_norm [PyPow ℝ] (h : SampledOn r k (harmonics S A p (k * r.x.sample))) (hS : ∀ m ∈ S, 1 ≤ m ∧ 2 * m < k) :
    r.getNorm = .ok (k / 2 * ∑ m ∈ S, A m ^ 2) := by
  have hk := h.two
  have hk0 : (k : ℝ) ≠ 0 := by exact_mod_cast (by omega : k ≠ 0)
  obtain ⟨-, hn⟩ := norm_whole r h.balanced k h.rising h.whole
  obtain ⟨-, hv⟩ := samples_whole h.rising h.whole h.samples
  rw [hn, Except.ok.injEq]
  have hper : r.y.getD k 0 = r.y.getD 0 0 := by
    rw [hv k le_rfl, hv 0 (by omega), harmonics_at h.rising hk, harmonics_at h.rising hk]
    refine Finset.sum_congr rfl fun m _ => ?_
    rw [show 2 * π * m * (k : ℝ) / k + (2 * π * m * (r.x.start / r.x.sample) / k + p m) =
      2 * π * m * ((0 : ℕ) : ℝ) / k + (2 * π * m * (r.x.start / r.x.sample) / k + p m) + m * (2 * π) by
        rw [mul_div_assoc, div_self hk0]; push_cast; ring, sin_add_nat_mul_two_pi]
  rw [Finset.sum_range_succ, hper, add_self_div_two, add_sub_cancel_right]
  set c := fun m : ℕ => 2 * π * m * (r.x.start / r.x.sample) / k + p m with hc
  have e : ∀ j ∈ Finset.range k, r.y.getD j 0 ^ 2 = ∑ m ∈ S, ∑ n ∈ S, A m * A n *
      (sin (2 * π * m * j / k + c m) * sin (2 * π * n * j / k + c n)) := by
    intro j hj
    rw [hv j (Finset.mem_range.1 hj).le, harmonics_at h.rising hk, pow_two, Finset.sum_mul_sum]
    refine Finset.sum_congr rfl fun m _ => Finset.sum_congr rfl fun n _ => ?_
    simp only [hc]
    ring
  rw [Finset.sum_congr rfl e, Finset.sum_comm, Finset.mul_sum]
  refine Finset.sum_congr rfl fun m hm => ?_
  rw [Finset.sum_comm]
  have e2 : ∀ n ∈ S, ∑ j ∈ Finset.range k, A m * A n * (sin (2 * π * m * j / k + c m) * sin (2 * π * n * j / k + c n)) =
      if m = n then k / 2 * A m ^ 2 else 0 := by
    intro n hn
    rw [← Finset.mul_sum, harmonics_product k m n (hS m hm).1 (hS n hn).1 (hS m hm).2 (hS n hn).2]
    split_ifs with hmn
    · rw [← hmn, sub_self, cos_zero]; ring
    · ring
  rw [Finset.sum_congr rfl e2, Finset.sum_ite_eq, if_pos hm]

/-- **C168.** Above half the number of steps this fails: `m` and `k - m` cycles from time zero cancel, and the norm is zero. -/
theorem C168_alias [PyPow ℝ] (m : ℕ) (hm : 2 * m < k) (h0 : r.x.start = 0)
    (h : SampledOn r k (harmonics {m, k - m} (fun _ => 1) (fun _ => 0) (k * r.x.sample))) : r.getNorm = .ok 0 := by
  have hk := h.two
  have hk0 : (k : ℝ) ≠ 0 := by exact_mod_cast (by omega : k ≠ 0)
  obtain ⟨-, hn⟩ := norm_whole r h.balanced k h.rising h.whole
  obtain ⟨-, hv⟩ := samples_whole h.rising h.whole h.samples
  have hz : ∀ j ≤ k, r.y.getD j 0 = 0 := by
    intro j hj
    rw [hv j hj, harmonics_at h.rising hk, h0, Finset.sum_pair (by omega), Nat.cast_sub (by omega)]
    rw [show 2 * π * ((k : ℝ) - m) * j / k + (2 * π * ((k : ℝ) - m) * (0 / r.x.sample) / k + 0) =
      j * (2 * π) - 2 * π * m * j / k by field_simp; ring, sin_nat_mul_two_pi_sub]
    simp
  rw [hn, hz 0 (by omega), hz k le_rfl, Finset.sum_congr rfl fun j hj => by rw [hz j (by have := Finset.mem_range.1 hj; omega)]]
  simp

end

/-- one and two cycles over eight steps of a quarter: four times the sum of the squares of 3 and 4 -/
example : (∀ m ∈ ({1, 2} : Finset ℕ), 1 ≤ m ∧ 2 * m < 8) ∧ (8 : ℝ) / 2 * ∑ m ∈ ({1, 2} : Finset ℕ), (m + 2 : ℝ) ^ 2 = 100 := by
  refine ⟨by decide, ?_⟩
  rw [Finset.sum_pair (by norm_num)]
  norm_num

/-- such a relation exists for every axis of whole steps -/
example : ∃ r : Rel ℝ ℝ, SampledOn r 8 (harmonics {1, 2} (fun m => m + 2) (fun m => m) ((8 : ℕ) * r.x.sample)) := by
  refine ⟨⟨⟨0, 2, 1 / 4⟩, ((List.range 9).map fun i : ℕ => (0 : ℝ) + i * (1 / 4)).map
    (harmonics {1, 2} (fun m => m + 2) (fun m => m) ((8 : ℕ) * (1 / 4)))⟩, by norm_num, by norm_num, by norm_num, _,
    (getData_ok_iff _ _ _).2 ⟨array_whole _ 8 (by norm_num) (by norm_num), rfl, by simp⟩⟩

end SweepDesign
