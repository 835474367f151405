import Verif.Validation
import Verif.Props.FloatSweep
import Verif.Props.Exceptions
import Verif.Props.SineWaves

/-!
# What the tutorial printed, in the model

`/repo/docs/tutorial.ipynb` keeps the output of its cells. Cells 6 to 10 make `ArrayAxis(start=0., end=10., sample=0.001)` and print
10001 for `size` and 0.0009999999999994458 for `actual_sample`: the float model gives these doubles. The norm of cell 21, 5000.0, is
`C159_tutorial`, the peaks of cell 47 are `C160_tutorial`. Two sentences of the tutorial are not what the code does: see the end.
-/

namespace SweepDesign.Tutorial
open Tests

/-- in the binade `2^e ≤ q < 2^(e+1)` doubles are multiples of `2^(e-52)` and rounding moves by at most half of that -/
theorem fl64_grid (q : ℚ) (e : ℤ) (h1 : (2 : ℚ) ^ e ≤ q) (h2 : q < (2 : ℚ) ^ (e + 1)) :
    (∃ m : ℤ, fl64 q = m * (2 : ℚ) ^ (e - 52)) ∧ |fl64 q - q| ≤ (2 : ℚ) ^ (e - 53) := by
  have hp : (0 : ℚ) < 2 ^ e := by positivity
  have hq : q ≠ 0 := (hp.trans_le h1).ne'
  obtain ⟨b1, b2⟩ := binExp_bounds q hq
  rw [abs_of_pos (hp.trans_le h1)] at b1 b2
  have he : binExp q = e := by
    have c1 := (zpow_lt_zpow_iff_right₀ (one_lt_two (α := ℚ))).1 (b1.trans_lt h2)
    have c2 := (zpow_lt_zpow_iff_right₀ (one_lt_two (α := ℚ))).1 (h1.trans_lt b2)
    omega
  have hk : (0 : ℚ) < 2 ^ (e - 52) := by positivity
  have hf : fl64 q = (pyRound (q / (2 : ℚ) ^ (e - 52)) : ℚ) * (2 : ℚ) ^ (e - 52) := by rw [fl64, if_neg hq, he]
  refine ⟨⟨_, hf⟩, ?_⟩
  have hr := abs_sub_pyRound_le (q / (2 : ℚ) ^ (e - 52))
  rw [abs_sub_comm] at hr
  have : fl64 q - q = ((pyRound (q / (2 : ℚ) ^ (e - 52)) : ℚ) - q / (2 : ℚ) ^ (e - 52)) * 2 ^ (e - 52) := by
    rw [hf, sub_mul, div_mul_cancel₀ _ hk.ne']
  rw [this, abs_mul, abs_of_pos hk, show e - 53 = (e - 52) + -1 by ring, zpow_add₀ two_ne_zero, mul_comm]
  refine mul_le_mul_of_nonneg_left (hr.trans (le_of_eq ?_)) hk.le
  norm_num

/-- the double 0.001, the step of the axis -/
def step : ℚ := 4611686018427388 / 2 ^ 62

/-- the double 0.0009999999999994458 -/
def printed : ℚ := 562949953421 / 2 ^ 49

theorem step_eq : fl64 (1 / 1000) = step ∧ dbl 1 1000 = step ∧ dbl 9999999999994458 (10 ^ 19) = printed := by
  refine ⟨?_, ?_, ?_⟩ <;> decide +kernel

/-- a point of the axis before the last -/
def point (i : ℕ) : ℚ := fl64 (i * step)

/-- below 4 neighbouring points are not closer -/
theorem below_four (i : ℕ) (h1 : 1 ≤ i) (h2 : i + 1 < 4000) : printed ≤ fl64 (point (i + 1) - point i) := by
  have near : ∀ j : ℕ, 1 ≤ j → j < 4000 → |point j - j * step| ≤ 2 ^ (-52 : ℤ) := by
    intro j j1 j2
    have c1 : (1 : ℚ) ≤ j := by exact_mod_cast j1
    have c2 : (j : ℚ) ≤ 3999 := by exact_mod_cast (by omega : j ≤ 3999)
    have hs : (0 : ℚ) < j * step := by unfold step; positivity
    obtain ⟨b1, b2⟩ := binExp_bounds _ hs.ne'
    rw [abs_of_pos hs] at b1 b2
    have h4 : (j : ℚ) * step < 2 ^ (2 : ℤ) := by
      have : (j : ℚ) * step ≤ 3999 * step := mul_le_mul_of_nonneg_right c2 (by unfold step; positivity)
      refine this.trans_lt ?_
      norm_num [step]
    have he := (zpow_lt_zpow_iff_right₀ (one_lt_two (α := ℚ))).1 (b1.trans_lt h4)
    refine (fl64_grid _ _ b1 b2).2.trans (zpow_le_zpow_right₀ one_le_two (by omega))
  have n1 := abs_le.1 (near i h1 (by omega))
  have n2 := abs_le.1 (near (i + 1) (by omega) h2)
  push_cast at n2
  set d := point (i + 1) - point i with hd
  have lo : step - 2 * 2 ^ (-52 : ℤ) ≤ d := by rw [hd]; linarith [n1.2, n2.1]
  have hi : d ≤ step + 2 * 2 ^ (-52 : ℤ) := by rw [hd]; linarith [n1.1, n2.2]
  have r := abs_le.1 (fl64_relErr d)
  have hd0 : 0 ≤ d := le_trans (by norm_num [step]) lo
  rw [abs_of_nonneg hd0] at r
  have : d - (2 : ℚ) ^ (-53 : ℤ) * d ≤ fl64 d := by linarith [r.1]
  refine le_trans ?_ this
  have e : d - (2 : ℚ) ^ (-53 : ℤ) * d = (1 - (2 : ℚ) ^ (-53 : ℤ)) * d := by ring
  rw [e]
  refine le_trans ?_ (mul_le_mul_of_nonneg_left lo (by norm_num))
  norm_num [step, printed]

/-- nor in the binades from 4 and from 8 -/
theorem in_binade (e : ℤ) (he : e = 2 ∨ e = 3) (i : ℕ) (h1 : (2 : ℚ) ^ e ≤ i * step) (h2 : ((i : ℚ) + 1) * step < (2 : ℚ) ^ (e + 1)) :
    printed ≤ fl64 (point (i + 1) - point i) := by
  have hs : (0 : ℚ) < step := by unfold step; positivity
  obtain ⟨⟨m1, e1⟩, n1⟩ := fl64_grid ((i : ℚ) * step) e h1 (by linarith)
  obtain ⟨⟨m2, e2⟩, n2⟩ := fl64_grid (((i : ℚ) + 1) * step) e (by linarith) h2
  have n1 := abs_le.1 n1
  have n2 := abs_le.1 n2
  have p2 : point (i + 1) = fl64 (((i : ℚ) + 1) * step) := by unfold point; push_cast; rfl
  have hd : point (i + 1) - point i = ((m2 - m1 : ℤ) : ℚ) * 2 ^ (e - 52) := by
    rw [p2, point, e1, e2]; push_cast; ring
  have lo : step - 2 * 2 ^ (e - 53) ≤ point (i + 1) - point i := by rw [p2, point]; linarith [n1.2, n2.1]
  have hi : point (i + 1) - point i ≤ step + 2 * 2 ^ (e - 53) := by rw [p2, point]; linarith [n1.1, n2.2]
  rw [hd] at lo hi ⊢
  have key : ∀ V : ℤ, printed = V * 2 ^ (e - 52) → step + 2 * 2 ^ (e - 53) ≤ (2 ^ 53 : ℚ) * 2 ^ (e - 52) →
      ((V : ℚ) - 1) * 2 ^ (e - 52) < step - 2 * 2 ^ (e - 53) → 1 ≤ V → printed ≤ fl64 (((m2 - m1 : ℤ) : ℚ) * 2 ^ (e - 52)) := by
    intro V hV hbig hsmall hV1
    have hk : (0 : ℚ) < 2 ^ (e - 52) := by positivity
    have c1 : (V : ℚ) - 1 < ((m2 - m1 : ℤ) : ℚ) := lt_of_mul_lt_mul_right (hsmall.trans_le lo) hk.le
    have c2 : ((m2 - m1 : ℤ) : ℚ) ≤ 2 ^ 53 := le_of_mul_le_mul_right (hi.trans hbig) hk
    have c1' : V - 1 < m2 - m1 := by exact_mod_cast c1
    have c2' : m2 - m1 ≤ 2 ^ 53 := by exact_mod_cast c2
    rw [fl64_of_int _ _ (by rw [abs_of_nonneg (by omega)]; exact c2'), hV]
    refine mul_le_mul_of_nonneg_right ?_ hk.le
    exact_mod_cast (by omega : V ≤ m2 - m1)
  rcases he with rfl | rfl
  · refine key 1125899906842 ?_ ?_ ?_ (by norm_num) <;> norm_num [printed, step]
  · refine key 562949953421 ?_ ?_ ?_ (by norm_num) <;> norm_num [printed, step]

theorem axis_length : (flLinspace fl64 0 10 10001).length = 10001 := by simp [flLinspace]

theorem axis_point (i : ℕ) (h : i < 10000) (hl : i < (flLinspace fl64 0 10 10001).length) :
    (flLinspace fl64 0 10 10001)[i] = point i := by
  have hs : fl64 (fl64 (10 - 0) / (((10001 : ℕ) : ℚ) - 1)) = step := by decide +kernel
  have h0 : step ≠ 0 := by norm_num [step]
  have hn : ¬ (10001 : ℕ) ≤ 1 := by norm_num
  simp only [flLinspace, hs, if_neg hn, List.getElem_map, List.getElem_range, if_neg h0]
  rw [if_neg (by omega), add_zero, fl64_idem, point]

theorem axis_last (hl : 10000 < (flLinspace fl64 0 10 10001).length) : (flLinspace fl64 0 10 10001)[10000] = 10 := by
  simp [flLinspace]

/-- Cells 8 and 10: the axis has 10001 points and the smallest difference between neighbours is the printed one. -/
theorem axis_printed :
    (⟨0, 10, dbl 1 1000⟩ : Axis ℚ).flArray fl64 = .ok (flLinspace fl64 0 10 10001) ∧
    (flLinspace fl64 0 10 10001).length = 10001 ∧
    flActualSample fl64 (flLinspace fl64 0 10 10001) = .ok (dbl 9999999999994458 (10 ^ 19)) := by
  refine ⟨?_, axis_length, ?_⟩
  · have h0 : dbl 1 1000 ≠ 0 := by rw [step_eq.2.1]; norm_num [step]
    have hc : (pyRound |fl64 (fl64 (10 - 0) / dbl 1 1000)|).toNat + 1 = 10001 := by decide +kernel
    rw [Axis.flArray, if_neg h0, hc]
  · have hlen : ((npDiff (flLinspace fl64 0 10 10001)).map fl64).length = 10000 := by
      rw [List.length_map, npDiff_length, axis_length]
    have at' : ∀ (i : ℕ) (h : i < ((npDiff (flLinspace fl64 0 10 10001)).map fl64).length), i < 9999 →
        ((npDiff (flLinspace fl64 0 10 10001)).map fl64)[i] = fl64 (point (i + 1) - point i) := by
      intro i h hi
      rw [List.getElem_map, npDiff_getElem, axis_point i (by omega), axis_point (i + 1) (by omega)]
      rw [axis_length]; omega
    have last : ((npDiff (flLinspace fl64 0 10 10001)).map fl64)[9999]'(by rw [hlen]; norm_num) = fl64 (10 - point 9999) := by
      rw [List.getElem_map, npDiff_getElem, axis_point 9999 (by norm_num), axis_last]
      rw [axis_length]; norm_num
    rw [step_eq.2.2, flActualSample]
    apply npMin_eq
    · have : fl64 (point 4002 - point 4001) = printed := by decide +kernel
      rw [← this, ← at' 4001 (by rw [hlen]; norm_num) (by norm_num)]
      exact List.getElem_mem _
    · intro a ha
      obtain ⟨i, hi, rfl⟩ := List.getElem_of_mem ha
      rw [hlen] at hi
      rcases (show i < 9999 ∨ i = 9999 by omega) with h | rfl
      · rw [at' i _ h]
        have lower : ∀ (k : ℕ), k ≤ i → (k : ℚ) * step ≤ i * step := fun k hk =>
          mul_le_mul_of_nonneg_right (by exact_mod_cast hk) (by norm_num [step])
        have upper : ∀ (k : ℕ), i + 1 ≤ k → ((i : ℚ) + 1) * step ≤ k * step := fun k hk =>
          mul_le_mul_of_nonneg_right (by exact_mod_cast hk) (by norm_num [step])
        rcases (show i = 0 ∨ i = 3999 ∨ i = 7999 ∨ (1 ≤ i ∧ i + 1 < 4000) ∨ (4000 ≤ i ∧ i + 1 ≤ 7999) ∨ (8000 ≤ i ∧ i + 1 ≤ 10000) by omega)
          with rfl | rfl | rfl | ⟨a, b⟩ | ⟨a, b⟩ | ⟨a, b⟩
        · decide +kernel
        · decide +kernel
        · decide +kernel
        · exact below_four i a b
        · refine in_binade 2 (Or.inl rfl) i (le_trans ?_ (lower _ a)) ((upper _ b).trans_lt ?_) <;> norm_num [step]
        · refine in_binade 3 (Or.inr rfl) i (le_trans ?_ (lower _ a)) ((upper _ b).trans_lt ?_) <;> norm_num [step]
      · rw [last]
        decide +kernel

/-- Cell 24 says that `shift(c)` is `y = f(x + c)`. The code gives `f(x - c)`: after `shift(2)` the relation `y = x` on 0 .. 3 is 1 at
the time 3, which is `f(3 - 2)`; `f(3 + 2)` does not exist. -/
theorem shift_sign : ∃ q, (⟨⟨0, 3, 1⟩, [0, 1, 2, 3]⟩ : Rel ℚ ℚ).shift 2 = .ok q ∧ q.getData = .ok ([2, 3, 4, 5], [0, 1, 2, 3]) := by
  refine ⟨⟨⟨2, 5, 1⟩, [0, 1, 2, 3]⟩, ?_, ?_⟩ <;> decide +kernel

/-- Cell 11 says that `actual_sample` is the common difference of neighbours. It is the smallest, however rare: here 1/2, though three of
four differences are 1. -/
theorem actual_sample_smallest : flActualSample fl64 [0, 1, 2, 3, 7 / 2] = .ok (1 / 2) := by decide +kernel

end SweepDesign.Tutorial
