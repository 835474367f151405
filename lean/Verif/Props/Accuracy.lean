import Verif.Props.Arithmetic
import Verif.Props.Relation
import Verif.Props.Extremes
import Verif.Lemmas.Spectral
import Mathlib.Analysis.Convex.Deriv
import Mathlib.Analysis.Calculus.Deriv.MeanValue
import Mathlib.Analysis.SpecialFunctions.Integrals.Basic

/-!
# C129: how close resampling, integrating and differentiating come to the function that was sampled

A relation holds samples of some function `f`. `interpolate_extrapolate`, `integrate`, `one_integrate` and `diff` see only the samples; the
theorems here compare their results with `f`, its integral and its derivative.
-/

set_option linter.unusedSectionVars false

namespace SweepDesign
open Spec

noncomputable section

/-- on `[a, b]` (in either order) the function `f` has derivative `f'`, which itself changes at a rate of at most `M` -/
def Spec.BendsAtMost (M : ℝ) (f f' : ℝ → ℝ) (a b : ℝ) : Prop :=
  ∃ f'' : ℝ → ℝ, ∀ t ∈ Set.uIcc a b, HasDerivAt f (f' t) t ∧ HasDerivAt f' (f'' t) t ∧ |f'' t| ≤ M

/-- on `[a, b]` (in either order) `f` has derivatives `f'` and `f''`, and `f''` changes by at most `M` per unit -/
def Spec.TwistsAtMost (M : ℝ) (f f' : ℝ → ℝ) (a b : ℝ) : Prop :=
  ∃ f'' : ℝ → ℝ, (∀ t ∈ Set.uIcc a b, HasDerivAt f (f' t) t ∧ HasDerivAt f' (f'' t) t) ∧
    ∀ t ∈ Set.uIcc a b, ∀ u ∈ Set.uIcc a b, |f'' t - f'' u| ≤ M * |t - u|

/-- the values of the relation are those of `f` at the points of its axis -/
def Spec.SamplesOf (r : Rel ℝ ℝ) (f : ℝ → ℝ) : Prop := ∃ lx, r.getData = .ok (lx, lx.map f)

/-! ### one cell -/

theorem chord_upper {M : ℝ} {f f' f'' : ℝ → ℝ} {a b : ℝ} (hab : a < b)
    (hf : ∀ t ∈ Set.Icc a b, HasDerivAt f (f' t) t ∧ HasDerivAt f' (f'' t) t ∧ f'' t ≤ M) (t : ℝ) (ht : t ∈ Set.Icc a b) :
    f a + (t - a) / (b - a) * (f b - f a) - f t ≤ M / 2 * ((t - a) * (b - t)) := by
  have hc : ConvexOn ℝ (Set.Icc a b) fun t => M / 2 * t ^ 2 - f t := by
    refine convexOn_of_hasDerivWithinAt2_nonneg (convex_Icc a b) (f' := fun t => M * t - f' t) (f'' := fun t => M - f'' t) ?_ ?_ ?_ ?_
    · exact fun u hu => ((((hasDerivAt_pow 2 u).const_mul (M / 2)).sub (hf u hu).1).continuousAt).continuousWithinAt
    · intro u hu
      have h := ((hasDerivAt_pow 2 u).const_mul (M / 2)).sub (hf u (interior_subset hu)).1
      refine (h.congr_deriv ?_).hasDerivWithinAt
      simp; ring
    · intro u hu
      have h := ((hasDerivAt_id u).const_mul M).sub (hf u (interior_subset hu)).2.1
      refine (h.congr_deriv ?_).hasDerivWithinAt
      simp
    · exact fun u hu => sub_nonneg.2 (hf u (interior_subset hu)).2.2
  have hd : 0 < b - a := sub_pos.2 hab
  have hsum : (b - t) / (b - a) + (t - a) / (b - a) = 1 := by field_simp; ring
  have h := hc.2 (Set.left_mem_Icc.2 hab.le) (Set.right_mem_Icc.2 hab.le)
    (div_nonneg (sub_nonneg.2 ht.2) hd.le) (div_nonneg (sub_nonneg.2 ht.1) hd.le) hsum
  have e : ((b - t) / (b - a)) • a + ((t - a) / (b - a)) • b = t := by
    simp only [smul_eq_mul]; field_simp; ring
  rw [e] at h
  simp only [smul_eq_mul] at h
  have e1 : (b - t) / (b - a) * (M / 2 * a ^ 2 - f a) + (t - a) / (b - a) * (M / 2 * b ^ 2 - f b) =
      M / 2 * t ^ 2 + M / 2 * ((t - a) * (b - t)) - (f a + (t - a) / (b - a) * (f b - f a)) := by
    field_simp; ring
  linarith

theorem chord_near {M : ℝ} {f f' f'' : ℝ → ℝ} {a b : ℝ} (hab : a < b)
    (hf : ∀ t ∈ Set.Icc a b, HasDerivAt f (f' t) t ∧ HasDerivAt f' (f'' t) t ∧ |f'' t| ≤ M) (t : ℝ) (ht : t ∈ Set.Icc a b) :
    |f a + (t - a) / (b - a) * (f b - f a) - f t| ≤ M / 2 * ((t - a) * (b - t)) := by
  rw [abs_le]
  constructor
  · have h := chord_upper (f := fun t => - f t) (f' := fun t => - f' t) (f'' := fun t => - f'' t) hab
      (fun u hu => ⟨(hf u hu).1.neg, (hf u hu).2.1.neg, (neg_le_abs _).trans (hf u hu).2.2⟩) t ht
    have e : -f a + (t - a) / (b - a) * (-f b - -f a) - -f t = -(f a + (t - a) / (b - a) * (f b - f a) - f t) := by ring
    simp only [e] at h
    linarith
  · exact chord_upper hab (fun u hu => ⟨(hf u hu).1, (hf u hu).2.1, (le_abs_self _).trans (hf u hu).2.2⟩) t ht

theorem trapezoid_near {M : ℝ} {f f' f'' : ℝ → ℝ} {a b : ℝ} (hab : a < b)
    (hf : ∀ t ∈ Set.Icc a b, HasDerivAt f (f' t) t ∧ HasDerivAt f' (f'' t) t ∧ |f'' t| ≤ M) :
    |(b - a) * ((f a + f b) / 2) - ∫ t in a..b, f t| ≤ M * (b - a) ^ 3 / 12 := by
  have hd : b - a ≠ 0 := (sub_pos.2 hab).ne'
  have hcf : ContinuousOn f (Set.uIcc a b) := by
    rw [Set.uIcc_of_le hab.le]; exact fun u hu => (hf u hu).1.continuousAt.continuousWithinAt
  have hline : ∫ t in a..b, (f a + (t - a) / (b - a) * (f b - f a)) = (b - a) * ((f a + f b) / 2) := by
    have e : (fun t => f a + (t - a) / (b - a) * (f b - f a)) =
        fun t => (f a - a * ((f b - f a) / (b - a))) + (f b - f a) / (b - a) * t := by funext t; field_simp; ring
    rw [e, intervalIntegral.integral_add (by simp) (Continuous.intervalIntegrable (by fun_prop) _ _)]
    rw [intervalIntegral.integral_const, intervalIntegral.integral_const_mul, integral_id]
    simp only [smul_eq_mul]; field_simp; ring
  rw [← hline, ← intervalIntegral.integral_sub (Continuous.intervalIntegrable (by fun_prop) _ _) hcf.intervalIntegrable]
  have hb : ∫ t in a..b, M / 2 * ((t - a) * (b - t)) = M * (b - a) ^ 3 / 12 := by
    have e : (fun t => M / 2 * ((t - a) * (b - t))) = fun t => M / 2 * (((a + b) * t - t ^ 2) - a * b) := by funext t; ring
    rw [e, intervalIntegral.integral_const_mul, intervalIntegral.integral_sub (Continuous.intervalIntegrable (by fun_prop) _ _) (by simp),
      intervalIntegral.integral_sub (Continuous.intervalIntegrable (by fun_prop) _ _) (by simp), intervalIntegral.integral_const_mul, integral_id, integral_pow,
      intervalIntegral.integral_const]
    simp only [smul_eq_mul]; push_cast; ring
  rw [← hb]
  have hi : IntervalIntegrable (fun t => M / 2 * ((t - a) * (b - t))) MeasureTheory.volume a b :=
    Continuous.intervalIntegrable (by fun_prop) _ _
  have hle := intervalIntegral.norm_integral_le_of_norm_le (μ := MeasureTheory.volume)
    (f := fun t => f a + (t - a) / (b - a) * (f b - f a) - f t) hab.le
    (Filter.Eventually.of_forall fun t ht => by
      rw [Real.norm_eq_abs]; exact chord_near hab hf t ⟨ht.1.le, ht.2⟩) hi
  exact hle

theorem grows {φ φ' : ℝ → ℝ} {c : ℝ} (hc : 0 ≤ c) (h : ∀ u ∈ Set.Icc 0 c, HasDerivAt φ (φ' u) u ∧ 0 ≤ φ' u) : φ 0 ≤ φ c := by
  refine monotoneOn_of_deriv_nonneg (convex_Icc 0 c) (fun u hu => (h u hu).1.continuousAt.continuousWithinAt)
    (fun u hu => (h u (interior_subset hu)).1.differentiableAt.differentiableWithinAt) (fun u hu => ?_)
    (Set.left_mem_Icc.2 hc) (Set.right_mem_Icc.2 hc) hc
  rw [(h u (interior_subset hu)).1.deriv]
  exact (h u (interior_subset hu)).2

theorem grows_at_most {φ φ' ψ ψ' : ℝ → ℝ} {c : ℝ} (hc : 0 ≤ c) (h : ∀ u ∈ Set.Icc 0 c, HasDerivAt φ (φ' u) u ∧ HasDerivAt ψ (ψ' u) u ∧ |φ' u| ≤ ψ' u)
    (h0 : φ 0 = 0) (h1 : ψ 0 = 0) : |φ c| ≤ ψ c := by
  have a := grows (φ := fun u => ψ u - φ u) (φ' := fun u => ψ' u - φ' u) hc fun u hu =>
    ⟨(h u hu).2.1.sub (h u hu).1, sub_nonneg.2 ((le_abs_self _).trans (h u hu).2.2)⟩
  have b := grows (φ := fun u => ψ u + φ u) (φ' := fun u => ψ' u + φ' u) hc fun u hu =>
    ⟨(h u hu).2.1.add (h u hu).1, by have := (neg_le_abs (φ' u)).trans (h u hu).2.2; linarith⟩
  simp only [h0, h1] at a b
  rw [abs_le]; constructor <;> linarith

/-- the slope of the chord over `[m - c, m + c]` and the derivative in the middle, knowing the second derivative -/
theorem slope_near {M : ℝ} {f f' f'' : ℝ → ℝ} {m c : ℝ} (hc : 0 ≤ c)
    (hf : ∀ t ∈ Set.Icc (m - c) (m + c), HasDerivAt f (f' t) t ∧ HasDerivAt f' (f'' t) t ∧ |f'' t| ≤ M) :
    |f (m + c) - f (m - c) - 2 * c * f' m| ≤ M * c ^ 2 := by
  have hin : ∀ u ∈ Set.Icc 0 c, m + u ∈ Set.Icc (m - c) (m + c) ∧ m - u ∈ Set.Icc (m - c) (m + c) := fun u hu =>
    ⟨⟨by linarith [hu.1], by linarith [hu.2]⟩, ⟨by linarith [hu.2], by linarith [hu.1]⟩⟩
  have hp : ∀ (g g' : ℝ → ℝ) (u : ℝ), HasDerivAt g (g' (m + u)) (m + u) → HasDerivAt (fun u => g (m + u)) (g' (m + u)) u := fun g g' u h => by
    simpa using h.comp_const_add m u
  have hn : ∀ (g g' : ℝ → ℝ) (u : ℝ), HasDerivAt g (g' (m - u)) (m - u) → HasDerivAt (fun u => g (m - u)) (-g' (m - u)) u := fun g g' u h => by
    simpa using h.comp_const_sub m u
  -- the derivative stays near its value in the middle
  have h1 : ∀ u ∈ Set.Icc 0 c, |f' (m + u) - f' m| ≤ M * u ∧ |f' (m - u) - f' m| ≤ M * u := by
    intro u hu
    have hsub : ∀ v ∈ Set.Icc 0 u, v ∈ Set.Icc 0 c := fun v hv => ⟨hv.1, hv.2.trans hu.2⟩
    constructor
    · exact grows_at_most (φ := fun u => f' (m + u) - f' m) (φ' := fun u => f'' (m + u)) (ψ := fun u => M * u) (ψ' := fun _ => M) hu.1 (fun v hv =>
        ⟨(hp f' f'' v (hf _ (hin v (hsub v hv)).1).2.1).sub_const _, by simpa using (hasDerivAt_id v).const_mul M, (hf _ (hin v (hsub v hv)).1).2.2⟩)
        (by simp) (by simp)
    · exact grows_at_most (φ := fun u => f' (m - u) - f' m) (φ' := fun u => -f'' (m - u)) (ψ := fun u => M * u) (ψ' := fun _ => M) hu.1 (fun v hv =>
        ⟨(hn f' f'' v (hf _ (hin v (hsub v hv)).2).2.1).sub_const _, by simpa using (hasDerivAt_id v).const_mul M,
          by rw [abs_neg]; exact (hf _ (hin v (hsub v hv)).2).2.2⟩) (by simp) (by simp)
  refine grows_at_most (φ := fun u => f (m + u) - f (m - u) - 2 * u * f' m) (φ' := fun u => f' (m + u) - -f' (m - u) - 2 * 1 * f' m)
    (ψ := fun u => M * u ^ 2) (ψ' := fun u => M * (2 * u)) hc (fun u hu => ⟨?_, ?_, ?_⟩) (by simp) (by simp)
  · exact ((hp f f' u (hf _ (hin u hu).1).1).sub (hn f f' u (hf _ (hin u hu).2).1)).sub (((hasDerivAt_id u).const_mul 2).mul_const _)
  · simpa using (hasDerivAt_pow 2 u).const_mul M
  · have e : f' (m + u) - -f' (m - u) - 2 * 1 * f' m = (f' (m + u) - f' m) + (f' (m - u) - f' m) := by ring
    rw [e]
    refine (abs_add_le _ _).trans ?_
    linarith [(h1 u hu).1, (h1 u hu).2]

/-- the same, knowing how fast the second derivative changes -/
theorem slope_nearer {M : ℝ} {f f' f'' : ℝ → ℝ} {m c : ℝ} (hc : 0 ≤ c)
    (hf : ∀ t ∈ Set.Icc (m - c) (m + c), HasDerivAt f (f' t) t ∧ HasDerivAt f' (f'' t) t)
    (hl : ∀ t ∈ Set.Icc (m - c) (m + c), ∀ u ∈ Set.Icc (m - c) (m + c), |f'' t - f'' u| ≤ M * |t - u|) :
    |f (m + c) - f (m - c) - 2 * c * f' m| ≤ M * c ^ 3 / 3 := by
  have hin : ∀ u ∈ Set.Icc 0 c, m + u ∈ Set.Icc (m - c) (m + c) ∧ m - u ∈ Set.Icc (m - c) (m + c) := fun u hu =>
    ⟨⟨by linarith [hu.1], by linarith [hu.2]⟩, ⟨by linarith [hu.2], by linarith [hu.1]⟩⟩
  have hp : ∀ (g g' : ℝ → ℝ) (u : ℝ), HasDerivAt g (g' (m + u)) (m + u) → HasDerivAt (fun u => g (m + u)) (g' (m + u)) u := fun g g' u h => by
    simpa using h.comp_const_add m u
  have hn : ∀ (g g' : ℝ → ℝ) (u : ℝ), HasDerivAt g (g' (m - u)) (m - u) → HasDerivAt (fun u => g (m - u)) (-g' (m - u)) u := fun g g' u h => by
    simpa using h.comp_const_sub m u
  have h1 : ∀ u ∈ Set.Icc 0 c, |f' (m + u) + f' (m - u) - 2 * f' m| ≤ M * u ^ 2 := by
    intro u hu
    have hsub : ∀ v ∈ Set.Icc 0 u, v ∈ Set.Icc 0 c := fun v hv => ⟨hv.1, hv.2.trans hu.2⟩
    refine grows_at_most (φ := fun u => f' (m + u) + f' (m - u) - 2 * f' m) (φ' := fun u => f'' (m + u) + -f'' (m - u))
      (ψ := fun u => M * u ^ 2) (ψ' := fun u => M * (2 * u)) hu.1 (fun v hv => ⟨?_, ?_, ?_⟩) (by simp; ring) (by simp)
    · exact ((hp f' f'' v (hf _ (hin v (hsub v hv)).1).2).add (hn f' f'' v (hf _ (hin v (hsub v hv)).2).2)).sub_const _
    · simpa using (hasDerivAt_pow 2 v).const_mul M
    · rw [← sub_eq_add_neg]
      refine (hl _ (hin v (hsub v hv)).1 _ (hin v (hsub v hv)).2).trans (le_of_eq ?_)
      rw [show m + v - (m - v) = 2 * v by ring, abs_of_nonneg (by linarith [hv.1])]
  refine grows_at_most (φ := fun u => f (m + u) - f (m - u) - 2 * u * f' m) (φ' := fun u => f' (m + u) - -f' (m - u) - 2 * 1 * f' m)
    (ψ := fun u => M * u ^ 3 / 3) (ψ' := fun u => M * (3 * u ^ 2) / 3) hc (fun u hu => ⟨?_, ?_, ?_⟩) (by simp) (by simp)
  · exact ((hp f f' u (hf _ (hin u hu).1).1).sub (hn f f' u (hf _ (hin u hu).2).1)).sub (((hasDerivAt_id u).const_mul 2).mul_const _)
  · simpa using ((hasDerivAt_pow 3 u).const_mul M).div_const 3
  · have e : f' (m + u) - -f' (m - u) - 2 * 1 * f' m = f' (m + u) + f' (m - u) - 2 * f' m := by ring
    rw [e]
    exact (h1 u hu).trans (le_of_eq (by ring))

/-! ### samples of a function -/

theorem array_within {a : Axis ℝ} {lx : List ℝ} (h : a.array = .ok lx) (i : ℕ) (hi : i < lx.length) : lx[i] ∈ Set.uIcc a.start a.stop := by
  have hsp := Axis.array_spaced h
  have hi2 : i < a.steps + 1 := hsp.1 ▸ hi
  rw [hsp.2 i hi, Axis.step]
  rcases Nat.eq_zero_or_pos a.steps with h0 | h0
  · rw [h0]; simp
  have hn : (0 : ℝ) < a.steps := by exact_mod_cast h0
  have hle : (i : ℝ) / a.steps ≤ 1 := by rw [div_le_one hn]; exact_mod_cast (by omega : i ≤ a.steps)
  have h0' : 0 ≤ (i : ℝ) / a.steps := by positivity
  have e : a.start + (i : ℝ) * ((a.stop - a.start) / a.steps) = a.start + (i : ℝ) / a.steps * (a.stop - a.start) := by ring
  rw [e, Set.mem_uIcc]
  rcases le_total a.start a.stop with hl | hl
  · left; constructor <;> nlinarith
  · right; constructor <;> nlinarith

/-- an interpolated value is a value of the function, or lies on the chord of one cell -/
theorem in_cell {r : Rel ℝ ℝ} {f : ℝ → ℝ} {lx : List ℝ} (hr : r.getData = .ok (lx, lx.map f)) {h : ℝ}
    (hh : ∀ i (hi : i + 1 < lx.length), |lx[i + 1] - lx[i]| ≤ h) {t v : ℝ} (hin : InRange lx t) (hv : IsInterpolant lx (lx.map f) t v) :
    v = f t ∧ t ∈ Set.uIcc r.x.start r.x.stop ∨
    ∃ a b, a < b ∧ b - a ≤ h ∧ Set.Icc a b ⊆ Set.uIcc r.x.start r.x.stop ∧ t ∈ Set.Icc a b ∧ v = f a + (t - a) / (b - a) * (f b - f a) := by
  obtain ⟨hx, hy, hlen⟩ := (getData_ok_iff _ _ _).1 hr
  rcases inRange_cases (Axis.array_monotone hx) hin with ⟨k, hk, rfl⟩ | ⟨k, hk, k1, k2⟩
  · left
    rw [hv.sample k hk (by simpa using hk) rfl]
    exact ⟨List.getElem_map _, array_within hx k hk⟩
  · right
    have hb := hv.between k hk (by simpa using hk) k1 k2
    simp only [List.getElem_map, smul_eq_mul] at hb
    have hsub : ∀ u, min lx[k] lx[k + 1] ≤ u → u ≤ max lx[k] lx[k + 1] → u ∈ Set.uIcc r.x.start r.x.stop := fun u u1 u2 =>
      Set.uIcc_subset_uIcc (array_within hx k (by omega)) (array_within hx (k + 1) hk) ⟨u1, u2⟩
    have hhk := hh k hk
    rcases lt_trichotomy lx[k] lx[k + 1] with hlt | heq | hgt
    · rw [min_eq_left hlt.le] at k1 hsub
      rw [max_eq_right hlt.le] at k2 hsub
      rw [abs_of_pos (sub_pos.2 hlt)] at hhk
      exact ⟨_, _, hlt, hhk, fun u hu => hsub u hu.1 hu.2, ⟨k1, k2⟩, hb⟩
    · rcases Axis.array_monotone hx with hm | hm
      · exact absurd heq (ne_of_lt ((List.pairwise_iff_getElem.1 hm) k (k + 1) (by omega) hk (by omega)))
      · exact absurd heq (ne_of_gt ((List.pairwise_iff_getElem.1 hm) k (k + 1) (by omega) hk (by omega)))
    · rw [min_eq_right hgt.le] at k1 hsub
      rw [max_eq_left hgt.le] at k2 hsub
      rw [abs_sub_comm, abs_of_pos (sub_pos.2 hgt)] at hhk
      refine ⟨_, _, hgt, hhk, fun u hu => hsub u hu.1 hu.2, ⟨k1, k2⟩, ?_⟩
      have d1 : lx[k] - lx[k + 1] ≠ 0 := (sub_pos.2 hgt).ne'
      have : (t - lx[k]) / (lx[k + 1] - lx[k]) = 1 - (t - lx[k + 1]) / (lx[k] - lx[k + 1]) := by
        rw [← neg_sub lx[k] lx[k + 1], div_neg, eq_sub_iff_add_eq]
        field_simp; ring
      rw [hb, this]; ring

theorem samples_whole {r : Rel ℝ ℝ} {f : ℝ → ℝ} {k : ℕ} (hs : 0 < r.x.sample) (hw : r.x.stop - r.x.start = k * r.x.sample)
    (hr : SamplesOf r f) : r.y.length = k + 1 ∧ ∀ j ≤ k, r.y.getD j 0 = f (r.x.start + (j : ℝ) * r.x.sample) := by
  obtain ⟨lx, hr⟩ := hr
  obtain ⟨hx, hy, hlen⟩ := (getData_ok_iff _ _ _).1 hr
  rw [array_whole r.x k hs hw, Except.ok.injEq] at hx
  subst hx
  rw [← hy]
  refine ⟨by simp, fun j hj => ?_⟩
  rw [getD_lt _ _ _ (by simp; omega)]
  simp

theorem cell_within {r : Rel ℝ ℝ} {k : ℕ} (hs : 0 < r.x.sample) (hw : r.x.stop - r.x.start = k * r.x.sample) (j : ℕ) (hj : j < k) :
    Set.Icc (r.x.start + (j : ℝ) * r.x.sample) (r.x.start + ((j + 1 : ℕ) : ℝ) * r.x.sample) ⊆ Set.uIcc r.x.start r.x.stop := by
  have h1 : ((j + 1 : ℕ) : ℝ) ≤ k := by exact_mod_cast hj
  have h0 : (0 : ℝ) ≤ j := by positivity
  intro u hu
  rw [Set.uIcc_of_le (by nlinarith)]
  exact ⟨by nlinarith [hu.1], by nlinarith [hu.2]⟩

theorem trapezoids_near {r : Rel ℝ ℝ} {f f' : ℝ → ℝ} {k : ℕ} (hs : 0 < r.x.sample) (hw : r.x.stop - r.x.start = k * r.x.sample)
    (hr : SamplesOf r f) {M : ℝ} (hf : BendsAtMost M f f' r.x.start r.x.stop) (n : ℕ) (hn : n ≤ k) :
    |r.x.sample * ∑ j ∈ Finset.range n, (r.y.getD j 0 + r.y.getD (j + 1) 0) / 2 -
      ∫ t in r.x.start..(r.x.start + (n : ℝ) * r.x.sample), f t| ≤ M * r.x.sample ^ 2 * ((n : ℝ) * r.x.sample) / 12 := by
  obtain ⟨f'', hf⟩ := hf
  obtain ⟨hl, hv⟩ := samples_whole hs hw hr
  induction n with
  | zero => simp
  | succ n ih =>
    have ih := ih (by omega)
    have hc := cell_within hs hw n (by omega)
    have hlt : r.x.start + (n : ℝ) * r.x.sample < r.x.start + ((n + 1 : ℕ) : ℝ) * r.x.sample := by push_cast; linarith
    have ht := trapezoid_near hlt (fun u hu => hf u (hc hu))
    have hsub : Set.uIcc r.x.start (r.x.start + (n : ℝ) * r.x.sample) ⊆ Set.uIcc r.x.start r.x.stop :=
      Set.uIcc_subset_uIcc Set.left_mem_uIcc (hc ⟨le_rfl, hlt.le⟩)
    have i1 : IntervalIntegrable f MeasureTheory.volume r.x.start (r.x.start + (n : ℝ) * r.x.sample) :=
      ContinuousOn.intervalIntegrable fun u hu => (hf u (hsub hu)).1.continuousAt.continuousWithinAt
    have i2 : IntervalIntegrable f MeasureTheory.volume (r.x.start + (n : ℝ) * r.x.sample) (r.x.start + ((n + 1 : ℕ) : ℝ) * r.x.sample) :=
      ContinuousOn.intervalIntegrable fun u hu => (hf u (hc (by rwa [Set.uIcc_of_le hlt.le] at hu))).1.continuousAt.continuousWithinAt
    rw [← intervalIntegral.integral_add_adjacent_intervals i1 i2, Finset.sum_range_succ, hv n (by omega), hv (n + 1) (by omega)]
    have e : r.x.start + ((n + 1 : ℕ) : ℝ) * r.x.sample - (r.x.start + (n : ℝ) * r.x.sample) = r.x.sample := by push_cast; ring
    rw [e] at ht
    generalize ∑ j ∈ Finset.range n, (r.y.getD j 0 + r.y.getD (j + 1) 0) / 2 = S at *
    generalize (∫ t in r.x.start..(r.x.start + (n : ℝ) * r.x.sample), f t) = I at *
    generalize (∫ t in (r.x.start + (n : ℝ) * r.x.sample)..(r.x.start + ((n + 1 : ℕ) : ℝ) * r.x.sample), f t) = J at *
    generalize (f (r.x.start + (n : ℝ) * r.x.sample) + f (r.x.start + ((n + 1 : ℕ) : ℝ) * r.x.sample)) / 2 = m at *
    rw [show r.x.sample * (S + m) - (I + J) = (r.x.sample * S - I) + (r.x.sample * m - J) by ring]
    refine (abs_add_le _ _).trans ((add_le_add ih ht).trans (le_of_eq ?_))
    push_cast; ring

theorem diff_axis {r q : Rel ℝ ℝ} {k : ℕ} (hs : 0 < r.x.sample) (hw : r.x.stop - r.x.start = k * r.x.sample) (hl : r.y.length = k + 1)
    (hq : r.diff = .ok q) :
    ∃ xs, q.getData = .ok (xs, q.y) ∧ q.y.length = k ∧ ∀ i (hi : i < xs.length),
      xs[i] = r.x.start + (i : ℝ) * r.x.sample + r.x.sample / 2 := by
  obtain ⟨h1, h2, h3, h4, h5, -, -⟩ := C14_diff_values r q hq
  have hk : q.y.length = k := by omega
  have hk1 : 1 ≤ k := by
    obtain ⟨-, h6⟩ := (Axis.size_ok_iff _ _).1 h5
    omega
  have ha := array_whole q.x (k - 1) (by rw [h3]; exact hs) (by
    rw [h1, h2, h3]; push_cast [Nat.cast_sub hk1]; linarith)
  refine ⟨_, (getData_ok_iff _ _ _).2 ⟨ha, rfl, by simp; omega⟩, hk, fun i hi => ?_⟩
  simp only [List.getElem_map, List.getElem_range, h1, h3]
  ring

/-- **C129.** Between the samples of a function whose second derivative is at most `M`, the interpolated values miss the function by at most
`M h² / 8`, where `h` is the largest distance between neighbouring samples. -/
theorem C129_interpolate (r : Rel ℝ ℝ) (f f' : ℝ → ℝ) (lx : List ℝ) (hr : r.getData = .ok (lx, lx.map f)) (M h : ℝ)
    (hf : BendsAtMost M f f' r.x.start r.x.stop) (hh : ∀ i (hi : i + 1 < lx.length), |lx[i + 1] - lx[i]| ≤ h)
    (a : Axis ℝ) (hs : a.sample ≠ 0) :
    ∃ q xs ys, r.interpolateExtrapolate (.axis a) = .ok q ∧ q.x = a ∧ q.getData = .ok (xs, ys) ∧
      ∀ i (hi : i < xs.length) (hi' : i < ys.length), InRange lx xs[i] → |ys[i] - f xs[i]| ≤ M * h ^ 2 / 8 := by
  obtain ⟨q, xs, ys, h1, h2, h3, h4⟩ := C20_piecewise_linear r lx _ hr a hs
  refine ⟨q, xs, ys, h1, h2, h3, fun i hi hi' hin => ?_⟩
  obtain ⟨f'', hf⟩ := hf
  have hM : 0 ≤ M := (abs_nonneg _).trans (hf _ Set.left_mem_uIcc).2.2
  rcases in_cell hr hh hin (h4 i hi hi') with ⟨e, -⟩ | ⟨a, b, hab, hbh, hsub, ht, e⟩
  · rw [e, sub_self, abs_zero]; positivity
  · rw [e]
    refine (chord_near hab (fun u hu => hf u (hsub hu)) _ ht).trans ?_
    have : (xs[i] - a) * (b - xs[i]) ≤ h ^ 2 / 4 := by nlinarith [sq_nonneg ((xs[i] - a) - (b - xs[i])), sub_pos.2 hab]
    nlinarith

/-- **C129.** If the function changes by at most `L` per unit, the interpolated values miss it by at most `L h / 2`. -/
theorem C129_interpolate_rough (r : Rel ℝ ℝ) (f : ℝ → ℝ) (lx : List ℝ) (hr : r.getData = .ok (lx, lx.map f)) (L h : ℝ) (hL : 0 ≤ L) (hh0 : 0 ≤ h)
    (hf : ∀ t ∈ Set.uIcc r.x.start r.x.stop, ∀ u ∈ Set.uIcc r.x.start r.x.stop, |f t - f u| ≤ L * |t - u|)
    (hh : ∀ i (hi : i + 1 < lx.length), |lx[i + 1] - lx[i]| ≤ h) (a : Axis ℝ) (hs : a.sample ≠ 0) :
    ∃ q xs ys, r.interpolateExtrapolate (.axis a) = .ok q ∧ q.x = a ∧ q.getData = .ok (xs, ys) ∧
      ∀ i (hi : i < xs.length) (hi' : i < ys.length), InRange lx xs[i] → |ys[i] - f xs[i]| ≤ L * h / 2 := by
  obtain ⟨q, xs, ys, h1, h2, h3, h4⟩ := C20_piecewise_linear r lx _ hr a hs
  refine ⟨q, xs, ys, h1, h2, h3, fun i hi hi' hin => ?_⟩
  rcases in_cell hr hh hin (h4 i hi hi') with ⟨e, -⟩ | ⟨a, b, hab, hbh, hsub, ht, e⟩
  · rw [e, sub_self, abs_zero]; positivity
  · rw [e]
    have hd : 0 < b - a := sub_pos.2 hab
    have f1 := hf a (hsub (Set.left_mem_Icc.2 hab.le)) _ (hsub ht)
    have f2 := hf b (hsub (Set.right_mem_Icc.2 hab.le)) _ (hsub ht)
    rw [abs_sub_comm a, abs_of_nonneg (sub_nonneg.2 ht.1)] at f1
    rw [abs_of_nonneg (sub_nonneg.2 ht.2)] at f2
    generalize xs[i] = t at *
    have e2 : f a + (t - a) / (b - a) * (f b - f a) - f t = (b - t) / (b - a) * (f a - f t) + (t - a) / (b - a) * (f b - f t) := by
      field_simp; ring
    have p1 : 0 ≤ (b - t) / (b - a) := div_nonneg (sub_nonneg.2 ht.2) hd.le
    have p2 : 0 ≤ (t - a) / (b - a) := div_nonneg (sub_nonneg.2 ht.1) hd.le
    rw [e2]
    refine (abs_add_le _ _).trans ?_
    rw [abs_mul, abs_mul, abs_of_nonneg p1, abs_of_nonneg p2]
    have e3 : (b - t) / (b - a) * (L * (t - a)) + (t - a) / (b - a) * (L * (b - t)) = L * (2 * ((t - a) * (b - t)) / (b - a)) := by
      field_simp; ring
    have e4 : 2 * ((t - a) * (b - t)) / (b - a) ≤ h / 2 := by
      rw [div_le_iff₀ hd]; nlinarith [sq_nonneg ((t - a) - (b - t))]
    calc _ ≤ (b - t) / (b - a) * (L * (t - a)) + (t - a) / (b - a) * (L * (b - t)) :=
          add_le_add (mul_le_mul_of_nonneg_left f1 p1) (mul_le_mul_of_nonneg_left f2 p2)
      _ = L * (2 * ((t - a) * (b - t)) / (b - a)) := e3
      _ ≤ L * (h / 2) := mul_le_mul_of_nonneg_left e4 hL
      _ = L * h / 2 := by ring

/-- **C129.** On an axis of whole samples of length `s`, `integrate` of the samples of a function whose second derivative is at most `M` misses
the integral of the function from the beginning of the axis by at most `M s² / 12` per unit of length. -/
theorem C129_integrate (r q : Rel ℝ ℝ) (f f' : ℝ → ℝ) (k : ℕ) (hs : 0 < r.x.sample) (hw : r.x.stop - r.x.start = k * r.x.sample)
    (hr : SamplesOf r f) (M : ℝ) (hf : BendsAtMost M f f' r.x.start r.x.stop) (hq : r.integrate = .ok q) :
    ∃ xs, q.getData = .ok (xs, q.y) ∧ xs.length = k ∧ ∀ i (hi : i < xs.length) (hi' : i < q.y.length),
      |q.y[i] - ∫ t in r.x.start..xs[i], f t| ≤ M * r.x.sample ^ 2 * (xs[i] - r.x.start) / 12 := by
  obtain ⟨h1, h2, h3, h4, h5, h6⟩ := C13_integrate_values r q hq
  have hl := (samples_whole hs hw hr).1
  have hk : q.y.length = k := by omega
  have hk1 : 1 ≤ k := by
    obtain ⟨-, h6⟩ := (Axis.size_ok_iff _ _).1 h5
    omega
  have ha := array_whole q.x (k - 1) (by rw [h3]; exact hs) (by
    rw [h1, h2, h3]; push_cast [Nat.cast_sub hk1]; linarith)
  refine ⟨_, (getData_ok_iff _ _ _).2 ⟨ha, rfl, by simp; omega⟩, by simp; omega, fun i hi hi' => ?_⟩
  have e : q.x.start + (i : ℝ) * q.x.sample = r.x.start + ((i + 1 : ℕ) : ℝ) * r.x.sample := by rw [h1, h3]; push_cast; ring
  simp only [List.getElem_map, List.getElem_range, e]
  rw [h6 i hi', smul_eq_mul, add_sub_cancel_left]
  exact trapezoids_near hs hw hr hf (i + 1) (by omega)

/-- **C129.** So does the area `one_integrate`. -/
theorem C129_one_integrate (r : Rel ℝ ℝ) (f f' : ℝ → ℝ) (k : ℕ) (hs : 0 < r.x.sample) (hw : r.x.stop - r.x.start = k * r.x.sample)
    (hr : SamplesOf r f) (M : ℝ) (hf : BendsAtMost M f f' r.x.start r.x.stop) :
    ∃ v, r.oneIntegrate = .ok v ∧
      |v - ∫ t in r.x.start..r.x.stop, f t| ≤ M * r.x.sample ^ 2 * (r.x.stop - r.x.start) / 12 := by
  have hl := (samples_whole hs hw hr).1
  have hb : Balanced r := (balanced_iff_getData r).2 (by obtain ⟨lx, h⟩ := hr; exact ⟨_, h⟩)
  refine ⟨_, oneIntegrate_sum r hb, ?_⟩
  have h := trapezoids_near hs hw hr hf k le_rfl
  have e : r.x.start + (k : ℝ) * r.x.sample = r.x.stop := by linarith
  rw [e, ← hw] at h
  rw [hl, Nat.add_sub_cancel, ← Finset.mul_sum]
  rcases Nat.eq_zero_or_pos k with rfl | hk
  · simpa using h
  have hst : r.x.step = r.x.sample := by
    have hsp := Axis.array_spaced (array_whole r.x k hs hw)
    have hn : r.x.steps = k := by have := hsp.1; simp at this; omega
    have : (k : ℝ) ≠ 0 := by positivity
    rw [Axis.step, hn, hw]; field_simp
  rw [hst]
  exact h

/-- **C129.** `get_norm` is, up to `M s / 12` per unit of length, the integral of the square of the function divided by the sample, where `M` bounds
the second derivative of the square. -/
theorem C129_norm [PyPow ℝ] (r : Rel ℝ ℝ) (f g : ℝ → ℝ) (k : ℕ) (hs : 0 < r.x.sample) (hw : r.x.stop - r.x.start = k * r.x.sample)
    (hr : SamplesOf r f) (M : ℝ) (hf : BendsAtMost M (fun t => f t ^ 2) g r.x.start r.x.stop) :
    ∃ v, r.getNorm = .ok v ∧
      |v - (∫ t in r.x.start..r.x.stop, f t ^ 2) / r.x.sample| ≤ M * r.x.sample * (r.x.stop - r.x.start) / 12 := by
  obtain ⟨lx, hr⟩ := hr
  have hr2 : (⟨r.x, r.y.map fun v => v ^ 2⟩ : Rel ℝ ℝ).getData = .ok (lx, lx.map fun t => f t ^ 2) := by
    obtain ⟨hx, hy, hlen⟩ := (getData_ok_iff _ _ _).1 hr
    refine (getData_ok_iff _ _ _).2 ⟨hx, ?_, by simp⟩
    rw [← hy, List.map_map]; rfl
  obtain ⟨v, h1, h2⟩ := C129_one_integrate ⟨r.x, r.y.map fun v => v ^ 2⟩ (fun t => f t ^ 2) g k hs hw ⟨lx, hr2⟩ M hf
  refine ⟨r.x.sample⁻¹ * v, ?_, ?_⟩
  · have hb : Balanced r := (balanced_iff_getData r).2 ⟨_, hr⟩
    have hsq : r.pow (.other (.num 2)) = .ok ⟨r.x, r.y.map fun a => a ^ 2⟩ := by
      rw [Rel.pow, operation_num r 2 .pow hb]
      have : (r.y.map fun a => MathOp.fn .pow a 2) = (r.y.map fun a => a ^ 2).map some := by
        simp [MathOp.fn, PyPow.ppow_two, pow_two]
      rw [this, finite_map_some]
      rfl
    simp only [Rel.getNorm, hsq, except_bind_ok, h1, except_pure, smul_eq_mul]
  · have e : r.x.sample⁻¹ * v - (∫ t in r.x.start..r.x.stop, f t ^ 2) / r.x.sample =
        r.x.sample⁻¹ * (v - ∫ t in r.x.start..r.x.stop, f t ^ 2) := by field_simp
    rw [e, abs_mul, abs_of_pos (inv_pos.2 hs), inv_mul_le_iff₀ hs]
    exact h2.trans (le_of_eq (by ring))

/-- **C129.** `diff` gives, at the middle of each sample, the derivative of the function, up to `M s / 4`. -/
theorem C129_diff (r q : Rel ℝ ℝ) (f f' : ℝ → ℝ) (k : ℕ) (hs : 0 < r.x.sample) (hw : r.x.stop - r.x.start = k * r.x.sample)
    (hr : SamplesOf r f) (M : ℝ) (hf : BendsAtMost M f f' r.x.start r.x.stop) (hq : r.diff = .ok q) :
    ∃ xs, q.getData = .ok (xs, q.y) ∧ xs.length = k ∧ ∀ i (hi : i < xs.length) (hi' : i < q.y.length),
      |q.y[i] - f' xs[i]| ≤ M * r.x.sample / 4 := by
  obtain ⟨hl, hv⟩ := samples_whole hs hw hr
  obtain ⟨xs, e1, e2, e3⟩ := diff_axis hs hw hl hq
  obtain ⟨-, -, -, -, -, -, h6⟩ := C14_diff_values r q hq
  refine ⟨xs, e1, by have := ((getData_ok_iff _ _ _).1 e1).2.2; omega, fun i hi hi' => ?_⟩
  obtain ⟨f'', hf⟩ := hf
  rw [h6 i hi', e3 i hi, hv i (by omega), hv (i + 1) (by omega), smul_eq_mul]
  have hc := cell_within hs hw i (by omega)
  have p1 : r.x.start + (i : ℝ) * r.x.sample + r.x.sample / 2 + r.x.sample / 2 = r.x.start + ((i + 1 : ℕ) : ℝ) * r.x.sample := by push_cast; ring
  have p2 : r.x.start + (i : ℝ) * r.x.sample + r.x.sample / 2 - r.x.sample / 2 = r.x.start + (i : ℝ) * r.x.sample := by ring
  have h := slope_near (m := r.x.start + (i : ℝ) * r.x.sample + r.x.sample / 2) (c := r.x.sample / 2) (M := M) (by linarith)
    (fun u hu => hf u (hc (by rwa [p1, p2] at hu)))
  rw [p1, p2] at h
  generalize f (r.x.start + ((i + 1 : ℕ) : ℝ) * r.x.sample) = A at *
  generalize f (r.x.start + (i : ℝ) * r.x.sample) = B at *
  generalize f' (r.x.start + (i : ℝ) * r.x.sample + r.x.sample / 2) = D at *
  have e : r.x.sample⁻¹ * (A - B) - D = r.x.sample⁻¹ * (A - B - 2 * (r.x.sample / 2) * D) := by field_simp
  rw [e, abs_mul, abs_of_pos (inv_pos.2 hs), inv_mul_le_iff₀ hs]
  linarith

/-- **C129.** If the second derivative changes by at most `M` per unit, the error is only `M s² / 24`. -/
theorem C129_diff_smooth (r q : Rel ℝ ℝ) (f f' : ℝ → ℝ) (k : ℕ) (hs : 0 < r.x.sample) (hw : r.x.stop - r.x.start = k * r.x.sample)
    (hr : SamplesOf r f) (M : ℝ) (hf : TwistsAtMost M f f' r.x.start r.x.stop) (hq : r.diff = .ok q) :
    ∃ xs, q.getData = .ok (xs, q.y) ∧ xs.length = k ∧ ∀ i (hi : i < xs.length) (hi' : i < q.y.length),
      |q.y[i] - f' xs[i]| ≤ M * r.x.sample ^ 2 / 24 := by
  obtain ⟨hl, hv⟩ := samples_whole hs hw hr
  obtain ⟨xs, e1, e2, e3⟩ := diff_axis hs hw hl hq
  obtain ⟨-, -, -, -, -, -, h6⟩ := C14_diff_values r q hq
  refine ⟨xs, e1, by have := ((getData_ok_iff _ _ _).1 e1).2.2; omega, fun i hi hi' => ?_⟩
  obtain ⟨f'', hf, hf2⟩ := hf
  rw [h6 i hi', e3 i hi, hv i (by omega), hv (i + 1) (by omega), smul_eq_mul]
  have hc := cell_within hs hw i (by omega)
  have p1 : r.x.start + (i : ℝ) * r.x.sample + r.x.sample / 2 + r.x.sample / 2 = r.x.start + ((i + 1 : ℕ) : ℝ) * r.x.sample := by push_cast; ring
  have p2 : r.x.start + (i : ℝ) * r.x.sample + r.x.sample / 2 - r.x.sample / 2 = r.x.start + (i : ℝ) * r.x.sample := by ring
  have h := slope_nearer (m := r.x.start + (i : ℝ) * r.x.sample + r.x.sample / 2) (c := r.x.sample / 2) (M := M) (by linarith)
    (fun u hu => hf u (hc (by rwa [p1, p2] at hu)))
    (fun u hu v hv => hf2 u (hc (by rwa [p1, p2] at hu)) v (hc (by rwa [p1, p2] at hv)))
  rw [p1, p2] at h
  generalize f (r.x.start + ((i + 1 : ℕ) : ℝ) * r.x.sample) = A at *
  generalize f (r.x.start + (i : ℝ) * r.x.sample) = B at *
  generalize f' (r.x.start + (i : ℝ) * r.x.sample + r.x.sample / 2) = D at *
  have e : r.x.sample⁻¹ * (A - B) - D = r.x.sample⁻¹ * (A - B - 2 * (r.x.sample / 2) * D) := by field_simp
  rw [e, abs_mul, abs_of_pos (inv_pos.2 hs), inv_mul_le_iff₀ hs]
  linarith

/-! ### a case that meets the hypotheses, and the bounds are reached -/

/-- three samples of the sine -/
def sines129 : Rel ℝ ℝ := ⟨⟨0, 2, 1⟩, [Real.sin 0, Real.sin 1, Real.sin 2]⟩

theorem sine_bends (a b : ℝ) : BendsAtMost 1 Real.sin Real.cos a b :=
  ⟨fun t => -Real.sin t, fun t _ => ⟨Real.hasDerivAt_sin t, Real.hasDerivAt_cos t, by rw [abs_neg]; exact Real.abs_sin_le_one t⟩⟩

theorem points129 : (⟨0, 2, 1⟩ : Axis ℝ).array = .ok [0, 1, 2] := by
  rw [array_whole _ 2 (by norm_num) (by norm_num)]
  norm_num [List.range_succ]

theorem sines129_samples : SamplesOf sines129 Real.sin := ⟨[0, 1, 2], (getData_ok_iff _ _ _).2 ⟨points129, rfl, rfl⟩⟩

example : ∃ v, sines129.oneIntegrate = .ok v ∧ |v - (1 - Real.cos 2)| ≤ 1 / 6 := by
  obtain ⟨v, h1, h2⟩ := C129_one_integrate sines129 _ _ 2 (by norm_num [sines129]) (by norm_num [sines129]) sines129_samples 1 (sine_bends _ _)
  refine ⟨v, h1, ?_⟩
  norm_num [sines129] at h2
  exact h2

/-- three samples of the parabola -/
def squares129 : Rel ℝ ℝ := ⟨⟨0, 2, 1⟩, [0, 1, 4]⟩

theorem squares129_samples : squares129.getData = .ok ([0, 1, 2], [0, 1, 2].map fun t => t ^ 2) :=
  (getData_ok_iff _ _ _).2 ⟨points129, by norm_num [squares129], rfl⟩

theorem square_bends (a b : ℝ) : BendsAtMost 2 (fun t => t ^ 2) (fun t => 2 * t) a b :=
  ⟨fun _ => 2, fun t _ => ⟨by simpa using hasDerivAt_pow 2 t, by simpa using (hasDerivAt_id t).const_mul 2, by norm_num⟩⟩

/-- **C129.** The bounds for interpolation and integration cannot be lowered: samples of the parabola reach them. -/
theorem C129_reached :
    (∃ q, squares129.interpolateExtrapolate (.axis ⟨1 / 2, 3 / 2, 1⟩) = .ok q ∧ ∃ a b, q.y = [a, b] ∧
      |a - (1 / 2) ^ 2| = 2 * 1 ^ 2 / 8 ∧ |b - (3 / 2) ^ 2| = 2 * 1 ^ 2 / 8) ∧
    ∃ v, squares129.oneIntegrate = .ok v ∧ |v - ∫ t in (0 : ℝ)..2, t ^ 2| = 2 * 1 ^ 2 * 2 / 12 := by
  constructor
  · obtain ⟨q, xs, ys, h1, h2, h3, h4⟩ := C20_piecewise_linear squares129 _ _ squares129_samples ⟨1 / 2, 3 / 2, 1⟩ (by norm_num)
    have hx : (⟨1 / 2, 3 / 2, 1⟩ : Axis ℝ).array = .ok [1 / 2, 3 / 2] := by
      rw [array_whole _ 1 (by norm_num) (by norm_num)]
      norm_num [List.range_succ]
    obtain ⟨e1, rfl, e3⟩ := (getData_ok_iff _ _ _).1 h3
    rw [h2, hx, Except.ok.injEq] at e1
    subst e1
    obtain ⟨a, b, hab⟩ : ∃ a b, q.y = [a, b] := by
      match hy : q.y with
      | [] => simp [hy] at e3
      | [_] => simp [hy] at e3
      | [a, b] => exact ⟨a, b, rfl⟩
      | _ :: _ :: _ :: _ => simp [hy] at e3
    refine ⟨q, h1, a, b, hab, ?_, ?_⟩
    · have h := (h4 0 (by simp) (by simp [hab])).between 0 (by simp) (by simp) (by norm_num) (by norm_num)
      simp only [hab] at h
      norm_num at h
      rw [h]; norm_num
    · have h := (h4 1 (by simp) (by simp [hab])).between 1 (by simp) (by simp) (by norm_num) (by norm_num)
      simp only [hab] at h
      norm_num at h
      rw [h]; norm_num
  · have hb : Spec.Balanced squares129 := (balanced_iff_getData _).2 ⟨_, squares129_samples⟩
    refine ⟨_, oneIntegrate_sum _ hb, ?_⟩
    have hst : squares129.x.step = 1 := by
      have hn : squares129.x.steps = 2 := by have := (Axis.array_spaced points129).1; simp at this; exact this
      rw [Axis.step, hn]; norm_num [squares129]
    rw [hst]
    norm_num [squares129, Finset.sum_range_succ]

end

end SweepDesign
