import Verif.Props.Extremes
import Verif.Props.AmplitudeSpectrum
import Verif.Lemmas.ToComplex

/-!
# Small errors in the samples stay small (C151)

Two records of the same thing differ a little in every sample: the second was read from a file with fewer digits, or measured
again. How far apart can the results of the same call on the two be? For every operation that is linear or a product there is a
bound that does not depend on the record; for a division there is none.
-/

set_option linter.unusedSectionVars false

namespace SweepDesign

open Spec

section
variable {K : Type} [Field K] [LinearOrder K] [IsStrictOrderedRing K] [FloorRing K]

/-- the two relations have one axis, equally many samples, and no two corresponding samples differ by more than `δ` -/
def Spec.Near (δ : K) (r q : Rel K K) : Prop :=
  r.x = q.x ∧ r.y.length = q.y.length ∧ ∀ i (a : i < r.y.length) (b : i < q.y.length), |r.y[i] - q.y[i]| ≤ δ

/-- no sample is larger than `A` in absolute value -/
def Spec.Within (A : K) (r : Rel K K) : Prop := ∀ v ∈ r.y, |v| ≤ A

theorem near_balanced {δ : K} {r q : Rel K K} (h : Near δ r q) (hb : Spec.Balanced r) : Spec.Balanced q := by
  unfold Spec.Balanced at *
  rw [← h.1, ← h.2.1, hb]

theorem balanced_pos {r : Rel K K} (hb : Spec.Balanced r) : 0 < r.y.length := by
  rw [((balanced_iff r).1 hb).2]; omega

theorem near_nonneg {δ : K} {r q : Rel K K} (h : Near δ r q) (hb : Spec.Balanced r) : 0 ≤ δ :=
  (abs_nonneg _).trans (h.2.2 0 (balanced_pos hb) (by rw [← h.2.1]; exact balanced_pos hb))

theorem within_nonneg {A : K} {r : Rel K K} (h : Within A r) (hb : Spec.Balanced r) : 0 ≤ A :=
  (abs_nonneg _).trans (h _ (List.getElem_mem (balanced_pos hb)))

theorem getD_past (l : List K) (i : ℕ) (h : ¬ i < l.length) : l.getD i 0 = 0 := by
  simp [List.getElem?_eq_none (by omega : l.length ≤ i)]

theorem near_getD {δ : K} {r q : Rel K K} (h : Near δ r q) (hd : 0 ≤ δ) (i : ℕ) : |r.y.getD i 0 - q.y.getD i 0| ≤ δ := by
  by_cases hi : i < r.y.length
  · have hi' : i < q.y.length := by rw [← h.2.1]; exact hi
    rw [getD_lt _ _ _ hi, getD_lt _ _ _ hi']
    exact h.2.2 i hi hi'
  · have hi' : ¬ i < q.y.length := by rw [← h.2.1]; exact hi
    rw [getD_past _ _ hi, getD_past _ _ hi']
    simpa using hd

theorem within_getD {A : K} {r : Rel K K} (h : Within A r) (hA : 0 ≤ A) (i : ℕ) : |r.y.getD i 0| ≤ A := by
  by_cases hi : i < r.y.length
  · rw [getD_lt _ _ _ hi]
    exact h _ (List.getElem_mem hi)
  · rw [getD_past _ _ hi]
    simpa using hA

/-- interpolants of nearby samples are nearby -/
theorem interpolant_near {δ : K} {r q : Rel K K} (h : Near δ r q) (hb : Spec.Balanced r) {lx l1 l2 : List K}
    (h1 : r.getData = .ok (lx, l1)) (h2 : q.getData = .ok (lx, l2)) {t v w : K} (hv : IsInterpolant lx l1 t v)
    (hw : IsInterpolant lx l2 t w) : |v - w| ≤ δ := by
  obtain ⟨hx, rfl, hlen⟩ := (getData_ok_iff _ _ _).1 h1
  obtain ⟨-, rfl, -⟩ := (getData_ok_iff _ _ _).1 h2
  by_cases hr : InRange lx t
  · have hl := h.2.1
    have hi := hw.linear (-1 : K) hl.symm hv
    have hd : (⟨r.x, List.zipWith (fun a b => -1 * a + b) q.y r.y⟩ : Rel K K).getData =
        .ok (lx, List.zipWith (fun a b => -1 * a + b) q.y r.y) :=
      (getData_ok_iff _ _ _).2 ⟨hx, rfl, by simp [← hl, hlen]⟩
    have := interpolant_bounds _ lx _ hd (-δ) δ t _ (by
      intro a ha
      obtain ⟨i, hi, rfl⟩ := List.getElem_of_mem ha
      simp only [List.length_zipWith] at hi
      simp only [List.getElem_zipWith]
      have := abs_le.1 (h.2.2 i (by omega) (by omega))
      constructor <;> linarith [this.1, this.2]) hr hi
    rw [abs_le]
    constructor <;> linarith [this.1, this.2]
  · rw [hv.outside hr, hw.outside hr, sub_zero, abs_zero]
    exact near_nonneg h hb

theorem interpolant_within {A : K} {r : Rel K K} (h : Within A r) (hb : Spec.Balanced r) {lx l1 : List K}
    (h1 : r.getData = .ok (lx, l1)) {t v : K} (hv : IsInterpolant lx l1 t v) : |v| ≤ A := by
  obtain ⟨-, rfl, -⟩ := (getData_ok_iff _ _ _).1 h1
  by_cases hr : InRange lx t
  · have := interpolant_bounds r lx r.y h1 (-A) A t v (fun a ha => abs_le.1 (h a ha)) hr hv
    exact abs_le.2 this
  · rw [hv.outside hr, abs_zero]
    exact within_nonneg h hb

theorem near_data {δ : K} {r q : Rel K K} (h : Near δ r q) {lx ly : List K} (hd : r.getData = .ok (lx, ly)) :
    q.getData = .ok (lx, q.y) := by
  obtain ⟨hx, rfl, hlen⟩ := (getData_ok_iff _ _ _).1 hd
  exact (getData_ok_iff _ _ _).2 ⟨by rw [← h.1]; exact hx, rfl, by rw [← h.2.1]; exact hlen⟩

/-- **C151** Resampling onto any axis does not enlarge an error: it succeeds for both records or for neither, and the results
differ by no more than the samples did. -/
theorem C151_resample (δ : K) (r q : Rel K K) (h : Near δ r q) (hb : Spec.Balanced r) (a : Axis K) (r' : Rel K K)
    (hr : r.interpolateExtrapolate (.axis a) = .ok r') :
    ∃ q', q.interpolateExtrapolate (.axis a) = .ok q' ∧ Near δ r' q' := by
  obtain ⟨⟨lx, ly⟩, hd⟩ := (balanced_iff_getData r).1 hb
  have hs : a.sample ≠ 0 := by
    intro h0
    simp only [Rel.interpolateExtrapolate, Rel.interpAxis, Axis.array_zero a h0] at hr
    obtain ⟨l, hl⟩ : ∃ l, r.x.array = .ok l := ⟨lx, ((getData_ok_iff _ _ _).1 hd).1⟩
    simp [hl, except_bind_ok, except_bind_error] at hr
  have hdq := near_data h hd
  obtain ⟨p1, xs, ys, a1, a2, a3, a4⟩ := C20_piecewise_linear r lx ly hd a hs
  obtain ⟨p2, xs2, ys2, c1, c2, c3, c4⟩ := C20_piecewise_linear q lx q.y hdq a hs
  obtain rfl := Except.ok.inj (hr.symm.trans a1)
  obtain ⟨e1, rfl, e3⟩ := (getData_ok_iff _ _ _).1 a3
  obtain ⟨f1, rfl, f3⟩ := (getData_ok_iff _ _ _).1 c3
  rw [a2] at e1
  rw [c2, e1] at f1
  obtain rfl := Except.ok.inj f1
  refine ⟨p2, c1, a2.trans c2.symm, by omega, fun i i1 i2 => ?_⟩
  exact interpolant_near h hb hd hdq (a4 i (by omega) i1) (c4 i (by omega) i2)

/-- two records that differ by at most a tenth, and their resamplings -/
example : Near (1/10 : ℚ) ⟨⟨0, 2, 1⟩, [1, 3, -2]⟩ ⟨⟨0, 2, 1⟩, [11/10, 29/10, -2]⟩ ∧
    (⟨⟨0, 2, 1⟩, [1, 3, -2]⟩ : Rel ℚ ℚ).interpolateExtrapolate (.axis ⟨-1/2, 2, 1/2⟩) =
      .ok ⟨⟨-1/2, 2, 1/2⟩, [0, 1, 2, 3, 1/2, -2]⟩ ∧
    (⟨⟨0, 2, 1⟩, [11/10, 29/10, -2]⟩ : Rel ℚ ℚ).interpolateExtrapolate (.axis ⟨-1/2, 2, 1/2⟩) =
      .ok ⟨⟨-1/2, 2, 1/2⟩, [0, 11/10, 2, 29/10, 9/20, -2]⟩ := by
  refine ⟨⟨rfl, rfl, ?_⟩, by decide +kernel, by decide +kernel⟩
  intro i a b
  simp only [List.length_cons, List.length_nil] at a
  rcases (by omega : i = 0 ∨ i = 1 ∨ i = 2) with rfl | rfl | rfl <;> simp <;> norm_num [abs_le]

/-- **C151** A cut out window and a shifted record: the same points of the axis, the same errors. -/
theorem C151_window (δ : K) (r q : Rel K K) (h : Near δ r q) :
    (∀ s e r', r.selectData s e = .ok r' → ∃ q', q.selectData s e = .ok q' ∧ Near δ r' q') ∧
    (∀ d r', r.shift d = .ok r' → ∃ q', q.shift d = .ok q' ∧ Near δ r' q') := by
  obtain ⟨hx, hl, hn⟩ := h
  constructor
  · intro s e r' hr
    set z : Rel K (K × K) := ⟨r.x, r.y.zip q.y⟩ with hz
    have e1 : r = ⟨z.x, z.y.map Prod.fst⟩ := by
      obtain ⟨x, y⟩ := r
      simp only [hz]
      rw [List.map_fst_zip (by simpa using hl.le)]
    have e2 : q = ⟨z.x, z.y.map Prod.snd⟩ := by
      obtain ⟨x, y⟩ := q
      simp only [hz]
      rw [List.map_snd_zip (by simpa using hl.ge), hx]
    rw [e1, selectData_map] at hr
    cases hs : z.selectData s e with
    | error er => rw [hs] at hr; simp [Except.map] at hr
    | ok p =>
      rw [hs] at hr
      obtain rfl := Except.ok.inj hr
      refine ⟨⟨p.x, p.y.map Prod.snd⟩, by rw [e2, selectData_map, hs]; rfl, rfl, by simp, ?_⟩
      intro i i1 i2
      simp only [List.getElem_map]
      have hmem : ∀ v ∈ p.y, v ∈ z.y := by
        unfold Rel.selectData at hs
        cases ha : z.x.array with
        | error er => rw [ha] at hs; simp [except_bind_error] at hs
        | ok array =>
          rw [ha] at hs
          simp only [except_bind_ok] at hs
          generalize (array.map fun t => decide (s.getD z.x.start ≤ t) && decide (t ≤ e.getD z.x.stop)) = m at hs
          cases hm : maskSelect m array with
          | error er => rw [hm] at hs; simp [except_bind_error] at hs
          | ok sx =>
            rw [hm] at hs
            simp only [except_bind_ok] at hs
            split at hs
            · cases hy : maskSelect m z.y with
              | error er => rw [hy] at hs; simp [except_bind_error] at hs
              | ok y =>
                rw [hy] at hs
                simp only [except_bind_ok] at hs
                obtain ⟨-, rfl⟩ := (make_ok_iff _ _ _).1 hs
                intro v hv
                simp only [maskSelect] at hy
                split at hy
                · obtain rfl := Except.ok.inj hy
                  simp only [List.mem_filterMap] at hv
                  obtain ⟨⟨u, b⟩, hu, hb⟩ := hv
                  simp only [Option.ite_none_right_eq_some, Option.some.injEq] at hb
                  rw [← hb.2]
                  exact (List.of_mem_zip hu).1
                · simp at hy
            · simp at hs
      have := hmem _ (List.getElem_mem (by simpa using i1 : i < p.y.length))
      obtain ⟨j, hj, he⟩ := List.getElem_of_mem this
      rw [← he]
      simp only [hz, List.getElem_zip]
      simp only [hz, List.length_zip] at hj
      exact hn j (by omega) (by omega)
  · intro d r' hr
    obtain ⟨h1, rfl⟩ := (make_ok_iff _ _ _).1 hr
    refine ⟨⟨{ r.x with start := r.x.start + d, stop := r.x.stop + d }, q.y⟩, ?_, rfl, hl, hn⟩
    unfold Rel.shift
    rw [← hx]
    exact (make_ok_iff _ _ _).2 ⟨by rw [← hl]; exact h1, rfl⟩

/-- **C151** The item at a coordinate is taken at the same point of the axis, and the largest and the smallest value move by
no more than the samples. -/
theorem C151_values (δ : K) (r q : Rel K K) (h : Near δ r q) :
    (∀ v t a, r.getItem v = .ok (t, a) → ∃ b, q.getItem v = .ok (t, b) ∧ |a - b| ≤ δ) ∧
    (∀ M, r.max = .ok M → ∃ M', q.max = .ok M' ∧ |M - M'| ≤ δ) ∧
    (∀ m, r.min = .ok m → ∃ m', q.min = .ok m' ∧ |m - m'| ≤ δ) := by
  obtain ⟨hx, hl, hn⟩ := h
  refine ⟨fun v t a hr => ?_, fun M h1 => ?_, fun m h1 => ?_⟩
  · unfold Rel.getItem at hr ⊢
    rw [← hx]
    cases ha : r.x.array with
    | error er => rw [ha] at hr; simp [except_bind_error] at hr
    | ok array =>
      rw [ha] at hr
      simp only [except_bind_ok] at hr ⊢
      cases hi : argmin (array.map fun t => |t - v|) with
      | error er => rw [hi] at hr; simp [except_bind_error] at hr
      | ok i =>
        rw [hi] at hr
        simp only [except_bind_ok] at hr ⊢
        cases h3 : array[i]? with
        | none => rw [h3] at hr; simp at hr
        | some t' =>
          rw [h3] at hr
          cases h4 : r.y[i]? with
          | none => rw [h4] at hr; simp at hr
          | some a' =>
            rw [h4] at hr
            simp only [except_pure, Except.ok.injEq, Prod.mk.injEq] at hr
            obtain ⟨rfl, rfl⟩ := hr
            obtain ⟨i1, rfl⟩ := List.getElem?_eq_some_iff.1 h4
            have i2 : i < q.y.length := by omega
            exact ⟨q.y[i], by rw [List.getElem?_eq_getElem i2]; rfl, hn i i1 i2⟩
  · obtain ⟨a1, a2⟩ := max_bounds h1
    obtain ⟨M', h2⟩ : ∃ M', q.max = .ok M' := by
      unfold Rel.max
      cases hq : q.y with
      | nil => rw [hq] at hl; rw [List.eq_nil_of_length_eq_zero hl] at a1; simp at a1
      | cons a l => exact ⟨_, rfl⟩
    refine ⟨M', h2, ?_⟩
    obtain ⟨b1, b2⟩ := max_bounds h2
    obtain ⟨i, hi, rfl⟩ := List.getElem_of_mem a1
    obtain ⟨j, hj, rfl⟩ := List.getElem_of_mem b1
    have c1 := abs_le.1 (hn i hi (by omega))
    have c2 := abs_le.1 (hn j (by omega) hj)
    have c3 := a2 _ (List.getElem_mem (by omega : j < r.y.length))
    have c4 := b2 _ (List.getElem_mem (by omega : i < q.y.length))
    rw [abs_le]
    constructor <;> linarith [c1.1, c1.2, c2.1, c2.2]
  · obtain ⟨a1, a2⟩ := min_bounds h1
    obtain ⟨m', h2⟩ : ∃ m', q.min = .ok m' := by
      unfold Rel.min
      cases hq : q.y with
      | nil => rw [hq] at hl; rw [List.eq_nil_of_length_eq_zero hl] at a1; simp at a1
      | cons a l => exact ⟨_, rfl⟩
    refine ⟨m', h2, ?_⟩
    obtain ⟨b1, b2⟩ := min_bounds h2
    obtain ⟨i, hi, rfl⟩ := List.getElem_of_mem a1
    obtain ⟨j, hj, rfl⟩ := List.getElem_of_mem b1
    have c1 := abs_le.1 (hn i hi (by omega))
    have c2 := abs_le.1 (hn j (by omega) hj)
    have c3 := a2 _ (List.getElem_mem (by omega : j < r.y.length))
    have c4 := b2 _ (List.getElem_mem (by omega : i < q.y.length))
    rw [abs_le]
    constructor <;> linarith [c1.1, c1.2, c2.1, c2.2]

/-- the windows, items and largest values of the two records above -/
example : (⟨⟨0, 2, 1⟩, [1, 3, -2]⟩ : Rel ℚ ℚ).selectData (some (1/2)) none = .ok ⟨⟨1, 2, 1⟩, [3, -2]⟩ ∧
    (⟨⟨0, 2, 1⟩, [11/10, 29/10, -2]⟩ : Rel ℚ ℚ).selectData (some (1/2)) none = .ok ⟨⟨1, 2, 1⟩, [29/10, -2]⟩ ∧
    (⟨⟨0, 2, 1⟩, [1, 3, -2]⟩ : Rel ℚ ℚ).getItem (6/5) = .ok (1, 3) ∧
    (⟨⟨0, 2, 1⟩, [11/10, 29/10, -2]⟩ : Rel ℚ ℚ).getItem (6/5) = .ok (1, 29/10) ∧
    (⟨⟨0, 2, 1⟩, [1, 3, -2]⟩ : Rel ℚ ℚ).max = .ok 3 ∧ (⟨⟨0, 2, 1⟩, [11/10, 29/10, -2]⟩ : Rel ℚ ℚ).max = .ok (29/10) := by
  decide +kernel

/-- **C151** Integrating and differentiating. The running integral collects the errors: the value number `k` is off by at most
`k + 1` steps times the error. The derivative is off by at most twice the error over the step, and the whole integral by at
most the error times the length of the axis. -/
theorem C151_calculus (δ : K) (r q : Rel K K) (h : Near δ r q) (hb : Spec.Balanced r) :
    (∀ r', r.integrate = .ok r' → ∃ q', q.integrate = .ok q' ∧ r'.x = q'.x ∧ r'.y.length = q'.y.length ∧
      ∀ k (a : k < r'.y.length) (b : k < q'.y.length), |r'.y[k] - q'.y[k]| ≤ (k + 1) * |r.x.sample| * δ) ∧
    (∀ r', r.diff = .ok r' → ∃ q', q.diff = .ok q' ∧ Near (2 * δ / |r.x.sample|) r' q') ∧
    (∃ I J, r.oneIntegrate = .ok I ∧ q.oneIntegrate = .ok J ∧ |I - J| ≤ |r.x.stop - r.x.start| * δ) := by
  have hd := near_nonneg h hb
  have hg := near_getD h hd
  have hbq := near_balanced h hb
  have hterm : ∀ j, |(r.y.getD j 0 + r.y.getD (j + 1) 0) / 2 - (q.y.getD j 0 + q.y.getD (j + 1) 0) / 2| ≤ δ := by
    intro j
    have c1 := abs_le.1 (hg j)
    have c2 := abs_le.1 (hg (j + 1))
    rw [abs_le]
    constructor <;> linarith [c1.1, c1.2, c2.1, c2.2]
  refine ⟨fun r' hr => ?_, fun r' hr => ?_, ?_⟩
  · have hq : ∃ q', q.integrate = .ok q' := by
      obtain ⟨h1, -⟩ := (make_ok_iff _ _ _).1 hr
      refine ⟨_, (make_ok_iff _ _ _).2 ⟨?_, rfl⟩⟩
      rw [← h.1, h1]
      simp [cumTrapz_length, h.2.1]
    obtain ⟨q', hq⟩ := hq
    obtain ⟨a1, a2, a3, a4, -, a6⟩ := C13_integrate_values r r' hr
    obtain ⟨b1, b2, b3, b4, -, b6⟩ := C13_integrate_values q q' hq
    refine ⟨q', hq, ?_, by have := h.2.1; omega, fun k k1 k2 => ?_⟩
    · rw [← h.1] at b1 b2 b3
      exact Axis.ext' (a1.trans b1.symm) (a2.trans b2.symm) (a3.trans b3.symm)
    · rw [a6 k k1, b6 k k2, ← h.1, smul_eq_mul, smul_eq_mul, ← mul_sub, ← Finset.sum_sub_distrib, abs_mul]
      have : |∑ j ∈ Finset.range (k + 1), ((r.y.getD j 0 + r.y.getD (j + 1) 0) / 2 -
          (q.y.getD j 0 + q.y.getD (j + 1) 0) / 2)| ≤ (k + 1) * δ := by
        refine (Finset.abs_sum_le_sum_abs _ _).trans ((Finset.sum_le_sum fun j _ => hterm j).trans ?_)
        rw [Finset.sum_const, Finset.card_range, nsmul_eq_mul]
        push_cast
        exact le_rfl
      calc |r.x.sample| * _ ≤ |r.x.sample| * ((k + 1) * δ) := mul_le_mul_of_nonneg_left this (abs_nonneg _)
        _ = (k + 1) * |r.x.sample| * δ := by ring
  · have hq : ∃ q', q.diff = .ok q' := by
      obtain ⟨h1, -⟩ := (make_ok_iff _ _ _).1 hr
      refine ⟨_, (make_ok_iff _ _ _).2 ⟨?_, rfl⟩⟩
      rw [← h.1, h1]
      simp [npDiff_length, h.2.1]
    obtain ⟨q', hq⟩ := hq
    obtain ⟨a1, a2, a3, a4, -, a5, a6⟩ := C14_diff_values r r' hr
    obtain ⟨b1, b2, b3, b4, -, -, b6⟩ := C14_diff_values q q' hq
    refine ⟨q', hq, ?_, by have := h.2.1; omega, fun k k1 k2 => ?_⟩
    · rw [← h.1] at b1 b2 b3
      exact Axis.ext' (a1.trans b1.symm) (a2.trans b2.symm) (a3.trans b3.symm)
    · rw [a6 k k1, b6 k k2, ← h.1, smul_eq_mul, smul_eq_mul, ← mul_sub, abs_mul, abs_inv, div_eq_mul_inv,
        mul_comm (2 * δ)]
      refine mul_le_mul_of_nonneg_left ?_ (inv_nonneg.2 (abs_nonneg _))
      have c1 := abs_le.1 (hg k)
      have c2 := abs_le.1 (hg (k + 1))
      rw [abs_le]
      constructor <;> linarith [c1.1, c1.2, c2.1, c2.2]
  · refine ⟨_, _, oneIntegrate_sum r hb, oneIntegrate_sum q hbq, ?_⟩
    rw [← h.1, ← h.2.1, ← Finset.sum_sub_distrib]
    have hlen : r.y.length - 1 = r.x.steps := by rw [((balanced_iff r).1 hb).2]; rfl
    have hst : (r.x.steps : K) * |r.x.step| ≤ |r.x.stop - r.x.start| := by
      unfold Axis.step
      rcases Nat.eq_zero_or_pos r.x.steps with h0 | h0
      · rw [h0]; simp
      · have : (0 : K) < r.x.steps := by exact_mod_cast h0
        rw [abs_div, abs_of_pos this, mul_div_cancel₀ _ this.ne']
    calc |∑ j ∈ Finset.range (r.y.length - 1), _|
        ≤ ∑ j ∈ Finset.range (r.y.length - 1), |r.x.step| * δ := by
          refine (Finset.abs_sum_le_sum_abs _ _).trans (Finset.sum_le_sum fun j _ => ?_)
          rw [← mul_sub, abs_mul]
          exact mul_le_mul_of_nonneg_left (hterm j) (abs_nonneg _)
      _ = (r.x.steps : K) * |r.x.step| * δ := by
          rw [Finset.sum_const, Finset.card_range, nsmul_eq_mul, hlen]; ring
      _ ≤ _ := mul_le_mul_of_nonneg_right hst hd

/-- the bounds are reached: both samples are off by a tenth, in opposite directions for the derivative -/
example : (⟨⟨0, 3, 1⟩, [1, 2, 3, 4]⟩ : Rel ℚ ℚ).integrate = .ok ⟨⟨1, 3, 1⟩, [3/2, 4, 15/2]⟩ ∧
    (⟨⟨0, 3, 1⟩, [11/10, 21/10, 31/10, 41/10]⟩ : Rel ℚ ℚ).integrate = .ok ⟨⟨1, 3, 1⟩, [8/5, 21/5, 39/5]⟩ ∧
    (⟨⟨0, 1, 1⟩, [1, 2]⟩ : Rel ℚ ℚ).diff = .ok ⟨⟨1/2, 1/2, 1⟩, [1]⟩ ∧
    (⟨⟨0, 1, 1⟩, [9/10, 21/10]⟩ : Rel ℚ ℚ).diff = .ok ⟨⟨1/2, 1/2, 1⟩, [6/5]⟩ := by
  decide +kernel

end

/-! ## Arithmetic -/

section
variable {K : Type} [Field K] [LinearOrder K] [IsStrictOrderedRing K] [FloorRing K] [PyPow K]

omit [FloorRing K] [PyPow K] in
theorem product_near {a b a' b' δ₁ δ₂ A B : K} (g1 : |a - a'| ≤ δ₁) (g2 : |b - b'| ≤ δ₂) (ga : |a| ≤ A) (gb : |b| ≤ B) :
    |a * b - a' * b'| ≤ A * δ₂ + B * δ₁ + δ₁ * δ₂ := by
  have e : a * b - a' * b' = a * (b - b') + b * (a - a') - (a - a') * (b - b') := by ring
  have n1 := (abs_nonneg _).trans g1
  have c1 : |a * (b - b')| ≤ A * δ₂ := by
    rw [abs_mul]; exact mul_le_mul ga g2 (abs_nonneg _) ((abs_nonneg _).trans ga)
  have c2 : |b * (a - a')| ≤ B * δ₁ := by
    rw [abs_mul]; exact mul_le_mul gb g1 (abs_nonneg _) ((abs_nonneg _).trans gb)
  have c3 : |(a - a') * (b - b')| ≤ δ₁ * δ₂ := by
    rw [abs_mul]; exact mul_le_mul g1 g2 (abs_nonneg _) n1
  rw [e]
  exact (abs_sub _ _).trans (add_le_add ((abs_add_le _ _).trans (add_le_add c1 c2)) c3)

/-- **C151** Sums, differences and products of two records on any axes. The errors of the operands add; in a product each is
multiplied by the size of the other operand. -/
theorem C151_arithmetic (δ₁ δ₂ A B : K) (r1 q1 r2 q2 : Rel K K) (h1 : Near δ₁ r1 q1) (h2 : Near δ₂ r2 q2)
    (b1 : Spec.Balanced r1) (b2 : Spec.Balanced r2) (hA : Within A r1) (hB : Within B r2) (same : Bool)
    (hsame : same = true → r1.x = r2.x) :
    (∃ s t, r1.add (.rel same r2) = .ok s ∧ q1.add (.rel same q2) = .ok t ∧ Near (δ₁ + δ₂) s t) ∧
    (∃ s t, r1.sub (.rel same r2) = .ok s ∧ q1.sub (.rel same q2) = .ok t ∧ Near (δ₁ + δ₂) s t) ∧
    (∃ s t, r1.mul (.rel same r2) = .ok s ∧ q1.mul (.rel same q2) = .ok t ∧ Near (A * δ₂ + B * δ₁ + δ₁ * δ₂) s t) := by
  obtain ⟨⟨l1, y1⟩, d1⟩ := (balanced_iff_getData r1).1 b1
  obtain ⟨⟨l2, y2⟩, d2⟩ := (balanced_iff_getData r2).1 b2
  have e1 := near_data h1 d1
  have e2 := near_data h2 d2
  have n1 := near_nonneg h1 b1
  have n2 := near_nonneg h2 b2
  have key : ∀ op, (op = .add ∨ op = .sub ∨ op = .mul) → ∀ E : K,
      (∀ a b a' b' v w, |a - a'| ≤ δ₁ → |b - b'| ≤ δ₂ → |a| ≤ A → |b| ≤ B → OpResult op a b v → OpResult op a' b' w →
        |v - w| ≤ E) →
      ∃ s t, r1.operation (.rel same r2) op = .ok s ∧ q1.operation (.rel same q2) op = .ok t ∧ Near E s t := by
    intro op hop E hE
    have sr : r1.operation (.rel same r2) op = r1.operation (.rel false r2) op := by
      cases same with
      | false => rfl
      | true => rw [operation_equal_axes true r1 r2 op b1 b2 (hsame rfl), operation_equal_axes false r1 r2 op b1 b2 (hsame rfl)]
    have sq : q1.operation (.rel same q2) op = q1.operation (.rel false q2) op := by
      cases same with
      | false => rfl
      | true =>
        have hx := h1.1.symm.trans ((hsame rfl).trans h2.1)
        rw [operation_equal_axes true q1 q2 op (near_balanced h1 b1) (near_balanced h2 b2) hx,
          operation_equal_axes false q1 q2 op (near_balanced h1 b1) (near_balanced h2 b2) hx]
    rw [sr, sq]
    obtain ⟨s, hs⟩ := (C25_different_axes r1 r2 l1 l2 y1 y2 d1 d2 op).2.2 hop
    obtain ⟨t, ht⟩ := (C25_different_axes q1 q2 l1 l2 _ _ e1 e2 op).2.2 hop
    obtain ⟨c1, c2, c3, xs, c4, c5⟩ := (C25_different_axes r1 r2 l1 l2 y1 y2 d1 d2 op).1 s hs
    obtain ⟨f1, f2, f3, xt, f4, f5⟩ := (C25_different_axes q1 q2 l1 l2 _ _ e1 e2 op).1 t ht
    rw [← h1.1, ← h2.1] at f1 f2 f3
    have hx : s.x = t.x := Axis.ext' (c1.trans f1.symm) (c2.trans f2.symm) (c3.trans f3.symm)
    obtain ⟨g1, -, g3⟩ := (getData_ok_iff _ _ _).1 c4
    obtain ⟨k1, -, k3⟩ := (getData_ok_iff _ _ _).1 f4
    rw [hx, k1] at g1
    obtain rfl := Except.ok.inj g1
    refine ⟨s, t, hs, ht, hx, by omega, fun i i1 i2 => ?_⟩
    obtain ⟨v1, v2, u1, u2, u3⟩ := c5 i (by omega) i1
    obtain ⟨w1, w2, z1, z2, z3⟩ := f5 i (by omega) i2
    exact hE v1 v2 w1 w2 _ _ (interpolant_near h1 b1 d1 e1 u1 z1) (interpolant_near h2 b2 d2 e2 u2 z2)
      (interpolant_within hA b1 d1 u1) (interpolant_within hB b2 d2 u2) u3 z3
  refine ⟨key .add (by simp) _ ?_, key .sub (by simp) _ ?_, key .mul (by simp) _ ?_⟩
  · intro a b a' b' v w g1 g2 _ _ g3 g4
    simp only [OpResult] at g3 g4
    subst g3 g4
    have c1 := abs_le.1 g1
    have c2 := abs_le.1 g2
    rw [abs_le]
    constructor <;> linarith [c1.1, c1.2, c2.1, c2.2]
  · intro a b a' b' v w g1 g2 _ _ g3 g4
    simp only [OpResult] at g3 g4
    subst g3 g4
    have c1 := abs_le.1 g1
    have c2 := abs_le.1 g2
    rw [abs_le]
    constructor <;> linarith [c1.1, c1.2, c2.1, c2.2]
  · intro a b a' b' v w g1 g2 ga gb g3 g4
    simp only [OpResult] at g3 g4
    subst g3 g4
    exact product_near g1 g2 ga gb

/-- **C151** Operations with a number: adding or subtracting one leaves the error, multiplying and dividing multiply and divide
it by the absolute value; a number divided by the record has an error of at most `|c| δ / (m (m - δ))` where `m`, larger than the error, is a lower
bound of the absolute samples. -/
theorem C151_number (δ : K) (r q : Rel K K) (h : Near δ r q) (hb : Spec.Balanced r) (c : K) :
    (∃ s t, r.add (.other (.num c)) = .ok s ∧ q.add (.other (.num c)) = .ok t ∧ Near δ s t) ∧
    (∃ s t, r.sub (.other (.num c)) = .ok s ∧ q.sub (.other (.num c)) = .ok t ∧ Near δ s t) ∧
    (∃ s t, r.rsub (.other (.num c)) = .ok s ∧ q.rsub (.other (.num c)) = .ok t ∧ Near δ s t) ∧
    (∃ s t, r.mul (.other (.num c)) = .ok s ∧ q.mul (.other (.num c)) = .ok t ∧ Near (|c| * δ) s t) ∧
    (c ≠ 0 → ∃ s t, r.truediv (.other (.num c)) = .ok s ∧ q.truediv (.other (.num c)) = .ok t ∧ Near (δ / |c|) s t) ∧
    ∀ m, δ < m → (∀ v ∈ r.y, m ≤ |v|) → ∃ s t, r.rtruediv (.other (.num c)) = .ok s ∧ q.rtruediv (.other (.num c)) = .ok t ∧
      Near (|c| * δ / (m * (m - δ))) s t := by
  have hbq := near_balanced h hb
  have hd := near_nonneg h hb
  obtain ⟨p1, -, p3, p4, p5, -, p7, p8, -⟩ := C23_with_number r hb c
  obtain ⟨w1, -, w3, w4, w5, -, w7, w8, -⟩ := C23_with_number q hbq c
  refine ⟨⟨_, _, p1, w1, h.1, by simp [h.2.1], fun i a b => ?_⟩, ⟨_, _, p3, w3, h.1, by simp [h.2.1], fun i a b => ?_⟩,
    ⟨_, _, p4, w4, h.1, by simp [h.2.1], fun i a b => ?_⟩, ⟨_, _, p5, w5, h.1, by simp [h.2.1], fun i a b => ?_⟩,
    fun hc => ⟨_, _, p7 hc, w7 hc, h.1, by simp [h.2.1], fun i a b => ?_⟩, fun m hm hr => ?_⟩
  · simp only [List.length_map] at a b
    simp only [List.getElem_map, add_sub_add_right_eq_sub]
    exact h.2.2 i a b
  · simp only [List.length_map] at a b
    simp only [List.getElem_map, sub_sub_sub_cancel_right]
    exact h.2.2 i a b
  · simp only [List.length_map] at a b
    simp only [List.getElem_map, sub_sub_sub_cancel_left]
    rw [abs_sub_comm]
    exact h.2.2 i a b
  · simp only [List.length_map] at a b
    simp only [List.getElem_map, ← sub_mul]
    rw [abs_mul, mul_comm]
    exact mul_le_mul_of_nonneg_left (h.2.2 i a b) (abs_nonneg _)
  · simp only [List.length_map] at a b
    simp only [List.getElem_map, ← sub_div]
    rw [abs_div]
    exact div_le_div_of_nonneg_right (h.2.2 i a b) (abs_nonneg _)
  have hq : ∀ i (a : i < q.y.length), m - δ ≤ |q.y[i]| := by
    intro i a
    have i1 : i < r.y.length := by rw [h.2.1]; exact a
    have c1 := h.2.2 i i1 a
    have c2 := hr _ (List.getElem_mem i1)
    have c3 := abs_sub_abs_le_abs_sub r.y[i] q.y[i]
    linarith
  refine ⟨_, _, p8 ?_, w8 ?_, h.1, by simp [h.2.1], fun i a b => ?_⟩
  · intro a ha h0
    have := hr a ha
    rw [h0, abs_zero] at this
    linarith
  · intro a ha h0
    obtain ⟨i, hi, rfl⟩ := List.getElem_of_mem ha
    have := hq i hi
    rw [h0, abs_zero] at this
    linarith
  · simp only [List.length_map] at a b
    simp only [List.getElem_map]
    have c1 := hr _ (List.getElem_mem a)
    have c2 := hq i b
    have hm0 : 0 < m := lt_of_le_of_lt hd hm
    have hr0 : r.y[i] ≠ 0 := fun e => by rw [e, abs_zero] at c1; linarith
    have hq0 : q.y[i] ≠ 0 := fun e => by rw [e, abs_zero] at c2; linarith
    rw [div_sub_div _ _ hr0 hq0, abs_div, abs_mul r.y[i], mul_comm r.y[i] c, ← mul_sub, abs_mul, abs_sub_comm]
    apply div_le_div₀ (mul_nonneg (abs_nonneg _) hd) (mul_le_mul_of_nonneg_left (h.2.2 i a b) (abs_nonneg _))
    · exact mul_pos hm0 (by linarith)
    · exact mul_le_mul c1 c2 (by linarith) (abs_nonneg _)

/-- one over the two records: the error at the first sample, 1/11, is below the bound (1/10) / (1 · 9/10) = 1/9 -/
example : (⟨⟨0, 2, 1⟩, [1, 3, -2]⟩ : Rel ℚ ℚ).rtruediv (.other (.num 1)) = .ok ⟨⟨0, 2, 1⟩, [1, 1/3, -1/2]⟩ ∧
    (⟨⟨0, 2, 1⟩, [11/10, 29/10, -2]⟩ : Rel ℚ ℚ).rtruediv (.other (.num 1)) = .ok ⟨⟨0, 2, 1⟩, [10/11, 10/29, -1/2]⟩ ∧
    (1 : ℚ) - 10/11 = 1/11 ∧ (|(1 : ℚ)| * (1/10) / (1 * (1 - 1/10)) = 1/9) := by
  decide +kernel

/-- the sum and the product of the two records with a third one on another axis -/
example : (⟨⟨0, 2, 1⟩, [1, 3, -2]⟩ : Rel ℚ ℚ).mul (.rel false ⟨⟨1, 2, 1/2⟩, [2, 1, 4]⟩) =
      .ok ⟨⟨0, 2, 1/2⟩, [0, 0, 6, 1/2, -8]⟩ ∧
    (⟨⟨0, 2, 1⟩, [11/10, 29/10, -2]⟩ : Rel ℚ ℚ).mul (.rel false ⟨⟨1, 2, 1/2⟩, [2, 1, 4]⟩) =
      .ok ⟨⟨0, 2, 1/2⟩, [0, 0, 29/5, 9/20, -8]⟩ := by
  decide +kernel

/-- **C151** Without such a lower bound there is no bound at all: however small the error `δ` and however large `B`, there are
records with one sample whose reciprocals differ by more than `B`. -/
theorem C151_no_bound (δ B : K) (hd : 0 < δ) : ∃ r q s t : Rel K K, Spec.Balanced r ∧ Near δ r q ∧
    r.rtruediv (.other (.num 1)) = .ok s ∧ q.rtruediv (.other (.num 1)) = .ok t ∧ ¬ Near B s t := by
  set e : K := min δ (1 / (2 * (|B| + 1))) with he
  have hB : 0 < 2 * (|B| + 1) := by positivity
  have he0 : 0 < e := lt_min hd (by positivity)
  have hb : ∀ v : K, Spec.Balanced (⟨⟨0, 0, 1⟩, [v]⟩ : Rel K K) := fun v => balanced_whole _ 0 (by simp) (by simp) rfl
  refine ⟨⟨⟨0, 0, 1⟩, [e]⟩, ⟨⟨0, 0, 1⟩, [2 * e]⟩, ⟨⟨0, 0, 1⟩, [1 / e]⟩, ⟨⟨0, 0, 1⟩, [1 / (2 * e)]⟩, hb _, ⟨rfl, rfl, ?_⟩, ?_, ?_, ?_⟩
  · intro i a b
    simp only [List.length_cons, List.length_nil] at a
    obtain rfl : i = 0 := by omega
    have : e - 2 * e = -e := by ring
    simp only [List.getElem_cons_zero, this, abs_neg, abs_of_pos he0]
    exact min_le_left _ _
  · exact (C23_with_number _ (hb e) 1).2.2.2.2.2.2.2.1 (by simpa using he0.ne')
  · exact (C23_with_number _ (hb (2 * e)) 1).2.2.2.2.2.2.2.1 (by simpa using he0.ne')
  · rintro ⟨-, -, hn⟩
    have := hn 0 (by simp) (by simp)
    simp only [List.getElem_cons_zero] at this
    have e1 : 1 / e - 1 / (2 * e) = 1 / (2 * e) := by field_simp; ring
    rw [e1, abs_of_pos (by positivity)] at this
    have h2 : e ≤ 1 / (2 * (|B| + 1)) := min_le_right _ _
    have h3 : |B| + 1 ≤ 1 / (2 * e) := by
      rw [le_div_iff₀ (by positivity)]
      rw [le_div_iff₀ hB] at h2
      linarith
    linarith [le_abs_self B]

/-! ## Convolution and correlation -/

omit [PyPow K] in
theorem within_resample {A : K} {r r' : Rel K K} (h : Within A r) (hb : Spec.Balanced r) (a : Axis K)
    (hr : r.interpAxis a = .ok r') : Within A r' := by
  obtain ⟨⟨lx, ly⟩, hd⟩ := (balanced_iff_getData r).1 hb
  have hs : a.sample ≠ 0 := by
    intro h0
    simp only [Rel.interpAxis, Axis.array_zero a h0] at hr
    obtain ⟨l, hl⟩ : ∃ l, r.x.array = .ok l := ⟨lx, ((getData_ok_iff _ _ _).1 hd).1⟩
    simp [hl, except_bind_ok, except_bind_error] at hr
  obtain ⟨p1, xs, ys, a1, -, a3, a4⟩ := C20_piecewise_linear r lx ly hd a hs
  obtain rfl := Except.ok.inj (hr.symm.trans a1)
  obtain ⟨e1, rfl, e3⟩ := (getData_ok_iff _ _ _).1 a3
  intro v hv
  obtain ⟨i, hi, rfl⟩ := List.getElem_of_mem hv
  exact interpolant_within h hb hd (a4 i (by omega) hi)

omit [PyPow K] in
theorem aligned_near {δ₁ δ₂ A B : K} {r1 q1 r2 q2 : Rel K K} (h1 : Near δ₁ r1 q1) (h2 : Near δ₂ r2 q2)
    (b1 : Spec.Balanced r1) (b2 : Spec.Balanced r2) (hA : Within A r1) (hB : Within B r2) :
    ∃ e1 e2 f1 f2 ax, Rel.alignForConv r1 r2 = .ok (e1, e2, ax) ∧ Rel.alignForConv q1 q2 = .ok (f1, f2, ax) ∧
      Near δ₁ e1 f1 ∧ Near δ₂ e2 f2 ∧ Within A e1 ∧ Within B e2 ∧ e1.y.length = e2.y.length ∧ 0 < e1.y.length := by
  obtain ⟨e1, e2, -, -, hal, -, c1, c2, x1, x2, i1, i2⟩ := alignForConv_eq r1 r2 b1 b2
  obtain ⟨f1, f2, -, -, hal', -, -, -, -, -, j1, j2⟩ := alignForConv_eq q1 q2 (near_balanced h1 b1) (near_balanced h2 b2)
  have z1 : Near δ₁ r1.zeroed q1.zeroed := ⟨by simp [Rel.zeroed, h1.1], h1.2⟩
  have z2 : Near δ₂ r2.zeroed q2.zeroed := ⟨by simp [Rel.zeroed, h2.1], h2.2⟩
  rw [← z1.1, ← z2.1] at hal' j1 j2
  obtain ⟨f1', k1, n1⟩ := C151_resample δ₁ _ _ z1 (zeroed_balanced _ b1) _ e1 i1
  obtain ⟨f2', k2, n2⟩ := C151_resample δ₂ _ _ z2 (zeroed_balanced _ b2) _ e2 i2
  obtain rfl : f1 = f1' := Except.ok.inj (j1.symm.trans k1)
  obtain rfl : f2 = f2' := Except.ok.inj (j2.symm.trans k2)
  exact ⟨e1, e2, f1, f2, _, hal, hal', n1, n2,
    within_resample (r := r1.zeroed) hA (zeroed_balanced _ b1) _ i1,
    within_resample (r := r2.zeroed) hB (zeroed_balanced _ b2) _ i2,
    balanced_length_eq c1 c2 (x1.trans x2.symm), balanced_pos c1⟩

omit [PyPow K] in
theorem npConvolve_near {δ₁ δ₂ A B : K} (n : ℕ) (a a' b b' : List K) (n1 : a.length = n) (n2 : a'.length = n)
    (d1 : ∀ i, |a.getD i 0 - a'.getD i 0| ≤ δ₁) (d2 : ∀ i, |b.getD i 0 - b'.getD i 0| ≤ δ₂)
    (hA : ∀ i, |a.getD i 0| ≤ A) (hB : ∀ i, |b.getD i 0| ≤ B) (k : ℕ) :
    |(∑ p ∈ Finset.antidiagonal k, a.getD p.1 0 * b.getD p.2 0) -
      ∑ p ∈ Finset.antidiagonal k, a'.getD p.1 0 * b'.getD p.2 0| ≤ n * (A * δ₂ + B * δ₁ + δ₁ * δ₂) := by
  set E := A * δ₂ + B * δ₁ + δ₁ * δ₂ with hE
  have hE0 : 0 ≤ E := (abs_nonneg _).trans (product_near (d1 0) (d2 0) (hA 0) (hB 0))
  rw [Finset.Nat.sum_antidiagonal_eq_sum_range_succ (fun i j => a.getD i 0 * b.getD j 0),
    Finset.Nat.sum_antidiagonal_eq_sum_range_succ (fun i j => a'.getD i 0 * b'.getD j 0), ← Finset.sum_sub_distrib]
  refine (Finset.abs_sum_le_sum_abs _ _).trans ?_
  calc ∑ i ∈ Finset.range (k + 1), |a.getD i 0 * b.getD (k - i) 0 - a'.getD i 0 * b'.getD (k - i) 0|
      ≤ ∑ i ∈ Finset.range (k + 1), if i < n then E else 0 := by
        refine Finset.sum_le_sum fun i _ => ?_
        split
        · exact product_near (d1 _) (d2 _) (hA _) (hB _)
        · rw [getD_past a i (by omega), getD_past a' i (by omega)]
          simp
    _ ≤ n * E := by
        rw [← Finset.sum_filter, Finset.sum_const, nsmul_eq_mul]
        refine mul_le_mul_of_nonneg_right ?_ hE0
        have : ((Finset.range (k + 1)).filter fun i => i < n).card ≤ (Finset.range n).card :=
          Finset.card_le_card fun i hi => by simpa using (Finset.mem_filter.1 hi).2
        rw [Finset.card_range] at this
        exact_mod_cast this

omit [PyPow K] in
theorem reverse_getD (l : List K) (i : ℕ) : l.reverse.getD i 0 = if i < l.length then l.getD (l.length - 1 - i) 0 else 0 := by
  split
  · rename_i h
    rw [getD_lt _ _ _ (by simpa using h), getD_lt _ _ _ (by omega), List.getElem_reverse]
  · rename_i h
    exact getD_past _ _ (by simpa using h)

/-- **C151** Convolution and correlation of two records on any axes: with `n` points on the common axis each value is off by
at most `n` times the error of a product. -/
theorem C151_convolve [StarRing K] [TrivialStar K] (δ₁ δ₂ A B : K) (r1 q1 r2 q2 c : Rel K K) (h1 : Near δ₁ r1 q1)
    (h2 : Near δ₂ r2 q2) (b1 : Spec.Balanced r1) (b2 : Spec.Balanced r2) (hA : Within A r1) (hB : Within B r2) :
    (r1.convolve r2 = .ok c →
      ∃ d n, q1.convolve q2 = .ok d ∧ c.y.length + 1 = 2 * n ∧ Near ((n : K) * (A * δ₂ + B * δ₁ + δ₁ * δ₂)) c d) ∧
    (r1.correlate r2 = .ok c →
      ∃ d n, q1.correlate q2 = .ok d ∧ c.y.length + 1 = 2 * n ∧ Near ((n : K) * (A * δ₂ + B * δ₁ + δ₁ * δ₂)) c d) := by
  obtain ⟨e1, e2, f1, f2, ax, al1, al2, g1, g2, w1, w2, hl, hp⟩ := aligned_near h1 h2 b1 b2 hA hB
  have p1 := near_nonneg h1 b1
  have p2 := near_nonneg h2 b2
  have pA := within_nonneg hA b1
  have pB := within_nonneg hB b2
  have hl1 := g1.2.1
  have hl2 := g2.2.1
  constructor
  · intro hc
    simp only [Rel.convolve, al1, except_bind_ok] at hc
    obtain ⟨hsz, rfl⟩ := (make_ok_iff _ _ _).1 hc
    refine ⟨⟨ax, npConvolve f1.y f2.y⟩, e1.y.length, ?_, ?_, rfl, ?_, ?_⟩
    · simp only [Rel.convolve, al2, except_bind_ok]
      refine (make_ok_iff _ _ _).2 ⟨?_, rfl⟩
      rw [hsz, npConvolve_length, npConvolve_length, hl1, hl2]
    · simp only [npConvolve_length]
      omega
    · simp only [npConvolve_length, hl1, hl2]
    · intro k k1 k2
      rw [npConvolve_getElem, npConvolve_getElem]
      exact npConvolve_near e1.y.length _ _ _ _ rfl hl1.symm (near_getD g1 p1) (near_getD g2 p2) (within_getD w1 pA)
        (within_getD w2 pB) k
  · intro hc
    simp only [Rel.correlate, al1, except_bind_ok] at hc
    obtain ⟨hsz, rfl⟩ := (make_ok_iff _ _ _).1 hc
    refine ⟨⟨ax, npCorrelate f1.y f2.y⟩, e1.y.length, ?_, ?_, rfl, ?_, ?_⟩
    · simp only [Rel.correlate, al2, except_bind_ok]
      refine (make_ok_iff _ _ _).2 ⟨?_, rfl⟩
      rw [hsz, npCorrelate_length, npCorrelate_length, hl1, hl2]
    · simp only [npCorrelate_length]
      omega
    · simp only [npCorrelate_length, hl1, hl2]
    · intro k k1 k2
      have hst : ∀ l : List K, l.map star = l := fun l =>
        (List.map_congr_left fun a _ => star_trivial a).trans (List.map_id l)
      rw [npCorrelate_anti, npCorrelate_anti, hst, hst]
      refine npConvolve_near e1.y.length _ _ _ _ rfl hl1.symm (near_getD g1 p1) (fun i => ?_) (within_getD w1 pA)
        (fun i => ?_) k
      · rw [reverse_getD, reverse_getD, hl2]
        split
        · exact near_getD g2 p2 _
        · simpa using p2
      · rw [reverse_getD]
        split
        · exact within_getD w2 pB _
        · simpa using pB

/-- all samples off by one tenth: the middle value of the convolution is off by 0.61, the bound is 2 · 0.41 -/
example : (⟨⟨0, 1, 1⟩, [1, 2]⟩ : Rel ℚ ℚ).convolve ⟨⟨0, 1, 1⟩, [2, 1]⟩ = .ok ⟨⟨-1, 1, 1⟩, [2, 5, 2]⟩ ∧
    (⟨⟨0, 1, 1⟩, [11/10, 21/10]⟩ : Rel ℚ ℚ).convolve ⟨⟨0, 1, 1⟩, [21/10, 11/10]⟩ =
      .ok ⟨⟨-1, 1, 1⟩, [231/100, 562/100, 231/100]⟩ ∧
    (2 : ℚ) * (2 * (1/10) + 2 * (1/10) + (1/10) * (1/10)) = 82/100 := by
  decide +kernel

end

/-! ## The spectrum -/

/-- **C151** The spectrum and the amplitude spectrum of a signal: each value is off by at most the number of samples times the
error. -/
theorem C151_spectrum (δ : ℝ) (r q : Rel ℝ ℝ) (h : Near δ r q) (hb : Spec.Balanced r) (hi : r.x.start ≤ r.x.stop)
    (hn : 2 ≤ r.y.length) :
    ∃ s t a b, r.getSpectrum = .ok s ∧ q.getSpectrum = .ok t ∧ r.signalAmplitude = .ok a ∧ q.signalAmplitude = .ok b ∧
      s.x = t.x ∧ s.y.length = t.y.length ∧
      (∀ k (i1 : k < s.y.length) (i2 : k < t.y.length), ‖s.y[k] - t.y[k]‖ ≤ r.y.length * δ) ∧
      Near (r.y.length * δ) a b := by
  have hd := near_nonneg h hb
  have hxy : q = ⟨r.x, q.y⟩ := Rel.ext' h.1.symm rfl
  have key : ∀ (N : ℕ) (p : ℤ) (k : ℕ), ‖(∑ j ∈ Finset.range r.y.length, ((at0 r.y j : ℝ) : ℂ) * unitRoot N (-((p + j) * k))) -
      ∑ j ∈ Finset.range r.y.length, ((at0 q.y j : ℝ) : ℂ) * unitRoot N (-((p + j) * k))‖ ≤ r.y.length * δ := by
    intro N p k
    rw [← Finset.sum_sub_distrib]
    refine (norm_sum_le _ _).trans ?_
    calc ∑ j ∈ Finset.range r.y.length, _ ≤ ∑ j ∈ Finset.range r.y.length, δ := by
          refine Finset.sum_le_sum fun j _ => ?_
          rw [← sub_mul, norm_mul, unitRoot_norm, mul_one, ← Complex.ofReal_sub, Complex.norm_real, Real.norm_eq_abs]
          exact near_getD h hd j
      _ = r.y.length * δ := by rw [Finset.sum_const, Finset.card_range, nsmul_eq_mul]
  obtain ⟨N, p, -, h2⟩ := getSpectrum_sum r hb hi hn
  obtain ⟨N', p', fx, -, h3⟩ := signalAmplitude_sum r hb hi hn
  have hq := h2 q.y h.2.1.symm
  have hq' := h3 q.y h.2.1.symm
  rw [← hxy] at hq hq'
  refine ⟨_, _, _, _, h2 r.y rfl, hq, h3 r.y rfl, hq', rfl, by simp, fun k i1 i2 => ?_, rfl, by simp, fun k i1 i2 => ?_⟩
  · simp only [List.getElem_map, List.getElem_range]
    exact key N p k
  · simp only [List.getElem_map, List.getElem_range]
    exact (abs_norm_sub_norm_le _ _).trans (key N' p' k)

/-- the two records: no value of the spectrum moves by more than 3/10 -/
example : ∃ s t, (⟨⟨0, 2, 1⟩, [1, 3, -2]⟩ : Rel ℝ ℝ).getSpectrum = .ok s ∧
    (⟨⟨0, 2, 1⟩, [11/10, 29/10, -2]⟩ : Rel ℝ ℝ).getSpectrum = .ok t ∧
    ∀ k (i1 : k < s.y.length) (i2 : k < t.y.length), ‖s.y[k] - t.y[k]‖ ≤ 3 / 10 := by
  obtain ⟨s, t, -, -, h1, h2, -, -, -, -, h3, -⟩ := C151_spectrum (1/10) ⟨⟨0, 2, 1⟩, [1, 3, -2]⟩ ⟨⟨0, 2, 1⟩, [11/10, 29/10, -2]⟩
    ⟨rfl, rfl, fun i a b => by
      simp only [List.length_cons, List.length_nil] at a
      rcases (by omega : i = 0 ∨ i = 1 ∨ i = 2) with rfl | rfl | rfl <;> simp <;> norm_num [abs_le]⟩
    (balanced_whole _ 2 (by norm_num) (by norm_num) rfl) (by norm_num) (by simp)
  refine ⟨s, t, h1, h2, fun k i1 i2 => (h3 k i1 i2).trans ?_⟩
  norm_num

end SweepDesign
