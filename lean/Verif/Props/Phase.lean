import Verif.Lemmas.Phase
import Verif.Props.Relation

/-!
# C39, C40, C45, C46: amplitude and phase spectra, phase arithmetic, reverse filter
-/

set_option linter.unusedSectionVars false

namespace SweepDesign
open Spec

/-- **C46.** The phase spectrum has one phase per value, each congruent to the argument of the value modulo `2π`, and
neighbouring phases differ by at most `π`. -/
theorem C46_phase (r : Rel ℝ ℂ) (h : Balanced r) :
    ∃ p, r.getPhaseSpectrum = .ok p ∧ p.x = r.x ∧ p.y.length = r.y.length ∧
      (∀ i (h1 : i < p.y.length) (h2 : i < r.y.length), ∃ k : ℤ, p.y[i] = r.y[i].arg + 2 * Real.pi * k) ∧
      (∀ i (h1 : i + 1 < p.y.length), |p.y[i + 1] - p.y[i]| ≤ Real.pi) := by
  refine ⟨_, phase_eq r h, rfl, by simp [unwrap_length], ?_, ?_⟩
  · intro i h1 h2
    obtain ⟨k, hk⟩ := unwrap_congruent (r.y.map npAngle) i h1 (by simpa using h2)
    refine ⟨k, ?_⟩
    simp only [hk, List.getElem_map, npAngle]
    ring
  · intro i h1
    exact unwrap_jump _ i h1

/-- phases `π` and `0` of the values `-1, 1, -1` (three values on the axis 0, 1, 2) -/
example : ∃ p, (⟨⟨0, 2, 1⟩, [-1, 1, -1]⟩ : Rel ℝ ℂ).getPhaseSpectrum = .ok p ∧ p.y.length = 3 ∧
    ∀ i (h : i + 1 < p.y.length), |p.y[i + 1] - p.y[i]| ≤ Real.pi := by
  obtain ⟨p, h1, -, h3, -, h5⟩ := C46_phase (⟨⟨0, 2, 1⟩, [-1, 1, -1]⟩ : Rel ℝ ℂ)
    (balanced_whole _ 2 (by norm_num) (by norm_num) rfl)
  exact ⟨p, h1, h3, h5⟩

/-- **C39.** Rebuilding a spectrum from its amplitude and phase spectra returns the spectrum. -/
theorem C39_rebuild (r : Rel ℝ ℂ) (h : Balanced r) :
    ∃ a p, r.getAmpSpectrum = .ok a ∧ r.getPhaseSpectrum = .ok p ∧ Rel.fromAmpPhase a p = .ok r := by
  refine ⟨_, _, amp_eq r h, phase_eq r h, ?_⟩
  rw [fromAmpPhase_mk _ _ _ (by rw [List.length_map]; exact h) (by rw [unwrap_length, List.length_map]; exact h)]
  congr 1
  refine Rel.ext' rfl ?_
  apply List.ext_getElem
  · simp [unwrap_length]
  intro i h1 h2
  simp only [List.getElem_zipWith, List.getElem_map]
  rw [exp_unwrap r.y i _ h2, mul_comm Complex.I]
  exact Complex.norm_mul_exp_arg_mul_I _

example : ∃ a p, (⟨⟨0, 2, 1⟩, [1, 2 * Complex.I, 0]⟩ : Rel ℝ ℂ).getAmpSpectrum = .ok a ∧
    (⟨⟨0, 2, 1⟩, [1, 2 * Complex.I, 0]⟩ : Rel ℝ ℂ).getPhaseSpectrum = .ok p ∧
    Rel.fromAmpPhase a p = .ok ⟨⟨0, 2, 1⟩, [1, 2 * Complex.I, 0]⟩ :=
  C39_rebuild _ (balanced_whole _ 2 (by norm_num) (by norm_num) rfl)

/-- the unit factor of a complex number (specification): `z / |z|`, and `1` for zero -/
noncomputable def Spec.unitFactor (z : ℂ) : ℂ := if z = 0 then 1 else z / (‖z‖ : ℝ)

theorem unitFactor_eq (z : ℂ) : Spec.unitFactor z = Complex.exp (Complex.I * (z.arg : ℝ)) := by
  unfold Spec.unitFactor
  split
  · rename_i h
    simp [h]
  · rename_i h
    have hz : ((‖z‖ : ℝ) : ℂ) ≠ 0 := by simpa using h
    rw [div_eq_iff hz, mul_comm Complex.I, mul_comm]
    exact (Complex.norm_mul_exp_arg_mul_I z).symm

theorem addPhase_eq (r o : Rel ℝ ℂ) (h1 : Balanced r) (h2 : Balanced o) (hx : r.x = o.x) :
    r.addPhase o = .ok ⟨r.x, List.zipWith (fun z w => z * Spec.unitFactor w) r.y o.y⟩ := by
  have hl := balanced_length_eq h1 h2 hx
  unfold Rel.addPhase
  rw [amp_eq r h1, phase_eq r h1, phase_eq o h2]
  simp only [except_bind_ok]
  have b1 : Balanced (⟨r.x, unwrap (r.y.map npAngle)⟩ : Rel ℝ ℝ) := balanced_of_length h1 _ (by simp [unwrap_length])
  have b2 : Balanced (⟨o.x, unwrap (o.y.map npAngle)⟩ : Rel ℝ ℝ) := balanced_of_length h2 _ (by simp [unwrap_length])
  rw [(op_closed false _ _ b1 b2 hx).1]
  simp only [except_bind_ok]
  rw [fromAmpPhase_mk _ _ _ (by rw [List.length_map]; exact h1)
    (by rw [List.length_zipWith, unwrap_length, unwrap_length, List.length_map, List.length_map, ← hl, min_self]; exact h1)]
  congr 1
  refine Rel.ext' rfl ?_
  apply List.ext_getElem
  · simp [unwrap_length, hl]
  intro i hi hj
  have hi1 : i < r.y.length := by simp at hj; omega
  have hi2 : i < o.y.length := by omega
  simp only [List.getElem_zipWith, List.getElem_map]
  rw [Complex.ofReal_add, mul_add, Complex.exp_add, exp_unwrap r.y i _ hi1, exp_unwrap o.y i _ hi2, ← mul_assoc,
    unitFactor_eq, mul_comm Complex.I (r.y[i].arg : ℂ), Complex.norm_mul_exp_arg_mul_I]

theorem subPhase_eq (r o : Rel ℝ ℂ) (h1 : Balanced r) (h2 : Balanced o) (hx : r.x = o.x) :
    r.subPhase o = .ok ⟨r.x, List.zipWith (fun z w => z * (Spec.unitFactor w)⁻¹) r.y o.y⟩ := by
  have hl := balanced_length_eq h1 h2 hx
  unfold Rel.subPhase
  rw [amp_eq r h1, phase_eq r h1, phase_eq o h2]
  simp only [except_bind_ok]
  have b1 : Balanced (⟨r.x, unwrap (r.y.map npAngle)⟩ : Rel ℝ ℝ) := balanced_of_length h1 _ (by simp [unwrap_length])
  have b2 : Balanced (⟨o.x, unwrap (o.y.map npAngle)⟩ : Rel ℝ ℝ) := balanced_of_length h2 _ (by simp [unwrap_length])
  rw [(op_closed false _ _ b1 b2 hx).2.1]
  simp only [except_bind_ok]
  rw [fromAmpPhase_mk _ _ _ (by rw [List.length_map]; exact h1)
    (by rw [List.length_zipWith, unwrap_length, unwrap_length, List.length_map, List.length_map, ← hl, min_self]; exact h1)]
  congr 1
  refine Rel.ext' rfl ?_
  apply List.ext_getElem
  · simp [unwrap_length, hl]
  intro i hi hj
  have hi1 : i < r.y.length := by simp at hj; omega
  have hi2 : i < o.y.length := by omega
  simp only [List.getElem_zipWith, List.getElem_map]
  rw [Complex.ofReal_sub, mul_sub, Complex.exp_sub, exp_unwrap r.y i _ hi1, exp_unwrap o.y i _ hi2, ← mul_div_assoc,
    unitFactor_eq, mul_comm Complex.I (r.y[i].arg : ℂ), Complex.norm_mul_exp_arg_mul_I, div_eq_mul_inv]

theorem unitFactor_norm (z : ℂ) : ‖Spec.unitFactor z‖ = 1 := by
  rw [unitFactor_eq, mul_comm]
  exact Complex.norm_exp_ofReal_mul_I _

/-- **C40.** On equal frequency axes `add_phase` multiplies each value by the unit factor of the other spectrum, leaves
all amplitudes unchanged, and a following `sub_phase` of the same spectrum restores the original. -/
theorem C40_phase_arithmetic (r o : Rel ℝ ℂ) (h1 : Balanced r) (h2 : Balanced o) (hx : r.x = o.x) :
    ∃ q, r.addPhase o = .ok q ∧ q.x = r.x ∧ q.y.length = r.y.length ∧
      (∀ i (a : i < r.y.length) (b : i < o.y.length) (c : i < q.y.length),
        q.y[i] = r.y[i] * Spec.unitFactor o.y[i] ∧ ‖q.y[i]‖ = ‖r.y[i]‖) ∧
      q.subPhase o = .ok r := by
  have hl := balanced_length_eq h1 h2 hx
  refine ⟨_, addPhase_eq r o h1 h2 hx, rfl, by simp [hl], ?_, ?_⟩
  · intro i a b c
    have : (List.zipWith (fun z w => z * Spec.unitFactor w) r.y o.y)[i] = r.y[i] * Spec.unitFactor o.y[i] := by simp
    refine ⟨this, ?_⟩
    rw [this, norm_mul, unitFactor_norm, mul_one]
  · have hb : Balanced (⟨r.x, List.zipWith (fun z w => z * Spec.unitFactor w) r.y o.y⟩ : Rel ℝ ℂ) :=
      balanced_of_length h1 _ (by simp [hl])
    rw [subPhase_eq _ o hb h2 hx]
    congr 1
    refine Rel.ext' rfl ?_
    apply List.ext_getElem
    · simp [hl]
    intro i hi hj
    simp only [List.getElem_zipWith]
    rw [mul_assoc, mul_inv_cancel₀, mul_one]
    intro e
    have := unitFactor_norm (o.y[i]'(by omega))
    rw [e] at this
    simp at this

/-- a two-point spectrum turned by the phases of another one with `90°` and `0°` -/
example : (⟨⟨0, 1, 1⟩, [1, 2]⟩ : Rel ℝ ℂ).addPhase ⟨⟨0, 1, 1⟩, [3 * Complex.I, 0]⟩ =
    .ok ⟨⟨0, 1, 1⟩, [Complex.I, 2]⟩ := by
  have h1 : Balanced (⟨⟨0, 1, 1⟩, [1, 2]⟩ : Rel ℝ ℂ) := balanced_whole _ 1 (by norm_num) (by norm_num) rfl
  have h2 : Balanced (⟨⟨0, 1, 1⟩, [3 * Complex.I, 0]⟩ : Rel ℝ ℂ) :=
    balanced_whole _ 1 (by norm_num) (by norm_num) rfl
  rw [addPhase_eq _ _ h1 h2 rfl]
  simp [Spec.unitFactor]

theorem npMax_spec (l : List ℝ) (h : l ≠ []) : ∃ m, npMax l = .ok m ∧ m ∈ l ∧ ∀ a ∈ l, a ≤ m := by
  cases l with
  | nil => exact absurd rfl h
  | cons a l =>
    refine ⟨_, rfl, ?_⟩
    clear h
    induction l generalizing a with
    | nil => simp
    | cons b l ih =>
      simp only [List.foldl_cons]
      obtain ⟨h1, h2⟩ := ih (max a b)
      constructor
      · rcases List.mem_cons.1 h1 with h | h
        · rw [h]
          rcases max_choice a b with e | e <;> rw [e] <;> simp
        · simp [h]
      · intro c hc
        have hm := h2 (max a b) (by simp)
        rcases List.mem_cons.1 hc with rfl | hc
        · exact (le_max_left _ _).trans hm
        · rcases List.mem_cons.1 hc with rfl | hc
          · exact (le_max_right _ _).trans hm
          · exact h2 c (by simp [hc])

/-- **C45.** Reverse filter of the selected part `w` of a spectrum that is not identically zero there, with noise level
`p > 0` percent: with `A` the amplitudes and `M` their maximum the filter has amplitude `1 / (A_k + M p / 100)`, which is at
most `100 / (p M)`; with phase subtraction the product with the spectrum is a real number in `[0, 1)`, without it the
filter carries the phase of the spectrum itself. -/
theorem C45_reverse_filter (r w : Rel ℝ ℂ) (fs fe : Option ℝ) (hw : r.selectData fs fe = .ok w) (p : ℝ) (hp : 0 < p)
    (hne : ∃ z ∈ w.y, z ≠ 0) (sub : Bool) :
    ∃ g M, r.getReverseFilter p sub fs fe = .ok g ∧ (∃ z ∈ w.y, M = ‖z‖) ∧ (∀ z ∈ w.y, ‖z‖ ≤ M) ∧
      g.x = w.x ∧ g.y.length = w.y.length ∧
      ∀ k (h1 : k < w.y.length) (h2 : k < g.y.length),
        ‖g.y[k]‖ = 1 / (‖w.y[k]‖ + M * p / 100) ∧ ‖g.y[k]‖ ≤ 100 / (p * M) ∧
        (sub = true → ∃ c : ℝ, 0 ≤ c ∧ c < 1 ∧ g.y[k] * w.y[k] = c) ∧
        (sub = false → ∃ c : ℝ, 0 < c ∧ g.y[k] = c * Spec.unitFactor w.y[k]) := by
  have hb : Balanced w := selectData_balanced hw
  obtain ⟨z0, hz0, hz0'⟩ := hne
  have hne' : (w.y.map fun z => ‖z‖) ≠ [] := by
    intro e
    rw [List.map_eq_nil_iff] at e
    rw [e] at hz0
    simp at hz0
  obtain ⟨M, hM, hMm, hMle⟩ := npMax_spec _ hne'
  have hMle' : ∀ z ∈ w.y, ‖z‖ ≤ M := fun z hz => hMle _ (List.mem_map_of_mem hz)
  have hMpos : 0 < M := lt_of_lt_of_le (norm_pos_iff.2 hz0') (hMle' z0 hz0)
  have bamp : Balanced (⟨w.x, w.y.map fun z => ‖z‖⟩ : Rel ℝ ℝ) := balanced_of_length hb _ (by simp)
  have bph : Balanced (⟨w.x, unwrap (w.y.map npAngle)⟩ : Rel ℝ ℝ) := balanced_of_length hb _ (by simp [unwrap_length])
  set c : ℝ := M * p / 100 with hc
  have hcpos : 0 < c := by positivity
  set σ : ℝ := if sub then -1 else 1 with hσ
  have hgen : r.getReverseFilter p sub fs fe = .ok ⟨w.x, List.zipWith (fun a q : ℝ => (a : ℂ) *
      Complex.exp (Complex.I * q)) (((w.y.map fun z => ‖z‖).map fun a => a + c).map fun a => 1 / a)
      ((unwrap (w.y.map npAngle)).map fun a => σ * a)⟩ := by
    unfold Rel.getReverseFilter
    rw [hw]
    simp only [except_bind_ok, amp_eq w hb, Rel.max, hM]
    rw [(C23_with_number _ bamp c).1]
    simp only [except_bind_ok]
    rw [(C23_with_number _ (balanced_of_length hb _ (by simp)) 1).2.2.2.2.2.2.2.1]
    · simp only [except_bind_ok, phase_eq w hb]
      rw [(C23_with_number _ bph σ).2.2.2.2.2.1]
      simp only [except_bind_ok]
      have b1 : Balanced (⟨w.x, ((w.y.map fun z => ‖z‖).map fun a => a + c).map fun a => 1 / a⟩ : Rel ℝ ℝ) :=
        balanced_of_length hb _ (by simp)
      have b2 : Balanced (⟨w.x, (unwrap (w.y.map npAngle)).map fun a => σ * a⟩ : Rel ℝ ℝ) :=
        balanced_of_length hb _ (by simp [unwrap_length])
      rw [fromAmpPhase_eq _ _ b1 b2 rfl]
    · intro a ha
      simp only [List.map_map, List.mem_map, Function.comp] at ha
      obtain ⟨z, -, rfl⟩ := ha
      positivity
  refine ⟨_, M, hgen, ?_, hMle', rfl, by simp [unwrap_length], ?_⟩
  · obtain ⟨z, hz, e⟩ := List.mem_map.1 hMm
    exact ⟨z, hz, e.symm⟩
  intro k h1 h2
  have hden : 0 < ‖w.y[k]‖ + c := by positivity
  have hval : (List.zipWith (fun a q : ℝ => (a : ℂ) *
      Complex.exp (Complex.I * q)) (((w.y.map fun z => ‖z‖).map fun a => a + c).map fun a => 1 / a)
      ((unwrap (w.y.map npAngle)).map fun a => σ * a))[k]'h2 =
      ((1 / (‖w.y[k]‖ + c) : ℝ) : ℂ) *
        Complex.exp (Complex.I * ((σ * (unwrap (w.y.map npAngle))[k]'(by simpa [unwrap_length] using h1) : ℝ) : ℂ)) := by
    simp only [List.getElem_zipWith, List.getElem_map]
  have hphase : ‖Complex.exp (Complex.I * ((σ * (unwrap (w.y.map npAngle))[k]'(by simpa [unwrap_length] using h1) : ℝ) : ℂ))‖
      = 1 := by
    rw [mul_comm]
    exact Complex.norm_exp_ofReal_mul_I _
  have hexp := exp_unwrap w.y k (by simpa [unwrap_length] using h1) h1
  have hnorm : ‖(List.zipWith (fun a q : ℝ => (a : ℂ) *
      Complex.exp (Complex.I * q)) (((w.y.map fun z => ‖z‖).map fun a => a + c).map fun a => 1 / a)
      ((unwrap (w.y.map npAngle)).map fun a => σ * a))[k]'h2‖ = 1 / (‖w.y[k]‖ + c) := by
    rw [hval, norm_mul, hphase, mul_one, Complex.norm_real, Real.norm_of_nonneg (by positivity)]
  refine ⟨hnorm, ?_, ?_, ?_⟩
  · rw [hnorm, show (100 : ℝ) / (p * M) = 1 / c by rw [hc]; field_simp]
    exact one_div_le_one_div_of_le hcpos (by linarith [norm_nonneg w.y[k]])
  · intro hs
    have hσ' : σ = -1 := by simp [hσ, hs]
    refine ⟨‖w.y[k]‖ / (‖w.y[k]‖ + c), by positivity, by rw [div_lt_one hden]; linarith, ?_⟩
    rw [hval, hσ', neg_one_mul, Complex.ofReal_neg, mul_neg, Complex.exp_neg, hexp]
    have hz := Complex.norm_mul_exp_arg_mul_I w.y[k]
    rw [mul_comm (w.y[k].arg : ℂ)] at hz
    have hA : (Complex.exp (Complex.I * (w.y[k].arg : ℂ)))⁻¹ * w.y[k] = (‖w.y[k]‖ : ℝ) := by
      rw [inv_mul_eq_iff_eq_mul₀ (Complex.exp_ne_zero _), mul_comm]
      exact hz.symm
    rw [mul_assoc, hA]
    push_cast
    ring
  · intro hs
    have hσ' : σ = 1 := by simp [hσ, hs]
    refine ⟨1 / (‖w.y[k]‖ + c), by positivity, ?_⟩
    rw [hval, hσ', one_mul, hexp, unitFactor_eq]

/-- **C45.** When there is a reverse filter, for noise levels that are not negative: if no sample of the selected part
is zero, or if the noise level is positive and the selected part is not silent. In all other cases a sample is divided
by zero. -/
theorem C45_exists (r w : Rel ℝ ℂ) (fs fe : Option ℝ) (hw : r.selectData fs fe = .ok w) (p : ℝ) (hp : 0 ≤ p)
    (sub : Bool) :
    ((∃ g, r.getReverseFilter p sub fs fe = .ok g) ↔ (∀ z ∈ w.y, z ≠ 0) ∨ 0 < p ∧ ∃ z ∈ w.y, z ≠ 0) ∧
    ∀ e, r.getReverseFilter p sub fs fe = .error e → e = .nonFinite := by
  have hb : Balanced w := selectData_balanced hw
  have hne' : (w.y.map fun z => ‖z‖) ≠ [] := by
    intro e
    have h1 := ((balanced_iff w).1 hb).2
    rw [List.map_eq_nil_iff] at e
    rw [e] at h1
    simp at h1
  obtain ⟨M, hM, hMm, hMle⟩ := npMax_spec _ hne'
  obtain ⟨zM, hzM, hzM'⟩ := List.mem_map.1 hMm
  have hM0 : 0 ≤ M := hzM' ▸ norm_nonneg _
  have bamp : Balanced (⟨w.x, w.y.map fun z => ‖z‖⟩ : Rel ℝ ℝ) := balanced_of_length hb _ (by simp)
  have bph : Balanced (⟨w.x, unwrap (w.y.map npAngle)⟩ : Rel ℝ ℝ) := balanced_of_length hb _ (by simp [unwrap_length])
  have hcond : (∀ z ∈ w.y, ‖z‖ + M * p / 100 ≠ 0) ↔ (∀ z ∈ w.y, z ≠ 0) ∨ 0 < p ∧ ∃ z ∈ w.y, z ≠ 0 := by
    constructor
    · intro h
      by_cases hz : ∀ z ∈ w.y, z ≠ 0
      · exact .inl hz
      · simp only [ne_eq, not_forall, not_not] at hz
        obtain ⟨z, hz, rfl⟩ := hz
        have h0 := h 0 hz
        rw [norm_zero, zero_add] at h0
        refine .inr ⟨lt_of_le_of_ne hp fun e => h0 (by rw [← e]; simp), zM, hzM, fun e => h0 ?_⟩
        rw [← hzM', e]
        simp
    · rintro (h | ⟨h1, z, hz, h2⟩) u hu
      · have : 0 < ‖u‖ := norm_pos_iff.2 (h u hu)
        positivity
      · have : 0 < M := lt_of_lt_of_le (norm_pos_iff.2 h2) (hMle _ (List.mem_map_of_mem hz))
        positivity
  rw [← hcond]
  have hgen : r.getReverseFilter p sub fs fe =
      ((⟨w.x, (w.y.map fun z => ‖z‖).map fun a => a + M * p / 100⟩ : Rel ℝ ℝ).rtruediv (.other (.num 1)) >>= fun t =>
        Rel.fromAmpPhase t ⟨w.x, (unwrap (w.y.map npAngle)).map fun a => (if sub then -1 else 1) * a⟩) := by
    unfold Rel.getReverseFilter
    rw [hw]
    simp only [except_bind_ok, amp_eq w hb, Rel.max, hM]
    rw [(C23_with_number _ bamp _).1]
    simp only [except_bind_ok, phase_eq w hb]
    rw [(C23_with_number _ bph _).2.2.2.2.2.1]
    rfl
  have bc : Balanced (⟨w.x, (w.y.map fun z => ‖z‖).map fun a => a + M * p / 100⟩ : Rel ℝ ℝ) :=
    balanced_of_length hb _ (by simp)
  have b2 : Balanced (⟨w.x, (unwrap (w.y.map npAngle)).map fun a => (if sub then -1 else 1) * a⟩ : Rel ℝ ℝ) :=
    balanced_of_length hb _ (by simp [unwrap_length])
  rw [hgen]
  by_cases hz : ∀ z ∈ w.y, ‖z‖ + M * p / 100 ≠ 0
  · have : (⟨w.x, (w.y.map fun z => ‖z‖).map fun a => a + M * p / 100⟩ : Rel ℝ ℝ).rtruediv (.other (.num 1)) =
        .ok ⟨w.x, ((w.y.map fun z => ‖z‖).map fun a => a + M * p / 100).map fun a => 1 / a⟩ := by
      refine (C23_with_number _ bc 1).2.2.2.2.2.2.2.1 fun a ha => ?_
      simp only [List.map_map, List.mem_map, Function.comp] at ha
      obtain ⟨z, hz', rfl⟩ := ha
      exact hz z hz'
    have b1 : Balanced (⟨w.x, ((w.y.map fun z => ‖z‖).map fun a => a + M * p / 100).map fun a => 1 / a⟩ : Rel ℝ ℝ) :=
      balanced_of_length hb _ (by simp)
    rw [this, except_bind_ok, fromAmpPhase_eq _ _ b1 b2 rfl]
    exact ⟨⟨fun _ => hz, fun _ => ⟨_, rfl⟩⟩, fun e he => nomatch he⟩
  · obtain ⟨k1, k2⟩ := C23_all_operators _ bc 1 .rtruediv
    cases hq : (⟨w.x, (w.y.map fun z => ‖z‖).map fun a => a + M * p / 100⟩ : Rel ℝ ℝ).rtruediv (.other (.num 1)) with
    | error e =>
      obtain rfl := k2 e hq
      exact ⟨⟨fun ⟨g, hg⟩ => (nomatch hg), fun h => absurd h hz⟩, fun e he => by cases he; rfl⟩
    | ok q =>
      exfalso
      apply hz
      intro z hzm
      obtain ⟨-, l2, l3⟩ := (k1 q).1 hq
      obtain ⟨i, hi, rfl⟩ := List.getElem_of_mem hzm
      have := l3 i (by simpa using hi) (by rw [l2]; simpa using hi)
      simp only [List.getElem_map, OpResult] at this
      exact this.1

/-- a silent spectrum has no reverse filter, whatever the noise level -/
example (p : ℝ) (hp : 0 ≤ p) :
    (⟨⟨0, 1, 1⟩, [0, 0]⟩ : Rel ℝ ℂ).getReverseFilter p true none none = .error .nonFinite := by
  have hb : Balanced (⟨⟨0, 1, 1⟩, [0, 0]⟩ : Rel ℝ ℂ) := balanced_whole _ 1 (by norm_num) (by norm_num) rfl
  obtain ⟨⟨lx, ly⟩, hd⟩ := (balanced_iff_getData _).1 hb
  obtain ⟨w, hw, hwd⟩ := C11_select_all _ lx ly hd (by norm_num)
  have hwy : w.y = [0, 0] := by
    rw [hd] at hwd
    obtain ⟨-, e1, -⟩ := (getData_ok_iff _ _ _).1 hwd
    obtain ⟨-, e2, -⟩ := (getData_ok_iff _ _ _).1 hd
    rw [← e1, e2]
  obtain ⟨h1, h2⟩ := C45_exists _ w none none hw p hp true
  cases hg : (⟨⟨0, 1, 1⟩, [0, 0]⟩ : Rel ℝ ℂ).getReverseFilter p true none none with
  | error e => rw [h2 e hg]
  | ok g =>
    have := h1.1 ⟨g, hg⟩
    simp [hwy] at this

/-- amplitudes 1 and 4 with 25 percent noise: the filter has amplitudes 1/2 and 1/5 -/
example : ∃ g, (⟨⟨0, 1, 1⟩, [-1, 4 * Complex.I]⟩ : Rel ℝ ℂ).getReverseFilter 25 true none none = .ok g ∧
    g.y.map (fun z => ‖z‖) = [1 / 2, 1 / 5] := by
  have hb : Balanced (⟨⟨0, 1, 1⟩, [-1, 4 * Complex.I]⟩ : Rel ℝ ℂ) :=
    balanced_whole _ 1 (by norm_num) (by norm_num) rfl
  obtain ⟨⟨lx, ly⟩, hd⟩ := (balanced_iff_getData _).1 hb
  obtain ⟨w, hw, hwd⟩ := C11_select_all _ lx ly hd (by norm_num)
  have hwy : w.y = [-1, 4 * Complex.I] := by
    rw [hd] at hwd
    obtain ⟨-, e1, -⟩ := (getData_ok_iff _ _ _).1 hwd
    obtain ⟨-, e2, -⟩ := (getData_ok_iff _ _ _).1 hd
    rw [← e1, e2]
  obtain ⟨g, M, h1, ⟨z, hz, hM⟩, h3, h4, h5, h6⟩ := C45_reverse_filter _ w none none hw 25 (by norm_num)
    ⟨-1, by simp [hwy], by simp⟩ true
  simp only [hwy] at hz h3 h5 h6
  have hM4 : M = 4 := by
    apply le_antisymm
    · simp at hz
      rcases hz with rfl | rfl <;> rw [hM] <;> norm_num
    · have := h3 (4 * Complex.I) (by simp)
      simpa using this
  subst hM4
  refine ⟨g, h1, ?_⟩
  have a0 := (h6 0 (by simp) (by rw [h5]; simp)).1
  have a1 := (h6 1 (by simp) (by rw [h5]; simp)).1
  match hg : g.y, h5 with
  | [u, v], _ =>
    simp only [hg, List.getElem_cons_zero, List.getElem_cons_succ] at a0 a1
    norm_num at a0 a1 ⊢
    exact ⟨a0, a1⟩

end SweepDesign
