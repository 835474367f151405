import Verif.Lemmas.Spectral
import Verif.Props.Arithmetic

/-! # Amplitude, phase, unwrapping -/

set_option linter.unusedSectionVars false
set_option linter.unnecessarySeqFocus false

namespace SweepDesign
open Spec

theorem npMod_mem (a b : ℝ) (hb : 0 < b) : 0 ≤ npMod a b ∧ npMod a b < b := by
  unfold npMod
  have h1 := Int.floor_le (a / b)
  have h2 := Int.lt_floor_add_one (a / b)
  rw [le_div_iff₀ hb] at h1
  rw [div_lt_iff₀ hb] at h2
  constructor <;> nlinarith

/-- a correction is a multiple of `2π` and brings the jump into `[-π, π]` -/
theorem unwrapCorrect_spec (d : ℝ) :
    (∃ k : ℤ, unwrapCorrect d = k * (2 * Real.pi)) ∧ |d + unwrapCorrect d| ≤ Real.pi := by
  have hpi := Real.pi_pos
  obtain ⟨m1, m2⟩ := npMod_mem (d + Real.pi) (2 * Real.pi) (by linarith)
  unfold unwrapCorrect
  dsimp only
  split_ifs with h1 h2
  · exact ⟨⟨0, by simp⟩, by rw [add_zero]; exact h1.le⟩
  · constructor
    · refine ⟨1 - ⌊(d + Real.pi) / (2 * Real.pi)⌋, ?_⟩
      have := h2.1
      unfold npMod at this
      push_cast
      linarith
    · rw [add_sub_cancel, abs_of_pos hpi]
  · constructor
    · refine ⟨-⌊(d + Real.pi) / (2 * Real.pi)⌋, ?_⟩
      unfold npMod
      push_cast
      ring
    · rw [add_sub_cancel, abs_le]
      constructor <;> linarith

theorem unwrap_length (p : List ℝ) : (unwrap p).length = p.length := by
  cases p with
  | nil => simp [unwrap]
  | cons a l => simp [unwrap, cumsum, cumsumFrom_length, npDiff]

theorem unwrap_getElem (p : List ℝ) (i : ℕ) (h : i < (unwrap p).length) :
    (unwrap p)[i] = at0 p i + ∑ j ∈ Finset.range i, unwrapCorrect (at0 p (j + 1) - at0 p j) := by
  have hl := unwrap_length p
  cases p with
  | nil => simp [unwrap] at h
  | cons a l =>
    rcases i with _ | i
    · simp [unwrap, at0]
    · have hi : i < l.length := by
        rw [hl] at h
        simpa using h
      have h1 : i < (cumsum ((npDiff (a :: l)).map unwrapCorrect)).length := by
        simp [cumsum, cumsumFrom_length, npDiff, hi]
      have : (unwrap (a :: l))[i + 1] = l[i] + (cumsum ((npDiff (a :: l)).map unwrapCorrect))[i] := by
        simp [unwrap]
      rw [this]
      congr 1
      · simp [at0, hi]
      · unfold cumsum at h1 ⊢
        rw [cumsumFrom_getElem _ _ _ _ (fun j => unwrapCorrect (at0 (a :: l) (j + 1) - at0 (a :: l) j)), zero_add]
        intro j hj
        have hj' : j + 1 < (a :: l).length := by
          simp [npDiff] at hj
          simpa using hj
        rw [List.getElem_map, npDiff_getElem (a :: l) j (by simpa using hj) hj', at0_eq _ _ hj', at0_eq _ _ (by omega)]

/-- each unwrapped phase is the phase plus a multiple of `2π` -/
theorem unwrap_congruent (p : List ℝ) (i : ℕ) (h : i < (unwrap p).length) (h' : i < p.length) :
    ∃ k : ℤ, (unwrap p)[i] = p[i] + k * (2 * Real.pi) := by
  rw [unwrap_getElem p i h, at0_eq _ _ h']
  have : ∀ n : ℕ, ∃ k : ℤ, ∑ j ∈ Finset.range n, unwrapCorrect (at0 p (j + 1) - at0 p j) = k * (2 * Real.pi) := by
    intro n
    induction n with
    | zero => exact ⟨0, by simp⟩
    | succ n ih =>
      obtain ⟨k, hk⟩ := ih
      obtain ⟨m, hm⟩ := (unwrapCorrect_spec (at0 p (n + 1) - at0 p n)).1
      refine ⟨k + m, ?_⟩
      rw [Finset.sum_range_succ, hk, hm]
      push_cast
      ring
  obtain ⟨k, hk⟩ := this i
  exact ⟨k, by rw [hk]⟩

theorem unwrap_jump (p : List ℝ) (i : ℕ) (h : i + 1 < (unwrap p).length) :
    |(unwrap p)[i + 1] - (unwrap p)[i]| ≤ Real.pi := by
  rw [unwrap_getElem p (i + 1) h, unwrap_getElem p i (by omega), Finset.sum_range_succ]
  have := (unwrapCorrect_spec (at0 p (i + 1) - at0 p i)).2
  rw [show at0 p (i + 1) + (∑ j ∈ Finset.range i, unwrapCorrect (at0 p (j + 1) - at0 p j) +
      unwrapCorrect (at0 p (i + 1) - at0 p i)) -
      (at0 p i + ∑ j ∈ Finset.range i, unwrapCorrect (at0 p (j + 1) - at0 p j)) =
      at0 p (i + 1) - at0 p i + unwrapCorrect (at0 p (i + 1) - at0 p i) by ring]
  exact this

/-- the unit phase factor of a complex number, `1` for zero -/
theorem exp_unwrap (l : List ℂ) (i : ℕ) (h : i < (unwrap (l.map npAngle)).length) (h' : i < l.length) :
    Complex.exp (Complex.I * ((unwrap (l.map npAngle))[i] : ℝ)) = Complex.exp (Complex.I * (l[i].arg : ℝ)) := by
  obtain ⟨k, hk⟩ := unwrap_congruent (l.map npAngle) i h (by simpa using h')
  rw [hk, Complex.exp_eq_exp_iff_exists_int]
  refine ⟨k, ?_⟩
  simp only [List.getElem_map, npAngle]
  push_cast
  ring

theorem amp_eq (r : Rel ℝ ℂ) (h : Balanced r) : r.getAmpSpectrum = .ok ⟨r.x, r.y.map fun z => ‖z‖⟩ :=
  make_ok (by rw [List.length_map]; exact h)

theorem phase_eq (r : Rel ℝ ℂ) (h : Balanced r) : r.getPhaseSpectrum = .ok ⟨r.x, unwrap (r.y.map npAngle)⟩ :=
  make_ok (by rw [unwrap_length, List.length_map]; exact h)

theorem toComplex_balanced {r : Rel ℝ ℝ} (h : Balanced r) : Balanced r.toComplex := by
  unfold Balanced Rel.toComplex
  rw [List.length_map]
  exact h

/-- amplitude and phase on the same axis -/
theorem fromAmpPhase_eq (amp phase : Rel ℝ ℝ) (h1 : Balanced amp) (h2 : Balanced phase) (hx : amp.x = phase.x) :
    Rel.fromAmpPhase amp phase =
      .ok ⟨amp.x, List.zipWith (fun a p : ℝ => (a : ℂ) * Complex.exp (Complex.I * p)) amp.y phase.y⟩ := by
  unfold Rel.fromAmpPhase
  rw [(C23_with_number phase.toComplex (toComplex_balanced h2) Complex.I).2.2.2.2.2.1]
  simp only [except_bind_ok]
  have hb : Balanced (⟨phase.toComplex.x, (phase.toComplex.y.map fun a => Complex.I * a).map Complex.exp⟩ :
      Rel ℝ ℂ) := by
    unfold Balanced
    simp only [List.length_map]
    exact toComplex_balanced h2
  unfold Rel.exp
  rw [make_ok hb]
  simp only [except_bind_ok]
  rw [(op_closed false amp.toComplex _ (toComplex_balanced h1) hb hx).2.2]
  simp only [except_bind_ok, Rel.init, Except.ok.injEq]
  unfold Rel.toComplex
  simp only [List.map_map, List.zipWith_map, Function.comp_apply]

theorem fromAmpPhase_mk (x : Axis ℝ) (a p : List ℝ) (h1 : x.size = .ok a.length) (h2 : x.size = .ok p.length) :
    Rel.fromAmpPhase ⟨x, a⟩ ⟨x, p⟩ =
      .ok ⟨x, List.zipWith (fun a p : ℝ => (a : ℂ) * Complex.exp (Complex.I * p)) a p⟩ :=
  fromAmpPhase_eq ⟨x, a⟩ ⟨x, p⟩ h1 h2 rfl

theorem balanced_of_length {V W : Type} {K : Type} [Field K] [LinearOrder K] [IsStrictOrderedRing K] [FloorRing K]
    {r : Rel K V} (h : Balanced r) (y : List W) (hl : y.length = r.y.length) :
    Balanced (⟨r.x, y⟩ : Rel K W) := by
  unfold Balanced
  rw [hl]
  exact h

end SweepDesign
