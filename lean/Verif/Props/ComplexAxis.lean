import Verif.Model.ComplexAxis
import Verif.Lemmas.Arith
import Verif.Lemmas.ToComplex

/-!
# C148: axes of complex numbers

A complex axis is a row of points on a straight line of the plane. When `sample` points along the line, everything is the real
axis laid along that line (`Spec.lay`), so what is proved about real axes carries over. `lay p c` puts the real number `t` at
`p + c t`.
-/

set_option linter.unusedSectionVars false

namespace SweepDesign
open Spec

/-- the point of the line through `p` in direction `c` that has the real coordinate `t` -/
noncomputable def Spec.lay (p c : ℂ) (t : ℝ) : ℂ := p + c * t

/-- a real axis laid along that line -/
noncomputable def Spec.along (p c : ℂ) (a : Axis ℝ) : Axis ℂ := ⟨lay p c a.start, lay p c a.stop, c * a.sample⟩

/-- a relation on a real axis laid along that line, with other values -/
noncomputable def Spec.laid (p c : ℂ) (f : ℂ → ℂ) (r : Rel ℝ ℂ) : Rel ℂ ℂ := ⟨along p c r.x, r.y.map f⟩

/-- a direction that numpy's order of complex numbers calls positive: to the right, or straight up -/
def Spec.Ahead (c : ℂ) : Prop := 0 < c.re ∨ (c.re = 0 ∧ 0 < c.im)

section Lemmas

theorem linspaceC_getElem (a b : ℂ) (n i : ℕ) (h : i < (linspace a b n).length) :
    (linspace a b n)[i] = a + i * ((b - a) / ((n : ℂ) - 1)) := by
  have hi : i < n := by rwa [linspace_length] at h
  by_cases hn : n ≤ 1
  · have h1 : n = 1 := by omega
    have h0 : i = 0 := by omega
    subst h1 h0
    simp [linspace]
  · simp only [linspace, hn, if_false, List.getElem_map, List.getElem_range]
    split_ifs with h3
    · have h4 : (i : ℂ) = n - 1 := by rw [← h3]; push_cast; ring
      rw [h4]
      have : (n : ℂ) - 1 ≠ 0 := by
        rw [sub_ne_zero]
        exact_mod_cast (by omega : n ≠ 1)
      field_simp
      ring
    · ring

/-- number of gaps of a complex axis -/
noncomputable def Axis.stepsC (a : Axis ℂ) : ℕ := (pyRound ‖(a.stop - a.start) / a.sample‖).toNat

theorem Axis.arrayC_eq (a : Axis ℂ) (h : a.sample ≠ 0) : a.arrayC = .ok (linspace a.start a.stop (a.stepsC + 1)) := by
  simp [Axis.arrayC, h, Axis.stepsC]

theorem Axis.sizeC_eq (a : Axis ℂ) (h : a.sample ≠ 0) : a.sizeC = .ok (a.stepsC + 1) := by
  simp [Axis.sizeC, a.arrayC_eq h, Except.map, linspace_length]

theorem stepsC_nearest (a : Axis ℂ) : NearestEven ‖(a.stop - a.start) / a.sample‖ (a.stepsC : ℤ) := by
  have : (a.stepsC : ℤ) = pyRound ‖(a.stop - a.start) / a.sample‖ := Int.toNat_of_nonneg (pyRound_nonneg (norm_nonneg _))
  rw [this]
  exact pyRound_spec _

theorem getDataC_ok {r : Rel ℂ ℂ} {lx ly : List ℂ} (h : r.getDataC = .ok (lx, ly)) :
    r.x.sample ≠ 0 ∧ r.x.arrayC = .ok lx ∧ r.y = ly ∧ lx.length = r.y.length := by
  have hs : r.x.sample ≠ 0 := by
    intro hs
    simp [Rel.getDataC, Axis.sizeC, Axis.arrayC, hs, Except.map] at h
  simp only [Rel.getDataC, r.x.sizeC_eq hs, except_bind_ok, r.x.arrayC_eq hs] at h
  split_ifs at h with h1
  simp only [except_pure, Except.ok.injEq, Prod.mk.injEq] at h
  refine ⟨hs, by rw [r.x.arrayC_eq hs, h.1], h.2, ?_⟩
  rw [← h.1, linspace_length]
  simpa using h1

theorem stepsC_of_subrange (r : Axis ℂ) (k : ℕ) (hk : k ≤ r.stepsC) (s e : ℂ)
    (he : e - s = k * ((r.stop - r.start) / r.stepsC)) : Axis.stepsC (⟨s, e, r.sample⟩ : Axis ℂ) = k := by
  have e1 : Axis.stepsC (⟨s, e, r.sample⟩ : Axis ℂ) =
      Axis.steps (⟨0, k * (⟨0, ‖(r.stop - r.start) / r.sample‖, 1⟩ : Axis ℝ).step, 1⟩ : Axis ℝ) := by
    have e2 : (⟨0, ‖(r.stop - r.start) / r.sample‖, 1⟩ : Axis ℝ).steps = r.stepsC := by
      simp only [Axis.steps, Axis.stepsC, sub_zero, div_one, abs_norm]
    unfold Axis.step
    rw [e2]
    unfold Axis.stepsC Axis.steps
    simp only [he, sub_zero, div_one]
    rw [show (k : ℂ) * ((r.stop - r.start) / r.stepsC) / r.sample = k * (((r.stop - r.start) / r.sample) / r.stepsC) by ring,
      norm_mul, norm_div _ (r.stepsC : ℂ), Complex.norm_natCast, Complex.norm_natCast, abs_of_nonneg (by positivity)]
    rfl
  rw [e1]
  apply steps_of_subrange (⟨0, ‖(r.stop - r.start) / r.sample‖, 1⟩ : Axis ℝ) k _ _ _ (by simp)
  have : (⟨0, ‖(r.stop - r.start) / r.sample‖, 1⟩ : Axis ℝ).steps = r.stepsC := by
    simp only [Axis.steps, Axis.stepsC, sub_zero, div_one, abs_norm]
  rw [this]
  exact hk

/-- a point between two others of an evenly spaced row lies between any bounds that contain those two -/
theorem lexLe_between {s d lo hi : ℂ} {i j k : ℕ} (hij : i < j) (hjk : j < k)
    (h1 : lexLe lo (s + i * d) ∧ lexLe (s + i * d) hi) (h2 : lexLe lo (s + k * d) ∧ lexLe (s + k * d) hi) :
    lexLe lo (s + j * d) ∧ lexLe (s + j * d) hi := by
  have e1 : (i : ℝ) < j := by exact_mod_cast hij
  have e2 : (j : ℝ) < k := by exact_mod_cast hjk
  have tr : ∀ {a b c : ℂ}, lexLe a b → lexLe b c → lexLe a c := by
    intro a b c hab hbc
    unfold lexLe at *
    rcases hab with h | ⟨h, h'⟩ <;> rcases hbc with g | ⟨g, g'⟩
    · left; linarith
    · left; linarith
    · left; linarith
    · right; exact ⟨h.trans g, h'.trans g'⟩
  have mono : ∀ {i j : ℕ}, (i : ℝ) < j → lexLe 0 d → lexLe (s + i * d) (s + j * d) := by
    intro i j hij hd
    unfold lexLe at *
    simp only [Complex.zero_re, Complex.zero_im, Complex.add_re, Complex.add_im, Complex.mul_re, Complex.mul_im, Complex.natCast_re,
      Complex.natCast_im, zero_mul, sub_zero, add_zero] at *
    rcases hd with h | ⟨h, h'⟩
    · left; nlinarith
    · right
      rw [← h]
      refine ⟨by ring, ?_⟩
      nlinarith
  have anti : ∀ {i j : ℕ}, (i : ℝ) < j → lexLe d 0 → lexLe (s + j * d) (s + i * d) := by
    intro i j hij hd
    unfold lexLe at *
    simp only [Complex.zero_re, Complex.zero_im, Complex.add_re, Complex.add_im, Complex.mul_re, Complex.mul_im, Complex.natCast_re,
      Complex.natCast_im, zero_mul, sub_zero, add_zero] at *
    rcases hd with h | ⟨h, h'⟩
    · left; nlinarith
    · right
      rw [h]
      refine ⟨by ring, ?_⟩
      nlinarith
  have tot : lexLe 0 d ∨ lexLe d 0 := by
    unfold lexLe
    rcases lt_trichotomy (0 : ℂ).re d.re with h | h | h
    · exact .inl (.inl h)
    · rcases le_total (0 : ℂ).im d.im with g | g
      · exact .inl (.inr ⟨h, g⟩)
      · exact .inr (.inr ⟨h.symm, g⟩)
    · exact .inr (.inl h)
  rcases tot with hd | hd
  · exact ⟨tr h1.1 (mono e1 hd), tr (mono e2 hd) h2.2⟩
  · exact ⟨tr h2.1 (anti e2 hd), tr (anti e1 hd) h1.2⟩

theorem except_map_ok {ε α β : Type} (f : α → β) (a : α) : Except.map f (.ok a : Except ε α) = .ok (f a) := rfl

theorem lexLe_refl (a : ℂ) : lexLe a a := .inr ⟨rfl, le_refl _⟩

theorem npMinC_replicate (d : ℂ) (n : ℕ) : npMinC (List.replicate (n + 1) d) = .ok d := by
  simp only [List.replicate_succ, npMinC]
  congr 1
  induction n with
  | zero => rfl
  | succ n ih => simp only [List.replicate_succ, List.foldl_cons, if_pos (lexLe_refl d), ih]

theorem spacedC_diff {l : List ℂ} {a d : ℂ} {n : ℕ} (h : EvenlySpaced l a d n) : npDiff l = List.replicate (n - 1) d := by
  apply List.ext_getElem
  · rw [npDiff_length, h.1, List.length_replicate]
  · intro i h1 h2
    have h3 : i + 1 < l.length := by rw [npDiff_length] at h1; omega
    rw [npDiff_getElem l i h1 h3, h.2 _ h3, h.2 i (by omega), List.getElem_replicate]
    push_cast
    ring

end Lemmas

section Points
variable (a : Axis ℂ)

/-- **C148.** The array of a complex axis: points in equal steps on the straight line from `start` to `end`, the first is `start`
and (unless it is the only one) the last is `end`; their number is one more than the modulus of `(end - start) / sample`, rounded. -/
theorem C148_array (h : a.sample ≠ 0) :
    ∃ n : ℕ, NearestEven ‖(a.stop - a.start) / a.sample‖ (n : ℤ) ∧
      ∃ l d, a.arrayC = .ok l ∧ a.sizeC = .ok (n + 1) ∧ EvenlySpaced l a.start d (n + 1) ∧
        (n ≠ 0 → n * d = a.stop - a.start ∧ l.getLast? = some a.stop) := by
  refine ⟨a.stepsC, stepsC_nearest a, linspace a.start a.stop (a.stepsC + 1), (a.stop - a.start) / a.stepsC, a.arrayC_eq h,
    a.sizeC_eq h, ⟨linspace_length _ _ _, fun i hi => ?_⟩, fun hn => ?_⟩
  · rw [linspaceC_getElem]
    push_cast
    rw [add_sub_cancel_right]
  · have hn' : (a.stepsC : ℂ) ≠ 0 := by exact_mod_cast hn
    refine ⟨by field_simp, ?_⟩
    have hl : (linspace a.start a.stop (a.stepsC + 1)).length = a.stepsC + 1 := linspace_length _ _ _
    rw [List.getLast?_eq_getElem?, List.getElem?_eq_getElem (by omega), linspaceC_getElem]
    simp only [hl, Nat.add_sub_cancel]
    push_cast
    rw [add_sub_cancel_right]
    congr 1
    field_simp
    ring

/-- **C148.** A zero sample makes every complex axis useless, as for real ones. -/
theorem C148_zero_sample (h : a.sample = 0) : a.arrayC = .error .zeroDivision ∧ a.sizeC = .error .zeroDivision := by
  simp [Axis.sizeC, Axis.arrayC, h, Except.map]

/-- **C148.** An axis made from an array of complex numbers in equal steps has exactly these points, and its sample is exactly the
step: it is not rounded, also when all numbers are real. -/
theorem C148_from_array (x : List ℂ) (s d : ℂ) (n : ℕ) (hx : EvenlySpaced x s d (n + 2)) (hd : d ≠ 0) :
    axisFromArrayC x = .ok ⟨s, s + (n + 1) * d, d⟩ ∧ (⟨s, s + (n + 1) * d, d⟩ : Axis ℂ).arrayC = .ok x ∧
      (⟨s, s + (n + 1) * d, d⟩ : Axis ℂ).actualSampleC = .ok d := by
  have hl := hx.1
  have h0 : x.head? = some s := by
    rw [List.head?_eq_getElem?, List.getElem?_eq_getElem (by omega), hx.2]
    simp
  have h1 : x.getLast? = some (s + (n + 1) * d) := by
    rw [List.getLast?_eq_getElem?, List.getElem?_eq_getElem (by omega), hx.2, hl]
    simp
  have hact : getActualSampleC x = .ok d := by
    unfold getActualSampleC
    rw [spacedC_diff hx, show n + 2 - 1 = n + 1 by omega, npMinC_replicate]
  have hst : (⟨s, s + (n + 1) * d, d⟩ : Axis ℂ).stepsC = n + 1 := by
    unfold Axis.stepsC
    simp only [add_sub_cancel_left, mul_div_assoc, div_self hd, mul_one]
    rw [show ((n : ℂ) + 1) = ((n + 1 : ℕ) : ℂ) by push_cast; rfl, Complex.norm_natCast, pyRound_natCast, Int.toNat_natCast]
  have harr : (⟨s, s + (n + 1) * d, d⟩ : Axis ℂ).arrayC = .ok x := by
    rw [Axis.arrayC_eq _ hd, hst]
    congr 1
    apply List.ext_getElem
    · rw [linspace_length, hl]
    · intro i h1 h2
      rw [linspaceC_getElem, hx.2]
      have : ((n : ℂ) + 1) ≠ 0 := by exact_mod_cast Nat.succ_ne_zero n
      push_cast
      rw [add_sub_cancel_right, add_sub_cancel_left, mul_div_cancel_left₀ _ this]
  refine ⟨?_, harr, ?_⟩
  · simp [axisFromArrayC, hact, h0, h1]
  · simp [Axis.actualSampleC, harr, hact, Except.bind]

theorem lexLe_trans {a b c : ℂ} (h1 : lexLe a b) (h2 : lexLe b c) : lexLe a c := by
  rcases h1 with h1 | ⟨h1, h1'⟩ <;> rcases h2 with h2 | ⟨h2, h2'⟩
  · exact .inl (h1.trans h2)
  · exact .inl (h2 ▸ h1)
  · exact .inl (h1 ▸ h2)
  · exact .inr ⟨h1.trans h2, h1'.trans h2'⟩

theorem lexLe_total (a b : ℂ) : lexLe a b ∨ lexLe b a := by
  rcases lt_trichotomy a.re b.re with h | h | h
  · exact .inl (.inl h)
  · rcases le_total a.im b.im with h' | h'
    · exact .inl (.inr ⟨h, h'⟩)
    · exact .inr (.inr ⟨h.symm, h'⟩)
  · exact .inr (.inl h)

theorem foldl_lexMin (l : List ℂ) : ∀ a : ℂ, (l.foldl (fun m t => if lexLe m t then m else t) a) ∈ a :: l ∧
    ∀ t ∈ a :: l, lexLe (l.foldl (fun m t => if lexLe m t then m else t) a) t := by
  induction l with
  | nil => intro a; simp [lexLe_refl]
  | cons b l ih =>
    intro a
    simp only [List.foldl_cons]
    by_cases h : lexLe a b
    · rw [if_pos h]
      obtain ⟨h1, h2⟩ := ih a
      refine ⟨?_, fun t ht => ?_⟩
      · rcases List.mem_cons.1 h1 with e | e
        · exact List.mem_cons.2 (.inl e)
        · exact List.mem_cons_of_mem _ (List.mem_cons_of_mem _ e)
      · rcases List.mem_cons.1 ht with rfl | ht
        · exact h2 _ List.mem_cons_self
        · rcases List.mem_cons.1 ht with rfl | ht
          · exact lexLe_trans (h2 a List.mem_cons_self) h
          · exact h2 t (List.mem_cons_of_mem _ ht)
    · rw [if_neg h]
      have hba : lexLe b a := (lexLe_total a b).resolve_left h
      obtain ⟨h1, h2⟩ := ih b
      refine ⟨List.mem_cons_of_mem _ h1, fun t ht => ?_⟩
      rcases List.mem_cons.1 ht with rfl | ht
      · exact lexLe_trans (h2 b List.mem_cons_self) hba
      · exact h2 t ht

/-- **C148.** An axis made from any array of at least two complex numbers runs from the first to the last one, and its sample is the
least of the differences of neighbours: the one with the least real part, and of those the one with the least imaginary part. Shorter
arrays raise `ValueError`. -/
theorem C148_least_step (x : List ℂ) :
    (∀ hx : 2 ≤ x.length, ∃ d, axisFromArrayC x = .ok ⟨x[0], x[x.length - 1], d⟩ ∧
      (∃ i, ∃ hi : i + 1 < x.length, d = x[i + 1] - x[i]) ∧
      ∀ i (hi : i + 1 < x.length), d.re < (x[i + 1] - x[i]).re ∨ (d.re = (x[i + 1] - x[i]).re ∧ d.im ≤ (x[i + 1] - x[i]).im)) ∧
    (x.length < 2 → axisFromArrayC x = .error .value) := by
  have hlen : (npDiff x).length = x.length - 1 := by simp [npDiff]
  have hget : ∀ i (hi : i + 1 < x.length) (h : i < (npDiff x).length), (npDiff x)[i] = x[i + 1] - x[i] := by
    intro i hi h
    simp [npDiff]
  constructor
  · intro hx
    cases hd : npDiff x with
    | nil => rw [hd] at hlen; simp at hlen; omega
    | cons a l =>
      obtain ⟨h1, h2⟩ := foldl_lexMin l a
      rw [← hd] at h1 h2
      refine ⟨l.foldl (fun m t => if lexLe m t then m else t) a, ?_, ?_, ?_⟩
      · have e0 : x.head? = some x[0] := by rw [List.head?_eq_getElem?, List.getElem?_eq_getElem (by omega)]
        have e1 : x.getLast? = some x[x.length - 1] := by rw [List.getLast?_eq_getElem?, List.getElem?_eq_getElem (by omega)]
        simp [axisFromArrayC, getActualSampleC, hd, npMinC, e0, e1]
      · obtain ⟨i, hi, e⟩ := List.mem_iff_getElem.1 h1
        exact ⟨i, by omega, by rw [← e, hget i (by omega) hi]⟩
      · intro i hi
        have := h2 _ (List.getElem_mem (by omega : i < (npDiff x).length))
        rwa [hget i hi] at this
  · intro hx
    have : npDiff x = [] := List.length_eq_zero_iff.1 (by omega)
    simp [axisFromArrayC, getActualSampleC, this, npMinC, Bind.bind, Except.bind]

/-- steps 2, 1 and 1 + i: the sample is 1 -/
example : ∃ d, axisFromArrayC [0, 2, 3, 4 + Complex.I] = .ok ⟨0, 4 + Complex.I, d⟩ ∧ d = 1 := by
  obtain ⟨d, h1, ⟨i, hi, h2⟩, h3⟩ := (C148_least_step [0, 2, 3, 4 + Complex.I]).1 (by simp)
  refine ⟨d, h1, ?_⟩
  have a1 := h3 1 (by simp)
  have hi' : i + 1 < 4 := by simpa using hi
  obtain rfl | rfl | rfl : i = 0 ∨ i = 1 ∨ i = 2 := by omega
  · exfalso
    simp at h2
    subst h2
    norm_num at a1
  · simp at h2
    rw [h2]; norm_num
  · exfalso
    simp at h2
    subst h2
    norm_num at a1

/-- **C148.** Every complex axis whose sample points along the line from `start` to `end` (in either direction) is a real axis
laid along that line: the one from `0` to the quotient, with sample `1`. -/
theorem C148_is_along (h : a.sample ≠ 0) (q : ℝ) (hq : a.stop - a.start = q * a.sample) :
    along a.start a.sample ⟨0, q, 1⟩ = a := by
  cases a
  simp only [along, lay, Axis.mk.injEq] at *
  refine ⟨by simp, ?_, by simp⟩
  rw [mul_comm, ← hq]
  ring

end Points

section Along
variable (p c : ℂ)

theorem lay_sub (s t : ℝ) : lay p c s - lay p c t = c * ((s - t : ℝ) : ℂ) := by
  unfold lay
  push_cast
  ring

theorem linspace_lay (a b : ℝ) (n : ℕ) : linspace (lay p c a) (lay p c b) n = (linspace a b n).map (lay p c) := by
  apply List.ext_getElem
  · simp [linspace_length]
  · intro i h1 h2
    rw [linspaceC_getElem, List.getElem_map, linspace_getElem]
    unfold lay
    push_cast
    ring

variable {p c} (hc : c ≠ 0)
include hc

theorem along_steps (a : Axis ℝ) : (along p c a).stepsC = a.steps := by
  unfold Axis.stepsC Axis.steps along
  simp only [lay_sub]
  rw [mul_div_mul_left _ _ hc, ← Complex.ofReal_div, Complex.norm_real, Real.norm_eq_abs]

/-- **C148.** The array of a real axis laid along a line is the real array laid along it, and fails when that fails. -/
theorem C148_along_array (a : Axis ℝ) :
    (along p c a).arrayC = a.array.map (List.map (lay p c)) ∧ (along p c a).sizeC = a.size := by
  have h1 : (along p c a).arrayC = a.array.map (List.map (lay p c)) := by
    by_cases hs : a.sample = 0
    · rw [a.array_zero hs]
      simp [Axis.arrayC, along, hs, Except.map]
    · rw [Axis.arrayC_eq _ (by simp [along, hc, hs]), a.array_eq hs, along_steps hc]
      simp only [Except.map]
      rw [← linspace_lay]
      rfl
  refine ⟨h1, ?_⟩
  rw [Axis.sizeC, h1, Axis.size]
  rcases a.array with e | l <;> simp [Except.map]

theorem make_along (x : Axis ℝ) (y : List ℂ) (f : ℂ → ℂ) :
    Rel.makeC (along p c x) (y.map f) = (Rel.make x y).map (laid p c f) := by
  unfold Rel.makeC Rel.make
  rw [(C148_along_array hc x).2]
  rcases x.size with e | n
  · rfl
  · simp only [except_bind_ok, List.length_map]
    split <;> rfl

theorem make_along' (x : Axis ℝ) (y : List ℂ) :
    Rel.makeC (along p c x) y = (Rel.make x y).map (laid p c id) := by
  have := make_along (p := p) hc x y id
  rwa [List.map_id] at this

variable (r : Rel ℝ ℂ)

/-- **C148.** `get_data` gives the points laid along the line, with the same values. -/
theorem C148_along_data (f : ℂ → ℂ) :
    (laid p c f r).getDataC = r.getData.map fun d => (d.1.map (lay p c), d.2.map f) := by
  unfold Rel.getDataC Rel.getData laid
  simp only [(C148_along_array hc r.x).1, (C148_along_array hc r.x).2]
  rcases r.x.size with e | n
  · rfl
  · simp only [except_bind_ok, List.length_map]
    split
    · rfl
    · rcases r.x.array with e | l <;> rfl

theorem lexLe_lay (h : Ahead c) (s t : ℝ) : lexLe (lay p c s) (lay p c t) ↔ s ≤ t := by
  unfold lexLe lay
  rcases h with h | ⟨h, h'⟩
  · simp only [Complex.add_re, Complex.re_mul_ofReal, Complex.add_im, Complex.im_mul_ofReal]
    constructor
    · rintro (h1 | ⟨h1, -⟩)
      · nlinarith
      · have : c.re * (t - s) = 0 := by linarith
        rcases mul_eq_zero.1 this with h2 | h2 <;> linarith
    · intro h1
      rcases h1.lt_or_eq with h2 | rfl
      · left; nlinarith
      · right; exact ⟨rfl, le_refl _⟩
  · simp only [Complex.add_re, Complex.re_mul_ofReal, Complex.add_im, Complex.im_mul_ofReal, h, zero_mul, lt_irrefl,
      false_or, true_and, add_le_add_iff_left]
    exact mul_le_mul_iff_right₀ h'

/-- **C148.** `select_data` between two points of the line selects as on the real axis, when the direction counts as positive (to
the right, or straight up). -/
theorem C148_along_select (h : Ahead c) (f : ℂ → ℂ) (s e : Option ℝ) :
    (laid p c f r).selectDataC (s.map (lay p c)) (e.map (lay p c)) = (r.selectData s e).map (laid p c f) := by
  unfold Rel.selectDataC Rel.selectData
  have e1 : (s.map (lay p c)).getD (laid p c f r).x.start = lay p c (s.getD r.x.start) := by cases s <;> rfl
  have e2 : (e.map (lay p c)).getD (laid p c f r).x.stop = lay p c (e.getD r.x.stop) := by cases e <;> rfl
  have e3 : (laid p c f r).x.arrayC = r.x.array.map (List.map (lay p c)) := (C148_along_array hc r.x).1
  rw [e1, e2, e3]
  rcases r.x.array with er | x
  · rfl
  simp only [Except.map, except_bind_ok, List.map_map]
  have e4 : (x.map ((fun t => decide (lexLe (lay p c (s.getD r.x.start)) t) && decide (lexLe t (lay p c (e.getD r.x.stop)))) ∘
      lay p c)) = x.map fun t => decide (s.getD r.x.start ≤ t) && decide (t ≤ e.getD r.x.stop) := by
    apply List.map_congr_left
    intro t _
    simp only [Function.comp_apply, lexLe_lay hc h]
  rw [e4]
  generalize (x.map fun t => decide (s.getD r.x.start ≤ t) && decide (t ≤ e.getD r.x.stop)) = m
  rw [maskSelect_map]
  rcases maskSelect m x with er | sx
  · rfl
  simp only [Except.map, except_bind_ok, List.head?_map, List.getLast?_map]
  rcases sx.head? with _ | a
  · rfl
  rcases sx.getLast? with _ | b
  · rfl
  simp only [Option.map_some, laid, maskSelect_map]
  rcases maskSelect m r.y with er | y
  · rfl
  simp only [Except.map, except_bind_ok]
  exact make_along hc ⟨a, b, r.x.sample⟩ y f

/-- **C148.** An item near a point of the line is the item of the real axis. -/
theorem C148_along_item (f : ℂ → ℂ) (v : ℝ) :
    (laid p c f r).getItemC (lay p c v) = (r.getItem v).map fun d => (lay p c d.1, f d.2) := by
  unfold Rel.getItemC Rel.getItem
  have e3 : (laid p c f r).x.arrayC = r.x.array.map (List.map (lay p c)) := (C148_along_array hc r.x).1
  rw [e3]
  rcases r.x.array with er | x
  · rfl
  simp only [Except.map, except_bind_ok, List.map_map]
  have hn : 0 < ‖c‖ := norm_pos_iff.2 hc
  have e4 : x.map ((fun t => ‖t - lay p c v‖) ∘ lay p c) = (x.map fun t => |t - v|).map (‖c‖ * ·) := by
    rw [List.map_map]
    apply List.map_congr_left
    intro t _
    simp only [Function.comp_apply, lay_sub, norm_mul, Complex.norm_real, Real.norm_eq_abs]
  have e5 : ∀ l : List ℝ, argmin (l.map (‖c‖ * ·)) = argmin l := by
    have key : ∀ (l : List ℝ) (i k : ℕ) (b : ℝ), argminFrom i (k, ‖c‖ * b) (l.map (‖c‖ * ·)) = argminFrom i (k, b) l := by
      intro l
      induction l with
      | nil => intro i k b; rfl
      | cons a l ih =>
        intro i k b
        simp only [List.map_cons, argminFrom, ih, mul_lt_mul_iff_right₀ hn]
    intro l
    cases l with
    | nil => rfl
    | cons a l => simp only [List.map_cons, argmin, key]
  rw [e4, e5]
  rcases argmin (x.map fun t => |t - v|) with er | i
  · rfl
  simp only [except_bind_ok, List.getElem?_map, laid]
  rcases x[i]? with _ | t
  · rfl
  rcases r.y[i]? with _ | w
  · rfl
  rfl

/-- **C148.** `shift` by a vector along the line. -/
theorem C148_along_shift (f : ℂ → ℂ) (d : ℝ) : (laid p c f r).shiftC (c * d) = (r.shift d).map (laid p c f) := by
  unfold Rel.shiftC Rel.shift
  rw [← make_along hc]
  congr 1
  simp only [laid, along, lay, Axis.mk.injEq, and_true]
  constructor <;> push_cast <;> ring

/-- **C148.** `shift` by any complex number moves the line and keeps the values. -/
theorem C148_along_shift_off (f : ℂ → ℂ) (hb : Balanced r) (w : ℂ) : (laid p c f r).shiftC w = .ok (laid (p + w) c f r) := by
  have e : (laid p c f r).shiftC w = Rel.makeC (along (p + w) c r.x) (r.y.map f) := by
    unfold Rel.shiftC
    congr 1
    simp only [laid, along, lay, Axis.mk.injEq, and_true]
    constructor <;> ring
  rw [e, make_along hc, (make_ok_iff _ _ _).2 ⟨hb, rfl⟩]
  rfl

/-- **C148.** `integrate` multiplies by the direction: it is the integral along the line, by the trapezoid rule. -/
theorem C148_along_integrate : (laid p c id r).integrateC = r.integrate.map (laid p c fun v => c * v) := by
  unfold Rel.integrateC Rel.integrate
  rw [← make_along hc, List.map_map]
  congr 1
  · simp only [laid, along, lay, Axis.mk.injEq, and_true]
    push_cast
    ring
  · simp only [laid, along, List.map_id]
    apply List.map_congr_left
    intro v _
    simp only [Function.comp_apply, Complex.real_smul]
    ring

/-- **C148.** `diff` divides by the direction: it is the complex derivative along the line, by differences. -/
theorem C148_along_diff : (laid p c id r).diffC = r.diff.map (laid p c fun v => v / c) := by
  unfold Rel.diffC Rel.diff
  rw [← make_along hc, List.map_map]
  congr 1
  · simp only [laid, along, lay, Axis.mk.injEq, and_true]
    push_cast
    constructor <;> ring
  · simp only [laid, along, List.map_id]
    apply List.map_congr_left
    intro v _
    simp only [Function.comp_apply, Complex.real_smul, Complex.ofReal_inv]
    rw [div_mul_eq_div_div, div_eq_inv_mul _ (r.x.sample : ℂ), ← mul_div_assoc]

/-- **C148.** Arithmetic with a number, an array or anything else that is no relation, and with a relation on the same axis object,
has the values of the real case. -/
theorem C148_along_operation (ordered : Bool) (op : MathOp) :
    (∀ o, (laid p c id r).operationC ordered (.other o) op = (r.operation (.other o) op).map (laid p c id)) ∧
    (∀ q : Rel ℝ ℂ, (laid p c id r).operationC ordered (.rel true (laid p c id q)) op =
      (r.operation (.rel true q) op).map (laid p c id)) := by
  constructor
  · intro o
    simp only [Rel.operationC, Rel.operation, laid, List.map_id]
    rcases mathOperation r.y o op with e | y
    · rfl
    · exact make_along' hc r.x y
  · intro q
    simp only [Rel.operationC, Rel.operation, Rel.equalizeC, Rel.equalize, if_true, except_bind_ok, laid, List.map_id]
    rcases mathOperation r.y (.arr q.y) op with e | y
    · rfl
    · exact make_along' hc r.x y

/-- **C148.** The norm does not depend on where and in which direction the axis lies. -/
theorem C148_along_norm : (laid p c id r).getNormC = r.getNorm := by
  unfold Rel.getNormC Rel.getNorm Rel.pow
  rw [(C148_along_operation hc r true .pow).1]
  rcases r.operation (.other (.num 2)) .pow with e | q
  · rfl
  simp only [Except.map, except_bind_ok, Rel.oneIntegrateC, Rel.oneIntegrate, C148_along_data hc]
  rcases q.getData with e | ⟨x, y⟩
  · rfl
  simp only [except_bind_ok, except_pure, Except.ok.injEq, List.map_id, laid, along]
  have e1 : trapz y (x.map (lay p c)) = c * trapz y x := by
    unfold trapz
    have e2 : npDiff (x.map (lay p c)) = (npDiff x).map fun t : ℝ => c * (t : ℂ) := by
      apply List.ext_getElem
      · simp [npDiff_length]
      · intro i h1 h2
        have h3 : i + 1 < x.length := by
          rw [npDiff_length, List.length_map] at h1; omega
        rw [npDiff_getElem _ i h1 (by simpa using h3), List.getElem_map, List.getElem_map, List.getElem_map,
          npDiff_getElem x i (by rw [npDiff_length]; omega) h3, lay_sub]
    rw [e2]
    generalize npDiff x = m
    generalize List.zipWith (fun a b : ℂ => (b + a) / 2) y y.tail = k
    induction m generalizing k with
    | nil => simp
    | cons a m ih =>
      cases k with
      | nil => simp
      | cons b k =>
        simp only [List.map_cons, List.zipWith_cons_cons, List.sum_cons, smul_eq_mul, Complex.real_smul] at ih ⊢
        rw [ih, mul_add, mul_assoc]
  rw [e1, mul_div_mul_left _ _ hc, Complex.real_smul, Complex.ofReal_inv, div_eq_inv_mul]

theorem at0_lay {x : List ℝ} {j : ℕ} (h : j < x.length) : at0 (x.map (lay p c)) j = lay p c (at0 x j) := by
  rw [at0_eq _ _ (by simpa using h), at0_eq _ _ h, List.getElem_map]

theorem interpAt_lay (h : Ahead c) (x : List ℝ) (y : List ℂ) (t : ℝ) :
    interpAtC (x.map (lay p c)) y (lay p c t) = interpAt x y t := by
  unfold interpAtC interpAt
  rw [List.head?_map, List.getLast?_map]
  rcases hx0 : x.head? with _ | x0
  · rfl
  rcases x.getLast? with _ | xl
  · rfl
  simp only [Option.map_some, lexLe_lay hc h, not_le, List.countP_map, List.length_map]
  have e : x.countP ((fun s => decide (lexLe s (lay p c t))) ∘ lay p c) = x.countP fun s => decide (s ≤ t) := by
    apply List.countP_congr
    intro s _
    simp only [Function.comp_apply, lexLe_lay hc h]
  rw [e]
  have hpos : 0 < x.length := by
    rcases x with _ | ⟨a, x⟩
    · simp at hx0
    · simp
  have hle : x.countP (fun s => decide (s ≤ t)) ≤ x.length := List.countP_le_length
  generalize x.countP (fun s => decide (s ≤ t)) = k at hle
  split_ifs with h1 h2 h3
  · rfl
  · rfl
  · rfl
  · rw [at0_lay hc (by omega), at0_lay hc (by omega), lay_sub, lay_sub]
    simp only [Complex.real_smul, Complex.ofReal_inv]
    field_simp

theorem interp1d_lay (h : Ahead c) (x : List ℝ) (y : List ℂ) (xs : List ℝ) (hy : y.length ≠ 1) :
    interp1dC (x.map (lay p c)) y (xs.map (lay p c)) = interp1d x y xs := by
  unfold interp1dC interp1d
  simp only [List.length_map]
  split_ifs with h1 h2 h3
  · rfl
  · rfl
  · rw [not_not] at h1
    exact absurd (h1 ▸ h3) hy
  · have e1 : (x.map (lay p c)).zip y = (x.zip y).map fun q => (lay p c q.1, q.2) := by
      rw [List.zip_map_left]
      rfl
    have e2 : ((x.map (lay p c)).zip y).insertionSort (fun p q => lexLe p.1 q.1) =
        ((x.zip y).insertionSort fun p q => p.1 ≤ q.1).map fun q => (lay p c q.1, q.2) := by
      rw [e1]
      refine (List.map_insertionSort _ (fun p q : ℂ × ℂ => lexLe p.1 q.1) _ _ ?_).symm
      intro a _ b _
      exact (lexLe_lay hc h a.1 b.1).symm
    simp only [e2, List.map_map]
    congr 1
    apply List.map_congr_left
    intro t _
    have := interpAt_lay (p := p) hc h (((x.zip y).insertionSort fun p q => p.1 ≤ q.1).map Prod.fst)
      (((x.zip y).insertionSort fun p q => p.1 ≤ q.1).map Prod.snd) t
    rw [← this]
    simp only [Function.comp_def, List.map_map]

/-- **C148.** Interpolation from at least two points of a line onto another axis of the same line is the real one. -/
theorem C148_along_interpolate (h : Ahead c) (hy : r.y.length ≠ 1) (nx : Axis ℝ) :
    (laid p c id r).interpAxisC (along p c nx) = (r.interpAxis nx).map (laid p c id) := by
  unfold Rel.interpAxisC Rel.interpAxis
  simp only [laid, (C148_along_array hc r.x).1, (C148_along_array hc nx).1, List.map_id]
  rcases r.x.array with e | x
  · rfl
  rcases nx.array with e | xs
  · rfl
  simp only [Except.map, except_bind_ok, interp1d_lay hc h x r.y xs hy]
  rcases interp1d x r.y xs with e | y
  · rfl
  · exact make_along' hc nx y

theorem common_lay (h : Ahead c) (x1 x2 : Axis ℝ) : commonXC true (along p c x1) (along p c x2) = .ok (along p c (commonX x1 x2)) := by
  have hs : ∀ s t : ℝ, lexLe (c * s) (c * t) ↔ s ≤ t := by
    intro s t
    simpa [lay] using lexLe_lay (p := 0) hc h s t
  simp only [commonXC, commonX, along, if_true, lexLe_lay hc h, hs, Except.ok.injEq, Axis.mk.injEq, ge_iff_le]
  refine ⟨?_, ?_, ?_⟩ <;> split_ifs <;> rfl

theorem equalize_lay (h : Ahead c) (hr : r.y.length ≠ 1) (q : Rel ℝ ℂ) (hq : q.y.length ≠ 1) :
    Rel.equalizeC true false (laid p c id r) (laid p c id q) =
      (Rel.equalize false r q).map fun d => (laid p c id d.1, laid p c id d.2) := by
  have e : commonXC true (laid p c id r).x (laid p c id q).x = .ok (along p c (commonX r.x q.x)) := common_lay hc h r.x q.x
  simp only [Rel.equalizeC, Rel.equalize, Bool.false_eq_true, if_false, e, except_bind_ok, C148_along_interpolate hc r h hr,
    C148_along_interpolate hc q h hq]
  rcases r.interpAxis (commonX r.x q.x) with e | r1
  · rfl
  rcases q.interpAxis (commonX r.x q.x) with e | q1
  · rfl
  rfl

/-- **C148.** Arithmetic between relations of at least two points on different axes of one line, when the numbers can be compared
(they are numpy's, as in axes made from arrays): the real result, laid along the line. -/
theorem C148_along_other_axis (h : Ahead c) (hr : r.y.length ≠ 1) (q : Rel ℝ ℂ) (hq : q.y.length ≠ 1) (op : MathOp) :
    (laid p c id r).operationC true (.rel false (laid p c id q)) op = (r.operation (.rel false q) op).map (laid p c id) := by
  simp only [Rel.operationC, Rel.operation, equalize_lay hc r h hr q hq]
  rcases Rel.equalize false r q with e | ⟨r1, q1⟩
  · rfl
  have e1 : (laid p c id r1).y = r1.y := List.map_id _
  have e2 : (laid p c id q1).y = q1.y := List.map_id _
  simp only [except_map_ok, except_bind_ok, e1, e2]
  rcases mathOperation r1.y (.arr q1.y) op with e | y
  · rfl
  · exact make_along' hc r1.x y

/-- **C148.** Convolution and correlation of relations of at least two points on parallel lines: the real result, laid along the
line of that direction through zero. -/
theorem C148_along_convolve (h : Ahead c) (hr : r.y.length ≠ 1) (p' : ℂ) (q : Rel ℝ ℂ) (hq : q.y.length ≠ 1) :
    Rel.convolveC true (laid p c id r) (laid p' c id q) = (Rel.convolve r q).map (laid 0 c id) ∧
    Rel.correlateC true (laid p c id r) (laid p' c id q) = (Rel.correlate r q).map (laid 0 c id) := by
  have hz : ∀ (p : ℂ) (r : Rel ℝ ℂ), (laid p c id r).shiftC (-(laid p c id r).x.start) = (r.shift (-r.x.start)).map (laid 0 c id) := by
    intro p r
    unfold Rel.shiftC Rel.shift
    rw [← make_along hc]
    congr 1
    simp only [laid, along, lay, Axis.mk.injEq, and_true]
    constructor <;> push_cast <;> ring
  have hsh : ∀ r q : Rel ℝ ℂ, ∀ d, r.shift d = .ok q → q.y = r.y := by
    intro r q d hrq
    simp only [Rel.shift, Rel.make, except_bind_eq_ok] at hrq
    obtain ⟨n, -, hrq⟩ := hrq
    split_ifs at hrq
    simp only [except_pure, Except.ok.injEq] at hrq
    rw [← hrq]
  have ha : Rel.alignForConvC true (laid p c id r) (laid p' c id q) =
      (Rel.alignForConv r q).map fun d => (laid 0 c id d.1, laid 0 c id d.2.1, along 0 c d.2.2) := by
    unfold Rel.alignForConvC Rel.alignForConv
    rw [hz p r, hz p' q]
    rcases h1 : r.shift (-r.x.start) with e | r1
    · rfl
    rcases h2 : q.shift (-q.x.start) with e | q1
    · rfl
    have hr1 := hsh _ _ _ h1
    have hq1 := hsh _ _ _ h2
    simp only [Except.map, except_bind_ok, equalize_lay (p := 0) hc r1 h (hr1 ▸ hr) q1 (hq1 ▸ hq)]
    rcases Rel.equalize false r1 q1 with e | ⟨r2, q2⟩
    · rfl
    simp only [except_bind_ok, except_pure, Except.ok.injEq, Prod.mk.injEq, true_and, laid, along, lay, Axis.mk.injEq, and_true]
    push_cast
    ring
  constructor
  · simp only [Rel.convolveC, Rel.convolve, ha]
    rcases Rel.alignForConv r q with e | ⟨r1, q1, ax⟩
    · rfl
    · have e1 : (laid 0 c id r1).y = r1.y := List.map_id _
      have e2 : (laid 0 c id q1).y = q1.y := List.map_id _
      simp only [except_map_ok, except_bind_ok, e1, e2]
      exact make_along' hc ax _
  · simp only [Rel.correlateC, Rel.correlate, ha]
    rcases Rel.alignForConv r q with e | ⟨r1, q1, ax⟩
    · rfl
    · have e1 : (laid 0 c id r1).y = r1.y := List.map_id _
      have e2 : (laid 0 c id q1).y = q1.y := List.map_id _
      simp only [except_map_ok, except_bind_ok, e1, e2]
      exact make_along' hc ax _

end Along

/-- **C148.** An item near any complex number: the point of the axis that is nearest in the plane, the first of several, with its value. -/
theorem C148_item (r : Rel ℂ ℂ) (lx ly : List ℂ) (h : r.getDataC = .ok (lx, ly)) (v : ℂ) :
    ∃ (i : ℕ) (t w : ℂ), r.getItemC v = .ok (t, w) ∧ lx[i]? = some t ∧ ly[i]? = some w ∧
      ∀ (j : ℕ) (s : ℂ), lx[j]? = some s → ‖t - v‖ ≤ ‖s - v‖ ∧ (j < i → ‖t - v‖ < ‖s - v‖) := by
  obtain ⟨hs, hx, rfl, hl⟩ := getDataC_ok h
  have hne : (lx.map fun t => ‖t - v‖) ≠ [] := by
    intro h0
    rw [List.map_eq_nil_iff] at h0
    rw [r.x.arrayC_eq hs, Except.ok.injEq] at hx
    have := congrArg List.length hx
    rw [linspace_length, h0] at this
    simp at this
  obtain ⟨i, d, hi, hd, hmin⟩ := argmin_spec _ hne
  rw [List.getElem?_map, Option.map_eq_some_iff] at hd
  obtain ⟨t, ht, rfl⟩ := hd
  have hi' : i < lx.length := by
    by_contra hc
    rw [List.getElem?_eq_none (by omega)] at ht
    simp at ht
  have hw : r.y[i]? = some (r.y[i]'(by omega)) := List.getElem?_eq_getElem (by omega)
  refine ⟨i, t, r.y[i]'(by omega), ?_, ht, hw, ?_⟩
  · simp only [Rel.getItemC, hx, except_bind_ok, hi, ht, hw]
    rfl
  · intro j s hj
    exact hmin j _ (by rw [List.getElem?_map, hj]; rfl)

/-- **C148.** `select_data` on any complex axis, for any bounds: exactly the points between the bounds in numpy's order, with their
values and the same sample; `IndexError` when there are none. -/
theorem C148_select (r : Rel ℂ ℂ) (lx ly : List ℂ) (h : r.getDataC = .ok (lx, ly)) (a b : Option ℂ) :
    let lo := a.getD r.x.start
    let hi := b.getD r.x.stop
    let w := (lx.zip ly).filter fun q => decide (lexLe lo q.1 ∧ lexLe q.1 hi)
    (w = [] → r.selectDataC a b = .error .index) ∧
    (w ≠ [] → ∃ q, r.selectDataC a b = .ok q ∧ q.x.sample = r.x.sample ∧ q.getDataC = .ok (w.map Prod.fst, w.map Prod.snd)) := by
  intro lo hi w
  obtain ⟨hs, hx, rfl, hlen⟩ := getDataC_ok h
  have hsp : EvenlySpaced lx r.x.start ((r.x.stop - r.x.start) / r.x.stepsC) (r.x.stepsC + 1) := by
    rw [r.x.arrayC_eq hs, Except.ok.injEq] at hx
    subst hx
    refine ⟨linspace_length _ _ _, fun i hi => ?_⟩
    rw [linspaceC_getElem]
    push_cast
    rw [add_sub_cancel_right]
  generalize hd : (r.x.stop - r.x.start) / (r.x.stepsC : ℂ) = d at hsp
  set p : ℂ → Bool := fun t => decide (lexLe lo t) && decide (lexLe t hi) with hp
  have hw : w = (lx.zip r.y).filter fun q => p q.1 := by
    simp only [w, hp, Bool.decide_and]
  have hw1 : w.map Prod.fst = lx.filter p := by rw [hw]; exact filter_zip_fst p lx r.y hlen
  have hm1 := maskSelect_self p lx
  have hm2 := maskSelect_snd p lx r.y hlen
  rw [← hw] at hm2
  have hlenw : (w.map Prod.fst).length = (w.map Prod.snd).length := by simp
  constructor
  · intro hnil
    have : lx.filter p = [] := by rw [← hw1, hnil]; rfl
    have hm1' : maskSelect (lx.map fun t => decide (lexLe lo t) && decide (lexLe t hi)) lx = .ok [] := by
      rw [← this]; exact hm1
    simp only [Rel.selectDataC, hx, except_bind_ok]
    rw [hm1']
    simp
  · intro hne
    have hne' : lx.filter p ≠ [] := by
      rw [← hw1]; simpa using hne
    obtain ⟨i, k, hik⟩ := filter_convex p lx (by
      intro i j k hi' hj hk hij hjk h1 h2
      rw [hsp.2 i hi'] at h1
      rw [hsp.2 k hk] at h2
      rw [hsp.2 j hj]
      simp only [hp, Bool.and_eq_true, decide_eq_true_eq] at h1 h2 ⊢
      exact lexLe_between hij hjk h1 h2)
    set sel := lx.filter p with hsel
    have hselsp : EvenlySpaced sel (r.x.start + i * d) d sel.length := by
      refine ⟨rfl, ?_⟩
      intro j hj
      have e : sel[j] = ((lx.drop i).take k)[j]'(by rw [← hik]; exact hj) := by
        congr 1
      have hij : i + j < lx.length := by
        have := hj
        rw [hik] at this
        simp at this
        omega
      rw [e, List.getElem_take, List.getElem_drop, hsp.2 _ hij]
      push_cast
      ring
    have hpos : 1 ≤ sel.length := by
      have := List.length_pos_iff.2 hne'
      omega
    have hle : sel.length ≤ r.x.stepsC + 1 := by
      have := List.length_filter_le p lx
      rw [hsp.1] at this
      exact this
    have hhead : sel.head? = some (r.x.start + i * d) := by
      rw [List.head?_eq_getElem?, List.getElem?_eq_getElem hpos, hselsp.2]
      simp
    have hlast : sel.getLast? = some (r.x.start + i * d + ((sel.length - 1 : ℕ) : ℂ) * d) := by
      rw [List.getLast?_eq_getElem?, List.getElem?_eq_getElem (by omega), hselsp.2]
    set nx : Axis ℂ := ⟨r.x.start + i * d, r.x.start + i * d + ((sel.length - 1 : ℕ) : ℂ) * d, r.x.sample⟩ with hnx
    have hst : nx.stepsC = sel.length - 1 := by
      apply stepsC_of_subrange r.x (sel.length - 1) (by omega)
      rw [hd]
      ring
    have harr : nx.arrayC = .ok sel := by
      rw [Axis.arrayC_eq nx hs, hst]
      congr 1
      apply List.ext_getElem
      · rw [linspace_length]; omega
      · intro j h1 h2
        rw [linspaceC_getElem, hselsp.2]
        simp only [hnx, add_sub_cancel_left]
        push_cast
        rw [add_sub_cancel_right]
        rcases Nat.eq_zero_or_pos (sel.length - 1) with h0 | h0
        · have : j = 0 := by omega
          subst this
          simp
        · have : ((sel.length - 1 : ℕ) : ℂ) ≠ 0 := by exact_mod_cast (by omega : sel.length - 1 ≠ 0)
          rw [mul_div_cancel_left₀ _ this]
    have hsz : nx.sizeC = .ok (w.map Prod.snd).length := by
      rw [← hlenw, hw1, Axis.sizeC, harr]
      rfl
    refine ⟨⟨nx, w.map Prod.snd⟩, ?_, rfl, ?_⟩
    · simp only [Rel.selectDataC, hx, except_bind_ok]
      have hm1' : maskSelect (lx.map fun t => decide (lexLe lo t) && decide (lexLe t hi)) lx = .ok sel := hm1
      have hm2' : maskSelect (lx.map fun t => decide (lexLe lo t) && decide (lexLe t hi)) r.y = .ok (w.map Prod.snd) := hm2
      rw [hm1', hm2']
      simp only [except_bind_ok, hhead, hlast]
      simp only [Rel.makeC, ← hnx, hsz, except_bind_ok, ne_eq, not_true_eq_false, if_false, except_pure]
    · simp only [Rel.getDataC, hsz, except_bind_ok, ne_eq, not_true_eq_false, if_false, harr, except_pure, hw1]

/-- **C148.** With Python's complex numbers in both axes, relations on different axis objects cannot be combined, even when the
axes are equal: `TypeError`, for arithmetic as well as for convolution and correlation of any two relations. -/
theorem C148_python_numbers (r q : Rel ℂ ℂ) (lr lq : List ℂ × List ℂ) (hr : r.getDataC = .ok lr) (hq : q.getDataC = .ok lq) (op : MathOp) :
    r.operationC false (.rel false q) op = .error .typeError ∧
    Rel.convolveC false r q = .error .typeError ∧ Rel.correlateC false r q = .error .typeError := by
  have hsh : ∀ (r : Rel ℂ ℂ) (l : List ℂ × List ℂ) (d : ℂ), r.getDataC = .ok l → ∃ r1, r.shiftC d = .ok r1 := by
    intro r l d h
    by_cases hs : r.x.sample = 0
    · simp [Rel.getDataC, (C148_zero_sample r.x hs).2] at h
    · simp only [Rel.getDataC, r.x.sizeC_eq hs, except_bind_ok] at h
      split_ifs at h with h1
      rw [not_not] at h1
      refine ⟨⟨⟨r.x.start + d, r.x.stop + d, r.x.sample⟩, r.y⟩, ?_⟩
      have : (⟨r.x.start + d, r.x.stop + d, r.x.sample⟩ : Axis ℂ).stepsC = r.x.stepsC := by
        simp [Axis.stepsC]
      simp [Rel.shiftC, Rel.makeC, Axis.sizeC_eq (⟨r.x.start + d, r.x.stop + d, r.x.sample⟩ : Axis ℂ) hs, this, h1]
  refine ⟨rfl, ?_⟩
  obtain ⟨r1, h1⟩ := hsh r lr (-r.x.start) hr
  obtain ⟨q1, h2⟩ := hsh q lq (-q.x.start) hq
  constructor
  · simp [Rel.convolveC, Rel.alignForConvC, h1, h2, Rel.equalizeC, commonXC]
  · simp [Rel.correlateC, Rel.alignForConvC, h1, h2, Rel.equalizeC, commonXC]

/-- The axis of the project's own test (`test_axis.py:45-50`): from `0j` to `10j` in steps of `1j`. It is the real axis from 0 to
10 laid straight up, so its array has 11 points and ends with the ends of the axis. -/
example : along 0 Complex.I ⟨0, 10, 1⟩ = ⟨0, 10 * Complex.I, Complex.I⟩ ∧ Ahead Complex.I ∧
    (⟨0, 10 * Complex.I, Complex.I⟩ : Axis ℂ).sizeC = .ok 11 ∧
    ∃ l, (⟨0, 10 * Complex.I, Complex.I⟩ : Axis ℂ).arrayC = .ok l ∧ l.head? = some 0 ∧ l.getLast? = some (10 * Complex.I) := by
  have e : along 0 Complex.I ⟨0, 10, 1⟩ = ⟨0, 10 * Complex.I, Complex.I⟩ := by
    simp [along, lay, mul_comm]
  have hs : (⟨0, 10 * Complex.I, Complex.I⟩ : Axis ℂ).stepsC = 10 := by
    rw [← e, along_steps Complex.I_ne_zero, Axis.steps_eq_iff, ← pyRound_eq_iff]
    simpa using pyRound_natCast (K := ℝ) 10
  refine ⟨e, .inr ⟨by simp, by simp⟩, by rw [Axis.sizeC_eq _ Complex.I_ne_zero, hs], _, Axis.arrayC_eq _ Complex.I_ne_zero, ?_, ?_⟩
  · rw [hs, List.head?_eq_getElem?, List.getElem?_eq_getElem (by rw [linspace_length]; omega), linspaceC_getElem]
    simp
  · rw [hs, List.getLast?_eq_getElem?, List.getElem?_eq_getElem (by rw [linspace_length]; omega), linspaceC_getElem]
    simp only [linspace_length]
    norm_num

/-- Three numbers in steps of `1 + 1j`, as `C148_from_array` takes them; the direction `1 + 1j` counts as positive, and a relation
of three points on that line, as the theorems about lines take them, exists. -/
example : EvenlySpaced [0, 1 + Complex.I, 2 + 2 * Complex.I] 0 (1 + Complex.I) (1 + 2) ∧ (1 + Complex.I ≠ 0) ∧ Ahead (1 + Complex.I) ∧
    ∃ d, (laid 0 (1 + Complex.I) id ⟨⟨0, 2, 1⟩, [1, 2, 4]⟩).getDataC = .ok d := by
  have hc : (1 + Complex.I : ℂ) ≠ 0 := by
    intro h
    have := congrArg Complex.re h
    simp at this
  have hb : Balanced (⟨⟨0, 2, 1⟩, [1, 2, 4]⟩ : Rel ℝ ℂ) := by
    rw [balanced_iff]
    refine ⟨one_ne_zero, ?_⟩
    have : (⟨0, 2, 1⟩ : Axis ℝ).steps = 2 := by
      rw [Axis.steps_eq_iff, ← pyRound_eq_iff]
      simpa using pyRound_natCast (K := ℝ) 2
    rw [this]
    rfl
  obtain ⟨d, hd⟩ := (balanced_iff_getData _).1 hb
  refine ⟨⟨rfl, ?_⟩, hc, .inl (by simp), _, by rw [C148_along_data hc, hd, except_map_ok]⟩
  intro i hi
  match i, hi with
  | 0, _ => simp
  | 1, _ => simp
  | 2, _ =>
    simp
    ring

/-- **C148.** A sample that does not point along the line is accepted, but only its modulus counts for the points: the axis from `0`
to `10j` with sample `1` has the 11 points `0, 1j, .., 10j`. Its `sample` is not the step, so neither `diff` nor `integrate` accepts
any relation on it, and the norm of a relation of ones is `10j`. -/
theorem C148_sideways :
    let a : Axis ℂ := ⟨0, 10 * Complex.I, 1⟩
    a.arrayC = .ok ((List.range 11).map fun k : ℕ => (k : ℂ) * Complex.I) ∧ a.actualSampleC = .ok Complex.I ∧
    (∀ y : List ℂ, y.length = 11 → (⟨a, y⟩ : Rel ℂ ℂ).integrateC = .error (.notEqual 11 10) ∧
      (⟨a, y⟩ : Rel ℂ ℂ).diffC = .error (.notEqual 11 10)) ∧
    (⟨a, List.replicate 11 1⟩ : Rel ℂ ℂ).getNormC = .ok (10 * Complex.I) := by
  intro a
  have hst : ∀ (s e : ℂ) (b : ℝ), ‖e - s‖ = b → |b - 10| < 1 / 2 → (⟨s, e, 1⟩ : Axis ℂ).stepsC = 10 := by
    intro s e b hb hb'
    have : pyRound ‖(e - s) / 1‖ = 10 := by
      rw [div_one, hb]
      exact pyRound_of_lt (by exact_mod_cast hb')
    simp only [Axis.stepsC, this]
    rfl
  have h0 : a.stepsC = 10 := hst 0 (10 * Complex.I) 10 (by simp) (by norm_num)
  have harr : a.arrayC = .ok ((List.range 11).map fun k : ℕ => (k : ℂ) * Complex.I) := by
    rw [Axis.arrayC_eq _ one_ne_zero, h0]
    congr 1
    apply List.ext_getElem
    · simp [linspace_length]
    · intro i h1 h2
      rw [linspaceC_getElem]
      simp only [List.getElem_map, List.getElem_range, a]
      push_cast
      ring
  have hspaced : EvenlySpaced ((List.range 11).map fun k : ℕ => (k : ℂ) * Complex.I) 0 Complex.I 11 := by
    refine ⟨by simp, fun i hi => ?_⟩
    simp
  have hsize : a.sizeC = .ok 11 := by rw [Axis.sizeC_eq _ one_ne_zero, h0]
  refine ⟨harr, ?_, ?_, ?_⟩
  · simp only [Axis.actualSampleC, harr, Except.bind, getActualSampleC]
    rw [spacedC_diff hspaced]
    exact npMinC_replicate _ 9
  · intro y hy
    have h1 : (⟨0 + 1, 10 * Complex.I, 1⟩ : Axis ℂ).sizeC = .ok 11 := by
      rw [Axis.sizeC_eq _ one_ne_zero, hst _ _ (Real.sqrt 101)]
      · rw [Complex.norm_def, Complex.normSq_apply]
        simp
        norm_num
      · rw [abs_lt]
        constructor
        · have : (10 : ℝ) ≤ Real.sqrt 101 := Real.le_sqrt_of_sq_le (by norm_num)
          linarith
        · have : Real.sqrt 101 < 10 + 1 / 2 := by
            rw [Real.sqrt_lt' (by norm_num)]
            norm_num
          linarith
    have h2 : (⟨0 + 1 / 2, 10 * Complex.I - 1 / 2, 1⟩ : Axis ℂ).sizeC = .ok 11 := by
      rw [Axis.sizeC_eq _ one_ne_zero, hst _ _ (Real.sqrt 101)]
      · rw [Complex.norm_def, Complex.normSq_apply]
        simp
        norm_num
      · rw [abs_lt]
        constructor
        · have : (10 : ℝ) ≤ Real.sqrt 101 := Real.le_sqrt_of_sq_le (by norm_num)
          linarith
        · have : Real.sqrt 101 < 10 + 1 / 2 := by
            rw [Real.sqrt_lt' (by norm_num)]
            norm_num
          linarith
    constructor
    · simp only [Rel.integrateC, Rel.makeC, a, h1, except_bind_ok, List.length_map, cumTrapz_length, hy]
      rfl
    · simp only [Rel.diffC, Rel.makeC, a, h2, except_bind_ok, List.length_map, npDiff_length, hy]
      rfl
  · have hsq : (⟨a, List.replicate 11 1⟩ : Rel ℂ ℂ).operationC true (.other (.num 2)) .pow = .ok ⟨a, List.replicate 11 1⟩ := by
      have : mathOperation (List.replicate 11 (1 : ℂ)) (.num 2) .pow = .ok (List.replicate 11 1) := by
        simp [mathOperation, MathOp.fn, PyPow.ppow_two, finite, List.replicate_succ]
      simp only [Rel.operationC, this, Rel.makeC, hsize, except_bind_ok, List.length_replicate]
      rfl
    have hd : (⟨a, List.replicate 11 1⟩ : Rel ℂ ℂ).getDataC =
        .ok ((List.range 11).map fun k : ℕ => (k : ℂ) * Complex.I, List.replicate 11 1) := by
      simp [Rel.getDataC, hsize, harr]
    simp only [Rel.getNormC, hsq, except_bind_ok, Rel.oneIntegrateC, hd, except_pure, Except.ok.injEq, a, div_one]
    unfold trapz
    rw [spacedC_diff hspaced]
    norm_num [List.replicate_succ]
    ring

end SweepDesign
