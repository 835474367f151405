import Verif.Lemmas.Spectral

/-!
# C69–C71: the spectrum as the Fourier sum over the signal's own times, linearity, energy
-/

set_option linter.unusedSectionVars false

namespace SweepDesign
open Spec

/-- the transform does not see a rotation except for a phase factor -/
theorem dft_rotate (l : List ℝ) (n m : ℕ) (hl : l.length = n) (hm : m ≤ n) (k : ℤ) :
    dft n (at0 (l.rotate m)) k = ∑ i ∈ Finset.range n, ((at0 l i : ℝ) : ℂ) * unitRoot n (-(((i : ℤ) - m) * k)) := by
  rcases Nat.eq_zero_or_pos n with h0 | h0
  · subst h0; simp [dft]
  unfold dft
  have hval : ∀ j < n, at0 (l.rotate m) j = at0 l ((j + m) % n) := by
    intro j hj
    rw [at0_eq _ _ (by simp; omega), List.getElem_rotate, at0_eq _ _ (by rw [hl]; exact Nat.mod_lt _ h0)]
    simp [hl]
  refine Finset.sum_nbij' (fun j => (j + m) % n) (fun i => (i + (n - m)) % n) ?_ ?_ ?_ ?_ ?_
  · intro j _
    exact Finset.mem_range.2 (Nat.mod_lt _ h0)
  · intro j _
    exact Finset.mem_range.2 (Nat.mod_lt _ h0)
  · intro j hj
    have hj' := Finset.mem_range.1 hj
    simp only [Nat.mod_add_mod]
    rw [show j + m + (n - m) = j + n by omega, Nat.add_mod_right, Nat.mod_eq_of_lt hj']
  · intro j hj
    have hj' := Finset.mem_range.1 hj
    simp only [Nat.mod_add_mod]
    rw [show j + (n - m) + m = j + n by omega, Nat.add_mod_right, Nat.mod_eq_of_lt hj']
  · intro j hj
    have hj' := Finset.mem_range.1 hj
    rw [hval j hj']
    congr 1
    have : (((j + m) % n : ℕ) : ℤ) = j + m - n * (((j + m) / n : ℕ) : ℤ) := by
      have := Nat.mod_add_div (j + m) n
      push_cast
      have h2 : (((j + m) % n + n * ((j + m) / n) : ℕ) : ℤ) = ((j + m : ℕ) : ℤ) := by rw [this]
      push_cast at h2
      linarith
    rw [this, show -(((j : ℤ) + m - n * (((j + m) / n : ℕ) : ℤ) - m) * k) = -((j : ℤ) * k) +
      n * ((((j + m) / n : ℕ) : ℤ) * k) by ring, unitRoot_add, unitRoot_period n h0, mul_one]

/-- number of negative times on an axis through zero -/
theorem countP_neg (m n : ℕ) (s : ℝ) (hs : 0 < s) (hm : m ≤ n) :
    ((List.range n).map fun i : ℕ => -(m : ℝ) * s + (i : ℝ) * s).countP (fun v => decide (v < 0)) = m := by
  rw [List.countP_map]
  have : ∀ i ∈ List.range n, ((fun v : ℝ => decide (v < 0)) ∘ fun i : ℕ => -(m : ℝ) * s + (i : ℝ) * s) i = true ↔
      decide (i < m) = true := by
    intro i _
    simp only [Function.comp, decide_eq_true_eq]
    rw [show -(m : ℝ) * s + i * s = ((i : ℝ) - m) * s by ring]
    constructor
    · intro h
      by_contra hc
      have : (m : ℝ) ≤ i := by exact_mod_cast (by omega : m ≤ i)
      have : 0 ≤ ((i : ℝ) - m) * s := mul_nonneg (by linarith) hs.le
      linarith
    · intro h
      have : (i : ℝ) < m := by exact_mod_cast h
      exact mul_neg_of_neg_of_pos (by linarith) hs
  rw [List.countP_congr this]
  clear this
  induction n generalizing m with
  | zero => simp at hm ⊢; exact hm.symm
  | succ n ih =>
    rw [List.range_succ, List.countP_append]
    rcases Nat.lt_or_ge n m with h | h
    · have hmn : m = n + 1 := by omega
      subst hmn
      have : (List.range n).countP (fun i => decide (i < n + 1)) = (List.range n).length :=
        List.countP_eq_length.2 (by intro a ha; simpa using (List.mem_range.1 ha).le)
      rw [this]
      simp
    · rw [ih m h]
      simp [h]

/-- **C69.** For a signal of at least two samples on an axis from `a * s` to `b * s` (whole multiples of the sample
`s > 0`) let `N` be the number of points of the axis prolonged so that it contains zero. The spectrum has the
frequencies `f_k = k / (N s)`, `k = 0 .. N / 2`, and the value at `f_k` is the Fourier sum `Σ y_j e^{-2πi f_k t_j}`
over the times `t_j` of the signal itself: neither the prolongation with zeros nor the reordering of the negative
times changes it. -/
theorem C69_fourier_sum (r : Rel ℝ ℝ) (lt ly : List ℝ) (h : r.getData = .ok (lt, ly)) (s : ℝ) (hs : 0 < s) (a b : ℤ)
    (hab : a < b) (hsample : r.x.sample = s) (hstart : r.x.start = a * s) (hstop : r.x.stop = b * s) (N : ℕ)
    (hN : (N : ℤ) = max b 0 - min a 0 + 1) :
    ∃ sp lf lv, r.getSpectrum = .ok sp ∧ sp.getData = .ok (lf, lv) ∧ lf.length = N / 2 + 1 ∧ lv.length = N / 2 + 1 ∧
      ∀ k (h1 : k < lf.length) (h2 : k < lv.length), lf[k] = k / (N * s) ∧
        lv[k] = ∑ j ∈ Finset.range ly.length,
          ((ly.getD j 0 : ℝ) : ℂ) * Complex.exp (-(2 * Real.pi * Complex.I * ((lf[k] * lt.getD j 0 : ℝ) : ℂ))) := by
  have hb := (balanced_iff_getData r).2 ⟨_, h⟩
  obtain ⟨hx, rfl, hlen⟩ := (getData_ok_iff _ _ _).1 h
  have habs : (a : ℝ) ≤ b := by exact_mod_cast hab.le
  have hinc : r.x.start ≤ r.x.stop := by
    rw [hstart, hstop]
    exact mul_le_mul_of_nonneg_right habs hs.le
  -- the axis of the signal
  obtain ⟨d, hd⟩ : ∃ d : ℕ, b = a + d := ⟨(b - a).toNat, by omega⟩
  have hw := array_whole r.x d (by rw [hsample]; exact hs) (by
    rw [hstart, hstop, hsample, hd]; push_cast; ring)
  rw [hx] at hw
  simp only [Except.ok.injEq] at hw
  have hyl : r.y.length = d + 1 := by rw [← hlen, hw]; simp
  have hn : 2 ≤ r.y.length := by omega
  -- the padded axis
  obtain ⟨m, hm⟩ : ∃ m : ℕ, (m : ℤ) = -(min a 0) := ⟨(-(min a 0)).toNat, by omega⟩
  have hmle : m ≤ N := by omega
  have hmR : (m : ℝ) = -((min a 0 : ℤ) : ℝ) := by
    have : ((m : ℤ) : ℝ) = ((-(min a 0) : ℤ) : ℝ) := by rw [hm]
    push_cast at this ⊢
    exact this
  have hNR : ((N - 1 : ℕ) : ℝ) = ((max b 0 - min a 0 : ℤ) : ℝ) := by
    have : (((N - 1 : ℕ) : ℤ) : ℝ) = ((max b 0 - min a 0 : ℤ) : ℝ) := by congr 1; omega
    exact_mod_cast this
  have hminR : min (r.x.start) 0 = -(m : ℝ) * s := by
    rw [hstart, hmR]
    push_cast
    rcases le_total a 0 with h0 | h0
    · have : (a : ℝ) ≤ 0 := by exact_mod_cast h0
      rw [min_eq_left (mul_nonpos_of_nonpos_of_nonneg this hs.le), min_eq_left this]; ring
    · have : (0 : ℝ) ≤ a := by exact_mod_cast h0
      rw [min_eq_right (mul_nonneg this hs.le), min_eq_right this]; ring
  have hmaxR : max (r.x.stop) 0 = ((max b 0 : ℤ) : ℝ) * s := by
    rw [hstop]
    push_cast
    rcases le_total b 0 with h0 | h0
    · have : (b : ℝ) ≤ 0 := by exact_mod_cast h0
      rw [max_eq_right (mul_nonpos_of_nonpos_of_nonneg this hs.le), max_eq_right this]; ring
    · have : (0 : ℝ) ≤ b := by exact_mod_cast h0
      rw [max_eq_left (mul_nonneg this hs.le), max_eq_left this]
  have hpa : r.paddedTime.array = .ok ((List.range N).map fun i : ℕ => -(m : ℝ) * s + (i : ℝ) * s) := by
    have := array_whole r.paddedTime (N - 1) (by simpa [Rel.paddedTime, hsample] using hs) (by
      simp only [Rel.paddedTime, hminR, hmaxR, hsample]
      rw [hNR, hmR]; push_cast; ring)
    rw [this, show N - 1 + 1 = N by omega]
    simp only [Rel.paddedTime, hminR, hsample]
  obtain ⟨y, e1, e2, e3, e4, e5, e6⟩ := signal2spectrum_eq r hb hinc
  have hyN : y.length = N := by
    rw [Axis.size_of_array hpa] at e1
    simp at e1
    exact e1.symm
  have hpinc : r.paddedTime.start ≤ r.paddedTime.stop := by
    simp only [Rel.paddedTime]
    exact (min_le_right _ _).trans (le_max_right _ _)
  have hre := reorder_sorted r.paddedTime _ y hpa (by simp [hyN]) hpinc
  rw [countP_neg m N s hs hmle] at hre
  obtain ⟨z, hz, hzl, hc⟩ := calculateSpectrum_none r.paddedTime y e1 (hn.trans e2)
  rw [hz] at hre
  simp only [Except.ok.injEq] at hre
  subst hre
  have hps : r.paddedTime.sample = s := by simp [Rel.paddedTime, hsample]
  rw [hps, hyN] at hc
  have hN2 : 2 ≤ N := by omega
  have hfs := freqAxis_size N s hN2 hs.ne'
  have hfa := (freqAxis_eq N s hN2 hs.ne').2
  refine ⟨⟨⟨0, ((N / 2 : ℕ) : ℝ) * (1 / ((N : ℝ) * s)), 1 / ((N : ℝ) * s)⟩,
    (List.range (N / 2 + 1)).map fun k : ℕ => dft N (at0 (y.rotate m)) k⟩, rfftfreq N s,
    (List.range (N / 2 + 1)).map fun k : ℕ => dft N (at0 (y.rotate m)) k, ?_, ?_, by simp [rfftfreq],
    by simp, ?_⟩
  · unfold Rel.getSpectrum
    rw [e6, hc]
    simp only [except_bind_ok]
    exact make_ok (by rw [hfs]; simp)
  · rw [getData_ok_iff]
    refine ⟨hfa, rfl, by simp [rfftfreq]⟩
  · intro k h1 h2
    have hf : (rfftfreq N s)[k] = k / (N * s) := by
      simp [rfftfreq, div_eq_mul_inv]
    refine ⟨hf, ?_⟩
    simp only [List.getElem_map, List.getElem_range]
    rw [dft_rotate y N m hyN hmle]
    have hN0 : (N : ℂ) ≠ 0 := by exact_mod_cast (by omega : N ≠ 0)
    have hs0 : (s : ℂ) ≠ 0 := by exact_mod_cast hs.ne'
    -- the factor at sample `j` of the signal
    have hfac : ∀ j < r.y.length, Complex.exp (-(2 * Real.pi * Complex.I * (((rfftfreq N s)[k] * lt.getD j 0 : ℝ) : ℂ))) =
        unitRoot N (-((a + j) * k)) := by
      intro j hj
      rw [getD_lt _ _ _ (by omega), hf]
      simp only [hw, List.getElem_map, List.getElem_range, hstart, hsample]
      unfold unitRoot
      congr 1
      push_cast
      field_simp
    have hsum : ∑ j ∈ Finset.range r.y.length, ((r.y.getD j 0 : ℝ) : ℂ) *
          Complex.exp (-(2 * Real.pi * Complex.I * (((rfftfreq N s)[k] * lt.getD j 0 : ℝ) : ℂ))) =
        ∑ j ∈ Finset.range r.y.length, ((r.y.getD j 0 : ℝ) : ℂ) * unitRoot N (-((a + j) * k)) :=
      Finset.sum_congr rfl fun j hj => by rw [hfac j (Finset.mem_range.1 hj)]
    rw [hsum]
    -- position of sample `j` in the padded list
    have key : ∀ p : ℕ, y.length = N → (p : ℤ) = a + m → p + r.y.length ≤ N →
        (∀ i, at0 y i = if p ≤ i ∧ i < p + r.y.length then at0 r.y (i - p) else 0) →
        ∑ i ∈ Finset.range N, ((at0 y i : ℝ) : ℂ) * unitRoot N (-(((i : ℤ) - m) * k)) =
          ∑ j ∈ Finset.range r.y.length, ((r.y.getD j 0 : ℝ) : ℂ) * unitRoot N (-((a + j) * k)) := by
      intro p _ hp hpl hv
      have : ∀ i ∈ Finset.range N, ((at0 y i : ℝ) : ℂ) * unitRoot N (-(((i : ℤ) - m) * k)) =
          if i ∈ Finset.Ico p (p + r.y.length) then ((at0 r.y (i - p) : ℝ) : ℂ) * unitRoot N (-(((i : ℤ) - m) * k)) else 0 := by
        intro i _
        rw [hv i]
        simp only [Finset.mem_Ico]
        split <;> simp
      rw [Finset.sum_congr rfl this, ← Finset.sum_filter]
      have hfil : (Finset.range N).filter (fun i => i ∈ Finset.Ico p (p + r.y.length)) =
          Finset.Ico p (p + r.y.length) := by
        ext i
        simp only [Finset.mem_filter, Finset.mem_range, Finset.mem_Ico]
        omega
      rw [hfil, Finset.sum_Ico_eq_sum_range]
      rw [Nat.add_sub_cancel_left]
      refine Finset.sum_congr rfl fun j _ => ?_
      rw [Nat.add_sub_cancel_left]
      congr 2
      push_cast
      rw [hp]
      ring
    have hat : ∀ (l : List ℝ) i, at0 l i = (l[i]?).getD 0 := fun l i => by simp [at0]
    rcases lt_or_ge 0 a with ha | ha
    · have := e4 (by rw [hstart]; exact mul_pos (by exact_mod_cast ha) hs)
      refine key (N - r.y.length) hyN (by omega) (by omega) fun i => ?_
      rw [this, hat, hat, hyN]
      rcases Nat.lt_or_ge i (N - r.y.length) with h' | h'
      · rw [if_neg (by omega), List.getElem?_append_left (by simpa using h')]
        simp [h']
      · rw [List.getElem?_append_right (by simpa using h'), List.length_replicate]
        split
        · rfl
        · rw [List.getElem?_eq_none (by omega)]; rfl
    · rcases lt_or_ge b 0 with hb0 | hb0
      · have := e5 (by rw [hstop]; exact mul_neg_of_neg_of_pos (by exact_mod_cast hb0) hs)
        refine key 0 hyN (by omega) (by omega) fun i => ?_
        rw [this, hat, hat, hyN]
        rcases Nat.lt_or_ge i r.y.length with h' | h'
        · rw [if_pos (by omega), List.getElem?_append_left h']
          simp
        · rw [if_neg (by omega), List.getElem?_append_right h']
          rw [List.getElem?_replicate]
          split <;> rfl
      · have := (e3 (by rw [hstart]; exact mul_nonpos_of_nonpos_of_nonneg (by exact_mod_cast ha) hs.le)
          (by rw [hstop]; exact mul_nonneg (by exact_mod_cast hb0) hs.le)).2
        refine key 0 hyN (by omega) (by omega) fun i => ?_
        rw [this]
        split
        · simp
        · rw [at0_of_le _ _ (by omega)]

/-- two samples at times 2 and 3: `N = 4`, and the value at the highest frequency 1/2 is `y₀ - y₁` -/
example : ∃ sp lf lv, (⟨⟨2, 3, 1⟩, [10, 3]⟩ : Rel ℝ ℝ).getSpectrum = .ok sp ∧ sp.getData = .ok (lf, lv) ∧
    lv.length = 3 ∧ lf[2]? = some (1 / 2) ∧ lv[2]? = some 7 := by
  have hd : (⟨⟨2, 3, 1⟩, [10, 3]⟩ : Rel ℝ ℝ).getData = .ok ([2, 3], [10, 3]) := by
    rw [getData_ok_iff]
    refine ⟨?_, rfl, rfl⟩
    rw [array_whole (⟨2, 3, 1⟩ : Axis ℝ) 1 (by norm_num) (by norm_num)]
    norm_num [List.range_succ]
  obtain ⟨sp, lf, lv, h1, h2, h3, h4, h5⟩ := C69_fourier_sum _ _ _ hd 1 (by norm_num) 2 3 (by norm_num) rfl
    (by norm_num) (by norm_num) 4 (by norm_num)
  obtain ⟨e1, e2⟩ := h5 2 (by omega) (by omega)
  refine ⟨sp, lf, lv, h1, h2, h4, ?_, ?_⟩
  · rw [List.getElem?_eq_getElem (by omega), e1]
    norm_num
  · rw [List.getElem?_eq_getElem (by omega), e2, e1]
    simp only [List.length_cons, List.length_nil, Finset.sum_range_succ, Finset.range_zero, Finset.sum_empty]
    norm_num
    have h1 : Complex.exp (-(2 * Real.pi * Complex.I * (1 / 2 * 2))) = 1 := by
      rw [Complex.exp_eq_one_iff]
      exact ⟨-1, by push_cast; ring⟩
    have h2 : Complex.exp (-(2 * Real.pi * Complex.I * (1 / 2 * 3))) = -1 := by
      rw [show -(2 * Real.pi * Complex.I * (1 / 2 * 3)) = Real.pi * Complex.I + ((-2 : ℤ) : ℂ) * (2 * Real.pi * Complex.I) by
        push_cast; ring, Complex.exp_add, Complex.exp_pi_mul_I]
      have : Complex.exp (((-2 : ℤ) : ℂ) * (2 * Real.pi * Complex.I)) = 1 :=
        Complex.exp_eq_one_iff.2 ⟨-2, rfl⟩
      rw [this]; ring
    norm_num at h1 h2
    rw [h1, h2]
    norm_num

/-- what the forward transform of a signal is: rotate the prolonged samples, then transform -/
theorem getSpectrum_rotate (r : Rel ℝ ℝ) (hb : Balanced r) (hi : r.x.start ≤ r.x.stop) (hn : 2 ≤ r.y.length) :
    ∃ N p m : ℕ, r.y.length ≤ N ∧ m ≤ N ∧ p + r.y.length ≤ N ∧
      (∀ y' : List ℝ, y'.length = r.y.length → ∃ y : List ℝ, y.length = N ∧
        (∀ i, at0 y i = if p ≤ i ∧ i < p + r.y.length then at0 y' (i - p) else 0) ∧
        (⟨r.x, y'⟩ : Rel ℝ ℝ).getSpectrum = .ok ⟨⟨0, ((N / 2 : ℕ) : ℝ) * (1 / ((N : ℝ) * r.x.sample)),
          1 / ((N : ℝ) * r.x.sample)⟩,
          (List.range (N / 2 + 1)).map fun k : ℕ => dft N (at0 (y.rotate m)) k⟩) := by
  obtain ⟨hs, hl⟩ := (balanced_iff r).1 hb
  have hps : r.paddedTime.sample ≠ 0 := hs
  have hpinc : r.paddedTime.start ≤ r.paddedTime.stop := by
    simp only [Rel.paddedTime]
    exact (min_le_right _ _).trans (le_max_right _ _)
  set N := r.paddedTime.steps + 1 with hN
  have hsz : r.paddedTime.size = .ok N := r.paddedTime.size_eq hps
  have har := r.paddedTime.array_eq hps
  set t := linspace r.paddedTime.start r.paddedTime.stop N with ht
  have htl : t.length = N := linspace_length _ _ _
  have hle : r.y.length ≤ N := by
    obtain ⟨y, e1, e2, -⟩ := signal2spectrum_eq r hb hi
    rw [hsz] at e1
    simp at e1
    omega
  refine ⟨N, if 0 < r.x.start then N - r.y.length else 0, t.countP fun v => decide (v < 0), hle,
    htl ▸ List.countP_le_length, by split <;> omega, ?_⟩
  intro y' hy'
  have hb' : Balanced (⟨r.x, y'⟩ : Rel ℝ ℝ) := by unfold Balanced; rw [hy']; exact hb
  obtain ⟨y, e1, e2, e3, e4, e5, e6⟩ := signal2spectrum_eq ⟨r.x, y'⟩ hb' hi
  have hpt : (⟨r.x, y'⟩ : Rel ℝ ℝ).paddedTime = r.paddedTime := rfl
  rw [hpt, hsz] at e1
  simp only [Except.ok.injEq] at e1
  have hat : ∀ (l : List ℝ) i, at0 l i = (l[i]?).getD 0 := fun l i => by simp [at0]
  refine ⟨y, e1.symm, ?_, ?_⟩
  · intro i
    rcases lt_or_ge 0 r.x.start with h0 | h0
    · have := e4 h0
      simp only at this
      rw [if_pos h0, this, hat, hat, ← e1, hy']
      rcases Nat.lt_or_ge i (N - r.y.length) with h' | h'
      · rw [if_neg (by omega), List.getElem?_append_left (by simpa using h')]
        simp [h']
      · rw [List.getElem?_append_right (by simpa using h'), List.length_replicate]
        split
        · rfl
        · rw [List.getElem?_eq_none (by omega)]; rfl
    · rw [if_neg (not_lt.2 h0)]
      rcases lt_or_ge r.x.stop 0 with h1 | h1
      · have := e5 h1
        simp only at this
        rw [this, hat, hat]
        rcases Nat.lt_or_ge i r.y.length with h' | h'
        · rw [if_pos (by omega), List.getElem?_append_left (by omega)]
          simp
        · rw [if_neg (by omega), List.getElem?_append_right (by omega), List.getElem?_replicate]
          split <;> rfl
      · have := (e3 h0 h1).2
        simp only at this
        rw [this]
        split
        · simp
        · rw [at0_of_le _ _ (by omega)]
  · have hre := reorder_sorted r.paddedTime t y har (by omega) hpinc
    obtain ⟨z, hz, hzl, hc⟩ := calculateSpectrum_none r.paddedTime y (by rw [hsz, e1]) (by omega)
    rw [hz] at hre
    simp only [Except.ok.injEq] at hre
    subst hre
    unfold Rel.getSpectrum
    rw [e6, hpt, hc]
    simp only [except_bind_ok]
    rw [← e1]
    exact make_ok (by rw [show r.paddedTime.sample = r.x.sample from rfl, freqAxis_size N r.x.sample (by omega) hs]; simp)

theorem dft_congr (n : ℕ) (a b : ℕ → ℝ) (k : ℤ) (h : ∀ i < n, a i = b i) : dft n a k = dft n b k := by
  unfold dft
  exact Finset.sum_congr rfl fun i hi => by rw [h i (Finset.mem_range.1 hi)]

theorem dft_linear (n : ℕ) (a b : ℕ → ℝ) (c : ℝ) (k : ℤ) :
    dft n (fun i => c * a i + b i) k = c * dft n a k + dft n b k := by
  unfold dft
  rw [Finset.mul_sum, ← Finset.sum_add_distrib]
  refine Finset.sum_congr rfl fun i _ => ?_
  push_cast
  ring

/-- **C70.** `get_spectrum` is linear: for two signals on the same axis and any number `c` the spectra live on the same
frequency axis and the spectrum of `c * r1 + r2` is `c` times the spectrum of `r1` plus the spectrum of `r2`. -/
theorem C70_spectrum_linear (r1 r2 : Rel ℝ ℝ) (h1 : Balanced r1) (h2 : Balanced r2) (hx : r1.x = r2.x)
    (hinc : r1.x.start ≤ r1.x.stop) (hn : 2 ≤ r1.y.length) (c : ℝ) :
    ∃ s1 s2 s, r1.getSpectrum = .ok s1 ∧ r2.getSpectrum = .ok s2 ∧
      (⟨r1.x, List.zipWith (fun a b => c * a + b) r1.y r2.y⟩ : Rel ℝ ℝ).getSpectrum = .ok s ∧
      s1.x = s.x ∧ s2.x = s.x ∧ s.y = List.zipWith (fun a b => (c : ℂ) * a + b) s1.y s2.y := by
  have hl := balanced_length_eq h1 h2 hx
  obtain ⟨N, p, m, a1, a2, a3, a4⟩ := getSpectrum_rotate r1 h1 hinc hn
  obtain ⟨y1, b1, b2, b3⟩ := a4 r1.y rfl
  obtain ⟨y2, c1, c2, c3⟩ := a4 r2.y hl.symm
  obtain ⟨y3, d1, d2, d3⟩ := a4 (List.zipWith (fun a b => c * a + b) r1.y r2.y) (by simp [hl])
  refine ⟨_, _, _, b3, by rw [hx] at c3; exact c3, d3, rfl, by rw [hx], ?_⟩
  simp only
  apply List.ext_getElem (by simp)
  intro k k1 k2
  simp only [List.getElem_map, List.getElem_range, List.getElem_zipWith]
  rw [← dft_linear]
  apply dft_congr
  intro i hi
  have hrot : ∀ l : List ℝ, l.length = N → at0 (l.rotate m) i = at0 l ((i + m) % N) := by
    intro l hlN
    rw [at0_eq _ _ (by simp; omega), List.getElem_rotate, at0_eq _ _ (by rw [hlN]; exact Nat.mod_lt _ (by omega))]
    simp [hlN]
  rw [hrot y1 b1, hrot y2 c1, hrot y3 d1, b2, c2, d2]
  split
  · rw [at0_eq _ _ (by simp; omega), at0_eq _ _ (by omega), at0_eq _ _ (by omega)]
    simp
  · ring

example : ∃ s1 s2 s, (⟨⟨-1, 1, 1⟩, [1, 2, 3]⟩ : Rel ℝ ℝ).getSpectrum = .ok s1 ∧
    (⟨⟨-1, 1, 1⟩, [4, 5, 6]⟩ : Rel ℝ ℝ).getSpectrum = .ok s2 ∧
    (⟨⟨-1, 1, 1⟩, [14, 25, 36]⟩ : Rel ℝ ℝ).getSpectrum = .ok s ∧
    s.y = List.zipWith (fun a b => (10 : ℂ) * a + b) s1.y s2.y := by
  obtain ⟨s1, s2, s, e1, e2, e3, -, -, e4⟩ := C70_spectrum_linear ⟨⟨-1, 1, 1⟩, [1, 2, 3]⟩ ⟨⟨-1, 1, 1⟩, [4, 5, 6]⟩
    (balanced_whole _ 2 (by norm_num) (by norm_num) rfl) (balanced_whole _ 2 (by norm_num) (by norm_num) rfl) rfl
    (by norm_num) (by simp) 10
  refine ⟨s1, s2, s, e1, e2, ?_, by simpa using e4⟩
  rw [← e3]
  norm_num

/-- Parseval for the two-sided transform -/
theorem dft_parseval (n : ℕ) (hn : 0 < n) (a : ℕ → ℝ) :
    ∑ k ∈ Finset.range n, ‖dft n a k‖ ^ 2 = n * ∑ j ∈ Finset.range n, a j ^ 2 := by
  have h1 : ∀ k : ℕ, ((‖dft n a k‖ ^ 2 : ℝ) : ℂ) =
      ∑ j ∈ Finset.range n, ((a j : ℝ) : ℂ) * (dft n a k * unitRoot n (-(k * 0)) * unitRoot n (j * k)) := by
    intro k
    rw [Complex.ofReal_pow, ← Complex.mul_conj', mul_comm]
    conv_lhs => enter [1]; unfold dft
    rw [map_sum, Finset.sum_mul]
    refine Finset.sum_congr rfl fun j _ => ?_
    rw [map_mul, Complex.conj_ofReal, unitRoot_conj, mul_zero, neg_zero, unitRoot_zero, neg_neg]
    ring
  have h2 : ((∑ k ∈ Finset.range n, ‖dft n a k‖ ^ 2 : ℝ) : ℂ) = ((n * ∑ j ∈ Finset.range n, a j ^ 2 : ℝ) : ℂ) := by
    rw [Complex.ofReal_sum, Finset.sum_congr rfl (fun k _ => h1 k), Finset.sum_comm]
    push_cast
    rw [Finset.mul_sum]
    refine Finset.sum_congr rfl fun j hj => ?_
    rw [← Finset.mul_sum, dft_inverse n hn a 0 j]
    have : (((j : ℤ) - 0) % n).toNat = j := by
      have := Finset.mem_range.1 hj
      rw [sub_zero, Int.emod_eq_of_lt (by omega) (by omega), Int.toNat_natCast]
    rw [this]
    ring
  exact_mod_cast h2

theorem norm_dft_neg (n : ℕ) (hn : 0 < n) (a : ℕ → ℝ) (k : ℤ) : ‖dft n a (n - k)‖ = ‖dft n a k‖ := by
  rw [← dft_conj n hn a k, RCLike.norm_conj]

/-- **C71.** Energy: for a signal of at least two samples whose prolonged axis has `N` points, `N Σ y_j²` equals the sum
of the squared spectral amplitudes over the full circle of `N` frequencies, where frequency `k > N / 2` stands for its
mirror image `N - k`. -/
theorem C71_parseval (r : Rel ℝ ℝ) (hb : Balanced r) (hinc : r.x.start ≤ r.x.stop) (hn : 2 ≤ r.y.length) :
    ∃ s N, Axis.size ⟨min r.x.start 0, max r.x.stop 0, r.x.sample⟩ = .ok N ∧ r.getSpectrum = .ok s ∧
      s.y.length = N / 2 + 1 ∧
      ∑ k ∈ Finset.range N, ‖s.y.getD (min k (N - k)) 0‖ ^ 2 = N * (r.y.map fun v => v ^ 2).sum := by
  obtain ⟨hs, hl⟩ := (balanced_iff r).1 hb
  obtain ⟨y, z, e1, -, -, e4, e5, e6⟩ := getSpectrum_eq r hb hinc hn
  obtain ⟨N, p, m, a1, a2, a3, a4⟩ := getSpectrum_rotate r hb hinc hn
  obtain ⟨y1, b1, b2, b3⟩ := a4 r.y rfl
  have b3' : r.getSpectrum = _ := b3
  have hyN : y.length / 2 = N / 2 := by
    rw [e6] at b3'
    simp only [Except.ok.injEq, Rel.mk.injEq] at b3'
    have := congrArg List.length b3'.2
    simpa using this
  have hN2 : 2 ≤ N := by omega
  have hNy : y.length = N := by
    rw [e6] at b3'
    simp only [Except.ok.injEq, Rel.mk.injEq, Axis.mk.injEq] at b3'
    have := b3'.1.2.2
    rw [one_div, one_div, inv_inj] at this
    exact_mod_cast mul_right_cancel₀ hs this
  refine ⟨_, N, by rw [← hNy]; exact e1, b3', by simp, ?_⟩
  have hterm : ∀ k ∈ Finset.range N, ‖((List.range (N / 2 + 1)).map fun k : ℕ => dft N (at0 (y1.rotate m)) k).getD
      (min k (N - k)) 0‖ ^ 2 = ‖dft N (at0 (y1.rotate m)) k‖ ^ 2 := by
    intro k hk
    have hk' := Finset.mem_range.1 hk
    rw [getD_lt _ _ _ (by simp; omega)]
    simp only [List.getElem_map, List.getElem_range]
    rcases le_total k (N - k) with h | h
    · rw [min_eq_left h]
    · rw [min_eq_right h, Nat.cast_sub hk'.le, norm_dft_neg N (by omega)]
  rw [Finset.sum_congr rfl hterm, dft_parseval N (by omega)]
  congr 1
  have hrot : ∀ i < N, at0 (y1.rotate m) i = at0 y1 ((i + m) % N) := by
    intro i hi
    rw [at0_eq _ _ (by simp; omega), List.getElem_rotate, at0_eq _ _ (by rw [b1]; exact Nat.mod_lt _ (by omega))]
    simp [b1]
  have e7 : ∑ j ∈ Finset.range N, at0 (y1.rotate m) j ^ 2 = ∑ j ∈ Finset.range N, at0 y1 j ^ 2 := by
    refine Finset.sum_nbij' (fun j => (j + m) % N) (fun i => (i + (N - m)) % N) ?_ ?_ ?_ ?_ ?_
    · intro j _
      exact Finset.mem_range.2 (Nat.mod_lt _ (by omega))
    · intro j _
      exact Finset.mem_range.2 (Nat.mod_lt _ (by omega))
    · intro j hj
      have hj' := Finset.mem_range.1 hj
      simp only [Nat.mod_add_mod]
      rw [show j + m + (N - m) = j + N by omega, Nat.add_mod_right, Nat.mod_eq_of_lt hj']
    · intro j hj
      have hj' := Finset.mem_range.1 hj
      simp only [Nat.mod_add_mod]
      rw [show j + (N - m) + m = j + N by omega, Nat.add_mod_right, Nat.mod_eq_of_lt hj']
    · intro j hj
      rw [hrot j (Finset.mem_range.1 hj)]
  rw [e7]
  have : ∀ i ∈ Finset.range N, at0 y1 i ^ 2 =
      if i ∈ Finset.Ico p (p + r.y.length) then at0 r.y (i - p) ^ 2 else 0 := by
    intro i _
    rw [b2 i]
    simp only [Finset.mem_Ico]
    split <;> simp
  rw [Finset.sum_congr rfl this, ← Finset.sum_filter]
  have hfil : (Finset.range N).filter (fun i => i ∈ Finset.Ico p (p + r.y.length)) =
      Finset.Ico p (p + r.y.length) := by
    ext i
    simp only [Finset.mem_filter, Finset.mem_range, Finset.mem_Ico]
    omega
  rw [hfil, Finset.sum_Ico_eq_sum_range, Nat.add_sub_cancel_left, ← sum_map_range]
  simp only [Nat.add_sub_cancel_left]
  congr 1
  apply List.ext_getElem (by simp)
  intro i i1 i2
  simp only [List.getElem_map, List.getElem_range]
  rw [at0_eq _ _ (by simpa using i2)]

example : ∃ s N, (⟨⟨1, 2, 1⟩, [3, 4]⟩ : Rel ℝ ℝ).getSpectrum = .ok s ∧
    ∑ k ∈ Finset.range N, ‖s.y.getD (min k (N - k)) 0‖ ^ 2 = N * 25 ∧ N = 3 := by
  obtain ⟨s, N, h1, h2, -, h3⟩ := C71_parseval ⟨⟨1, 2, 1⟩, [3, 4]⟩
    (balanced_whole _ 1 (by norm_num) (by norm_num) rfl) (by norm_num) (by simp)
  have hN : N = 3 := by
    have := Axis.size_of_array (array_whole (⟨min 1 0, max 2 0, 1⟩ : Axis ℝ) 2 (by norm_num) (by norm_num))
    rw [h1] at this
    simpa using this
  refine ⟨s, N, h2, ?_, hN⟩
  rw [h3]
  norm_num

end SweepDesign
