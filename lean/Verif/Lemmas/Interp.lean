import Verif.Lemmas.Relation

/-! # Linear interpolation -/

set_option linter.unusedSectionVars false
set_option linter.unnecessarySeqFocus false

namespace SweepDesign
open Spec

section
variable {K : Type} [Field K] [LinearOrder K] [IsStrictOrderedRing K]
variable {V : Type} [Field V] [Algebra K V]

theorem countP_split {α : Type} (p : α → Bool) (l : List α) (k : ℕ) (hk : k ≤ l.length)
    (h1 : ∀ i (hi : i < l.length), i < k → p l[i] = true)
    (h2 : ∀ i (hi : i < l.length), k ≤ i → p l[i] = false) : l.countP p = k := by
  rw [← List.take_append_drop k l, List.countP_append]
  have e1 : (l.take k).countP p = (l.take k).length := by
    rw [List.countP_eq_length]
    intro a ha
    obtain ⟨i, hi, rfl⟩ := List.mem_iff_getElem.1 ha
    rw [List.getElem_take]
    simp at hi
    exact h1 i (by omega) (by omega)
  have e2 : (l.drop k).countP p = 0 := by
    rw [List.countP_eq_zero]
    intro a ha
    obtain ⟨i, hi, rfl⟩ := List.mem_iff_getElem.1 ha
    rw [List.getElem_drop]
    simp at hi
    rw [h2 (k + i) (by omega) (by omega)]
    simp
  rw [e1, e2, List.length_take]
  omega

theorem pairwise_lt_getElem {l : List K} (h : l.Pairwise (· < ·)) {i j : ℕ} (hi : i < l.length) (hj : j < l.length)
    (hij : i < j) : l[i] < l[j] := (List.pairwise_iff_getElem.1 h) i j hi hj hij

theorem pairwise_lt_getElem_le {l : List K} (h : l.Pairwise (· < ·)) {i j : ℕ} (hi : i < l.length)
    (hj : j < l.length) (hij : i ≤ j) : l[i] ≤ l[j] := by
  rcases hij.lt_or_eq with h1 | h1
  · exact (pairwise_lt_getElem h hi hj h1).le
  · subst h1; exact le_refl _

theorem interpAt_last (x : List K) (y : List V) (t : K) (hx : x.Pairwise (· < ·)) (hl : x.length = y.length)
    (h0 : 0 < x.length) (ht : t = x[x.length - 1]) : interpAt x y t = y[x.length - 1] := by
  have hc : x.countP (fun u => decide (u ≤ t)) = x.length := by
    apply countP_split _ _ _ le_rfl
    · intro i hi _
      rw [ht]
      exact decide_eq_true (pairwise_lt_getElem_le hx hi (by omega) (by omega))
    · intro i hi h; omega
  have hhead : x.head? = some x[0] := by rw [List.head?_eq_getElem?, List.getElem?_eq_getElem h0]
  have hlast : x.getLast? = some x[x.length - 1] := by
    rw [List.getLast?_eq_getElem?, List.getElem?_eq_getElem (by omega)]
  have hge : x[0] ≤ x[x.length - 1] := pairwise_lt_getElem_le hx h0 (by omega) (by omega)
  unfold interpAt
  simp only [hhead, hlast, hc]
  rw [if_neg (not_lt.2 (ht ▸ hge)), if_neg (not_lt.2 ht.le), if_pos (by omega)]
  exact at0_eq _ _ (by omega)

theorem interpAt_mid (x : List K) (y : List V) (t : K) (hx : x.Pairwise (· < ·)) (hl : x.length = y.length)
    (i : ℕ) (hi : i + 1 < x.length) (h1 : x[i] ≤ t) (h2 : t < x[i + 1]) :
    interpAt x y t = y[i] + ((t - x[i]) / (x[i + 1] - x[i])) • (y[i + 1] - y[i]) := by
  have hc : x.countP (fun u => decide (u ≤ t)) = i + 1 := by
    apply countP_split _ _ _ (by omega)
    · intro j hj hji
      exact decide_eq_true (le_trans (pairwise_lt_getElem_le hx hj (by omega) (by omega)) h1)
    · intro j hj hij
      exact decide_eq_false (not_le.2 (lt_of_lt_of_le h2 (pairwise_lt_getElem_le hx hi hj (by omega))))
  have hhead : x.head? = some x[0] := by rw [List.head?_eq_getElem?, List.getElem?_eq_getElem (by omega)]
  have hlast : x.getLast? = some x[x.length - 1] := by
    rw [List.getLast?_eq_getElem?, List.getElem?_eq_getElem (by omega)]
  have hge : x[0] ≤ t := le_trans (pairwise_lt_getElem_le hx (by omega) (by omega) (by omega)) h1
  have hle : t ≤ x[x.length - 1] :=
    le_trans h2.le (pairwise_lt_getElem_le hx (by omega) (by omega) (by omega))
  unfold interpAt
  simp only [hhead, hlast, hc, Nat.add_sub_cancel]
  rw [if_neg (not_lt.2 hge), if_neg (not_lt.2 hle), if_neg (by omega)]
  rw [at0_eq _ _ (by omega), at0_eq _ _ (by omega), at0_eq _ _ (by omega), at0_eq _ _ (by omega), smul_smul,
    div_eq_mul_inv, add_comm]

theorem interpAt_outside (x : List K) (y : List V) (t : K) (h : ¬ InRange x t) : interpAt x y t = 0 := by
  unfold interpAt
  split
  · rename_i x0 xl h0 hl
    by_cases a : t < x0
    · simp [a]
    · by_cases b : xl < t
      · simp [b]
      · exact absurd ⟨x0, List.mem_of_mem_head? h0, xl, List.mem_of_getLast? hl, not_lt.1 a, not_lt.1 b⟩ h
  · rfl

/-- on strictly increasing samples `interpAt` is the interpolant -/
theorem interpAt_spec (x : List K) (y : List V) (t : K) (hx : x.Pairwise (· < ·)) (hl : x.length = y.length) :
    IsInterpolant x y t (interpAt x y t) := by
  have hs : ∀ i (h : i < x.length) (h' : i < y.length), x[i] = t → interpAt x y t = y[i] := by
    intro i h h' he
    rcases Nat.lt_or_ge (i + 1) x.length with h1 | h1
    · rw [interpAt_mid x y t hx hl i h1 he.le (he ▸ pairwise_lt_getElem hx h h1 (by omega)), he, sub_self,
        zero_div, zero_smul, add_zero]
    · have : i = x.length - 1 := by omega
      subst this
      exact interpAt_last x y t hx hl (by omega) he.symm
  refine ⟨interpAt_outside x y t, hs, ?_⟩
  intro i h h' h1 h2
  have hlt := pairwise_lt_getElem hx (by omega : i < x.length) h (by omega)
  rw [min_eq_left hlt.le] at h1
  rw [max_eq_right hlt.le] at h2
  rcases h2.lt_or_eq with h3 | h3
  · exact interpAt_mid x y t hx hl i h h1 h3
  · rw [hs (i + 1) h h' h3.symm, h3, div_self (by linarith : x[i + 1] - x[i] ≠ 0), one_smul, add_sub_cancel]

theorem inRange_reverse (x : List K) (t : K) : InRange x.reverse t ↔ InRange x t := by
  simp [InRange]

theorem IsInterpolant.reverse {x : List K} {y : List V} {t : K} {v : V} (hl : x.length = y.length)
    (hx : x.Pairwise (· ≠ ·)) (h : IsInterpolant x.reverse y.reverse t v) : IsInterpolant x y t v := by
  refine ⟨fun ho => h.outside (by rwa [inRange_reverse]), ?_, ?_⟩
  · intro i h1 h2 he
    have := h.sample (x.length - 1 - i) (by simp; omega) (by simp; omega)
    simp only [List.getElem_reverse] at this
    have e1 : x.length - 1 - (x.length - 1 - i) = i := by omega
    have e2 : y.length - 1 - (x.length - 1 - i) = i := by omega
    simp only [e1, e2] at this
    exact this he
  · intro i h1 h2 ha hb
    have hne : x[i] ≠ x[i + 1] := (List.pairwise_iff_getElem.1 hx) i (i + 1) (by omega) h1 (by omega)
    have := h.between (x.length - 2 - i) (by simp; omega) (by simp; omega)
    simp only [List.getElem_reverse] at this
    have e1 : x.length - 1 - (x.length - 2 - i) = i + 1 := by omega
    have e2 : y.length - 1 - (x.length - 2 - i) = i + 1 := by omega
    have e3 : x.length - 1 - (x.length - 2 - i + 1) = i := by omega
    have e4 : y.length - 1 - (x.length - 2 - i + 1) = i := by omega
    simp only [e1, e2, e3, e4] at this
    rw [this (by rwa [min_comm]) (by rwa [max_comm])]
    have d1 : x[i] - x[i + 1] ≠ 0 := sub_ne_zero.2 hne
    have d2 : x[i + 1] - x[i] ≠ 0 := sub_ne_zero.2 (Ne.symm hne)
    have : (t - x[i + 1]) / (x[i] - x[i + 1]) = 1 - (t - x[i]) / (x[i + 1] - x[i]) := by
      rw [div_eq_iff d1, sub_mul, one_mul, div_mul_eq_mul_div, eq_sub_iff_add_eq, ← eq_sub_iff_add_eq',
        div_eq_iff d2]
      ring
    rw [this, sub_smul, one_smul, smul_sub, smul_sub]
    abel

theorem zip_fst_pairwise {x : List K} {y : List V} {R : K → K → Prop} (h : x.Pairwise R) :
    (x.zip y).Pairwise fun p q => R p.1 q.1 := by
  induction x generalizing y with
  | nil => simp
  | cons a x ih =>
    cases y with
    | nil => simp
    | cons b y =>
      simp only [List.zip_cons_cons, List.pairwise_cons] at h ⊢
      exact ⟨fun p hp => h.1 _ (List.of_mem_zip hp).1, ih h.2⟩

theorem zip_reverse' {α β : Type} (x : List α) (y : List β) (h : x.length = y.length) :
    (x.zip y).reverse = x.reverse.zip y.reverse := by
  induction x generalizing y with
  | nil => simp
  | cons a x ih =>
    cases y with
    | nil => simp at h
    | cons b y =>
      have hl : x.length = y.length := by simpa using h
      simp only [List.zip_cons_cons, List.reverse_cons, ih y hl]
      rw [List.zip_append (by simp [hl])]
      rfl

/-- on strictly monotone samples (either direction) `interp1d` gives the interpolant at every point -/
theorem interp1d_spec (x : List K) (y : List V) (xs : List K) (hl : x.length = y.length) (h0 : x.length ≠ 0)
    (hx : x.Pairwise (· < ·) ∨ x.Pairwise (· > ·)) :
    ∃ ys, interp1d x y xs = .ok ys ∧ ys.length = xs.length ∧
      ∀ i (h : i < xs.length) (h' : i < ys.length), IsInterpolant x y xs[i] ys[i] := by
  unfold interp1d
  simp only [hl, ne_eq, not_true_eq_false, if_false, hl ▸ h0]
  refine ⟨_, rfl, by simp, ?_⟩
  suffices H : ∀ t, IsInterpolant x y t
      (interpAt (((x.zip y).insertionSort fun p q => p.1 ≤ q.1).map Prod.fst)
        (((x.zip y).insertionSort fun p q => p.1 ≤ q.1).map Prod.snd) t) by
    intro i h h'
    simp only [List.getElem_map]
    exact H _
  intro t
  rcases hx with hx | hx
  · have hs : ((x.zip y).insertionSort fun p q => p.1 ≤ q.1) = x.zip y := by
      apply List.Pairwise.insertionSort_eq
      exact (zip_fst_pairwise hx).imp (fun h => h.le)
    rw [hs, List.map_fst_zip (by omega), List.map_snd_zip (by omega)]
    exact interpAt_spec x y _ hx hl
  · have hs : ((x.zip y).insertionSort fun p q => p.1 ≤ q.1) = (x.zip y).reverse := by
      have hp : (x.zip y).reverse.Pairwise (fun p q => p.1 < q.1) := by
        rw [List.pairwise_reverse]
        exact zip_fst_pairwise hx
      apply List.Perm.eq_of_pairwise (le := fun p q => p.1 ≤ q.1)
      · intro a b ha hb h1 h2
        have ha' : a ∈ (x.zip y).reverse := by
          rw [List.mem_reverse]
          exact (List.perm_insertionSort _ _).mem_iff.1 ha
        obtain ⟨m, hm, rfl⟩ := List.mem_iff_getElem.1 ha'
        obtain ⟨n, hn, rfl⟩ := List.mem_iff_getElem.1 hb
        rcases lt_trichotomy m n with h | h | h
        · exact absurd (List.pairwise_iff_getElem.1 hp m n hm hn h) (not_lt.2 h2)
        · subst h; rfl
        · exact absurd (List.pairwise_iff_getElem.1 hp n m hn hm h) (not_lt.2 h1)
      · exact (@List.pairwise_insertionSort (K × V) (fun p q => p.1 ≤ q.1) _
          ⟨fun a b => le_total a.1 b.1⟩ ⟨fun a b c => le_trans⟩ (x.zip y))
      · exact hp.imp (fun h => h.le)
      · exact (List.perm_insertionSort _ _).trans (List.reverse_perm _).symm
    rw [hs, zip_reverse' x y hl, List.map_fst_zip (by simp; omega), List.map_snd_zip (by simp; omega)]
    apply IsInterpolant.reverse hl (hx.imp (fun h => (ne_of_gt h)))
    exact interpAt_spec _ _ _ (by rw [List.pairwise_reverse]; exact hx) (by simp [hl])

/-- a point in the range of strictly increasing samples is a sample or lies between two neighbours -/
theorem inRange_cases_inc {x : List K} {t : K} (hx : x.Pairwise (· < ·)) (h : InRange x t) :
    (∃ i, ∃ hi : i < x.length, x[i] = t) ∨
    (∃ i, ∃ hi : i + 1 < x.length, x[i] < t ∧ t < x[i + 1]) := by
  obtain ⟨a, ha, b, hb, h1, h2⟩ := h
  obtain ⟨m, hm, rfl⟩ := List.mem_iff_getElem.1 ha
  obtain ⟨n, hn, rfl⟩ := List.mem_iff_getElem.1 hb
  have hmn : m ≤ n := by
    by_contra hc
    have := pairwise_lt_getElem hx hn hm (by omega)
    linarith
  clear ha hb
  induction hk : n - m generalizing m with
  | zero =>
    have : m = n := by omega
    subst this
    exact Or.inl ⟨m, hm, le_antisymm h1 h2⟩
  | succ k ih =>
    rcases h1.lt_or_eq with h3 | h3
    · rcases lt_or_ge t (x[m + 1]'(by omega)) with h4 | h4
      · exact Or.inr ⟨m, by omega, h3, h4⟩
      · exact ih (m + 1) (by omega) h4 (by omega) (by omega)
    · exact Or.inl ⟨m, hm, h3⟩

theorem inRange_cases {x : List K} {t : K} (hx : x.Pairwise (· < ·) ∨ x.Pairwise (· > ·)) (h : InRange x t) :
    (∃ i, ∃ hi : i < x.length, x[i] = t) ∨
    (∃ i, ∃ hi : i + 1 < x.length, min x[i] x[i + 1] ≤ t ∧ t ≤ max x[i] x[i + 1]) := by
  rcases hx with hx | hx
  · rcases inRange_cases_inc hx h with h | ⟨i, hi, h1, h2⟩
    · exact Or.inl h
    · exact Or.inr ⟨i, hi, (min_le_left _ _).trans h1.le, h2.le.trans (le_max_right _ _)⟩
  · rcases inRange_cases_inc (x := x.reverse) (t := t) (by rw [List.pairwise_reverse]; exact hx)
      (by rwa [inRange_reverse]) with ⟨i, hi, h1⟩ | ⟨i, hi, h1, h2⟩
    · simp at hi
      refine Or.inl ⟨x.length - 1 - i, by omega, ?_⟩
      rw [← h1, List.getElem_reverse]
    · simp at hi
      rw [List.getElem_reverse] at h1 h2
      have e : x.length - 1 - i = (x.length - 1 - (i + 1)) + 1 := by omega
      refine Or.inr ⟨x.length - 1 - (i + 1), by omega, ?_, ?_⟩
      · refine (min_le_right _ _).trans ?_
        simp only [e] at h1
        exact h1.le
      · exact h2.le.trans (le_max_left _ _)

theorem IsInterpolant.unique {x : List K} {y : List V} {t : K} {v w : V} (hl : x.length = y.length)
    (hx : x.Pairwise (· < ·) ∨ x.Pairwise (· > ·)) (h1 : IsInterpolant x y t v) (h2 : IsInterpolant x y t w) :
    v = w := by
  by_cases hr : InRange x t
  · rcases inRange_cases hx hr with ⟨i, hi, h⟩ | ⟨i, hi, ha, hb⟩
    · rw [h1.sample i hi (by omega) h, h2.sample i hi (by omega) h]
    · rw [h1.between i hi (by omega) ha hb, h2.between i hi (by omega) ha hb]
  · rw [h1.outside hr, h2.outside hr]

end

section
variable {K : Type} [Field K] [LinearOrder K] [IsStrictOrderedRing K] [FloorRing K]
variable {V : Type} [Field V] [Algebra K V]

theorem Axis.step_ne_zero {a : Axis K} (h : a.steps ≠ 0) : a.step ≠ 0 := by
  unfold Axis.step
  apply div_ne_zero
  · intro e
    apply h
    rw [Axis.steps_eq_iff, e, zero_div, abs_zero, ← pyRound_eq_iff]
    simpa using pyRound_intCast (K := K) 0
  · exact_mod_cast h

/-- the array of an axis is strictly monotone -/
theorem Axis.array_monotone {a : Axis K} {l : List K} (h : a.array = .ok l) :
    l.Pairwise (· < ·) ∨ l.Pairwise (· > ·) := by
  have hsp := Axis.array_spaced h
  rcases Nat.eq_zero_or_pos a.steps with h0 | h0
  · left
    rw [h0] at hsp
    match l, hsp with
    | [t], _ => simp
    | [], hsp => simp
    | t :: u :: l, hsp => have := hsp.1; simp at this
  · rcases lt_or_gt_of_ne (Axis.step_ne_zero h0.ne') with h | h
    · exact Or.inr (hsp.pairwise_gt h)
    · exact Or.inl (hsp.pairwise_lt h)

theorem Axis.array_length_ne {a : Axis K} {l : List K} (h : a.array = .ok l) : l.length ≠ 0 := by
  rw [(Axis.array_spaced h).1]; omega

/-- interpolation onto an axis with non-zero sample succeeds and gives the interpolant -/
theorem interpAxis_spec (r : Rel K V) (lx : List K) (ly : List V) (h : r.getData = .ok (lx, ly)) (nx : Axis K)
    (hs : nx.sample ≠ 0) :
    ∃ q xs ys, r.interpAxis nx = .ok q ∧ q.x = nx ∧ nx.array = .ok xs ∧ q.y = ys ∧ q.getData = .ok (xs, ys) ∧
      ∀ i (h : i < xs.length) (h' : i < ys.length), IsInterpolant lx ly xs[i] ys[i] := by
  obtain ⟨hx, rfl, hlen⟩ := (getData_ok_iff _ _ _).1 h
  have hxs := nx.array_eq hs
  obtain ⟨ys, h1, h2, h3⟩ := interp1d_spec lx r.y (linspace nx.start nx.stop (nx.steps + 1)) hlen
    (Axis.array_length_ne hx) (Axis.array_monotone hx)
  refine ⟨⟨nx, ys⟩, _, ys, ?_, rfl, hxs, rfl, ?_, h3⟩
  · simp only [Rel.interpAxis, hx, hxs, h1, except_bind_ok]
    apply make_ok
    rw [nx.size_eq hs, h2, linspace_length]
  · rw [getData_ok_iff]
    exact ⟨hxs, rfl, h2.symm⟩

/-- interpolating onto an axis with equal parameters changes nothing -/
theorem interpAxis_self (r : Rel K V) (hb : Balanced r) : r.interpAxis r.x = .ok r := by
  obtain ⟨⟨lx, ly⟩, hd⟩ := (balanced_iff_getData r).1 hb
  obtain ⟨hs, -⟩ := (balanced_iff r).1 hb
  obtain ⟨hx, hy, hlen⟩ := (getData_ok_iff _ _ _).1 hd
  obtain ⟨q, xs, ys, h1, h2, h3, h4, h5, h6⟩ := interpAxis_spec r lx ly hd r.x hs
  rw [h1]
  rw [hx] at h3
  simp only [Except.ok.injEq] at h3
  subst h3
  have hlen2 := ((getData_ok_iff _ _ _).1 h5).2.2
  have : ys = r.y := by
    rw [← hy]
    apply List.ext_getElem (by omega)
    intro i hi hj
    exact (h6 i (by omega) hi).sample i (by omega) hj rfl
  cases q
  cases r
  simp_all

theorem sample_min_ne_zero {a b : Axis K} (ha : a.sample ≠ 0) (hb : b.sample ≠ 0) : (commonX a b).sample ≠ 0 := by
  unfold commonX
  dsimp only
  split_ifs <;> assumption

end

end SweepDesign
