import Verif.Props.Prepared

/-!
# C108 The frequencies of the shuffle sweep

`get_shuffle` cuts the time into segments and moves from one frequency of the shuffled grid to the next along half a cosine.
-/

set_option linter.unusedSectionVars false

namespace SweepDesign

open Spec

/-- `w` is `v`, or `v` to so many decimals if a number other than 0 is given (to the nearest, ties either way) -/
def Spec.Rounded (decimals : Option ℤ) (v w : ℝ) : Prop :=
  match decimals with
  | none => w = v
  | some 0 => w = v
  | some k => (∃ z : ℤ, w = z / 10 ^ k) ∧ |w - v| ≤ 1 / 2 / 10 ^ k

/-- the frequency after the part `q` of the way from one segment frequency to the next -/
noncomputable def Spec.halfCosine (f1 f2 q : ℝ) : ℝ := f1 + (f2 - f1) * (1 - Real.cos (Real.pi * q)) / 2

theorem npRound_rounded (k : ℤ) (hk : k ≠ 0) (v : ℝ) : Rounded (some k) v (npRound k v) := by
  have h10 : (0 : ℝ) < 10 ^ k := by positivity
  have h := (pyRound_spec (v * 10 ^ k)).1
  unfold Rounded
  split
  · simp_all
  · simp_all
  · rename_i k' e
    cases e
    refine ⟨⟨_, rfl⟩, ?_⟩
    unfold npRound
    rw [show (pyRound (v * (10 : ℝ) ^ k) : ℝ) / 10 ^ k - v = ((pyRound (v * (10 : ℝ) ^ k) : ℝ) - v * 10 ^ k) / 10 ^ k by field_simp,
      abs_div, abs_of_pos h10]
    exact div_le_div_of_nonneg_right (by rw [abs_sub_comm]; exact h) h10.le

theorem joinSegments_length (c : List ℝ) : ∀ f : List ℝ, (joinSegments c f).length = (f.length - 1) * (c.length - 1)
  | [] => by simp [joinSegments]
  | [_] => by simp [joinSegments]
  | f1 :: f2 :: l => by
    rw [joinSegments, List.length_append, joinSegments_length c (f2 :: l), List.length_drop, List.length_map]
    simp only [List.length_cons, Nat.add_sub_cancel]
    ring

theorem joinSegments_getElem? (c : List ℝ) : ∀ (f : List ℝ) (i j : ℕ) (hi : i + 1 < f.length) (hj : j + 1 < c.length),
    (joinSegments c f)[i * (c.length - 1) + j]? = some (c[j + 1] * (f[i + 1] - f[i]) + f[i])
  | [], i, j, hi, _ => by simp at hi
  | [_], i, j, hi, _ => by simp at hi
  | f1 :: f2 :: l, i, j, hi, hj => by
    rw [joinSegments]
    cases i with
    | zero =>
      rw [List.getElem?_append_left (by simp; omega), List.getElem?_drop]
      simp [Nat.add_comm 1 j, hj]
    | succ i =>
      have e : (i + 1) * (c.length - 1) + j = ((c.map fun v => v * (f2 - f1) + f1).drop 1).length + (i * (c.length - 1) + j) := by
        simp; ring
      rw [e, List.getElem?_append_right (by omega), Nat.add_sub_cancel_left]
      have := joinSegments_getElem? c (f2 :: l) i j (by simpa using hi) hj
      simpa using this

/-- **C108** The description. With `dt` the step of the time, `0 < dt < length` and a positive end: there are `N = ⌈end / length⌉`
segments, `N + 1` segment frequencies `f` (the evenly spaced grid from `f_start` to `f_end`, rounded if asked, then shuffled), and
`m = ⌈length / dt⌉` entries for each segment. The entry `j` of segment `i` is the part `(j + 1) / m` of the way from `f[i]` to `f[i+1]`
along half a cosine: each segment ends on its frequency and none repeats the end of the one before. Two entries are cut off at the end. -/
theorem C108_description (t : Axis ℝ) (fs fe length : ℝ) (rn : Option ℤ) (shuffle : List ℝ → List ℝ)
    (hlen : ∀ l, (shuffle l).length = l.length) (hdt : 0 < t.sample) (hL : t.sample < length) (hT : 0 < t.stop) :
    ∃ (N m : ℕ) (grid rounded f ft : List ℝ), ⌈t.stop / length⌉ = N ∧ ⌈length / t.sample⌉ = m ∧
      EvenlySpaced grid fs ((fe - fs) / N) (N + 1) ∧ List.Forall₂ (Rounded rn) grid rounded ∧ f = shuffle rounded ∧
      shuffleFrequency t fs fe length rn shuffle = .ok ft ∧ ft.length = N * m - 2 ∧
      ∀ i j, i < N → j < m → i * m + j < N * m - 2 →
        ft.getD (i * m + j) 0 = halfCosine (f.getD i 0) (f.getD (i + 1) 0) ((j + 1) / m) := by
  have hL0 : 0 < length := hdt.trans hL
  obtain ⟨N, hN⟩ : ∃ N : ℕ, ⌈t.stop / length⌉ = N := ⟨_, (Int.toNat_of_nonneg (Int.ceil_nonneg (by positivity))).symm⟩
  obtain ⟨m, hm⟩ : ∃ m : ℕ, ⌈length / t.sample⌉ = m := ⟨_, (Int.toNat_of_nonneg (Int.ceil_nonneg (by positivity))).symm⟩
  have hm0 : 0 < m := by
    have : 0 < ⌈length / t.sample⌉ := Int.ceil_pos.2 (by positivity)
    omega
  set grid := linspace fs fe (N + 1) with hgrid
  set rounded := (match rn with | none => grid | some 0 => grid | some k => grid.map (npRound k)) with hr
  have hrl : rounded.length = N + 1 := by
    rw [hr]; split <;> simp [hgrid, linspace_length]
  set f := shuffle rounded with hf
  have hfl : f.length = N + 1 := by rw [hf, hlen, hrl]
  set c := (linspace 0 length (m + 1)).map fun x => Real.cos (x * Real.pi / length - Real.pi) / 2 + 1 / 2 with hc
  have hcl : c.length = m + 1 := by simp [hc, linspace_length]
  have hseg : segmentFrequencies t.stop fs fe length rn shuffle = .ok f := by
    unfold segmentFrequencies nSegments
    rw [if_neg hL0.ne', hN]
    simp only [except_bind_ok]
    rw [if_neg (by omega), show ((N : ℤ) + 1).toNat = N + 1 by omega]
    rfl
  have hcos : risingCos length t.sample = .ok c := by
    unfold risingCos
    rw [if_neg hdt.ne', hm]
    simp only []
    rw [if_neg (by omega), show ((m : ℤ) + 1).toNat = m + 1 by omega]
  have hjl : (joinSegments c f).length = N * m := by rw [joinSegments_length, hfl, hcl]; simp
  refine ⟨N, m, grid, rounded, f, (joinSegments c f).take ((joinSegments c f).length - 2), hN, hm, ?_, ?_, rfl, ?_, ?_, ?_⟩
  · have := evenlySpaced_linspace fs fe (N + 1)
    simpa using this
  · rw [hr]
    rcases rn with _ | k
    · exact List.forall₂_same.2 fun v _ => rfl
    · by_cases hk : k = 0
      · subst hk; exact List.forall₂_same.2 fun v _ => rfl
      · have : (match some k with | none => grid | some 0 => grid | some k => grid.map (npRound k)) = grid.map (npRound k) := by
          split <;> simp_all
        rw [this]
        rw [List.forall₂_map_right_iff]
        exact List.forall₂_same.2 fun v _ => npRound_rounded k hk v
  · unfold shuffleFrequency
    rw [if_neg (by simpa using hL), hseg, except_bind_ok, hcos]
    rfl
  · rw [List.length_take, hjl]; omega
  · intro i j hi hj hij
    rw [hjl, List.getD_eq_getElem?_getD, List.getElem?_take_of_lt hij]
    have := joinSegments_getElem? c f i j (by omega) (by omega)
    simp only [hcl, Nat.add_sub_cancel] at this
    rw [this, Option.getD_some, getD_lt _ _ _ (by omega), getD_lt _ _ _ (by omega)]
    unfold halfCosine
    have hcj : c[j + 1]'(by omega) = (1 - Real.cos (Real.pi * ((j + 1) / m))) / 2 := by
      have he : (linspace 0 length (m + 1))[j + 1]'(by rw [linspace_length]; omega) = ((j : ℝ) + 1) * (length / m) := by
        rw [(evenlySpaced_linspace 0 length (m + 1)).2 (j + 1)]
        push_cast
        ring_nf
      simp only [hc, List.getElem_map, he]
      have hmR : (m : ℝ) ≠ 0 := by exact_mod_cast hm0.ne'
      rw [show ((j : ℝ) + 1) * (length / m) * Real.pi / length - Real.pi = Real.pi * ((j + 1) / m) - Real.pi by field_simp,
        Real.cos_sub_pi]
      ring
    rw [hcj]
    ring

/-- **C108** Each segment but the last ends on its frequency. -/
theorem C108_reached (f1 f2 : ℝ) {m : ℕ} (hm : 0 < m) : halfCosine f1 f2 (((m - 1 : ℕ) + 1) / m) = f2 := by
  have hmR : (m : ℝ) ≠ 0 := by exact_mod_cast hm.ne'
  have : (((m - 1 : ℕ) : ℝ) + 1) = m := by
    rw [Nat.cast_sub hm]; simp
  rw [this, div_self hmR, halfCosine, mul_one, Real.cos_pi]
  ring

/-- **C108** The last segment does not reach its frequency: two entries are missing, and before the end the half cosine has not arrived. -/
theorem C108_not_reached {f1 f2 : ℝ} (h : f1 ≠ f2) {m j : ℕ} (hj : j + 2 < m) : halfCosine f1 f2 ((j + 1) / m) ≠ f2 := by
  have hm : (0 : ℝ) < m := by exact_mod_cast (by omega : 0 < m)
  have hq : ((j : ℝ) + 1) / m < 1 := by
    rw [div_lt_one hm]
    exact_mod_cast (by omega : j + 1 < m)
  have hq0 : 0 ≤ ((j : ℝ) + 1) / m := by positivity
  have hcos : -1 < Real.cos (Real.pi * (((j : ℝ) + 1) / m)) := by
    rw [← Real.cos_pi]
    exact Real.cos_lt_cos_of_nonneg_of_le_pi (by positivity) le_rfl (by nlinarith [Real.pi_pos])
  intro he
  unfold halfCosine at he
  have : (f2 - f1) * (1 + Real.cos (Real.pi * (((j : ℝ) + 1) / m))) = 0 := by linarith
  rcases mul_eq_zero.1 this with h' | h'
  · exact h (by linarith)
  · linarith

/-- **C108** The sweep. On a time axis that starts at 0 the description of `C108_description` is stretched evenly over the whole axis:
entry `k` of its `N·m - 2` entries stands at the time `k · end / (N·m - 3)`, not where its segment is. The envelope is the Tukey
envelope of the time, tapered at both ends. -/
theorem C108_sweep (P : SweepPrims ℝ) (t : Axis ℝ) (h0 : t.start = 0) (n : ℕ) (hn : t.size = .ok n) (h2 : 2 ≤ n)
    (fs fe length : ℝ) (rn : Option ℤ) (tt : Option ℝ) (shuffle : List ℝ → List ℝ) (ft : List ℝ)
    (hft : shuffleFrequency t fs fe length rn shuffle = .ok ft) (hl : 2 ≤ ft.length) (s : Sweep ℝ)
    (h : getShuffle P (.axis t) fs fe length rn tt shuffle = .ok s) :
    s.rel.x = t ∧ StretchedOver t ft s.frequencyTime.y ∧ ∃ times, t.array = .ok times ∧
      tukeyAT times tt .both = .ok s.amplitudeTime.y := by
  simp only [getShuffle, TimeArg.toAxis, except_bind_ok, hft, except_bind_eq_ok] at h
  obtain ⟨l, hx, a, ha, u, hu, h⟩ := h
  have hll : l.length = n := by
    rw [Axis.size_of_array hx] at hn
    simpa using hn
  have hal : a.length = n := by rw [((C52_shape _ _ _).1 a ha).1, hll]
  refine ⟨(C49_time_axis P _ _ _ u hu _ _ s h).2.2.1 t rfl rfl,
    ((C50_own_axis P t h0 n hn h2 ft hl _ _ u hu _ (.inl rfl) _ s h).1 rfl).1, l, hx, ?_⟩
  rw [((C50_own_axis P t h0 n hn h2 a (by omega) _ _ u hu _ (.inl rfl) _ s h).2 rfl).2.2.2 hal]
  exact ha

/-- five seconds, one-second segments, step 1/2, frequencies 10, 20, ..., 60 in reversed order: ten entries less two -/
example : ∃ ft, shuffleFrequency ⟨0, 5, 1/2⟩ 10 60 1 none List.reverse = .ok ft ∧ ft.length = 8 := by
  obtain ⟨N, m, g, r, f, ft, hN, hm, -, -, -, h, hl, -⟩ := C108_description ⟨0, 5, 1/2⟩ 10 60 1 none List.reverse
    (fun l => List.length_reverse) (by norm_num) (by norm_num) (by norm_num)
  refine ⟨ft, h, ?_⟩
  have e1 : N = 5 := by
    have : ((5 : ℝ) / 1) = ((5 : ℤ) : ℝ) := by norm_num
    simp only [this, Int.ceil_intCast] at hN
    exact_mod_cast hN.symm
  have e2 : m = 2 := by
    have : ((1 : ℝ) / (1 / 2)) = ((2 : ℤ) : ℝ) := by norm_num
    simp only [this, Int.ceil_intCast] at hm
    exact_mod_cast hm.symm
  rw [hl, e1, e2]

/-- the way from 10 to 20 in two steps: half way, then there -/
example : halfCosine 10 20 ((0 + 1) / 2) = 15 ∧ halfCosine 10 20 ((1 + 1) / 2) = 20 := by
  constructor
  · rw [halfCosine, show Real.pi * ((0 + 1) / 2) = Real.pi / 2 by ring, Real.cos_pi_div_two]; norm_num
  · rw [halfCosine, show Real.pi * ((1 + 1) / 2) = Real.pi by ring, Real.cos_pi]; norm_num

end SweepDesign
