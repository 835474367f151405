import Verif.Props.FloatAxis

/-!
# C95: selecting a window in double precision
-/

set_option linter.unusedSectionVars false

namespace SweepDesign

open Spec

section
variable {K : Type} [Field K] [LinearOrder K] [IsStrictOrderedRing K] [FloorRing K]

theorem maskSelect_range {α β : Type} (p : α → Bool) (t : List α) (y : List β) (hl : t.length = y.length) (i c : ℕ)
    (h : ∀ k (hk : k < t.length), p t[k] = decide (i ≤ k ∧ k < i + c)) :
    maskSelect (t.map p) y = .ok ((y.drop i).take c) := by
  induction t generalizing y i c with
  | nil =>
    have : y = [] := List.length_eq_zero_iff.1 hl.symm
    subst this
    simp [maskSelect]
  | cons v t ih =>
    cases y with
    | nil => simp at hl
    | cons b y =>
      have h0 := h 0 (by simp)
      rw [List.getElem_cons_zero] at h0
      have hs : ∀ k (hk : k < t.length), p t[k] = decide (i ≤ k + 1 ∧ k + 1 < i + c) := by
        intro k hk
        have := h (k + 1) (by simpa using hk)
        rwa [List.getElem_cons_succ] at this
      rw [List.map_cons, h0]
      cases i with
      | zero =>
        cases c with
        | zero =>
          rw [decide_eq_false (by omega)]
          refine maskSelect_cons_false _ _ _ _ ?_
          rw [ih y (by simpa using hl) 0 0 (fun k hk => by rw [hs k hk, decide_eq_decide]; omega)]
          simp
        | succ c =>
          rw [decide_eq_true (by omega)]
          rw [List.drop_zero, List.take_succ_cons]
          refine maskSelect_cons_true _ _ _ _ ?_
          rw [ih y (by simpa using hl) 0 c (fun k hk => by rw [hs k hk, decide_eq_decide]; omega)]
          simp
      | succ i =>
        rw [decide_eq_false (by omega), List.drop_succ_cons]
        refine maskSelect_cons_false _ _ _ _ ?_
        exact ih y (by simpa using hl) i c (fun k hk => by rw [hs k hk, decide_eq_decide]; omega)

/-- what `select_data` does when the points selected are the points `i ≤ k < i + c` -/
theorem flSelectData_range {V : Type} {fl : K → K} {x : Axis K} {l : List K} (hx : x.flArray fl = .ok l) (y : List V)
    (hy : l.length = y.length) (lo hi : Option K) (i c : ℕ) (hc : 0 < c) (hic : i + c ≤ l.length)
    (h : ∀ k (hk : k < l.length), (lo.getD x.start ≤ l[k] ∧ l[k] ≤ hi.getD x.stop) ↔ (i ≤ k ∧ k < i + c)) :
    flSelectData fl x y lo hi = flMake fl ⟨l[i], l[i + c - 1], x.sample⟩ ((y.drop i).take c) := by
  have hm : ∀ k (hk : k < l.length), (decide (lo.getD x.start ≤ l[k]) && decide (l[k] ≤ hi.getD x.stop)) =
      decide (i ≤ k ∧ k < i + c) := by
    intro k hk
    rw [← Bool.decide_and, decide_eq_decide]
    exact h k hk
  have h1 := maskSelect_range (fun t => decide (lo.getD x.start ≤ t) && decide (t ≤ hi.getD x.stop)) l l rfl i c hm
  have h2 := maskSelect_range (fun t => decide (lo.getD x.start ≤ t) && decide (t ≤ hi.getD x.stop)) l y hy i c hm
  unfold flSelectData
  rw [hx, except_bind_ok]
  have e1 : ((l.drop i).take c).head? = some l[i] := by
    rw [List.head?_eq_getElem?, List.getElem?_take_of_lt hc, List.getElem?_drop, List.getElem?_eq_getElem (by omega)]
    simp
  have e2 : ((l.drop i).take c).getLast? = some l[i + c - 1] := by
    have hlen : ((l.drop i).take c).length = c := by rw [List.length_take, List.length_drop]; omega
    rw [List.getLast?_eq_getElem?, hlen, List.getElem?_take_of_lt (by omega), List.getElem?_drop,
      List.getElem?_eq_getElem (by omega)]
    congr 2
    omega
  simp only [h1, except_bind_ok, e1, e2, h2]

/-- the constructor accepts a stretch of an axis -/
theorem flMake_stretch {V : Type} {fl : K → K} {u : K} (hfl : RelErr fl u) (s p q : K) (hs : 0 < s) (k : ℕ) (y : List V)
    (hy : y.length = k + 1) (t : K) (ht : |(q - p) / s - k| ≤ t) (hu : t + (k + 1) * (3 * u) < 1 / 2) (hu1 : u ≤ 1) :
    flMake fl ⟨p, q, s⟩ y = .ok (⟨p, q, s⟩, y) := by
  have hu0 := relErr_nonneg hfl
  have hk0 : (0 : K) ≤ k := Nat.cast_nonneg _
  have ht0 : 0 ≤ t := (abs_nonneg _).trans ht
  have hneg : 0 ≤ (k + 1) * (3 * u) := by positivity
  have h1 : |(|(q - p) / s| - k)| ≤ t := by
    have := abs_abs_sub_abs_le ((q - p) / s) k
    rw [Nat.abs_cast] at this
    linarith
  have h2 : |(q - p) / s| ≤ k + 1 := by
    have := abs_le.1 h1
    linarith [this.2]
  obtain ⟨l, l1, l2, -⟩ := C92_size fl u hfl ⟨p, q, s⟩ hs.ne' k (by
    simp only
    have h3 : 2 * u + u ^ 2 ≤ 3 * u := by
      have : u * u ≤ 1 * u := mul_le_mul_of_nonneg_right hu1 hu0
      rw [pow_two]; linarith
    have : |(q - p) / s| * (2 * u + u ^ 2) ≤ (k + 1) * (3 * u) :=
      mul_le_mul h2 h3 (by positivity) (by positivity)
    linarith)
  unfold flMake
  rw [l1, except_bind_ok, if_neg (by rw [l2, hy]; simp), except_pure]

variable {V : Type} (fl : K → K) (u : K) (x : Axis K) (l : List K) (n : ℕ) (M : K) (y : List V)

/-- a relation of `n + 1` samples on an ascending axis whose step is not lost in the rounding: `end` is within an eighth of a
step of `start + n * sample`, and a step is at least `128 u M`, where `M` bounds `|start|` and `|end|` -/
structure Spec.WellResolved : Prop where
  rel : RelErr fl u
  unit : u ≤ 1 / 100
  array : x.flArray fl = .ok l
  many : 1 ≤ n
  points : l.length = n + 1
  values : y.length = n + 1
  startBound : |x.start| ≤ M
  stopBound : |x.stop| ≤ M
  fits : |x.stop - (x.start + n * x.sample)| ≤ x.sample / 8
  resolved : 128 * u * M ≤ x.sample
  positive : 0 < x.sample

variable {fl u x l n M y}

theorem Spec.WellResolved.step (h : WellResolved fl u x l n M y) :
    |(x.stop - x.start) / n - x.sample| ≤ x.sample / 8 / n := by
  have hn : (0 : K) < n := by exact_mod_cast h.many
  have e : (x.stop - x.start) / n - x.sample = (x.stop - (x.start + n * x.sample)) / n := by field_simp; ring
  rw [e, abs_div, abs_of_pos hn]
  exact div_le_div_of_nonneg_right h.fits hn.le

theorem Spec.WellResolved.step' (h : WellResolved fl u x l n M y) :
    7 / 8 * x.sample ≤ (x.stop - x.start) / n ∧ (x.stop - x.start) / n ≤ 9 / 8 * x.sample := by
  have hn : (1 : K) ≤ n := by exact_mod_cast h.many
  have h1 := abs_le.1 h.step
  have h2 : x.sample / 8 / n ≤ x.sample / 8 := div_le_self (by have := h.positive; positivity) hn
  constructor <;> linarith [h1.1, h1.2]

theorem Spec.WellResolved.units (h : WellResolved fl u x l n M y) : 56 * (n * u) ≤ 1 := by
  have hn : (0 : K) < n := by exact_mod_cast h.many
  have hu := relErr_nonneg h.rel
  have h1 : (x.stop - x.start) ≤ 2 * M := by
    have := abs_le.1 h.startBound
    have := abs_le.1 h.stopBound
    linarith [(abs_le.1 h.startBound).1, (abs_le.1 h.stopBound).2]
  have h2 := h.step'.1
  rw [le_div_iff₀ hn] at h2
  have h3 : 7 / 8 * (128 * u * M) * n ≤ 2 * M := by
    have := mul_le_mul_of_nonneg_right (mul_le_mul_of_nonneg_left h.resolved (by norm_num : (0 : K) ≤ 7 / 8)) hn.le
    linarith
  have hM : 0 < M := by
    have : 0 < 7 / 8 * x.sample * n := by have := h.positive; positivity
    linarith
  have h4 : (56 * (n * u)) * (2 * M) ≤ 1 * (2 * M) := by
    calc (56 * (n * u)) * (2 * M) = 7 / 8 * (128 * u * M) * n := by ring
      _ ≤ 2 * M := h3
      _ = 1 * (2 * M) := by ring
  exact le_of_mul_le_mul_right h4 (by linarith)

/-- every stretch of a well resolved relation is accepted by the constructor -/
theorem Spec.WellResolved.stretch (h : WellResolved fl u x l n M y) (i c : ℕ) (hc : 0 < c) (hic : i + c ≤ l.length) :
    flMake fl ⟨l[i], l[i + c - 1], x.sample⟩ ((y.drop i).take c) =
      .ok (⟨l[i], l[i + c - 1], x.sample⟩, (y.drop i).take c) := by
  obtain ⟨-, -, hp⟩ := C92_points fl u h.rel h.unit x l h.array n h.many h.points M h.startBound h.stopBound
  have hn : (0 : K) < n := by exact_mod_cast h.many
  have hs := h.positive
  have hu := relErr_nonneg h.rel
  obtain ⟨k, rfl⟩ : ∃ k, c = k + 1 := ⟨c - 1, by omega⟩
  have hkn : k ≤ n := by rw [h.points] at hic; omega
  have hkK : (k : K) ≤ n := by exact_mod_cast hkn
  have hk0 : (0 : K) ≤ k := Nat.cast_nonneg _
  have p1 := abs_le.1 (hp i (by omega))
  have p2 := abs_le.1 (hp (i + (k + 1) - 1) (by omega))
  set d := (x.stop - x.start) / n with hd
  have ecast : ((i + (k + 1) - 1 : ℕ) : K) = i + k := by
    rw [show i + (k + 1) - 1 = i + k by omega]; push_cast; ring
  rw [ecast] at p2
  have hunits := h.units
  refine flMake_stretch h.rel x.sample _ _ hs k _ ?_ (1 / 4) ?_ ?_ (by linarith [h.unit])
  · rw [List.length_take, List.length_drop, h.values]
    rw [h.points] at hic
    omega
  · have hkd : |k * (d - x.sample)| ≤ x.sample / 8 := by
      rw [abs_mul, abs_of_nonneg hk0]
      have := h.step
      calc k * |d - x.sample| ≤ n * (x.sample / 8 / n) := mul_le_mul hkK h.step (abs_nonneg _) hn.le
        _ = x.sample / 8 := by field_simp
    have hkd' := abs_le.1 hkd
    have e : (l[i + (k + 1) - 1] - l[i]) / x.sample - k = (l[i + (k + 1) - 1] - l[i] - k * x.sample) / x.sample := by
      field_simp
    rw [e, abs_div, abs_of_pos hs, div_le_iff₀ hs, abs_le]
    have hr := h.resolved
    constructor <;> linarith [p1.1, p1.2, p2.1, p2.2, hkd'.1, hkd'.2]
  · have : (k + 1) * (3 * u) ≤ 3 * (n * u) + 3 * u := by
      have := mul_le_mul_of_nonneg_right hkK hu
      linarith
    have := h.unit
    linarith

/-- **C95** `select_data` on a well resolved relation, with a lower bound near point `i` and an upper bound near point `j`: the
selection consists of the samples between, where only the samples `i` and `j` themselves depend on the rounding; it is a
relation with unchanged sample. -/
theorem C95_select (h : WellResolved fl u x l n M y) (lo hi : K) (i j : ℕ) (hi0 : i < l.length) (hj : j < l.length)
    (hlo : |lo - (x.start + i * ((x.stop - x.start) / n))| + 8 * u * M < (x.stop - x.start) / n)
    (hhi : |hi - (x.start + j * ((x.stop - x.start) / n))| + 8 * u * M < (x.stop - x.start) / n)
    (i' j' : ℕ) (hi' : i' = if lo ≤ l[i] then i else i + 1) (hj' : j' + 1 = if l[j] ≤ hi then j + 1 else j) (hne : i' ≤ j')
    (hj1 : j' < l.length) :
    flSelectData fl x y (some lo) (some hi) =
      .ok (⟨l[i'], l[j'], x.sample⟩, (y.drop i').take (j' + 1 - i')) := by
  obtain ⟨-, -, hp⟩ := C92_points fl u h.rel h.unit x l h.array n h.many h.points M h.startBound h.stopBound
  set d := (x.stop - x.start) / n with hd
  have hM : 0 ≤ M := (abs_nonneg _).trans h.startBound
  have hpos : 0 ≤ 8 * u * M := by have := relErr_nonneg h.rel; positivity
  have hd0 : 0 < d := by have := h.step'.1; have := h.positive; linarith
  have hlo1 := le_abs_self (lo - (x.start + i * d))
  have hlo2 := neg_abs_le (lo - (x.start + i * d))
  have hhi1 := le_abs_self (hi - (x.start + j * d))
  have hhi2 := neg_abs_le (hi - (x.start + j * d))
  have hbelow : ∀ k (hk : k < l.length), k < i → l[k] < lo := by
    intro k hk hki
    have p := abs_le.1 (hp k hk)
    have hc : (k : K) + 1 ≤ i := by exact_mod_cast hki
    have := mul_le_mul_of_nonneg_right hc hd0.le
    linarith [p.2]
  have habove : ∀ k (hk : k < l.length), i < k → lo < l[k] := by
    intro k hk hki
    have p := abs_le.1 (hp k hk)
    have hc : (i : K) + 1 ≤ k := by exact_mod_cast hki
    have := mul_le_mul_of_nonneg_right hc hd0.le
    linarith [p.1]
  have hbelow' : ∀ k (hk : k < l.length), k < j → l[k] < hi := by
    intro k hk hki
    have p := abs_le.1 (hp k hk)
    have hc : (k : K) + 1 ≤ j := by exact_mod_cast hki
    have := mul_le_mul_of_nonneg_right hc hd0.le
    linarith [p.2]
  have habove' : ∀ k (hk : k < l.length), j < k → hi < l[k] := by
    intro k hk hki
    have p := abs_le.1 (hp k hk)
    have hc : (j : K) + 1 ≤ k := by exact_mod_cast hki
    have := mul_le_mul_of_nonneg_right hc hd0.le
    linarith [p.1]
  have hA : ∀ k (hk : k < l.length), lo ≤ l[k] ↔ i' ≤ k := by
    intro k hk
    rcases Nat.lt_trichotomy k i with e | e | e
    · have := hbelow k hk e
      constructor
      · intro h; exact absurd h (not_le.2 this)
      · intro h; split_ifs at hi' <;> omega
    · subst e
      split_ifs at hi' with h1
      · simp [h1, hi']
      · simp only [h1, false_iff]; omega
    · have := habove k hk e
      refine ⟨fun _ => ?_, fun _ => this.le⟩
      split_ifs at hi' <;> omega
  have hB : ∀ k (hk : k < l.length), l[k] ≤ hi ↔ k < j' + 1 := by
    intro k hk
    rcases Nat.lt_trichotomy k j with e | e | e
    · have := hbelow' k hk e
      refine ⟨fun _ => ?_, fun _ => this.le⟩
      split_ifs at hj' <;> omega
    · subst e
      split_ifs at hj' with h1
      · simp only [h1, true_iff]; omega
      · simp only [h1, false_iff]; omega
    · have := habove' k hk e
      constructor
      · intro h; exact absurd h (not_le.2 this)
      · intro h; split_ifs at hj' <;> omega
  have hc : i' + (j' + 1 - i') - 1 = j' := by omega
  rw [flSelectData_range h.array y (by rw [h.points, h.values]) (some lo) (some hi) i' (j' + 1 - i') (by omega) (by omega)
    (fun k hk => by simp only [Option.getD_some]; rw [hA k hk, hB k hk]; omega), h.stretch i' (j' + 1 - i') (by omega) (by omega)]
  simp only [hc]

/-- **C95** A bound that keeps a distance of `8 u M` from the exact position of a sample decides about it as in exact arithmetic. -/
theorem C95_clear (h : WellResolved fl u x l n M y) (i : ℕ) (hi : i < l.length) (b : K)
    (hb : 8 * u * M < |b - (x.start + i * ((x.stop - x.start) / n))|) :
    (b ≤ l[i] ↔ b ≤ x.start + i * ((x.stop - x.start) / n)) ∧
    (l[i] ≤ b ↔ x.start + i * ((x.stop - x.start) / n) ≤ b) := by
  obtain ⟨-, -, hp⟩ := C92_points fl u h.rel h.unit x l h.array n h.many h.points M h.startBound h.stopBound
  have p := abs_le.1 (hp i hi)
  set w := x.start + i * ((x.stop - x.start) / n) with hw
  have hM : 0 ≤ M := (abs_nonneg _).trans h.startBound
  have hpos : 0 ≤ 8 * u * M := by have := relErr_nonneg h.rel; positivity
  rcases le_total b w with hbw | hbw
  · rw [abs_of_nonpos (by linarith)] at hb
    refine ⟨⟨fun _ => hbw, fun _ => by linarith [p.1]⟩, ⟨fun _ => ?_, fun _ => ?_⟩⟩ <;> exfalso <;> linarith [p.1]
  · rw [abs_of_nonneg (by linarith)] at hb
    refine ⟨⟨fun _ => ?_, fun _ => ?_⟩, ⟨fun _ => hbw, fun _ => by linarith [p.2]⟩⟩ <;> exfalso <;> linarith [p.2]

/-- **C95** Without bounds everything is selected, if the arithmetic represents `start`. -/
theorem C95_select_all (h : WellResolved fl u x l n M y) (hst : fl x.start = x.start) :
    flSelectData fl x y none none = .ok (x, y) := by
  obtain ⟨hlast, hhead, hp⟩ := C92_points fl u h.rel h.unit x l h.array n h.many h.points M h.startBound h.stopBound
  have hhead := hhead hst
  have hlen := h.points
  rw [List.head?_eq_getElem?, List.getElem?_eq_getElem (by omega), Option.some.injEq] at hhead
  rw [List.getLast?_eq_getElem?, List.getElem?_eq_getElem (by omega), Option.some.injEq] at hlast
  have hgap : 16 * u * M < (x.stop - x.start) / n := by
    have := h.step'.1
    have := h.resolved
    have := h.positive
    linarith
  have hinc := C92_increasing fl u h.rel h.unit x l h.array n h.many h.points M h.startBound h.stopBound hgap
  rw [List.pairwise_iff_getElem] at hinc
  have hall : ∀ k (hk : k < l.length), x.start ≤ l[k] ∧ l[k] ≤ x.stop := by
    intro k hk
    constructor
    · rcases Nat.eq_zero_or_pos k with e | e
      · subst e; exact hhead.ge
      · have := hinc 0 k (by omega) hk e
        rw [hhead] at this
        exact this.le
    · rcases Nat.lt_or_ge k (l.length - 1) with e | e
      · have := hinc k (l.length - 1) hk (by omega) e
        rw [hlast] at this
        exact this.le
      · have : k = l.length - 1 := by omega
        subst this
        exact hlast.le
  rw [flSelectData_range h.array y (by rw [h.points, h.values]) none none 0 l.length (by omega) (by omega)
    (fun k hk => by
      simp only [Option.getD_none]
      exact ⟨fun _ => ⟨by omega, by omega⟩, fun _ => hall k hk⟩), h.stretch 0 l.length (by omega) (by omega)]
  simp only [zero_add, hhead, hlast, List.drop_zero]
  rw [List.take_of_length_le (by rw [h.points, h.values])]

end

/-- **C95** In double precision the window from 0 to 0.3 of a relation on 0, 0.1, ..., 1 does not contain the sample at 0.3,
whereas the window from 0 to 0.4 contains the one at 0.4. -/
theorem C95_witness :
    (flSelectData fl64 ⟨0, 1, fl64 (1 / 10)⟩ (List.range 11) (some 0) (some (fl64 (3 / 10)))).map Prod.snd = .ok [0, 1, 2] ∧
    (flSelectData fl64 ⟨0, 1, fl64 (1 / 10)⟩ (List.range 11) (some 0) (some (fl64 (4 / 10)))).map Prod.snd =
      .ok [0, 1, 2, 3, 4] ∧
    (Rel.selectData (⟨⟨0, 1, 1 / 10⟩, List.range 11⟩ : Rel ℚ ℕ) (some 0) (some (3 / 10))).map Rel.y = .ok [0, 1, 2, 3] := by
  refine ⟨?_, ?_, ?_⟩ <;> decide +kernel

/-- the relation of `C95_witness` is well resolved -/
theorem tenths_wellResolved : Spec.WellResolved fl64 (2 ^ (-53 : ℤ)) ⟨0, 1, fl64 (1 / 10)⟩ (flLinspace fl64 0 1 11) 10 1
    (List.range 11) where
  rel := fl64_relErr
  unit := by norm_num
  array := by decide +kernel
  many := by norm_num
  points := flLinspace_length _ _ _ _
  values := by simp
  startBound := by norm_num
  stopBound := by norm_num
  fits := by decide +kernel
  resolved := by decide +kernel
  positive := by decide +kernel

example : flSelectData fl64 ⟨0, 1, fl64 (1 / 10)⟩ (List.range 11) (some 0) (some (fl64 (3 / 10))) =
    .ok (⟨0, (flLinspace fl64 0 1 11)[2]'(by rw [flLinspace_length]; norm_num), fl64 (1 / 10)⟩, [0, 1, 2]) := by
  rw [C95_select tenths_wellResolved 0 (fl64 (3 / 10)) 0 3 (by rw [flLinspace_length]; norm_num) (by rw [flLinspace_length]; norm_num)
    (by decide +kernel) (by decide +kernel) 0 2 (by decide +kernel) (by decide +kernel) (by norm_num)
    (by rw [flLinspace_length]; norm_num)]
  decide +kernel

example : flSelectData fl64 ⟨0, 1, fl64 (1 / 10)⟩ (List.range 11) none none =
    .ok (⟨0, 1, fl64 (1 / 10)⟩, List.range 11) :=
  C95_select_all tenths_wellResolved (by decide +kernel)

end SweepDesign
