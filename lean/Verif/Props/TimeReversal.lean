import Verif.Props.FourierSum
import Verif.Props.Scaling

/-!
# Time reversal (C156)

A record read backwards is the relation with the samples in the opposite order on the axis mirrored at zero, from `-end` to
`-start` with the same sample. Nothing in the package says so, but a user who reverses a sweep expects that it makes no difference
whether they reverse before or after an operation.
-/

set_option linter.unusedSectionVars false

namespace SweepDesign

open Spec

/-- the axis mirrored at zero -/
def Spec.mirror {K : Type} [Field K] (a : Axis K) : Axis K := ⟨-a.stop, -a.start, a.sample⟩

/-- the relation read backwards -/
def Spec.backwards {K V : Type} [Field K] (r : Rel K V) : Rel K V := ⟨mirror r.x, r.y.reverse⟩

section
variable {K : Type} [Field K] [LinearOrder K] [IsStrictOrderedRing K] [FloorRing K]

/-- the last point of the axis is its end (so it is, unless the axis has only one point and other ends) -/
def Spec.Reaches (a : Axis K) : Prop := ∀ l, a.array = .ok l → l.getLast? = some a.stop

theorem reaches_iff {a : Axis K} (h : a.sample ≠ 0) : Reaches a ↔ a.steps ≠ 0 ∨ a.start = a.stop := by
  unfold Reaches
  rw [a.array_eq h]
  constructor
  · intro k
    by_contra hc
    rw [not_or, not_not] at hc
    have := k _ rfl
    rw [hc.1, zero_add, linspace_one] at this
    exact hc.2 (by simpa using this)
  · rintro k l hl
    obtain rfl := Except.ok.inj hl
    rw [List.getLast?_eq_getElem?, List.getElem?_eq_getElem (by rw [linspace_length]; omega), linspace_getElem]
    congr 1
    simp only [linspace_length, Nat.add_sub_cancel]
    push_cast
    rw [add_sub_cancel_right]
    rcases k with k | k
    · have : (a.steps : K) ≠ 0 := by exact_mod_cast k
      field_simp
      ring
    · rw [k]; simp

/-- an axis that runs forward and has at least two points reaches its end; so does every axis with equal ends -/
example : Reaches (⟨0, 1, 1 / 4⟩ : Axis ℚ) := by
  rw [reaches_iff (by norm_num)]
  decide +kernel

theorem mirror_steps (a : Axis K) : (mirror a).steps = a.steps := by
  simp only [Axis.steps, mirror]
  rw [neg_sub_neg]

/-- **C156.** The mirrored axis has equally many points, namely the negated ones in the opposite order. -/
theorem C156_axis (a : Axis K) :
    (mirror a).size = a.size ∧ (Reaches a → (mirror a).array = a.array.map fun l => (l.map Neg.neg).reverse) := by
  by_cases hs : a.sample = 0
  · refine ⟨by rw [a.size_zero hs, (mirror a).size_zero hs], fun _ => ?_⟩
    rw [a.array_zero hs, (mirror a).array_zero hs]
    rfl
  · refine ⟨by rw [a.size_eq hs, (mirror a).size_eq hs, mirror_steps], fun h => ?_⟩
    rw [a.array_eq hs, (mirror a).array_eq hs, mirror_steps]
    simp only [Except.map, Except.ok.injEq]
    rw [reaches_iff hs] at h
    apply List.ext_getElem
    · simp [linspace_length]
    · intro i h1 h2
      rw [linspace_length] at h1
      simp only [List.getElem_reverse, List.getElem_map, List.length_map, linspace_length, linspace_getElem, mirror]
      push_cast
      rw [add_sub_cancel_right]
      have e : ((a.steps - i : ℕ) : K) = a.steps - i := by
        rw [Nat.cast_sub (by omega)]
      rw [e]
      rcases h with h | h
      · have : (a.steps : K) ≠ 0 := by exact_mod_cast h
        field_simp
        ring
      · rw [h]; simp

variable {V : Type}

theorem make_mirror (x : Axis K) (y : List V) : Rel.make (mirror x) y.reverse = (Rel.make x y).map backwards := by
  unfold Rel.make
  rw [(C156_axis x).1]
  rcases x.size with e | n
  · rfl
  · simp only [except_bind_ok, List.length_reverse]
    split_ifs <;> rfl

theorem backwards_balanced {r : Rel K V} : Spec.Balanced (backwards r) ↔ Spec.Balanced r := by
  unfold Spec.Balanced
  rw [show (backwards r).x = mirror r.x from rfl, (C156_axis r.x).1]
  simp [backwards]

/-- **C156.** `get_data` gives the same pairs in the opposite order, times negated. -/
theorem C156_data (r : Rel K V) (h : Reaches r.x) :
    (backwards r).getData = r.getData.map fun d => ((d.1.map Neg.neg).reverse, d.2.reverse) := by
  unfold Rel.getData
  simp only [backwards, (C156_axis r.x).1, (C156_axis r.x).2 h, List.length_reverse]
  rcases r.x.size with e | n
  · rfl
  · simp only [except_bind_ok]
    split_ifs
    · rfl
    · rcases r.x.array with e | l <;> rfl

/-- **C156.** `shift` the other way. -/
theorem C156_shift (r : Rel K V) (d : K) : (backwards r).shift (-d) = (r.shift d).map backwards := by
  unfold Rel.shift
  rw [← make_mirror]
  congr 1
  simp only [mirror, backwards, Axis.mk.injEq, and_true]
  constructor <;> ring

theorem maskSelect_reverse {α : Type} (m : List Bool) (l : List α) :
    maskSelect m.reverse l.reverse = (maskSelect m l).map List.reverse := by
  unfold maskSelect
  simp only [List.length_reverse]
  split_ifs with h
  · simp only [Except.map, Except.ok.injEq]
    rw [← List.filterMap_reverse, zip_reverse' l m h.symm]
  · rfl

/-- **C156.** `select_data` with the negated bounds exchanged. -/
theorem C156_select (r : Rel K V) (h : Reaches r.x) (s e : Option K) :
    (backwards r).selectData (e.map Neg.neg) (s.map Neg.neg) = (r.selectData s e).map backwards := by
  unfold Rel.selectData
  have e1 : (e.map Neg.neg).getD (backwards r).x.start = -(e.getD r.x.stop) := by cases e <;> rfl
  have e2 : (s.map Neg.neg).getD (backwards r).x.stop = -(s.getD r.x.start) := by cases s <;> rfl
  have e3 : (backwards r).x.array = r.x.array.map fun l => (l.map Neg.neg).reverse := (C156_axis r.x).2 h
  rw [e1, e2, e3]
  rcases r.x.array with er | x
  · rfl
  simp only [Except.map, except_bind_ok]
  have e4 : ((x.map Neg.neg).reverse.map fun t => decide (-(e.getD r.x.stop) ≤ t) && decide (t ≤ -(s.getD r.x.start))) =
      (x.map fun t => decide (s.getD r.x.start ≤ t) && decide (t ≤ e.getD r.x.stop)).reverse := by
    rw [List.map_reverse, List.map_map]
    congr 1
    apply List.map_congr_left
    intro t _
    simp only [Function.comp_apply, neg_le_neg_iff]
    rw [Bool.and_comm]
  rw [e4]
  generalize (x.map fun t => decide (s.getD r.x.start ≤ t) && decide (t ≤ e.getD r.x.stop)) = m
  rw [maskSelect_reverse, maskSelect_map]
  rcases maskSelect m x with er | sx
  · rfl
  simp only [Except.map, except_bind_ok, List.head?_reverse, List.getLast?_reverse, List.head?_map, List.getLast?_map]
  rcases sx.head? with _ | a
  · rcases sx.getLast? with _ | b <;> rfl
  rcases sx.getLast? with _ | b
  · rfl
  simp only [Option.map_some, backwards, maskSelect_reverse]
  rcases maskSelect m r.y with er | y
  · rfl
  simp only [Except.map, except_bind_ok]
  exact make_mirror ⟨a, b, r.x.sample⟩ y

/-- **C156.** An item near the negated time: the same item, except that of several nearest samples it is now the last. -/
theorem C156_item (r : Rel K V) (h : Reaches r.x) (lx : List K) (ly : List V) (hd : r.getData = .ok (lx, ly)) (v : K) :
    ∃ (i : ℕ) (t : K) (w : V), (backwards r).getItem (-v) = .ok (-t, w) ∧ lx[i]? = some t ∧ ly[i]? = some w ∧
      ∀ (j : ℕ) (s : K), lx[j]? = some s → |t - v| ≤ |s - v| ∧ (i < j → |t - v| < |s - v|) := by
  obtain ⟨hx, rfl, hl⟩ := (getData_ok_iff _ _ _).1 hd
  have e3 : (backwards r).x.array = .ok (lx.map Neg.neg).reverse := by
    have := (C156_axis r.x).2 h
    rw [hx] at this
    exact this
  have hne : ((lx.map Neg.neg).reverse.map fun t => |t - -v|) ≠ [] := by
    intro h0
    have := Axis.array_length_ne e3
    simp at h0
    simp [h0] at this
  obtain ⟨i, d, hi, hd, hmin⟩ := argmin_spec _ hne
  rw [List.getElem?_map, Option.map_eq_some_iff] at hd
  obtain ⟨t, ht, rfl⟩ := hd
  have hi' : i < lx.length := by
    by_contra hc
    rw [List.getElem?_eq_none (by simp; omega)] at ht
    simp at ht
  have hli : i < (lx.map Neg.neg).reverse.length := by simpa using hi'
  have ht' := ht
  rw [List.getElem?_eq_getElem hli, Option.some.injEq, List.getElem_reverse, List.getElem_map] at ht'
  have ht'' : t = -lx[lx.length - 1 - i] := by simpa using ht'.symm
  have hw : r.y.reverse[i]? = some (r.y[lx.length - 1 - i]'(by omega)) := by
    rw [List.getElem?_eq_getElem (by simp; omega), List.getElem_reverse]
    simp [hl]
  refine ⟨lx.length - 1 - i, lx[lx.length - 1 - i], r.y[lx.length - 1 - i], ?_, by simp, by simp, ?_⟩
  · have hw' : (backwards r).y[i]? = some (r.y[lx.length - 1 - i]'(by omega)) := hw
    simp only [Rel.getItem, e3, except_bind_ok, hi, ht, hw']
    rw [ht'']
    rfl
  · intro j s hj
    have hj' : j < lx.length := by
      by_contra hc
      rw [List.getElem?_eq_none (by omega)] at hj
      simp at hj
    rw [List.getElem?_eq_getElem hj', Option.some.injEq] at hj
    have k := hmin (lx.length - 1 - j) |-s - -v| (by
      rw [List.getElem?_map, List.getElem?_eq_getElem (by simp; omega), List.getElem_reverse, List.getElem_map]
      have : (lx.map Neg.neg).length - 1 - (lx.length - 1 - j) = j := by simp; omega
      simp only [this, hj, Option.map_some])
    have a1 : ∀ a : K, |-a - -v| = |a - v| := by
      intro a
      rw [show -a - -v = -(a - v) by ring, abs_neg]
    rw [ht'', a1, a1] at k
    exact ⟨k.1, fun hij => k.2 (by omega)⟩

section
variable [Field V] [Algebra K V]

theorem interpolant_neg {x : List K} {y : List V} {t : K} {v : V} (h : IsInterpolant x y t v) :
    IsInterpolant (x.map Neg.neg) y (-t) v := by
  refine ⟨fun ho => h.outside fun hi => ho ?_, ?_, ?_⟩
  · obtain ⟨a, ha, b, hb, h1, h2⟩ := hi
    exact ⟨-b, List.mem_map_of_mem hb, -a, List.mem_map_of_mem ha, neg_le_neg h2, neg_le_neg h1⟩
  · intro i h1 h2 he
    rw [List.length_map] at h1
    rw [List.getElem_map, neg_inj] at he
    exact h.sample i h1 h2 he
  · intro i h1 h2 ha hb
    rw [List.length_map] at h1
    simp only [List.getElem_map] at *
    rw [min_neg_neg, neg_le_neg_iff] at ha
    rw [max_neg_neg, neg_le_neg_iff] at hb
    rw [h.between i h1 h2 hb ha]
    congr 2
    rw [show -t - -x[i] = -(t - x[i]) by ring, show -x[i + 1] - -x[i] = -(x[i + 1] - x[i]) by ring, neg_div_neg_eq]

/-- **C156.** Resampling onto the mirrored axis. -/
theorem C156_interpolate (r : Rel K V) (hb : Spec.Balanced r) (h : Reaches r.x) (nx : Axis K) (hn : Reaches nx) :
    (backwards r).interpAxis (mirror nx) = (r.interpAxis nx).map backwards := by
  by_cases hs : nx.sample = 0
  · have e1 : r.interpAxis nx = .error .zeroDivision := by
      obtain ⟨⟨lx, ly⟩, hd⟩ := (balanced_iff_getData r).1 hb
      simp [Rel.interpAxis, ((getData_ok_iff _ _ _).1 hd).1, nx.array_zero hs]
    have e2 : (backwards r).interpAxis (mirror nx) = .error .zeroDivision := by
      obtain ⟨⟨lx, ly⟩, hd⟩ := (balanced_iff_getData _).1 (backwards_balanced.2 hb)
      simp [Rel.interpAxis, ((getData_ok_iff _ _ _).1 hd).1, (mirror nx).array_zero hs]
    rw [e1, e2]
    rfl
  obtain ⟨⟨lx, ly⟩, hd⟩ := (balanced_iff_getData r).1 hb
  have hd' : (backwards r).getData = .ok ((lx.map Neg.neg).reverse, ly.reverse) := by rw [C156_data r h, hd]; rfl
  obtain ⟨q, xs, ys, a1, a2, a3, rfl, a5, a6⟩ := interpAxis_spec r lx ly hd nx hs
  obtain ⟨q', xs', ys', b1, b2, b3, rfl, b5, b6⟩ := interpAxis_spec _ _ _ hd' (mirror nx) hs
  rw [a1, b1]
  have hx : xs' = (xs.map Neg.neg).reverse := by
    have := (C156_axis nx).2 hn
    rw [a3, b3] at this
    exact Except.ok.inj this
  subst hx
  have l1 := ((getData_ok_iff _ _ _).1 a5).2.2
  have l2 := ((getData_ok_iff _ _ _).1 b5).2.2
  obtain ⟨hlx, rfl, hlen⟩ := (getData_ok_iff _ _ _).1 hd
  have hmono := Axis.array_monotone ((getData_ok_iff _ _ _).1 hd').1
  rw [List.length_reverse, List.length_map] at l2
  have hy : q'.y = q.y.reverse := by
    apply List.ext_getElem (by rw [List.length_reverse]; omega)
    intro i i1 i2
    have k1 := b6 i (by simp; omega) i1
    rw [List.getElem_reverse, List.getElem_map] at k1
    have e : (xs.map Neg.neg).length - 1 - i = q.y.length - 1 - i := by rw [List.length_map]; omega
    simp only [e] at k1
    have k2 := interpolant_neg (a6 (q.y.length - 1 - i) (by omega) (by omega))
    rw [List.getElem_reverse]
    refine IsInterpolant.unique (by simp [hlen]) hmono k1 (IsInterpolant.reverse (by simp [hlen]) ?_ ?_)
    · rcases hmono with hm | hm
      · exact hm.imp fun h => h.ne
      · exact hm.imp fun h => h.ne'
    · rw [List.reverse_reverse, List.reverse_reverse]
      exact k2
  simp only [Except.map, Except.ok.injEq]
  cases q
  cases q'
  simp_all [backwards]

theorem mirror_common (x y : Axis K) : commonX (mirror x) (mirror y) = mirror (commonX x y) := by
  simp only [commonX_eq, mirror, Axis.mk.injEq, and_true]
  exact ⟨min_neg_neg _ _, max_neg_neg _ _⟩

theorem pyRound_mono' {a b : K} (h : a ≤ b) : pyRound a ≤ pyRound b := by
  by_contra hc
  have h1 := abs_le.1 (abs_sub_pyRound_le a)
  have h2 := abs_le.1 (abs_sub_pyRound_le b)
  have h3 : (pyRound b : K) + 1 ≤ pyRound a := by exact_mod_cast (by omega : pyRound b + 1 ≤ pyRound a)
  have : a = b := by linarith
  subst this
  exact hc le_rfl

theorem interpAxis_axis {r q : Rel K V} {x : Axis K} (h : r.interpAxis x = .ok q) : q.x = x := by
  simp only [Rel.interpAxis, except_bind_eq_ok] at h
  obtain ⟨_, -, _, -, _, -, h⟩ := h
  rw [((make_ok_iff _ _ _).1 h).2]

/-- axes that run forward and have at least two points: the common axis of the two reaches its end, as the theorem on arithmetic
asks -/
theorem reaches_common {x y : Axis K} (hx : 0 < x.sample) (hy : 0 < y.sample) (fx : x.start ≤ x.stop)
    (h2 : x.steps ≠ 0) : Reaches (commonX x y) := by
  rw [commonX_eq, reaches_iff (by simp only; exact (lt_min hx hy).ne')]
  left
  intro h0
  apply h2
  simp only [Axis.steps] at *
  have k0 : 0 ≤ (x.stop - x.start) / x.sample := div_nonneg (by linarith) hx.le
  have k : |(x.stop - x.start) / x.sample| ≤ |(max x.stop y.stop - min x.start y.start) / min x.sample y.sample| := by
    have h1 : x.stop - x.start ≤ max x.stop y.stop - min x.start y.start := sub_le_sub (le_max_left _ _) (min_le_left _ _)
    rw [abs_of_nonneg k0, abs_of_nonneg (div_nonneg (by linarith) (lt_min hx hy).le)]
    exact div_le_div₀ (by linarith) h1 (lt_min hx hy) (min_le_left _ _)
  have := pyRound_mono' k
  omega

variable [DecidableEq V] [PyPow V]

theorem finite_reverse (l : List (Option V)) : finite l.reverse = (finite l).map List.reverse := by
  rcases finite_cases l with ⟨y, h⟩ | h
  · rw [h]
    rw [finite_ok_iff] at h
    rw [h, ← List.map_reverse, finite_map_some]
    rfl
  · rw [h]
    rcases finite_cases l.reverse with ⟨y, h'⟩ | h'
    · exfalso
      rw [finite_ok_iff] at h'
      have : l = y.reverse.map some := by rw [List.map_reverse, ← h', List.reverse_reverse]
      rw [this, finite_map_some] at h
      simp at h
    · rw [h']; rfl

theorem operation_reverse (y l : List V) (h : y.length = l.length) (op : MathOp) :
    mathOperation y.reverse (.arr l.reverse) op = (mathOperation y (.arr l) op).map List.reverse := by
  simp only [mathOperation, List.length_reverse, h, if_true]
  rw [← finite_reverse]
  congr 1
  apply List.ext_getElem
  · simp [h]
  · intro i h1 h2
    simp [h]

/-- **C156.** Arithmetic with numbers, and between relations on one axis object or on any two axes. -/
theorem C156_arithmetic (r q : Rel K V) (hr : Spec.Balanced r) (hq : Spec.Balanced q) (op : MathOp) :
    (∀ c, (backwards r).operation (.other (.num c)) op = (r.operation (.other (.num c)) op).map backwards) ∧
    (r.x = q.x → (backwards r).operation (.rel true (backwards q)) op = (r.operation (.rel true q) op).map backwards) ∧
    (Reaches r.x → Reaches q.x → Reaches (commonX r.x q.x) →
      (backwards r).operation (.rel false (backwards q)) op = (r.operation (.rel false q) op).map backwards) := by
  refine ⟨?_, ?_, ?_⟩
  · intro c
    simp only [Rel.operation, backwards, mathOperation]
    rw [List.map_reverse, finite_reverse]
    rcases finite (r.y.map fun a => op.fn a c) with e | y
    · rfl
    · exact make_mirror r.x y
  · intro hx
    have hl := balanced_length_eq hr hq hx
    simp only [Rel.operation, Rel.equalize, if_true, except_bind_ok, backwards, operation_reverse _ _ hl]
    rcases mathOperation r.y (.arr q.y) op with e | y
    · rfl
    · exact make_mirror r.x y
  · intro h1 h2 h3
    simp only [Rel.operation, Rel.equalize, Bool.false_eq_true, if_false]
    have e : commonX (backwards r).x (backwards q).x = mirror (commonX r.x q.x) := mirror_common _ _
    rw [e, C156_interpolate r hr h1 _ h3, C156_interpolate q hq h2 _ h3]
    cases e1 : r.interpAxis (commonX r.x q.x) with
    | error e => rfl
    | ok r' =>
      cases e2 : q.interpAxis (commonX r.x q.x) with
      | error e => rfl
      | ok q' =>
        have hl : r'.y.length = q'.y.length :=
          balanced_length_eq (interpAxis_balanced e1) (interpAxis_balanced e2)
            ((interpAxis_axis e1).trans (interpAxis_axis e2).symm)
        simp only [Except.map, except_bind_ok, except_pure, backwards, operation_reverse _ _ hl]
        rcases mathOperation r'.y (.arr q'.y) op with e | y
        · rfl
        · exact make_mirror r'.x y

end

section
variable [Field V] [Algebra K V]

theorem npDiff_reverse (y : List V) : npDiff y.reverse = ((npDiff y).map Neg.neg).reverse := by
  apply List.ext_getElem
  · simp [npDiff_length]
  · intro i h1 h2
    rw [npDiff_length, List.length_reverse] at h1
    rw [npDiff_getElem _ _ _ (by rw [List.length_reverse]; omega)]
    simp only [List.getElem_reverse, List.getElem_map, List.length_map, npDiff_length]
    rw [npDiff_getElem _ _ _ (by omega), neg_sub]
    congr 2 <;> omega

/-- **C156.** `diff` changes the sign. -/
theorem C156_diff (r : Rel K V) :
    (backwards r).diff = (r.diff).map fun d => ⟨mirror d.x, (d.y.map Neg.neg).reverse⟩ := by
  unfold Rel.diff
  have e : (npDiff (backwards r).y).map (fun v => (backwards r).x.sample⁻¹ • v) =
      (((npDiff r.y).map fun v => r.x.sample⁻¹ • v).map Neg.neg).reverse := by
    simp only [backwards, npDiff_reverse, mirror, List.map_reverse, List.map_map]
    congr 2
    funext v
    simp
  simp only [e]
  have e2 : (⟨(backwards r).x.start + (backwards r).x.sample / 2, (backwards r).x.stop - (backwards r).x.sample / 2,
      (backwards r).x.sample⟩ : Axis K) = mirror ⟨r.x.start + r.x.sample / 2, r.x.stop - r.x.sample / 2, r.x.sample⟩ := by
    simp only [backwards, mirror, Axis.mk.injEq, and_true]
    constructor <;> ring
  rw [e2, make_mirror, make_map]
  rcases Rel.make (⟨r.x.start + r.x.sample / 2, r.x.stop - r.x.sample / 2, r.x.sample⟩ : Axis K)
    ((npDiff r.y).map fun v => r.x.sample⁻¹ • v) with er | q <;> rfl

/-- **C156.** `integrate` is accepted in both directions or in none; each value backwards and the value of the rest forwards make up
the whole integral. -/
theorem C156_integrate (r : Rel K V) :
    (∀ e, r.integrate = .error e ↔ (backwards r).integrate = .error e) ∧
    ∀ p q, r.integrate = .ok p → (backwards r).integrate = .ok q →
      q.y.length = p.y.length ∧ (p.y ≠ [] → q.y.getLast? = p.y.getLast?) ∧
      ∀ i j (hi : i < q.y.length) (hj : j < p.y.length) (_ : i + j + 2 = p.y.length),
        p.y.getLast? = some (q.y[i] + p.y[j]) := by
  have e2 : (⟨(backwards r).x.start + (backwards r).x.sample, (backwards r).x.stop, (backwards r).x.sample⟩ : Axis K).size =
      (⟨r.x.start + r.x.sample, r.x.stop, r.x.sample⟩ : Axis K).size := by
    simp only [backwards, mirror]
    by_cases hs : r.x.sample = 0
    · rw [Axis.size_zero ⟨-r.x.stop + r.x.sample, -r.x.start, r.x.sample⟩ hs,
        Axis.size_zero ⟨r.x.start + r.x.sample, r.x.stop, r.x.sample⟩ hs]
    · rw [Axis.size_eq ⟨-r.x.stop + r.x.sample, -r.x.start, r.x.sample⟩ hs,
        Axis.size_eq ⟨r.x.start + r.x.sample, r.x.stop, r.x.sample⟩ hs]
      simp only [Axis.steps]
      rw [show -r.x.start - (-r.x.stop + r.x.sample) = r.x.stop - (r.x.start + r.x.sample) by ring]
  have hl : ((cumTrapz (backwards r).y).map fun v => (backwards r).x.sample • v).length =
      ((cumTrapz r.y).map fun v => r.x.sample • v).length := by
    simp [cumTrapz_length, backwards]
  constructor
  · intro e
    simp only [Rel.integrate, Rel.make, e2, hl]
    rcases (⟨r.x.start + r.x.sample, r.x.stop, r.x.sample⟩ : Axis K).size with er | n
    · rfl
    · simp only [except_bind_ok]
      split_ifs <;> simp
  · intro p q hp hq
    obtain ⟨-, rfl⟩ := (make_ok_iff _ _ _).1 hp
    obtain ⟨-, rfl⟩ := (make_ok_iff _ _ _).1 hq
    have hlen : (cumTrapz (backwards r).y).length = (cumTrapz r.y).length := by simpa using hl
    have hn : (cumTrapz r.y).length = r.y.length - 1 := cumTrapz_length _
    -- the sum of the averages of neighbours, backwards
    have key : ∀ i, i + 1 < r.y.length → ∑ j ∈ Finset.range (i + 1), (at0 r.y.reverse j + at0 r.y.reverse (j + 1)) / 2 +
        ∑ j ∈ Finset.range (r.y.length - 2 - i), (at0 r.y j + at0 r.y (j + 1)) / 2 =
        ∑ j ∈ Finset.range (r.y.length - 1), (at0 r.y j + at0 r.y (j + 1)) / 2 := by
      intro i hi
      have h1 : r.y.length - 1 = (r.y.length - 2 - i) + (i + 1) := by omega
      rw [h1, Finset.sum_range_add (fun j => (at0 r.y j + at0 r.y (j + 1)) / 2) (r.y.length - 2 - i) (i + 1), add_comm, add_right_inj,
        ← Finset.sum_range_reflect]
      apply Finset.sum_congr rfl
      intro j hj
      rw [Finset.mem_range] at hj
      simp only [at0]
      rw [getD_reverse _ _ (by omega), getD_reverse _ _ (by omega), add_comm]
      congr 3 <;> omega
    refine ⟨by simpa using hlen, ?_, ?_⟩
    · intro hne
      have hpos : 0 < (cumTrapz r.y).length := by
        rw [List.length_pos_iff]
        intro h0
        exact hne (by simp [h0])
      simp only [List.getLast?_map]
      rw [List.getLast?_eq_getElem?, List.getLast?_eq_getElem?, List.getElem?_eq_getElem (by omega),
        List.getElem?_eq_getElem (by omega), cumTrapz_getElem, cumTrapz_getElem]
      simp only [Option.map_some, Option.some.injEq, backwards, mirror]
      congr 1
      have := key (r.y.length - 2) (by omega)
      simp only [Nat.sub_self, Finset.range_zero, Finset.sum_empty, add_zero] at this
      have e1 : (cumTrapz r.y.reverse).length - 1 + 1 = r.y.length - 2 + 1 := by rw [cumTrapz_length, List.length_reverse]; omega
      have e3 : (cumTrapz r.y).length - 1 + 1 = r.y.length - 1 := by omega
      rw [e1, e3, this]
    · intro i j hi hj hij
      simp only [List.length_map] at hi hj hij
      have hyl : 2 ≤ r.y.length := by omega
      simp only [List.getLast?_map, List.getElem_map]
      rw [List.getLast?_eq_getElem?, List.getElem?_eq_getElem (by omega), cumTrapz_getElem, cumTrapz_getElem, cumTrapz_getElem]
      simp only [Option.map_some, Option.some.injEq, backwards, mirror]
      rw [← smul_add]
      congr 1
      have := key i (by omega)
      have e1 : r.y.length - 2 - i = j + 1 := by omega
      have e3 : (cumTrapz r.y).length - 1 + 1 = r.y.length - 1 := by omega
      rw [e1] at this
      rw [e3, this]

theorem trapz_reverse (y : List V) (x : List K) (h : x.length = y.length) :
    trapz y.reverse (x.map Neg.neg).reverse = trapz y x := by
  rw [trapz_eq _ _ (by simpa using h), trapz_eq _ _ h, List.length_reverse, ← Finset.sum_range_reflect]
  apply Finset.sum_congr rfl
  intro j hj
  rw [Finset.mem_range] at hj
  have g : ∀ t, t < x.length → (x.map Neg.neg).reverse.getD t 0 = -x.getD (x.length - 1 - t) 0 := by
    intro t ht
    rw [getD_reverse _ _ (by simpa using ht)]
    simp [List.getD_eq_getElem?_getD, List.getElem?_map]
    rw [List.getElem?_eq_getElem (by omega)]
    rfl
  rw [g _ (by omega), g _ (by omega), getD_reverse _ _ (by omega), getD_reverse _ _ (by omega), add_comm (y.getD _ 0) (y.getD _ 0)]
  have e1 : x.length - 1 - (y.length - 1 - 1 - j + 1) = j := by omega
  have e2 : x.length - 1 - (y.length - 1 - 1 - j) = j + 1 := by omega
  have e3 : y.length - 1 - (y.length - 1 - 1 - j + 1) = j := by omega
  have e4 : y.length - 1 - (y.length - 1 - 1 - j) = j + 1 := by omega
  rw [e1, e2, e3, e4]
  congr 1
  ring

/-- **C156.** The integral over the whole axis and `get_norm` stay the same. -/
theorem C156_norm [DecidableEq V] [PyPow V] (r : Rel K V) (hb : Spec.Balanced r) (h : Reaches r.x) :
    (backwards r).oneIntegrate = r.oneIntegrate ∧ (backwards r).getNorm = r.getNorm := by
  have h1 : ∀ r : Rel K V, Reaches r.x → (backwards r).oneIntegrate = r.oneIntegrate := by
    intro r h
    unfold Rel.oneIntegrate
    rw [C156_data r h]
    cases hd : r.getData with
    | error e => rfl
    | ok d =>
      obtain ⟨x, y⟩ := d
      simp only [Except.map, except_bind_ok, trapz_reverse y x ((getData_ok_iff _ _ _).1 hd).2.2]
  refine ⟨h1 r h, ?_⟩
  unfold Rel.getNorm Rel.pow
  rw [(C156_arithmetic r r hb hb .pow).1]
  cases ho : r.operation (.other (.num 2)) .pow with
  | error e => rfl
  | ok q =>
    have hx : q.x = r.x := by
      simp only [Rel.operation, except_bind_eq_ok] at ho
      obtain ⟨y, -, ho⟩ := ho
      rw [((make_ok_iff _ _ _).1 ho).2]
    simp only [Except.map, except_bind_ok, h1 q (hx ▸ h)]
    rfl

theorem npConvolve_reverse (a v : List V) (h : a.length = v.length) :
    npConvolve a.reverse v.reverse = (npConvolve a v).reverse := by
  let _ : StarRing V := starRingOfComm
  have := npCorrelate_swap a v.reverse (by simpa using h)
  have hs : ∀ l : List V, l.map star = l := fun l => by
    conv_rhs => rw [← List.map_id l]
    rfl
  simp only [npCorrelate, hs, List.reverse_reverse] at this
  rw [npConvolve_comm, this]

theorem align_equal (r q : Rel K V) (hr : Spec.Balanced r) (hq : Spec.Balanced q)
    (hl : r.x.stop - r.x.start = q.x.stop - q.x.start) (hs : r.x.sample = q.x.sample) :
    Rel.alignForConv r q = .ok (r.zeroed, q.zeroed, ⟨-(r.x.stop - r.x.start), r.x.stop - r.x.start, r.x.sample⟩) := by
  have hx : r.zeroed.x = q.zeroed.x := by simp [Rel.zeroed, hl, hs]
  have e : commonX r.zeroed.x q.zeroed.x = r.zeroed.x := by rw [← hx, commonX_eq]; simp
  simp only [Rel.alignForConv, shift_neg_start r hr, shift_neg_start q hq, except_bind_ok, Rel.equalize, Bool.false_eq_true,
    if_false, e, interpAxis_self _ (zeroed_balanced r hr)]
  rw [hx, interpAxis_self _ (zeroed_balanced q hq)]
  rfl

/-- **C156.** Convolution and correlation of two relations of the same length and sample; and correlation is convolution with the
conjugated second operand read backwards. -/
theorem C156_convolve [StarRing V] (r q : Rel K V) (hr : Spec.Balanced r) (hq : Spec.Balanced q)
    (hl : r.x.stop - r.x.start = q.x.stop - q.x.start) (hs : r.x.sample = q.x.sample) :
    (backwards r).convolve (backwards q) = (r.convolve q).map backwards ∧
    (backwards r).correlate (backwards q) = (r.correlate q).map backwards ∧
    r.correlate q = r.convolve (backwards ⟨q.x, q.y.map star⟩) := by
  have hlen : r.y.length = q.y.length := by
    have h1 := ((balanced_iff r).1 hr).2
    have h2 := ((balanced_iff q).1 hq).2
    rw [h1, h2]
    simp [Axis.steps, hl, hs]
  have hb : Spec.Balanced (⟨q.x, q.y.map star⟩ : Rel K V) := by
    unfold Spec.Balanced at *
    simpa using hq
  have e0 := align_equal r q hr hq hl hs
  have e1 := align_equal (backwards r) (backwards q) (backwards_balanced.2 hr) (backwards_balanced.2 hq)
    (by simp only [backwards, mirror]; linarith) hs
  have e2 := align_equal r (backwards ⟨q.x, q.y.map star⟩) hr (backwards_balanced.2 hb)
    (by simp only [backwards, mirror]; linarith) hs
  have eax : (⟨-((backwards r).x.stop - (backwards r).x.start), (backwards r).x.stop - (backwards r).x.start,
      (backwards r).x.sample⟩ : Axis K) = mirror ⟨-(r.x.stop - r.x.start), r.x.stop - r.x.start, r.x.sample⟩ := by
    simp only [backwards, mirror, Axis.mk.injEq, and_true]
    constructor <;> ring
  refine ⟨?_, ?_, ?_⟩
  · simp only [Rel.convolve, e0, e1, except_bind_ok, eax]
    rw [← make_mirror, ← npConvolve_reverse _ _ (by simpa [Rel.zeroed] using hlen)]
    rfl
  · simp only [Rel.correlate, e0, e1, except_bind_ok, eax]
    rw [← make_mirror, npCorrelate, npCorrelate, ← npConvolve_reverse _ _ (by simpa [Rel.zeroed] using hlen)]
    simp [Rel.zeroed, backwards]
  · simp only [Rel.correlate, Rel.convolve, e0, e2, except_bind_ok]
    rfl

end

theorem foldl_max_spec (l : List K) : ∀ a, l.foldl max a ∈ a :: l ∧ ∀ t ∈ a :: l, t ≤ l.foldl max a := by
  induction l with
  | nil => intro a; simp
  | cons b l ih =>
    intro a
    obtain ⟨h1, h2⟩ := ih (max a b)
    refine ⟨?_, fun t ht => ?_⟩
    · rcases List.mem_cons.1 h1 with e | e
      · rw [List.foldl_cons, e]
        rcases max_choice a b with e' | e' <;> rw [e'] <;> simp
      · exact List.mem_cons_of_mem _ (List.mem_cons_of_mem _ e)
    · have h3 := h2 (max a b) List.mem_cons_self
      rcases List.mem_cons.1 ht with rfl | ht
      · exact (le_max_left _ _).trans h3
      · rcases List.mem_cons.1 ht with rfl | ht
        · exact (le_max_right _ _).trans h3
        · exact h2 t (List.mem_cons_of_mem _ ht)

theorem npMax_reverse (l : List K) : npMax l.reverse = npMax l := by
  cases l with
  | nil => rfl
  | cons a l =>
    cases h : (a :: l).reverse with
    | nil => simp at h
    | cons b m =>
      simp only [npMax, Except.ok.injEq]
      obtain ⟨h1, h2⟩ := foldl_max_spec l a
      obtain ⟨h3, h4⟩ := foldl_max_spec m b
      rw [← h] at h3 h4
      exact le_antisymm (h2 _ (List.mem_reverse.1 h3)) (h4 _ (List.mem_reverse.2 h1))

theorem npMin_neg (l : List K) : npMin l = (npMax (l.map Neg.neg)).map Neg.neg := by
  cases l with
  | nil => rfl
  | cons a l =>
    simp only [npMin, npMax, List.map_cons, Except.map, Except.ok.injEq]
    induction l generalizing a with
    | nil => simp
    | cons b l ih =>
      simp only [List.foldl_cons, List.map_cons]
      rw [ih, max_neg_neg]

/-- **C156.** With real samples the largest and the smallest value stay. -/
theorem C156_extremes (r : Rel K K) : (backwards r).max = r.max ∧ (backwards r).min = r.min := by
  refine ⟨npMax_reverse r.y, ?_⟩
  simp only [Rel.min, npMin_neg, backwards, List.map_reverse, npMax_reverse]

end

/-- **C156.** The spectrum of the signal read backwards, on an axis of whole steps: the same frequencies, conjugate values; so the
same amplitudes and the negated phases. -/
theorem C156_spectrum (r : Rel ℝ ℝ) (hb : Spec.Balanced r) (s : ℝ) (hs : 0 < s) (a b : ℤ) (hab : a < b) (hsample : r.x.sample = s)
    (hstart : r.x.start = a * s) (hstop : r.x.stop = b * s) :
    ∃ sp sq lf lv, r.getSpectrum = .ok sp ∧ (backwards r).getSpectrum = .ok sq ∧ sp.getData = .ok (lf, lv) ∧
      sq.getData = .ok (lf, lv.map (starRingEnd ℂ)) := by
  obtain ⟨N, hN⟩ : ∃ N : ℕ, (N : ℤ) = max b 0 - min a 0 + 1 := ⟨(max b 0 - min a 0 + 1).toNat, by omega⟩
  obtain ⟨⟨lt, ly⟩, hd⟩ := (balanced_iff_getData r).1 hb
  have hreach : Reaches r.x := by
    rw [reaches_iff (by rw [hsample]; exact hs.ne')]
    left
    intro h0
    rw [Axis.steps_eq_iff, ← pyRound_eq_iff, hsample, hstart, hstop, ← sub_mul, mul_div_cancel_right₀ _ hs.ne'] at h0
    have : |((b : ℝ) - a)| = ((b - a : ℤ) : ℝ) := by
      rw [abs_of_pos (by have : (a : ℝ) < b := by exact_mod_cast hab
                         linarith)]
      push_cast; ring
    rw [this, pyRound_intCast] at h0
    push_cast at h0
    omega
  have hd' : (backwards r).getData = .ok ((lt.map Neg.neg).reverse, ly.reverse) := by rw [C156_data r hreach, hd]; rfl
  obtain ⟨sp, lf, lv, h1, h2, h3, h4, h5⟩ := C69_fourier_sum r lt ly hd s hs a b hab hsample hstart hstop N hN
  obtain ⟨sq, lf', lv', k1, k2, k3, k4, k5⟩ := C69_fourier_sum (backwards r) _ _ hd' s hs (-b) (-a) (by omega) hsample
    (by simp [backwards, mirror, hstop]) (by simp [backwards, mirror, hstart]) N (by omega)
  have hf : lf' = lf := by
    apply List.ext_getElem (by omega)
    intro i i1 i2
    rw [(h5 i i2 (by omega)).1, (k5 i i1 (by omega)).1]
  subst hf
  refine ⟨sp, sq, lf', lv, h1, k1, h2, ?_⟩
  rw [k2]
  congr 2
  apply List.ext_getElem (by simp; omega)
  intro i i1 i2
  obtain ⟨hlx, rfl, hlen⟩ := (getData_ok_iff _ _ _).1 hd
  rw [(k5 i (by omega) i1).2, List.getElem_map, (h5 i (by omega) (by omega)).2, map_sum, List.length_reverse,
    ← Finset.sum_range_reflect]
  apply Finset.sum_congr rfl
  intro j hj
  rw [Finset.mem_range] at hj
  have e1 : r.y.reverse.getD (r.y.length - 1 - j) 0 = r.y.getD j 0 := by
    rw [getD_reverse _ _ (by omega)]
    congr 1
    omega
  have e2 : (lt.map Neg.neg).reverse.getD (r.y.length - 1 - j) 0 = -lt.getD j 0 := by
    rw [getD_reverse _ _ (by simp; omega)]
    have : (lt.map Neg.neg).length - 1 - (r.y.length - 1 - j) = j := by simp; omega
    rw [this, getD_lt _ _ _ (by simp; omega), getD_lt _ _ _ (by omega), List.getElem_map]
  rw [e1, e2, map_mul, Complex.conj_ofReal, ← Complex.exp_conj]
  congr 2
  simp only [map_neg, map_mul, Complex.conj_ofReal, Complex.conj_I, map_ofNat]
  push_cast
  ring

/-- Five samples on the axis from -1/2 to 1/2: balanced, and the axis reaches its end. -/
def record156 : Rel ℚ ℚ := ⟨⟨-1 / 2, 1 / 2, 1 / 4⟩, [1, 2, 4, 8, 3]⟩

/-- The record read backwards, and both integrals. -/
example : Spec.Balanced record156 ∧ Reaches record156.x ∧
    (backwards record156).getData = .ok ([-1 / 2, -1 / 4, 0, 1 / 4, 1 / 2], [3, 8, 4, 2, 1]) ∧
    record156.integrate.map Rel.y = .ok [3 / 8, 9 / 8, 21 / 8, 4] ∧
    (backwards record156).integrate.map Rel.y = .ok [11 / 8, 23 / 8, 29 / 8, 4] := by
  refine ⟨by unfold Spec.Balanced; decide +kernel, ?_, by decide +kernel, by decide +kernel, by decide +kernel⟩
  rw [reaches_iff (by decide +kernel)]
  decide +kernel

/-- whole steps, as the theorem on spectra asks: samples at -1, 0, 1, 2 -/
example : Spec.Balanced (⟨⟨-1, 2, 1⟩, [1, 2, 4, 8]⟩ : Rel ℝ ℝ) ∧ (-1 : ℝ) = ((-1 : ℤ) : ℝ) * 1 ∧ (2 : ℝ) = ((2 : ℤ) : ℝ) * 1 := by
  refine ⟨?_, by norm_num, by norm_num⟩
  rw [balanced_iff]
  refine ⟨one_ne_zero, ?_⟩
  have : (⟨-1, 2, 1⟩ : Axis ℝ).steps = 3 := by
    rw [Axis.steps_eq_iff, ← pyRound_eq_iff]
    have := pyRound_natCast (K := ℝ) 3
    norm_num at *
    exact this
  rw [this]
  rfl

/-- **C156.** Of different lengths the convolution does not reverse: `convolve` lengthens the shorter operand at its end, which is the
other side when it is read backwards. Samples 1, 2, 4 and 1, 1 give 1, 3, 6, 4, 0, and read backwards 4, 6, 3, 1, 0. An axis of one
point that does not reach its end does not reverse either: its point is `start`, so the mirrored one has the point `-end`. -/
theorem C156_witness :
    let r : Rel ℚ ℚ := ⟨⟨0, 2, 1⟩, [1, 2, 4]⟩
    let q : Rel ℚ ℚ := ⟨⟨0, 1, 1⟩, [1, 1]⟩
    (r.convolve q).map Rel.y = .ok [1, 3, 6, 4, 0] ∧ ((backwards r).convolve (backwards q)).map Rel.y = .ok [4, 6, 3, 1, 0] ∧
    (⟨0, 1 / 4, 1⟩ : Axis ℚ).array = .ok [0] ∧ (mirror ⟨0, 1 / 4, 1⟩ : Axis ℚ).array = .ok [-1 / 4] := by
  decide +kernel

end SweepDesign
