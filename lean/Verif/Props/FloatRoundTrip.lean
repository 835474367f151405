import Verif.Props.FloatSizes
import Verif.Props.FloatInterp
import Verif.Props.FloatSweep

/-!
# C153: relations whose axes differ by a rounding

Two relations of equal length whose ends differ by a little, for example a relation and the same relation shifted there and
back. Bringing them to the common axis changes the inner samples by a little, but at an end that the two do not share one of the two
samples is replaced by zero.
-/

set_option linter.unusedSectionVars false

namespace SweepDesign

open Spec

section
variable {K : Type} [Field K] [LinearOrder K] [IsStrictOrderedRing K] [FloorRing K]
variable {fl : K → K} {u : K} {n : ℕ} {M : K}

/-! ## Machinery -/

/-- exact positions of two axes whose ends are close -/
theorem positions_close {a b a' b' d : K} (n i : ℕ) (hi : i ≤ n) (hn : 1 ≤ n) (h1 : |a - a'| ≤ d) (h2 : |b - b'| ≤ d) :
    |(a + i * ((b - a) / n)) - (a' + i * ((b' - a') / n))| ≤ d := by
  have hn0 : (0 : K) < n := by exact_mod_cast hn
  have hl : (i : K) / n ≤ 1 := by rw [div_le_one hn0]; exact_mod_cast hi
  have hl0 : (0 : K) ≤ (i : K) / n := by positivity
  have e : (a + i * ((b - a) / n)) - (a' + i * ((b' - a') / n)) = (1 - (i : K) / n) * (a - a') + (i : K) / n * (b - b') := by
    field_simp; ring
  rw [e]
  calc |(1 - (i : K) / n) * (a - a') + (i : K) / n * (b - b')|
      ≤ |(1 - (i : K) / n) * (a - a')| + |(i : K) / n * (b - b')| := abs_add_le _ _
    _ = (1 - (i : K) / n) * |a - a'| + (i : K) / n * |b - b'| := by
        rw [abs_mul, abs_mul, abs_of_nonneg hl0, abs_of_nonneg (by linarith : 0 ≤ 1 - (i : K) / n)]
    _ ≤ (1 - (i : K) / n) * d + (i : K) / n * d :=
        add_le_add (mul_le_mul_of_nonneg_left h1 (by linarith)) (mul_le_mul_of_nonneg_left h2 hl0)
    _ = d := by ring

theorem below_point {t a b D s : K} (h : |t - b| ≤ D) (hD : D ≤ 3 / 16 * s) (hg : 3 / 4 * s ≤ b - a) (hs : 0 < s) : a < t := by
  have := abs_le.1 h
  linarith [this.1]

theorem above_point {t a b D s : K} (h : |t - a| ≤ D) (hD : D ≤ 3 / 16 * s) (hg : 3 / 4 * s ≤ b - a) (hs : 0 < s) : t < b := by
  have := abs_le.1 h
  linarith [this.2]

theorem near_first (hfl : RelErr fl u) (hu : u ≤ 1 / 100) {x0 x1 y0 y1 t A B : K} (h0 : x0 < t) (h1 : t < x1)
    (hA : |(t - x0) / (x1 - x0) * (y1 - y0)| ≤ A) (hB : 14 * u * max |y0| |y1| ≤ B) :
    |fl (fl (fl (fl (y1 - y0) / fl (x1 - x0)) * fl (t - x0)) + y0) - y0| ≤ A + B := by
  have t1 := abs_le.1 ((flInterp_error hfl hu x0 x1 y0 y1 t h0 h1).trans hB)
  have t2 := abs_le.1 hA
  rw [abs_le]
  constructor <;> linarith [t1.1, t1.2, t2.1, t2.2]

theorem near_second (hfl : RelErr fl u) (hu : u ≤ 1 / 100) {x0 x1 y0 y1 t A B : K} (h0 : x0 < t) (h1 : t < x1)
    (hA : |(t - x1) / (x1 - x0) * (y1 - y0)| ≤ A) (hB : 14 * u * max |y0| |y1| ≤ B) :
    |fl (fl (fl (fl (y1 - y0) / fl (x1 - x0)) * fl (t - x0)) + y0) - y1| ≤ A + B := by
  have e : y0 + (t - x0) / (x1 - x0) * (y1 - y0) - y1 = (t - x1) / (x1 - x0) * (y1 - y0) := by
    have : x1 - x0 ≠ 0 := by linarith
    field_simp; ring
  have t1 := abs_le.1 ((flInterp_error hfl hu x0 x1 y0 y1 t h0 h1).trans hB)
  have t2 := abs_le.1 (e ▸ hA)
  rw [abs_le]
  constructor <;> linarith [t1.1, t1.2, t2.1, t2.2]

theorem difference_small (hfl : RelErr fl u) (hu : u ≤ 1 / 100) {v p q A : K} (h1 : |p - v| ≤ A) (h2 : |q - v| ≤ A) :
    |fl (p - q)| ≤ 3 * A := by
  have e := hfl (p - q)
  have hA : |p - q| ≤ 2 * A := by
    have := abs_le.1 h1
    have := abs_le.1 h2
    rw [abs_le]
    constructor <;> linarith [(abs_le.1 h1).1, (abs_le.1 h1).2, (abs_le.1 h2).1, (abs_le.1 h2).2]
  have b := abs_le.1 hA
  have hb := abs_le.1 (e.trans (mul_le_mul_of_nonneg_right hu (abs_nonneg _)))
  rw [abs_le]
  constructor <;> linarith [hb.1, hb.2, b.1, b.2]

theorem finite_of_none {l : List (Option K)} (h : none ∈ l) : finite l = .error .nonFinite := by
  unfold finite
  have : l.mapM id = none := by
    induction l with
    | nil => exact absurd h (by simp)
    | cons a l ih =>
      cases a with
      | none => rfl
      | some v =>
        have := ih (by simpa using h)
        simp [this]
  rw [this]

/-- one relation on an axis that reaches at most `d` further on both sides -/
theorem interp_close {r : Rel K K} {l : List K} (h : WellResolved fl u r.x l n M r.y) {c : Axis K} {xs : List K}
    (hxs : c.flArray fl = .ok xs) (hlen : xs.length = n + 1) (hc1 : |c.start| ≤ M) (hc2 : |c.stop| ≤ M) {d : K}
    (hd1 : |c.start - r.x.start| ≤ d) (hd2 : |c.stop - r.x.stop| ≤ d) (hd : 16 * d ≤ r.x.sample)
    (hf : fl r.x.start = r.x.start) (hfc : fl c.start = c.start) (ho1 : c.start ≤ r.x.start) (ho2 : r.x.stop ≤ c.stop) :
    ∃ q, r.flInterpAxis fl c = .ok q ∧ q.x = c ∧ q.y.length = n + 1 ∧
      (∀ (p : 0 < q.y.length) (p' : 0 < r.y.length), q.y[0] = if c.start = r.x.start then r.y[0] else 0) ∧
      (∀ (p : n < q.y.length) (p' : n < r.y.length), q.y[n] = if c.stop = r.x.stop then r.y[n] else 0) ∧
      ∀ J Y : K, (∀ i (p : i + 1 < r.y.length), |r.y[i + 1] - r.y[i]| ≤ J) → (∀ v ∈ r.y, |v| ≤ Y) →
        ∀ k (_ : 0 < k) (_ : k < n) (p : k < q.y.length) (p' : k < r.y.length),
          |q.y[k] - r.y[k]| ≤ 2 * (d + 16 * u * M) / r.x.sample * J + 14 * u * Y := by
  have hs := h.positive
  have hu := relErr_nonneg h.rel
  have hM : 0 ≤ M := (abs_nonneg _).trans h.startBound
  have hd0 : 0 ≤ d := (abs_nonneg _).trans hd1
  have hres := h.resolved
  have hstep := h.step'
  have hll := h.points
  have hly := h.values
  obtain ⟨pl, ph, pp⟩ := C92_points fl u h.rel h.unit r.x l h.array n h.many h.points M h.startBound h.stopBound
  obtain ⟨cl, ch, cp⟩ := C92_points fl u h.rel h.unit c xs hxs n h.many hlen M hc1 hc2
  have hinc : l.Pairwise (· < ·) :=
    C92_increasing fl u h.rel h.unit r.x l h.array n h.many h.points M h.startBound h.stopBound (by nlinarith)
  have l0 : l[0]'(by omega) = r.x.start := by
    have := ph hf
    rw [List.head?_eq_getElem?, List.getElem?_eq_getElem (by omega)] at this
    exact Option.some.inj this
  have x0 : xs[0]'(by omega) = c.start := by
    have := ch hfc
    rw [List.head?_eq_getElem?, List.getElem?_eq_getElem (by omega)] at this
    exact Option.some.inj this
  have ln : l[n]'(by omega) = r.x.stop := by
    rw [List.getLast?_eq_getElem?, List.getElem?_eq_getElem (by omega)] at pl
    have := Option.some.inj pl
    simpa [hll] using this
  have xn : xs[n]'(by omega) = c.stop := by
    rw [List.getLast?_eq_getElem?, List.getElem?_eq_getElem (by omega)] at cl
    have := Option.some.inj cl
    simpa [hlen] using this
  have hclose : ∀ k (a : k < xs.length) (b : k < l.length), |xs[k] - l[k]| ≤ d + 16 * u * M := by
    intro k a b
    have e1 := abs_le.1 (cp k a)
    have e2 := abs_le.1 (pp k b)
    have e3 := abs_le.1 (positions_close (a := c.start) (b := c.stop) (a' := r.x.start) (b' := r.x.stop) n k (by omega) h.many hd1 hd2)
    rw [abs_le]
    constructor <;> linarith [e1.1, e1.2, e2.1, e2.2, e3.1, e3.2]
  have hgap : ∀ i (a : i + 1 < l.length), 3 / 4 * r.x.sample ≤ l[i + 1] - l[i] := by
    intro i a
    have e1 := abs_le.1 (pp (i + 1) a)
    have e2 := abs_le.1 (pp i (by omega))
    push_cast at e1
    have e3 : ((i : K) + 1) * ((r.x.stop - r.x.start) / n) = i * ((r.x.stop - r.x.start) / n) + (r.x.stop - r.x.start) / n := by
      ring
    linarith [e1.1, e1.2, e2.1, e2.2, hstep.1]
  have hD : d + 16 * u * M ≤ 3 / 16 * r.x.sample := by linarith
  have hq : r.flInterpAxis fl c = .ok ⟨c, xs.map (flInterpAt fl l r.y)⟩ := by
    unfold Rel.flInterpAxis
    simp only [h.array, hxs, except_bind_ok]
    rw [flInterp1d_inc fl l r.y xs hinc (by omega) (by omega), except_bind_ok, flRel_ok hxs (by simp)]
  refine ⟨_, hq, rfl, by simp [hlen], ?_, ?_, ?_⟩
  · intro p p'
    rw [List.getElem_map, x0]
    split
    · rename_i e
      have := flInterpAt_sample fl l r.y hinc (by omega) 0 (by omega)
      rwa [l0, ← e] at this
    · rename_i e
      refine flInterpAt_outside fl l r.y _ ?_
      rintro ⟨a, ha, -, -, ha', -⟩
      obtain ⟨m, hm, rfl⟩ := List.mem_iff_getElem.1 ha
      have : l[0] ≤ l[m] := pairwise_lt_getElem_le hinc (by omega) hm (by omega)
      rw [l0] at this
      exact e (le_antisymm ho1 (this.trans ha'))
  · intro p p'
    rw [List.getElem_map, xn]
    split
    · rename_i e
      have := flInterpAt_sample fl l r.y hinc (by omega) n (by omega)
      rwa [ln, ← e] at this
    · rename_i e
      refine flInterpAt_outside fl l r.y _ ?_
      rintro ⟨-, -, a, ha, -, ha'⟩
      obtain ⟨m, hm, rfl⟩ := List.mem_iff_getElem.1 ha
      have : l[m] ≤ l[n] := pairwise_lt_getElem_le hinc hm (by omega) (by omega)
      rw [ln] at this
      exact e (le_antisymm (ha'.trans this) ho2)
  · intro J Y hJ hY k k0 kn p p'
    rw [List.getElem_map]
    obtain ⟨k, rfl⟩ : ∃ j, k = j + 1 := ⟨k - 1, by omega⟩
    have hcl := hclose (k + 1) (by omega) (by omega)
    have hY0 : 0 ≤ Y := (abs_nonneg _).trans (hY _ (List.getElem_mem p'))
    have hJ0 : 0 ≤ J := (abs_nonneg _).trans (hJ k p')
    set D := d + 16 * u * M with hDdef
    have hD0 : 0 ≤ D := by positivity
    have huY : 0 ≤ 14 * u * Y := by positivity
    have hfrac : ∀ w g : K, |w| ≤ D → 3 / 4 * r.x.sample ≤ g → ∀ v : K, |v| ≤ J → |w / g * v| ≤ 2 * D / r.x.sample * J := by
      intro w g hw hg v hv
      have hg0 : 0 < g := by linarith
      rw [abs_mul, abs_div, abs_of_pos hg0]
      refine mul_le_mul ?_ hv (abs_nonneg _) (by positivity)
      rw [div_le_div_iff₀ hg0 hs]
      calc |w| * r.x.sample ≤ D * r.x.sample := mul_le_mul_of_nonneg_right hw hs.le
        _ ≤ 2 * D * g := by nlinarith
    have hmax : ∀ i (a : i + 1 < r.y.length), 14 * u * max |r.y[i]| |r.y[i + 1]| ≤ 14 * u * Y := fun i a =>
      mul_le_mul_of_nonneg_left (max_le (hY _ (List.getElem_mem _)) (hY _ (List.getElem_mem _))) (by positivity)
    rcases lt_trichotomy xs[k + 1] l[k + 1] with hlt | heq | hgt
    · have low : l[k] < xs[k + 1] := below_point hcl hD (hgap k (by omega)) hs
      rw [flInterpAt_mid fl l r.y _ hinc (by omega) k (by omega) low hlt]
      refine near_second h.rel h.unit low hlt ?_ (hmax k p')
      exact hfrac (xs[k + 1] - l[k + 1]) (l[k + 1] - l[k]) hcl (hgap k (by omega)) (r.y[k + 1] - r.y[k]) (hJ k p')
    · rw [heq, flInterpAt_sample fl l r.y hinc (by omega) (k + 1) (by omega), sub_self, abs_zero]
      exact add_nonneg (mul_nonneg (div_nonneg (mul_nonneg zero_le_two hD0) hs.le) hJ0) huY
    · have up : xs[k + 1] < l[k + 1 + 1] := above_point hcl hD (hgap (k + 1) (by omega)) hs
      rw [flInterpAt_mid fl l r.y _ hinc (by omega) (k + 1) (by omega) hgt up]
      refine near_first h.rel h.unit hgt up ?_ (hmax (k + 1) (by omega))
      exact hfrac (xs[k + 1] - l[k + 1]) (l[k + 1 + 1] - l[k + 1]) hcl (hgap (k + 1) (by omega)) (r.y[k + 1 + 1] - r.y[k + 1])
        (hJ (k + 1) (by omega))

theorem flMake_array {V : Type} {x : Axis K} {y : List V} {p : Axis K × List V} (h : flMake fl x y = .ok p) :
    ∃ l, x.flArray fl = .ok l ∧ l.length = y.length := by
  unfold flMake at h
  cases hl : x.flArray fl with
  | error e => rw [hl] at h; exact absurd h (by simp [Bind.bind, Except.bind])
  | ok l =>
    rw [hl, except_bind_ok] at h
    split at h
    · exact absurd h (by simp)
    · rename_i e
      exact ⟨l, rfl, not_not.1 e⟩

theorem flShift_start {m b : Rel K K} {a : K} (hb : m.flShift fl a = .ok b) : b.x.start = fl (m.x.start + a) := by
  unfold Rel.flShift flRel at hb
  cases e : flMake fl (m.x.flShift fl a) m.y with
  | error e' => rw [e] at hb; exact absurd hb (by simp [Except.map])
  | ok p =>
    rw [e] at hb
    have e2 : p.1 = m.x.flShift fl a := by
      unfold flMake at e
      cases hl : (m.x.flShift fl a).flArray fl with
      | error e' => rw [hl] at e; exact absurd e (by simp [Bind.bind, Except.bind])
      | ok l0 =>
        rw [hl, except_bind_ok] at e
        split at e
        · exact absurd e (by simp)
        · rw [except_pure, Except.ok.injEq] at e
          rw [← e]
    simp only [Except.map, Except.ok.injEq] at hb
    rw [← hb]
    show p.1.start = _
    rw [e2]
    rfl

/-! ## C153 -/

/-- **C153** Two relations of equal length whose ends differ by at most `d`, brought to the common axis: an inner sample moves
by little more than the fraction `2 d / step` of the largest jump, but at an end the relation that does not reach it has the value
zero. -/
theorem C153_equalize {r1 r2 : Rel K K} {l1 l2 : List K} (h1 : WellResolved fl u r1.x l1 n M r1.y)
    (h2 : WellResolved fl u r2.x l2 n M r2.y) (d : K) (hd1 : |r1.x.start - r2.x.start| ≤ d)
    (hd2 : |r1.x.stop - r2.x.stop| ≤ d) (hd : 16 * d ≤ r1.x.sample)
    (hd' : 16 * d ≤ r2.x.sample) (hf1 : fl r1.x.start = r1.x.start)
    (hf2 : fl r2.x.start = r2.x.start) :
    ∃ q1 q2, Rel.flEqualize fl false r1 r2 = .ok (q1, q2) ∧
      q1.x = ⟨min r1.x.start r2.x.start, max r1.x.stop r2.x.stop, min r1.x.sample r2.x.sample⟩ ∧ q2.x = q1.x ∧
      q1.y.length = n + 1 ∧ q2.y.length = n + 1 ∧
      (∀ (a : 0 < q1.y.length) (b : 0 < q2.y.length) (a' : 0 < r1.y.length) (b' : 0 < r2.y.length),
        q1.y[0] = (if r1.x.start ≤ r2.x.start then r1.y[0] else 0) ∧
        q2.y[0] = (if r2.x.start ≤ r1.x.start then r2.y[0] else 0)) ∧
      (∀ (a : n < q1.y.length) (b : n < q2.y.length) (a' : n < r1.y.length) (b' : n < r2.y.length),
        q1.y[n] = (if r2.x.stop ≤ r1.x.stop then r1.y[n] else 0) ∧
        q2.y[n] = (if r1.x.stop ≤ r2.x.stop then r2.y[n] else 0)) ∧
      (∀ J Y : K, (∀ i (p : i + 1 < r1.y.length), |r1.y[i + 1] - r1.y[i]| ≤ J) → (∀ v ∈ r1.y, |v| ≤ Y) →
        ∀ k (_ : 0 < k) (_ : k < n) (p : k < q1.y.length) (p' : k < r1.y.length),
          |q1.y[k] - r1.y[k]| ≤ 2 * (d + 16 * u * M) / r1.x.sample * J + 14 * u * Y) ∧
      (∀ J Y : K, (∀ i (p : i + 1 < r2.y.length), |r2.y[i + 1] - r2.y[i]| ≤ J) → (∀ v ∈ r2.y, |v| ≤ Y) →
        ∀ k (_ : 0 < k) (_ : k < n) (p : k < q2.y.length) (p' : k < r2.y.length),
          |q2.y[k] - r2.y[k]| ≤ 2 * (d + 16 * u * M) / r2.x.sample * J + 14 * u * Y) := by
  have hd0 : 0 ≤ d := (abs_nonneg _).trans hd1
  have ec : commonX r1.x r2.x = ⟨min r1.x.start r2.x.start, max r1.x.stop r2.x.stop, min r1.x.sample r2.x.sample⟩ := by
    unfold commonX
    have e1 : (if r1.x.start ≤ r2.x.start then r1.x.start else r2.x.start) = min r1.x.start r2.x.start := by rw [min_def]
    have e2 : (if r1.x.stop ≥ r2.x.stop then r1.x.stop else r2.x.stop) = max r1.x.stop r2.x.stop := by
      rw [max_comm, max_def]
    rw [e1, e2, min_def r1.x.sample]
  set c : Axis K := ⟨min r1.x.start r2.x.start, max r1.x.stop r2.x.stop, min r1.x.sample r2.x.sample⟩ with hc
  have b1 := abs_le.1 hd1
  have b2 := abs_le.1 hd2
  have m1 : |c.start - r1.x.start| ≤ d := by
    rcases min_cases r1.x.start r2.x.start with ⟨e, _⟩ | ⟨e, _⟩ <;> simp only [hc, e, sub_self, abs_zero]
    · exact hd0
    · rw [abs_sub_comm]; exact hd1
  have m2 : |c.start - r2.x.start| ≤ d := by
    rcases min_cases r1.x.start r2.x.start with ⟨e, _⟩ | ⟨e, _⟩ <;> simp only [hc, e, sub_self, abs_zero]
    · exact hd1
    · exact hd0
  have m3 : |c.stop - r1.x.stop| ≤ d := by
    rcases max_cases r1.x.stop r2.x.stop with ⟨e, _⟩ | ⟨e, _⟩ <;> simp only [hc, e, sub_self, abs_zero]
    · exact hd0
    · rw [abs_sub_comm]; exact hd2
  have m4 : |c.stop - r2.x.stop| ≤ d := by
    rcases max_cases r1.x.stop r2.x.stop with ⟨e, _⟩ | ⟨e, _⟩ <;> simp only [hc, e, sub_self, abs_zero]
    · exact hd2
    · exact hd0
  have o1 : c.start ≤ r1.x.start := min_le_left _ _
  have o2 : c.start ≤ r2.x.start := min_le_right _ _
  have o3 : r1.x.stop ≤ c.stop := le_max_left _ _
  have o4 : r2.x.stop ≤ c.stop := le_max_right _ _
  have hfc : fl c.start = c.start := by
    rcases min_cases r1.x.start r2.x.start with ⟨e, _⟩ | ⟨e, _⟩ <;> simp only [hc, e] <;> assumption
  have c1 : |c.start| ≤ M := by
    rcases min_cases r1.x.start r2.x.start with ⟨e, _⟩ | ⟨e, _⟩ <;> simp only [hc, e]
    · exact h1.startBound
    · exact h2.startBound
  have c2 : |c.stop| ≤ M := by
    rcases max_cases r1.x.stop r2.x.stop with ⟨e, _⟩ | ⟨e, _⟩ <;> simp only [hc, e]
    · exact h1.stopBound
    · exact h2.stopBound
  have hacc : flMake fl c r1.y = .ok (c, r1.y) := by
    rcases min_cases r1.x.sample r2.x.sample with ⟨e, _⟩ | ⟨e, _⟩ <;> simp only [hc, e]
    · refine h1.accepts c.start c.stop n le_rfl r1.y h1.values (r1.x.sample / 4) ?_ le_rfl
      have f := abs_le.1 h1.fits
      have g1 := abs_le.1 m1
      have g3 := abs_le.1 m3
      rw [abs_le]
      constructor <;> linarith [f.1, f.2, g1.1, g1.2, g3.1, g3.2]
    · refine h2.accepts c.start c.stop n le_rfl r1.y h1.values (r2.x.sample / 4) ?_ le_rfl
      have f := abs_le.1 h2.fits
      have g1 := abs_le.1 m2
      have g3 := abs_le.1 m4
      rw [abs_le]
      constructor <;> linarith [f.1, f.2, g1.1, g1.2, g3.1, g3.2]
  obtain ⟨xs, hxs, hlen⟩ := flMake_array hacc
  rw [h1.values] at hlen
  obtain ⟨q1, e1, x1, n1, f1, g1, i1⟩ := interp_close h1 hxs hlen c1 c2 m1 m3 hd hf1 hfc o1 o3
  obtain ⟨q2, e2, x2, n2, f2, g2, i2⟩ := interp_close h2 hxs hlen c1 c2 m2 m4 hd' hf2 hfc o2 o4
  refine ⟨q1, q2, ?_, x1, x2.trans x1.symm, n1, n2, ?_, ?_, i1, i2⟩
  · unfold Rel.flEqualize
    simp only [Bool.false_eq_true, if_false, ec, e1, e2, except_bind_ok]
    rfl
  · intro a b a' b'
    rw [f1 a a', f2 b b']
    refine ⟨if_congr ?_ rfl rfl, if_congr ?_ rfl rfl⟩
    · exact min_eq_left_iff
    · exact min_eq_right_iff
  · intro a b a' b'
    rw [g1 a a', g2 b b']
    refine ⟨if_congr ?_ rfl rfl, if_congr ?_ rfl rfl⟩
    · exact max_eq_left_iff
    · exact max_eq_right_iff

/-- **C153** Shifting by `a` and back by `-a` keeps the samples; each end returns to within `3 u (M + |a|)` of its place, and exactly to
it if the shifted end is representable. -/
theorem C153_there_and_back {r : Rel K K} {l : List K} (h : WellResolved fl u r.x l n M r.y) (a : K)
    (hfit : |r.x.stop - (r.x.start + n * r.x.sample)| ≤ r.x.sample / 16) (ha : 256 * u * (M + |a|) ≤ r.x.sample) :
    ∃ m b, r.flShift fl a = .ok m ∧ m.flShift fl (-a) = .ok b ∧ b.y = r.y ∧ b.x.sample = r.x.sample ∧
      |r.x.start - b.x.start| ≤ 3 * u * (M + |a|) ∧ |r.x.stop - b.x.stop| ≤ 3 * u * (M + |a|) ∧
      (fl r.x.start = r.x.start → fl (r.x.start + a) = r.x.start + a → b.x.start = r.x.start) ∧
      (fl r.x.stop = r.x.stop → fl (r.x.stop + a) = r.x.stop + a → b.x.stop = r.x.stop) ∧
      ∃ l', WellResolved fl u b.x l' n (2 * (M + |a|)) b.y := by
  have hs := h.positive
  have hu := relErr_nonneg h.rel
  have hM : 0 ≤ M := (abs_nonneg _).trans h.startBound
  set N := M + |a| with hN
  have hN0 : 0 ≤ N := by positivity
  have huu := h.unit
  have move : ∀ p, |p| ≤ M → |fl (p + a) - (p + a)| ≤ u * N ∧ |p - fl (fl (p + a) + -a)| ≤ 3 * u * N ∧
      (fl p = p → fl (p + a) = p + a → fl (fl (p + a) + -a) = p) := by
    intro p hp
    have e1 : |fl (p + a) - (p + a)| ≤ u * N :=
      (h.rel _).trans (mul_le_mul_of_nonneg_left ((abs_add_le _ _).trans (by linarith)) hu)
    refine ⟨e1, ?_, fun g1 g2 => by rw [g2]; simpa using g1⟩
    have e2 := h.rel (fl (p + a) + -a)
    have b1 := abs_le.1 e1
    have b0 := abs_le.1 hp
    have huN : u * N ≤ 1 / 100 * N := mul_le_mul_of_nonneg_right huu hN0
    have hMN : M ≤ N := by rw [hN]; linarith [abs_nonneg a]
    have b2 : |fl (p + a) + -a| ≤ 2 * N := by
      rw [abs_le]
      constructor <;> linarith [b1.1, b1.2, b0.1, b0.2]
    have b3 := abs_le.1 (e2.trans (mul_le_mul_of_nonneg_left b2 hu))
    rw [abs_le]
    constructor <;> linarith [b1.1, b1.2, b3.1, b3.2]
  obtain ⟨s1, s2, s3⟩ := move r.x.start h.startBound
  obtain ⟨t1, t2, t3⟩ := move r.x.stop h.stopBound
  have f := abs_le.1 hfit
  have hm : flMake fl (r.x.flShift fl a) r.y = .ok (r.x.flShift fl a, r.y) := by
    refine h.accepts _ _ n le_rfl r.y h.values (r.x.sample / 4) ?_ le_rfl
    have := abs_le.1 s1
    have := abs_le.1 t1
    have hn : 0 ≤ u * N := by positivity
    rw [abs_le]
    constructor <;> linarith [(abs_le.1 s1).1, (abs_le.1 s1).2, (abs_le.1 t1).1, (abs_le.1 t1).2, f.1, f.2]
  have s4 := abs_le.1 s2
  have t4 := abs_le.1 t2
  have hb : flMake fl ((r.x.flShift fl a).flShift fl (-a)) r.y = .ok ((r.x.flShift fl a).flShift fl (-a), r.y) := by
    refine h.accepts _ _ n le_rfl r.y h.values (r.x.sample / 4) ?_ le_rfl
    have hn : 0 ≤ u * N := by positivity
    simp only [Axis.flShift]
    rw [abs_le]
    constructor <;> linarith [s4.1, s4.2, t4.1, t4.2, f.1, f.2]
  obtain ⟨l', hl', hlen⟩ := flMake_array hb
  have bound : ∀ p q : K, |p| ≤ M → |p - q| ≤ 3 * u * N → |q| ≤ 2 * N := by
    intro p q hp hq
    have huN : u * N ≤ 1 / 100 * N := mul_le_mul_of_nonneg_right huu hN0
    have hMN : M ≤ N := by rw [hN]; linarith [abs_nonneg a]
    have := abs_le.1 hp
    have := abs_le.1 hq
    rw [abs_le]
    constructor <;> linarith [(abs_le.1 hp).1, (abs_le.1 hp).2, (abs_le.1 hq).1, (abs_le.1 hq).2]
  refine ⟨⟨r.x.flShift fl a, r.y⟩, ⟨(r.x.flShift fl a).flShift fl (-a), r.y⟩, ?_, ?_, rfl, rfl, s2, t2, s3, t3, l', ?_⟩
  · unfold Rel.flShift flRel
    rw [hm]; rfl
  · unfold Rel.flShift flRel
    rw [hb]; rfl
  · refine ⟨h.rel, h.unit, hl', h.many, hlen.trans h.values, h.values, bound _ _ h.startBound s2, bound _ _ h.stopBound t2, ?_, ?_, hs⟩
    · have hn : 0 ≤ u * N := by positivity
      simp only [Axis.flShift]
      rw [abs_le]
      constructor <;> linarith [s4.1, s4.2, t4.1, t4.2, f.1, f.2]
    · simp only [Axis.flShift]
      linarith

/-- **C153** A relation minus itself shifted there and back. Inside, the values are a rounding error. At an end that did not return
exactly to its place, the difference is the whole sample, with a minus sign if the returned end lies outside. -/
theorem C153_difference {r m b : Rel K K} {l : List K} (h : WellResolved fl u r.x l n M r.y) (a : K)
    (hfit : |r.x.stop - (r.x.start + n * r.x.sample)| ≤ r.x.sample / 16) (ha : 256 * u * (M + |a|) ≤ r.x.sample)
    (hf : fl r.x.start = r.x.start) (hidem : ∀ q, fl (fl q) = fl q)
    (hm : r.flShift fl a = .ok m) (hb : m.flShift fl (-a) = .ok b) :
    ∃ q, Rel.flOperation fl false r b .sub = .ok q ∧ q.y.length = n + 1 ∧
      (∀ (p : 0 < q.y.length) (p' : 0 < r.y.length), (r.x.start < b.x.start → q.y[0] = fl r.y[0]) ∧
        (b.x.start < r.x.start → q.y[0] = fl (-r.y[0])) ∧ (b.x.start = r.x.start → q.y[0] = 0)) ∧
      (∀ (p : n < q.y.length) (p' : n < r.y.length), (b.x.stop < r.x.stop → q.y[n] = fl r.y[n]) ∧
        (r.x.stop < b.x.stop → q.y[n] = fl (-r.y[n])) ∧ (b.x.stop = r.x.stop → q.y[n] = 0)) ∧
      ∀ J Y : K, (∀ i (p : i + 1 < r.y.length), |r.y[i + 1] - r.y[i]| ≤ J) → (∀ v ∈ r.y, |v| ≤ Y) →
        ∀ k (_ : 0 < k) (_ : k < n) (p : k < q.y.length),
          |q.y[k]| ≤ 210 * u * (M + |a|) / r.x.sample * J + 42 * u * Y := by
  obtain ⟨m', b', hm', hb', ey, es, d1, d2, -, -, l', hw⟩ := C153_there_and_back h a hfit ha
  rw [hm, Except.ok.injEq] at hm'
  subst hm'
  rw [hb, Except.ok.injEq] at hb'
  subst hb'
  have hs := h.positive
  have hu := relErr_nonneg h.rel
  have huu := h.unit
  have hM : 0 ≤ M := (abs_nonneg _).trans h.startBound
  set N := M + |a| with hN
  have hN0 : 0 ≤ N := by positivity
  have hMN : M ≤ 2 * N := by rw [hN]; linarith [abs_nonneg a]
  have hw1 : WellResolved fl u r.x l n (2 * N) r.y :=
    ⟨h.rel, h.unit, h.array, h.many, h.points, h.values, h.startBound.trans hMN, h.stopBound.trans hMN, h.fits, by linarith, hs⟩
  have hfb : fl b.x.start = b.x.start := by rw [flShift_start hb]; exact hidem _
  have huN : 0 ≤ u * N := by positivity
  obtain ⟨q1, q2, he, x1, x2, n1, n2, f0, fn, i1, i2⟩ :=
    C153_equalize hw1 hw (3 * u * N) d1 d2 (by linarith) (by rw [es]; linarith) hf hfb
  have hy : List.zipWith (FlOp.sub.fn fl) q1.y q2.y = (List.zipWith (fun s t => fl (s - t)) q1.y q2.y).map some := by
    apply List.ext_getElem (by simp)
    intro i g1 g2
    simp [FlOp.fn]
  have hacc : flMake fl q1.x q1.y = .ok (q1.x, q1.y) := by
    rw [x1, es, min_self]
    refine h.accepts _ _ n le_rfl q1.y n1 (r.x.sample / 4) ?_ le_rfl
    have f := abs_le.1 hfit
    have g1 := abs_le.1 d1
    have g2 := abs_le.1 d2
    rw [abs_le]
    rcases min_cases r.x.start b.x.start with ⟨e, _⟩ | ⟨e, _⟩ <;>
      rcases max_cases r.x.stop b.x.stop with ⟨e', _⟩ | ⟨e', _⟩ <;> rw [e, e'] <;>
        constructor <;> linarith [f.1, f.2, g1.1, g1.2, g2.1, g2.2]
  obtain ⟨xs, hxs, hlen⟩ := flMake_array hacc
  have hv := h.values
  have hz : fl 0 = 0 := by
    have := h.rel 0
    rw [abs_zero, mul_zero, sub_zero] at this
    exact abs_eq_zero.1 (le_antisymm this (abs_nonneg _))
  refine ⟨⟨q1.x, List.zipWith (fun s t => fl (s - t)) q1.y q2.y⟩, ?_, by simp [n1, n2], ?_, ?_, ?_⟩
  · unfold Rel.flOperation
    rw [he, except_bind_ok]
    simp only [hy, finite_some, except_bind_ok]
    exact flRel_ok hxs (by simp [n1, n2, hlen])
  · intro p p'
    obtain ⟨g1, g2⟩ := f0 (by omega) (by omega) p' (by rw [ey]; exact p')
    simp only [List.getElem_zipWith, g1, g2, ey]
    refine ⟨fun c => ?_, fun c => ?_, fun c => ?_⟩
    · rw [if_pos c.le, if_neg (not_le.2 c), sub_zero]
    · rw [if_neg (not_le.2 c), if_pos c.le, zero_sub]
    · rw [if_pos c.ge, if_pos c.le, sub_self, hz]
  · intro p p'
    obtain ⟨g1, g2⟩ := fn (by omega) (by omega) p' (by rw [ey]; exact p')
    simp only [List.getElem_zipWith, g1, g2, ey]
    refine ⟨fun c => ?_, fun c => ?_, fun c => ?_⟩
    · rw [if_pos c.le, if_neg (not_le.2 c), sub_zero]
    · rw [if_neg (not_le.2 c), if_pos c.le, zero_sub]
    · rw [if_pos c.le, if_pos c.ge, sub_self, hz]
  · intro J Y hJ hY k k0 kn p
    have a1 := i1 J Y hJ hY k k0 kn (by omega) (by omega)
    have a2 := i2 J Y (by simpa only [ey] using hJ) (by simpa only [ey] using hY) k k0 kn (by omega) (by rw [ey]; omega)
    simp only [es, ey] at a2
    have hJ0 : 0 ≤ J := (abs_nonneg _).trans (hJ 0 (by omega))
    have hY0 : 0 ≤ Y := (abs_nonneg _).trans (hY _ (List.getElem_mem (by omega : 0 < r.y.length)))
    simp only [List.getElem_zipWith]
    have e : 2 * (3 * u * N + 16 * u * (2 * N)) / r.x.sample * J = 70 * (u * N / r.x.sample * J) := by ring
    rw [e] at a1 a2
    have e' : 210 * u * N / r.x.sample * J + 42 * u * Y = 3 * (70 * (u * N / r.x.sample * J) + 14 * u * Y) := by ring
    rw [e']
    exact difference_small h.rel huu a1 a2

/-- **C153** The quotient of two such relations divides by zero as soon as the divisor does not reach one of the two ends. -/
theorem C153_quotient {r1 r2 : Rel K K} {l1 l2 : List K} (h1 : WellResolved fl u r1.x l1 n M r1.y)
    (h2 : WellResolved fl u r2.x l2 n M r2.y) (d : K) (hd1 : |r1.x.start - r2.x.start| ≤ d)
    (hd2 : |r1.x.stop - r2.x.stop| ≤ d) (hd : 16 * d ≤ r1.x.sample)
    (hd' : 16 * d ≤ r2.x.sample) (hf1 : fl r1.x.start = r1.x.start)
    (hf2 : fl r2.x.start = r2.x.start) (hend : r1.x.start < r2.x.start ∨ r2.x.stop < r1.x.stop) :
    Rel.flOperation fl false r1 r2 .truediv = .error .nonFinite := by
  obtain ⟨q1, q2, he, -, -, n1, n2, f0, fn, -, -⟩ := C153_equalize h1 h2 d hd1 hd2 hd hd' hf1 hf2
  have v1 := h1.values
  have v2 := h2.values
  have hz : ∃ i, ∃ p : i < q2.y.length, q2.y[i] = 0 := by
    rcases hend with c | c
    · exact ⟨0, by omega, by rw [(f0 (by omega) (by omega) (by omega) (by omega)).2, if_neg (not_le.2 c)]⟩
    · exact ⟨n, by omega, by rw [(fn (by omega) (by omega) (by omega) (by omega)).2, if_neg (not_le.2 c)]⟩
  obtain ⟨i, p, hi⟩ := hz
  have hmem : none ∈ List.zipWith (FlOp.truediv.fn fl) q1.y q2.y := by
    refine List.mem_iff_getElem.2 ⟨i, by simp; omega, ?_⟩
    rw [List.getElem_zipWith]
    simp [FlOp.fn, hi]
  unfold Rel.flOperation
  rw [he, except_bind_ok]
  simp only [finite_of_none hmem]
  rfl

/-- **C153** The quotient of a relation and itself shifted there and back divides by zero if an end returned inside its old place. -/
theorem C153_quotient_back {r m b : Rel K K} {l : List K} (h : WellResolved fl u r.x l n M r.y) (a : K)
    (hfit : |r.x.stop - (r.x.start + n * r.x.sample)| ≤ r.x.sample / 16) (ha : 256 * u * (M + |a|) ≤ r.x.sample)
    (hf : fl r.x.start = r.x.start) (hidem : ∀ q, fl (fl q) = fl q)
    (hm : r.flShift fl a = .ok m) (hb : m.flShift fl (-a) = .ok b) (hend : r.x.start < b.x.start ∨ b.x.stop < r.x.stop) :
    Rel.flOperation fl false r b .truediv = .error .nonFinite := by
  obtain ⟨m', b', hm', hb', ey, es, d1, d2, -, -, l', hw⟩ := C153_there_and_back h a hfit ha
  rw [hm, Except.ok.injEq] at hm'
  subst hm'
  rw [hb, Except.ok.injEq] at hb'
  subst hb'
  have hu := relErr_nonneg h.rel
  have hM : 0 ≤ M := (abs_nonneg _).trans h.startBound
  have hMN : M ≤ 2 * (M + |a|) := by linarith [abs_nonneg a]
  have hw1 : WellResolved fl u r.x l n (2 * (M + |a|)) r.y :=
    ⟨h.rel, h.unit, h.array, h.many, h.points, h.values, h.startBound.trans hMN, h.stopBound.trans hMN, h.fits, by linarith,
      h.positive⟩
  have huN : 0 ≤ u * (M + |a|) := by positivity
  exact C153_quotient hw1 hw (3 * u * (M + |a|)) d1 d2 (by linarith) (by rw [es]; linarith) hf (by rw [flShift_start hb]; exact hidem _) hend

end

/-- **C153** The relation with samples 1, 2, 4 at 0.3, 0.4, 0.5, shifted by 0.1 and back by 0.1: its first point does not return to its
place. The sum with the original has the first value 1 where twice the sample is 2, the difference has the first value 1, and the
quotient divides by zero. -/
theorem C153_witness : ∃ r m b : Rel ℚ ℚ, r = ⟨⟨fl64 (3 / 10), fl64 (1 / 2), fl64 (1 / 10)⟩, [1, 2, 4]⟩ ∧
    r.flShift fl64 (fl64 (1 / 10)) = .ok m ∧ m.flShift fl64 (-fl64 (1 / 10)) = .ok b ∧ b.y = r.y ∧
    b.x = { r.x with start := r.x.start + 2 ^ (-54 : ℤ) } ∧
    Rel.flOperation fl64 false r b .add = .ok ⟨r.x, [1, 4, 8]⟩ ∧
    Rel.flOperation fl64 false r b .sub = .ok ⟨r.x, [1, 0, 0]⟩ ∧
    Rel.flOperation fl64 false r b .truediv = .error .nonFinite := by
  refine ⟨⟨⟨fl64 (3 / 10), fl64 (1 / 2), fl64 (1 / 10)⟩, [1, 2, 4]⟩,
    ⟨⟨fl64 (fl64 (3 / 10) + fl64 (1 / 10)), fl64 (fl64 (1 / 2) + fl64 (1 / 10)), fl64 (1 / 10)⟩, [1, 2, 4]⟩,
    ⟨⟨fl64 (3 / 10) + 2 ^ (-54 : ℤ), fl64 (1 / 2), fl64 (1 / 10)⟩, [1, 2, 4]⟩, rfl, ?_, ?_, rfl, rfl, ?_, ?_, ?_⟩ <;>
    decide +kernel

/-! Concrete cases -/

theorem threeTenths_wellResolved : Spec.WellResolved fl64 (2 ^ (-53 : ℤ)) ⟨fl64 (3 / 10), fl64 (1 / 2), fl64 (1 / 10)⟩
    (flLinspace fl64 (fl64 (3 / 10)) (fl64 (1 / 2)) 3) 2 1 ([1, 2, 4] : List ℚ) where
  rel := fl64_relErr
  unit := by norm_num
  array := by decide +kernel
  many := by norm_num
  points := flLinspace_length _ _ _ _
  values := by simp
  startBound := by decide +kernel
  stopBound := by decide +kernel
  fits := by decide +kernel
  resolved := by decide +kernel
  positive := by decide +kernel

theorem threeTenths_back : Spec.WellResolved fl64 (2 ^ (-53 : ℤ)) ⟨fl64 (3 / 10) + 2 ^ (-54 : ℤ), fl64 (1 / 2), fl64 (1 / 10)⟩
    (flLinspace fl64 (fl64 (3 / 10) + 2 ^ (-54 : ℤ)) (fl64 (1 / 2)) 3) 2 1 ([1, 2, 4] : List ℚ) where
  rel := fl64_relErr
  unit := by norm_num
  array := by decide +kernel
  many := by norm_num
  points := flLinspace_length _ _ _ _
  values := by simp
  startBound := by decide +kernel
  stopBound := by decide +kernel
  fits := by decide +kernel
  resolved := by decide +kernel
  positive := by decide +kernel

example := C153_there_and_back (r := ⟨⟨fl64 (3 / 10), fl64 (1 / 2), fl64 (1 / 10)⟩, [1, 2, 4]⟩) threeTenths_wellResolved (fl64 (1 / 10))
  (by decide +kernel) (by decide +kernel)

example := C153_difference (r := ⟨⟨fl64 (3 / 10), fl64 (1 / 2), fl64 (1 / 10)⟩, [1, 2, 4]⟩)
  (m := ⟨⟨fl64 (fl64 (3 / 10) + fl64 (1 / 10)), fl64 (fl64 (1 / 2) + fl64 (1 / 10)), fl64 (1 / 10)⟩, [1, 2, 4]⟩)
  (b := ⟨⟨fl64 (3 / 10) + 2 ^ (-54 : ℤ), fl64 (1 / 2), fl64 (1 / 10)⟩, [1, 2, 4]⟩) threeTenths_wellResolved (fl64 (1 / 10))
  (by decide +kernel) (by decide +kernel) (by decide +kernel) fl64_idem (by decide +kernel) (by decide +kernel)

example := C153_quotient_back (r := ⟨⟨fl64 (3 / 10), fl64 (1 / 2), fl64 (1 / 10)⟩, [1, 2, 4]⟩)
  (m := ⟨⟨fl64 (fl64 (3 / 10) + fl64 (1 / 10)), fl64 (fl64 (1 / 2) + fl64 (1 / 10)), fl64 (1 / 10)⟩, [1, 2, 4]⟩)
  (b := ⟨⟨fl64 (3 / 10) + 2 ^ (-54 : ℤ), fl64 (1 / 2), fl64 (1 / 10)⟩, [1, 2, 4]⟩) threeTenths_wellResolved (fl64 (1 / 10))
  (by decide +kernel) (by decide +kernel) (by decide +kernel) fl64_idem (by decide +kernel) (by decide +kernel)
  (.inl (by decide +kernel))

example := C153_equalize (r1 := ⟨⟨fl64 (3 / 10), fl64 (1 / 2), fl64 (1 / 10)⟩, [1, 2, 4]⟩)
  (r2 := ⟨⟨fl64 (3 / 10) + 2 ^ (-54 : ℤ), fl64 (1 / 2), fl64 (1 / 10)⟩, [1, 2, 4]⟩) threeTenths_wellResolved threeTenths_back
  (2 ^ (-54 : ℤ)) (by decide +kernel) (by decide +kernel) (by decide +kernel) (by decide +kernel) (by decide +kernel) (by decide +kernel)

example : Rel.flOperation fl64 false ⟨⟨fl64 (3 / 10), fl64 (1 / 2), fl64 (1 / 10)⟩, [1, 2, 4]⟩
    ⟨⟨fl64 (3 / 10) + 2 ^ (-54 : ℤ), fl64 (1 / 2), fl64 (1 / 10)⟩, [1, 2, 4]⟩ .truediv = .error .nonFinite :=
  C153_quotient (r1 := ⟨⟨fl64 (3 / 10), fl64 (1 / 2), fl64 (1 / 10)⟩, [1, 2, 4]⟩)
    (r2 := ⟨⟨fl64 (3 / 10) + 2 ^ (-54 : ℤ), fl64 (1 / 2), fl64 (1 / 10)⟩, [1, 2, 4]⟩) threeTenths_wellResolved threeTenths_back
    (2 ^ (-54 : ℤ)) (by decide +kernel) (by decide +kernel) (by decide +kernel) (by decide +kernel) (by decide +kernel) (by decide +kernel)
    (.inl (by decide +kernel))

end SweepDesign
