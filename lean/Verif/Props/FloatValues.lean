import Verif.Model.FloatValues
import Verif.Lemmas.FloatSum
import Verif.Props.FloatInterp
import Verif.Props.FloatSizes

/-!
# C104: integrals, differences, norm, convolution and correlation in double precision
-/

set_option linter.unusedSectionVars false

namespace SweepDesign

open Spec

section
variable {K : Type} [Field K] [LinearOrder K] [IsStrictOrderedRing K] [FloorRing K]
variable {fl : K → K} {u : K} {x : Axis K} {l : List K} {n : ℕ} {M : K} {y : List K}

/-! ## Running sums -/

theorem flCumsum_go_length (acc : K) (l : List K) : (flCumsum.go fl acc l).length = l.length := by
  induction l generalizing acc with
  | nil => rfl
  | cons a l ih => simp [flCumsum.go, ih]

theorem flCumsum_length (l : List K) : (flCumsum fl l).length = l.length := by
  cases l with
  | nil => rfl
  | cons a l => simp [flCumsum, flCumsum_go_length]

theorem flCumsum_go_close (hfl : RelErr fl u) (k : ℕ) (l : List K) : ∀ (acc A T : K) (c : ℕ) (f S : ℕ → K), Close u (k + c) A acc T →
    (∀ i (h : i < l.length), Close u k (f i) l[i] (S i)) → ∀ i (h : i < (flCumsum.go fl acc l).length),
    Close u (k + c + i + 1) (A + ∑ j ∈ Finset.range (i + 1), f j) (flCumsum.go fl acc l)[i] (T + ∑ j ∈ Finset.range (i + 1), S j) := by
  have hu := relErr_nonneg hfl
  induction l with
  | nil => intro _ _ _ _ _ _ _ _ i h; simp [flCumsum.go] at h
  | cons a l ih =>
    intro acc A T c f S hA hl i h
    have h0 := ((hA.add hu (hl 0 (by simp))).round hfl).mono hu (m := k + (c + 1)) (by omega) le_rfl
    cases i with
    | zero =>
      simp only [flCumsum.go, zero_add, Finset.sum_range_one, List.getElem_cons_zero] at h0 ⊢
      exact h0.mono hu (by omega) le_rfl
    | succ i =>
      have h' : i < (flCumsum.go fl (fl (acc + a)) l).length := by simpa [flCumsum.go] using h
      have := ih (fl (acc + a)) (A + f 0) (T + S 0) (c + 1) (fun j => f (j + 1)) (fun j => S (j + 1)) h0
        (fun j hj => hl (j + 1) (by simpa using hj)) i h'
      rw [Finset.sum_range_succ' _ (i + 1), Finset.sum_range_succ' _ (i + 1), add_comm _ (f 0), ← add_assoc A,
        add_comm _ (S 0), ← add_assoc T]
      simp only [flCumsum.go, List.getElem_cons_succ]
      exact this.mono hu (by omega) le_rfl

theorem flCumsum_close (hfl : RelErr fl u) (k : ℕ) (l : List K) (f S : ℕ → K)
    (hl : ∀ i (h : i < l.length), Close u k (f i) l[i] (S i)) (i : ℕ) (h : i < (flCumsum fl l).length) :
    Close u (k + i) (∑ j ∈ Finset.range (i + 1), f j) (flCumsum fl l)[i] (∑ j ∈ Finset.range (i + 1), S j) := by
  cases l with
  | nil => simp [flCumsum] at h
  | cons a l =>
    cases i with
    | zero =>
      simp only [flCumsum, zero_add, Finset.sum_range_one, List.getElem_cons_zero, add_zero]
      exact hl 0 (by simp)
    | succ i =>
      have h' : i < (flCumsum.go fl a l).length := by simpa [flCumsum] using h
      have := flCumsum_go_close hfl k l a (f 0) (S 0) 0 (fun j => f (j + 1)) (fun j => S (j + 1))
        (hl 0 (by simp)) (fun j hj => hl (j + 1) (by simpa using hj)) i h'
      rw [Finset.sum_range_succ' _ (i + 1), Finset.sum_range_succ' _ (i + 1), add_comm _ (f 0), add_comm _ (S 0)]
      simp only [flCumsum, List.getElem_cons_succ]
      exact this.mono (relErr_nonneg hfl) (by omega) le_rfl

theorem getD0_lt (y : List K) (j : ℕ) (h : j < y.length) : y.getD j 0 = y[j] := by
  rw [List.getD_eq_getElem?_getD, List.getElem?_eq_getElem h, Option.getD_some]

theorem flRel_of_make {a b : Axis K} {z : List K} (h : flMake fl a z = .ok (b, z)) : flRel fl a z = .ok ⟨b, z⟩ := by
  unfold flRel; rw [h]; rfl

theorem Close.two_units {k : ℕ} {a b S : K} (hu : 0 ≤ u) (h : Close u k a b S) (hk : 2 * (k * u) ≤ 1) :
    |b - a| ≤ 2 * (k * u) * S :=
  h.err.trans (mul_le_mul_of_nonneg_right (gamma_bound hu k hk) h.nonneg)

theorem Spec.WellResolved.few (h : WellResolved fl u x l n M y) (k : ℕ) (hk : k ≤ 28 * n) : 2 * (k * u) ≤ 1 := by
  have := h.units
  have hu := relErr_nonneg h.rel
  have h1 : (k : K) ≤ 28 * n := by exact_mod_cast hk
  have := mul_le_mul_of_nonneg_right h1 hu
  linarith

/-! ## C104 -/

/-- The integral has one value fewer. Value `i` is the trapezoid sum of the first `i + 2` samples up to `2 (i + 3) u` times the
same sum of the absolute values. -/
theorem C104_integrate (h : WellResolved fl u x l n M y) : ∃ q, Rel.flIntegrate fl ⟨x, y⟩ = .ok q ∧
    q.x = ⟨fl (x.start + x.sample), x.stop, x.sample⟩ ∧ q.y.length = n ∧ ∀ i (hi : i < q.y.length),
      |q.y[i] - x.sample * ∑ j ∈ Finset.range (i + 1), (y.getD j 0 + y.getD (j + 1) 0) / 2| ≤
        2 * ((i + 3) * u) * (x.sample * ∑ j ∈ Finset.range (i + 1), (|y.getD j 0| + |y.getD (j + 1) 0|) / 2) := by
  have hfl := h.rel
  have hu := relErr_nonneg hfl
  have hy := h.values
  set t := List.zipWith (fun a b => fl (fl (b + a) / 2)) y y.tail with ht
  have htl : t.length = n := by rw [ht]; simp [hy]
  refine ⟨⟨x.flIntegrate fl, (flCumsum fl t).map fun v => fl (v * x.sample)⟩, ?_, rfl, ?_, ?_⟩
  · exact flRel_of_make (C96_integrate h _ (by rw [List.length_map, flCumsum_length, htl]))
  · rw [List.length_map, flCumsum_length, htl]
  · intro i hi
    have hi' : i < n := by simpa [flCumsum_length, htl] using hi
    have hc : ∀ j (hj : j < t.length), Close u 2 ((y.getD j 0 + y.getD (j + 1) 0) / 2) t[j]
        ((|y.getD j 0| + |y.getD (j + 1) 0|) / 2) := by
      intro j hj
      have e0 := getD0_lt y j (by omega)
      have e1 := getD0_lt y (j + 1) (by omega)
      have c := ((((Close.exact hu 0 (y.getD (j + 1) 0)).add hu (Close.exact hu 0 (y.getD j 0))).round hfl).div 2).round hfl
      rw [abs_of_pos (two_pos : (0 : K) < 2), add_comm (y.getD (j + 1) 0), add_comm |y.getD (j + 1) 0|] at c
      have et : t[j] = fl (fl (y.getD j 0 + y.getD (j + 1) 0) / 2) := by
        simp only [ht, List.getElem_zipWith, List.getElem_tail, e0, e1]
        rw [add_comm]
      rw [et]
      exact c
    have c := ((flCumsum_close hfl 2 t _ _ hc i (by rw [flCumsum_length, htl]; exact hi')).scale x.sample).round hfl
    rw [abs_of_pos h.positive] at c
    have := c.two_units hu (h.few _ (by have := h.many; omega))
    rw [List.getElem_map, mul_comm x.sample, mul_comm x.sample]
    have ec : ((2 + i + 1 : ℕ) : K) = i + 3 := by push_cast; ring
    rwa [ec] at this

/-- The difference has one value fewer, on the axis moved by half a step. Each value is the difference quotient of two neighbours up to
`3 u` of itself, so that its sign is right. -/
theorem C104_diff (h : WellResolved fl u x l n M y) : ∃ q, Rel.flDiff fl ⟨x, y⟩ = .ok q ∧
    q.x = ⟨fl (x.start + fl (x.sample / 2)), fl (x.stop - fl (x.sample / 2)), x.sample⟩ ∧ q.y.length = n ∧
    ∀ i (hi : i < q.y.length) (h0 : i < y.length) (h1 : i + 1 < y.length),
      |q.y[i] - (y[i + 1] - y[i]) / x.sample| ≤ 3 * u * |(y[i + 1] - y[i]) / x.sample| := by
  have hfl := h.rel
  have hu := relErr_nonneg hfl
  have hy := h.values
  refine ⟨⟨x.flDiff fl, List.zipWith (fun a b => fl (fl (b - a) / x.sample)) y y.tail⟩, ?_, rfl, ?_, ?_⟩
  · exact flRel_of_make (C96_diff h _ (by simp [hy]))
  · simp [hy]
  · intro i hi h0 h1
    have c := (((Close.exact hu 0 (y[i + 1] - y[i])).round hfl).div x.sample).round hfl
    rw [← abs_div] at c
    simp only [List.getElem_zipWith, List.getElem_tail]
    refine c.err.trans (mul_le_mul_of_nonneg_right ?_ (abs_nonneg _))
    have e : (1 + u) ^ (0 + 1 + 1) - 1 = 2 * u + u * u := by ring
    have := mul_le_mul_of_nonneg_right h.unit hu
    rw [e]
    linarith

/-- numpy's summation: some order, some placement of the parentheses -/
def _root_.SweepDesign.Spec.Sums (fl : K → K) (sum : List K → K) : Prop := ∀ l, l ≠ [] → Summed fl l (sum l)

/-- The norm is the trapezoid sum of the squares, with the exact step of the axis, divided by `sample`; it is right up to a fraction of
`3 (n + 5) + 16 M / step` units, in whatever order numpy sums. -/
theorem C104_norm (h : WellResolved fl u x l n M y) (sum : List K → K) (hsum : Sums fl sum) (d N : K)
    (hd : d = (x.stop - x.start) / n)
    (hN : N = (d * ∑ i ∈ Finset.range n, (y.getD i 0 ^ 2 + y.getD (i + 1) 0 ^ 2) / 2) / x.sample) :
    ∃ v, Rel.flNorm fl sum ⟨x, y⟩ = .ok v ∧ |v - N| ≤ u * (3 * (n + 5) + 16 * (M / d)) * N := by
  have hfl := h.rel
  have hu := relErr_nonneg hfl
  have hy := h.values
  have hl := h.points
  have hs := h.positive
  have hn := h.many
  have hd0 : 7 / 8 * x.sample ≤ d := by rw [hd]; exact h.step'.1
  have hdp : 0 < d := by linarith
  obtain ⟨-, -, hp⟩ := C92_points fl u hfl h.unit x l h.array n h.many h.points M h.startBound h.stopBound
  rw [← hd] at hp
  have hM : 0 ≤ M := (abs_nonneg _).trans h.startBound
  have huM : 0 ≤ u * M := mul_nonneg hu hM
  have hres := h.resolved
  -- the gaps
  have hgap : ∀ i (hi : i < n), |l.getD (i + 1) 0 - l.getD i 0 - d| ≤ 16 * (u * M) := by
    intro i hi
    rw [getD0_lt l _ (by omega), getD0_lt l _ (by omega)]
    have p1 := abs_le.1 (hp i (by omega))
    have p2 := abs_le.1 (hp (i + 1) (by omega))
    push_cast at p2
    rw [abs_le]
    constructor <;> linarith [p1.1, p1.2, p2.1, p2.2]
  have hpos : ∀ i < n, 0 < l.getD (i + 1) 0 - l.getD i 0 := by
    intro i hi
    have := abs_le.1 (hgap i hi)
    linarith [this.1]
  set y2 := y.map fun a => fl (a * a) with hy2
  set w := List.zipWith (fun a b => fl (b + a)) y2 y2.tail with hw
  set g := (npDiff l).map fl with hg
  set t := List.zipWith (fun d s => fl (fl (d * s) / 2)) g w with ht
  have hy2l : y2.length = n + 1 := by rw [hy2]; simp [hy]
  have hwl : w.length = n := by rw [hw]; simp [hy2l]
  have hgl : g.length = n := by rw [hg]; simp [npDiff, hl]
  have htl : t.length = n := by rw [ht]; simp [hwl, hgl]
  let E : ℕ → K := fun i => (l.getD (i + 1) 0 - l.getD i 0) * (y.getD i 0 ^ 2 + y.getD (i + 1) 0 ^ 2) / 2
  have hc : ∀ i (hi : i < t.length), Close u 5 (E i) t[i] (E i) := by
    intro i hi
    have hi' : i < n := by omega
    have sq : ∀ j (hj : j < y2.length), Close u 1 (y.getD j 0 ^ 2) y2[j] (y.getD j 0 ^ 2) := by
      intro j hj
      have c := (Close.exact hu 0 (y.getD j 0 ^ 2)).round hfl
      rw [abs_of_nonneg (sq_nonneg _)] at c
      have e : y2[j] = fl (y.getD j 0 ^ 2) := by
        rw [getD0_lt y j (by omega)]
        simp only [hy2, List.getElem_map, pow_two]
      rw [e]
      exact c
    have cw := ((sq (i + 1) (by omega)).add hu (sq i (by omega))).round hfl
    have cg := (Close.exact hu 0 (l.getD (i + 1) 0 - l.getD i 0)).round hfl
    rw [abs_of_pos (hpos i hi')] at cg
    have c := ((((cg.mul hu cw).round hfl).div 2).round hfl)
    rw [abs_of_pos (two_pos : (0 : K) < 2), add_comm (y.getD (i + 1) 0 ^ 2)] at c
    have et : t[i] = fl (fl (fl (l.getD (i + 1) 0 - l.getD i 0) * fl (y2[i + 1] + y2[i])) / 2) := by
      rw [getD0_lt l _ (by omega), getD0_lt l _ (by omega)]
      simp only [ht, hg, hw, npDiff, List.getElem_zipWith, List.getElem_tail, List.getElem_map]
    rw [et]
    exact c
  have cs := Summed.close hfl 5 (hsum t (by intro e; rw [e] at htl; simp at htl; omega)) ((List.range n).map E) ((List.range n).map E)
    (by simp [htl]) (by simp [htl]) (fun i h1 h2 h3 => by
      simp only [List.getElem_map, List.getElem_range]
      exact hc i h2)
  have esum : ∀ m, ((List.range m).map E).sum = ∑ i ∈ Finset.range m, E i := by
    intro m
    induction m with
    | zero => simp
    | succ m ih => rw [List.range_succ, List.map_append, List.sum_append, ih, Finset.sum_range_succ]; simp
  have c := (cs.div x.sample).round hfl
  rw [esum, abs_of_pos hs] at c
  have c2 := c.two_units hu (h.few _ (by omega))
  refine ⟨fl (sum t / x.sample), ?_, ?_⟩
  · unfold Rel.flNorm
    simp only [h.array, except_bind_ok]
    rw [if_neg (by rw [hl, hy]; simp)]
    rfl
  set Q : ℕ → K := fun i => (y.getD i 0 ^ 2 + y.getD (i + 1) 0 ^ 2) / 2 with hQ
  have hQ0 : ∀ i, 0 ≤ Q i := fun i => by rw [hQ]; positivity
  set A := (∑ i ∈ Finset.range n, E i) / x.sample with hA
  have hSQ : 0 ≤ ∑ i ∈ Finset.range n, Q i := Finset.sum_nonneg fun i _ => hQ0 i
  have hN0 : 0 ≤ N := by rw [hN]; positivity
  have hAN : |A - N| ≤ 16 * (u * M) / d * N := by
    have e : A - N = (∑ i ∈ Finset.range n, (l.getD (i + 1) 0 - l.getD i 0 - d) * Q i) / x.sample := by
      rw [hA, hN, ← sub_div, Finset.mul_sum, ← Finset.sum_sub_distrib]
      congr 1
      refine Finset.sum_congr rfl fun i _ => ?_
      simp only [E, hQ]
      ring
    have e2 : 16 * (u * M) / d * N = (∑ i ∈ Finset.range n, 16 * (u * M) * Q i) / x.sample := by
      rw [hN, ← Finset.mul_sum]
      field_simp
    rw [e, e2, abs_div, abs_of_pos hs]
    refine div_le_div_of_nonneg_right ((Finset.abs_sum_le_sum_abs _ _).trans (Finset.sum_le_sum fun i hi => ?_)) hs.le
    rw [abs_mul, abs_of_nonneg (hQ0 i)]
    exact mul_le_mul_of_nonneg_right (hgap i (Finset.mem_range.1 hi)) (hQ0 i)
  have hsmall : 16 * (u * M) / d ≤ 1 / 7 := by
    rw [div_le_iff₀ hdp]
    linarith
  have hA2 : A ≤ 8 / 7 * N := by
    have := (abs_le.1 hAN).2
    have := mul_le_mul_of_nonneg_right hsmall hN0
    linarith
  have ek : ((5 + (t.length - 1) + 1 : ℕ) : K) = n + 5 := by
    rw [htl, show 5 + (n - 1) + 1 = n + 5 by omega]; push_cast; ring
  rw [ek] at c2
  have e3 : fl (sum t / x.sample) - N = (fl (sum t / x.sample) - A) + (A - N) := by ring
  have e4 : u * (3 * (n + 5) + 16 * (M / d)) * N = 3 * ((n + 5) * u * N) + 16 * (u * M) / d * N := by ring
  rw [e3, e4]
  have h5 : 0 ≤ ((n : K) + 5) * u := by positivity
  have h6 := mul_le_mul_of_nonneg_left hA2 h5
  have h7 : 0 ≤ ((n : K) + 5) * u * N := mul_nonneg h5 hN0
  have := abs_add_le (fl (sum t / x.sample) - A) (A - N)
  linarith

/-! ## Convolution and correlation -/

/-- every term of `t` is the product of the same place in `p`, rounded or not -/
def _root_.SweepDesign.Spec.NearProducts (u : K) (p t : List K) : Prop := List.Forall₂ (fun a b => |b - a| ≤ u * |a|) p t

/-- the products that make up entry `k` of a convolution -/
def _root_.SweepDesign.Spec.convProducts (a b : List K) (k : ℕ) : List K :=
  ((List.range a.length).filter fun i => decide (i ≤ k ∧ k - i < b.length)).map fun i => a.getD i 0 * b.getD (k - i) 0

/-- the products that make up entry `k` of a correlation -/
def _root_.SweepDesign.Spec.corrProducts (a b : List K) (k : ℕ) : List K :=
  ((List.range a.length).filter fun i => decide (k < b.length + i ∧ i ≤ k)).map fun i =>
    a.getD i 0 * b.getD (b.length - 1 + i - k) 0

/-- a numpy function that sums these products in some order -/
def _root_.SweepDesign.Spec.SumsProducts (fl : K → K) (u : K) (products : List K → List K → ℕ → List K)
    (np : List K → List K → List K) : Prop :=
  ∀ a b, a ≠ [] → b ≠ [] → (np a b).length = a.length + b.length - 1 ∧ ∀ k (h : k < (np a b).length),
    ∃ t, NearProducts u (products a b k) t ∧ Summed fl t (np a b)[k]

theorem sum_filter_range (p : ℕ → Prop) [DecidablePred p] (f : ℕ → K) (m : ℕ) :
    (((List.range m).filter fun i => decide (p i)).map f).sum = ∑ i ∈ Finset.range m, if p i then f i else 0 := by
  induction m with
  | zero => simp
  | succ m ih =>
    rw [List.range_succ, List.filter_append, List.map_append, List.sum_append, ih, Finset.sum_range_succ]
    by_cases h : p m <;> simp [h]

theorem nearProducts_error (hfl : RelErr fl u) (p : ℕ → Prop) [DecidablePred p] (f : ℕ → K) (m : ℕ) (hm : 2 * (m * u) ≤ 1)
    (t : List K) (s : K) (ht : NearProducts u (((List.range m).filter fun i => decide (p i)).map f) t) (hs : Summed fl t s) :
    |s - ∑ i ∈ Finset.range m, if p i then f i else 0| ≤ 2 * (m * u) * ∑ i ∈ Finset.range m, if p i then |f i| else 0 := by
  have hu := relErr_nonneg hfl
  unfold NearProducts at ht
  set P := ((List.range m).filter fun i => decide (p i)).map f with hP
  have hlen : P.length = t.length := ht.length_eq
  have hle : P.length ≤ m := by
    rw [hP, List.length_map]
    exact (List.length_filter_le _ _).trans (by simp)
  have h0 := Summed.pos hs
  have c := Summed.close hfl 1 hs P (P.map fun v => |v|) hlen (by rw [List.length_map, hlen]) (fun i h1 h2 h3 => by
    rw [List.getElem_map (f := fun v => |v|)]
    refine ⟨le_rfl, ?_⟩
    have := (List.forall₂_iff_get.1 ht).2 i h1 h2
    simp only [List.get_eq_getElem] at this
    rw [pow_one, add_sub_cancel_left]
    exact this)
  have e1 : P.sum = ∑ i ∈ Finset.range m, if p i then f i else 0 := sum_filter_range p f m
  have e2 : (P.map fun v => |v|).sum = ∑ i ∈ Finset.range m, if p i then |f i| else 0 := by
    rw [hP, List.map_map]
    exact sum_filter_range p (fun i => |f i|) m
  rw [e1, e2] at c
  exact (c.mono hu (by omega : 1 + (t.length - 1) ≤ m) le_rfl).two_units hu hm

theorem fl_zero (hfl : RelErr fl u) : fl 0 = 0 := by
  have := hfl 0
  rw [abs_zero, mul_zero, sub_zero] at this
  exact abs_eq_zero.1 (le_antisymm this (abs_nonneg _))

theorem flMake_ok {a b : Axis K} {z w : List K} (h : flMake fl a z = .ok (b, w)) : ∃ l, a.flArray fl = .ok l ∧ l.length = z.length := by
  unfold flMake at h
  cases hl : a.flArray fl with
  | error e => rw [hl] at h; exact absurd h (by simp [Bind.bind, Except.bind])
  | ok l =>
    rw [hl, except_bind_ok] at h
    split at h
    · exact absurd h (by simp)
    · rename_i hne
      exact ⟨l, rfl, not_not.1 hne⟩

theorem flConv_eq {x1 x2 : Axis K} {l1 l2 : List K} {M1 M2 : K} {y1 y2 : List K} (h1 : WellResolved fl u x1 l1 n M1 y1)
    (h2 : WellResolved fl u x2 l2 n M2 y2) (hs : x1.sample = x2.sample) (L : K) (hL1 : fl (x1.stop - x1.start) = L)
    (hL2 : fl (x2.stop - x2.start) = L) (np : List K → List K → List K) (hnp : (np y1 y2).length = 2 * n + 1) :
    Rel.flConv fl np ⟨x1, y1⟩ ⟨x2, y2⟩ = .ok ⟨⟨-L, L, x1.sample⟩, np y1 y2⟩ := by
  have hfl := h1.rel
  have hu := relErr_nonneg hfl
  have hsp := h1.positive
  have hn : (1 : K) ≤ n := by exact_mod_cast h1.many
  have hn0 : (0 : K) < n := by linarith
  have hunits := h1.units
  have shift : ∀ {x : Axis K} {l : List K} {M : K} {y : List K}, WellResolved fl u x l n M y → fl (x.stop - x.start) = L →
      flMake fl ⟨0, L, x.sample⟩ y = .ok (⟨0, L, x.sample⟩, y) ∧
        Rel.flShift fl ⟨x, y⟩ (-x.start) = .ok ⟨⟨0, L, x.sample⟩, y⟩ := by
    intro x l M y h hL
    have hM : 0 ≤ u * M := mul_nonneg hu ((abs_nonneg _).trans h.startBound)
    have hm := C96_shift h (-x.start) (by
      rw [abs_neg]
      have := mul_le_mul_of_nonneg_left h.startBound hu
      have := h.resolved
      linarith)
    have e : x.flShift fl (-x.start) = ⟨0, L, x.sample⟩ := by
      unfold Axis.flShift
      rw [add_neg_cancel, fl_zero hfl, ← sub_eq_add_neg, hL]
    rw [e] at hm
    refine ⟨hm, ?_⟩
    unfold Rel.flShift
    simp only [e]
    exact flRel_of_make hm
  obtain ⟨m1, s1⟩ := shift h1 hL1
  obtain ⟨m2, s2⟩ := shift h2 hL2
  rw [← hs] at m2 s2
  -- the length
  have hfit := abs_le.1 h1.fits
  have hw : 7 / 8 * x1.sample ≤ (x1.stop - x1.start) / n := h1.step'.1
  have hw2 : (x1.stop - x1.start) / n ≤ 9 / 8 * x1.sample := h1.step'.2
  rw [le_div_iff₀ hn0] at hw
  rw [div_le_iff₀ hn0] at hw2
  have hw0 : 0 < x1.stop - x1.start := lt_of_lt_of_le (by positivity) hw
  have hr := abs_le.1 (hfl (x1.stop - x1.start))
  rw [abs_of_pos hw0, hL1] at hr
  have hu1 : u * (x1.stop - x1.start) ≤ 1 / 100 * (x1.stop - x1.start) := mul_le_mul_of_nonneg_right h1.unit hw0.le
  have hu2 : u * (x1.stop - x1.start) ≤ 9 / 8 / 56 * x1.sample := by
    have := mul_le_mul_of_nonneg_left hw2 hu
    have := mul_le_mul_of_nonneg_right hunits hsp.le
    linarith
  have hLp : 0 < L := by linarith [hr.1]
  obtain ⟨l', hl', hlen⟩ := flMake_ok m1
  have hinc : l'.Pairwise (· < ·) := by
    refine C92_increasing fl u hfl h1.unit ⟨0, L, x1.sample⟩ l' hl' n h1.many (by rw [hlen, h1.values]) L (by simp [hLp.le])
      (by simp [abs_of_pos hLp]) ?_
    rw [sub_zero, lt_div_iff₀ hn0]
    have := mul_le_mul_of_nonneg_right hunits hLp.le
    linarith
  have ne : ∀ {y : List K}, y.length = n + 1 → y ≠ [] := fun h e => by rw [e] at h; simp at h
  have o1 := C103_own_axis fl ⟨⟨0, L, x1.sample⟩, y1⟩ l' hl' hinc hlen (ne h1.values)
  have o2 := C103_own_axis fl ⟨⟨0, L, x1.sample⟩, y2⟩ l' hl' hinc (by simp only [hlen, h1.values, h2.values]) (ne h2.values)
  have hc : commonX (⟨0, L, x1.sample⟩ : Axis K) ⟨0, L, x1.sample⟩ = ⟨0, L, x1.sample⟩ := by unfold commonX; simp
  have he : Rel.flEqualize fl false ⟨⟨0, L, x1.sample⟩, y1⟩ ⟨⟨0, L, x1.sample⟩, y2⟩ =
      .ok ((⟨⟨0, L, x1.sample⟩, y1⟩ : Rel K K), (⟨⟨0, L, x1.sample⟩, y2⟩ : Rel K K)) := by
    unfold Rel.flEqualize
    simp only [Bool.false_eq_true, if_false, hc, o1, o2, except_bind_ok]
    rfl
  unfold Rel.flConv
  simp only [s1, s2, except_bind_ok, he]
  refine flRel_of_make (a := ⟨-L, L, x1.sample⟩) (flMake_stretch hfl x1.sample (-L) L hsp (2 * n) _ hnp (3 / 10) ?_ ?_
    (by linarith [h1.unit]))
  · have e : (L - -L) / x1.sample - ((2 * n : ℕ) : K) = 2 * (L - n * x1.sample) / x1.sample := by
      push_cast; field_simp; ring
    rw [e, abs_div, abs_of_pos hsp, div_le_iff₀ hsp, abs_le]
    constructor <;> linarith [hr.1, hr.2, hfit.1, hfit.2]
  · push_cast
    have := h1.unit
    linarith

/-- Convolution of relations of `n + 1` samples, whose axes have the same step and length: `2 n + 1` values on the axis from minus the
length to the length. Each is the sum of products up to `2 (n + 1) u` times the sum of their absolute values, in whatever order numpy sums. -/
theorem C104_convolve {x1 x2 : Axis K} {l1 l2 : List K} {M1 M2 : K} {y1 y2 : List K} (h1 : WellResolved fl u x1 l1 n M1 y1)
    (h2 : WellResolved fl u x2 l2 n M2 y2) (hs : x1.sample = x2.sample)
    (hL : fl (x1.stop - x1.start) = fl (x2.stop - x2.start)) (np : List K → List K → List K)
    (hnp : SumsProducts fl u convProducts np) :
    ∃ q, Rel.flConv fl np ⟨x1, y1⟩ ⟨x2, y2⟩ = .ok q ∧
      q.x = ⟨-fl (x1.stop - x1.start), fl (x1.stop - x1.start), x1.sample⟩ ∧ q.y.length = 2 * n + 1 ∧
      ∀ k (hk : k < q.y.length),
        |q.y[k] - ∑ i ∈ Finset.range (n + 1), if i ≤ k then y1.getD i 0 * y2.getD (k - i) 0 else 0| ≤
          2 * ((n + 1) * u) * ∑ i ∈ Finset.range (n + 1), if i ≤ k then |y1.getD i 0 * y2.getD (k - i) 0| else 0 := by
  have ne : ∀ {y : List K}, y.length = n + 1 → y ≠ [] := fun h e => by rw [e] at h; simp at h
  obtain ⟨hlen, hk⟩ := hnp y1 y2 (ne h1.values) (ne h2.values)
  rw [h1.values, h2.values] at hlen
  have hlen' : (np y1 y2).length = 2 * n + 1 := by omega
  refine ⟨_, flConv_eq h1 h2 hs _ rfl hL.symm np hlen', rfl, hlen', fun k hk' => ?_⟩
  obtain ⟨t, ht, hsum⟩ := hk k hk'
  unfold convProducts at ht
  rw [h1.values] at ht
  have := nearProducts_error h1.rel (fun i => i ≤ k ∧ k - i < y2.length) (fun i => y1.getD i 0 * y2.getD (k - i) 0) (n + 1)
    (h1.few (n + 1) (by have := h1.many; omega)) t _ ht hsum
  have hz : ∀ i, ¬ k - i < y2.length → y2.getD (k - i) 0 = 0 := fun i h => by
    rw [List.getD_eq_getElem?_getD, List.getElem?_eq_none (by omega), Option.getD_none]
  have e1 : ∀ i, (if i ≤ k ∧ k - i < y2.length then y1.getD i 0 * y2.getD (k - i) 0 else 0) =
      if i ≤ k then y1.getD i 0 * y2.getD (k - i) 0 else 0 := by
    intro i
    by_cases h : k - i < y2.length
    · simp only [h, and_true]
    · simp only [h, and_false, hz i h, mul_zero, ite_self]
  have e2 : ∀ i, (if i ≤ k ∧ k - i < y2.length then |y1.getD i 0 * y2.getD (k - i) 0| else 0) =
      if i ≤ k then |y1.getD i 0 * y2.getD (k - i) 0| else 0 := by
    intro i
    by_cases h : k - i < y2.length
    · simp only [h, and_true]
    · simp only [h, and_false, hz i h, mul_zero, abs_zero, ite_self]
  simp only [e1, e2] at this
  push_cast at this
  exact this

/-- Correlation in the same way; value `n + d` belongs to the lag `d`. -/
theorem C104_correlate {x1 x2 : Axis K} {l1 l2 : List K} {M1 M2 : K} {y1 y2 : List K} (h1 : WellResolved fl u x1 l1 n M1 y1)
    (h2 : WellResolved fl u x2 l2 n M2 y2) (hs : x1.sample = x2.sample)
    (hL : fl (x1.stop - x1.start) = fl (x2.stop - x2.start)) (np : List K → List K → List K)
    (hnp : SumsProducts fl u corrProducts np) :
    ∃ q, Rel.flConv fl np ⟨x1, y1⟩ ⟨x2, y2⟩ = .ok q ∧
      q.x = ⟨-fl (x1.stop - x1.start), fl (x1.stop - x1.start), x1.sample⟩ ∧ q.y.length = 2 * n + 1 ∧
      ∀ k (hk : k < q.y.length),
        |q.y[k] - ∑ i ∈ Finset.range (n + 1), if k ≤ n + i ∧ i ≤ k then y1.getD i 0 * y2.getD (n + i - k) 0 else 0| ≤
          2 * ((n + 1) * u) *
            ∑ i ∈ Finset.range (n + 1), if k ≤ n + i ∧ i ≤ k then |y1.getD i 0 * y2.getD (n + i - k) 0| else 0 := by
  have ne : ∀ {y : List K}, y.length = n + 1 → y ≠ [] := fun h e => by rw [e] at h; simp at h
  obtain ⟨hlen, hk⟩ := hnp y1 y2 (ne h1.values) (ne h2.values)
  rw [h1.values, h2.values] at hlen
  have hlen' : (np y1 y2).length = 2 * n + 1 := by omega
  refine ⟨_, flConv_eq h1 h2 hs _ rfl hL.symm np hlen', rfl, hlen', fun k hk' => ?_⟩
  obtain ⟨t, ht, hsum⟩ := hk k hk'
  unfold corrProducts at ht
  simp only [h1.values, h2.values, Nat.add_sub_cancel] at ht
  have := nearProducts_error h1.rel (fun i => k < n + 1 + i ∧ i ≤ k) (fun i => y1.getD i 0 * y2.getD (n + i - k) 0) (n + 1)
    (h1.few (n + 1) (by have := h1.many; omega)) t _ ht hsum
  have e : ∀ i, k < n + 1 + i ↔ k ≤ n + i := fun i => by omega
  simp only [e] at this
  push_cast at this
  exact this

/-! ## The contracts can be met -/

/-- from left to right -/
def leftSum (fl : K → K) : List K → K
  | [] => 0
  | a :: l => l.foldl (fun s t => fl (s + t)) a

theorem leftSum_sums (fl : K → K) : Sums fl (leftSum fl) := by
  intro l hl
  cases l with
  | nil => exact absurd rfl hl
  | cons a l =>
    have : ∀ (l p : List K) (s : K), Summed fl p s → Summed fl (p ++ l) (l.foldl (fun s t => fl (s + t)) s) := by
      intro l
      induction l with
      | nil => intro p s h; simpa using h
      | cons b l ih =>
        intro p s h
        have := ih (p ++ [b]) _ (h.add (.one b))
        simpa using this
    exact this l [a] a (.one a)

theorem sumsProducts_rounded (hfl : RelErr fl u) (products : List K → List K → ℕ → List K)
    (hne : ∀ a b k, a ≠ [] → b ≠ [] → k < a.length + b.length - 1 → products a b k ≠ []) :
    SumsProducts fl u products fun a b =>
      (List.range (a.length + b.length - 1)).map fun k => leftSum fl ((products a b k).map fl) := by
  intro a b ha hb
  refine ⟨by simp, fun k hk => ⟨(products a b k).map fl, ?_, ?_⟩⟩
  · unfold NearProducts
    rw [List.forall₂_map_right_iff]
    exact List.forall₂_same.2 fun v _ => hfl v
  · simp only [List.getElem_map, List.getElem_range]
    refine leftSum_sums fl _ fun e => hne a b k ha hb (by simpa using hk) ?_
    simpa using e

theorem convProducts_ne (a b : List K) (k : ℕ) (ha : a ≠ []) (hb : b ≠ []) (hk : k < a.length + b.length - 1) :
    convProducts a b k ≠ [] := by
  have ha' := List.length_pos_iff.2 ha
  have hb' := List.length_pos_iff.2 hb
  unfold convProducts
  apply List.ne_nil_of_mem (a := a.getD (k - (b.length - 1)) 0 * b.getD (k - (k - (b.length - 1))) 0)
  refine List.mem_map.2 ⟨k - (b.length - 1), List.mem_filter.2 ⟨List.mem_range.2 (by omega), decide_eq_true ?_⟩, rfl⟩
  omega

theorem corrProducts_ne (a b : List K) (k : ℕ) (ha : a ≠ []) (hb : b ≠ []) (hk : k < a.length + b.length - 1) :
    corrProducts a b k ≠ [] := by
  have ha' := List.length_pos_iff.2 ha
  have hb' := List.length_pos_iff.2 hb
  unfold corrProducts
  apply List.ne_nil_of_mem (a := a.getD (k - (b.length - 1)) 0 * b.getD (b.length - 1 + (k - (b.length - 1)) - k) 0)
  refine List.mem_map.2 ⟨k - (b.length - 1), List.mem_filter.2 ⟨List.mem_range.2 (by omega), decide_eq_true ?_⟩, rfl⟩
  omega

end

/-! Concrete cases: eleven samples at 0, 0.1, ..., 1 -/

theorem tenths_values (y : List ℚ) (hy : y.length = 11) :
    WellResolved fl64 (2 ^ (-53 : ℤ)) ⟨0, 1, fl64 (1 / 10)⟩ (flLinspace fl64 0 1 11) 10 1 y where
  rel := fl64_relErr
  unit := by norm_num
  array := by decide +kernel
  many := by norm_num
  points := flLinspace_length _ _ _ _
  values := hy
  startBound := by norm_num
  stopBound := by norm_num
  fits := by decide +kernel
  resolved := by decide +kernel
  positive := by decide +kernel

private def tenthsY : List ℚ := [0, 1, 1/3, -2, 5, 0, 0, 7, 1, 1, -1]

example := C104_integrate (tenths_values tenthsY rfl)
example := C104_diff (tenths_values tenthsY rfl)
example := C104_norm (tenths_values tenthsY rfl) (leftSum fl64) (leftSum_sums fl64) _ _ rfl rfl
example := C104_convolve (tenths_values tenthsY rfl) (tenths_values tenthsY.reverse rfl) rfl rfl _
  (sumsProducts_rounded fl64_relErr convProducts convProducts_ne)
example := C104_correlate (tenths_values tenthsY rfl) (tenths_values tenthsY rfl) rfl rfl _
  (sumsProducts_rounded fl64_relErr corrProducts corrProducts_ne)

/-- rounding does happen: the computed integral of these samples is not the exact one -/
theorem C104_witness : ∃ q : Rel ℚ ℚ, Rel.flIntegrate fl64 ⟨⟨0, 1, fl64 (1 / 10)⟩, [0, 1, 1/3, -2, 5, 0, 0, 7, 1, 1, -1]⟩ = .ok q ∧
    q.y.getD 1 0 ≠ fl64 (1 / 10) * (1 / 2 + (1 + 1 / 3) / 2) := by
  refine ⟨⟨(⟨0, 1, fl64 (1 / 10)⟩ : Axis ℚ).flIntegrate fl64, (flCumsum fl64 (List.zipWith (fun a b => fl64 (fl64 (b + a) / 2))
    [0, 1, 1/3, -2, 5, 0, 0, 7, 1, 1, -1] [1, 1/3, -2, 5, 0, 0, 7, 1, 1, -1])).map fun v => fl64 (v * fl64 (1 / 10))⟩, ?_, ?_⟩ <;>
    decide +kernel

end SweepDesign
