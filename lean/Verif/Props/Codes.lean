import Verif.Lemmas.Grid
import Verif.Model.Codes
import Verif.Props.Aprior
import Verif.Props.SignalShift

set_option linter.unusedSectionVars false

/-!
# C59–C62: code sequences and sweeps composed from codes
-/

namespace SweepDesign

open Spec

/-! ## C59 -/

theorem flatten_replicate_getElem? {α : Type} (l : List α) (n i : ℕ) (h : i < n * l.length) :
    (List.replicate n l).flatten[i]? = l[i % l.length]? := by
  induction n generalizing i with
  | zero => simp at h
  | succ n ih =>
    rw [List.replicate_succ, List.flatten_cons]
    rcases Nat.lt_or_ge i l.length with hi | hi
    · rw [List.getElem?_append_left hi, Nat.mod_eq_of_lt hi]
    · rw [List.getElem?_append_right hi, ih _ (by rw [Nat.succ_mul] at h; omega), Nat.mod_eq_sub_mod hi]

/-- **C59** The code is repeated `p` times; a non-positive `p` gives the empty list. -/
theorem C59_repeat {α : Type} (code : List α) (p : ℤ) :
    (getCodeZinger code p).length = p.toNat * code.length ∧
    (∀ i < p.toNat * code.length, (getCodeZinger code p)[i]? = code[i % code.length]?) ∧
    (p ≤ 0 → getCodeZinger code p = []) := by
  refine ⟨by simp [getCodeZinger, pyRepeat], fun i hi => flatten_replicate_getElem? _ _ _ hi, fun h => ?_⟩
  simp [getCodeZinger, pyRepeat, Int.toNat_of_nonpos h]

example : getCodeZinger [-1, -1, -1, (1 : ℤ)] 2 = [-1, -1, -1, 1, -1, -1, -1, 1] := by decide

/-! ## C60 -/

section
variable {K : Type} [Field K] [LinearOrder K] [IsStrictOrderedRing K] [FloorRing K]
variable {V : Type} [Field V] [Algebra K V] [DecidableEq V] [PyPow V]

/-- **C60** One period or less: the relation itself. -/
theorem C60_one_period (r : Rel K V) (p : ℤ) (hp : p ≤ 1) : getCodeZingerRelation r p = .ok r := by
  unfold getCodeZingerRelation
  exact if_neg (by omega)

theorem grid_shift {r : Rel K V} {o s : K} (hs : 0 < s) {k : ℤ} {n : ℕ} (h : OnGrid r o s k n) (d : ℤ) (t : K) (ht : t = d * s) :
    ∃ q, r.shift t = .ok q ∧ OnGrid q o s (k + d) n ∧ q.y = r.y := by
  refine ⟨_, shift_ok r (h.balanced hs) t, ⟨?_, h.2⟩, rfl⟩
  rw [h.1, ht]
  simp only [Axis.mk.injEq, and_true]
  constructor <;> · push_cast; ring

theorem zinger_fold (r : Rel K V) (s : K) (hs : 0 < s) (m : ℕ) (h : OnGrid r 0 s 0 m) (p : ℕ) :
    ∃ q, (List.range p).foldlM (fun sequence (k : ℕ) => do
        let shifted ← r.shift (r.x.stop * k)
        sequence.add (.rel false shifted)) r = .ok q ∧ OnGrid q 0 s 0 (max 1 p * m) ∧
      ∀ j : ℤ, zext q.y j = zext r.y j + ∑ k ∈ Finset.range p, zext r.y (j - k * m) := by
  induction p with
  | zero => exact ⟨r, rfl, by simpa using h, by simp⟩
  | succ p ih =>
    obtain ⟨q, h1, h2, h3⟩ := ih
    obtain ⟨q2, g1, g2, g3⟩ := grid_shift hs h (p * m : ℤ) (r.x.stop * p) (by rw [h.1]; push_cast; ring)
    obtain ⟨q3, a1, a2, a3⟩ := grid_add hs h2 g2
    refine ⟨q3, ?_, ?_, ?_⟩
    · rw [List.range_succ, List.foldlM_append, h1]
      simp only [except_bind_ok, List.foldlM_cons, List.foldlM_nil, g1, a1, except_pure]
    · have e1 : min (0 : ℤ) (0 + p * m) = 0 := by
        rw [min_eq_left]; positivity
      have e2 : (max (0 + ((max 1 p * m : ℕ) : ℤ)) (0 + p * m + m) - 0).toNat = max 1 (p + 1) * m := by
        have : max 1 p * m ≤ (p + 1) * m := Nat.mul_le_mul_right _ (by omega)
        have h' : (((max 1 p * m : ℕ) : ℤ)) ≤ p * m + m := by
          have : ((max 1 p * m : ℕ) : ℤ) ≤ (((p + 1) * m : ℕ) : ℤ) := by exact_mod_cast this
          push_cast at this ⊢; linarith
        rw [max_eq_right (by linarith), max_eq_right (by omega : 1 ≤ p + 1)]
        have : (0 + (p : ℤ) * m + m - 0) = (((p + 1) * m : ℕ) : ℤ) := by push_cast; ring
        rw [this, Int.toNat_natCast]
      rw [e1, e2] at a2
      exact a2
    · intro j
      have e1 : min (0 : ℤ) (0 + p * m) = 0 := by
        rw [min_eq_left]; positivity
      have := a3 j
      rw [e1, sub_zero, g3, zero_add] at this
      rw [this, h3, Finset.sum_range_succ, add_assoc]

/-- **C60** For `p ≥ 2` the relation `r` on `0, s, …, m s` becomes a relation on `0, s, …, p m s`, the sum of `r` and of
`p` copies of `r`, the `k`-th starting at `k m s` for `k = 0, …, p - 1`: the first period is there twice. -/
theorem C60_sum (r : Rel K V) (s : K) (hs : 0 < s) (m : ℕ) (hx : r.x = ⟨0, m * s, s⟩) (hy : r.y.length = m + 1) (p : ℕ)
    (hp : 2 ≤ p) :
    ∃ q, getCodeZingerRelation r p = .ok q ∧ q.x = ⟨0, p * (m * s), s⟩ ∧ q.y.length = p * m + 1 ∧
      ∀ i : ℕ, q.y.getD i 0 = r.y.getD i 0 + ∑ k ∈ Finset.range p, zext r.y (i - k * m) := by
  have h : OnGrid r 0 s 0 m := ⟨by rw [hx]; simp, hy⟩
  obtain ⟨q, h1, h2, h3⟩ := zinger_fold r s hs m h p
  rw [max_eq_right (by omega : 1 ≤ p)] at h2
  refine ⟨q, ?_, ?_, h2.2, fun i => ?_⟩
  · unfold getCodeZingerRelation
    rw [if_pos (by omega), Int.toNat_natCast]
    exact h1
  · rw [h2.1]
    simp [mul_assoc]
  · have := h3 i
    rw [zext_natCast, zext_natCast] at this
    exact this

/-- **C60** position by position: twice the value inside the first period, once inside the later ones, the sum of the last
and the first value where two periods meet. -/
theorem C60_values (r q : Rel K V) (s : K) (hs : 0 < s) (m : ℕ) (hm : 1 ≤ m) (hx : r.x = ⟨0, m * s, s⟩)
    (hy : r.y.length = m + 1) (p : ℕ) (hp : 2 ≤ p) (hq : getCodeZingerRelation r p = .ok q) :
    (∀ i < m, q.y.getD i 0 = 2 * r.y.getD i 0) ∧
    q.y.getD m 0 = 2 * r.y.getD m 0 + r.y.getD 0 0 ∧
    (∀ k i, 1 ≤ k → k < p → 0 < i → i < m → q.y.getD (k * m + i) 0 = r.y.getD i 0) ∧
    (∀ k, 2 ≤ k → k < p → q.y.getD (k * m) 0 = r.y.getD m 0 + r.y.getD 0 0) ∧
    q.y.getD (p * m) 0 = r.y.getD m 0 := by
  obtain ⟨q', h1, -, -, h4⟩ := C60_sum r s hs m hx hy p hp
  rw [hq, Except.ok.injEq] at h1
  subst h1
  -- at position `k m + i` with `i < m` only the copies `k` and (for `i = 0`) `k - 1` do not vanish
  have key : ∀ k i, i < m → ∑ k' ∈ Finset.range p, zext r.y (((k * m + i : ℕ) : ℤ) - k' * m) =
      (if k < p then r.y.getD i 0 else 0) + (if i = 0 ∧ 1 ≤ k ∧ k - 1 < p then r.y.getD m 0 else 0) := by
    intro k i hi
    have term : ∀ k' : ℕ, zext r.y (((k * m + i : ℕ) : ℤ) - k' * m) =
        (if k' = k then r.y.getD i 0 else 0) + (if k' + 1 = k ∧ i = 0 then r.y.getD m 0 else 0) := by
      intro k'
      rcases Nat.lt_trichotomy k' k with hk | hk | hk
      · obtain ⟨d, rfl⟩ := Nat.exists_eq_add_of_lt hk
        have e : (((k' + d + 1) * m + i : ℕ) : ℤ) - k' * m = (((d + 1) * m + i : ℕ) : ℤ) := by push_cast; ring
        rw [e, zext_natCast, if_neg (by omega), zero_add]
        rcases Nat.eq_zero_or_pos (d + i) with h0 | h0
        · obtain ⟨rfl, rfl⟩ : d = 0 ∧ i = 0 := by omega
          simp
        · rw [if_neg (by omega), getD_ge _ _ _ ?_]
          rw [hy]
          have : d * m + i ≥ 1 := by
            rcases Nat.eq_zero_or_pos d with rfl | hd
            · omega
            · have : 1 ≤ d * m := Nat.mul_pos hd (by omega)
              omega
          have : (d + 1) * m = d * m + m := by ring
          omega
      · subst hk
        have e : (((k' * m + i : ℕ) : ℤ)) - k' * m = (i : ℤ) := by push_cast; ring
        rw [e, zext_natCast, if_pos rfl, if_neg (by omega), add_zero]
      · rw [if_neg (by omega), if_neg (by omega), add_zero, zext_neg]
        obtain ⟨d, rfl⟩ := Nat.exists_eq_add_of_lt hk
        have : ((k * m + i : ℕ) : ℤ) - ((k + d + 1 : ℕ) : ℤ) * m = (i : ℤ) - m - d * m := by push_cast; ring
        rw [this]
        have : (0 : ℤ) ≤ (d : ℤ) * m := by positivity
        omega
    simp only [term]
    rw [Finset.sum_add_distrib, Finset.sum_ite_eq' (Finset.range p) k (fun _ => r.y.getD i 0)]
    congr 1
    · simp
    · by_cases hk : 1 ≤ k ∧ i = 0
      · obtain ⟨hk, rfl⟩ := hk
        have : ∀ k' : ℕ, (k' + 1 = k ∧ True) ↔ k' = k - 1 := by intro k'; simp only [and_true]; omega
        simp only [this]
        rw [Finset.sum_ite_eq' (Finset.range p) (k - 1) (fun _ => r.y.getD m 0)]
        simp [hk]
      · rw [if_neg (by tauto)]
        apply Finset.sum_eq_zero
        intro k' _
        rw [if_neg (by omega)]
  refine ⟨fun i hi => ?_, ?_, fun k i hk1 hk2 hi0 hi => ?_, fun k hk1 hk2 => ?_, ?_⟩
  · have := h4 i
    have k0 := key 0 i hi
    rw [Nat.zero_mul, Nat.zero_add] at k0
    rw [this, k0, if_pos (by omega), if_neg (by omega)]
    ring
  · have := h4 m
    have k0 := key 1 0 (by omega)
    rw [Nat.one_mul, Nat.add_zero] at k0
    rw [this, k0, if_pos (by omega), if_pos (by omega)]
    ring
  · rw [h4, key k i hi, if_pos hk2, if_neg (by omega), getD_ge _ _ _ ?_]
    · ring
    · rw [hy]
      have : 1 * m ≤ k * m := Nat.mul_le_mul_right _ hk1
      omega
  · have k0 := key k 0 (by omega)
    rw [Nat.add_zero] at k0
    rw [h4, k0, if_pos hk2, if_pos (by omega), getD_ge _ _ _ ?_]
    · ring
    · rw [hy]
      have : 2 * m ≤ k * m := Nat.mul_le_mul_right _ hk1
      omega
  · have k0 := key p 0 (by omega)
    rw [Nat.add_zero] at k0
    rw [h4, k0, if_neg (by omega), if_pos (by omega), getD_ge _ _ _ ?_]
    · ring
    · rw [hy]
      have : 2 * m ≤ p * m := Nat.mul_le_mul_right _ hp
      omega

example : getCodeZingerRelation (⟨⟨0, 2, 1⟩, [5, 7, 1]⟩ : Rel ℚ ℚ) 3 =
    .ok ⟨⟨0, 6, 1⟩, [10, 14, 7, 7, 6, 7, 1]⟩ := by decide +kernel

/-! ## C62 -/

theorem segments_loop (base : Rel K V) (s : K) (hs : 0 < s) (a b : ℤ) (hab : a ≤ b)
    (hx : base.x = ⟨a * s, b * s, s⟩) (hy : (base.y.length : ℤ) = b - a + 1) (code : List V) (cnt : ℕ) (acc : Rel K V)
    (ka : ℤ) (na : ℕ) (hacc : OnGrid acc 0 s ka na) :
    ∃ q k n, codeSegmentsLoop base cnt code acc = .ok q ∧ OnGrid q 0 s k n ∧
      (code = [] → k = ka ∧ n = na) ∧
      (0 ≤ b → ka = a → ka + na ≤ cnt * b + 1 + b → code ≠ [] → k = a ∧ k + n = (cnt + code.length) * b + 1) ∧
      ∀ j : ℤ, zext q.y (j - k) = zext acc.y (j - ka) +
        ∑ i ∈ Finset.range code.length, zext base.y (j - a - ((cnt + i) * b + 1)) * code.getD i 0 := by
  have hb : OnGrid base 0 s a (b - a).toNat := by
    refine ⟨?_, by omega⟩
    rw [hx]
    have : ((b - a).toNat : ℤ) = b - a := by omega
    have h' : (((b - a).toNat : ℤ) : K) = ((b - a : ℤ) : K) := by rw [this]
    push_cast at h'
    rw [h']; simp
  induction code generalizing cnt acc ka na with
  | nil => exact ⟨acc, ka, na, rfl, hacc, fun _ => ⟨rfl, rfl⟩, fun _ _ _ h => absurd rfl h, fun j => by simp⟩
  | cons v code ih =>
    obtain ⟨sh, s1, s2, s3⟩ := grid_shift hs hb (cnt * b + 1 : ℤ) (cnt * base.x.stop + base.x.sample)
      (by rw [hx]; push_cast; ring)
    have m1 := mul_num_ok sh (s2.balanced hs) v
    have m2 : OnGrid (⟨sh.x, sh.y.map fun w => w * v⟩ : Rel K V) 0 s (a + (cnt * b + 1)) (b - a).toNat :=
      ⟨s2.1, by simpa using s2.2⟩
    obtain ⟨acc', a1, a2, a3⟩ := grid_add hs hacc m2
    obtain ⟨q, k, n, q1, q2, q3, q4, q5⟩ := ih (cnt + 1) acc' _ _ a2
    refine ⟨q, k, n, ?_, q2, by simp, ?_, ?_⟩
    · simp only [codeSegmentsLoop, s1, m1, a1, except_bind_ok, q1]
    · intro hb0 hka hna _
      have hcb : (0 : ℤ) ≤ cnt * b := by positivity
      have e1 : min ka (a + (cnt * b + 1)) = a := by omega
      have e2 : (max (ka + (na : ℤ)) (a + (cnt * b + 1) + ((b - a).toNat : ℤ)) - min ka (a + (cnt * b + 1))) =
          cnt * b + 1 + b - a := by
        rw [e1]; omega
      rw [e2, e1] at q3 q4
      have hnn : (0 : ℤ) ≤ cnt * b + 1 + b - a := by omega
      rcases hcode : code with _ | ⟨w, code'⟩
      · obtain ⟨rfl, rfl⟩ := q3 hcode
        refine ⟨rfl, ?_⟩
        rw [Int.toNat_of_nonneg hnn]
        simp; ring
      · rw [← hcode]
        obtain ⟨r1, r2⟩ := q4 hb0 rfl (by
          rw [Int.toNat_of_nonneg hnn]; push_cast; nlinarith) (by simp [hcode])
        refine ⟨r1, ?_⟩
        rw [r2, List.length_cons]; push_cast; ring
    · intro j
      rw [q5, a3, List.length_cons, Finset.sum_range_succ']
      simp only [List.getD_cons_succ, List.getD_cons_zero]
      rw [s3, zext_map]
      have e1 : (j - (a + (cnt * b + 1)) : ℤ) = j - a - (((cnt : ℤ) + ((0 : ℕ) : ℤ)) * b + 1) := by push_cast; ring
      have e2 : ∀ i : ℕ, (j - a - ((((cnt + 1 : ℕ) : ℤ) + (i : ℤ)) * b + 1)) =
          j - a - (((cnt : ℤ) + ((i + 1 : ℕ) : ℤ)) * b + 1) := by intro i; push_cast; ring
      simp only [e1, e2]
      ring

/-- **C62** A plain relation on `a s, …, b s` (`a ≤ b` whole numbers, `b ≥ 0`) and a code of at least two entries: the
result reaches from `a s` to `(N b + 1) s` and is the sum of the base times `code[0]` and, for every `k ≥ 1`, the base
moved by `k * end + sample` times `code[k]`. -/
theorem C62_relation (base : Rel K V) (s : K) (hs : 0 < s) (a b : ℤ) (hab : a ≤ b) (hb0 : 0 ≤ b)
    (hx : base.x = ⟨a * s, b * s, s⟩) (hy : (base.y.length : ℤ) = b - a + 1) (c : V) (code : List V) (hc : code ≠ []) :
    ∃ q, codeSegments (c :: code) base = .ok q ∧
      q.x = ⟨a * s, ((code.length + 1) * b + 1) * s, s⟩ ∧ (q.y.length : ℤ) = (code.length + 1) * b + 1 - a + 1 ∧
      ∀ j : ℤ, zext q.y (j - a) = zext base.y (j - a) * c +
        ∑ i ∈ Finset.range code.length, zext base.y (j - a - ((i + 1) * b + 1)) * code.getD i 0 := by
  have hb : OnGrid base 0 s a (b - a).toNat := by
    refine ⟨?_, by omega⟩
    rw [hx]
    have : ((b - a).toNat : ℤ) = b - a := by omega
    have h' : (((b - a).toNat : ℤ) : K) = ((b - a : ℤ) : K) := by rw [this]
    push_cast at h'
    rw [h']; simp
  have m1 := mul_num_ok base (hb.balanced hs) c
  have m2 : OnGrid (⟨base.x, base.y.map fun w => w * c⟩ : Rel K V) 0 s a (b - a).toNat := ⟨hb.1, by simpa using hb.2⟩
  obtain ⟨q, k, n, q1, q2, -, q4, q5⟩ := segments_loop base s hs a b hab hx hy code 1 _ _ _ m2
  obtain ⟨rfl, e2⟩ := q4 hb0 rfl (by omega) hc
  have hkn : ((k : K) + n) = (code.length + 1) * b + 1 := by
    have h' : ((k + n : ℤ) : K) = ((((1 : ℕ) : ℤ) + code.length) * b + 1 : ℤ) := by rw [e2]
    push_cast at h'
    rw [h']; ring
  refine ⟨q, ?_, ?_, ?_, fun j => ?_⟩
  · simp only [codeSegments, m1, except_bind_ok, q1]
  · rw [q2.1, hkn]; simp
  · have := q2.2
    push_cast at e2
    rw [this]; push_cast; linarith
  · rw [q5, zext_map]
    congr 1
    apply Finset.sum_congr rfl
    intro i _
    congr 2
    push_cast; ring

/-- the axis of the loop's result, for any base -/
theorem segments_axis (base : Rel K V) (hb : Balanced base) (h1 : 0 ≤ base.x.stop)
    (hs : 0 < base.x.sample) (code : List V) (cnt : ℕ) (acc : Rel K V) (ha : Balanced acc)
    (hst : acc.x.start = base.x.start) (hsa : acc.x.sample = base.x.sample)
    (hsp : acc.x.stop ≤ cnt * base.x.stop + base.x.sample + base.x.stop) :
    ∃ q, codeSegmentsLoop base cnt code acc = .ok q ∧ Balanced q ∧ q.x.start = base.x.start ∧
      q.x.sample = base.x.sample ∧
      q.x.stop = if code = [] then acc.x.stop else (cnt + code.length) * base.x.stop + base.x.sample := by
  induction code generalizing cnt acc with
  | nil => exact ⟨acc, rfl, ha, hst, hsa, by simp⟩
  | cons v code ih =>
    have s1 := shift_ok base hb (cnt * base.x.stop + base.x.sample)
    have sb : Balanced (⟨{ base.x with start := base.x.start + (cnt * base.x.stop + base.x.sample)
                                       stop := base.x.stop + (cnt * base.x.stop + base.x.sample) }, base.y⟩ : Rel K V) :=
      ((make_ok_iff _ _ _).1 s1).1
    have m1 := mul_num_ok _ sb v
    have mb := balanced_map (fun w => w * v) sb
    obtain ⟨⟨la, ya⟩, da⟩ := (balanced_iff_getData acc).1 ha
    obtain ⟨⟨lp, yp⟩, dp⟩ := (balanced_iff_getData _).1 mb
    obtain ⟨c1, -, c3⟩ := C25_different_axes _ _ _ _ _ _ da dp .add
    obtain ⟨q, hq⟩ := c3 (.inl rfl)
    obtain ⟨e1, e2, e3, xs, e4, -⟩ := c1 q hq
    have hcb : (0 : K) ≤ cnt * base.x.stop := by positivity
    have hstop : q.x.stop = (cnt + 1) * base.x.stop + base.x.sample := by
      rw [e2]
      simp only
      rw [max_eq_right (by linarith)]
      ring
    obtain ⟨q', r1, r2, r3, r4, r5⟩ := ih (cnt + 1) q ((balanced_iff_getData _).2 ⟨_, e4⟩)
      (by rw [e1, hst]; simp only; rw [min_eq_left (by linarith)])
      (by rw [e3, hsa]; simp)
      (by rw [hstop]; push_cast; linarith)
    refine ⟨q', ?_, r2, r3, r4, ?_⟩
    · simp only [codeSegmentsLoop, s1, m1, except_bind_ok, Rel.add, hq, r1]
    · rw [r5, if_neg (List.cons_ne_nil _ _)]
      split
      · rename_i hc
        rw [hstop, hc]; simp
      · rw [List.length_cons]; push_cast; ring

/-- **C62** Any plain relation as base (`end ≥ 0`, positive sample, not necessarily a whole number of
samples): the call succeeds, the result starts where the base starts and ends at `N * end + sample`, with the sample of
the base. -/
theorem C62_axis (base : Rel K V) (hb : Balanced base) (h1 : 0 ≤ base.x.stop)
    (hs : 0 < base.x.sample) (c : V) (code : List V) (hc : code ≠ []) :
    ∃ q, codeSegments (c :: code) base = .ok q ∧ Balanced q ∧
      q.x = ⟨base.x.start, (code.length + 1) * base.x.stop + base.x.sample, base.x.sample⟩ := by
  obtain ⟨q, e1, e2, e3, e4, e5⟩ := segments_axis base hb h1 hs code 1 _ (balanced_map (fun w => w * c) hb) rfl rfl
    (by simp only; push_cast; linarith)
  refine ⟨q, ?_, e2, ?_⟩
  · simp only [codeSegments, mul_num_ok base hb c, except_bind_ok, e1]
  · rw [if_neg hc] at e5
    rcases hq : q.x with ⟨a, b, d⟩
    rw [hq] at e3 e4 e5
    simp only at e3 e4 e5
    rw [e3, e4, e5]
    congr 1
    push_cast; ring

example : codeSegments [1, -1] (⟨⟨0, 7 / 3, 1⟩, [1, 2, 3]⟩ : Rel ℚ ℚ) ≠ .error .index ∧
    ((codeSegments [1, -1] (⟨⟨0, 7 / 3, 1⟩, [1, 2, 3]⟩ : Rel ℚ ℚ)).map fun q => (q.x, q.y.length)) =
      .ok (⟨0, 17 / 3, 1⟩, 7) := by decide +kernel

/-- the relation of the sweep that `get_code_sweep_segments` returns for a plain relation -/
theorem C62_sweep_of_relation [PyPow K] (P : SweepPrims K) (code : List K) (base : Rel K K) (s : Sweep K)
    (h : getCodeSweepSegments P code base = .ok s) :
    codeSegments code base = .ok s.rel ∧ s.aPriorSignal = none := by
  simp only [getCodeSweepSegments, except_bind_eq_ok] at h
  obtain ⟨r, h1, h2⟩ := h
  obtain ⟨e1, -, -, -, e4⟩ := sweepInit_ok h2
  simp only [Rel.init, Except.ok.injEq] at e1
  rw [h1, ← e1]
  exact ⟨rfl, e4⟩

/-- **C62** An empty code raises `IndexError`. -/
theorem C62_empty (base : Rel K V) : codeSegments [] base = .error .index := rfl

example : codeSegments [1, -1, 2] (⟨⟨0, 2, 1⟩, [1, 2, 3]⟩ : Rel ℚ ℚ) =
    .ok ⟨⟨0, 7, 1⟩, [1, 2, 3, -1, -2, -1, 4, 6]⟩ := by decide +kernel

end

theorem signalShift_keeps {r q : Rel ℝ ℝ} {d : ℝ} (h : r.signalShift d = .ok q) : q.x = r.x ∧ Balanced q := by
  simp only [Rel.signalShift, Rel.signalAddPhase, except_bind_eq_ok] at h
  obtain ⟨sp, -, f, -, sh, -, sp1, -, sp2, -, w, h1, h2⟩ := h
  simp only [Rel.init, Except.ok.injEq] at h2
  simp only [Rel.getSignal, spectrum2signal, except_bind_eq_ok] at h1
  obtain ⟨⟨t, a⟩, ⟨sz, -, am, -, t', h3, am2, -, h4⟩, h5⟩ := h1
  obtain ⟨h6, rfl⟩ := (make_ok_iff _ _ _).1 h5
  simp only [except_pure, Except.ok.injEq, Prod.mk.injEq] at h3 h4
  obtain ⟨rfl, rfl⟩ := h4
  subst h3
  rw [← h2]
  exact ⟨rfl, h6⟩

theorem add_same_axis (r q : Rel ℝ ℝ) (h1 : Balanced r) (h2 : Balanced q) (hx : q.x = r.x) :
    r.add (.rel false q) = .ok ⟨r.x, List.zipWith (· + ·) r.y q.y⟩ := by
  rw [Rel.add, operation_equal_axes _ _ _ _ h1 h2 hx.symm]
  have : List.zipWith MathOp.add.fn r.y q.y = (List.zipWith (· + ·) r.y q.y).map some := by
    rw [List.map_zipWith]; rfl
  rw [this, finite_map_some]
  rfl

/-- `y` is the sum of `acc` and of the copies `base.signalShift (cnt * end + sample)` scaled by the entries of the code -/
def Spec.SignalSegments (base : Rel ℝ ℝ) (cnt : ℕ) (code acc y : List ℝ) : Prop :=
  ∃ copies : List (List ℝ), copies.length = code.length ∧
    (∀ i (_ : i < copies.length), ∃ q, base.signalShift (((cnt + i : ℕ) : ℝ) * base.x.stop + base.x.sample) = .ok q ∧ q.y = copies[i]) ∧
    y.length = acc.length ∧
    ∀ j < y.length, y.getD j 0 = acc.getD j 0 + ∑ i ∈ Finset.range code.length, (copies.getD i []).getD j 0 * code.getD i 0

theorem signal_loop (base : Rel ℝ ℝ) (code : List ℝ) (cnt : ℕ) (acc q : Rel ℝ ℝ) (hb : Balanced acc) (hx : acc.x = base.x)
    (h : codeSegmentsSignalLoop base cnt code acc = .ok q) :
    q.x = base.x ∧ Balanced q ∧ SignalSegments base cnt code acc.y q.y := by
  induction code generalizing cnt acc with
  | nil =>
    simp only [codeSegmentsSignalLoop, Except.ok.injEq] at h
    subst h
    exact ⟨hx, hb, [], rfl, by simp, rfl, by simp⟩
  | cons v code ih =>
    simp only [codeSegmentsSignalLoop, except_bind_eq_ok] at h
    obtain ⟨sh, h1, part, h2, acc', h3, h4⟩ := h
    obtain ⟨s1, s2⟩ := signalShift_keeps h1
    rw [mul_num_ok sh s2 v, Except.ok.injEq] at h2
    subst h2
    have bp : Balanced (⟨sh.x, sh.y.map fun w => w * v⟩ : Rel ℝ ℝ) := balanced_map _ s2
    rw [add_same_axis acc _ hb bp (by rw [hx]; exact s1), Except.ok.injEq] at h3
    subst h3
    have hlen : acc.y.length = sh.y.length := by
      have := balanced_length_eq hb s2 (by rw [hx, s1])
      exact this
    obtain ⟨e1, e2, copies, c1, c2, c3, c4⟩ := ih (cnt + 1) _ (balanced_zipWith _ hb bp (by rw [hx]; exact s1.symm)) hx h4
    refine ⟨e1, e2, sh.y :: copies, by simp [c1], ?_, ?_, ?_⟩
    · intro i hi
      cases i with
      | zero => exact ⟨sh, by simpa using h1, by simp⟩
      | succ i =>
        obtain ⟨w, w1, w2⟩ := c2 i (by simpa using hi)
        refine ⟨w, ?_, by simpa using w2⟩
        rw [← w1]
        congr 3
        push_cast; ring
    · rw [c3]; simp [hlen]
    · intro j hj
      rw [c4 j hj, List.length_cons, Finset.sum_range_succ']
      simp only [List.getD_cons_succ, List.getD_cons_zero]
      have hj' : j < acc.y.length := by rw [c3] at hj; simp at hj; omega
      have : (List.zipWith (· + ·) acc.y (sh.y.map fun w => w * v)).getD j 0 = acc.y.getD j 0 + sh.y.getD j 0 * v := by
        rw [getD_lt _ _ _ (by simp; omega), getD_lt _ _ _ hj', getD_lt _ _ _ (by omega)]
        simp
      rw [this]; ring

/-- **C62** A `Signal` base: the result lives on the base's own axis whatever the code length; every copy is a circular
delay of the base inside that axis. -/
theorem C62_signal (P : SweepPrims ℝ) (c : ℝ) (code : List ℝ) (base : Rel ℝ ℝ) (hb : Balanced base) (s : Sweep ℝ)
    (h : getCodeSweepSegmentsSignal P (c :: code) base = .ok s) :
    s.rel.x = base.x ∧ s.rel.y.length = base.y.length ∧
      SignalSegments base 1 code (base.y.map fun v => v * c) s.rel.y := by
  simp only [getCodeSweepSegmentsSignal, mul_num_ok base hb c, except_bind_ok, except_bind_eq_ok] at h
  obtain ⟨r, h1, h2⟩ := h
  obtain ⟨e1, -⟩ := sweepInit_ok h2
  simp only [Rel.init, Except.ok.injEq] at e1
  obtain ⟨g1, g2, g3⟩ := signal_loop base code 1 _ r (balanced_map _ hb) rfl h1
  rw [← e1]
  refine ⟨g1, ?_, g3⟩
  obtain ⟨copies, -, -, g4, -⟩ := g3
  simpa using g4

theorem sweep_of_rel {P : SweepPrims ℝ} {r : Rel ℝ ℝ} {s : Sweep ℝ} (h : Sweep.init P (.rel r) none none none none = .ok s) :
    s.rel = r := by
  obtain ⟨e1, -⟩ := sweepInit_ok h
  simp only [Rel.init, Except.ok.injEq] at e1
  rw [← e1]

theorem sweep_loop (P : SweepPrims ℝ) (base : Sweep ℝ) (code : List ℝ) (cnt : ℕ) (acc q : Sweep ℝ)
    (h : codeSegmentsSweepLoop P base cnt code acc = .ok q) :
    codeSegmentsSignalLoop base.rel cnt code acc.rel = .ok q.rel := by
  induction code generalizing cnt acc with
  | nil =>
    simp only [codeSegmentsSweepLoop, Except.ok.injEq] at h
    subst h; rfl
  | cons v code ih =>
    simp only [codeSegmentsSweepLoop, Sweep.shift, except_bind_eq_ok] at h
    obtain ⟨sh, ⟨r, h1, h2⟩, part, h3, acc', h4, h5⟩ := h
    have e1 := sweep_of_rel h2
    have e2 := (C55_operation P _ _ _ _ h3).1
    have e3 := (C55_operation P _ _ _ _ h4).1
    rw [e1] at e2
    simp only [codeSegmentsSignalLoop, h1, except_bind_ok, Rel.mul, e2, Rel.add, e3]
    exact ih _ _ h5

/-- **C62** A `Sweep` base gives the same samples as a `Signal` base: its own axis is kept too. -/
theorem C62_sweep (P : SweepPrims ℝ) (c : ℝ) (code : List ℝ) (base : Sweep ℝ) (hb : Balanced base.rel) (s : Sweep ℝ)
    (h : getCodeSweepSegmentsSweep P (c :: code) base = .ok s) :
    s.rel.x = base.rel.x ∧ s.rel.y.length = base.rel.y.length ∧
      SignalSegments base.rel 1 code (base.rel.y.map fun v => v * c) s.rel.y := by
  simp only [getCodeSweepSegmentsSweep, except_bind_eq_ok] at h
  obtain ⟨acc, h1, r, h2, h3⟩ := h
  have e1 := (C55_operation P _ _ _ _ h1).1
  have e2 := sweep_loop P base code 1 acc r h2
  have e3 := mul_num_ok base.rel hb c
  rw [Rel.mul, e1, Except.ok.injEq] at e3
  rw [e3] at e2
  obtain ⟨g1, g2, g3⟩ := signal_loop base.rel code 1 _ r.rel (balanced_map _ hb) rfl e2
  rw [sweep_of_rel h3]
  refine ⟨g1, ?_, g3⟩
  obtain ⟨copies, -, -, g4, -⟩ := g3
  simpa using g4

/-- **C62** The call succeeds for a signal of at least two samples on a non-decreasing axis with a positive sample when the black boxes of the
`Sweep` constructor work. -/
theorem C62_signal_succeeds (P : SweepPrims ℝ) (hP : PrimsWork P) (c : ℝ) (code : List ℝ) (base : Rel ℝ ℝ)
    (hb : Balanced base) (hi : base.x.start ≤ base.x.stop) (hs : 0 < base.x.sample) (h2 : 2 ≤ base.y.length) :
    ∃ s, getCodeSweepSegmentsSignal P (c :: code) base = .ok s := by
  have loop : ∀ (code : List ℝ) (cnt : ℕ) (acc : Rel ℝ ℝ), Balanced acc → acc.x = base.x →
      ∃ q, codeSegmentsSignalLoop base cnt code acc = .ok q := by
    intro code
    induction code with
    | nil => exact fun _ acc _ _ => ⟨acc, rfl⟩
    | cons v code ih =>
      intro cnt acc hacc hx
      obtain ⟨sh, h1, -⟩ := signalShift_axis base hb hi h2 (cnt * base.x.stop + base.x.sample)
      obtain ⟨s1, s2⟩ := signalShift_keeps h1
      have bp : Balanced (⟨sh.x, sh.y.map fun w => w * v⟩ : Rel ℝ ℝ) := balanced_map _ s2
      have hlen : acc.y.length = sh.y.length := balanced_length_eq hacc s2 (by rw [hx, s1])
      obtain ⟨q, hq⟩ := ih (cnt + 1) ⟨acc.x, List.zipWith (· + ·) acc.y (sh.y.map fun w => w * v)⟩
        (balanced_zipWith _ hacc bp (by rw [hx]; exact s1.symm)) hx
      refine ⟨q, ?_⟩
      simp only [codeSegmentsSignalLoop, h1, except_bind_ok, mul_num_ok sh s2 v,
        add_same_axis acc _ hacc bp (by rw [hx]; exact s1), hq]
  obtain ⟨r, hr⟩ := loop code 1 ⟨base.x, base.y.map fun v => v * c⟩ (balanced_map _ hb) rfl
  obtain ⟨hxr, hbr, -⟩ := signal_loop base code 1 _ r (balanced_map _ hb) rfl hr
  obtain ⟨⟨f, hf⟩, ⟨a, ha⟩, d, g, hd, hg⟩ := hP r hbr (by rw [hxr]; exact hs)
  refine ⟨⟨r, f, a, g, none⟩, ?_⟩
  simp only [getCodeSweepSegmentsSignal, mul_num_ok base hb c, except_bind_ok, hr, Sweep.init, Rel.init, orDerive, hf, ha, hd,
    hg, except_pure]

/-- a signal on 0, 1, 2 and the code 1, -1, 2: the relation spans 0 … 7, the signal stays on 0 … 2 -/
example : ∃ s, getCodeSweepSegmentsSignal realPrims [1, -1, 2] ⟨⟨0, 2, 1⟩, [1, 2, 3]⟩ = .ok s ∧ s.rel.x = ⟨0, 2, 1⟩ := by
  have hb : Balanced (⟨⟨0, 2, 1⟩, [1, 2, 3]⟩ : Rel ℝ ℝ) := balanced_whole _ 2 (by norm_num) (by norm_num) rfl
  obtain ⟨s, hs⟩ := C62_signal_succeeds realPrims realPrims_work 1 [-1, 2] _ hb (by norm_num) (by norm_num) (by simp)
  exact ⟨s, hs, (C62_signal _ _ _ _ hb s hs).1⟩

/-! ## C61 -/

/-- `max_len_seq` returns a full period -/
def Spec.FullPeriod {V : Type} (mls : ℕ → List ℤ → List V) : Prop := ∀ n s, (mls n s).length = 2 ^ n - 1

theorem fixStart_ok (l : List ℤ) (h : l ≠ []) : ∃ l', fixStart l = .ok l' ∧ l'.length = l.length ∧ ¬ (∀ v ∈ l', v = 0) ∧
    ((¬ ∀ v ∈ l, v = 0) → l' = l) ∧ ((∀ v ∈ l, v = 0) → l' = 1 :: l.tail) := by
  match l, h with
  | a :: l, _ =>
    by_cases hz : ∀ v ∈ a :: l, v = 0
    · exact ⟨1 :: l, by simp only [fixStart, if_pos hz], by simp, by simp, fun hn => absurd hz hn, fun _ => rfl⟩
    · exact ⟨a :: l, by simp only [fixStart, if_neg hz], by simp, hz, fun _ => rfl, fun h => absurd h hz⟩

theorem maxLenSeq_ok {V : Type} (mls : ℕ → List ℤ → List V) (k : ℕ) (l : List ℤ) (h2 : 2 ≤ k) (h32 : k ≤ 32)
    (hl : l.length = k) (hz : ¬ ∀ v ∈ l, v = 0) : maxLenSeq mls k l = .ok (mls k l) := by
  unfold maxLenSeq
  rw [if_neg (by omega), if_neg (by simpa using hl), if_neg hz]

/-- the register length `k` for `n = L - 1 ≥ 3` -/
theorem clog_ge_two (n : ℕ) (h : 3 ≤ n) : 2 ≤ Nat.clog 2 n := by
  by_contra hc
  have := Nat.le_pow_clog (by norm_num : 1 < 2) n
  have h2 : 2 ^ Nat.clog 2 n ≤ 2 ^ 1 := Nat.pow_le_pow_right (by norm_num) (by omega)
  omega

/-- **C61** `get_m_sequence_code(L)`: `L - 1` values, one less when `L - 1` is a power of two — never `L`. -/
theorem C61_code_length {V : Type} (mls : ℕ → List ℤ → List V) (hm : FullPeriod mls) (rand : ℕ → ℤ) (L : ℕ) (hL : 4 ≤ L)
    (h32 : L ≤ 2 ^ 32 + 1) :
    ∃ l k, getMSequenceCode mls rand L false = .ok l ∧ L - 1 ≤ 2 ^ k ∧ (∀ j, L - 1 ≤ 2 ^ j → k ≤ j) ∧
      l.length = min (L - 1) (2 ^ k - 1) ∧ (l.length = if L - 1 = 2 ^ k then L - 2 else L - 1) ∧ l.length < L := by
  have hk2 := clog_ge_two (L - 1) (by omega)
  have hk32 : Nat.clog 2 (L - 1) ≤ 32 := Nat.clog_le_of_le_pow (by omega)
  have hle := Nat.le_pow_clog (by norm_num : 1 < 2) (L - 1)
  have hLi : ((L : ℤ) - 1).toNat = L - 1 := by omega
  have hlog : ceilLog2 ((L : ℤ) - 1) = .ok (Nat.clog 2 (L - 1)) := by
    unfold ceilLog2
    rw [if_neg (by omega), hLi]
  obtain ⟨l', f1, f2, f3, -⟩ := fixStart_ok ((List.range (Nat.clog 2 (L - 1))).map rand) (by
    intro h
    have := congrArg List.length h
    simp at this
    omega)
  have hmls := maxLenSeq_ok mls _ l' hk2 hk32 (by simpa using f2) f3
  have hlen := hm (Nat.clog 2 (L - 1)) l'
  refine ⟨(mls (Nat.clog 2 (L - 1)) l').take (L - 1), Nat.clog 2 (L - 1), ?_, hle,
    fun j hj => Nat.clog_le_of_le_pow hj, ?_, ?_, ?_⟩
  · simp only [getMSequenceCode, hlog, except_bind_ok, f1, hmls, Bool.false_eq_true, if_false, except_pure, hLi]
  · rw [List.length_take, hlen]
  · rw [List.length_take, hlen]
    split <;> omega
  · rw [List.length_take]; omega

/-- **C61** with `is_full`: the whole period, `2^k - 1` values with `k` as above. -/
theorem C61_code_full {V : Type} (mls : ℕ → List ℤ → List V) (hm : FullPeriod mls) (rand : ℕ → ℤ) (L : ℕ) (hL : 4 ≤ L)
    (h32 : L ≤ 2 ^ 32 + 1) :
    ∃ l k, getMSequenceCode mls rand L true = .ok l ∧ L - 1 ≤ 2 ^ k ∧ (∀ j, L - 1 ≤ 2 ^ j → k ≤ j) ∧ l.length = 2 ^ k - 1 := by
  have hk2 := clog_ge_two (L - 1) (by omega)
  have hk32 : Nat.clog 2 (L - 1) ≤ 32 := Nat.clog_le_of_le_pow (by omega)
  have hle := Nat.le_pow_clog (by norm_num : 1 < 2) (L - 1)
  have hLi : ((L : ℤ) - 1).toNat = L - 1 := by omega
  have hlog : ceilLog2 ((L : ℤ) - 1) = .ok (Nat.clog 2 (L - 1)) := by
    unfold ceilLog2
    rw [if_neg (by omega), hLi]
  obtain ⟨l', f1, f2, f3, -⟩ := fixStart_ok ((List.range (Nat.clog 2 (L - 1))).map rand) (by
    intro h
    have := congrArg List.length h
    simp at this
    omega)
  have hmls := maxLenSeq_ok mls _ l' hk2 hk32 (by simpa using f2) f3
  refine ⟨mls (Nat.clog 2 (L - 1)) l', Nat.clog 2 (L - 1), ?_, hle, fun j hj => Nat.clog_le_of_le_pow hj, hm _ _⟩
  simp only [getMSequenceCode, hlog, except_bind_ok, f1, hmls, if_true, except_pure]

/-- **C61** Small lengths raise: `L ≤ 1` and `L = 3` a `ValueError`, `L = 2` an `IndexError`. -/
theorem C61_small {V : Type} (mls : ℕ → List ℤ → List V) (rand : ℕ → ℤ) (isFull : Bool) :
    (∀ L : ℤ, L ≤ 1 → getMSequenceCode mls rand L isFull = .error .value) ∧
    getMSequenceCode mls rand 2 isFull = .error .index ∧ getMSequenceCode mls rand 3 isFull = .error .value := by
  refine ⟨fun L hL => ?_, ?_, ?_⟩
  · have : ceilLog2 (L - 1) = .error .value := by
      unfold ceilLog2; exact if_pos (by omega)
    simp only [getMSequenceCode, this, except_bind_error]
  · have : ceilLog2 (2 - 1) = .ok 0 := by
      unfold ceilLog2; norm_num
    simp only [getMSequenceCode, this, except_bind_ok, List.range_zero, List.map_nil, fixStart, except_bind_error]
  · have : ceilLog2 (3 - 1) = .ok 1 := by
      unfold ceilLog2
      have : Nat.clog 2 2 = 1 := by rw [Nat.clog_of_two_le (by norm_num) (by norm_num)]; norm_num
      have h2 : ((3 : ℤ) - 1).toNat = 2 := rfl
      rw [if_neg (by norm_num), h2, this]
    obtain ⟨l', f1, -⟩ := fixStart_ok ((List.range 1).map rand) (by simp)
    simp only [getMSequenceCode, this, except_bind_ok, f1]
    simp [maxLenSeq]

section
variable {K : Type} [Field K] [LinearOrder K] [IsStrictOrderedRing K] [FloorRing K]

/-- **C61** `get_relation_m_sequence` without a start sequence on an axis of `n ≥ 4` points succeeds exactly if `n` is
neither `2^k` nor `2^k + 1`; otherwise it raises `NotEqualError`. -/
theorem C61_relation {V : Type} (mls : ℕ → List ℤ → List V) (hm : FullPeriod mls) (rand : ℕ → ℤ) (t : Axis K) (n : ℕ)
    (hn : t.size = .ok n) (h4 : 4 ≤ n) (h32 : n ≤ 2 ^ 32 + 1) :
    ((¬ ∃ k, n = 2 ^ k ∨ n = 2 ^ k + 1) → ∃ r, getRelationMSequence mls rand t false = .ok r ∧ r.x = t ∧ r.y.length = n) ∧
    ((∃ k, n = 2 ^ k ∨ n = 2 ^ k + 1) → ∃ y, y < n ∧ getRelationMSequence mls rand t false = .error (.notEqual n y)) := by
  have hk2 := clog_ge_two (n - 1) (by omega)
  have hk32 : Nat.clog 2 (n - 1) ≤ 32 := Nat.clog_le_of_le_pow (by omega)
  have hle := Nat.le_pow_clog (by norm_num : 1 < 2) (n - 1)
  have hLi : ((n : ℤ) - 1).toNat = n - 1 := by omega
  have hlog : ceilLog2 ((n : ℤ) - 1) = .ok (Nat.clog 2 (n - 1)) := by
    unfold ceilLog2
    rw [if_neg (by omega), hLi]
  obtain ⟨l', f1, f2, f3, -⟩ := fixStart_ok ((List.range (Nat.clog 2 (n - 1))).map rand) (by
    intro h
    have := congrArg List.length h
    simp at this
    omega)
  have hl' : l'.length = Nat.clog 2 (n - 1) := by simpa using f2
  have hmls := maxLenSeq_ok mls l'.length l' (by omega) (by omega) rfl f3
  have hcall : getRelationMSequence mls rand t false = Rel.make t ((mls l'.length l').take n) := by
    simp only [getRelationMSequence, hn, except_bind_ok, hlog, f1, relationOfMSequence, hmls, Bool.false_eq_true, if_false]
  have hlen : ((mls l'.length l').take n).length = min n (2 ^ Nat.clog 2 (n - 1) - 1) := by
    rw [List.length_take, hm, hl']
  constructor
  · intro hno
    have h1 : n + 1 ≤ 2 ^ Nat.clog 2 (n - 1) := by
      have a1 : n ≠ 2 ^ Nat.clog 2 (n - 1) := fun h => hno ⟨_, .inl h⟩
      have a2 : n ≠ 2 ^ Nat.clog 2 (n - 1) + 1 := fun h => hno ⟨_, .inr h⟩
      omega
    refine ⟨⟨t, (mls l'.length l').take n⟩, ?_, rfl, ?_⟩
    · rw [hcall]
      exact make_ok (by rw [hn, hlen]; congr 1; omega)
    · simp only [hlen]; omega
  · rintro ⟨k, hk⟩
    have hkk : Nat.clog 2 (n - 1) = k := by
      rcases hk with hk | hk
      · have h1 : Nat.clog 2 (n - 1) ≤ k := Nat.clog_le_of_le_pow (by omega)
        by_contra hne
        have h2 : 2 ^ Nat.clog 2 (n - 1) ≤ 2 ^ (k - 1) := Nat.pow_le_pow_right (by norm_num) (by omega)
        have hk1 : 1 ≤ k := by
          by_contra h0
          have : k = 0 := by omega
          rw [this] at hk; omega
        have h3 : 2 ^ k = 2 * 2 ^ (k - 1) := by rw [← pow_succ']; congr 1; omega
        omega
      · have : n - 1 = 2 ^ k := by omega
        rw [this]
        exact Nat.clog_pow 2 k (by norm_num)
    refine ⟨2 ^ k - 1, ?_, ?_⟩
    · have := Nat.one_le_two_pow (n := k)
      omega
    · rw [hcall]
      unfold Rel.make
      rw [hn, except_bind_ok, hlen, hkk]
      have h1 : min n (2 ^ k - 1) = 2 ^ k - 1 := by omega
      rw [h1, if_pos]
      have := Nat.one_le_two_pow (n := k)
      omega

/-- **C61** With a start sequence: whatever the outcome, the caller's array is changed exactly if it is all zero (and the
logarithm of the axis size exists): its first entry becomes 1. -/
theorem C61_in_place {V : Type} (mls : ℕ → List ℤ → List V) (t : Axis K) (n : ℕ) (hn : t.size = .ok n) (h2 : 2 ≤ n)
    (start : List ℤ) (hne : start ≠ []) (isFull : Bool) :
    ((∀ v ∈ start, v = 0) → (getRelationMSequenceFrom mls t start isFull).2 = 1 :: start.tail) ∧
    ((¬ ∀ v ∈ start, v = 0) → (getRelationMSequenceFrom mls t start isFull).2 = start) := by
  have hlog : (do let n ← t.size; ceilLog2 ((n : ℤ) - 1) : Except Err ℕ) = .ok (Nat.clog 2 (n - 1)) := by
    rw [hn, except_bind_ok]
    unfold ceilLog2
    rw [if_neg (by omega)]
    congr 2
    omega
  obtain ⟨l', f1, -, -, f4, f5⟩ := fixStart_ok start hne
  simp only [getRelationMSequenceFrom, hlog, f1]
  exact ⟨f5, f4⟩

/-- **C61** With a start sequence of `2 ≤ b ≤ 32` entries and `is_full`, the relation starts at 0 and has `2^b - 1` points
with the sample of the given axis. -/
theorem C61_full_relation {V : Type} (mls : ℕ → List ℤ → List V) (hm : FullPeriod mls) (t : Axis K) (n : ℕ)
    (hn : t.size = .ok n) (h2 : 2 ≤ n) (hs : 0 < t.sample) (start : List ℤ) (h2' : 2 ≤ start.length) (h32 : start.length ≤ 32) :
    ∃ r, (getRelationMSequenceFrom mls t start true).1 = .ok r ∧ r.y.length = 2 ^ start.length - 1 ∧
      r.x = ⟨0, t.sample * ((2 : K) ^ start.length - 2), t.sample⟩ ∧ Balanced r := by
  have hlog : (do let n ← t.size; ceilLog2 ((n : ℤ) - 1) : Except Err ℕ) = .ok (Nat.clog 2 (n - 1)) := by
    rw [hn, except_bind_ok]
    unfold ceilLog2
    rw [if_neg (by omega)]
    congr 2
    omega
  obtain ⟨l', f1, f2, f3, -⟩ := fixStart_ok start (by rintro rfl; simp at h2')
  have hmls := maxLenSeq_ok mls l'.length l' (by omega) (by omega) rfl f3
  have hpow : 2 ≤ 2 ^ start.length := by
    calc 2 = 2 ^ 1 := by norm_num
      _ ≤ _ := Nat.pow_le_pow_right (by norm_num) (by omega)
  have hlen : (mls l'.length l').length = 2 ^ start.length - 1 := by rw [hm, f2]
  have hcast : (((mls l'.length l').length : K) - 1) = ((2 ^ start.length - 2 : ℕ) : K) := by
    rw [hlen, Nat.cast_sub (by omega), Nat.cast_sub hpow]
    push_cast; ring
  have hbal : Balanced (⟨⟨0, t.sample * (((mls l'.length l').length : K) - 1), t.sample⟩, mls l'.length l'⟩ : Rel K V) :=
    balanced_whole _ (2 ^ start.length - 2) hs (by simp only; rw [hcast]; ring) (by simp only; rw [hlen]; omega)
  refine ⟨_, ?_, hlen, ?_, hbal⟩
  · simp only [getRelationMSequenceFrom, hlog, f1, relationOfMSequence, hmls, except_bind_ok, if_true]
    exact make_ok hbal
  · simp only [Axis.mk.injEq, true_and, and_true]
    rw [hcast, Nat.cast_sub hpow]
    push_cast; ring

end

/-- a toy sequence of the right length; sizes 4, 5, 6, 7, 8, 9 -/
def toyMls (n : ℕ) (_ : List ℤ) : List ℚ := List.replicate (2 ^ n - 1) 1

theorem toyMls_full : FullPeriod toyMls := fun n s => by simp [toyMls]

example : (∃ r, getRelationMSequence toyMls (fun _ => 0) (⟨0, 5, 1⟩ : Axis ℚ) false = .ok r) ∧
    (∃ y, getRelationMSequence toyMls (fun _ => 0) (⟨0, 7, 1⟩ : Axis ℚ) false = .error (.notEqual 8 y)) ∧
    (∃ y, getRelationMSequence toyMls (fun _ => 0) (⟨0, 8, 1⟩ : Axis ℚ) false = .error (.notEqual 9 y)) := by
  refine ⟨?_, ?_, ?_⟩
  · obtain ⟨r, h, -⟩ := (C61_relation toyMls toyMls_full (fun _ => 0) (⟨0, 5, 1⟩ : Axis ℚ) 6 (by decide +kernel) (by norm_num)
      (by norm_num)).1 (by
        rintro ⟨k, hk⟩
        rcases Nat.lt_or_ge k 3 with h | h
        · interval_cases k <;> omega
        · have : 2 ^ 3 ≤ 2 ^ k := Nat.pow_le_pow_right (by norm_num) h
          omega)
    exact ⟨r, h⟩
  · obtain ⟨y, -, h⟩ := (C61_relation toyMls toyMls_full (fun _ => 0) (⟨0, 7, 1⟩ : Axis ℚ) 8 (by decide +kernel) (by norm_num)
      (by norm_num)).2 ⟨3, .inl (by norm_num)⟩
    exact ⟨y, h⟩
  · obtain ⟨y, -, h⟩ := (C61_relation toyMls toyMls_full (fun _ => 0) (⟨0, 8, 1⟩ : Axis ℚ) 9 (by decide +kernel) (by norm_num)
      (by norm_num)).2 ⟨3, .inr (by norm_num)⟩
    exact ⟨y, h⟩

example : (getRelationMSequenceFrom toyMls (⟨0, 6, 1⟩ : Axis ℚ) [0, 0, 0] false).2 = [1, 0, 0] :=
  (C61_in_place toyMls (⟨0, 6, 1⟩ : Axis ℚ) 7 (by decide +kernel) (by norm_num) [0, 0, 0] (by simp) false).1 (by simp)

end SweepDesign
