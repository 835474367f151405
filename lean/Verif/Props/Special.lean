import Verif.Model.Special
import Verif.Lemmas.Arith

/-!
# C136: samples with inf and nan
-/

set_option linter.unusedSectionVars false

namespace SweepDesign

section
variable {K : Type} [Field K] [LinearOrder K] [IsStrictOrderedRing K] [FloorRing K]

/-- all samples are finite, with these values -/
def Spec.Reads (e : ERel K) (r : Rel K K) : Prop := e.x = r.x ∧ e.y.map Ieee.val = r.y.map some

/-- How a call with special values compares with the model without: the same result if that is finite, the same exception, and where that
model stops, a result with at least one sample that is not finite. -/
def Spec.Goes (e : Except Err (ERel K)) (r : Except Err (Rel K K)) : Prop :=
  (∀ q, r = .ok q → ∃ f, e = .ok f ∧ Spec.Reads f q) ∧
  (r = .error .nonFinite → ∃ f, e = .ok f ∧ ∃ s ∈ f.y, s.val = none) ∧
  (∀ k, r = .error k → k ≠ .nonFinite → e = .error k)

/-- neither of the powers -/
def Spec.NoPower (op : MathOp) : Prop := op ≠ .pow ∧ op ≠ .rpow

open Spec

/-! ## Single samples -/

theorem val_ofVal (v : K) (s : Bool) : (Ieee.ofVal v s).val = some v := by
  unfold Ieee.ofVal Ieee.zero
  by_cases h : v = 0
  · cases s <;> simp [h, Ieee.val]
  · simp [h, Ieee.val]

theorem val_zero (s : Bool) : (Ieee.zero s : Ieee K).val = some 0 := by cases s <;> simp [Ieee.zero, Ieee.val]

theorem val_add {a b : Ieee K} {v w : K} (ha : a.val = some v) (hb : b.val = some w) : (a.add b).val = some (v + w) := by
  cases a <;> cases b <;> simp_all [Ieee.val, Ieee.add]

theorem val_add_none (a b : Ieee K) : (a.add b).val = none ↔ a.val = none ∨ b.val = none := by
  cases a <;> cases b <;> simp [Ieee.val, Ieee.add]
  split_ifs <;> rfl

theorem val_opp (a : Ieee K) : a.opp.val = a.val.map (-·) := by
  cases a <;> simp [Ieee.val, Ieee.opp]
  rename_i v
  by_cases h : v = 0 <;> simp [h]

theorem val_sub {a b : Ieee K} {v w : K} (ha : a.val = some v) (hb : b.val = some w) : (a.sub b).val = some (v - w) := by
  rw [Ieee.sub, val_add ha (by rw [val_opp, hb]; rfl), sub_eq_add_neg]

theorem val_sub_none (a b : Ieee K) : (a.sub b).val = none ↔ a.val = none ∨ b.val = none := by
  rw [Ieee.sub, val_add_none, val_opp, Option.map_eq_none_iff]

theorem val_mul {a b : Ieee K} {v w : K} (ha : a.val = some v) (hb : b.val = some w) : (a.mul b).val = some (v * w) := by
  unfold Ieee.mul
  split
  · simp [Ieee.val] at ha
  · simp [Ieee.val] at hb
  · simp only [ha, hb, val_ofVal]

theorem val_mul_none (a b : Ieee K) : (a.mul b).val = none ↔ a.val = none ∨ b.val = none := by
  constructor
  · intro h
    by_contra hn
    rw [not_or] at hn
    obtain ⟨v, hv⟩ := Option.ne_none_iff_exists'.1 hn.1
    obtain ⟨w, hw⟩ := Option.ne_none_iff_exists'.1 hn.2
    rw [val_mul hv hw] at h
    cases h
  · intro h
    unfold Ieee.mul
    split
    · rfl
    · rfl
    · rename_i a' b' _ _
      dsimp only
      split
      · rename_i v w hv hw; rcases h with h | h <;> simp_all
      · split_ifs <;> rfl
      · split_ifs <;> rfl
      · rfl

theorem val_div {a b : Ieee K} {v w : K} (ha : a.val = some v) (hb : b.val = some w) :
    (a.div b).val = if w = 0 then none else some (v / w) := by
  unfold Ieee.div
  split
  · simp [Ieee.val] at ha
  · simp [Ieee.val] at hb
  · simp only [ha, hb]
    split_ifs
    · rfl
    · rfl
    · exact val_ofVal _ _

theorem val_inf (s : Bool) : (Ieee.inf s : Ieee K).val = none := rfl

theorem val_nan : (Ieee.nan : Ieee K).val = none := rfl

/-- a quotient is not finite if the dividend is not, or the divisor is nan or zero -/
theorem val_div_none (a b : Ieee K) : (a.div b).val = none ↔ a.val = none ∨ b = .nan ∨ b.val = some 0 := by
  by_cases ha : a = .nan
  · subst ha; simp [Ieee.div, Ieee.val]
  by_cases hb : b = .nan
  · subst hb; cases a <;> simp [Ieee.div, Ieee.val]
  have hd : a.div b = (match a.val, b.val with
    | some v, some w => if w = 0 then (if v = 0 then .nan else .inf (a.neg? != b.neg?)) else Ieee.ofVal (v / w) (a.neg? != b.neg?)
    | some _, none => Ieee.zero (a.neg? != b.neg?)
    | none, some _ => .inf (a.neg? != b.neg?)
    | none, none => .nan) := by
    unfold Ieee.div
    split
    · exact absurd rfl ha
    · exact absurd rfl hb
    · rfl
  rw [hd]
  cases hv : a.val with
  | none => cases hw : b.val <;> simp [val_inf, val_nan]
  | some v =>
    cases hw : b.val with
    | none => simp [val_zero, hb]
    | some w =>
      by_cases h3 : w = 0
      · by_cases h4 : v = 0 <;> simp [h3, h4, val_inf, val_nan]
      · simp [h3, val_ofVal, hb]

/-- the operation with the powers filled in -/
def ieeeOf (op : MathOp) (a b : Ieee K) : Ieee K := (op.ieee a b).getD .nan

theorem ieee_some {op : MathOp} (h : NoPower op) (a b : Ieee K) : op.ieee a b = some (ieeeOf op a b) := by
  obtain ⟨h1, h2⟩ := h
  cases op <;> simp_all [ieeeOf, MathOp.ieee]

theorem ieeeOf_val [PyPow K] {op : MathOp} (h : NoPower op) {a b : Ieee K} {v w : K} (ha : a.val = some v) (hb : b.val = some w) :
    (ieeeOf op a b).val = op.fn v w := by
  obtain ⟨h1, h2⟩ := h
  cases op <;> simp only [ieeeOf, MathOp.ieee, Option.getD_some, MathOp.fn]
  · exact val_add ha hb
  · exact val_add hb ha
  · exact val_sub ha hb
  · exact val_sub hb ha
  · exact val_mul ha hb
  · exact val_mul hb ha
  · exact val_div ha hb
  · exact val_div hb ha
  · exact absurd rfl h1
  · exact absurd rfl h2

/-! ## Arrays -/

theorem ieee_collect (l : List (Ieee K)) : ieeeArrays.finite' (l.map some) = .ok l := by
  have : (l.map some).mapM id = some l := (mapM_id_eq_some _ _).2 rfl
  simp [ieeeArrays.finite', this]

theorem reads_cons {a : Ieee K} {l : List (Ieee K)} {b : K} {m : List K} :
    (a :: l).map Ieee.val = (b :: m).map some ↔ a.val = some b ∧ l.map Ieee.val = m.map some := by simp

theorem zip_val [PyPow K] {op : MathOp} (h : NoPower op) {l m : List (Ieee K)} {l' m' : List K} (hl : l.map Ieee.val = l'.map some)
    (hm : m.map Ieee.val = m'.map some) :
    (List.zipWith (ieeeOf op) l m).map Ieee.val = List.zipWith op.fn l' m' := by
  induction l generalizing m l' m' with
  | nil => cases l' with
    | nil => rfl
    | cons _ _ => simp at hl
  | cons a l ih =>
    cases l' with
    | nil => simp at hl
    | cons a' l' =>
      cases m with
      | nil => cases m' with
        | nil => rfl
        | cons _ _ => simp at hm
      | cons b m =>
        cases m' with
        | nil => simp at hm
        | cons b' m' =>
          obtain ⟨h1, h2⟩ := reads_cons.1 hl
          obtain ⟨h3, h4⟩ := reads_cons.1 hm
          simp only [List.zipWith_cons_cons, List.map_cons, ieeeOf_val h h1 h3, ih h2 h4]

theorem eMake_ok {x : Axis K} {y : List (Ieee K)} (h : x.size = .ok y.length) : ERel.make x y = .ok ⟨x, y⟩ := by
  simp [ERel.make, h, bind, Except.bind, pure, Except.pure]

theorem make_reads {x : Axis K} {y : List (Ieee K)} {z : List K} (h : y.map Ieee.val = z.map some) :
    Goes (ERel.make x y) (Rel.make x z) := by
  have hl : y.length = z.length := by simpa using congrArg List.length h
  unfold ERel.make Rel.make
  cases hs : x.size with
  | error e =>
    refine ⟨fun q hq => by simp [bind, Except.bind] at hq, fun hq => ?_, fun k hk _ => ?_⟩
    · simp only [bind, Except.bind, Except.error.injEq] at hq
      by_cases h0 : x.sample = 0
      · rw [x.size_zero h0] at hs; cases hs; cases hq
      · rw [x.size_eq h0] at hs; cases hs
    · simpa [bind, Except.bind] using hk
  | ok n =>
    simp only [bind, Except.bind, hl]
    by_cases hn : n = z.length
    · refine ⟨fun q hq => ?_, fun hq => by simp [hn, pure, Except.pure] at hq, fun k hk _ => by simp [hn, pure, Except.pure] at hk⟩
      simp only [hn, ne_eq, not_true_eq_false, if_false, pure, Except.pure, Except.ok.injEq] at hq ⊢
      subst hq
      exact ⟨_, rfl, rfl, h⟩
    · refine ⟨fun q hq => by simp [hn] at hq, fun hq => by simp [hn] at hq, fun k hk _ => ?_⟩
      simpa [hn] using hk

/-! ## Interpolation -/

/-- What interpolation between samples with special values is: zero outside, the sample itself on a sample position, and strictly between
two samples finite if and only if both are, with the value on the straight line. -/
structure Spec.Between (x : List K) (y : List (Ieee K)) (t : K) (c : Ieee K) : Prop where
  outside : ¬ InRange x t → c = .fin 0
  sample : ∀ i (h : i < x.length) (h' : i < y.length), x[i] = t → c = y[i]
  between : ∀ i (h : i + 1 < x.length) (h' : i + 1 < y.length), min x[i] x[i + 1] < t → t < max x[i] x[i + 1] →
    (c.val = none ↔ y[i].val = none ∨ y[i + 1].val = none) ∧
    ∀ v w, y[i].val = some v → y[i + 1].val = some w → c.val = some (v + (t - x[i]) / (x[i + 1] - x[i]) * (w - v))

theorem ieeeAt_lt (y : List (Ieee K)) (i : ℕ) (h : i < y.length) : ieeeAt y i = y[i] := by
  rw [ieeeAt, List.getD_eq_getElem?_getD, List.getElem?_eq_getElem h, Option.getD_some]

theorem at0_lt (x : List K) (i : ℕ) (h : i < x.length) : at0 x i = x[i] := by
  rw [at0, List.getD_eq_getElem?_getD, List.getElem?_eq_getElem h, Option.getD_some]

theorem add_nan (a : Ieee K) : a.add .nan = .nan := by cases a <;> rfl

theorem nan_add (a : Ieee K) : (Ieee.nan : Ieee K).add a = .nan := by cases a <;> rfl

theorem nan_mul (a : Ieee K) : (Ieee.nan : Ieee K).mul a = .nan := by cases a <;> rfl

theorem nan_div (a : Ieee K) : (Ieee.nan : Ieee K).div a = .nan := by cases a <;> rfl

theorem opp_nan_iff (a : Ieee K) : a.opp = .nan ↔ a = .nan := by
  cases a <;> simp [Ieee.opp]
  split_ifs <;> simp

theorem ieeeBetween_val {x0 x1 t : K} (h : x0 ≠ x1) {y0 y1 : Ieee K} {v w : K} (h0 : y0.val = some v) (h1 : y1.val = some w) :
    (ieeeBetween x0 x1 y0 y1 t).val = some (v + (t - x0) / (x1 - x0) * (w - v)) := by
  have hd : x1 - x0 ≠ 0 := sub_ne_zero.2 (Ne.symm h)
  have hs : ((y1.sub y0).div (.fin (x1 - x0))).val = some ((w - v) / (x1 - x0)) := by
    rw [val_div (val_sub h1 h0) rfl, if_neg hd]
  have hl := val_add (val_mul hs (b := .fin (t - x0)) rfl) h0
  have hn : (((y1.sub y0).div (.fin (x1 - x0))).mul (.fin (t - x0))).add y0 ≠ .nan := by
    intro e; rw [e, val_nan] at hl; cases hl
  unfold ieeeBetween
  simp only [hn, ne_eq, not_false_eq_true, if_true]
  rw [hl]
  congr 1
  field_simp
  ring

/-- if one of the two samples is not finite, no point strictly between is finite -/
theorem ieeeBetween_none {x0 x1 t : K} {y0 y1 : Ieee K} (h : y0.val = none ∨ y1.val = none) :
    (ieeeBetween x0 x1 y0 y1 t).val = none := by
  have hsl : (y1.sub y0).val = none := by rw [val_sub_none]; exact h.symm
  have hdv : ((y1.sub y0).div (.fin (x1 - x0))).val = none := by rw [val_div_none]; exact Or.inl hsl
  have hleft : ((((y1.sub y0).div (.fin (x1 - x0))).mul (.fin (t - x0))).add y0).val = none := by
    rw [val_add_none, val_mul_none]; exact Or.inl (Or.inl hdv)
  have hright : ((((y1.sub y0).div (.fin (x1 - x0))).mul (.fin (t - x1))).add y1).val = none := by
    rw [val_add_none, val_mul_none]; exact Or.inl (Or.inl hdv)
  unfold ieeeBetween
  dsimp only
  split_ifs with a b c
  · exact hleft
  · exact hright
  · rcases h with h | h
    · exact h
    · rw [c.1]; exact h
  · rfl

theorem count_le (x : List K) (t : K) (hx : x.Pairwise (· < ·)) (i : ℕ) (hi : i < x.length) (h1 : x[i] ≤ t)
    (h2 : ∀ h : i + 1 < x.length, t < x[i + 1]) : x.countP (fun s => decide (s ≤ t)) = i + 1 := by
  apply countP_split _ _ _ (by omega)
  · intro j hj hji
    exact decide_eq_true (le_trans (pairwise_lt_getElem_le hx hj (by omega) (by omega)) h1)
  · intro j hj hij
    exact decide_eq_false (not_le.2 (lt_of_lt_of_le (h2 (by omega)) (pairwise_lt_getElem_le hx (by omega) hj (by omega))))

theorem ieeeInterpAt_spec (x : List K) (y : List (Ieee K)) (t : K) (hx : x.Pairwise (· < ·)) (hl : x.length = y.length) :
    Between x y t (ieeeInterpAt x y t) := by
  have hhead : ∀ h : 0 < x.length, x.head? = some x[0] := fun h => by rw [List.head?_eq_getElem?, List.getElem?_eq_getElem h]
  have hlast : ∀ h : 0 < x.length, x.getLast? = some x[x.length - 1] := fun h => by
    rw [List.getLast?_eq_getElem?, List.getElem?_eq_getElem (by omega)]
  refine ⟨fun h => ?_, fun i h h' he => ?_, fun i h h' h1 h2 => ?_⟩
  · unfold ieeeInterpAt
    split
    · rename_i x0 xl h0 hl
      by_cases a : t < x0
      · simp [a]
      · by_cases b : xl < t
        · simp [b]
        · exact absurd ⟨x0, List.mem_of_mem_head? h0, xl, List.mem_of_getLast? hl, not_lt.1 a, not_lt.1 b⟩ h
    · rfl
  · subst he
    have hc := count_le x x[i] hx i h le_rfl fun h' => pairwise_lt_getElem hx h h' (by omega)
    unfold ieeeInterpAt
    simp only [hhead (by omega), hlast (by omega), hc, Nat.add_sub_cancel]
    rw [if_neg (not_lt.2 (pairwise_lt_getElem_le hx (by omega) h (by omega))),
      if_neg (not_lt.2 (pairwise_lt_getElem_le hx h (by omega) (by omega))), at0_lt _ _ h, ieeeAt_lt _ _ h', if_pos rfl, ite_self]
  · have hlt := pairwise_lt_getElem hx (by omega : i < x.length) h (by omega)
    rw [min_eq_left hlt.le] at h1
    rw [max_eq_right hlt.le] at h2
    have hc := count_le x t hx i (by omega) h1.le fun _ => h2
    have hge : x[0] ≤ t := le_trans (pairwise_lt_getElem_le hx (by omega) (by omega) (by omega)) h1.le
    have hle : t ≤ x[x.length - 1] := le_trans h2.le (pairwise_lt_getElem_le hx (by omega) (by omega) (by omega))
    have he : ieeeInterpAt x y t = ieeeBetween x[i] x[i + 1] y[i] y[i + 1] t := by
      unfold ieeeInterpAt
      simp only [hhead (by omega), hlast (by omega), hc, Nat.add_sub_cancel]
      rw [if_neg (not_lt.2 hge), if_neg (not_lt.2 hle), if_neg (by omega), at0_lt _ _ (by omega), at0_lt _ _ h,
        ieeeAt_lt _ _ (by omega), ieeeAt_lt _ _ h', if_neg h1.ne]
    rw [he]
    refine ⟨⟨fun hn => ?_, ieeeBetween_none⟩, fun v w hv hw => ieeeBetween_val hlt.ne hv hw⟩
    by_contra hc
    rw [not_or] at hc
    obtain ⟨v, hv⟩ := Option.ne_none_iff_exists'.1 hc.1
    obtain ⟨w, hw⟩ := Option.ne_none_iff_exists'.1 hc.2
    rw [ieeeBetween_val hlt.ne hv hw] at hn
    cases hn

theorem Spec.Between.reverse {x : List K} {y : List (Ieee K)} {t : K} {c : Ieee K} (hl : x.length = y.length)
    (hx : x.Pairwise (· ≠ ·)) (h : Between x.reverse y.reverse t c) : Between x y t c := by
  refine ⟨fun ho => h.outside (by rwa [inRange_reverse]), ?_, ?_⟩
  · intro i h1 h2 he
    have := h.sample (x.length - 1 - i) (by simp; omega) (by simp; omega)
    simp only [List.getElem_reverse] at this
    have e1 : x.length - 1 - (x.length - 1 - i) = i := by omega
    have e2 : y.length - 1 - (x.length - 1 - i) = i := by omega
    simp only [e1, e2] at this
    exact this he
  · intro i h1 h2 ha hb
    have hne : x[i] ≠ x[i + 1] := (List.pairwise_iff_getElem.1 hx) i (i + 1) (by omega) h1 (by omega)
    have := h.between (x.length - 2 - i) (by simp; omega) (by simp; omega)
    simp only [List.getElem_reverse] at this
    have e1 : x.length - 1 - (x.length - 2 - i) = i + 1 := by omega
    have e2 : y.length - 1 - (x.length - 2 - i) = i + 1 := by omega
    have e3 : x.length - 1 - (x.length - 2 - i + 1) = i := by omega
    have e4 : y.length - 1 - (x.length - 2 - i + 1) = i := by omega
    simp only [e1, e2, e3, e4] at this
    obtain ⟨g1, g2⟩ := this (by rwa [min_comm]) (by rwa [max_comm])
    refine ⟨by rw [g1, or_comm], fun v w hv hw => ?_⟩
    rw [g2 w v hw hv]
    have d1 : x[i] - x[i + 1] ≠ 0 := sub_ne_zero.2 hne
    have d2 : x[i + 1] - x[i] ≠ 0 := sub_ne_zero.2 (Ne.symm hne)
    congr 1
    rw [← neg_sub x[i + 1] x[i], div_neg]
    field_simp
    ring

theorem zip_fst_of_pairwise {β : Type} {x : List K} {y : List β} {R : K → K → Prop} (h : x.Pairwise R) :
    (x.zip y).Pairwise fun p q => R p.1 q.1 := by
  induction x generalizing y with
  | nil => simp
  | cons a x ih =>
    cases y with
    | nil => simp
    | cons b y =>
      simp only [List.zip_cons_cons, List.pairwise_cons] at h ⊢
      exact ⟨fun p hp => h.1 _ (List.of_mem_zip hp).1, ih h.2⟩

theorem ieeeInterp1d_spec (x : List K) (y : List (Ieee K)) (xs : List K) (hl : x.length = y.length) (h0 : x.length ≠ 0)
    (hx : x.Pairwise (· < ·) ∨ x.Pairwise (· > ·)) :
    ∃ ys, ieeeInterp1d x y xs = .ok ys ∧ ys.length = xs.length ∧
      ∀ i (h : i < xs.length) (h' : i < ys.length), Between x y xs[i] ys[i] := by
  unfold ieeeInterp1d
  simp only [hl, ne_eq, not_true_eq_false, if_false, hl ▸ h0]
  refine ⟨_, rfl, by simp, ?_⟩
  suffices H : ∀ t, Between x y t
      (ieeeInterpAt (((x.zip y).insertionSort fun p q => p.1 ≤ q.1).map Prod.fst)
        (((x.zip y).insertionSort fun p q => p.1 ≤ q.1).map Prod.snd) t) by
    intro i h h'
    simp only [List.getElem_map]
    exact H _
  intro t
  rcases hx with hx | hx
  · have hs : ((x.zip y).insertionSort fun p q => p.1 ≤ q.1) = x.zip y := by
      apply List.Pairwise.insertionSort_eq
      exact (zip_fst_of_pairwise hx).imp (fun h => h.le)
    rw [hs, List.map_fst_zip (by omega), List.map_snd_zip (by omega)]
    exact ieeeInterpAt_spec x y _ hx hl
  · have hs : ((x.zip y).insertionSort fun p q => p.1 ≤ q.1) = (x.zip y).reverse := by
      have hp : (x.zip y).reverse.Pairwise (fun p q => p.1 < q.1) := by
        rw [List.pairwise_reverse]
        exact zip_fst_of_pairwise hx
      apply List.Perm.eq_of_pairwise (le := fun p q => p.1 ≤ q.1)
      · intro a b ha hb h1 h2
        have ha' : a ∈ (x.zip y).reverse := by
          rw [List.mem_reverse]
          exact (List.perm_insertionSort _ _).mem_iff.1 ha
        obtain ⟨m, hm, rfl⟩ := List.mem_iff_getElem.1 ha'
        obtain ⟨n, hn, rfl⟩ := List.mem_iff_getElem.1 hb
        rcases lt_trichotomy m n with h | h | h
        · exact absurd (List.pairwise_iff_getElem.1 hp m n hm hn h) (not_lt.2 h2)
        · subst h; rfl
        · exact absurd (List.pairwise_iff_getElem.1 hp n m hn hm h) (not_lt.2 h1)
      · exact (@List.pairwise_insertionSort (K × Ieee K) (fun p q => p.1 ≤ q.1) _
          ⟨fun a b => le_total a.1 b.1⟩ ⟨fun a b c => le_trans⟩ (x.zip y))
      · exact hp.imp (fun h => h.le)
      · exact (List.perm_insertionSort _ _).trans (List.reverse_perm _).symm
    rw [hs, zip_reverse' x y hl, List.map_fst_zip (by simp; omega), List.map_snd_zip (by simp; omega)]
    apply Spec.Between.reverse hl (hx.imp (fun h => (ne_of_gt h)))
    exact ieeeInterpAt_spec _ _ _ (by rw [List.pairwise_reverse]; exact hx) (by simp [hl])

/-- C136: `interpolate_extrapolate` never raises because of special values: outside the samples the result is 0, on a sample position the
sample itself, and strictly between two samples it is finite if and only if both are -/
theorem C136_interpolate (r : ERel K) (lx : List K) (hx : r.x.array = .ok lx) (hl : lx.length = r.y.length) (nx : Axis K)
    (hs : nx.sample ≠ 0) :
    ∃ q xs, r.interpAxis nx = .ok q ∧ q.x = nx ∧ nx.array = .ok xs ∧ q.y.length = xs.length ∧
      ∀ i (h : i < xs.length) (h' : i < q.y.length), Between lx r.y xs[i] q.y[i] := by
  have hxs := nx.array_eq hs
  obtain ⟨ys, h1, h2, h3⟩ := ieeeInterp1d_spec lx r.y (linspace nx.start nx.stop (nx.steps + 1)) hl
    (Axis.array_length_ne hx) (Axis.array_monotone hx)
  refine ⟨⟨nx, ys⟩, _, ?_, rfl, hxs, h2, h3⟩
  simp only [ERel.interpAxis, hx, hxs, h1, bind, Except.bind]
  apply eMake_ok
  rw [nx.size_eq hs, h2, linspace_length]

theorem val_of_map {y : List (Ieee K)} {z : List K} (h : y.map Ieee.val = z.map some) (i : ℕ) (h1 : i < y.length) (h2 : i < z.length) :
    y[i].val = some z[i] := by
  have := List.getElem_of_eq h (i := i) (by simpa using h1)
  simpa using this

theorem map_of_val {y : List (Ieee K)} {z : List K} (hl : y.length = z.length)
    (h : ∀ i (h1 : i < y.length) (h2 : i < z.length), y[i].val = some z[i]) : y.map Ieee.val = z.map some := by
  apply List.ext_getElem (by simp [hl])
  intro i h1 h2
  simpa using h i (by simpa using h1) (by simpa using h2)

/-- finite samples: `Between` is the interpolant -/
theorem Spec.Between.interpolant {x : List K} {y : List (Ieee K)} {z : List K} {t : K} {c : Ieee K} (h : Between x y t c)
    (hx : x.Pairwise (· < ·) ∨ x.Pairwise (· > ·)) (hl : x.length = y.length) (hz : y.map Ieee.val = z.map some) :
    ∃ v, c.val = some v ∧ IsInterpolant x z t v := by
  have hlz : y.length = z.length := by simpa using congrArg List.length hz
  by_cases hr : InRange x t
  · have sample : ∀ i (hi : i < x.length), x[i] = t → ∃ v, c.val = some v ∧ IsInterpolant x z t v := by
      intro i hi he
      refine ⟨z[i], by rw [h.sample i hi (by omega) he]; exact val_of_map hz i _ _, ?_⟩
      have h' := interp1d_spec x z [t] (by omega) (by omega) hx
      obtain ⟨ys, -, hy2, hy3⟩ := h'
      have h0 := hy3 0 (by simp) (by simp [hy2])
      rw [List.getElem_singleton] at h0
      rw [← h0.sample i hi (by omega) he]
      exact h0
    rcases inRange_cases hx hr with ⟨i, hi, he⟩ | ⟨i, hi, ha, hb⟩
    · exact sample i hi he
    · have hends : x[i] = t ∨ x[i + 1] = t ∨ (min x[i] x[i + 1] < t ∧ t < max x[i] x[i + 1]) := by
        rcases ha.lt_or_eq with ha | ha
        · rcases hb.lt_or_eq with hb | hb
          · exact Or.inr (Or.inr ⟨ha, hb⟩)
          · rcases max_choice x[i] x[i + 1] with h | h
            · exact Or.inl (by rw [← h, ← hb])
            · exact Or.inr (Or.inl (by rw [← h, ← hb]))
        · rcases min_choice x[i] x[i + 1] with h | h
          · exact Or.inl (by rw [← h, ha])
          · exact Or.inr (Or.inl (by rw [← h, ha]))
      rcases hends with he | he | ⟨h1, h2⟩
      · exact sample i (by omega) he
      · exact sample (i + 1) hi he
      · have hv := (h.between i hi (by omega) h1 h2).2 z[i] z[i + 1] (val_of_map hz i _ _) (val_of_map hz (i + 1) _ _)
        refine ⟨_, hv, ?_⟩
        have h' := interp1d_spec x z [t] (by omega) (by omega) hx
        obtain ⟨ys, -, hy2, hy3⟩ := h'
        have h0 := hy3 0 (by simp) (by simp [hy2])
        rw [List.getElem_singleton] at h0
        have := h0.between i hi (by omega) ha hb
        rw [smul_eq_mul] at this
        rw [← this]
        exact h0
  · refine ⟨0, by rw [h.outside hr]; rfl, ?_⟩
    by_cases h0 : x.length = 0
    · have : x = [] := List.length_eq_zero_iff.1 h0
      subst this
      exact ⟨fun _ => rfl, fun i h => by simp at h, fun i h => by simp at h⟩
    · obtain ⟨ys, -, hy2, hy3⟩ := interp1d_spec x z [t] (by omega) h0 hx
      have h1 := hy3 0 (by simp) (by simp [hy2])
      rw [List.getElem_singleton] at h1
      rw [← h1.outside hr]
      exact h1

theorem goes_error {e : Except Err (ERel K)} {r : Except Err (Rel K K)} {k : Err} (he : e = .error k) (hr : r = .error k)
    (hk : k ≠ .nonFinite) : Goes e r := by
  subst he hr
  refine ⟨fun q hq => (nomatch hq), fun hq => ?_, fun k' hk' _ => ?_⟩
  · simp only [Except.error.injEq] at hq; exact absurd hq hk
  · simp only [Except.error.injEq] at hk' ⊢; exact hk'

theorem goes_ok {e : Except Err (ERel K)} {r : Except Err (Rel K K)} {f : ERel K} {q : Rel K K} (he : e = .ok f) (hr : r = .ok q)
    (h : Reads f q) : Goes e r := by
  subst he hr
  refine ⟨fun q' hq => ?_, fun hq => (nomatch hq), fun k hk => (nomatch hk)⟩
  cases hq
  exact ⟨f, rfl, h⟩

theorem array_error {a : Axis K} {e : Err} (h : a.array = .error e) : e = .zeroDivision := by
  by_cases h0 : a.sample = 0
  · rw [a.array_zero h0] at h; cases h; rfl
  · rw [a.array_eq h0] at h; cases h

theorem array_sample_ne {a : Axis K} {l : List K} (h : a.array = .ok l) : a.sample ≠ 0 := by
  intro h0; rw [a.array_zero h0] at h; cases h

/-- interpolation of finite samples: both raise the same or both succeed -/
theorem interp_reads {e : ERel K} {r : Rel K K} (h : Reads e r) (a : Axis K) :
    (∃ k, k ≠ .nonFinite ∧ e.interpAxis a = .error k ∧ r.interpAxis a = .error k) ∨
    ∃ f q, e.interpAxis a = .ok f ∧ r.interpAxis a = .ok q ∧ Reads f q ∧ q.x = a ∧ a.size = .ok q.y.length := by
  obtain ⟨hx, hy⟩ := h
  have hl : e.y.length = r.y.length := by simpa using congrArg List.length hy
  cases hlx : r.x.array with
  | error k =>
    left
    refine ⟨k, by rw [array_error hlx]; simp, ?_, ?_⟩
    · simp [ERel.interpAxis, hx, hlx, bind, Except.bind]
    · simp [Rel.interpAxis, hlx, bind, Except.bind]
  | ok lx =>
    cases hxs : a.array with
    | error k =>
      left
      refine ⟨k, by rw [array_error hxs]; simp, ?_, ?_⟩
      · simp [ERel.interpAxis, hx, hlx, hxs, bind, Except.bind]
      · simp [Rel.interpAxis, hlx, hxs, bind, Except.bind]
    | ok xs =>
      by_cases hlen : lx.length = r.y.length
      · right
        have hs := array_sample_ne hxs
        obtain ⟨f, xs1, f1, f2, f3, f4, f5⟩ := C136_interpolate e lx (by rw [hx]; exact hlx) (by omega) a hs
        obtain ⟨q, xs2, ys, q1, q2, q3, q4, q5, q6⟩ := interpAxis_spec r lx r.y ((getData_ok_iff _ _ _).2 ⟨hlx, rfl, hlen⟩) a hs
        rw [hxs] at f3 q3
        cases f3; cases q3
        have hq := ((getData_ok_iff _ _ _).1 q5).2.2
        have hqy := ((getData_ok_iff _ _ _).1 q5).2.1
        refine ⟨f, q, f1, q1, ⟨by rw [f2, q2], ?_⟩, q2, ?_⟩
        · rw [q4]
          apply map_of_val (by omega)
          intro i h1 h2
          obtain ⟨v, hv1, hv2⟩ := (f5 i (by omega) h1).interpolant (Axis.array_monotone hlx) (by omega) hy
          rw [hv1, IsInterpolant.unique hlen (Axis.array_monotone hlx) hv2 (q6 i (by omega) h2)]
        · rw [q4, ← hq]
          have := a.array_eq hs
          rw [hxs] at this
          cases this
          rw [a.size_eq hs, linspace_length]
      · left
        refine ⟨.value, by simp, ?_, ?_⟩
        · simp [ERel.interpAxis, ieeeInterp1d, hx, hlx, hxs, bind, Except.bind, hl, hlen]
        · simp [Rel.interpAxis, interp1d, hlx, hxs, bind, Except.bind, hlen]

/-! ## What the operations on single samples are -/

/-- the sum of two floating point numbers -/
structure Spec.IsSum (a b c : Ieee K) : Prop where
  nan : c = .nan ↔ a = .nan ∨ b = .nan ∨ ∃ s, a = .inf s ∧ b = .inf (!s)
  infinite : ∀ s, c = .inf s ↔ a = .inf s ∧ (b = .inf s ∨ b.val ≠ none) ∨ b = .inf s ∧ a.val ≠ none
  finite : ∀ v w, a.val = some v → b.val = some w → c.val = some (v + w)
  sign : c = .negZero ↔ a = .negZero ∧ b = .negZero

/-- the difference of two floating point numbers -/
structure Spec.IsDifference (a b c : Ieee K) : Prop where
  nan : c = .nan ↔ a = .nan ∨ b = .nan ∨ ∃ s, a = .inf s ∧ b = .inf s
  infinite : ∀ s, c = .inf s ↔ a = .inf s ∧ (b = .inf (!s) ∨ b.val ≠ none) ∨ b = .inf (!s) ∧ a.val ≠ none
  finite : ∀ v w, a.val = some v → b.val = some w → c.val = some (v - w)
  sign : c = .negZero ↔ a = .negZero ∧ b = .fin 0

/-- the product of two floating point numbers -/
structure Spec.IsProduct (a b c : Ieee K) : Prop where
  nan : c = .nan ↔ a = .nan ∨ b = .nan ∨ (a.val = none ∧ b.val = some 0) ∨ (a.val = some 0 ∧ b.val = none)
  infinite : (∃ s, c = .inf s) ↔
    (∃ s, a = .inf s) ∧ b ≠ .nan ∧ b.val ≠ some 0 ∨ (∃ s, b = .inf s) ∧ a ≠ .nan ∧ a.val ≠ some 0
  finite : ∀ v w, a.val = some v → b.val = some w → c.val = some (v * w)
  sign : c ≠ .nan → c.neg? = (a.neg? != b.neg?)

/-- the quotient of two floating point numbers -/
structure Spec.IsQuotient (a b c : Ieee K) : Prop where
  nan : c = .nan ↔ a = .nan ∨ b = .nan ∨ (a.val = some 0 ∧ b.val = some 0) ∨ (∃ s t, a = .inf s ∧ b = .inf t)
  infinite : (∃ s, c = .inf s) ↔ (∃ s, a = .inf s) ∧ b.val ≠ none ∨ (∃ v, v ≠ 0 ∧ a.val = some v) ∧ b.val = some 0
  finite : ∀ v w, a.val = some v → b.val = some w → w ≠ 0 → c.val = some (v / w)
  small : ∀ v s, a.val = some v → b = .inf s → c.val = some 0
  sign : c ≠ .nan → c.neg? = (a.neg? != b.neg?)

/-- the result of one of the operators on a sample `a` of the relation and the other operand `b` -/
def Spec.IsResult (op : MathOp) (a b c : Ieee K) : Prop :=
  match op with
  | .add => IsSum a b c
  | .radd => IsSum b a c
  | .sub => IsDifference a b c
  | .rsub => IsDifference b a c
  | .mul => IsProduct a b c
  | .rmul => IsProduct b a c
  | .truediv => IsQuotient a b c
  | .rtruediv => IsQuotient b a c
  | .pow | .rpow => False

theorem isSum_add (a b : Ieee K) : IsSum a b (a.add b) := by
  refine ⟨?_, fun s => ?_, fun v w => val_add, ?_⟩
  · cases a <;> cases b <;> simp [Ieee.add]
    rename_i s t
    cases s <;> cases t <;> decide
  · cases a <;> cases b <;> simp [Ieee.add, Ieee.val]
    split_ifs with h
    · simp_all
    · simp
      rintro rfl
      exact fun e => h e.symm
  · cases a <;> cases b <;> simp [Ieee.add]
    split_ifs <;> simp

theorem opp_inf_iff (a : Ieee K) (s : Bool) : a.opp = .inf s ↔ a = .inf (!s) := by
  cases a <;> simp [Ieee.opp]
  split_ifs <;> simp

theorem opp_negZero_iff (a : Ieee K) : a.opp = .negZero ↔ a = .fin 0 := by
  cases a <;> simp [Ieee.opp]

theorem isDifference_sub (a b : Ieee K) : IsDifference a b (a.sub b) := by
  have h := isSum_add a b.opp
  refine ⟨?_, fun s => ?_, fun v w => val_sub, ?_⟩
  · rw [Ieee.sub, h.nan, opp_nan_iff]
    simp only [opp_inf_iff, Bool.not_not]
  · rw [Ieee.sub, h.infinite, opp_inf_iff, val_opp]
    simp only [ne_eq, Option.map_eq_none_iff]
  · rw [Ieee.sub, h.sign, opp_negZero_iff]

theorem neg?_of_val {a : Ieee K} {v : K} (h : a.val = some v) (hv : v ≠ 0) : a.neg? = decide (v < 0) := by
  cases a <;> simp_all [Ieee.val, Ieee.neg?]

theorem neg?_ofVal {v : K} {s : Bool} (h : v ≠ 0 → decide (v < 0) = s) : (Ieee.ofVal v s).neg? = s := by
  unfold Ieee.ofVal Ieee.zero
  by_cases hv : v = 0
  · cases s <;> simp [hv, Ieee.neg?]
  · simpa [hv, Ieee.neg?] using h hv

theorem neg?_zero (s : Bool) : (Ieee.zero s : Ieee K).neg? = s := by cases s <;> simp [Ieee.zero, Ieee.neg?]

theorem decide_mul_neg {v w : K} (hv : v ≠ 0) (hw : w ≠ 0) : decide (v * w < 0) = (decide (v < 0) != decide (w < 0)) := by
  rcases lt_or_gt_of_ne hv with h1 | h1 <;> rcases lt_or_gt_of_ne hw with h2 | h2
  · rw [decide_eq_true h1, decide_eq_true h2, decide_eq_false (not_lt.2 (mul_pos_of_neg_of_neg h1 h2).le)]; rfl
  · rw [decide_eq_true h1, decide_eq_false (not_lt.2 h2.le), decide_eq_true (mul_neg_of_neg_of_pos h1 h2)]; rfl
  · rw [decide_eq_false (not_lt.2 h1.le), decide_eq_true h2, decide_eq_true (mul_neg_of_pos_of_neg h1 h2)]; rfl
  · rw [decide_eq_false (not_lt.2 h1.le), decide_eq_false (not_lt.2 h2.le), decide_eq_false (not_lt.2 (mul_pos h1 h2).le)]; rfl

theorem decide_div_neg {v w : K} (hv : v ≠ 0) (hw : w ≠ 0) : decide (v / w < 0) = (decide (v < 0) != decide (w < 0)) := by
  rw [div_eq_mul_inv, decide_mul_neg hv (inv_ne_zero hw)]
  simp only [inv_lt_zero]

theorem ofVal_ne_nan (v : K) (s : Bool) : Ieee.ofVal v s ≠ .nan := by
  intro h; have := val_ofVal v s; rw [h, val_nan] at this; cases this

theorem ofVal_ne_inf (v : K) (s t : Bool) : Ieee.ofVal v s ≠ .inf t := by
  intro h; have := val_ofVal v s; rw [h, val_inf] at this; cases this

theorem zero_ne_nan (s : Bool) : (Ieee.zero s : Ieee K) ≠ .nan := by
  intro h; have := val_zero (K := K) s; rw [h, val_nan] at this; cases this

theorem zero_ne_inf (s t : Bool) : (Ieee.zero s : Ieee K) ≠ .inf t := by
  intro h; have := val_zero (K := K) s; rw [h, val_inf] at this; cases this

theorem ieee_cases (a : Ieee K) : a = .nan ∨ (∃ s, a = .inf s) ∨ ∃ v, a.val = some v ∧ a ≠ .nan ∧ ∀ s, a ≠ .inf s := by
  cases a <;> simp [Ieee.val]

theorem mul_finite {a b : Ieee K} {v w : K} (ha : a.val = some v) (hb : b.val = some w) :
    a.mul b = Ieee.ofVal (v * w) (a.neg? != b.neg?) := by
  unfold Ieee.mul
  split
  · simp [Ieee.val] at ha
  · simp [Ieee.val] at hb
  · simp only [ha, hb]

theorem mul_inf {a : Ieee K} {v : K} (ha : a.val = some v) (s : Bool) :
    a.mul (.inf s) = if v = 0 then .nan else .inf (a.neg? != s) := by
  cases a <;> simp_all [Ieee.mul, Ieee.val, Ieee.neg?]

theorem inf_mul {b : Ieee K} {v : K} (hb : b.val = some v) (s : Bool) :
    (Ieee.inf s).mul b = if v = 0 then .nan else .inf (s != b.neg?) := by
  cases b <;> simp_all [Ieee.mul, Ieee.val, Ieee.neg?]

theorem inf_mul_inf (s t : Bool) : (Ieee.inf s : Ieee K).mul (.inf t) = .inf (s != t) := rfl

theorem mul_nan (a : Ieee K) : a.mul .nan = .nan := by cases a <;> rfl

theorem div_nan (a : Ieee K) : a.div .nan = .nan := by cases a <;> rfl

theorem div_finite {a b : Ieee K} {v w : K} (ha : a.val = some v) (hb : b.val = some w) :
    a.div b = if w = 0 then (if v = 0 then .nan else .inf (a.neg? != b.neg?)) else Ieee.ofVal (v / w) (a.neg? != b.neg?) := by
  unfold Ieee.div
  split
  · simp [Ieee.val] at ha
  · simp [Ieee.val] at hb
  · simp only [ha, hb]

theorem div_inf {a : Ieee K} {v : K} (ha : a.val = some v) (s : Bool) : a.div (.inf s) = Ieee.zero (a.neg? != s) := by
  cases a <;> simp_all [Ieee.div, Ieee.val, Ieee.neg?]

theorem inf_div {b : Ieee K} {v : K} (hb : b.val = some v) (s : Bool) : (Ieee.inf s).div b = .inf (s != b.neg?) := by
  cases b <;> simp_all [Ieee.div, Ieee.val, Ieee.neg?]

theorem isProduct_mul (a b : Ieee K) : IsProduct a b (a.mul b) := by
  rcases ieee_cases a with rfl | ⟨s, rfl⟩ | ⟨v, hv, hv1, hv2⟩
  · rw [nan_mul]
    exact ⟨by simp, by simp, fun v w h => by simp [val_nan] at h, by simp⟩
  · rcases ieee_cases b with rfl | ⟨t, rfl⟩ | ⟨w, hw, hw1, hw2⟩
    · rw [mul_nan]
      exact ⟨by simp, by simp [val_inf], fun v w _ h => by simp [val_nan] at h, by simp⟩
    · rw [inf_mul_inf]
      exact ⟨by simp [val_inf], by simp [val_inf], fun v w h => by simp [val_inf] at h, fun _ => rfl⟩
    · rw [inf_mul hw]
      by_cases h0 : w = 0
      · simp only [h0, if_true]
        exact ⟨by simp [val_inf, hw, h0], by simp [hw, h0, hw2], fun v w h => by simp [val_inf] at h, by simp⟩
      · simp only [h0, if_false]
        exact ⟨by simp [val_inf, hw, h0, hw1], by simp [hw, h0, hw1], fun v w h => by simp [val_inf] at h, fun _ => rfl⟩
  · rcases ieee_cases b with rfl | ⟨t, rfl⟩ | ⟨w, hw, hw1, hw2⟩
    · rw [mul_nan]
      exact ⟨by simp, by simp [hv2], fun v w _ h => by simp [val_nan] at h, by simp⟩
    · rw [mul_inf hv]
      by_cases h0 : v = 0
      · simp only [h0, if_true]
        exact ⟨by simp [val_inf, hv, h0], by simp [hv, h0, hv2], fun v w _ h => by simp [val_inf] at h, by simp⟩
      · simp only [h0, if_false]
        exact ⟨by simp [val_inf, hv, h0, hv1], by simp [hv, h0, hv1], fun v w _ h => by simp [val_inf] at h, fun _ => rfl⟩
    · refine ⟨?_, ?_, fun v w => val_mul, fun _ => ?_⟩
      · rw [mul_finite hv hw]
        simp [ofVal_ne_nan, hv1, hw1, hv, hw]
      · rw [mul_finite hv hw]
        simp [ofVal_ne_inf, hv2, hw2]
      · rw [mul_finite hv hw]
        apply neg?_ofVal
        intro h0
        have h1 : v ≠ 0 := fun h => h0 (by rw [h, zero_mul])
        have h2 : w ≠ 0 := fun h => h0 (by rw [h, mul_zero])
        rw [neg?_of_val hv h1, neg?_of_val hw h2, decide_mul_neg h1 h2]

theorem isQuotient_div (a b : Ieee K) : IsQuotient a b (a.div b) := by
  rcases ieee_cases a with rfl | ⟨s, rfl⟩ | ⟨v, hv, hv1, hv2⟩
  · rw [nan_div]
    exact ⟨by simp, by simp [val_nan], fun v w h => by simp [val_nan] at h, fun v s h => by simp [val_nan] at h, by simp⟩
  · rcases ieee_cases b with rfl | ⟨t, rfl⟩ | ⟨w, hw, hw1, hw2⟩
    · rw [div_nan]
      exact ⟨by simp, by simp [val_inf, val_nan], fun v w h => by simp [val_inf] at h, fun v s h => by simp [val_inf] at h, by simp⟩
    · refine ⟨?_, ?_, fun v w h => by simp [val_inf] at h, fun v s h => by simp [val_inf] at h, fun h => absurd rfl h⟩
      · exact ⟨fun _ => Or.inr (Or.inr (Or.inr ⟨s, t, rfl, rfl⟩)), fun _ => rfl⟩
      · simp [Ieee.div, Ieee.val]
    · rw [inf_div hw]
      exact ⟨by simp [val_inf, hw1, hw2], by simp [hw], fun v w h => by simp [val_inf] at h, fun v s h => by simp [val_inf] at h,
        fun _ => rfl⟩
  · rcases ieee_cases b with rfl | ⟨t, rfl⟩ | ⟨w, hw, hw1, hw2⟩
    · rw [div_nan]
      exact ⟨by simp, by simp [val_nan], fun v w _ h => by simp [val_nan] at h, fun v s _ h => by simp at h, by simp⟩
    · rw [div_inf hv]
      exact ⟨by simp [zero_ne_nan, hv1, hv2, val_inf], by simp [zero_ne_inf, val_inf], fun v w _ h => by simp [val_inf] at h,
        fun v s _ _ => val_zero _, fun _ => neg?_zero _⟩
    · rw [div_finite hv hw]
      by_cases h0 : w = 0
      · by_cases h1 : v = 0
        · simp only [h0, h1, if_true]
          exact ⟨by simp [hv, hw, h0, h1], by simp [hv, hw, h1, hv2],
            fun v w' _ h => by rw [hw, h0] at h; cases h; exact fun h => absurd rfl h, fun v s _ h => absurd h (hw2 s), by simp⟩
        · simp only [h0, h1, if_true, if_false]
          exact ⟨by simp [hv, hw, h1, hv1, hw1, hv2], by simp [hv, hw, h0, h1],
            fun v w' _ h => by rw [hw, h0] at h; cases h; exact fun h => absurd rfl h, fun v s _ h => absurd h (hw2 s), fun _ => rfl⟩
      · simp only [h0, if_false]
        refine ⟨by simp [ofVal_ne_nan, hv1, hw1, hw, h0, hv2], by simp [ofVal_ne_inf, hv2, hw, h0], ?_,
          fun v s _ h => absurd h (hw2 s), fun _ => ?_⟩
        · intro v' w' h1 h2 _
          rw [hv] at h1; rw [hw] at h2
          cases h1; cases h2
          exact val_ofVal _ _
        · apply neg?_ofVal
          intro h1
          have h2 : v ≠ 0 := fun h => h1 (by rw [h, zero_div])
          rw [neg?_of_val hv h2, neg?_of_val hw h0, decide_div_neg h2 h0]

theorem isResult {op : MathOp} (h : NoPower op) (a b : Ieee K) : IsResult op a b (ieeeOf op a b) := by
  obtain ⟨h1, h2⟩ := h
  cases op <;> simp only [ieeeOf, MathOp.ieee, Option.getD_some, IsResult]
  · exact isSum_add _ _
  · exact isSum_add _ _
  · exact isDifference_sub _ _
  · exact isDifference_sub _ _
  · exact isProduct_mul _ _
  · exact isProduct_mul _ _
  · exact isQuotient_div _ _
  · exact isQuotient_div _ _
  · exact h1 rfl
  · exact h2 rfl

end

end SweepDesign
