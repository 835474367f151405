import Verif.Props.Special
import Verif.Lemmas.Conv
import Mathlib.Data.Rat.Floor

/-!
# C136: relations with inf and nan among their samples
-/

set_option linter.unusedSectionVars false

namespace SweepDesign

section
variable {K : Type} [Field K] [LinearOrder K] [IsStrictOrderedRing K] [FloorRing K]

/-- as many samples as the axis has points, which the constructor makes sure of -/
def Spec.Sized (r : ERel K) : Prop := r.x.size = .ok r.y.length

open Spec

theorem sized_array {r : ERel K} (h : Sized r) : ∃ lx, r.x.array = .ok lx ∧ lx.length = r.y.length ∧ r.x.sample ≠ 0 := by
  obtain ⟨h1, h2⟩ := (r.x.size_ok_iff _).1 h
  exact ⟨_, r.x.array_eq h1, by rw [linspace_length, h2], h1⟩

theorem sized_of_reads {e : ERel K} {r : Rel K K} (h : Reads e r) : Sized e ↔ Balanced r := by
  obtain ⟨hx, hy⟩ := h
  have hl : e.y.length = r.y.length := by simpa using congrArg List.length hy
  rw [Sized, Balanced, hx, hl]

/-- C136: an axis with the same numbers changes nothing, whatever the samples are -/
theorem C136_own_axis (r : ERel K) (h : Sized r) : r.interpAxis r.x = .ok r := by
  obtain ⟨lx, h1, h2, h3⟩ := sized_array h
  obtain ⟨q, xs, q1, q2, q3, q4, q5⟩ := C136_interpolate r lx h1 h2 r.x h3
  rw [h1] at q3
  cases q3
  rw [q1]
  have : q.y = r.y := by
    apply List.ext_getElem (by omega)
    intro i hi hj
    exact (q5 i (by omega) hi).sample i (by omega) hj rfl
  cases q; cases r; simp_all

theorem zip_ieee {op : MathOp} (h : NoPower op) (a b : List (Ieee K)) :
    List.zipWith op.ieee a b = (List.zipWith (ieeeOf op) a b).map some := by
  rw [List.map_zipWith]
  congr
  funext x y
  exact ieee_some h x y

theorem ieeeArrays_ok {op : MathOp} (h : NoPower op) {a b : List (Ieee K)} (hl : a.length = b.length) :
    ieeeArrays a b op = .ok (List.zipWith (ieeeOf op) a b) := by
  unfold ieeeArrays
  rw [if_pos hl, zip_ieee h, ieee_collect]

theorem eEqualize_same (same : Bool) (a b : ERel K) (ha : Sized a) (hb : Sized b) (hx : a.x = b.x) :
    ERel.equalize same a b = .ok (a, b) := by
  unfold ERel.equalize
  split_ifs with hs
  · rfl
  · have hc : commonX a.x b.x = a.x := by
      rw [← hx]
      simp [commonX]
    simp only [hc, C136_own_axis a ha, except_bind_ok]
    rw [hx, C136_own_axis b hb]
    rfl

/-- C136: operators between relations on equal axes never raise: each sample is the floating point result of the two samples at its
place, so special values stay at their place -/
theorem C136_same_axis (same : Bool) (a b : ERel K) (ha : Sized a) (hb : Sized b) (hx : a.x = b.x) (op : MathOp) (ho : NoPower op) :
    ∃ f, a.withRel same b op = .ok f ∧ f.x = a.x ∧ f.y.length = a.y.length ∧
      ∀ i (h : i < f.y.length) (h1 : i < a.y.length) (h2 : i < b.y.length), IsResult op a.y[i] b.y[i] f.y[i] := by
  have hl : a.y.length = b.y.length := by
    unfold Sized at ha hb
    rw [hx, hb] at ha
    simpa using ha.symm
  refine ⟨⟨a.x, List.zipWith (ieeeOf op) a.y b.y⟩, ?_, rfl, by simp [hl], ?_⟩
  · simp only [ERel.withRel, eEqualize_same same a b ha hb hx, except_bind_ok, ieeeArrays_ok ho hl]
    apply eMake_ok
    rw [ha]
    simp [hl]
  · intro i h h1 h2
    simp only [List.getElem_zipWith]
    exact isResult ho _ _

/-- C136: the same with a number, which may itself be inf or nan -/
theorem C136_number (a : ERel K) (ha : Sized a) (c : Ieee K) (op : MathOp) (ho : NoPower op) :
    ∃ f, a.withNum c op = .ok f ∧ f.x = a.x ∧ f.y.length = a.y.length ∧
      ∀ i (h : i < f.y.length) (h1 : i < a.y.length), IsResult op a.y[i] c f.y[i] := by
  have he : (a.y.map fun v => op.ieee v c) = (a.y.map fun v => ieeeOf op v c).map some := by
    rw [List.map_map]
    exact List.map_congr_left fun v _ => ieee_some ho v c
  refine ⟨⟨a.x, a.y.map fun v => ieeeOf op v c⟩, ?_, rfl, by simp, ?_⟩
  · simp only [ERel.withNum, he, ieee_collect, except_bind_ok]
    apply eMake_ok
    rw [ha]
    simp
  · intro i h h1
    simp only [List.getElem_map]
    exact isResult ho _ _

/-- interpolation of two relations to the common axis -/
theorem eEqualize_spec (a b : ERel K) (ha : Sized a) (hb : Sized b) :
    ∃ q1 q2 xs la lb, ERel.equalize false a b = .ok (q1, q2) ∧ q1.x = commonX a.x b.x ∧ q2.x = commonX a.x b.x ∧
      a.x.array = .ok la ∧ b.x.array = .ok lb ∧ (commonX a.x b.x).array = .ok xs ∧ q1.y.length = xs.length ∧ q2.y.length = xs.length ∧
      ∀ i (h : i < xs.length) (h1 : i < q1.y.length) (h2 : i < q2.y.length), Between la a.y xs[i] q1.y[i] ∧ Between lb b.y xs[i] q2.y[i] := by
  obtain ⟨la, a1, a2, a3⟩ := sized_array ha
  obtain ⟨lb, b1, b2, b3⟩ := sized_array hb
  have hs := sample_min_ne_zero a3 b3
  obtain ⟨q1, xs, c1, c2, c3, c4, c5⟩ := C136_interpolate a la a1 a2 _ hs
  obtain ⟨q2, xs', d1, d2, d3, d4, d5⟩ := C136_interpolate b lb b1 b2 _ hs
  rw [c3] at d3
  cases d3
  refine ⟨q1, q2, xs, la, lb, ?_, c2, d2, a1, b1, c3, c4, d4, fun i h h1 h2 => ⟨c5 i h h1, d5 i h h2⟩⟩
  simp [ERel.equalize, c1, d1, bind, Except.bind, pure, Except.pure]

/-- C136: operators between relations on other axes never raise either: each sample is the floating point result of the two
interpolated samples -/
theorem C136_other_axes (a b : ERel K) (ha : Sized a) (hb : Sized b) (op : MathOp) (ho : NoPower op) :
    ∃ f xs la lb, a.withRel false b op = .ok f ∧ f.x = commonX a.x b.x ∧ f.x.array = .ok xs ∧ f.y.length = xs.length ∧
      a.x.array = .ok la ∧ b.x.array = .ok lb ∧
      ∀ i (h : i < xs.length) (h' : i < f.y.length), ∃ c d, Between la a.y xs[i] c ∧ Between lb b.y xs[i] d ∧ IsResult op c d f.y[i] := by
  obtain ⟨q1, q2, xs, la, lb, e1, e2, e3, e4, e5, e6, e7, e8, e9⟩ := eEqualize_spec a b ha hb
  refine ⟨⟨commonX a.x b.x, List.zipWith (ieeeOf op) q1.y q2.y⟩, xs, la, lb, ?_, rfl, e6, by simp [e7, e8], e4, e5, ?_⟩
  · simp only [ERel.withRel, e1, except_bind_ok, ieeeArrays_ok ho (e7.trans e8.symm), e2]
    apply eMake_ok
    rw [Axis.size_of_array e6]
    simp [e7, e8]
  · intro i h h'
    have := e9 i h (by omega) (by omega)
    refine ⟨_, _, this.1, this.2, ?_⟩
    simp only [List.getElem_zipWith]
    exact isResult ho _ _

/-! ## Comparison with the model that stops at special values -/

variable [PyPow K]

theorem goes_arrays {op : MathOp} (ho : NoPower op) {a b : ERel K} {r q : Rel K K} (ha : Reads a r) (hb : Reads b q)
    (hl : r.y.length = q.y.length) (hr : r.x.size = .ok r.y.length) :
    Goes (ieeeArrays a.y b.y op >>= ERel.make a.x) (mathOperation r.y (.arr q.y) op >>= Rel.make r.x) := by
  have la : a.y.length = r.y.length := by simpa using congrArg List.length ha.2
  have lb : b.y.length = q.y.length := by simpa using congrArg List.length hb.2
  have hz := zip_val ho ha.2 hb.2
  rw [ieeeArrays_ok ho (by omega), mathOperation_arr _ _ _ hl, except_bind_ok]
  have hm : ERel.make a.x (List.zipWith (ieeeOf op) a.y b.y) = .ok ⟨a.x, List.zipWith (ieeeOf op) a.y b.y⟩ := by
    apply eMake_ok
    rw [ha.1, hr]
    simp [la, lb, hl]
  cases hf : finite (List.zipWith op.fn r.y q.y) with
  | ok y =>
    have hy := (finite_ok_iff _ _).1 hf
    rw [ha.1]
    exact make_reads (hz.trans hy)
  | error e =>
    unfold finite at hf
    cases hn : (List.zipWith op.fn r.y q.y).mapM id with
    | some l => rw [hn] at hf; cases hf
    | none =>
      rw [hn] at hf
      cases hf
      refine ⟨fun q hq => by simp [bind, Except.bind] at hq, fun _ => ⟨_, hm, ?_⟩, fun k hk hk' => ?_⟩
      · have := (mapM_id_eq_none _).1 hn
        rw [← hz] at this
        obtain ⟨s, h1, h2⟩ := List.mem_map.1 this
        exact ⟨s, h1, h2⟩
      · simp only [bind, Except.bind, Except.error.injEq] at hk
        exact absurd hk.symm hk'

/-- C136: operators between relations with finite samples: the result of the finite model, the same exceptions, and where that model
stops a result with a sample that is not finite -/
theorem C136_agrees (same : Bool) {a b : ERel K} {r q : Rel K K} (ha : Reads a r) (hb : Reads b q) (hr : Balanced r) (hq : Balanced q)
    (hs : same = true → r.x = q.x) (op : MathOp) (ho : NoPower op) :
    Goes (a.withRel same b op) (r.operation (.rel same q) op) := by
  cases same with
  | true =>
    exact goes_arrays ho ha hb (balanced_length_eq hr hq (hs rfl)) hr
  | false =>
    unfold ERel.withRel Rel.operation ERel.equalize Rel.equalize
    simp only [Bool.false_eq_true, if_false]
    rw [ha.1, hb.1]
    rcases interp_reads ha (commonX r.x q.x) with ⟨k, h1, h2, h3⟩ | ⟨f, g, f1, f2, f3, f4, f5⟩
    · rw [h2, h3]; exact goes_error rfl rfl h1
    rcases interp_reads hb (commonX r.x q.x) with ⟨k, h1, h2, h3⟩ | ⟨f', g', g1, g2, g3, g4, g5⟩
    · rw [f1, f2, h2, h3]; exact goes_error rfl rfl h1
    rw [f1, f2, g1, g2]
    exact goes_arrays ho f3 g3 (by rw [f5] at g5; simpa using g5) (by rw [f4]; exact f5)

/-- C136: the same with a number -/
theorem C136_agrees_number {a : ERel K} {r : Rel K K} (ha : Reads a r) (hr : Balanced r) {c : Ieee K} {v : K} (hc : c.val = some v)
    (op : MathOp) (ho : NoPower op) : Goes (a.withNum c op) (r.operation (.other (.num v)) op) := by
  have he : (a.y.map fun v => op.ieee v c) = (a.y.map fun v => ieeeOf op v c).map some := by
    rw [List.map_map]
    exact List.map_congr_left fun v _ => ieee_some ho v c
  have hz : (a.y.map fun v => ieeeOf op v c).map Ieee.val = r.y.map fun x => op.fn x v := by
    obtain ⟨-, hy⟩ := ha
    generalize a.y = l at hy ⊢
    generalize r.y = m at hy ⊢
    induction l generalizing m with
    | nil => cases m with
      | nil => rfl
      | cons _ _ => simp at hy
    | cons x l ih =>
      cases m with
      | nil => simp at hy
      | cons y m =>
        obtain ⟨h1, h2⟩ := reads_cons.1 hy
        simp only [List.map_cons, ieeeOf_val ho h1 hc, ih _ h2]
  have la : a.y.length = r.y.length := by simpa using congrArg List.length ha.2
  have hm : a.withNum c op = .ok ⟨a.x, a.y.map fun v => ieeeOf op v c⟩ := by
    simp only [ERel.withNum, he, ieee_collect, except_bind_ok]
    apply eMake_ok
    rw [ha.1, hr]
    simp [la]
  simp only [Rel.operation, mathOperation_num]
  cases hf : finite (r.y.map fun x => op.fn x v) with
  | ok y =>
    have hy := (finite_ok_iff _ _).1 hf
    simp only [ERel.withNum, he, ieee_collect, except_bind_ok, ha.1]
    exact make_reads (hz.trans hy)
  | error e =>
    unfold finite at hf
    cases hn : (r.y.map fun x => op.fn x v).mapM id with
    | some l => rw [hn] at hf; cases hf
    | none =>
      rw [hn] at hf
      cases hf
      refine ⟨fun q hq => by simp [bind, Except.bind] at hq, fun _ => ⟨_, hm, ?_⟩, fun k hk hk' => ?_⟩
      · have := (mapM_id_eq_none _).1 hn
        rw [← hz] at this
        obtain ⟨s, h1, h2⟩ := List.mem_map.1 this
        exact ⟨s, h1, h2⟩
      · simp only [bind, Except.bind, Except.error.injEq] at hk
        exact absurd hk.symm hk'

omit [PyPow K] in
/-- C136: interpolation of finite samples is that of the finite model -/
theorem C136_agrees_interpolate {a : ERel K} {r : Rel K K} (ha : Reads a r) (x : Axis K) : Goes (a.interpAxis x) (r.interpAxis x) := by
  rcases interp_reads ha x with ⟨k, h1, h2, h3⟩ | ⟨f, g, f1, f2, f3, f4, f5⟩
  · exact goes_error h2 h3 h1
  · exact goes_ok f1 f2 f3

omit [PyPow K] in
/-- C136: so is a shift -/
theorem C136_agrees_shift {a : ERel K} {r : Rel K K} (ha : Reads a r) (d : K) : Goes (a.shift d) (r.shift d) := by
  unfold ERel.shift Rel.shift
  rw [ha.1]
  exact make_reads ha.2

/-! ## Sums -/

omit [PyPow K]

/-- any sum: nan with a nan or with infinities of both signs among the terms, infinite with infinities of one sign, else finite -/
theorem fold_spec (z : Ieee K) (l : List (Ieee K)) :
    (l.foldl Ieee.add z = .nan ↔ .nan ∈ z :: l ∨ .inf true ∈ z :: l ∧ .inf false ∈ z :: l) ∧
    (∀ s, l.foldl Ieee.add z = .inf s ↔ .nan ∉ z :: l ∧ .inf s ∈ z :: l ∧ .inf (!s) ∉ z :: l) := by
  induction l generalizing z with
  | nil =>
    refine ⟨?_, fun s => ?_⟩
    · simp only [List.foldl_nil, List.mem_singleton]
      constructor
      · rintro rfl; exact Or.inl rfl
      · rintro (h | ⟨h, h'⟩)
        · exact h.symm
        · rw [← h] at h'; cases h'
    · simp only [List.foldl_nil, List.mem_singleton]
      constructor
      · rintro rfl; cases s <;> simp
      · exact fun h => h.2.1.symm
  | cons a l ih =>
    rw [List.foldl_cons]
    obtain ⟨h1, h2⟩ := ih (z.add a)
    refine ⟨?_, fun s => ?_⟩
    · rw [h1]
      simp only [List.mem_cons]
      generalize (Ieee.nan ∈ l) = P
      generalize (Ieee.inf true ∈ l) = Q
      generalize (Ieee.inf false ∈ l) = R
      cases z <;> cases a <;> simp [Ieee.add]
      all_goals rename_i s t
      all_goals cases s <;> cases t <;> simp
    · rw [h2]
      simp only [List.mem_cons]
      cases s
      all_goals
        simp only [Bool.not_false, Bool.not_true]
        generalize (Ieee.nan ∈ l) = P
        generalize (Ieee.inf true ∈ l) = Q
        generalize (Ieee.inf false ∈ l) = R
        cases z <;> cases a <;> simp [Ieee.add]
        all_goals rename_i s t
        all_goals cases s <;> cases t <;> simp

/-- finite exactly with finite terms -/
theorem fold_none (z : Ieee K) (l : List (Ieee K)) : (l.foldl Ieee.add z).val = none ↔ ∃ a ∈ z :: l, a.val = none := by
  induction l generalizing z with
  | nil => simp
  | cons a l ih =>
    rw [List.foldl_cons, ih]
    simp only [List.mem_cons, exists_eq_or_imp, val_add_none, or_assoc]

theorem fold_val {z : Ieee K} {v : K} (hz : z.val = some v) {l : List (Ieee K)} {m : List K} (h : l.map Ieee.val = m.map some) :
    (l.foldl Ieee.add z).val = some (v + m.sum) := by
  induction l generalizing z v m with
  | nil => cases m with
    | nil => simpa using hz
    | cons _ _ => simp at h
  | cons a l ih =>
    cases m with
    | nil => simp at h
    | cons b m =>
      obtain ⟨h1, h2⟩ := reads_cons.1 h
      rw [List.foldl_cons, ih (val_add hz h1) h2, List.sum_cons, add_assoc]

/-- C136: in which order numpy adds does not matter: exactly the same sum, with its special values and the sign of zero -/
theorem C136_sum_order (l m : List (Ieee K)) (h : l.Perm m) : ieeeSum l = ieeeSum m := by
  unfold ieeeSum
  refine h.foldl_eq' (fun x _ y _ z => ?_) _
  rcases x with v | _ | (_ | _) | _ <;> rcases y with w | _ | (_ | _) | _ <;> rcases z with u | _ | (_ | _) | _ <;>
    first
    | rfl
    | (simp only [Ieee.add, Ieee.fin.injEq]; ring)

/-! ## Differences and integrals -/

/-- C136: `diff` never raises because of special values: each sample is the quotient of the difference of two neighbours by the step, so it
is finite if and only if both are -/
theorem C136_diff (r : ERel K) (q : ERel K) (h : r.diff = .ok q) (hs : r.x.sample ≠ 0) :
    q.y.length = r.y.length - 1 ∧ ∀ i (h : i < q.y.length) (h' : i + 1 < r.y.length),
      (q.y[i].val = none ↔ r.y[i].val = none ∨ r.y[i + 1].val = none) ∧
      (q.y[i] = .nan ↔ r.y[i] = .nan ∨ r.y[i + 1] = .nan ∨ ∃ s, r.y[i] = .inf s ∧ r.y[i + 1] = .inf s) ∧
      ∀ v w, r.y[i].val = some v → r.y[i + 1].val = some w → q.y[i].val = some ((w - v) / r.x.sample) := by
  unfold ERel.diff ERel.make at h
  obtain ⟨n, -, h⟩ := except_bind_eq_ok.1 h
  split_ifs at h
  cases h
  refine ⟨by simp, fun i h h' => ?_⟩
  simp only [List.getElem_zipWith, List.getElem_tail]
  refine ⟨?_, ?_, fun v w hv hw => ?_⟩
  · rw [val_div_none, val_sub_none]
    simp [Ieee.val, hs, or_comm]
  · rw [(isQuotient_div _ _).nan, (isDifference_sub _ _).nan]
    simp only [reduceCtorEq, Ieee.val, Option.some.injEq, hs, and_false, or_false, exists_false]
    constructor
    · rintro (h | h | ⟨s, h1, h2⟩)
      · exact Or.inr (Or.inl h)
      · exact Or.inl h
      · exact Or.inr (Or.inr ⟨s, h2, h1⟩)
    · rintro (h | h | ⟨s, h1, h2⟩)
      · exact Or.inr (Or.inl h)
      · exact Or.inl h
      · exact Or.inr (Or.inr ⟨s, h2, h1⟩)
  · rw [val_div (val_sub hw hv) rfl, if_neg hs]

theorem cumsum_go_length (z : Ieee K) (l : List (Ieee K)) : (ieeeCumsum.go z l).length = l.length := by
  induction l generalizing z with
  | nil => rfl
  | cons a l ih => simp [ieeeCumsum.go, ih]

theorem cumsum_go_getElem (z : Ieee K) (l : List (Ieee K)) (i : ℕ) (h : i < (ieeeCumsum.go z l).length) :
    (ieeeCumsum.go z l)[i] = (l.take (i + 1)).foldl Ieee.add z := by
  induction l generalizing z i with
  | nil => simp [ieeeCumsum.go] at h
  | cons a l ih =>
    cases i with
    | zero => simp [ieeeCumsum.go]
    | succ i => simp only [ieeeCumsum.go, List.getElem_cons_succ, List.take_succ_cons, List.foldl_cons, ih]

theorem ieeeCumsum_length (l : List (Ieee K)) : (ieeeCumsum l).length = l.length := by
  cases l <;> simp [ieeeCumsum, cumsum_go_length]

/-- the sum of a list that starts with its first term -/
def sumFrom (l : List (Ieee K)) : Ieee K :=
  match l with
  | [] => .fin 0
  | a :: l => l.foldl Ieee.add a

theorem ieeeCumsum_getElem (l : List (Ieee K)) (i : ℕ) (h : i < (ieeeCumsum l).length) :
    (ieeeCumsum l)[i] = sumFrom (l.take (i + 1)) := by
  cases l with
  | nil => simp [ieeeCumsum] at h
  | cons a l =>
    cases i with
    | zero => simp [ieeeCumsum, sumFrom]
    | succ i => simp only [ieeeCumsum, List.getElem_cons_succ, List.take_succ_cons, sumFrom, cumsum_go_getElem]

theorem sumFrom_nan (l : List (Ieee K)) : sumFrom l = .nan ↔ .nan ∈ l ∨ .inf true ∈ l ∧ .inf false ∈ l := by
  cases l with
  | nil => simp [sumFrom]
  | cons a l => exact (fold_spec a l).1

theorem sumFrom_none (l : List (Ieee K)) : (sumFrom l).val = none ↔ ∃ a ∈ l, a.val = none := by
  cases l with
  | nil => simp [sumFrom, Ieee.val]
  | cons a l => exact fold_none a l

theorem sumFrom_val {l : List (Ieee K)} {m : List K} (h : l.map Ieee.val = m.map some) : (sumFrom l).val = some m.sum := by
  cases l with
  | nil => cases m with
    | nil => rfl
    | cons _ _ => simp at h
  | cons a l =>
    cases m with
    | nil => simp at h
    | cons b m =>
      obtain ⟨h1, h2⟩ := reads_cons.1 h
      rw [sumFrom, fold_val h1 h2, List.sum_cons]

/-- the mean of two neighbours -/
theorem mean_spec (a b : Ieee K) :
    (((b.add a).div (.fin 2)).val = none ↔ a.val = none ∨ b.val = none) ∧
    ((b.add a).div (.fin 2) = .nan ↔ a = .nan ∨ b = .nan ∨ (a = .inf true ∧ b = .inf false) ∨ (a = .inf false ∧ b = .inf true)) ∧
    (∀ s, (b.add a).div (.fin 2) = .inf s ↔ (a = .inf s ∧ (b = .inf s ∨ b.val ≠ none) ∨ b = .inf s ∧ a.val ≠ none)) ∧
    ∀ v w, a.val = some v → b.val = some w → ((b.add a).div (.fin 2)).val = some ((v + w) / 2) := by
  have h2 : (2 : K) ≠ 0 := two_ne_zero
  have h3 : decide ((2 : K) < 0) = false := decide_eq_false (not_lt.2 zero_le_two)
  refine ⟨?_, ?_, fun s => ?_, fun v w hv hw => ?_⟩
  · rw [val_div_none, val_add_none]
    simp [Ieee.val, or_comm]
  · rcases a with v | _ | (_ | _) | _ <;> rcases b with w | _ | (_ | _) | _ <;> simp [Ieee.add, Ieee.div, Ieee.val, ofVal_ne_nan]
  · rcases a with v | _ | (_ | _) | _ <;> rcases b with w | _ | (_ | _) | _ <;>
      simp [Ieee.add, Ieee.div, Ieee.val, ofVal_ne_inf, Ieee.neg?, h3, -decide_eq_false_iff_not, eq_comm (b := s)]
  · rw [val_div (val_add hw hv) rfl, if_neg h2, add_comm]

theorem mean_inf (a b : Ieee K) (s : Bool) (h : a = .inf s ∨ b = .inf s) :
    (b.add a).div (.fin 2) = .nan ∨ (b.add a).div (.fin 2) = .inf s := by
  have h3 : decide ((2 : K) < 0) = false := decide_eq_false (not_lt.2 zero_le_two)
  rcases h with rfl | rfl
  · cases s <;> rcases b with w | _ | (_ | _) | _ <;> simp [Ieee.add, Ieee.div, Ieee.val, Ieee.neg?, h3, -decide_eq_false_iff_not]
  · cases s <;> rcases a with w | _ | (_ | _) | _ <;> simp [Ieee.add, Ieee.div, Ieee.val, Ieee.neg?, h3, -decide_eq_false_iff_not]

/-- the means of the neighbours up to an index -/
theorem means_mem (y : List (Ieee K)) (i : ℕ) (h : i + 1 < y.length) (c : Ieee K) :
    c ∈ (List.zipWith (fun a b => (b.add a).div (.fin 2)) y y.tail).take (i + 1) ↔
      ∃ j, ∃ hj : j ≤ i, c = ((y[j + 1]'(by omega)).add (y[j]'(by omega))).div (.fin 2) := by
  rw [List.mem_iff_getElem]
  constructor
  · rintro ⟨j, hj, rfl⟩
    simp at hj
    exact ⟨j, by omega, by simp⟩
  · rintro ⟨j, hj, rfl⟩
    exact ⟨j, by simp; omega, by simp⟩

theorem means_val (y : List (Ieee K)) (i : ℕ) (h : i + 1 < y.length) (z : ℕ → K) (hz : ∀ j (hj : j ≤ i + 1), y[j].val = some (z j)) :
    (sumFrom ((List.zipWith (fun a b => (b.add a).div (.fin 2)) y y.tail).take (i + 1))).val =
      some (∑ j ∈ Finset.range (i + 1), (z j + z (j + 1)) / 2) := by
  rw [sumFrom_val (m := (List.range (i + 1)).map fun j => (z j + z (j + 1)) / 2) ?_, sum_map_range]
  apply List.ext_getElem
  · simp; omega
  intro j h1 h2
  simp at h1
  simp only [List.getElem_map, List.getElem_take, List.getElem_zipWith, List.getElem_tail, List.getElem_range]
  exact (mean_spec _ _).2.2.2 _ _ (hz j (by omega)) (hz (j + 1) (by omega))

/-- C136: `integrate` never raises because of special values: the sample at a place is finite if and only if all samples of the relation up
to the next place are, and nan if and only if one of these is nan or infinities of both signs are among them -/
theorem C136_integrate (r : ERel K) (q : ERel K) (h : r.integrate = .ok q) (hs : r.x.sample ≠ 0) :
    q.y.length = r.y.length - 1 ∧ ∀ i (h : i < q.y.length) (h' : i + 1 < r.y.length),
      (q.y[i].val = none ↔ ∃ j, ∃ hj : j ≤ i + 1, r.y[j].val = none) ∧
      (q.y[i] = .nan ↔ (∃ j, ∃ hj : j ≤ i + 1, r.y[j] = .nan) ∨
        (∃ j, ∃ hj : j ≤ i + 1, r.y[j] = .inf true) ∧ ∃ j, ∃ hj : j ≤ i + 1, r.y[j] = .inf false) ∧
      ∀ z : ℕ → K, (∀ j (hj : j ≤ i + 1), r.y[j].val = some (z j)) →
        q.y[i].val = some (r.x.sample * ∑ j ∈ Finset.range (i + 1), (z j + z (j + 1)) / 2) := by
  unfold ERel.integrate ERel.make at h
  obtain ⟨n, -, h⟩ := except_bind_eq_ok.1 h
  split_ifs at h
  cases h
  refine ⟨by simp [ieeeCumsum_length], fun i h h' => ?_⟩
  simp only [List.getElem_map, ieeeCumsum_getElem]
  refine ⟨?_, ?_, fun z hz => ?_⟩
  · rw [val_mul_none, sumFrom_none]
    simp only [means_mem _ i h', Ieee.val, reduceCtorEq, or_false]
    constructor
    · rintro ⟨a, ⟨j, hj, rfl⟩, ha⟩
      rcases (mean_spec _ _).1.1 ha with h | h
      · exact ⟨j, by omega, h⟩
      · exact ⟨j + 1, by omega, h⟩
    · rintro ⟨j, hj, h⟩
      by_cases hji : j ≤ i
      · exact ⟨_, ⟨j, hji, rfl⟩, (mean_spec _ _).1.2 (Or.inl h)⟩
      · obtain rfl : j = i + 1 := by omega
        exact ⟨_, ⟨i, le_rfl, rfl⟩, (mean_spec _ _).1.2 (Or.inr h)⟩
  · rw [(isProduct_mul _ _).nan]
    simp only [reduceCtorEq, Ieee.val, Option.some.injEq, hs, and_false, or_false, sumFrom_nan, means_mem _ i h']
    have key : ∀ (P : Ieee K → Prop) j (hj : j ≤ i + 1), P r.y[j] → ∃ k, ∃ hk : k ≤ i, P (r.y[k]'(by omega)) ∨ P (r.y[k + 1]'(by omega)) := by
      intro P j hj hP
      by_cases hji : j ≤ i
      · exact ⟨j, hji, Or.inl hP⟩
      · obtain rfl : j = i + 1 := by omega
        exact ⟨i, le_rfl, Or.inr hP⟩
    have inf : ∀ s j (hj : j ≤ i), Ieee.inf s = ((r.y[j + 1]'(by omega)).add (r.y[j]'(by omega))).div (.fin 2) →
        ∃ j, ∃ hj : j ≤ i + 1, r.y[j] = .inf s := by
      intro s j hj h
      rcases ((mean_spec _ _).2.2.1 s).1 h.symm with h | h
      · exact ⟨j, by omega, h.1⟩
      · exact ⟨j + 1, by omega, h.1⟩
    constructor
    · rintro (⟨j, hj, h⟩ | ⟨⟨j, hj, h⟩, k, hk, h'⟩)
      · rcases (mean_spec _ _).2.1.1 h.symm with h | h | ⟨h, h'⟩ | ⟨h, h'⟩
        · exact Or.inl ⟨j, by omega, h⟩
        · exact Or.inl ⟨j + 1, by omega, h⟩
        · exact Or.inr ⟨⟨j, by omega, h⟩, j + 1, by omega, h'⟩
        · exact Or.inr ⟨⟨j + 1, by omega, h'⟩, j, by omega, h⟩
      · exact Or.inr ⟨inf true j hj h, inf false k hk h'⟩
    · rintro (⟨j, hj, h⟩ | ⟨⟨j, hj, h⟩, k, hk, h''⟩)
      · obtain ⟨k, hk, h⟩ := key (· = .nan) j hj h
        refine Or.inl ⟨k, hk, Eq.symm ((mean_spec _ _).2.1.2 ?_)⟩
        rcases h with h | h
        · exact Or.inl h
        · exact Or.inr (Or.inl h)
      · obtain ⟨j, hj, h⟩ := key (· = .inf true) j hj h
        obtain ⟨k, hk, h''⟩ := key (· = .inf false) k hk h''
        rcases mean_inf _ _ _ h with h | h
        · exact Or.inl ⟨j, hj, h.symm⟩
        rcases mean_inf _ _ _ h'' with h'' | h''
        · exact Or.inl ⟨k, hk, h''.symm⟩
        exact Or.inr ⟨⟨j, hj, h.symm⟩, k, hk, h''.symm⟩
  · rw [val_mul (means_val _ i h' z hz) rfl, mul_comm]

/-- C136: differences of finite samples are those of the finite model -/
theorem C136_agrees_diff {a : ERel K} {r : Rel K K} (ha : Reads a r) : Goes a.diff r.diff := by
  have la : a.y.length = r.y.length := by simpa using congrArg List.length ha.2
  by_cases hs : r.x.sample = 0
  · have hz : ∀ s e : K, Axis.size (⟨s, e, r.x.sample⟩ : Axis K) = .error .zeroDivision := fun s e => Axis.size_zero _ hs
    refine goes_error (k := .zeroDivision) ?_ ?_ (by simp)
    · unfold ERel.diff ERel.make
      rw [ha.1, hz]; rfl
    · unfold Rel.diff Rel.make
      dsimp only
      rw [hz]; rfl
  · unfold ERel.diff Rel.diff
    rw [ha.1]
    apply make_reads
    apply map_of_val (by simp [npDiff, la])
    intro i h1 h2
    simp at h1
    simp only [List.getElem_zipWith, List.getElem_tail, List.getElem_map, npDiff]
    rw [val_div (val_sub (val_of_map ha.2 (i + 1) (by omega) (by omega)) (val_of_map ha.2 i (by omega) (by omega))) rfl, if_neg hs,
      smul_eq_mul, div_eq_inv_mul]

/-- C136: integrals of finite samples are those of the finite model -/
theorem C136_agrees_integrate {a : ERel K} {r : Rel K K} (ha : Reads a r) : Goes a.integrate r.integrate := by
  have la : a.y.length = r.y.length := by simpa using congrArg List.length ha.2
  unfold ERel.integrate Rel.integrate
  rw [ha.1]
  apply make_reads
  apply map_of_val (by simp [ieeeCumsum_length, cumTrapz_length, la])
  intro i h1 h2
  simp [ieeeCumsum_length] at h1
  simp only [List.getElem_map, ieeeCumsum_getElem]
  rw [val_mul (means_val _ i (by omega) (at0 r.y) fun j hj => ?_) rfl, cumTrapz_getElem, smul_eq_mul, mul_comm]
  rw [at0_eq _ _ (by omega)]
  exact val_of_map ha.2 j (by omega) (by omega)

/-! ## Norm -/

theorem sq_spec (a : Ieee K) : (a.mul a = .nan ↔ a = .nan) ∧ (a.mul a = .inf false ↔ ∃ s, a = .inf s) ∧ a.mul a ≠ .inf true := by
  rcases a with v | _ | (_ | _) | _
  · rw [mul_finite (a := .fin v) (b := .fin v) rfl rfl]
    simp [ofVal_ne_nan, ofVal_ne_inf]
  all_goals simp [Ieee.mul, Ieee.val, Ieee.neg?, Ieee.ofVal, Ieee.zero]

/-- sums without `-inf` -/
theorem up_add {a b : Ieee K} (ha : a ≠ .inf true) (hb : b ≠ .inf true) :
    (a.add b = .nan ↔ a = .nan ∨ b = .nan) ∧ (a.add b = .inf false ↔ a ≠ .nan ∧ b ≠ .nan ∧ (a = .inf false ∨ b = .inf false)) ∧
      a.add b ≠ .inf true := by
  rcases a with v | _ | (_ | _) | _ <;> rcases b with w | _ | (_ | _) | _ <;> simp_all [Ieee.add]

/-- positive factors and divisors -/
theorem up_scale (a : Ieee K) {d : K} (hd : 0 < d) :
    ((.fin d : Ieee K).mul a = .nan ↔ a = .nan) ∧ (∀ s, (.fin d : Ieee K).mul a = .inf s ↔ a = .inf s) ∧
    (a.div (.fin d) = .nan ↔ a = .nan) ∧ ∀ s, a.div (.fin d) = .inf s ↔ a = .inf s := by
  have h1 : d ≠ 0 := hd.ne'
  have h2 : decide (d < 0) = false := decide_eq_false (not_lt.2 hd.le)
  rcases a with v | _ | (_ | _) | _
  all_goals simp [Ieee.mul, Ieee.div, Ieee.val, Ieee.neg?, h1, h2, ofVal_ne_nan, ofVal_ne_inf, -decide_eq_false_iff_not]

theorem eNorm_eq {r : ERel K} (h : Sized r) {lx : List K} (h1 : r.x.array = .ok lx) :
    r.getNorm = .ok ((ieeeSum (List.zipWith (fun d s => (((.fin d : Ieee K).mul s).div (.fin 2))) (npDiff lx)
      (List.zipWith (fun a b => b.add a) (r.y.map fun a => a.mul a) (r.y.map fun a => a.mul a).tail))).div (.fin r.x.sample)) := by
  unfold Sized at h
  simp only [ERel.getNorm, h, except_bind_ok, ne_eq, not_true_eq_false, if_false, h1]
  rfl

/-- C136: the norm over at least two samples of a forward axis is nan if and only if one sample is, and `+inf` if and only if none is nan
and some are infinite, never `-inf`; over a single sample it is 0, whatever the sample is -/
theorem C136_norm (r : ERel K) (h : Sized r) (hs : 0 < r.x.sample) (hx : r.x.start ≤ r.x.stop) :
    ∃ c, r.getNorm = .ok c ∧ (r.y.length = 1 → c.val = some 0) ∧
      (2 ≤ r.y.length → (c = .nan ↔ .nan ∈ r.y) ∧ (c = .inf false ↔ .nan ∉ r.y ∧ ∃ s, .inf s ∈ r.y) ∧ c ≠ .inf true) := by
  obtain ⟨lx, h1, h2, h3⟩ := sized_array h
  have hd : ∀ i (hi : i + 1 < lx.length), 0 < lx[i + 1] - lx[i] := by
    intro i hi
    have hsp := Axis.array_spaced h1
    have hge : 0 ≤ lx[i + 1] - lx[i] := by
      rw [hsp.2 i (by omega), hsp.2 (i + 1) hi]
      have : 0 ≤ r.x.step := div_nonneg (sub_nonneg.2 hx) (Nat.cast_nonneg _)
      push_cast
      linarith
    rcases Axis.array_monotone h1 with hm | hm
    · exact sub_pos.2 (List.pairwise_iff_getElem.1 hm i (i + 1) (by omega) hi (by omega))
    · have := List.pairwise_iff_getElem.1 hm i (i + 1) (by omega) hi (by omega)
      linarith
  refine ⟨_, eNorm_eq h h1, ?_⟩
  generalize ht : List.zipWith (fun d s => (((.fin d : Ieee K).mul s).div (.fin 2))) (npDiff lx)
      (List.zipWith (fun a b => b.add a) (r.y.map fun a => a.mul a) (r.y.map fun a => a.mul a).tail) = terms
  have hlen : terms.length = r.y.length - 1 := by
    rw [← ht]; simp [npDiff]; omega
  have hterm : ∀ i (hi : i < terms.length) (hi' : i + 1 < r.y.length),
      (terms[i] = .nan ↔ r.y[i] = .nan ∨ r.y[i + 1] = .nan) ∧
      (terms[i] = .inf false ↔ r.y[i] ≠ .nan ∧ r.y[i + 1] ≠ .nan ∧ ((∃ s, r.y[i] = .inf s) ∨ ∃ s, r.y[i + 1] = .inf s)) ∧
      terms[i] ≠ .inf true := by
    intro i hi hi'
    obtain ⟨a1, a2, a3⟩ := sq_spec r.y[i]
    obtain ⟨b1, b2, b3⟩ := sq_spec r.y[i + 1]
    obtain ⟨c1, c2, c3⟩ := up_add b3 a3
    have hp := hd i (by omega)
    subst ht
    simp only [List.getElem_zipWith, List.getElem_tail, List.getElem_map, npDiff]
    obtain ⟨d1, d2, -, -⟩ := up_scale ((r.y[i + 1].mul r.y[i + 1]).add (r.y[i].mul r.y[i])) hp
    obtain ⟨-, -, e1, e2⟩ := up_scale ((.fin (lx[i + 1] - lx[i]) : Ieee K).mul ((r.y[i + 1].mul r.y[i + 1]).add (r.y[i].mul r.y[i])))
      (zero_lt_two (α := K))
    refine ⟨?_, ?_, ?_⟩
    · rw [e1, d1, c1, a1, b1, or_comm]
    · rw [e2, d2, c2, a2, b2, ne_eq, ne_eq, a1, b1]
      exact ⟨fun h => ⟨h.2.1, h.1, h.2.2.symm⟩, fun h => ⟨h.2.1, h.1, h.2.2.symm⟩⟩
    · rw [ne_eq, e2, d2]
      exact c3
  obtain ⟨f1, f2⟩ := fold_spec (.fin 0) terms
  obtain ⟨-, -, g1, g2⟩ := up_scale (ieeeSum terms) hs
  have hneg : .inf true ∉ terms := by
    intro hm
    obtain ⟨i, hi, he⟩ := List.mem_iff_getElem.1 hm
    exact (hterm i hi (by omega)).2.2 he
  have key : ∀ P : Ieee K → Prop, 2 ≤ r.y.length → ∀ j (hj : j < r.y.length), P r.y[j] →
      ∃ k, ∃ hk : k + 1 < r.y.length, P r.y[k] ∨ P r.y[k + 1] := by
    intro P h2 j hj hP
    by_cases hji : j + 1 < r.y.length
    · exact ⟨j, hji, Or.inl hP⟩
    · obtain ⟨i, rfl⟩ : ∃ i, j = i + 1 := ⟨j - 1, by omega⟩
      exact ⟨i, hj, Or.inr hP⟩
  have hnan : 2 ≤ r.y.length → (.nan ∈ terms ↔ .nan ∈ r.y) := by
    intro h2
    constructor
    · intro hm
      obtain ⟨i, hi, he⟩ := List.mem_iff_getElem.1 hm
      rcases (hterm i hi (by omega)).1.1 he with h | h
      · exact h ▸ List.getElem_mem _
      · exact h ▸ List.getElem_mem _
    · intro hm
      obtain ⟨j, hj, he⟩ := List.mem_iff_getElem.1 hm
      obtain ⟨k, hk, he⟩ := key (· = .nan) h2 j hj he
      have := (hterm k (by omega) hk).1.2 he
      exact this ▸ List.getElem_mem _
  refine ⟨fun h => ?_, fun h2 => ⟨?_, ?_, ?_⟩⟩
  · have : terms = [] := List.length_eq_zero_iff.1 (by omega)
    rw [this]
    show ((Ieee.fin (0 : K)).div (.fin r.x.sample)).val = _
    rw [val_div (v := 0) rfl rfl, if_neg h3, zero_div]
  · rw [g1]
    unfold ieeeSum
    rw [f1]
    simp [hneg, hnan h2]
  · rw [g2]
    unfold ieeeSum
    rw [f2]
    simp only [List.mem_cons, reduceCtorEq, false_or, Bool.not_false, hneg, not_false_eq_true, and_true, hnan h2]
    refine and_congr_right fun hn => ⟨fun hm => ?_, ?_⟩
    · obtain ⟨i, hi, he⟩ := List.mem_iff_getElem.1 hm
      rcases ((hterm i hi (by omega)).2.1.1 he).2.2 with ⟨s, h⟩ | ⟨s, h⟩
      · exact ⟨s, h ▸ List.getElem_mem _⟩
      · exact ⟨s, h ▸ List.getElem_mem _⟩
    · rintro ⟨s, hm⟩
      obtain ⟨j, hj, he⟩ := List.mem_iff_getElem.1 hm
      obtain ⟨k, hk, he⟩ := key (fun a => ∃ s, a = .inf s) h2 j hj ⟨s, he⟩
      have := (hterm k (by omega) hk).2.1.2 ⟨fun h => hn (h ▸ List.getElem_mem _), fun h => hn (h ▸ List.getElem_mem _), he⟩
      exact this ▸ List.getElem_mem _
  · rw [ne_eq, g2]
    unfold ieeeSum
    rw [f2]
    simp [hneg]

/-- C136: the norm of finite samples is that of the finite model -/
theorem C136_agrees_norm [PyPow K] {a : ERel K} {r : Rel K K} (ha : Reads a r) (hr : Balanced r) :
    ∃ c v, a.getNorm = .ok c ∧ r.getNorm = .ok v ∧ c.val = some v := by
  obtain ⟨lx, h1, h2, h3⟩ := sized_array ((sized_of_reads ha).2 hr)
  have la : a.y.length = r.y.length := by simpa using congrArg List.length ha.2
  refine ⟨_, _, eNorm_eq ((sized_of_reads ha).2 hr) h1,
    getNorm_eq r lx r.y ((getData_ok_iff _ _ _).2 ⟨ha.1 ▸ h1, rfl, by omega⟩), ?_⟩
  have hs : (ieeeSum (List.zipWith (fun d s => (((.fin d : Ieee K).mul s).div (.fin 2))) (npDiff lx)
      (List.zipWith (fun a b => b.add a) (a.y.map fun a => a.mul a) (a.y.map fun a => a.mul a).tail))).val =
      some (∑ j ∈ Finset.range (r.y.length - 1),
        (lx.getD (j + 1) 0 - lx.getD j 0) • ((r.y.getD j 0 ^ 2 + r.y.getD (j + 1) 0 ^ 2) / 2)) := by
    unfold ieeeSum
    rw [fold_val (z := .fin 0) rfl (m := (List.range (r.y.length - 1)).map fun j =>
      (lx.getD (j + 1) 0 - lx.getD j 0) • ((r.y.getD j 0 ^ 2 + r.y.getD (j + 1) 0 ^ 2) / 2)), zero_add, sum_map_range]
    apply map_of_val (by simp [npDiff]; omega)
    intro i i1 i2
    simp at i2
    simp only [List.getElem_zipWith, List.getElem_tail, List.getElem_map, npDiff, List.getElem_range]
    have v0 := val_of_map ha.2 i (by omega) (by omega)
    have v1 := val_of_map ha.2 (i + 1) (by omega) (by omega)
    rw [val_div (val_mul (a := .fin (lx[i + 1] - lx[i])) rfl (val_add (val_mul v1 v1) (val_mul v0 v0))) rfl, if_neg two_ne_zero]
    simp only [List.getD_eq_getElem?_getD]
    rw [List.getElem?_eq_getElem (by omega), List.getElem?_eq_getElem (by omega), List.getElem?_eq_getElem (by omega),
      List.getElem?_eq_getElem (by omega)]
    simp only [Option.getD_some, smul_eq_mul]
    congr 1
    ring
  rw [val_div hs rfl, if_neg h3, ha.1, smul_eq_mul, div_eq_inv_mul]

/-! ## Convolution -/

theorem ieeeConvolve_length (a v : List (Ieee K)) : (ieeeConvolve a v).length = a.length + v.length - 1 := by simp [ieeeConvolve]

theorem ieeeConvolve_none (a v : List (Ieee K)) (k : ℕ) (h : k < (ieeeConvolve a v).length) :
    (ieeeConvolve a v)[k].val = none ↔ ∃ i j, ∃ hi : i < a.length, ∃ hj : j < v.length, i + j = k ∧ (a[i].val = none ∨ v[j].val = none) := by
  simp only [ieeeConvolve, List.getElem_map, List.getElem_range, ieeeSum]
  rw [fold_none]
  have h0 : ¬ (Ieee.fin (0 : K)).val = none := by simp [Ieee.val]
  simp only [List.mem_cons, exists_eq_or_imp, h0, false_or, List.mem_map, List.mem_filter, List.mem_range,
    Bool.and_eq_true, decide_eq_true_eq]
  constructor
  · rintro ⟨c, ⟨i, ⟨hi, h1, h2⟩, rfl⟩, hc⟩
    rw [val_mul_none, ieeeAt_lt _ _ h1, ieeeAt_lt _ _ h2] at hc
    exact ⟨i, k - i, h1, h2, by omega, hc⟩
  · rintro ⟨i, j, hi, hj, rfl, hc⟩
    refine ⟨_, ⟨i, ⟨by omega, hi, by omega⟩, rfl⟩, ?_⟩
    rw [val_mul_none, ieeeAt_lt _ _ hi, ieeeAt_lt _ _ (by omega)]
    simpa only [Nat.add_sub_cancel_left] using hc

theorem sum_filter_map {α : Type} (p : α → Bool) (f : α → K) (l : List α) (h : ∀ a ∈ l, p a = false → f a = 0) :
    ((l.filter p).map f).sum = (l.map f).sum := by
  induction l with
  | nil => rfl
  | cons a l ih =>
    have := ih fun b hb => h b (List.mem_cons_of_mem _ hb)
    cases hp : p a
    · simp [hp, this, h a (by simp) hp]
    · simp [hp, this]

theorem ieeeConvolve_val {a v : List (Ieee K)} {a' v' : List K} (ha : a.map Ieee.val = a'.map some) (hv : v.map Ieee.val = v'.map some) :
    (ieeeConvolve a v).map Ieee.val = (npConvolve a' v').map some := by
  have la : a.length = a'.length := by simpa using congrArg List.length ha
  have lv : v.length = v'.length := by simpa using congrArg List.length hv
  apply map_of_val (by simp [ieeeConvolve, npConvolve, la, lv])
  intro k h1 h2
  simp only [ieeeConvolve, npConvolve, List.getElem_map, List.getElem_range, ieeeSum]
  rw [fold_val (z := .fin 0) rfl (m := ((List.range (k + 1)).filter fun i => decide (i < a.length) && decide (k - i < v.length)).map
    fun i => at0 a' i * at0 v' (k - i)), zero_add, sum_filter_map]
  · intro i _ hp
    simp only [Bool.and_eq_false_iff, decide_eq_false_iff_not, not_lt] at hp
    rcases hp with hp | hp
    · rw [at0_of_le a' _ (by omega), zero_mul]
    · rw [at0_of_le v' _ (by omega), mul_zero]
  · simp only [List.map_map]
    apply List.map_congr_left
    intro i hi
    simp only [List.mem_filter, Bool.and_eq_true, decide_eq_true_eq] at hi
    obtain ⟨-, h3, h4⟩ := hi
    simp only [Function.comp_apply]
    rw [ieeeAt_lt _ _ h3, ieeeAt_lt _ _ h4, at0_eq _ _ (by omega), at0_eq _ _ (by omega)]
    exact val_mul (val_of_map ha i _ _) (val_of_map hv _ _ _)

/-- the relation moved to start at zero -/
def ERel.zeroed (r : ERel K) : ERel K := ⟨⟨0, r.x.stop - r.x.start, r.x.sample⟩, r.y⟩

theorem eZeroed_sized {r : ERel K} (h : Sized r) : Sized r.zeroed := by
  unfold Sized at *
  rw [Axis.size_ok_iff] at *
  simpa [ERel.zeroed, Axis.steps] using h

theorem eShift_ok {r : ERel K} (h : Sized r) : r.shift (-r.x.start) = .ok r.zeroed := by
  have h' := eZeroed_sized h
  have e : ({ r.x with start := r.x.start + -r.x.start, stop := r.x.stop + -r.x.start } : Axis K) = r.zeroed.x := by
    simp [ERel.zeroed, sub_eq_add_neg]
  unfold ERel.shift
  rw [e]
  exact eMake_ok h'

theorem eMake_inv {x : Axis K} {y : List (Ieee K)} {q : ERel K} (h : ERel.make x y = .ok q) : q = ⟨x, y⟩ := by
  unfold ERel.make at h
  obtain ⟨n, -, h⟩ := except_bind_eq_ok.1 h
  split_ifs at h
  cases h
  rfl

/-- C136: a shift keeps every sample as it is, special or not -/
theorem C136_shift (r : ERel K) (h : Sized r) (d : K) :
    r.shift d = .ok ⟨{ start := r.x.start + d, stop := r.x.stop + d, sample := r.x.sample }, r.y⟩ := by
  apply eMake_ok
  unfold Sized at h
  rw [Axis.size_ok_iff] at *
  simpa [Axis.steps] using h

/-- C136: convolution and correlation (`reversed`) never raise because of special values. The samples are those of the two relations moved
to start at zero and interpolated to the common axis. A sample of the result is finite if and only if all the samples in its sum are; a
special value so spreads to exactly as many places as the other relation has samples. -/
theorem C136_convolve (reversed : Bool) (a b q : ERel K) (ha : Sized a) (hb : Sized b) (h : ERel.conv reversed a b = .ok q) :
    ∃ (xs la lb : List K) (c d : List (Ieee K)), (commonX a.zeroed.x b.zeroed.x).array = .ok xs ∧ a.zeroed.x.array = .ok la ∧ b.zeroed.x.array = .ok lb ∧
      c.length = xs.length ∧ d.length = xs.length ∧ q.y.length = 2 * xs.length - 1 ∧
      (∀ i (h : i < xs.length) (h1 : i < c.length) (h2 : i < d.length), Between la a.y xs[i] c[i] ∧ Between lb b.y xs[i] d[i]) ∧
      ∀ k (h : k < q.y.length), q.y[k].val = none ↔ ∃ i j, ∃ hi : i < c.length, ∃ hj : j < d.length,
        (if reversed then i + (d.length - 1 - j) = k else i + j = k) ∧ (c[i].val = none ∨ d[j].val = none) := by
  obtain ⟨q1, q2, xs, la, lb, e1, e2, e3, e4, e5, e6, e7, e8, e9⟩ := eEqualize_spec _ _ (eZeroed_sized ha) (eZeroed_sized hb)
  simp only [ERel.conv, eShift_ok ha, eShift_ok hb, except_bind_ok, e1] at h
  obtain rfl := eMake_inv h
  refine ⟨xs, la, lb, q1.y, q2.y, e6, e4, e5, e7, e8, by cases reversed <;> simp [ieeeConvolve_length] <;> omega, e9, fun k h => ?_⟩
  cases reversed with
  | true =>
    simp only [if_true] at h ⊢
    rw [ieeeConvolve_none]
    constructor
    · rintro ⟨i, j, hi, hj, hk, h⟩
      simp only [List.length_reverse, List.getElem_reverse] at hj h
      exact ⟨i, q2.y.length - 1 - j, hi, by omega, by omega, h⟩
    · rintro ⟨i, j, hi, hj, hk, h⟩
      refine ⟨i, q2.y.length - 1 - j, hi, by simp; omega, hk, ?_⟩
      simp only [List.getElem_reverse]
      have : q2.y.length - 1 - (q2.y.length - 1 - j) = j := by omega
      simpa only [this] using h
  | false =>
    simp only [Bool.false_eq_true, if_false] at h ⊢
    rw [ieeeConvolve_none]

theorem eAlign_reads {a b : ERel K} {r q : Rel K K} (ha : Reads a r) (hb : Reads b q) (hr : Balanced r) (hq : Balanced q) :
    ∃ a' b' r' q', ERel.equalize false a.zeroed b.zeroed = .ok (a', b') ∧ Reads a' r' ∧ Reads b' q' ∧
      Rel.alignForConv r q = .ok (r', q', ⟨-r'.x.stop, r'.x.stop, r'.x.sample⟩) := by
  obtain ⟨r', q', h1, -, h3, -, -, -, h7, -, h9, h10⟩ := alignForConv_eq r q hr hq
  have za : Reads a.zeroed r.zeroed := ⟨by simp [ERel.zeroed, Rel.zeroed, ha.1], ha.2⟩
  have zb : Reads b.zeroed q.zeroed := ⟨by simp [ERel.zeroed, Rel.zeroed, hb.1], hb.2⟩
  rcases interp_reads za (commonX r.zeroed.x q.zeroed.x) with ⟨k, -, -, h⟩ | ⟨a', r'', f1, f2, f3, -, -⟩
  · rw [h9] at h; cases h
  rcases interp_reads zb (commonX r.zeroed.x q.zeroed.x) with ⟨k, -, -, h⟩ | ⟨b', q'', g1, g2, g3, -, -⟩
  · rw [h10] at h; cases h
  rw [h9] at f2; cases f2
  rw [h10] at g2; cases g2
  refine ⟨a', b', r', q', ?_, f3, g3, by rw [h3, h7]⟩
  simp [ERel.equalize, za.1, zb.1, f1, g1, bind, Except.bind, pure, Except.pure]

/-- C136: convolutions of finite samples are those of the finite model -/
theorem C136_agrees_convolve {a b : ERel K} {r q : Rel K K} (ha : Reads a r) (hb : Reads b q) (hr : Balanced r) (hq : Balanced q) :
    Goes (ERel.conv false a b) (r.convolve q) := by
  obtain ⟨a', b', r', q', h1, h2, h3, h4⟩ := eAlign_reads ha hb hr hq
  simp only [ERel.conv, eShift_ok ((sized_of_reads ha).2 hr), eShift_ok ((sized_of_reads hb).2 hq), except_bind_ok, h1, Rel.convolve, h4,
    Bool.false_eq_true, if_false, h2.1]
  exact make_reads (ieeeConvolve_val h2.2 h3.2)

/-- C136: so are correlations -/
theorem C136_agrees_correlate [Star K] [TrivialStar K] {a b : ERel K} {r q : Rel K K} (ha : Reads a r) (hb : Reads b q) (hr : Balanced r)
    (hq : Balanced q) : Goes (ERel.conv true a b) (r.correlate q) := by
  obtain ⟨a', b', r', q', h1, h2, h3, h4⟩ := eAlign_reads ha hb hr hq
  simp only [ERel.conv, eShift_ok ((sized_of_reads ha).2 hr), eShift_ok ((sized_of_reads hb).2 hq), except_bind_ok, h1, Rel.correlate, h4,
    if_true, h2.1]
  refine make_reads (ieeeConvolve_val h2.2 ?_)
  have : q'.y.map star = q'.y := by
    conv_rhs => rw [← List.map_id q'.y]
    exact List.map_congr_left fun v _ => star_trivial v
  rw [this, List.map_reverse, List.map_reverse, h3.2]

/-! ## Extremes -/

theorem ieee_le_trans {a b c : Ieee K} (h1 : a.le b = true) (h2 : b.le c = true) : a.le c = true := by
  rcases a with a | _ | (_ | _) | _ <;> rcases b with b | _ | (_ | _) | _ <;> rcases c with c | _ | (_ | _) | _ <;>
    simp_all [Ieee.le]
  all_goals exact le_trans h1 h2

theorem ieee_le_total {a b : Ieee K} (ha : a ≠ .nan) (hb : b ≠ .nan) (h : a.le b ≠ true) : b.le a = true := by
  rcases a with a | _ | (_ | _) | _ <;> rcases b with b | _ | (_ | _) | _ <;> simp_all [Ieee.le]
  all_goals exact h.le

theorem ieee_le_refl {a : Ieee K} (ha : a ≠ .nan) : a.le a = true := by
  rcases a with a | _ | (_ | _) | _ <;> simp_all [Ieee.le]

theorem extreme_spec (f : Ieee K → Ieee K → Prop) [DecidableRel f] (hr : ∀ a, a ≠ .nan → f a a) (ht : ∀ a b c, f a b → f b c → f a c)
    (hc : ∀ a b, a ≠ .nan → b ≠ .nan → ¬ f a b → f b a) (a : Ieee K) (l : List (Ieee K)) (m : Ieee K)
    (hm : l.foldl (fun m b => if m = .nan ∨ b = .nan then .nan else if f m b then b else m) a = m) :
    (m = .nan ↔ .nan ∈ a :: l) ∧ m ∈ a :: l ∧ (.nan ∉ a :: l → ∀ s ∈ a :: l, f s m) := by
  induction l generalizing a with
  | nil =>
    subst hm
    refine ⟨by simp [eq_comm], by simp, fun hn s hs => ?_⟩
    simp only [List.mem_singleton] at hn hs
    subst hs
    exact hr _ (Ne.symm hn)
  | cons b l ih =>
    rw [List.foldl_cons] at hm
    obtain ⟨h1, h2, h3⟩ := ih _ hm
    by_cases hn : a = .nan ∨ b = .nan
    · rw [if_pos hn] at h1 h2 h3
      have : m = .nan := h1.2 (by simp)
      subst this
      have hmem : .nan ∈ a :: b :: l := by rcases hn with rfl | rfl <;> simp
      exact ⟨by simp only [true_iff]; exact hmem, hmem, fun h => absurd hmem h⟩
    · rw [if_neg hn] at h1 h2 h3
      rw [not_or] at hn
      by_cases hf : f a b
      · rw [if_pos hf] at h1 h2 h3
        refine ⟨?_, ?_, fun h s hs => ?_⟩
        · rw [h1]; simp [Ne.symm hn.1]
        · exact List.mem_cons_of_mem _ h2
        · have h3 := h3 fun hh => h (List.mem_cons_of_mem _ hh)
          rcases List.mem_cons.1 hs with rfl | hs
          · exact ht _ _ _ hf (h3 b (by simp))
          · exact h3 s hs
      · rw [if_neg hf] at h1 h2 h3
        refine ⟨?_, ?_, fun h s hs => ?_⟩
        · rw [h1]; simp [Ne.symm hn.2]
        · rcases List.mem_cons.1 h2 with h | h
          · simp [h]
          · simp [h]
        · have h3 := h3 fun hh => h (by rcases List.mem_cons.1 hh with hh | hh <;> simp [hh])
          rcases List.mem_cons.1 hs with rfl | hs
          · exact h3 s (by simp)
          · rcases List.mem_cons.1 hs with rfl | hs
            · exact ht _ _ _ (hc _ _ hn.1 hn.2 hf) (h3 a (by simp))
            · exact h3 s (by simp [hs])

/-- C136: the maximum of an array is nan if and only if a sample is; otherwise it is a sample that no other exceeds -/
theorem C136_max (l : List (Ieee K)) (h : l ≠ []) :
    ∃ m, ieeeMax l = .ok m ∧ (m = .nan ↔ .nan ∈ l) ∧ m ∈ l ∧ (.nan ∉ l → ∀ s ∈ l, s.le m = true) := by
  cases l with
  | nil => exact absurd rfl h
  | cons a l =>
    exact ⟨_, rfl, extreme_spec (fun a b => a.le b = true) (fun a => ieee_le_refl) (fun a b c => ieee_le_trans)
      (fun a b => ieee_le_total) a l _ rfl⟩

/-- C136: so with the minimum -/
theorem C136_min (l : List (Ieee K)) (h : l ≠ []) :
    ∃ m, ieeeMin l = .ok m ∧ (m = .nan ↔ .nan ∈ l) ∧ m ∈ l ∧ (.nan ∉ l → ∀ s ∈ l, m.le s = true) := by
  cases l with
  | nil => exact absurd rfl h
  | cons a l =>
    exact ⟨_, rfl, extreme_spec (fun a b => b.le a = true) (fun a => ieee_le_refl) (fun a b c h1 h2 => ieee_le_trans h2 h1)
      (fun a b h1 h2 h3 => ieee_le_total h2 h1 h3) a l _ rfl⟩

/-! ## Exceptions -/

theorem eMake_error {x : Axis K} {y : List (Ieee K)} {z : List K} (hl : y.length = z.length) (e : Err) :
    ERel.make x y = .error e ↔ Rel.make x z = .error e := by
  unfold ERel.make Rel.make
  rw [hl]
  cases x.size with
  | error k => simp [bind, Except.bind]
  | ok n => by_cases h : n = z.length <;> simp [bind, Except.bind, h, pure, Except.pure]

/-- C136: which exceptions `shift`, `diff` and `integrate` raise depends on the axis and the number of samples alone: they are those of any
relation with finite samples on that axis -/
theorem C136_raises (a : ERel K) (r : Rel K K) (hx : a.x = r.x) (hl : a.y.length = r.y.length) (e : Err) :
    (∀ d, a.shift d = .error e ↔ r.shift d = .error e) ∧ (a.diff = .error e ↔ r.diff = .error e) ∧
      (a.integrate = .error e ↔ r.integrate = .error e) ∧ ∀ t, a.interpAxis t = .error e ↔ r.interpAxis t = .error e := by
  refine ⟨fun d => ?_, ?_, ?_, fun t => ?_⟩
  · unfold ERel.shift Rel.shift
    rw [hx]
    exact eMake_error hl e
  · unfold ERel.diff Rel.diff
    rw [hx]
    exact eMake_error (by simp [npDiff, hl]) e
  · unfold ERel.integrate Rel.integrate
    rw [hx]
    exact eMake_error (by simp [ieeeCumsum_length, cumTrapz_length, hl]) e
  · unfold ERel.interpAxis Rel.interpAxis
    rw [hx]
    cases r.x.array with
    | error k => simp
    | ok lx =>
      cases t.array with
      | error k => simp
      | ok xs =>
        simp only [except_bind_ok, ieeeInterp1d, interp1d, hl]
        by_cases h1 : lx.length = r.y.length
        · by_cases h2 : r.y.length = 0
          · simp [h1, h2]
          · simp only [h1, h2, ne_eq, not_true_eq_false, if_false, except_bind_ok]
            exact eMake_error (by simp) e
        · simp [h1]

/-- C136: `get_norm` raises, for any samples, only if their number does not fit the axis, and then what it raises for finite ones -/
theorem C136_raises_norm [PyPow K] (a : ERel K) (r : Rel K K) (hx : a.x = r.x) (hl : a.y.length = r.y.length) :
    (Sized a → ∃ c, a.getNorm = .ok c) ∧ ∀ e, a.getNorm = .error e ↔ r.getNorm = .error e := by
  have hok : Sized a → ∃ c, a.getNorm = .ok c := by
    intro h
    obtain ⟨lx, h1, -, -⟩ := sized_array h
    exact ⟨_, eNorm_eq h h1⟩
  refine ⟨hok, fun e => ?_⟩
  by_cases h : Sized a
  · obtain ⟨c, hc⟩ := hok h
    obtain ⟨lx, h1, h2, -⟩ := sized_array h
    rw [hc, getNorm_eq r lx r.y ((getData_ok_iff _ _ _).2 ⟨hx ▸ h1, rfl, by omega⟩)]
    simp
  · unfold Sized at h
    rw [hx, hl] at h
    have hy : mathOperation r.y (.num (2 : K)) .pow = .ok (r.y.map fun v => v * v) := by
      rw [mathOperation_num]
      have : (r.y.map fun v => MathOp.fn .pow v 2) = (r.y.map fun v => v * v).map some := by
        simp [MathOp.fn, PyPow.ppow_two]
      rw [this, finite_map_some]
    simp only [ERel.getNorm, hx, hl, Rel.getNorm, Rel.pow, Rel.operation, hy, except_bind_ok, Rel.make, List.length_map]
    cases hn : r.x.size with
    | error k => simp
    | ok n =>
      have hne : n ≠ r.y.length := fun h' => h (h' ▸ hn)
      simp [hne]

/-- C136: so do those of convolution and correlation -/
theorem C136_raises_convolve [Star K] (a b : ERel K) (r q : Rel K K) (hx : a.x = r.x) (hl : a.y.length = r.y.length) (hx' : b.x = q.x)
    (hl' : b.y.length = q.y.length) (hr : Balanced r) (hq : Balanced q) (e : Err) :
    (ERel.conv false a b = .error e ↔ r.convolve q = .error e) ∧ (ERel.conv true a b = .error e ↔ r.correlate q = .error e) := by
  have ha : Sized a := by unfold Sized; rw [hx, hl]; exact hr
  have hb : Sized b := by unfold Sized; rw [hx', hl']; exact hq
  obtain ⟨a', b', xs, la, lb, e1, e2, e3, e4, e5, e6, e7, e8, e9⟩ := eEqualize_spec _ _ (eZeroed_sized ha) (eZeroed_sized hb)
  obtain ⟨r', q', -, -, h3, -, h5, h6, h7, h8, -, -⟩ := alignForConv_eq r q hr hq
  have za : a.zeroed.x = r.zeroed.x := by simp [ERel.zeroed, Rel.zeroed, hx]
  have zb : b.zeroed.x = q.zeroed.x := by simp [ERel.zeroed, Rel.zeroed, hx']
  have hs : (commonX r.zeroed.x q.zeroed.x).size = .ok xs.length := by rw [← za, ← zb]; exact Axis.size_of_array e6
  have l1 : a'.y.length = r'.y.length := by
    rw [Balanced, h7, hs] at h5
    rw [e7]; simpa using h5
  have l2 : b'.y.length = q'.y.length := by
    rw [Balanced, h8, hs] at h6
    rw [e8]; simpa using h6
  constructor
  · simp only [ERel.conv, eShift_ok ha, eShift_ok hb, except_bind_ok, e1, Rel.convolve, h3, e2, za, zb, Bool.false_eq_true, if_false]
    exact eMake_error (by simp [ieeeConvolve, npConvolve, l1, l2]) e
  · simp only [ERel.conv, eShift_ok ha, eShift_ok hb, except_bind_ok, e1, Rel.correlate, h3, e2, za, zb, if_true]
    exact eMake_error (by simp [ieeeConvolve, npConvolve, npCorrelate, l1, l2]) e

end

/-! ## Concrete cases -/

section
open Spec

/-- four samples on a unit grid -/
def axis4 : Axis ℚ := ⟨0, 3, 1⟩

/-- dividend and divisor with zeros of both signs -/
def dividend : ERel ℚ := ⟨axis4, [.fin 1, .fin 0, .fin (-1), .fin 1]⟩
def divisor : ERel ℚ := ⟨axis4, [.fin 0, .negZero, .fin 0, .negZero]⟩

theorem dividend_sized : Sized dividend := by unfold Sized; decide +kernel
theorem divisor_sized : Sized divisor := by unfold Sized; decide +kernel

/-- C136: a division by zeros of both signs -/
theorem C136_division_witness :
    dividend.withRel false divisor .truediv = .ok ⟨axis4, [.inf false, .nan, .inf true, .inf true]⟩ ∧
    (dividend.withRel false divisor .truediv).toOption.map (fun q => q.integrate.toOption.map ERel.y) =
      some (some [.nan, .nan, .nan]) ∧
    divisor.withNum (.fin 2) .rtruediv = .ok ⟨axis4, [.inf false, .inf true, .inf false, .inf true]⟩ := by decide +kernel

/-- the conditions of `C136_same_axis`, `C136_other_axes`, `C136_number` and `C136_own_axis` -/
example := C136_same_axis false dividend divisor dividend_sized divisor_sized rfl .truediv ⟨by decide, by decide⟩
example := C136_other_axes dividend divisor dividend_sized divisor_sized .truediv ⟨by decide, by decide⟩
example := C136_number divisor divisor_sized .nan .rmul ⟨by decide, by decide⟩
example := C136_own_axis divisor divisor_sized

/-- an infinite sample, from the division above, and a relation on a finer axis -/
def oneInf : ERel ℚ := ⟨⟨0, 2, 1⟩, [.fin 1, .inf false, .fin 3]⟩

theorem oneInf_sized : Sized oneInf := by unfold Sized; decide +kernel

/-- C136: how one infinite sample goes through the other methods: interpolation to a finer and longer axis, `diff`, `integrate`, `get_norm`,
`convolve` and a product with zeros -/
theorem C136_spread_witness :
    oneInf.interpAxis ⟨0, 3, 1 / 2⟩ = .ok ⟨⟨0, 3, 1 / 2⟩, [.fin 1, .inf false, .inf false, .inf false, .fin 3, .fin 0, .fin 0]⟩ ∧
    oneInf.diff = .ok ⟨⟨1 / 2, 3 / 2, 1⟩, [.inf false, .inf true]⟩ ∧
    oneInf.integrate = .ok ⟨⟨1, 2, 1⟩, [.inf false, .inf false]⟩ ∧
    oneInf.getNorm = .ok (.inf false) ∧
    (ERel.conv false oneInf ⟨⟨0, 2, 1⟩, [.fin 1, .fin 0, .fin 2]⟩).toOption.map ERel.y =
      some [.fin 1, .inf false, .nan, .inf false, .fin 6] ∧
    oneInf.withNum (.fin 0) .mul = .ok ⟨⟨0, 2, 1⟩, [.fin 0, .nan, .fin 0]⟩ := by decide +kernel

example := C136_norm oneInf oneInf_sized (by decide +kernel) (by decide +kernel)
example := C136_interpolate oneInf [0, 1, 2] (by decide +kernel) rfl ⟨0, 3, 1 / 2⟩ (by decide +kernel)

/-- C136: the norm of a relation with a single sample is 0, even if that is nan -/
theorem C136_single_witness : (⟨⟨0, 0, 1⟩, [.nan]⟩ : ERel ℚ).getNorm = .ok (.fin 0) := by decide +kernel

/-- extremes with and without nan -/
example : ieeeMax [.fin (1 : ℚ), .inf false, .inf true] = .ok (.inf false) ∧ ieeeMin [.fin (1 : ℚ), .inf false, .inf true] = .ok (.inf true) ∧
    ieeeMax [.fin (1 : ℚ), .nan, .inf true] = .ok .nan := by decide +kernel

/-- finite samples of the two models -/
example : Reads dividend ⟨axis4, [1, 0, -1, 1]⟩ ∧ Reads divisor ⟨axis4, [0, 0, 0, 0]⟩ := ⟨⟨rfl, rfl⟩, ⟨rfl, rfl⟩⟩

/-- the exceptions of `shift`, `diff` and `integrate` depend on the axis alone; here with a zero sample step -/
example := C136_raises (⟨⟨0, 2, 0⟩, [.nan]⟩ : ERel ℚ) ⟨⟨0, 2, 0⟩, [1]⟩ rfl rfl .zeroDivision

end

end SweepDesign
