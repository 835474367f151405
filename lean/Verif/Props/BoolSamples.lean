import Verif.Props.IntSamples

/-!
# C144: relations whose samples are booleans

`Relation(x, mask)` keeps the booleans. Numpy reads `+` as "or", refuses `-`, and scipy adds neighbours in the type of the array.
-/

set_option linter.unusedSectionVars false

namespace SweepDesign

/-- `False` and `True` as numbers -/
def Spec.truth {K : Type} [Zero K] [One K] (b : Bool) : K := if b then 1 else 0

open Spec

section
variable {K : Type} [Field K] [LinearOrder K] [IsStrictOrderedRing K] [FloorRing K] [PyPow K]

theorem asInt_cast (b : Bool) : ((asInt b : ℤ) : K) = truth b := by cases b <;> simp [asInt, truth]

theorem bools_toFloats (l : List Bool) : (Samples.bools (K := K) l).toFloats = l.map truth := rfl

theorem asInt_list (l : List Bool) : (l.map asInt).map (fun (v : ℤ) => (v : K)) = l.map truth := by
  rw [List.map_map]
  exact List.map_congr_left fun b _ => asInt_cast b

theorem withRel_bools (rule : IntRule) {x : Axis K} {l m : List Bool} {op : MathOp} (hd : op.divides = false) :
    NumRel.withRel rule true ⟨x, .bools l⟩ ⟨x, .bools m⟩ op = boolArrays l m op >>= fun y => NumRel.make x y := by
  simp [NumRel.withRel, NumRel.equalize, numOperation, hd, bind, Except.bind]

theorem boolArrays_zip {l m : List Bool} {op : MathOp} (hlm : l.length = m.length) (hop : op = .add ∨ op = .mul ∨ op = .pow) :
    intArrays .i8 (l.map asInt) (m.map asInt) op = .ok (List.zipWith (fun a b => intResult op (asInt a) (asInt b)) l m) := by
  have hs : ∀ p ∈ (l.map asInt).zip (m.map asInt), StaysInt op p.1 p.2 := by
    intro p hp
    have := List.of_mem_zip (a := p.1) (b := p.2) hp
    obtain ⟨b, -, hb⟩ := List.mem_map.1 this.2
    have h0 : 0 ≤ p.2 := by rw [← hb]; cases b <;> simp [asInt]
    rcases hop with rfl | rfl | rfl <;> simp [StaysInt, h0]
  unfold intArrays
  rw [if_pos (by simp [hlm]), zip_exact _ _ _ _ hs, allOr_map_some, List.zipWith_map]
  congr 2
  funext a b
  refine (wrap_eq_iff _ _).2 ?_
  rcases hop with rfl | rfl | rfl <;> cases a <;> cases b <;> simp [intResult, asInt, InType, smallest, largest]

/-- C144: the sum of two boolean relations on one axis is true where one of them is, their product where both are -/
theorem C144_or_and (rule : IntRule) (x : Axis K) (l m : List Bool) (hx : x.size = .ok l.length) (hlm : l.length = m.length) :
    NumRel.withRel rule true ⟨x, .bools l⟩ ⟨x, .bools m⟩ .add = .ok ⟨x, .bools (List.zipWith (· || ·) l m)⟩ ∧
    NumRel.withRel rule true ⟨x, .bools l⟩ ⟨x, .bools m⟩ .mul = .ok ⟨x, .bools (List.zipWith (· && ·) l m)⟩ := by
  constructor
  · rw [withRel_bools rule rfl]
    simp only [boolArrays, boolArrays_zip hlm (.inl rfl), Except.map, bind, Except.bind, List.map_zipWith]
    rw [show (fun a b => asBool (intResult .add (asInt a) (asInt b))) = (· || ·) from by
      funext a b; cases a <;> cases b <;> rfl]
    exact numMake_ok (by simp [Samples.length, hx, hlm])
  · rw [withRel_bools rule rfl]
    simp only [boolArrays, boolArrays_zip hlm (.inr (.inl rfl)), Except.map, bind, Except.bind, List.map_zipWith]
    rw [show (fun a b => asBool (intResult .mul (asInt a) (asInt b))) = (· && ·) from by
      funext a b; cases a <;> cases b <;> rfl]
    exact numMake_ok (by simp [Samples.length, hx, hlm])

theorem real_rel {x : Axis K} {l m : List Bool} {op : MathOp} {f : Bool → Bool → K} (hx : x.size = .ok l.length) (hlm : l.length = m.length)
    (hf : ∀ a b, op.fn (truth a : K) (truth b) = some (f a b)) :
    (NumRel.real ⟨x, .bools l⟩).operation (.rel true (NumRel.real ⟨x, .bools m⟩)) op = .ok ⟨x, List.zipWith f l m⟩ := by
  simp only [NumRel.real, bools_toFloats, Rel.operation, Rel.equalize, if_true, bind, Except.bind]
  rw [mathOperation_arr _ _ _ (by simp [hlm]), List.zipWith_map]
  have : (fun a b => op.fn (truth a : K) (truth b)) = fun a b => some (f a b) := by funext a b; exact hf a b
  rw [this, ← List.map_zipWith (f := some), finite_map_some]
  simp [Rel.make, hx, hlm, bind, Except.bind, pure, Except.pure]

/-- C144: so the product agrees with that of the numbers 0 and 1, and the sum does if and only if the two are nowhere true together -/
theorem C144_exact (rule : IntRule) (x : Axis K) (l m : List Bool) (hx : x.size = .ok l.length) (hlm : l.length = m.length) :
    (NumRel.withRel rule true ⟨x, .bools l⟩ ⟨x, .bools m⟩ .mul).map NumRel.real =
      (NumRel.real ⟨x, .bools l⟩).operation (.rel true (NumRel.real ⟨x, .bools m⟩)) .mul ∧
    ((NumRel.withRel rule true ⟨x, .bools l⟩ ⟨x, .bools m⟩ .add).map NumRel.real =
      (NumRel.real ⟨x, .bools l⟩).operation (.rel true (NumRel.real ⟨x, .bools m⟩)) .add ↔
      ∀ p ∈ l.zip m, p ≠ (true, true)) := by
  obtain ⟨h1, h2⟩ := C144_or_and rule x l m hx hlm
  constructor
  · rw [h2, real_rel (f := fun a b => truth a * truth b) hx hlm fun a b => rfl]
    simp only [Except.map, NumRel.real, bools_toFloats, List.map_zipWith]
    congr 3
    funext a b; cases a <;> cases b <;> simp [truth]
  · rw [h1, real_rel (f := fun a b => truth a + truth b) hx hlm fun a b => rfl]
    simp only [Except.map, NumRel.real, bools_toFloats, List.map_zipWith, Except.ok.injEq, Rel.mk.injEq, true_and]
    constructor
    · rintro h p hp rfl
      obtain ⟨i, hi, he⟩ := List.mem_iff_getElem.1 hp
      have h1 : i < l.length := by simp at hi; omega
      have h2 : i < m.length := by simp at hi; omega
      rw [List.getElem_zip] at he
      have := congrArg (fun z => z[i]?) h
      simp [h1, h2, (Prod.mk.inj he).1, (Prod.mk.inj he).2, truth] at this
    · intro h
      refine zipWith_congr_mem fun p hp => ?_
      have := h p hp
      rcases p with ⟨a, b⟩
      cases a <;> cases b <;> simp_all [truth]

/-- C144: the difference is refused, even of a relation and itself -/
theorem C144_difference (rule : IntRule) (x : Axis K) (l m : List Bool) :
    NumRel.withRel rule true ⟨x, .bools l⟩ ⟨x, .bools m⟩ .sub = .error .typeFunc := by
  rw [withRel_bools rule rfl]; rfl

/-- C144: powers and quotients are those of the numbers 0 and 1 -/
theorem C144_powers (hp : IntPowers K) (rule : IntRule) (x : Axis K) (l m : List Bool) (hx : x.size = .ok l.length)
    (hlm : l.length = m.length) :
    (NumRel.withRel rule true ⟨x, .bools l⟩ ⟨x, .bools m⟩ .pow).map NumRel.real =
      (NumRel.real ⟨x, .bools l⟩).operation (.rel true (NumRel.real ⟨x, .bools m⟩)) .pow ∧
    (NumRel.withRel rule true ⟨x, .bools l⟩ ⟨x, .bools m⟩ .truediv).map NumRel.real =
      (NumRel.real ⟨x, .bools l⟩).operation (.rel true (NumRel.real ⟨x, .bools m⟩)) .truediv := by
  constructor
  · rw [withRel_bools rule rfl, real_rel (f := fun a b => ((intResult .pow (asInt a) (asInt b) : ℤ) : K)) hx hlm fun a b => by
      rw [← asInt_cast, ← asInt_cast]
      exact fn_of_staysInt hp .pow _ _ (by cases b <;> simp [StaysInt, asInt])]
    simp only [boolArrays, boolArrays_zip hlm (.inr (.inr rfl)), Except.map, bind, Except.bind]
    rw [numMake_ok (by simp [Samples.length, hx, hlm])]
    simp [NumRel.real, Samples.toFloats, List.map_zipWith]
  · simp only [NumRel.withRel, NumRel.equalize, if_true, Rel.operation, Rel.equalize, bind, Except.bind, numOperation, MathOp.divides]
    exact map_floats_real _ _

/-- the result of an operation with a Python int of `int64` -/
theorem withOther_bools (rule : IntRule) {x : Axis K} {l : List Bool} {c : ℤ} {op : MathOp} (hc : InType .i64 c)
    (hx : x.size = .ok l.length) (hd : op.divides = false) (h : ∀ b ∈ l, StaysInt op (asInt b) c)
    (hf : ∀ b ∈ l, InType .i64 (intResult op (asInt b) c)) :
    (NumRel.withOther rule ⟨x, .bools l⟩ (.int c) op).map NumRel.real =
      .ok ⟨x, l.map fun b => ((intResult op (asInt b) c : ℤ) : K)⟩ := by
  have key : ∃ w, boolsInt c op = .ints w ∧ ∀ b ∈ l, InType w (intResult op (asInt b) c) := by
    unfold boolsInt
    split_ifs with h2
    · obtain ⟨rfl, rfl⟩ := h2
      exact ⟨_, rfl, fun b _ => by cases b <;> simp [intResult, asInt, InType, smallest, largest]⟩
    · exact ⟨_, withInt_fits hc, hf⟩
  obtain ⟨w, hw, hi⟩ := key
  have h1 : allOrTypeFunc ((l.map asInt).map fun a => op.intFn w a c) = .ok (l.map fun b => intResult op (asInt b) c) := by
    rw [← allOr_map_some, List.map_map, List.map_map]
    congr 1
    refine List.map_congr_left fun b hb => ?_
    simp only [Function.comp]
    rw [intFn_of_staysInt w op _ c (h b hb), (wrap_eq_iff _ _).2 (hi b hb)]
  simp only [NumRel.withOther, numOperation, arrayInt, hw, hd, h1, bind, Except.bind, Except.map, Bool.false_eq_true, if_false]
  rw [numMake_ok (by simp [Samples.length, hx])]
  simp [NumRel.real, Samples.toFloats, Function.comp]

/-- C144: with a Python int the booleans are the numbers 0 and 1, and nothing wraps round while the results are numbers of `int64` -/
theorem C144_number (hp : IntPowers K) (rule : IntRule) (x : Axis K) (l : List Bool) (c : ℤ) (op : MathOp) (hc : InType .i64 c)
    (hx : x.size = .ok l.length) (hd : op ≠ .truediv ∧ op ≠ .rtruediv) (h : op = .pow → 0 ≤ c)
    (hf : ∀ b ∈ l, InType .i64 (intResult op (asInt b) c)) :
    (NumRel.withOther rule ⟨x, .bools l⟩ (.int c) op).map NumRel.real =
      (NumRel.real ⟨x, .bools l⟩).operation (.other (.num (c : K))) op := by
  have hs : ∀ b ∈ l, StaysInt op (asInt b) c := fun b _ => ⟨hd.1, hd.2, h, fun _ => by cases b <;> simp [asInt]⟩
  rw [withOther_bools rule hc hx (by cases op <;> simp_all [MathOp.divides]) hs hf]
  simp only [NumRel.real, bools_toFloats, Rel.operation, bind, Except.bind]
  have : (l.map (truth (K := K))).map (fun a => op.fn a (c : K)) = (l.map fun b => ((intResult op (asInt b) c : ℤ) : K)).map some := by
    rw [List.map_map, List.map_map]
    refine List.map_congr_left fun b hb => ?_
    simp only [Function.comp]
    rw [← asInt_cast, fn_of_staysInt hp op _ c (hs b hb)]
  rw [mathOperation_num, this, finite_map_some]
  simp [Rel.make, hx, bind, Except.bind, pure, Except.pure]

/-- C144: so does division by a Python int and of a Python int -/
theorem C144_division (rule : IntRule) (x : Axis K) (l : List Bool) (c : ℤ) (op : MathOp) (hc : InType .i64 c)
    (hd : op = .truediv ∨ op = .rtruediv) :
    (NumRel.withOther rule ⟨x, .bools l⟩ (.int c) op).map NumRel.real =
      (NumRel.real ⟨x, .bools l⟩).operation (.other (.num (c : K))) op := by
  have hb : boolsInt c op = .ints .i64 := by
    unfold boolsInt
    rw [if_neg (by rcases hd with rfl | rfl <;> simp), withInt_fits hc]
  have hd' : op.divides = true := by rcases hd with rfl | rfl <;> rfl
  simp only [NumRel.withOther, Rel.operation, numOperation, arrayInt, hb, hd', if_true, asInt_list]
  exact map_floats_real _ _

/-- C144: between an integer relation and a boolean one on one axis the booleans are the integers 0 and 1 of the same type -/
theorem C144_with_integers (rule : IntRule) (x : Axis K) (t : IntType) (l : List ℤ) (m : List Bool) (op : MathOp) :
    NumRel.withRel rule true ⟨x, .ints t l⟩ ⟨x, .bools m⟩ op =
      NumRel.withRel rule true ⟨x, .ints t l⟩ ⟨x, .ints t (m.map fun b => if b then 1 else 0)⟩ op ∧
    NumRel.withRel rule true ⟨x, .bools m⟩ ⟨x, .ints t l⟩ op =
      NumRel.withRel rule true ⟨x, .ints t (m.map fun b => if b then 1 else 0)⟩ ⟨x, .ints t l⟩ op := ⟨rfl, rfl⟩

/-- C144: every step of `diff` is the height of the edge between the two samples, up or down, over the step of the axis -/
theorem C144_diff (x : Axis K) (l : List Bool) (q : NumRel K) (h : NumRel.diff ⟨x, .bools l⟩ = .ok q) :
    q.y.toFloats.length = l.length - 1 ∧
    ∀ i (h1 : i + 1 < l.length) (h2 : i < q.y.toFloats.length), q.y.toFloats[i] = |truth l[i + 1] - truth l[i]| / x.sample := by
  have hy : q.y = .floats ((Samples.bools (K := K) l).steps.map fun v => v / x.sample) := by
    rw [numMake_y h]
  rw [hy]
  refine ⟨by simp [Samples.toFloats, Samples.steps], fun i h1 h2 => ?_⟩
  simp only [Samples.toFloats, Samples.steps, List.getElem_map, List.getElem_zipWith, List.getElem_tail]
  rcases l[i + 1] with _ | _ <;> rcases l[i] with _ | _ <;> simp [truth]

/-- the steps between two samples of which at least one is true -/
def Spec.touched (l : List Bool) : List Bool := (l.zip l.tail).map fun p => p.1 || p.2

theorem cumsum_truth (acc : K) (l : List Bool) (i : ℕ) (h : i < (cumsumFrom acc (l.map fun b => truth b / 2)).length) :
    (cumsumFrom acc (l.map fun b => truth b / 2))[i] = acc + ((l.take (i + 1)).count true : K) / 2 := by
  induction l generalizing acc i with
  | nil => simp [cumsumFrom] at h
  | cons b l ih =>
    cases i with
    | zero => cases b <;> simp [cumsumFrom, truth]
    | succ i =>
      simp only [List.map_cons, cumsumFrom, List.getElem_cons_succ, List.take_succ_cons]
      rw [ih]
      cases b <;> simp [truth]
      ring

/-- C144: each step of `integrate` counts half of `x.sample` where one of its two samples is true, and no more where both are -/
theorem C144_integrate (x : Axis K) (l : List Bool) (q : NumRel K) (h : NumRel.integrate ⟨x, .bools l⟩ = .ok q) :
    q.y.toFloats.length = l.length - 1 ∧
    ∀ i (h2 : i < q.y.toFloats.length), q.y.toFloats[i] = (((touched l).take (i + 1)).count true : K) * (x.sample / 2) := by
  have hy : q.y = .floats ((cumsum ((Samples.bools (K := K) l).neighbours.map fun s => s / 2)).map fun v => v * x.sample) := by
    rw [numMake_y h]
  have hn : (Samples.bools (K := K) l).neighbours.map (fun s => s / 2) = (touched l).map fun b => truth b / 2 := by
    simp only [Samples.neighbours, touched, List.map_map, ← List.map_uncurry_zip_eq_zipWith]
    refine List.map_congr_left fun p _ => ?_
    rcases p with ⟨a, b⟩
    cases a <;> cases b <;> simp [truth, Function.uncurry]
  rw [hy, hn]
  refine ⟨by simp [Samples.toFloats, cumsum, cumsumFrom_length, touched], fun i h2 => ?_⟩
  simp only [Samples.toFloats, List.getElem_map, cumsum]
  rw [cumsum_truth, zero_add]
  ring

/-- C144: the norm is that of the numbers 0 and 1 -/
theorem C144_norm (rule : IntRule) (x : Axis K) (l : List Bool) :
    NumRel.getNorm rule ⟨x, .bools l⟩ = Rel.getNorm (K := K) (V := K) (NumRel.real ⟨x, .bools l⟩) := by
  have h1 : NumRel.getNorm rule ⟨x, .bools l⟩ = NumRel.getNorm rule (⟨x, .ints .i8 (l.map asInt)⟩ : NumRel K) := by
    simp [NumRel.getNorm, numOperation, boolsInt, withInt_fits (rule := rule) (t := .i8) (c := 2) (by simp [InType, smallest, largest])]
  have h2 : NumRel.real (⟨x, .bools l⟩ : NumRel K) = NumRel.real ⟨x, .ints .i8 (l.map asInt)⟩ := by
    simp only [NumRel.real, Samples.toFloats, asInt_list]
    rfl
  have small : ∀ v ∈ l.map asInt, v = 0 ∨ v = 1 := by
    intro v hv
    obtain ⟨b, -, rfl⟩ := List.mem_map.1 hv
    cases b <;> simp [asInt]
  rw [h1, h2]
  refine C135_norm rule x .i8 _ (fun v hv => ?_) fun p hp => ?_
  · rcases small v hv with rfl | rfl <;> simp [InType, smallest, largest]
  · have := List.of_mem_zip (a := p.1) (b := p.2) hp
    rcases small _ this.1 with h | h <;> rcases small _ (List.mem_of_mem_tail this.2) with h' | h' <;> rw [h, h'] <;>
      simp [InType, smallest, largest]

/-- C144: on another axis object booleans are interpolated as the numbers 0 and 1, so sum and difference are exact; so are operations with
floats -/
theorem C144_other (rule : IntRule) (x : Axis K) (r : NumRel K) (l : List Bool) (c : K) (op : MathOp) :
    (NumRel.withRel rule false ⟨x, .bools l⟩ r op).map NumRel.real = Rel.operation ⟨x, l.map truth⟩ (.rel false r.real) op ∧
    (NumRel.withOther rule ⟨x, .bools l⟩ (.float c) op).map NumRel.real = Rel.operation ⟨x, l.map truth⟩ (.other (.num c)) op :=
  ⟨C135_other_axis rule _ _ op, (C135_with_floats rule x (.bools l) [] c op).1⟩

end

/-! ## Witnesses and examples -/

/-- C144: on one axis twice a mask is the mask and its difference with itself is refused; on an equal axis that is another object they are
2 and 0. The integral of a mask that is true throughout is half of what it is for ones, and `diff` of a falling edge is positive. -/
theorem C144_witness :
    NumRel.withRel .widen true ⟨(⟨0, 1, 1⟩ : Axis ℚ), .bools [true, false]⟩ ⟨⟨0, 1, 1⟩, .bools [true, false]⟩ .add =
      .ok ⟨⟨0, 1, 1⟩, .bools [true, false]⟩ ∧
    NumRel.withRel .widen true ⟨(⟨0, 1, 1⟩ : Axis ℚ), .bools [true, false]⟩ ⟨⟨0, 1, 1⟩, .bools [true, false]⟩ .sub = .error .typeFunc ∧
    NumRel.withRel .widen false ⟨(⟨0, 1, 1⟩ : Axis ℚ), .bools [true, false]⟩ ⟨⟨0, 1, 1⟩, .bools [true, false]⟩ .add =
      .ok ⟨⟨0, 1, 1⟩, .floats [2, 0]⟩ ∧
    NumRel.withRel .widen false ⟨(⟨0, 1, 1⟩ : Axis ℚ), .bools [true, false]⟩ ⟨⟨0, 1, 1⟩, .bools [true, false]⟩ .sub =
      .ok ⟨⟨0, 1, 1⟩, .floats [0, 0]⟩ ∧
    NumRel.integrate ⟨(⟨0, 3, 1⟩ : Axis ℚ), .bools [true, true, true, true]⟩ = .ok ⟨⟨1, 3, 1⟩, .floats [1 / 2, 1, 3 / 2]⟩ ∧
    Rel.integrate (K := ℚ) (V := ℚ) ⟨⟨0, 3, 1⟩, [1, 1, 1, 1]⟩ = .ok ⟨⟨1, 3, 1⟩, [1, 2, 3]⟩ ∧
    NumRel.diff ⟨(⟨0, 2, 1⟩ : Axis ℚ), .bools [true, false, true]⟩ = .ok ⟨⟨1 / 2, 3 / 2, 1⟩, .floats [1, 1]⟩ ∧
    NumRel.getNorm .widen ⟨(⟨0, 2, 1⟩ : Axis ℚ), .bools [true, false, true]⟩ = .ok 1 := by
  decide +kernel

/-- the hypotheses of `C144_or_and`, `C144_exact` and `C144_powers`: two masks that are nowhere true together -/
example : (⟨0, 2, 1⟩ : Axis ℚ).size = .ok [true, false, false].length ∧
    (∀ p ∈ [true, false, false].zip [false, false, true], p ≠ (true, true)) ∧
    NumRel.withRel .refuse true ⟨(⟨0, 2, 1⟩ : Axis ℚ), .bools [true, false, false]⟩ ⟨⟨0, 2, 1⟩, .bools [false, false, true]⟩ .add =
      .ok ⟨⟨0, 2, 1⟩, .bools [true, false, true]⟩ ∧
    NumRel.withRel .refuse true ⟨(⟨0, 2, 1⟩ : Axis ℚ), .bools [true, false, false]⟩ ⟨⟨0, 2, 1⟩, .bools [false, false, true]⟩ .pow =
      .ok ⟨⟨0, 2, 1⟩, .ints .i8 [1, 1, 0]⟩ := by decide +kernel

/-- the hypotheses of `C144_number`: 1 - mask, which turns the mask round -/
example : InType .i64 1 ∧ (∀ b ∈ [true, false], InType .i64 (intResult .rsub (asInt b) 1)) ∧
    NumRel.withOther .widen ⟨(⟨0, 1, 1⟩ : Axis ℚ), .bools [true, false]⟩ (.int 1) .rsub = .ok ⟨⟨0, 1, 1⟩, .ints .i64 [0, 1]⟩ ∧
    NumRel.withOther .widen ⟨(⟨0, 1, 1⟩ : Axis ℚ), .bools [true, false]⟩ (.int 3) .rpow = .ok ⟨⟨0, 1, 1⟩, .ints .i64 [3, 1]⟩ := by
  refine ⟨by simp [InType, smallest, largest], ?_, by decide +kernel, by decide +kernel⟩
  simp [InType, smallest, largest, intResult, asInt]

end SweepDesign
