import Verif.Model.IntSamples
import Verif.Lemmas.Arith
import Verif.Py.Pow

/-!
# C135: relations whose samples are machine integers
-/

set_option linter.unusedSectionVars false
set_option linter.unusedSimpArgs false

namespace SweepDesign

/-- the smallest number of the type -/
def Spec.smallest : IntType → ℤ
  | .i8 => -128
  | .i16 => -32768
  | .i32 => -2147483648
  | .i64 => -9223372036854775808
  | .u8 => 0
  | .u16 => 0
  | .u32 => 0
  | .u64 => 0

/-- the largest number of the type -/
def Spec.largest : IntType → ℤ
  | .i8 => 127
  | .i16 => 32767
  | .i32 => 2147483647
  | .i64 => 9223372036854775807
  | .u8 => 255
  | .u16 => 65535
  | .u32 => 4294967295
  | .u64 => 18446744073709551615

/-- `v` is a number of the type -/
def Spec.InType (t : IntType) (v : ℤ) : Prop := Spec.smallest t ≤ v ∧ v ≤ Spec.largest t

/-- `v` is a number of the type and differs from the exact result by a multiple of the number of numbers of the type -/
def Spec.Stored (t : IntType) (exact v : ℤ) : Prop :=
  Spec.InType t v ∧ ∃ k : ℤ, v = exact + k * (Spec.largest t - Spec.smallest t + 1)

/-- every number of `t` is a number of `w` -/
def Spec.Contains (w t : IntType) : Prop := Spec.smallest w ≤ Spec.smallest t ∧ Spec.largest t ≤ Spec.largest w

/-- how many numbers the type has, less one -/
def Spec.range (t : IntType) : ℤ := Spec.largest t - Spec.smallest t

/-- the smallest type with the numbers of both types -/
def Spec.Wider (t u w : IntType) : Prop :=
  Spec.Contains w t ∧ Spec.Contains w u ∧ ∀ v, Spec.Contains v t → Spec.Contains v u → Spec.range w ≤ Spec.range v

/-- a smallest type with the numbers of `t` and the number `c`; without sign if it can be -/
def Spec.Takes (t : IntType) (c : ℤ) (w : IntType) : Prop :=
  Spec.Contains w t ∧ Spec.InType w c ∧ (∀ v, Spec.Contains v t → Spec.InType v c → Spec.range w ≤ Spec.range v) ∧
    (Spec.smallest t = 0 → 0 ≤ c → Spec.smallest w = 0)

/-- what the operation should give; for powers the exponent is not negative, division is not covered -/
def Spec.intResult : MathOp → ℤ → ℤ → ℤ
  | .add, a, b => a + b
  | .radd, a, b => b + a
  | .sub, a, b => a - b
  | .rsub, a, b => b - a
  | .mul, a, b => a * b
  | .rmul, a, b => b * a
  | .pow, a, b => a ^ b.toNat
  | .rpow, a, b => b ^ a.toNat
  | .truediv, _, _ => 0
  | .rtruediv, _, _ => 0

/-- `op` stays among the integers for `a` and `b`: no division and no negative exponent -/
def Spec.StaysInt (op : MathOp) (a b : ℤ) : Prop :=
  op ≠ .truediv ∧ op ≠ .rtruediv ∧ (op = .pow → 0 ≤ b) ∧ (op = .rpow → 0 ≤ a)

/-- every sample is a number of the type -/
def Spec.WellTyped {K : Type} : Samples K → Prop
  | .ints t l => ∀ v ∈ l, Spec.InType t v
  | .bools _ => True
  | .floats _ => True

/-- powers of integers are what they should be -/
def Spec.IntPowers (K : Type) [Field K] [PyPow K] : Prop :=
  ∀ (a : ℤ) (n : ℕ), PyPow.ppow (a : K) (n : K) = some ((a : K) ^ n)

open Spec

theorem intPowers_rat : IntPowers ℚ := by
  intro a n
  simp only [PyPow.ppow]
  simp

theorem intPowers_real : IntPowers ℝ := by
  intro a n
  have h1 : ¬ ((n : ℝ) < 0) := by simp
  have h2 : ∃ k : ℤ, (k : ℝ) = n := ⟨n, by simp⟩
  simp [PyPow.ppow, h1, h2]

/-! ## Storing -/

theorem wrap_stored (t : IntType) (v : ℤ) : Stored t v (t.wrap v) := by
  cases t <;> simp only [Stored, InType, smallest, largest, IntType.wrap, IntType.low, IntType.least, IntType.signed] <;> norm_num
  all_goals
    refine ⟨by constructor <;> omega, ?_⟩
  · exact ⟨-((v + 128) / 256), by omega⟩
  · exact ⟨-((v + 32768) / 65536), by omega⟩
  · exact ⟨-((v + 2147483648) / 4294967296), by omega⟩
  · exact ⟨-((v + 9223372036854775808) / 18446744073709551616), by omega⟩
  · exact ⟨-(v / 256), by omega⟩
  · exact ⟨-(v / 65536), by omega⟩
  · exact ⟨-(v / 4294967296), by omega⟩
  · exact ⟨-(v / 18446744073709551616), by omega⟩

theorem stored_unique {t : IntType} {e v w : ℤ} (hv : Stored t e v) (hw : Stored t e w) : v = w := by
  obtain ⟨⟨h1, h2⟩, k, hk⟩ := hv
  obtain ⟨⟨h3, h4⟩, j, hj⟩ := hw
  cases t <;> simp only [smallest, largest] at h1 h2 h3 h4 hk hj <;> omega

theorem stored_self {t : IntType} {e : ℤ} (h : InType t e) : Stored t e e := ⟨h, 0, by simp⟩

theorem wrap_eq_iff (t : IntType) (v : ℤ) : t.wrap v = v ↔ InType t v :=
  ⟨fun h => h ▸ (wrap_stored t v).1, fun h => stored_unique (wrap_stored t v) (stored_self h)⟩

/-- sums and products depend only on what is stored -/
theorem stored_congr {t : IntType} {e f v : ℤ} (h : Stored t e v) (hk : ∃ k : ℤ, f = e + k * (largest t - smallest t + 1)) :
    Stored t f v := by
  obtain ⟨hv, k, hk'⟩ := h
  obtain ⟨j, hj⟩ := hk
  exact ⟨hv, k - j, by rw [hk', hj]; ring⟩

theorem holds_iff (t : IntType) (v : ℤ) : t.holds v = true ↔ InType t v := by
  cases t <;> simp only [IntType.holds, IntType.low, IntType.least, IntType.signed, InType, smallest, largest, Bool.and_eq_true] <;>
    norm_num <;> omega

theorem into_iff (t u : IntType) : t.into u = true ↔ Contains u t := by
  cases t <;> cases u <;> simp [IntType.into, IntType.signed, IntType.low, Contains, smallest, largest]

theorem join_wider {t u w : IntType} (h : t.join u = some w) : Wider t u w := by
  refine ⟨?_, ?_, fun v h1 h2 => ?_⟩
  · have := List.find?_some h
    exact (into_iff _ _).1 (Bool.and_eq_true_iff.1 this).1
  · have := List.find?_some h
    exact (into_iff _ _).1 (Bool.and_eq_true_iff.1 this).2
  · rw [← into_iff] at h1 h2
    revert h h1 h2
    cases t <;> cases u <;> cases v <;> simp only [IntType.join] <;> intro h h1 h2 <;> first
      | (exact absurd h1 (by decide))
      | (exact absurd h2 (by decide))
      | (obtain rfl := Option.some.inj h; simp [range, largest, smallest])

theorem join_none {t u : IntType} (h : t.join u = none) (w : IntType) : ¬ (Contains w t ∧ Contains w u) := by
  rw [← into_iff, ← into_iff]
  have := List.find?_eq_none.1 h w (by cases w <;> simp)
  simpa using this

theorem join_of_wider {t u w : IntType} (h : Wider t u w) : t.join u = some w := by
  obtain ⟨h1, h2, h3⟩ := h
  cases hj : t.join u with
  | none => exact absurd ⟨h1, h2⟩ (join_none hj w)
  | some v =>
    have h4 := h3 v (join_wider hj).1 (join_wider hj).2.1
    rw [← into_iff] at h1 h2
    clear h3
    revert hj h1 h2 h4
    cases t <;> cases u <;> cases w <;> intro h1 h2 hj h4 <;> first
      | (exact absurd h1 (by decide))
      | (exact absurd h2 (by decide))
      | (obtain rfl := Option.some.inj hj; first | rfl | (exfalso; simp [range, largest, smallest] at h4))

theorem withInt_fits {rule : IntRule} {t : IntType} {c : ℤ} (h : InType t c) : t.withInt rule c = .ints t := by
  unfold IntType.withInt; rw [if_pos ((holds_iff t c).2 h)]

instance (t : IntType) (c : ℤ) : Decidable (InType t c) := by unfold InType; infer_instance

theorem withInt_wide {t : IntType} {c : ℤ} (hc : ¬ InType t c) (h64 : InType .i64 c ∨ InType .u64 c) :
    (∃ w, t.withInt .widen c = .ints w ∧ Takes t c w) ∨
    (t.withInt .widen c = .floats ∧ ∀ w, ¬ (Contains w t ∧ InType w c)) := by
  have hh : t.holds c = false := by
    rcases hb : t.holds c with _ | _
    · rfl
    · exact absurd ((holds_iff t c).1 hb) hc
  have h64' : (IntType.i64.holds c || IntType.u64.holds c) = true := by
    rw [Bool.or_eq_true, holds_iff, holds_iff]; exact h64
  unfold IntType.withInt
  rw [if_neg (by simp [hh])]
  dsimp only
  rw [if_pos h64']
  clear h64' hh
  have key : ∀ u : IntType, u.holds c = decide (InType u c) := fun u => by
    rw [Bool.eq_iff_iff, holds_iff, decide_eq_true_iff]
  simp only [key]
  clear key
  by_cases a16 : InType .i16 c <;> by_cases a32 : InType .i32 c <;> by_cases a64 : InType .i64 c <;>
    by_cases b16 : InType .u16 c <;> by_cases b32 : InType .u32 c <;> by_cases b64 : InType .u64 c <;> by_cases h0 : 0 ≤ c <;>
    first
    | (exfalso; simp only [InType, smallest, largest] at *; omega)
    | (cases t <;>
        simp [h0, a16, a32, a64, b16, b32, b64, IntType.signed, IntType.into, IntType.low, List.find?_cons] at hc ⊢ <;>
        (try simp only [Takes, Contains, InType, range, smallest, largest] at *) <;> first
        | (refine ⟨by omega, by omega, fun v => ?_, by intros; omega⟩; cases v <;> simp only [smallest, largest] <;> omega)
        | (intro v; cases v <;> simp only [smallest, largest] <;> omega))

theorem intFn_of_staysInt (t : IntType) (op : MathOp) (a b : ℤ) (h : StaysInt op a b) :
    op.intFn t a b = some (t.wrap (intResult op a b)) := by
  obtain ⟨h1, h2, h3, h4⟩ := h
  cases op <;> simp_all [MathOp.intFn, intResult, not_lt]

theorem divides_of_staysInt {op : MathOp} {a b : ℤ} (h : StaysInt op a b) : op.divides = false := by
  obtain ⟨h1, h2, -, -⟩ := h
  cases op <;> simp_all [MathOp.divides]

theorem allOr_map_some (l : List ℤ) : allOrTypeFunc (l.map some) = .ok l := by
  have : (l.map some).mapM id = some l := by
    induction l with
    | nil => rfl
    | cons a l ih => simp [List.mapM_cons, ih]
  simp [allOrTypeFunc, this]

theorem zip_exact (t : IntType) (op : MathOp) (l m : List ℤ) (h : ∀ p ∈ l.zip m, StaysInt op p.1 p.2) :
    List.zipWith (op.intFn t) l m = (List.zipWith (fun a b => t.wrap (intResult op a b)) l m).map some := by
  induction l generalizing m with
  | nil => rfl
  | cons a l ih =>
    cases m with
    | nil => rfl
    | cons b m =>
      simp only [List.zipWith_cons_cons, List.map_cons]
      rw [intFn_of_staysInt t op a b (h (a, b) (by simp)), ih m (fun p hp => h p (by simp [hp]))]

section
variable {K : Type} [Field K] [LinearOrder K] [IsStrictOrderedRing K] [FloorRing K]

theorem toFloats_length (y : Samples K) : y.toFloats.length = y.length := by cases y <;> simp [Samples.toFloats, Samples.length]

theorem numMake_real (x : Axis K) (y : Samples K) : (NumRel.make x y).map NumRel.real = Rel.make x y.toFloats := by
  unfold NumRel.make Rel.make
  rw [toFloats_length]
  cases x.size with
  | error e => rfl
  | ok n =>
    by_cases h : n = y.length
    · simp [h, bind, Except.bind, pure, Except.pure, Except.map, NumRel.real]
    · simp [h, bind, Except.bind, Except.map]

theorem numMake_ok {x : Axis K} {y : Samples K} (h : x.size = .ok y.length) : NumRel.make x y = .ok ⟨x, y⟩ := by
  simp [NumRel.make, h, bind, Except.bind, pure, Except.pure]

/-! ## Arithmetic on one axis -/

section
variable [PyPow K] {rule : IntRule} {x : Axis K} {t u : IntType} {l m : List ℤ} {op : MathOp}

theorem fn_of_staysInt (hp : IntPowers K) (op : MathOp) (a b : ℤ) (h : StaysInt op a b) :
    op.fn (a : K) (b : K) = some ((intResult op a b : ℤ) : K) := by
  obtain ⟨h1, h2, h3, h4⟩ := h
  cases op with
  | pow =>
    have hb : ((b.toNat : ℕ) : K) = (b : K) := by
      have := Int.toNat_of_nonneg (h3 rfl)
      exact_mod_cast congrArg (Int.cast : ℤ → K) this
    simp only [MathOp.fn, intResult]
    rw [← hb, hp]; push_cast; rfl
  | rpow =>
    have hb : ((a.toNat : ℕ) : K) = (a : K) := by
      have := Int.toNat_of_nonneg (h4 rfl)
      exact_mod_cast congrArg (Int.cast : ℤ → K) this
    simp only [MathOp.fn, intResult]
    rw [← hb, hp]; push_cast; rfl
  | truediv => exact absurd rfl h1
  | rtruediv => exact absurd rfl h2
  | _ => simp [MathOp.fn, intResult]

theorem zip_fn_exact (hp : IntPowers K) (op : MathOp) (l m : List ℤ) (h : ∀ p ∈ l.zip m, StaysInt op p.1 p.2) :
    List.zipWith op.fn (l.map fun (v : ℤ) => (v : K)) (m.map fun (v : ℤ) => (v : K)) =
      ((List.zipWith (intResult op) l m).map fun (v : ℤ) => (v : K)).map some := by
  induction l generalizing m with
  | nil => rfl
  | cons a l ih =>
    cases m with
    | nil => rfl
    | cons b m =>
      simp only [List.zipWith_cons_cons, List.map_cons]
      rw [fn_of_staysInt hp op a b (h (a, b) (by simp)), ih m (fun p hp => h p (by simp [hp]))]

theorem zipWith_congr_mem {α β γ : Type} {f g : α → β → γ} {l : List α} {m : List β} (h : ∀ p ∈ l.zip m, f p.1 p.2 = g p.1 p.2) :
    List.zipWith f l m = List.zipWith g l m := by
  induction l generalizing m with
  | nil => rfl
  | cons a l ih =>
    cases m with
    | nil => rfl
    | cons b m =>
      simp only [List.zipWith_cons_cons]
      rw [h (a, b) (by simp), ih fun p hp => h p (by simp [hp])]

theorem numOperation_ints (rule : IntRule) (t u : IntType) (l m : List ℤ) (op : MathOp) :
    numOperation (K := K) rule (.ints t l) (.arr (.ints u m)) op = typedArrays t u l m op := rfl

theorem numOperation_int (rule : IntRule) (t : IntType) (l : List ℤ) (c : ℤ) (op : MathOp) :
    numOperation (K := K) rule (.ints t l) (.int c) op = arrayInt (t.withInt rule c) l c op := rfl

theorem typedArrays_join {w : IntType} (hj : t.join u = some w) (hd : op.divides = false) :
    typedArrays (K := K) t u l m op = (intArrays w l m op).map (.ints w) := by
  simp [typedArrays, hj, hd]

theorem typedArrays_floats (h : op.divides = true ∨ t.join u = none) : typedArrays (K := K) t u l m op =
    (mathOperation (l.map fun (v : ℤ) => (v : K)) (.arr (m.map fun (v : ℤ) => (v : K))) op).map .floats := by
  unfold typedArrays
  rcases h with h | h <;> simp [h]

theorem withRel_same {w : IntType} (hj : t.join u = some w) (hx : x.size = .ok l.length) (hlm : l.length = m.length)
    (hd : op.divides = false) (h : ∀ p ∈ l.zip m, StaysInt op p.1 p.2) :
    NumRel.withRel rule true ⟨x, .ints t l⟩ ⟨x, .ints u m⟩ op =
      .ok ⟨x, .ints w (List.zipWith (fun a b => w.wrap (intResult op a b)) l m)⟩ := by
  have h1 : intArrays w l m op = .ok (List.zipWith (fun a b => w.wrap (intResult op a b)) l m) := by
    unfold intArrays; rw [if_pos hlm, zip_exact _ _ _ _ h, allOr_map_some]
  simp only [NumRel.withRel, NumRel.equalize, if_true, bind, Except.bind, numOperation_ints, typedArrays_join hj hd, h1, Except.map]
  exact numMake_ok (by simp [Samples.length, hx, hlm])

theorem withOther_int {w : IntType} {c : ℤ} (hx : x.size = .ok l.length) (hc : t.withInt rule c = .ints w) (hd : op.divides = false)
    (h : ∀ a ∈ l, StaysInt op a c) :
    NumRel.withOther rule ⟨x, .ints t l⟩ (.int c) op = .ok ⟨x, .ints w (l.map fun a => w.wrap (intResult op a c))⟩ := by
  have h1 : allOrTypeFunc (l.map fun a => op.intFn w a c) = .ok (l.map fun a => w.wrap (intResult op a c)) := by
    rw [← allOr_map_some, List.map_map]
    congr 1
    exact List.map_congr_left fun a ha => intFn_of_staysInt w op a c (h a ha)
  simp only [NumRel.withOther, numOperation_int, arrayInt, hc, hd, h1, bind, Except.bind, Except.map]
  exact numMake_ok (by simp [Samples.length, hx])

omit [PyPow K] in
theorem map_floats_real (e : Except Err (List K)) (x : Axis K) :
    ((e.map Samples.floats >>= fun y => NumRel.make x y)).map NumRel.real = (e >>= fun y => Rel.make x y) := by
  cases e with
  | error e => rfl
  | ok v => exact numMake_real x (.floats v)

/-- C135: two integer relations on one axis, an operation that stays among the integers: the samples of the result have the smallest type
with the numbers of both types, and every one of them is the exact result up to a multiple of the number of numbers of that type. Nothing is raised when the
exact result does not fit. -/
theorem C135_same_axis (rule : IntRule) (x : Axis K) (t u : IntType) (l m : List ℤ) (op : MathOp) (hx : x.size = .ok l.length)
    (hlm : l.length = m.length) (hd : op ≠ .truediv ∧ op ≠ .rtruediv) (h : ∀ p ∈ l.zip m, StaysInt op p.1 p.2)
    (hc : ∃ w, Contains w t ∧ Contains w u) :
    ∃ w out, NumRel.withRel rule true ⟨x, .ints t l⟩ ⟨x, .ints u m⟩ op = .ok ⟨x, .ints w out⟩ ∧ Wider t u w ∧
      out.length = l.length ∧ ∀ i (h1 : i < l.length) (h2 : i < m.length) (h3 : i < out.length),
        Stored w (intResult op l[i] m[i]) out[i] := by
  obtain ⟨v, hv⟩ := hc
  obtain ⟨w, hj⟩ : ∃ w, t.join u = some w := by
    cases hj : t.join u with
    | none => exact absurd hv (join_none hj v)
    | some w => exact ⟨w, rfl⟩
  refine ⟨_, _, withRel_same hj hx hlm ?_ h, join_wider hj, by simp [hlm], ?_⟩
  · cases op <;> simp_all [MathOp.divides]
  · intro i h1 h2 h3
    rw [List.getElem_zipWith]
    exact wrap_stored _ _

/-- C135: where no type has the numbers of both (`uint64` with a signed type), the result is that of exact arithmetic, in floats -/
theorem C135_no_common_type (rule : IntRule) (x : Axis K) (t u : IntType) (l m : List ℤ) (op : MathOp)
    (h : ¬ ∃ w, Contains w t ∧ Contains w u) :
    (NumRel.withRel rule true ⟨x, .ints t l⟩ ⟨x, .ints u m⟩ op).map NumRel.real =
      (NumRel.real ⟨x, .ints t l⟩).operation (.rel true (NumRel.real ⟨x, .ints u m⟩)) op := by
  have hj : t.join u = none := by
    cases hj : t.join u with
    | none => rfl
    | some w => exact absurd ⟨w, (join_wider hj).1, (join_wider hj).2.1⟩ h
  simp only [NumRel.withRel, NumRel.equalize, if_true, Rel.operation, Rel.equalize, bind, Except.bind, numOperation_ints,
    typedArrays_floats (.inr hj)]
  exact map_floats_real _ _

/-- C135: the same with a Python int the type can hold -/
theorem C135_number (rule : IntRule) (x : Axis K) (t : IntType) (l : List ℤ) (c : ℤ) (op : MathOp) (hx : x.size = .ok l.length)
    (hc : InType t c) (hd : op ≠ .truediv ∧ op ≠ .rtruediv) (h : ∀ a ∈ l, StaysInt op a c) :
    ∃ out, NumRel.withOther rule ⟨x, .ints t l⟩ (.int c) op = .ok ⟨x, .ints t out⟩ ∧
      out.length = l.length ∧ ∀ i (h1 : i < l.length) (h3 : i < out.length), Stored t (intResult op l[i] c) out[i] := by
  refine ⟨_, withOther_int hx (withInt_fits hc) ?_ h, by simp, ?_⟩
  · cases op <;> simp_all [MathOp.divides]
  · intro i h1 h3
    rw [List.getElem_map]
    exact wrap_stored _ _

/-- C135: a Python int the type cannot hold is refused by numpy 2; numpy 1 takes a wider type that holds it, or floats if there is none -/
theorem C135_number_wide (x : Axis K) (t : IntType) (l : List ℤ) (c : ℤ) (op : MathOp) (hx : x.size = .ok l.length) (hc : ¬ InType t c) :
    NumRel.withOther .refuse ⟨x, .ints t l⟩ (.int c) op = .error .typeFunc ∧
    ((∃ w, Contains w t ∧ InType w c) → op ≠ .truediv → op ≠ .rtruediv → (∀ a ∈ l, StaysInt op a c) → ∃ w out,
      NumRel.withOther .widen ⟨x, .ints t l⟩ (.int c) op = .ok ⟨x, .ints w out⟩ ∧ Takes t c w ∧
        out.length = l.length ∧ ∀ i (h1 : i < l.length) (h3 : i < out.length), Stored w (intResult op l[i] c) out[i]) ∧
    ((¬ ∃ w, Contains w t ∧ InType w c) → InType .i64 c ∨ InType .u64 c →
      (NumRel.withOther .widen ⟨x, .ints t l⟩ (.int c) op).map NumRel.real =
        (NumRel.real ⟨x, .ints t l⟩).operation (.other (.num (c : K))) op) := by
  have hh : t.holds c = false := by
    rcases hb : t.holds c with _ | _
    · rfl
    · exact absurd ((holds_iff t c).1 hb) hc
  refine ⟨?_, ?_, ?_⟩
  · simp [NumRel.withOther, numOperation_int, arrayInt, IntType.withInt, hh, bind, Except.bind]
  · rintro ⟨v, hv⟩ h1 h2 h
    have h64 : InType .i64 c ∨ InType .u64 c := by
      obtain ⟨-, h3, h4⟩ := hv
      cases v <;> simp only [InType, smallest, largest] at h3 h4 ⊢ <;> omega
    rcases withInt_wide hc h64 with ⟨w, hw1, hw2⟩ | ⟨-, hw⟩
    · refine ⟨w, _, withOther_int hx hw1 ?_ h, hw2, by simp, ?_⟩
      · cases op <;> simp_all [MathOp.divides]
      · intro i h1 h3
        rw [List.getElem_map]
        exact wrap_stored _ _
    · exact absurd hv (hw v)
  · intro hn h64
    rcases withInt_wide hc h64 with ⟨w, -, hw⟩ | ⟨hw, -⟩
    · exact absurd ⟨w, hw.1, hw.2.1⟩ hn
    · simp only [NumRel.withOther, Rel.operation, numOperation_int, hw, arrayInt]
      exact map_floats_real _ _

theorem cast_list_inj {a b : List ℤ} (h : a.map (fun (v : ℤ) => (v : K)) = b.map (fun (v : ℤ) => (v : K))) : a = b :=
  (List.map_injective_iff.2 (Int.cast_injective (α := K))) h

/-- C135: the result is what exact arithmetic on the samples gives if and only if every exact result is a number of the type -/
theorem C135_exact (hp : IntPowers K) (rule : IntRule) (x : Axis K) (t u w : IntType) (l m : List ℤ) (op : MathOp)
    (hx : x.size = .ok l.length) (hlm : l.length = m.length) (hd : op ≠ .truediv ∧ op ≠ .rtruediv)
    (h : ∀ p ∈ l.zip m, StaysInt op p.1 p.2) (hw : Wider t u w) :
    ((NumRel.withRel rule true ⟨x, .ints t l⟩ ⟨x, .ints u m⟩ op).map NumRel.real =
      (NumRel.real ⟨x, .ints t l⟩).operation (.rel true (NumRel.real ⟨x, .ints u m⟩)) op) ↔
    ∀ p ∈ l.zip m, InType w (intResult op p.1 p.2) := by
  have hd' : op.divides = false := by cases op <;> simp_all [MathOp.divides]
  have hr : (NumRel.real ⟨x, .ints t l⟩).operation (.rel true (NumRel.real ⟨x, .ints u m⟩)) op =
      .ok ⟨x, (List.zipWith (intResult op) l m).map fun (v : ℤ) => (v : K)⟩ := by
    simp only [NumRel.real, Samples.toFloats, Rel.operation, Rel.equalize, if_true, bind, Except.bind]
    rw [mathOperation_arr _ _ _ (by simp [hlm]), zip_fn_exact hp op l m h, finite_map_some]
    simp [Rel.make, hx, hlm, bind, Except.bind, pure, Except.pure]
  rw [withRel_same (join_of_wider hw) hx hlm hd' h, hr]
  simp only [Except.map, NumRel.real, Samples.toFloats, Except.ok.injEq, Rel.mk.injEq, true_and]
  constructor
  · intro he
    have he := cast_list_inj he
    intro p hp
    obtain ⟨i, hi, rfl⟩ := List.mem_iff_getElem.1 hp
    have h1 : i < l.length := by simp at hi; omega
    have h2 : i < m.length := by simp at hi; omega
    rw [← wrap_eq_iff]
    have := congrArg (fun z => z[i]?) he
    simpa [List.getElem?_zipWith, h1, h2] using this
  · intro hf
    congr 1
    exact zipWith_congr_mem fun p hp => (wrap_eq_iff _ _).2 (hf p hp)

/-- C135: the same with a Python int -/
theorem C135_exact_number (hp : IntPowers K) (rule : IntRule) (x : Axis K) (t : IntType) (l : List ℤ) (c : ℤ) (op : MathOp)
    (hx : x.size = .ok l.length) (hc : InType t c) (hd : op ≠ .truediv ∧ op ≠ .rtruediv) (h : ∀ a ∈ l, StaysInt op a c) :
    ((NumRel.withOther rule ⟨x, .ints t l⟩ (.int c) op).map NumRel.real =
      (NumRel.real ⟨x, .ints t l⟩).operation (.other (.num (c : K))) op) ↔ ∀ a ∈ l, InType t (intResult op a c) := by
  have hd' : op.divides = false := by cases op <;> simp_all [MathOp.divides]
  have hr : (NumRel.real ⟨x, .ints t l⟩).operation (.other (.num (c : K))) op =
      .ok ⟨x, (l.map fun a => intResult op a c).map fun (v : ℤ) => (v : K)⟩ := by
    simp only [NumRel.real, Samples.toFloats, Rel.operation, bind, Except.bind]
    have : (l.map fun (v : ℤ) => (v : K)).map (fun a => op.fn a (c : K)) =
        ((l.map fun a => intResult op a c).map fun (v : ℤ) => (v : K)).map some := by
      rw [List.map_map, List.map_map, List.map_map]
      exact List.map_congr_left fun a ha => fn_of_staysInt hp op a c (h a ha)
    rw [mathOperation_num, this, finite_map_some]
    simp [Rel.make, hx, bind, Except.bind, pure, Except.pure]
  rw [withOther_int hx (withInt_fits hc) hd' h, hr]
  simp only [Except.map, NumRel.real, Samples.toFloats, Except.ok.injEq, Rel.mk.injEq, true_and]
  constructor
  · intro he a ha
    have he := cast_list_inj he
    rw [← wrap_eq_iff]
    exact List.map_inj_left.1 he a ha
  · intro hf
    congr 1
    exact List.map_congr_left fun a ha => (wrap_eq_iff _ _).2 (hf a ha)

theorem allOr_error {l : List (Option ℤ)} (h : none ∈ l) : allOrTypeFunc l = .error .typeFunc := by
  have : l.mapM id = none := by
    induction l with
    | nil => simp at h
    | cons a l ih =>
      cases a with
      | none => simp [List.mapM_cons]
      | some a =>
        have := ih (by simpa using h)
        simp [List.mapM_cons, this]
  simp [allOrTypeFunc, this]

/-- C135: one negative exponent is enough for `TypeFuncError`, also where the power would be an integer -/
theorem C135_negative_power (rule : IntRule) (x : Axis K) (t u : IntType) (l m : List ℤ) (c : ℤ) (hc : c < 0) :
    (InType t c → l ≠ [] → NumRel.withOther rule ⟨x, .ints t l⟩ (.int c) .pow = .error .typeFunc) ∧
    (l.length = m.length → c ∈ m → (∃ w, Contains w t ∧ Contains w u) →
      NumRel.withRel rule true ⟨x, .ints t l⟩ ⟨x, .ints u m⟩ .pow = .error .typeFunc) := by
  constructor
  · intro hf hl
    obtain ⟨a, l, rfl⟩ := List.exists_cons_of_ne_nil hl
    have : allOrTypeFunc ((a :: l).map fun a => MathOp.pow.intFn t a c) = .error .typeFunc :=
      allOr_error (by simp [MathOp.intFn, hc])
    simp only [NumRel.withOther, numOperation_int, arrayInt, withInt_fits hf, MathOp.divides, bind, Except.bind, this, Except.map,
      Bool.false_eq_true, if_false]
  · rintro hlm hm ⟨v, hv⟩
    obtain ⟨w, hj⟩ : ∃ w, t.join u = some w := by
      cases hj : t.join u with
      | none => exact absurd hv (join_none hj v)
      | some w => exact ⟨w, rfl⟩
    have h1 : intArrays w l m .pow = .error .typeFunc := by
      unfold intArrays
      rw [if_pos hlm]
      apply allOr_error
      obtain ⟨i, hi, rfl⟩ := List.mem_iff_getElem.1 hm
      rw [List.mem_iff_getElem]
      exact ⟨i, by simp; omega, by simp [MathOp.intFn, hc]⟩
    simp only [NumRel.withRel, NumRel.equalize, if_true, numOperation_ints, typedArrays_join hj (op := .pow) rfl, bind, Except.bind, h1,
      Except.map]

/-! ## Where integers are read as floats first -/

omit [PyPow K] in
theorem interpAxis_real (r : NumRel K) (a : Axis K) : (r.interpAxis a).map NumRel.real = r.real.interpAxis a := by
  unfold NumRel.interpAxis Rel.interpAxis NumRel.real
  cases r.x.array with
  | error e => rfl
  | ok xs =>
    cases a.array with
    | error e => rfl
    | ok zs =>
      simp only [bind, Except.bind]
      cases interp1d xs r.y.toFloats zs with
      | error e => rfl
      | ok v => exact numMake_real a (.floats v)

omit [PyPow K] in
theorem interpAxis_floats {r q : NumRel K} {a : Axis K} (h : r.interpAxis a = .ok q) : ∃ v, q.y = .floats v := by
  unfold NumRel.interpAxis at h
  cases h1 : r.x.array with
  | error e => simp [h1, bind, Except.bind] at h
  | ok xs =>
    cases h2 : a.array with
    | error e => simp [h1, h2, bind, Except.bind] at h
    | ok zs =>
      cases h3 : interp1d xs r.y.toFloats zs with
      | error e => simp [h1, h2, h3, bind, Except.bind] at h
      | ok v =>
        simp only [h1, h2, h3, bind, Except.bind, NumRel.make] at h
        cases h4 : a.size with
        | error e => simp [h4] at h
        | ok n =>
          simp only [h4] at h
          split_ifs at h
          simp only [pure, Except.pure, Except.ok.injEq] at h
          exact ⟨v, by rw [← h]⟩

/-- C135: two relations that do not have the same axis object are interpolated, so nothing wraps round whatever the sizes: the result is
that of exact arithmetic on the samples -/
theorem C135_other_axis (rule : IntRule) (a b : NumRel K) (op : MathOp) :
    (NumRel.withRel rule false a b op).map NumRel.real = a.real.operation (.rel false b.real) op := by
  simp only [NumRel.withRel, NumRel.equalize, Rel.operation, Rel.equalize, Bool.false_eq_true, if_false]
  have ha := interpAxis_real a (commonX a.x b.x)
  have hb := interpAxis_real b (commonX a.x b.x)
  change _ = (do let (r1, r2) ← (do
      let q1 ← a.real.interpAxis (commonX a.x b.x)
      let q2 ← b.real.interpAxis (commonX a.x b.x)
      pure (q1, q2)); _)
  rw [← ha, ← hb]
  cases h1 : a.interpAxis (commonX a.x b.x) with
  | error e => rfl
  | ok q1 =>
    cases h2 : b.interpAxis (commonX a.x b.x) with
    | error e => rfl
    | ok q2 =>
      obtain ⟨v, hv⟩ := interpAxis_floats h1
      obtain ⟨w, hw⟩ := interpAxis_floats h2
      have : numOperation rule q1.y (.arr q2.y) op = (mathOperation q1.real.y (.arr q2.real.y) op).map .floats := by
        rw [hv, hw]; simp only [NumRel.real, hv, hw]; rfl
      simp only [bind, Except.bind, pure, Except.pure, Except.map, this]
      exact map_floats_real _ _

/-- C135: division gives what exact arithmetic gives, also on one axis -/
theorem C135_division (rule : IntRule) (x : Axis K) (t u : IntType) (l m : List ℤ) (op : MathOp) (hd : op = .truediv ∨ op = .rtruediv) :
    (NumRel.withRel rule true ⟨x, .ints t l⟩ ⟨x, .ints u m⟩ op).map NumRel.real =
      (NumRel.real ⟨x, .ints t l⟩).operation (.rel true (NumRel.real ⟨x, .ints u m⟩)) op ∧
    ∀ c, InType t c → (NumRel.withOther rule ⟨x, .ints t l⟩ (.int c) op).map NumRel.real =
      (NumRel.real ⟨x, .ints t l⟩).operation (.other (.num (c : K))) op := by
  have hd' : op.divides = true := by rcases hd with rfl | rfl <;> rfl
  constructor
  · simp only [NumRel.withRel, NumRel.equalize, if_true, Rel.operation, Rel.equalize, bind, Except.bind, numOperation_ints,
      typedArrays_floats (.inl hd')]
    exact map_floats_real _ _
  · intro c hc
    simp only [NumRel.withOther, Rel.operation, numOperation_int, arrayInt, withInt_fits hc, hd', if_true]
    exact map_floats_real _ _

/-- C135: so does every operation with a float, and every operation with float samples on either side -/
theorem C135_with_floats (rule : IntRule) (x : Axis K) (y : Samples K) (v : List K) (c : K) (op : MathOp) :
    (NumRel.withOther rule ⟨x, y⟩ (.float c) op).map NumRel.real = (NumRel.real ⟨x, y⟩).operation (.other (.num c)) op ∧
    (NumRel.withRel rule true ⟨x, y⟩ ⟨x, .floats v⟩ op).map NumRel.real =
      (NumRel.real ⟨x, y⟩).operation (.rel true ⟨x, v⟩) op ∧
    (NumRel.withRel rule true ⟨x, .floats v⟩ ⟨x, y⟩ op).map NumRel.real =
      Rel.operation ⟨x, v⟩ (.rel true (NumRel.real ⟨x, y⟩)) op := by
  refine ⟨?_, ?_, ?_⟩
  · have : numOperation rule y (.float c) op = (mathOperation y.toFloats (.num c) op).map .floats := by cases y <;> rfl
    simp only [NumRel.withOther, Rel.operation, this]
    exact map_floats_real _ _
  · have : numOperation rule y (.arr (.floats v)) op = (mathOperation y.toFloats (.arr v) op).map .floats := by cases y <;> rfl
    simp only [NumRel.withRel, NumRel.equalize, if_true, Rel.operation, Rel.equalize, bind, Except.bind, this]
    exact map_floats_real _ _
  · have : numOperation rule (.floats v) (.arr y) op = (mathOperation v (.arr y.toFloats) op).map .floats := by cases y <;> rfl
    simp only [NumRel.withRel, NumRel.equalize, if_true, Rel.operation, Rel.equalize, bind, Except.bind, this]
    exact map_floats_real _ _

omit [PyPow K] in
theorem shift_real (r : NumRel K) (d : K) : (r.shift d).map NumRel.real = r.real.shift d := numMake_real _ _

omit [PyPow K] in
theorem equalize_real (r q : NumRel K) :
    (NumRel.equalize false r q).map (fun p => (p.1.real, p.2.real)) = Rel.equalize false r.real q.real := by
  simp only [NumRel.equalize, Rel.equalize, Bool.false_eq_true, if_false]
  have ha := interpAxis_real r (commonX r.x q.x)
  have hb := interpAxis_real q (commonX r.x q.x)
  change _ = (do
      let q1 ← r.real.interpAxis (commonX r.x q.x)
      let q2 ← q.real.interpAxis (commonX r.x q.x)
      pure (q1, q2))
  rw [← ha, ← hb]
  cases r.interpAxis (commonX r.x q.x) with
  | error e => rfl
  | ok q1 => cases q.interpAxis (commonX r.x q.x) <;> rfl

omit [PyPow K] in
theorem align_real (r q : NumRel K) :
    (NumRel.alignForConv r q).map (fun p => (p.1.real, p.2.1.real, p.2.2)) = Rel.alignForConv r.real q.real := by
  unfold NumRel.alignForConv Rel.alignForConv
  change _ = (do
    let r1 ← r.real.shift (-r.x.start)
    let r2 ← q.real.shift (-q.x.start)
    let (r1, r2) ← Rel.equalize false r1 r2
    pure (r1, r2, (⟨-r1.x.stop, r1.x.stop, r1.x.sample⟩ : Axis K)))
  rw [← shift_real, ← shift_real]
  cases r.shift (-r.x.start) with
  | error e => rfl
  | ok r1 =>
    cases q.shift (-q.x.start) with
    | error e => rfl
    | ok q1 =>
      simp only [bind, Except.bind, Except.map]
      rw [← equalize_real]
      cases NumRel.equalize false r1 q1 <;> rfl

omit [PyPow K] in
theorem maskSelect_map {α β : Type} (f : α → β) (mask : List Bool) (l : List α) :
    maskSelect mask (l.map f) = (maskSelect mask l).map (List.map f) := by
  unfold maskSelect
  by_cases h : mask.length = l.length
  · simp only [List.length_map, h, if_true, Except.map]
    congr 1
    clear h
    induction l generalizing mask with
    | nil => rfl
    | cons a l ih =>
      cases mask with
      | nil => rfl
      | cons b mask =>
        simp only [List.map_cons, List.zip_cons_cons, List.filterMap_cons]
        cases b <;> simp [ih]
  · simp [h, Except.map]

omit [PyPow K] in
theorem select_mask_real (y : Samples K) (h : K) (a : List K) (mask : List Bool) :
    (do
      let xs ← maskSelect mask a
      match xs.head?, xs.getLast? with
      | some s, some e => do
        let z ← match y with
          | .ints t l => (maskSelect mask l).map (.ints t)
          | .bools l => (maskSelect mask l).map .bools
          | .floats l => (maskSelect mask l).map .floats
        NumRel.make { start := s, stop := e, sample := h } z
      | _, _ => .error .index : Except Err (NumRel K)).map NumRel.real =
    (do
      let xs ← maskSelect mask a
      match xs.head?, xs.getLast? with
      | some s, some e => do
        let newX : Axis K := { start := s, stop := e, sample := h }
        let z ← maskSelect mask y.toFloats
        Rel.make newX z
      | _, _ => .error .index : Except Err (Rel K K)) := by
  cases maskSelect mask a with
  | error e => rfl
  | ok b =>
    dsimp only [bind, Except.bind]
    split
    · rcases y with ⟨t, l⟩ | l | l
      · simp only [Samples.toFloats, maskSelect_map]
        cases maskSelect mask l with
        | error e => rfl
        | ok w => exact numMake_real _ _
      · simp only [Samples.toFloats, maskSelect_map]
        cases maskSelect mask l with
        | error e => rfl
        | ok w => exact numMake_real _ _
      · simp only [Samples.toFloats]
        cases maskSelect mask l with
        | error e => rfl
        | ok w => exact numMake_real _ _
    · rfl

omit [PyPow K] in
theorem select_real (r : NumRel K) (s e : Option K) : (r.selectData s e).map NumRel.real = r.real.selectData s e := by
  unfold NumRel.selectData Rel.selectData
  cases h : r.x.array with
  | error e => simp only [NumRel.real, h]; rfl
  | ok a => simp only [NumRel.real, h]; exact select_mask_real r.y r.x.sample a _

omit [PyPow K] in
theorem foldl_max_cast (a : ℤ) (l : List ℤ) :
    ((l.foldl max a : ℤ) : K) = (l.map fun (v : ℤ) => (v : K)).foldl max (a : K) := by
  induction l generalizing a with
  | nil => rfl
  | cons b l ih => simp only [List.foldl_cons, List.map_cons, ih, Int.cast_max]

omit [PyPow K] in
theorem foldl_min_cast (a : ℤ) (l : List ℤ) :
    ((l.foldl min a : ℤ) : K) = (l.map fun (v : ℤ) => (v : K)).foldl min (a : K) := by
  induction l generalizing a with
  | nil => rfl
  | cons b l ih => simp only [List.foldl_cons, List.map_cons, ih, Int.cast_min]

omit [PyPow K] in
theorem foldl_max_bool (a : Bool) (l : List Bool) :
    (l.map fun b => if b then (1 : K) else 0).foldl max (if a then 1 else 0) = if (a :: l).any id then 1 else 0 := by
  induction l generalizing a with
  | nil => simp
  | cons b l ih =>
    rw [List.map_cons, List.foldl_cons, show max (if a then (1 : K) else 0) (if b then 1 else 0) = if a || b then 1 else 0 from by
      cases a <;> cases b <;> simp, ih]
    simp [Bool.or_assoc]

omit [PyPow K] in
theorem foldl_min_bool (a : Bool) (l : List Bool) :
    (l.map fun b => if b then (1 : K) else 0).foldl min (if a then 1 else 0) = if (a :: l).all id then 1 else 0 := by
  induction l generalizing a with
  | nil => simp
  | cons b l ih =>
    rw [List.map_cons, List.foldl_cons, show min (if a then (1 : K) else 0) (if b then 1 else 0) = if a && b then 1 else 0 from by
      cases a <;> cases b <;> simp, ih]
    simp [Bool.and_assoc]

omit [PyPow K] in
/-- C135: selecting, shifting, interpolating, convolving, correlating, looking up a sample and the extremes are what they are for the same
numbers as floats, whatever their sizes -/
theorem C135_unaffected [Star K] (r q : NumRel K) (s e : Option K) (d v : K) (a : Axis K) :
    (r.selectData s e).map NumRel.real = r.real.selectData s e ∧
    (r.shift d).map NumRel.real = r.real.shift d ∧
    (r.interpAxis a).map NumRel.real = r.real.interpAxis a ∧
    (r.convolve q).map NumRel.real = r.real.convolve q.real ∧
    (r.correlate q).map NumRel.real = r.real.correlate q.real ∧
    r.getItem v = r.real.getItem v ∧
    r.max = r.real.max ∧ r.min = r.real.min := by
  refine ⟨select_real r s e, shift_real r d, interpAxis_real r a, ?_, ?_, ?_, ?_, ?_⟩
  · unfold NumRel.convolve Rel.convolve
    rw [← align_real]
    cases NumRel.alignForConv r q with
    | error e => rfl
    | ok p => exact numMake_real _ _
  · unfold NumRel.correlate Rel.correlate
    rw [← align_real]
    cases NumRel.alignForConv r q with
    | error e => rfl
    | ok p => exact numMake_real _ _
  · unfold NumRel.getItem Rel.getItem NumRel.real
    cases r.x.array with
    | error e => rfl
    | ok a =>
      dsimp only [bind, Except.bind]
      cases argmin (a.map fun t => |t - v|) with
      | error e => rfl
      | ok i =>
        dsimp only
        cases a[i]? with
        | none => rfl
        | some t => cases r.y.toFloats[i]? <;> rfl
  · unfold NumRel.max Rel.max NumRel.real
    rcases r.y with ⟨t, l⟩ | l | l
    · cases l with
      | nil => rfl
      | cons b l => simp only [npMax, Except.map, Samples.toFloats, List.map_cons, foldl_max_cast]
    · cases l with
      | nil => rfl
      | cons b l => simp only [npMax, Samples.toFloats, List.map_cons, foldl_max_bool, List.isEmpty_cons, Bool.false_eq_true, if_false]
    · rfl
  · unfold NumRel.min Rel.min NumRel.real
    rcases r.y with ⟨t, l⟩ | l | l
    · cases l with
      | nil => rfl
      | cons b l => simp only [npMin, Except.map, Samples.toFloats, List.map_cons, foldl_min_cast]
    · cases l with
      | nil => rfl
      | cons b l => simp only [npMin, Samples.toFloats, List.map_cons, foldl_min_bool, List.isEmpty_cons, Bool.false_eq_true, if_false]
    · rfl

/-! ## Differences, integrals and the norm -/

/-- the pairs of neighbouring samples -/
def Spec.pairsOf (l : List ℤ) : List (ℤ × ℤ) := l.zip l.tail

omit [PyPow K] in
theorem neighbours_exact {t : IntType} {l : List ℤ} (h : ∀ p ∈ pairsOf l, InType t (p.1 + p.2)) :
    (Samples.ints (K := K) t l).neighbours = (Samples.floats (l.map fun (v : ℤ) => (v : K))).neighbours := by
  simp only [Samples.neighbours, ← List.map_tail, List.zipWith_map]
  refine zipWith_congr_mem fun p hp => ?_
  rw [(wrap_eq_iff t (p.2 + p.1)).2 (by rw [add_comm]; exact h p hp)]
  push_cast; rfl

omit [PyPow K] in
theorem steps_exact {t : IntType} {l : List ℤ} (h : ∀ p ∈ pairsOf l, InType t (p.2 - p.1)) :
    (Samples.ints (K := K) t l).steps = npDiff (l.map fun (v : ℤ) => (v : K)) := by
  simp only [Samples.steps, npDiff, ← List.map_tail, List.zipWith_map]
  refine zipWith_congr_mem fun p hp => ?_
  rw [(wrap_eq_iff t (p.2 - p.1)).2 (h p hp)]
  push_cast; rfl

omit [PyPow K] in
/-- C135: `diff` divides the stored differences of neighbours by the step; it agrees with exact arithmetic if these differences are
numbers of the type -/
theorem C135_diff (x : Axis K) (t : IntType) (l : List ℤ) :
    (∀ q, NumRel.diff ⟨x, .ints t l⟩ = .ok q → q.y.toFloats.length = l.length - 1 ∧
      ∀ i (h1 : i + 1 < l.length) (h2 : i < q.y.toFloats.length),
        ∃ v : ℤ, Stored t (l[i + 1] - l[i]) v ∧ q.y.toFloats[i] = (v : K) / x.sample) ∧
    ((∀ p ∈ pairsOf l, InType t (p.2 - p.1)) →
      (NumRel.diff ⟨x, .ints t l⟩).map NumRel.real = Rel.diff (K := K) (V := K) (NumRel.real ⟨x, .ints t l⟩)) := by
  constructor
  · intro q hq
    have hy : q.y = .floats ((Samples.ints (K := K) t l).steps.map fun v => v / x.sample) := by
      simp only [NumRel.diff, NumRel.make] at hq
      cases hs : Axis.size { x with start := x.start + x.sample / 2, stop := x.stop - x.sample / 2 } with
      | error e => simp [hs, bind, Except.bind] at hq
      | ok n =>
        simp only [hs, bind, Except.bind] at hq
        split_ifs at hq
        simp only [pure, Except.pure, Except.ok.injEq] at hq
        rw [← hq]
    rw [hy]
    refine ⟨by simp [Samples.toFloats, Samples.steps], ?_⟩
    intro i h1 h2
    refine ⟨t.wrap (l[i + 1] - l[i]), wrap_stored _ _, ?_⟩
    simp [Samples.toFloats, Samples.steps]
  · intro h
    unfold NumRel.diff Rel.diff
    simp only [NumRel.real, numMake_real, Samples.toFloats, steps_exact h]
    congr 1
    exact List.map_congr_left fun v _ => by rw [smul_eq_mul, div_eq_inv_mul]

omit [PyPow K] in
/-- C135: `integrate` agrees with exact arithmetic if the sums of two neighbours are numbers of the type, and so does the integral over
the segment -/
theorem C135_integrate (x : Axis K) (t : IntType) (l : List ℤ) (h : ∀ p ∈ pairsOf l, InType t (p.1 + p.2)) :
    (NumRel.integrate ⟨x, .ints t l⟩).map NumRel.real = Rel.integrate (K := K) (V := K) (NumRel.real ⟨x, .ints t l⟩) ∧
    NumRel.oneIntegrate ⟨x, .ints t l⟩ = Rel.oneIntegrate (K := K) (V := K) (NumRel.real ⟨x, .ints t l⟩) := by
  constructor
  · unfold NumRel.integrate Rel.integrate
    simp only [NumRel.real, neighbours_exact h]
    rw [numMake_real]
    simp only [Samples.toFloats, Samples.neighbours, cumTrapz, List.map_zipWith]
    congr 1
    exact List.map_congr_left fun v _ => by rw [smul_eq_mul, mul_comm]
  · unfold NumRel.oneIntegrate Rel.oneIntegrate Rel.getData
    simp only [NumRel.real, neighbours_exact h, Samples.toFloats, Samples.length, List.length_map]
    cases x.size with
    | error e => rfl
    | ok n =>
      simp only [bind, Except.bind]
      by_cases hn : n = l.length
      · simp only [hn, ne_eq, not_true_eq_false, if_false]
        cases x.array with
        | error e => rfl
        | ok a =>
          simp only [pure, Except.pure, trapz, Except.ok.injEq, Samples.neighbours]
          congr 1
          rw [show (fun (d s : K) => d * s / 2) = fun d s => d • (s / 2) from by funext d s; rw [smul_eq_mul]; ring]
          rw [← List.zipWith_map_right (f := fun s : K => s / 2) (g := fun d v : K => d • v), List.map_zipWith]
      · simp only [ne_eq, hn, not_false_eq_true, if_true]

/-- C135: `get_norm` agrees with exact arithmetic if the squares and the sums of two neighbouring squares are numbers of the type -/
theorem C135_norm (rule : IntRule) (x : Axis K) (t : IntType) (l : List ℤ) (h1 : ∀ v ∈ l, InType t (v * v))
    (h2 : ∀ p ∈ pairsOf l, InType t (p.1 * p.1 + p.2 * p.2)) :
    NumRel.getNorm rule ⟨x, .ints t l⟩ = Rel.getNorm (K := K) (V := K) (NumRel.real ⟨x, .ints t l⟩) := by
  have hsq : numOperation (K := K) rule (.ints t l) (.int 2) .pow = .ok (.ints t (l.map fun v => v * v)) := by
    have hf : InType t 2 := by cases t <;> simp [InType, smallest, largest]
    have : allOrTypeFunc (l.map fun a => MathOp.pow.intFn t a 2) = .ok (l.map fun v => v * v) := by
      rw [← allOr_map_some, List.map_map]
      congr 1
      refine List.map_congr_left fun a ha => ?_
      have h2' : ¬ ((2 : ℤ) < 0) := by norm_num
      simp only [MathOp.intFn, if_neg h2', Function.comp]
      rw [show (2 : ℤ).toNat = 2 from rfl, pow_two, (wrap_eq_iff _ _).2 (h1 a ha)]
    simp only [numOperation_int, arrayInt, withInt_fits hf, MathOp.divides, this, Except.map, Bool.false_eq_true, if_false]
  have hreal : mathOperation (l.map fun (v : ℤ) => (v : K)) (.num 2) .pow =
      .ok ((l.map fun v => v * v).map fun (v : ℤ) => (v : K)) := by
    rw [mathOperation_num, ← finite_map_some]
    congr 1
    rw [List.map_map, List.map_map, List.map_map]
    refine List.map_congr_left fun a _ => ?_
    simp only [MathOp.fn, Function.comp, PyPow.ppow_two]
    push_cast; rfl
  have hpairs : ∀ p ∈ pairsOf (l.map fun v => v * v), InType t (p.1 + p.2) := by
    intro p hp
    rw [pairsOf, ← List.map_tail, List.zip_map, List.mem_map] at hp
    obtain ⟨q, hq, rfl⟩ := hp
    exact h2 q hq
  unfold NumRel.getNorm Rel.getNorm Rel.pow Rel.operation
  simp only [hsq, NumRel.real, Samples.toFloats, hreal, bind, Except.bind]
  have hm := numMake_real x (.ints t (l.map fun v => v * v))
  simp only [Samples.toFloats] at hm
  rw [← hm]
  cases hk : NumRel.make x (.ints t (l.map fun v => v * v)) with
  | error e => rfl
  | ok q =>
    have hq : q = ⟨x, .ints t (l.map fun v => v * v)⟩ := by
      unfold NumRel.make at hk
      cases hs : x.size with
      | error e => simp [hs, bind, Except.bind] at hk
      | ok n =>
        simp only [hs, bind, Except.bind] at hk
        split_ifs at hk
        simpa [pure, Except.pure] using hk.symm
    subst hq
    simp only [Except.map, (C135_integrate x t _ hpairs).2]
    cases Rel.oneIntegrate (K := K) (V := K) (NumRel.real ⟨x, .ints t (l.map fun v => v * v)⟩) with
    | error e => rfl
    | ok v => simp only [pure, Except.pure, smul_eq_mul, div_eq_inv_mul]

/-- C135: for samples -1, 0 and 1, as in the codes, differences, integrals and norm agree with exact arithmetic in every signed type -/
theorem C135_codes (rule : IntRule) (x : Axis K) (t : IntType) (l : List ℤ) (ht : smallest t < 0) (h : ∀ v ∈ l, v = -1 ∨ v = 0 ∨ v = 1) :
    (NumRel.diff ⟨x, .ints t l⟩).map NumRel.real = Rel.diff (K := K) (V := K) (NumRel.real ⟨x, .ints t l⟩) ∧
    (NumRel.integrate ⟨x, .ints t l⟩).map NumRel.real = Rel.integrate (K := K) (V := K) (NumRel.real ⟨x, .ints t l⟩) ∧
    NumRel.getNorm rule ⟨x, .ints t l⟩ = Rel.getNorm (K := K) (V := K) (NumRel.real ⟨x, .ints t l⟩) := by
  have hp : ∀ p ∈ pairsOf l, (p.1 = -1 ∨ p.1 = 0 ∨ p.1 = 1) ∧ (p.2 = -1 ∨ p.2 = 0 ∨ p.2 = 1) := by
    intro p hp
    have := List.of_mem_zip (a := p.1) (b := p.2) hp
    exact ⟨h _ this.1, h _ (List.mem_of_mem_tail this.2)⟩
  have small : ∀ v : ℤ, -2 ≤ v → v ≤ 2 → InType t v := by
    intro v h1 h2
    cases t <;> simp only [InType, smallest, largest] at ht ⊢ <;> omega
  refine ⟨(C135_diff x t l).2 fun p hp' => ?_, (C135_integrate x t l fun p hp' => ?_).1, C135_norm rule x t l (fun v hv => ?_) fun p hp' => ?_⟩
  · obtain ⟨h1, h2⟩ := hp p hp'
    exact small _ (by omega) (by omega)
  · obtain ⟨h1, h2⟩ := hp p hp'
    exact small _ (by omega) (by omega)
  · rcases h v hv with rfl | rfl | rfl <;> exact small _ (by norm_num) (by norm_num)
  · obtain ⟨h1, h2⟩ := hp p hp'
    rcases h1 with h1 | h1 | h1 <;> rcases h2 with h2 | h2 | h2 <;> rw [h1, h2] <;> exact small _ (by norm_num) (by norm_num)

/-- C135: without a sign, integrals and norm agree with exact arithmetic for samples 0 and 1; differences agree where the samples do not
decrease, and where they do the number of numbers of the type is added to the difference -/
theorem C135_unsigned (rule : IntRule) (x : Axis K) (t : IntType) (l : List ℤ) (ht : smallest t = 0) :
    ((∀ v ∈ l, v = 0 ∨ v = 1) →
      (NumRel.integrate ⟨x, .ints t l⟩).map NumRel.real = Rel.integrate (K := K) (V := K) (NumRel.real ⟨x, .ints t l⟩) ∧
      NumRel.getNorm rule ⟨x, .ints t l⟩ = Rel.getNorm (K := K) (V := K) (NumRel.real ⟨x, .ints t l⟩)) ∧
    ((∀ v ∈ l, InType t v) → ∀ q, NumRel.diff ⟨x, .ints t l⟩ = .ok q →
      ∀ i (h1 : i + 1 < l.length) (h2 : i < q.y.toFloats.length),
        (l[i] ≤ l[i + 1] → q.y.toFloats[i] = ((l[i + 1] - l[i] : ℤ) : K) / x.sample) ∧
        (l[i + 1] < l[i] → q.y.toFloats[i] = ((l[i + 1] - l[i] + (largest t + 1) : ℤ) : K) / x.sample)) := by
  constructor
  · intro h
    have hp : ∀ p ∈ pairsOf l, (p.1 = 0 ∨ p.1 = 1) ∧ (p.2 = 0 ∨ p.2 = 1) := by
      intro p hp
      have := List.of_mem_zip (a := p.1) (b := p.2) hp
      exact ⟨h _ this.1, h _ (List.mem_of_mem_tail this.2)⟩
    have small : ∀ v : ℤ, 0 ≤ v → v ≤ 2 → InType t v := by
      intro v h1 h2
      cases t <;> simp only [InType, smallest, largest] at ht ⊢ <;> omega
    refine ⟨(C135_integrate x t l fun p hp' => ?_).1, C135_norm rule x t l (fun v hv => ?_) fun p hp' => ?_⟩
    · obtain ⟨h1, h2⟩ := hp p hp'
      exact small _ (by omega) (by omega)
    · rcases h v hv with rfl | rfl <;> exact small _ (by norm_num) (by norm_num)
    · obtain ⟨h1, h2⟩ := hp p hp'
      rcases h1 with h1 | h1 <;> rcases h2 with h2 | h2 <;> rw [h1, h2] <;> exact small _ (by norm_num) (by norm_num)
  · intro hl q hq i h1 h2
    obtain ⟨v, hv, he⟩ := ((C135_diff x t l).1 q hq).2 i h1 h2
    have ha := hl _ (List.getElem_mem (show i < l.length by omega))
    have hb := hl _ (List.getElem_mem h1)
    rw [he]
    have uniq : ∀ w : ℤ, Stored t (l[i + 1] - l[i]) w → v = w := fun w hw => stored_unique hv hw
    refine ⟨fun hle => ?_, fun hlt => ?_⟩
    · rw [uniq (l[i + 1] - l[i]) ⟨⟨by rw [ht]; omega, by have := hb.2; have := ha.1; omega⟩, 0, by simp⟩]
    · rw [uniq (l[i + 1] - l[i] + (largest t + 1)) ⟨⟨by rw [ht]; have := hb.1; have := ha.2; omega, by omega⟩, 1, by rw [ht]; simp⟩]

/-! ## Laws that survive, and that every sample stays a number of its type -/

theorem wrap_wrap_add (t : IntType) (a c d : ℤ) : t.wrap (t.wrap a + c + d) = t.wrap (a + c + d) := by
  refine stored_unique (stored_congr (wrap_stored t _) ?_) (wrap_stored t _)
  obtain ⟨-, k, hk⟩ := wrap_stored t a
  exact ⟨-k, by rw [hk]; ring⟩

theorem wrap_wrap_mul (t : IntType) (a c : ℤ) : t.wrap (t.wrap a * c) = t.wrap (a * c) := by
  refine stored_unique (stored_congr (wrap_stored t _) ?_) (wrap_stored t _)
  obtain ⟨-, k, hk⟩ := wrap_stored t a
  exact ⟨-(k * c), by rw [hk]; ring⟩

/-- C135: adding a Python int and taking it away gives the samples back, however often they wrapped round; two numbers can be added one
after the other or at once, and multiplied one after the other or at once -/
theorem C135_undo (rule : IntRule) (x : Axis K) (t : IntType) (l : List ℤ) (c d : ℤ) (hx : x.size = .ok l.length)
    (hl : ∀ v ∈ l, InType t v) (hc : InType t c) (hd : InType t d) :
    (NumRel.withOther rule ⟨x, .ints t l⟩ (.int c) .add >>= fun q => NumRel.withOther rule q (.int c) .sub) =
      .ok ⟨x, .ints t l⟩ ∧
    (InType t (c + d) → (NumRel.withOther rule ⟨x, .ints t l⟩ (.int c) .add >>= fun q => NumRel.withOther rule q (.int d) .add) =
      NumRel.withOther rule ⟨x, .ints t l⟩ (.int (c + d)) .add) ∧
    (InType t (c * d) → (NumRel.withOther rule ⟨x, .ints t l⟩ (.int c) .mul >>= fun q => NumRel.withOther rule q (.int d) .mul) =
      NumRel.withOther rule ⟨x, .ints t l⟩ (.int (c * d)) .mul) := by
  have go : ∀ (op : MathOp) (e : ℤ) (m : List ℤ), (op = .add ∨ op = .sub ∨ op = .mul) → InType t e → x.size = .ok m.length →
      NumRel.withOther rule ⟨x, .ints t m⟩ (.int e) op = .ok ⟨x, .ints t (m.map fun a => t.wrap (intResult op a e))⟩ := by
    intro op e m hop he hm
    refine withOther_int hm (withInt_fits he) ?_ fun a _ => ?_
    · rcases hop with rfl | rfl | rfl <;> rfl
    · rcases hop with rfl | rfl | rfl <;> simp [StaysInt]
  refine ⟨?_, fun hcd => ?_, fun hcd => ?_⟩
  · rw [go .add c l (by simp) hc hx]
    change NumRel.withOther rule ⟨x, .ints t _⟩ (.int c) .sub = _
    rw [go .sub c _ (by simp) hc (by simpa using hx), List.map_map]
    congr 3
    conv_rhs => rw [← List.map_id l]
    refine List.map_congr_left fun a ha => ?_
    have h1 := wrap_wrap_add t (a + c) 0 (-c)
    have h2 : t.wrap a = a := (wrap_eq_iff t a).2 (hl a ha)
    simp only [Function.comp, intResult, id]
    rw [show t.wrap (a + c) - c = t.wrap (a + c) + 0 + -c by ring, h1, show a + c + 0 + -c = a by ring, h2]
  · rw [go .add c l (by simp) hc hx, go .add (c + d) l (by simp) hcd hx]
    change NumRel.withOther rule ⟨x, .ints t _⟩ (.int d) .add = _
    rw [go .add d _ (by simp) hd (by simpa using hx), List.map_map]
    congr 3
    refine List.map_congr_left fun a ha => ?_
    have h1 := wrap_wrap_add t (a + c) 0 d
    simp only [Function.comp, intResult]
    rw [show t.wrap (a + c) + d = t.wrap (a + c) + 0 + d by ring, h1]
    congr 1; ring
  · rw [go .mul c l (by simp) hc hx, go .mul (c * d) l (by simp) hcd hx]
    change NumRel.withOther rule ⟨x, .ints t _⟩ (.int d) .mul = _
    rw [go .mul d _ (by simp) hd (by simpa using hx), List.map_map]
    congr 3
    refine List.map_congr_left fun a ha => ?_
    simp only [Function.comp, intResult]
    rw [wrap_wrap_mul, mul_assoc]

/-- C135: addition and multiplication on one axis do not depend on the order, whatever wraps round -/
theorem C135_commute (rule : IntRule) (x : Axis K) (t u : IntType) (l m : List ℤ) (hx : x.size = .ok l.length)
    (hlm : l.length = m.length) (op : MathOp) (hop : op = .add ∨ op = .mul) :
    NumRel.withRel rule true ⟨x, .ints t l⟩ ⟨x, .ints u m⟩ op = NumRel.withRel rule true ⟨x, .ints u m⟩ ⟨x, .ints t l⟩ op := by
  have hd : op.divides = false := by rcases hop with rfl | rfl <;> rfl
  have hs : ∀ a b, StaysInt op a b := by intro a b; rcases hop with rfl | rfl <;> simp [StaysInt]
  have hc : t.join u = u.join t := by cases t <;> cases u <;> rfl
  cases hj : t.join u with
  | none =>
    simp only [NumRel.withRel, NumRel.equalize, if_true, bind, Except.bind, numOperation_ints, typedArrays_floats (.inr hj),
      typedArrays_floats (.inr (hc ▸ hj))]
    rw [mathOperation_arr _ _ _ (by simp [hlm]), mathOperation_arr _ _ _ (by simp [hlm]), List.zipWith_comm]
    have : (fun b a : K => op.fn a b) = op.fn := by
      funext b a
      rcases hop with rfl | rfl
      · simp only [MathOp.fn, add_comm]
      · simp only [MathOp.fn, mul_comm]
    rw [this]
  | some w =>
    rw [withRel_same hj hx hlm hd fun p _ => hs _ _, withRel_same (hc ▸ hj) (hlm ▸ hx) hlm.symm hd fun p _ => hs _ _]
    rw [List.zipWith_comm]
    congr 4
    funext b a
    rcases hop with rfl | rfl
    · simp only [intResult, add_comm]
    · simp only [intResult, mul_comm]

theorem allOr_typed {α : Type} {t : IntType} {f : α → Option ℤ} {l : List α} {out : List ℤ} (hf : ∀ a v, f a = some v → InType t v)
    (h : allOrTypeFunc (l.map f) = .ok out) : ∀ v ∈ out, InType t v := by
  have key : ∀ (l : List α) (out : List ℤ), (l.map f).mapM id = some out → ∀ v ∈ out, InType t v := by
    intro l
    induction l with
    | nil => intro out h; simp at h; subst h; simp
    | cons a l ih =>
      intro out h
      simp only [List.map_cons, List.mapM_cons, id] at h
      cases ha : f a with
      | none => simp [ha] at h
      | some w =>
        cases hl : (l.map f).mapM id with
        | none => simp [ha, hl] at h
        | some ws =>
          simp [ha, hl] at h
          subst h
          intro v hv
          rcases List.mem_cons.1 hv with rfl | hv
          · exact hf a _ ha
          · exact ih ws hl v hv
  unfold allOrTypeFunc at h
  cases hm : (l.map f).mapM id with
  | none => simp [hm] at h
  | some w =>
    simp only [hm, Except.ok.injEq] at h
    exact h ▸ key l w hm

theorem intFn_typed (t : IntType) (op : MathOp) (a b v : ℤ) (h : op.intFn t a b = some v) : InType t v := by
  cases op <;> simp only [MathOp.intFn] at h
  case pow => split_ifs at h; rw [← Option.some.inj h]; exact (wrap_stored _ _).1
  case rpow => split_ifs at h; rw [← Option.some.inj h]; exact (wrap_stored _ _).1
  case truediv => cases h
  case rtruediv => cases h
  all_goals rw [← Option.some.inj h]; exact (wrap_stored _ _).1

theorem numOperation_typed {rule : IntRule} {y z : Samples K} {o : NumOperand K} {op : MathOp} (h : numOperation rule y o op = .ok z) :
    WellTyped z := by
  have fl : ∀ {e : Except Err (List K)}, e.map Samples.floats = .ok z → WellTyped z := by
    intro e he
    cases e with
    | error e => cases he
    | ok v => simp only [Except.map, Except.ok.injEq] at he; subst he; trivial
  have it : ∀ {e : Except Err (List ℤ)} {t : IntType}, e.map (Samples.ints t) = .ok z → (∀ out, e = .ok out → ∀ v ∈ out, InType t v) →
      WellTyped z := by
    intro e t he hh
    cases e with
    | error e => cases he
    | ok v => simp only [Except.map, Except.ok.injEq] at he; subst he; exact hh v rfl
  have ar : ∀ {t : IntType} {l m out : List ℤ}, intArrays t l m op = .ok out → ∀ v ∈ out, InType t v := by
    intro t l m out ho
    unfold intArrays at ho
    split_ifs at ho
    · rw [← List.map_uncurry_zip_eq_zipWith] at ho
      exact allOr_typed (fun p v hv => intFn_typed _ op p.1 p.2 v hv) ho
    · split at ho
      · exact allOr_typed (fun a v hv => intFn_typed _ op a _ v hv) ho
      · exact allOr_typed (fun a v hv => intFn_typed _ op _ a v hv) ho
      · cases ho
  have ty : ∀ {t u : IntType} {l m : List ℤ}, typedArrays t u l m op = .ok z → WellTyped z := by
    intro t u l m he
    unfold typedArrays at he
    dsimp only at he
    split_ifs at he
    · exact fl he
    · cases hj : t.join u with
      | none => simp only [hj] at he; exact fl he
      | some w => simp only [hj] at he; exact it he fun out ho => ar ho
  have ai : ∀ {how : Combined} {l : List ℤ} {c : ℤ}, arrayInt how l c op = .ok z → WellTyped z := by
    intro how l c he
    unfold arrayInt at he
    cases how with
    | refused => cases he
    | floats => exact fl he
    | ints u =>
      dsimp only at he
      split_ifs at he
      · exact fl he
      · exact it he fun out ho => allOr_typed (fun a v hv => intFn_typed u op a c v hv) ho
  rcases y with ⟨t, l⟩ | l | l
  · rcases o with c | c | ⟨u, m⟩ | m | m
    · exact ai h
    · exact fl h
    · exact ty h
    · exact ty h
    · exact fl h
  · rcases o with c | c | ⟨u, m⟩ | m | m
    · exact ai h
    · exact fl h
    · exact ty h
    · simp only [numOperation] at h
      split_ifs at h
      · exact fl h
      · unfold boolArrays at h
        cases hr : intArrays .i8 (l.map asInt) (m.map asInt) op with
        | error e => cases op <;> simp [hr, Except.map] at h
        | ok v =>
          have := ar hr
          cases op <;> simp only [hr, Except.map, Except.ok.injEq, reduceCtorEq] at h <;> subst h <;> first | exact this | trivial
    · exact fl h
  · rcases o with c | c | ⟨u, m⟩ | m | m <;> exact fl h

omit [PyPow K] in
theorem numMake_y {x : Axis K} {y : Samples K} {q : NumRel K} (h : NumRel.make x y = .ok q) : q = ⟨x, y⟩ := by
  unfold NumRel.make at h
  cases hs : x.size with
  | error e => simp [hs, bind, Except.bind] at h
  | ok n =>
    simp only [hs, bind, Except.bind] at h
    split_ifs at h
    simpa [pure, Except.pure] using h.symm

/-- C135: the samples of every result of an operation are numbers of their type -/
theorem C135_typed (rule : IntRule) (same : Bool) (a b q : NumRel K) (o : NumOperand K) (op : MathOp)
    (h : NumRel.withRel rule same a b op = .ok q ∨ NumRel.withOther rule a o op = .ok q) : WellTyped q.y := by
  rcases h with h | h
  · unfold NumRel.withRel at h
    cases he : NumRel.equalize same a b with
    | error e => simp [he, bind, Except.bind] at h
    | ok p =>
      cases hn : numOperation rule p.1.y (.arr p.2.y) op with
      | error e => simp [he, hn, bind, Except.bind] at h
      | ok z =>
        simp only [he, hn, bind, Except.bind] at h
        rw [numMake_y h]
        exact numOperation_typed hn
  · unfold NumRel.withOther at h
    cases hn : numOperation rule a.y o op with
    | error e => simp [hn, bind, Except.bind] at h
    | ok z =>
      simp only [hn, bind, Except.bind] at h
      rw [numMake_y h]
      exact numOperation_typed hn

end

end

/-! ## Witnesses and examples -/

/-- C135: on one axis `int8` samples wrap round silently: 100 + 100 is -56 and -100 - 100 is 56. Taking the summand away again does not
give the samples back, because the sum has an axis of its own: the two are interpolated to floats first. The same sum on an equal axis that
is another object is 200. -/
theorem C135_wrap_witness :
    NumRel.withRel .widen true ⟨(⟨0, 1, 1⟩ : Axis ℚ), .ints .i8 [100, -100]⟩ ⟨⟨0, 1, 1⟩, .ints .i8 [100, 100]⟩ .add =
      .ok ⟨⟨0, 1, 1⟩, .ints .i8 [-56, 0]⟩ ∧
    NumRel.withRel .widen true ⟨(⟨0, 1, 1⟩ : Axis ℚ), .ints .i8 [-100, 1]⟩ ⟨⟨0, 1, 1⟩, .ints .i8 [100, 1]⟩ .sub =
      .ok ⟨⟨0, 1, 1⟩, .ints .i8 [56, 0]⟩ ∧
    NumRel.withRel .widen false ⟨(⟨0, 1, 1⟩ : Axis ℚ), .ints .i8 [-56, 0]⟩ ⟨⟨0, 1, 1⟩, .ints .i8 [100, 100]⟩ .sub =
      .ok ⟨⟨0, 1, 1⟩, .floats [-156, -100]⟩ ∧
    NumRel.withRel .widen false ⟨(⟨0, 1, 1⟩ : Axis ℚ), .ints .i8 [100, -100]⟩ ⟨⟨0, 1, 1⟩, .ints .i8 [100, 100]⟩ .add =
      .ok ⟨⟨0, 1, 1⟩, .floats [200, 0]⟩ := by
  decide +kernel

/-- C135: the norm of an integer relation can be negative: for the `int8` samples 8, 8, 8 it is -128, and the integral of 64, 64 is
negative although all samples are positive; the differences of -100, 100 are -56 -/
theorem C135_norm_witness :
    NumRel.getNorm .widen ⟨(⟨0, 2, 1⟩ : Axis ℚ), .ints .i8 [8, 8, 8]⟩ = .ok (-128) ∧
    Rel.getNorm (K := ℚ) (V := ℚ) ⟨⟨0, 2, 1⟩, [8, 8, 8]⟩ = .ok 128 ∧
    NumRel.oneIntegrate ⟨(⟨0, 1, 1⟩ : Axis ℚ), .ints .i8 [64, 64]⟩ = .ok (-64) ∧
    NumRel.integrate ⟨(⟨0, 2, 1⟩ : Axis ℚ), .ints .i8 [64, 64, 64]⟩ = .ok ⟨⟨1, 2, 1⟩, .floats [-64, -128]⟩ ∧
    NumRel.diff ⟨(⟨0, 2, 1⟩ : Axis ℚ), .ints .i8 [-100, 100, 100]⟩ = .ok ⟨⟨1 / 2, 3 / 2, 1⟩, .floats [-56, 0]⟩ := by
  decide +kernel

/-- C135: without a sign: 1 - 2 is 255 in `uint8`, `diff` of a falling signal jumps up, and `uint8` with `int8` gives `int16`; `uint64` with
`int8` gives floats. A negative Python int is refused by numpy 2; numpy 1 takes a signed type. -/
theorem C135_unsigned_witness :
    NumRel.withRel .widen true ⟨(⟨0, 1, 1⟩ : Axis ℚ), .ints .u8 [1, 5]⟩ ⟨⟨0, 1, 1⟩, .ints .u8 [2, 3]⟩ .sub =
      .ok ⟨⟨0, 1, 1⟩, .ints .u8 [255, 2]⟩ ∧
    NumRel.diff ⟨(⟨0, 2, 1⟩ : Axis ℚ), .ints .u8 [3, 2, 4]⟩ = .ok ⟨⟨1 / 2, 3 / 2, 1⟩, .floats [255, 2]⟩ ∧
    NumRel.withRel .widen true ⟨(⟨0, 1, 1⟩ : Axis ℚ), .ints .u8 [200, 5]⟩ ⟨⟨0, 1, 1⟩, .ints .i8 [100, -6]⟩ .add =
      .ok ⟨⟨0, 1, 1⟩, .ints .i16 [300, -1]⟩ ∧
    NumRel.withRel .widen true ⟨(⟨0, 1, 1⟩ : Axis ℚ), .ints .u64 [1, 5]⟩ ⟨⟨0, 1, 1⟩, .ints .i8 [2, -6]⟩ .add =
      .ok ⟨⟨0, 1, 1⟩, .floats [3, -1]⟩ ∧
    NumRel.withOther .refuse ⟨(⟨0, 1, 1⟩ : Axis ℚ), .ints .u8 [1, 5]⟩ (.int (-1)) .mul = .error .typeFunc ∧
    NumRel.withOther .widen ⟨(⟨0, 1, 1⟩ : Axis ℚ), .ints .u8 [1, 5]⟩ (.int (-1)) .mul = .ok ⟨⟨0, 1, 1⟩, .ints .i16 [-1, -5]⟩ ∧
    NumRel.withOther .widen ⟨(⟨0, 1, 1⟩ : Axis ℚ), .ints .u8 [1, 5]⟩ (.int 300) .add = .ok ⟨⟨0, 1, 1⟩, .ints .u16 [301, 305]⟩ ∧
    NumRel.withOther .widen ⟨(⟨0, 1, 1⟩ : Axis ℚ), .ints .u64 [1, 5]⟩ (.int (-1)) .mul = .ok ⟨⟨0, 1, 1⟩, .floats [-1, -5]⟩ := by
  decide +kernel

/-- the hypotheses of `C135_no_common_type` and of the last part of `C135_number_wide` -/
example : (¬ ∃ w, Contains w .u64 ∧ Contains w .i8) ∧ ¬ InType .u64 (-1) ∧ InType .i64 (-1) ∧ ¬ ∃ w, Contains w .u64 ∧ InType w (-1) := by
  refine ⟨?_, by simp [InType, smallest], by simp [InType, smallest, largest], ?_⟩ <;> rintro ⟨w, h1, h2⟩ <;> cases w <;>
    simp [Contains, InType, smallest, largest] at h1 h2

/-- the hypotheses of `C135_unsigned`: a signal that falls and a maximum length sequence -/
example : smallest .u8 = 0 ∧ (∀ v ∈ ([3, 2, 4] : List ℤ), InType .u8 v) ∧
    (NumRel.diff ⟨(⟨0, 2, 1⟩ : Axis ℚ), .ints .u8 [3, 2, 4]⟩).toOption.isSome ∧ ∀ v ∈ ([1, 0, 1] : List ℤ), v = 0 ∨ v = 1 := by
  refine ⟨rfl, ?_, by decide +kernel, by simp⟩
  simp [InType, smallest, largest]

/-- the hypotheses of `C135_same_axis` and `C135_exact`: small samples of two types -/
example : (⟨0, 2, 1⟩ : Axis ℚ).size = .ok [3, -4, 5].length ∧ (∀ p ∈ [3, -4, 5].zip [2, 0, 3], StaysInt .pow p.1 p.2) ∧
    Wider .i8 .i16 .i16 ∧ ∀ p ∈ [3, -4, 5].zip [2, 0, 3], InType .i16 (intResult .pow p.1 p.2) := by
  refine ⟨by decide +kernel, ?_, join_wider rfl, ?_⟩
  · simp [StaysInt]
  · simp [InType, smallest, largest, intResult]

/-- what they say: 3 ** 2, (-4) ** 0, 5 ** 3 as `int16` -/
example : NumRel.withRel .refuse true ⟨(⟨0, 2, 1⟩ : Axis ℚ), .ints .i8 [3, -4, 5]⟩ ⟨⟨0, 2, 1⟩, .ints .i16 [2, 0, 3]⟩ .pow =
    .ok ⟨⟨0, 2, 1⟩, .ints .i16 [9, 1, 125]⟩ := by decide +kernel

/-- numbers: 5 is held by `int8`, 200 is not; numpy 1 takes `int16` -/
example : InType .i8 5 ∧ ¬ InType .i8 200 ∧ InType .i64 200 ∧
    NumRel.withOther .refuse ⟨(⟨0, 1, 1⟩ : Axis ℚ), .ints .i8 [1, 2]⟩ (.int 200) .add = .error .typeFunc ∧
    NumRel.withOther .widen ⟨(⟨0, 1, 1⟩ : Axis ℚ), .ints .i8 [1, 2]⟩ (.int 200) .add = .ok ⟨⟨0, 1, 1⟩, .ints .i16 [201, 202]⟩ ∧
    NumRel.withOther .widen ⟨(⟨0, 1, 1⟩ : Axis ℚ), .ints .i8 [1, 2]⟩ (.int 5) .rsub = .ok ⟨⟨0, 1, 1⟩, .ints .i8 [4, 3]⟩ := by
  refine ⟨by simp [InType, smallest, largest], by simp [InType, largest], by simp [InType, smallest, largest], ?_, ?_, ?_⟩ <;> decide +kernel

/-- a negative power is refused although 1 and -1 have one; floats have it -/
example : NumRel.withOther .widen ⟨(⟨0, 1, 1⟩ : Axis ℚ), .ints .i64 [1, -1]⟩ (.int (-1)) .pow = .error .typeFunc ∧
    NumRel.withOther .widen ⟨(⟨0, 1, 1⟩ : Axis ℚ), .ints .i64 [1, -1]⟩ (.float (-1)) .pow = .ok ⟨⟨0, 1, 1⟩, .floats [1, -1]⟩ ∧
    NumRel.withRel .widen true ⟨(⟨0, 1, 1⟩ : Axis ℚ), .ints .i64 [1, -1]⟩ ⟨⟨0, 1, 1⟩, .ints .i64 [3, -1]⟩ .pow =
      .error .typeFunc := by decide +kernel

/-- division gives floats -/
example : NumRel.withRel .widen true ⟨(⟨0, 1, 1⟩ : Axis ℚ), .ints .i8 [1, -100]⟩ ⟨⟨0, 1, 1⟩, .ints .i8 [2, 8]⟩ .truediv =
    .ok ⟨⟨0, 1, 1⟩, .floats [1 / 2, -25 / 2]⟩ := by decide +kernel

/-- the hypotheses of `C135_diff`, `C135_integrate` and `C135_norm`, and what they say -/
example : (∀ p ∈ pairsOf [3, -4, 5], InType .i8 (p.2 - p.1)) ∧ (∀ p ∈ pairsOf [3, -4, 5], InType .i8 (p.1 + p.2)) ∧
    (∀ v ∈ [3, -4, 5], InType .i8 (v * v)) ∧ (∀ p ∈ pairsOf [3, -4, 5], InType .i8 (p.1 * p.1 + p.2 * p.2)) ∧
    NumRel.diff ⟨(⟨0, 2, 1⟩ : Axis ℚ), .ints .i8 [3, -4, 5]⟩ = .ok ⟨⟨1 / 2, 3 / 2, 1⟩, .floats [-7, 9]⟩ ∧
    NumRel.getNorm .refuse ⟨(⟨0, 2, 1⟩ : Axis ℚ), .ints .i8 [3, -4, 5]⟩ = .ok 33 := by
  refine ⟨?_, ?_, ?_, ?_, by decide +kernel, by decide +kernel⟩ <;> simp [pairsOf, InType, smallest, largest]

/-- the hypothesis of `C135_codes`: a maximum length sequence and a code with both signs -/
example : (∀ v ∈ ([1, 1, 0, 1, -1] : List ℤ), v = -1 ∨ v = 0 ∨ v = 1) ∧
    NumRel.getNorm .widen ⟨(⟨0, 4, 1⟩ : Axis ℚ), .ints .i8 [1, 1, 0, 1, -1]⟩ = .ok 3 := by
  refine ⟨by simp, by decide +kernel⟩

/-- the hypotheses of `C135_undo` and `C135_commute` with samples that wrap round on the way -/
example : (⟨0, 1, 1⟩ : Axis ℚ).size = .ok [120, -7].length ∧ (∀ v ∈ ([120, -7] : List ℤ), InType .i8 v) ∧ InType .i8 100 ∧
    NumRel.withOther .widen ⟨(⟨0, 1, 1⟩ : Axis ℚ), .ints .i8 [120, -7]⟩ (.int 100) .add = .ok ⟨⟨0, 1, 1⟩, .ints .i8 [-36, 93]⟩ ∧
    NumRel.withOther .widen ⟨(⟨0, 1, 1⟩ : Axis ℚ), .ints .i8 [-36, 93]⟩ (.int 100) .sub = .ok ⟨⟨0, 1, 1⟩, .ints .i8 [120, -7]⟩ := by
  refine ⟨by decide +kernel, ?_, ?_, by decide +kernel, by decide +kernel⟩ <;> simp [InType, smallest, largest]

end SweepDesign
