import Verif.Model.Exc
import Verif.Lemmas.Relation
import Mathlib.Data.Rat.Floor

/-!
# C164: the texts of the exceptions
-/

set_option linter.unusedSectionVars false

namespace SweepDesign
open Exc

theorem make_notEqual (a b : Arg) (l : List Arg) : make .notEqual (a :: b :: l) =
    .ok ⟨.notEqual, [.text ("Different size x_array(".toList ++ a.str ++ ") and y_array(".toList ++ b.str ++ ")".toList)]⟩ := rfl

/-- the part before the first mark is determined -/
theorem before_mark {c : Char} {a a' b b' : List Char} (ha : c ∉ a) (ha' : c ∉ a') (h : a ++ c :: b = a' ++ c :: b') : a = a' ∧ b = b' := by
  induction a generalizing a' with
  | nil =>
    cases a' with
    | nil => simpa using h
    | cons x a' =>
      simp only [List.nil_append, List.cons_append, List.cons.injEq] at h
      exact absurd (by rw [h.1]; exact List.mem_cons_self) ha'
  | cons x a ih =>
    cases a' with
    | nil =>
      simp only [List.nil_append, List.cons_append, List.cons.injEq] at h
      exact absurd (by rw [← h.1]; exact List.mem_cons_self) ha
    | cons y a' =>
      simp only [List.cons_append, List.cons.injEq] at h
      obtain ⟨e1, e2⟩ := ih (fun g => ha (List.mem_cons_of_mem _ g)) (fun g => ha' (List.mem_cons_of_mem _ g)) h.2
      exact ⟨by rw [h.1, e1], e2⟩

theorem digits_no_paren (n : ℕ) : ')' ∉ Nat.toDigits 10 n := by
  intro h
  have := Nat.isDigit_of_mem_toDigits (by norm_num) (by norm_num) h
  revert this
  decide

theorem digits_injective {n m : ℕ} (h : Nat.toDigits 10 n = Nat.toDigits 10 m) : n = m := by
  rw [← Nat.ofDigitChars_ten_toDigits (n := n), h, Nat.ofDigitChars_ten_toDigits]

/-- **C164.** Samples whose number does not fit the axis: the text names both sizes, and no other pair of sizes has this text. -/
theorem C164_sizes {K V : Type} [Field K] [LinearOrder K] [FloorRing K] (x : Axis K) (y : List V) (n m : ℕ) (hx : x.size = .ok n)
    (hy : y.length = m) (hne : n ≠ m) :
    Rel.make x y = .error (.notEqual n m) ∧
    ∃ e, sizesDiffer n m = .ok e ∧
      e.str = some ("Different size x_array(".toList ++ (toString n).toList ++ ") and y_array(".toList ++ (toString m).toList ++ ")".toList) ∧
      ∀ n' m' e', sizesDiffer n' m' = .ok e' → e'.str = e.str → n' = n ∧ m' = m := by
  refine ⟨?_, _, rfl, ?_, ?_⟩
  · simp [Rel.make, hx, hy, hne]
  · simp only [Exn.str, Arg.str, Nat.toString_eq_ofList_toDigits, String.toList_ofList]
  · intro n' m' e' h' hs
    rw [sizesDiffer, make_notEqual, Except.ok.injEq] at h'
    subst h'
    simp only [Exn.str, Arg.str, Option.some.injEq, List.append_assoc] at hs
    have hs := List.append_cancel_left hs
    obtain ⟨h1, h2⟩ := before_mark (c := ')') (digits_no_paren n') (digits_no_paren n) hs
    have h2 := List.append_cancel_left (as := " and y_array(".toList) h2
    exact ⟨digits_injective h1, digits_injective (before_mark (c := ')') (digits_no_paren m') (digits_no_paren m) h2).1⟩

/-- **C164.** The text of a failed conversion contains both types. -/
theorem C164_conversion (t target : List Char) : ∃ e, notConverted t target = .ok e ∧
    e.str = some ("Can not convert type ".toList ++ t ++ " into type ".toList ++ target ++ ".".toList) :=
  ⟨_, rfl, rfl⟩

/-- **C164.** The text of a failed operation contains the name of the operation without underscores but neither type: it ends before them,
whatever the operands are. Different operations have different texts. -/
theorem C164_operation (op : MathOp) (t1 t2 : List Char) : ∃ e, operationFailed op t1 t2 = .ok e ∧
    e.str = some ("operation \"".toList ++ (match op with
      | .add => "add" | .radd => "radd" | .sub => "sub" | .rsub => "rsub" | .mul => "mul" | .rmul => "rmul" | .truediv => "truediv"
      | .rtruediv => "rtruediv" | .pow => "pow" | .rpow => "rpow").toList ++ "\" did not complete with type".toList) ∧
    (∀ t1' t2', operationFailed op t1' t2' = .ok e) ∧
    ∀ op' t1' t2' e', operationFailed op' t1' t2' = .ok e' → e'.str = e.str → op' = op := by
  refine ⟨_, rfl, ?_, fun _ _ => rfl, ?_⟩
  · cases op <;> rfl
  · intro op' t1' t2' e' h hs
    have : operationFailed op' t1' t2' = operationFailed op' [] [] := rfl
    rw [this] at h
    obtain rfl := Except.ok.inj h
    revert hs
    cases op <;> cases op' <;> decide

/-- **C164.** Copying or unpickling. The exceptions about sizes and conversions cannot be copied, the copy of one about an operation has its text
inside the text once more, only the fourth kind is copied faithfully. -/
theorem C164_copies :
    (∀ n m e, sizesDiffer n m = .ok e → e.copy = .error .index) ∧
    (∀ t target e, notConverted t target = .ok e → e.copy = .error .index) ∧
    (∀ op t1 t2 e, operationFailed op t1 t2 = .ok e → ∃ s e', e.str = some s ∧ e.copy = .ok e' ∧
      e'.str = some ("operation \"".toList ++ s ++ "\" did not complete with type".toList) ∧ e'.str ≠ e.str) ∧
    ∀ s e, notEnough s = .ok e → e.str = some s ∧ e.copy = .ok e := by
  refine ⟨?_, ?_, ?_, ?_⟩
  · intro n m e h
    obtain rfl := Except.ok.inj h
    rfl
  · intro t u e h
    obtain rfl := Except.ok.inj h
    rfl
  · intro op t1 t2 e h
    obtain rfl := Except.ok.inj h
    refine ⟨_, _, rfl, rfl, rfl, ?_⟩
    intro h
    have := congrArg (Option.map List.length) h
    simp [Exn.str, Arg.str] at this
  · intro s e h
    obtain rfl := Except.ok.inj h
    exact ⟨rfl, rfl⟩

example : ∃ e, sizesDiffer 3 12 = .ok e ∧ e.str = some "Different size x_array(3) and y_array(12)".toList := ⟨_, rfl, by decide⟩

example : ∃ e e', operationFailed .truediv "<class 'numpy.ndarray'>".toList "<class 'str'>".toList = .ok e ∧
    e.str = some "operation \"truediv\" did not complete with type".toList ∧ e.copy = .ok e' ∧
    e'.str = some "operation \"operation \"truediv\" did not complete with type\" did not complete with type".toList :=
  ⟨_, _, rfl, by decide, rfl, by decide⟩

example : (Rel.make (⟨0, 2, 1⟩ : Axis ℚ) [1, 2] : Except Err (Rel ℚ ℤ)) = .error (.notEqual 3 2) :=
  (C164_sizes (⟨0, 2, 1⟩ : Axis ℚ) [1, 2] 3 2 (by decide +kernel) rfl (by norm_num)).1

end SweepDesign
