import Verif.Model.Spectral
import Verif.Lemmas.Relation

/-!
# Real relations seen as complex ones

Arithmetic on real arrays and on the same arrays as complex numbers gives the same values.
-/

set_option linter.unusedSectionVars false

namespace SweepDesign

/-- the entries as complex numbers -/
noncomputable abbrev castC (l : List ℝ) : List ℂ := l.map fun v : ℝ => (v : ℂ)

theorem castC_re (l : List ℝ) : (castC l).map Complex.re = l := by simp [Function.comp_def]

theorem at0_castC (l : List ℝ) (i : ℕ) : at0 (castC l) i = ((at0 l i : ℝ) : ℂ) := by
  unfold at0
  rw [List.getD_eq_getElem?_getD, List.getD_eq_getElem?_getD, List.getElem?_map]
  rcases l[i]? with _ | v <;> simp

theorem maskSelect_map {α β : Type} (f : α → β) (m : List Bool) (l : List α) :
    maskSelect m (l.map f) = (maskSelect m l).map (List.map f) := by
  unfold maskSelect
  rw [List.length_map]
  split
  · simp only [Except.map, Except.ok.injEq]
    clear * -
    induction l generalizing m with
    | nil => simp
    | cons a l ih =>
      rcases m with _ | ⟨b, m⟩
      · simp
      · rcases b <;> simp [ih]
  · rfl

theorem make_map {K α β : Type} [Field K] [LinearOrder K] [IsStrictOrderedRing K] [FloorRing K] (x : Axis K) (f : α → β)
    (l : List α) : Rel.make x (l.map f) = (Rel.make x l).map fun r => ⟨r.x, r.y.map f⟩ := by
  unfold Rel.make
  rcases x.size with e | n
  · rfl
  · simp only [except_bind_ok, List.length_map]
    split <;> rfl

theorem make_castC (x : Axis ℝ) (l : List ℝ) : Rel.make x (castC l) = (Rel.make x l).map Rel.toComplex := make_map x _ l

theorem selectData_map {K α β : Type} [Field K] [LinearOrder K] [IsStrictOrderedRing K] [FloorRing K] (r : Rel K α) (f : α → β)
    (s e : Option K) :
    Rel.selectData ⟨r.x, r.y.map f⟩ s e = (r.selectData s e).map fun r => ⟨r.x, r.y.map f⟩ := by
  unfold Rel.selectData
  rcases r.x.array with er | x
  · rfl
  simp only [except_bind_ok]
  generalize (x.map fun t => decide (s.getD r.x.start ≤ t) && decide (t ≤ e.getD r.x.stop)) = m
  rcases maskSelect m x with er | sx
  · rfl
  simp only [except_bind_ok]
  rcases sx.head? with _ | a
  · rfl
  rcases sx.getLast? with _ | b
  · rfl
  simp only [maskSelect_map]
  rcases maskSelect m r.y with er | y
  · rfl
  exact make_map _ _ _

theorem selectData_toComplex (r : Rel ℝ ℝ) (s e : Option ℝ) :
    r.toComplex.selectData s e = (r.selectData s e).map Rel.toComplex := selectData_map r _ s e

theorem interpAt_castC (x : List ℝ) (y : List ℝ) (t : ℝ) : interpAt x (castC y) t = ((interpAt x y t : ℝ) : ℂ) := by
  unfold interpAt
  rcases x.head? with _ | a
  · simp
  · rcases x.getLast? with _ | b
    · simp
    · simp only [at0_castC]
      split_ifs <;> simp

theorem zip_castC (x y : List ℝ) : x.zip (castC y) = (x.zip y).map (Prod.map id fun v : ℝ => (v : ℂ)) := by
  induction x generalizing y with
  | nil => simp
  | cons a x ih => rcases y with _ | ⟨b, y⟩ <;> simp [ih]

theorem interp1d_castC (x y xs : List ℝ) : interp1d x (castC y) xs = (interp1d x y xs).map castC := by
  unfold interp1d
  rw [List.length_map]
  split
  · rfl
  · split
    · rfl
    · simp only [Except.map, Except.ok.injEq, zip_castC]
      rw [← List.map_insertionSort (r := fun p q : ℝ × ℝ => p.1 ≤ q.1) (fun p q : ℝ × ℂ => p.1 ≤ q.1) _ _
        (fun a _ b _ => by simp)]
      generalize List.insertionSort (fun p q : ℝ × ℝ => p.1 ≤ q.1) (x.zip y) = S
      have e1 : (S.map (Prod.map id fun v : ℝ => (v : ℂ))).map Prod.fst = S.map Prod.fst := by simp [Function.comp_def]
      have e2 : (S.map (Prod.map id fun v : ℝ => (v : ℂ))).map Prod.snd = castC (S.map Prod.snd) := by simp [Function.comp_def]
      rw [e1, e2]
      show _ = (xs.map _).map _
      rw [List.map_map]
      exact List.map_congr_left fun t _ => interpAt_castC _ _ t

theorem interpAxis_toComplex (r : Rel ℝ ℝ) (a : Axis ℝ) : r.toComplex.interpAxis a = (r.interpAxis a).map Rel.toComplex := by
  unfold Rel.interpAxis Rel.toComplex
  rcases r.x.array with e | x
  · rfl
  · rcases a.array with e | xs
    · rfl
    · simp only [except_bind_ok, interp1d_castC]
      rcases interp1d x r.y xs with e | y
      · rfl
      · exact make_castC a y

theorem equalize_toComplex (same : Bool) (r q : Rel ℝ ℝ) : Rel.equalize same r.toComplex q.toComplex =
    (Rel.equalize same r q).map fun p => (p.1.toComplex, p.2.toComplex) := by
  unfold Rel.equalize
  rcases same
  · simp only [Bool.false_eq_true, if_false]
    rw [interpAxis_toComplex, interpAxis_toComplex]
    show ((r.interpAxis (commonX r.x q.x)).map Rel.toComplex >>= _) = _
    rcases r.interpAxis (commonX r.x q.x) with e | u
    · rfl
    · show ((q.interpAxis (commonX r.x q.x)).map Rel.toComplex >>= _) = _
      rcases q.interpAxis (commonX r.x q.x) with e | w <;> rfl
  · rfl

/-- every operator but the powers -/
def MathOp.isPow : MathOp → Bool
  | .pow | .rpow => true
  | _ => false

theorem fn_ofReal (op : MathOp) (hp : op.isPow = false) (a b : ℝ) :
    op.fn (a : ℂ) (b : ℂ) = (op.fn a b).map fun v : ℝ => (v : ℂ) := by
  cases op <;> simp [MathOp.isPow] at hp <;> simp only [MathOp.fn, Option.map_some, Complex.ofReal_add, Complex.ofReal_sub,
    Complex.ofReal_mul, Complex.ofReal_eq_zero]
  · split <;> simp
  · split <;> simp

theorem finite_castC (l : List (Option ℝ)) :
    finite (l.map fun o => o.map fun v : ℝ => (v : ℂ)) = (finite l).map castC := by
  have key : ((l.map fun o => o.map fun v : ℝ => (v : ℂ)).mapM id : Option (List ℂ)) = (l.mapM id : Option (List ℝ)).map castC := by
    induction l with
    | nil => rfl
    | cons a l ih =>
      rcases a with _ | a
      · rfl
      · simp only [List.map_cons, List.mapM_cons, ih, id, Option.map_some]
        rcases (l.mapM id : Option (List ℝ)) with _ | w <;> rfl
  unfold finite
  rw [key]
  rcases (l.mapM id : Option (List ℝ)) with _ | w <;> rfl

/-- the operand as complex numbers -/
noncomputable def NpOperand.toC : NpOperand ℝ → NpOperand ℂ
  | .num c => .num (c : ℂ)
  | .arr l => .arr (castC l)
  | .bad => .bad

theorem mathOperation_castC (y : List ℝ) (o : NpOperand ℝ) (op : MathOp) (hp : op.isPow = false) :
    mathOperation (castC y) o.toC op = (mathOperation y o op).map castC := by
  have hm : ∀ (l : List ℝ) (f : ℝ → Option ℝ) (g : ℂ → Option ℂ), (∀ a : ℝ, g (a : ℂ) = (f a).map fun v : ℝ => (v : ℂ)) →
      finite ((castC l).map g) = (finite (l.map f)).map castC := by
    intro l f g hg
    rw [← finite_castC, List.map_map, List.map_map]
    congr 1
    exact List.map_congr_left fun a _ => hg a
  rcases o with c | l | _
  · exact hm y _ _ fun a => fn_ofReal op hp a c
  · unfold mathOperation NpOperand.toC
    simp only [List.length_map]
    split
    · rw [← finite_castC, List.zipWith_map, List.map_zipWith]
      congr 1
      exact congrArg₂ _ rfl rfl |>.trans (by
        congr 1
        funext a b
        exact fn_ofReal op hp a b)
    · rename_i hne
      rcases l with _ | ⟨c, _ | ⟨d, l⟩⟩
      · rcases y with _ | ⟨a, _ | ⟨b, y⟩⟩
        · exact absurd rfl hne
        · exact hm [] _ _ fun b => fn_ofReal op hp a b
        · rfl
      · rcases y with _ | ⟨a, _ | ⟨b, y⟩⟩
        · rfl
        · exact absurd rfl hne
        · exact hm (a :: b :: y) _ _ fun a => fn_ofReal op hp a c
      · rcases y with _ | ⟨a, _ | ⟨b, y⟩⟩
        · rfl
        · exact hm (c :: d :: l) _ _ fun b => fn_ofReal op hp a b
        · rfl
  · rfl

/-- the operand as complex numbers -/
noncomputable def Operand.toC : Operand ℝ ℝ → Operand ℝ ℂ
  | .rel s r => .rel s r.toComplex
  | .other o => .other o.toC

theorem operation_toComplex (r : Rel ℝ ℝ) (b : Operand ℝ ℝ) (op : MathOp) (hp : op.isPow = false) :
    r.toComplex.operation b.toC op = (r.operation b op).map Rel.toComplex := by
  rcases b with ⟨s, q⟩ | o
  · unfold Rel.operation Operand.toC
    simp only [equalize_toComplex]
    rcases Rel.equalize s r q with e | ⟨u, w⟩
    · rfl
    · show (mathOperation (castC u.y) (NpOperand.arr w.y).toC op >>= _) = Except.map _ (mathOperation u.y (.arr w.y) op >>= _)
      rw [mathOperation_castC _ _ _ hp]
      rcases mathOperation u.y (.arr w.y) op with e | y
      · rfl
      · exact make_castC _ y
  · unfold Rel.operation Operand.toC
    show (mathOperation (castC r.y) o.toC op >>= _) = Except.map _ (mathOperation r.y o op >>= _)
    rw [mathOperation_castC _ _ _ hp]
    rcases mathOperation r.y o op with e | y
    · rfl
    · exact make_castC _ y

theorem npConvolve_castC (a b : List ℝ) : npConvolve (castC a) (castC b) = castC (npConvolve a b) := by
  unfold npConvolve castC
  rw [List.length_map, List.length_map, List.map_map]
  refine List.map_congr_left fun k _ => ?_
  rw [Function.comp, ← Complex.ofRealHom_eq_coe, map_list_sum, List.map_map]
  congr 1
  refine List.map_congr_left fun i _ => ?_
  rw [Function.comp, at0_castC, at0_castC, Complex.ofRealHom_eq_coe, Complex.ofReal_mul]

theorem npCorrelate_castC (a b : List ℝ) : npCorrelate (castC a) (castC b) = castC (npCorrelate a b) := by
  unfold npCorrelate
  rw [← npConvolve_castC]
  congr 1
  simp [List.map_reverse, Function.comp_def]

end SweepDesign
