import Verif.Heap.Vocabulary
import Verif.Heap.Only
import Verif.Props.HeapCache
import Verif.Heap.Exact

/-!
# C85: the objects a call may touch
-/

set_option linter.unusedSectionVars false

namespace SweepDesign.Mem

open HM Spec

variable {K V : Type} {P : Prims K V} {M : Methods K V} {C : ConvMethods K V} {α β : Type}

/-! ## Specification -/

/-- an object of class `Signal` or `Sweep` -/
def _root_.SweepDesign.Spec.SignalAt (h : Heap K V) (l : Loc) : Prop := ∃ o, h.rels[l]? = some o ∧ SignalClass o.cls

/-- an object of class `Spectrum` -/
def _root_.SweepDesign.Spec.SpectrumAt (h : Heap K V) (l : Loc) : Prop := ∃ o, h.rels[l]? = some o ∧ o.cls = .spectrum

/-- the object `l` is among the two operands -/
def _root_.SweepDesign.Spec.IsArg (a b : PyOperand V) (l : Loc) : Prop := a = .obj l ∨ b = .obj l

/-- The existing relation objects a call may touch, namely those whose counterpart it asks for. -/
def _root_.SweepDesign.Spec.mayFill (h : Heap K V) : Call K V → Set Loc
  | .getSpectrum r _ _ | .getSignal r _ _ | .sgAmp r _ _ | .sgPhase r _ _ | .reverseSignal r _ _ _ _ => {r}
  | .shift r _ => {l | l = r ∧ SignalAt h l}
  | .operator r b op => {l | b = .obj l ∧ Spec.Forward op ∧
      (SignalAt h r ∧ SpectrumAt h l ∨ SpectrumAt h r ∧ SignalAt h l)}
  | .spAddPhase _ b _ => {l | b = .obj l ∧ SignalAt h l}
  | .sgAddPhase r b _ => {l | l = r ∨ b = .obj l ∧ SignalAt h l}
  | .convolve _ a b | .correlate _ a b => {l | IsArg a b l ∧ (SignalAt h l ∨ SpectrumAt h l) ∨
      SignalAt h l ∧ ∃ k, IsArg a b k ∧ counterpartAt h k = some l}
  | _ => ∅

/-- the operands of a convolution exist -/
def _root_.SweepDesign.Spec.ArgsExist (h : Heap K V) : Call K V → Prop
  | .convolve _ a b | .correlate _ a b => ∀ l, IsArg a b l → l < h.rels.length
  | _ => True

/-! ## Machinery -/

/-- an object `l` which is `o` stays as it is -/
def Stays (l : Loc) (o : RelObj) (m : HM K V α) : Prop := ∀ h, h.rels[l]? = some o → (m h).2.rels[l]? = some o

theorem Only.stays {S : Set Loc} {m : HM K V α} (hm : Only S m) {l : Loc} (hl : l ∉ S) (o : RelObj) : Stays l o m :=
  fun h ho => hm h l o ho hl

theorem Stays.bind {l : Loc} {o : RelObj} {m : HM K V α} {f : α → HM K V β} (hm : Stays l o m) (hf : ∀ a, Stays l o (f a)) :
    Stays l o (m >>= f) := by
  intro h ho
  have k := hm h ho
  rcases hr : m h with ⟨e | a, h1⟩
  · rw [bind_of_error hr]; rw [hr] at k; exact k
  · rw [bind_of_ok hr]; rw [hr] at k; exact hf a h1 k

/-- reading an object that stays -/
theorem Stays.read {l r : Loc} {o : RelObj} {f : RelObj → HM K V β} (hf : ∀ q, (r = l → q = o) → Stays l o (f q)) :
    Stays l o (Mem.getRel r >>= f) := by
  intro h ho
  rcases hr : h.rels[r]? with _ | q
  · rw [bind_of_error (getRel_none hr)]; exact ho
  · rw [bind_of_ok (getRel_run hr)]
    refine hf q (fun e => ?_) h ho
    rw [e, ho] at hr
    exact (Option.some.inj hr).symm

theorem notMem_objects {b : PyOperand V} {l : Loc} (h : b ≠ .obj l) : l ∉ b.objects := by
  cases b with
  | obj k => rintro rfl; exact h rfl
  | number => exact Set.notMem_empty _
  | other => exact Set.notMem_empty _

/-- The convolution methods touch at most signals among the relations they are given. -/
structure OnlySignals (C : ConvMethods K V) : Prop where
  convolve : ∀ g c r1 r2 l o, (o.cls.isSignal = true → l ≠ r1 ∧ l ≠ r2) → Stays l o (C.convolveCall g c r1 r2)
  correlate : ∀ g c r1 r2 l o, (o.cls.isSignal = true → l ≠ r1 ∧ l ≠ r2) → Stays l o (C.correlateCall g c r1 r2)

section
variable (hM : GoodMethods P M) (hK : OnlyMethods M)
include hM hK

theorem stays_input2spectrum {l : Loc} {o : RelObj} (b : PyOperand V) (hb : b = .obj l → o.cls.isSignal = false) :
    Stays l o (input2spectrum P M b) := by
  by_cases e : b = .obj l
  · replace hb := hb e
    subst e
    unfold input2spectrum
    refine Stays.read fun q hq => ?_
    rw [hq rfl, hb]
    simp only [Bool.false_eq_true, if_false]
    split
    · exact (only_pure _).stays (Set.notMem_empty _) _
    · exact (only_construct hM hK _ _ _ _).stays (Set.notMem_empty _) _
  · exact (only_input2spectrum hM hK b subset_rfl).stays (notMem_objects e) _

theorem stays_inp2signal {l : Loc} {o : RelObj} (b : PyOperand V) (hb : b = .obj l → o.cls ≠ .spectrum) :
    Stays l o (inp2signal P M b) := by
  by_cases e : b = .obj l
  · replace hb := hb e
    subst e
    unfold inp2signal
    refine Stays.read fun q hq => ?_
    rw [hq rfl, if_neg hb]
    split
    · exact (only_pure _).stays (Set.notMem_empty _) _
    · exact (only_construct hM hK _ _ _ _).stays (Set.notMem_empty _) _
  · exact (only_inp2signal hM hK b subset_rfl).stays (notMem_objects e) _

theorem stays_convertOperand {l : Loc} {o : RelObj} (c : Cls) (b : PyOperand V) (op : MathOp)
    (h1 : b = .obj l → MathOp.isForward op = true → c.isSignal = true → o.cls ≠ .spectrum)
    (h2 : b = .obj l → MathOp.isForward op = true → c = .spectrum → o.cls.isSignal = false) :
    Stays l o (convertOperand P M c b op) := by
  by_cases e : b = .obj l
  · replace h1 := h1 e
    replace h2 := h2 e
    subst e
    unfold convertOperand
    split
    · rename_i hf
      split
      · rename_i hs
        unfold inp2signalOperation
        refine Stays.read fun q hq => ?_
        rw [hq rfl, if_neg (h1 hf hs)]
        exact (only_pure _).stays (Set.notMem_empty _) _
      · split
        · rename_i hs
          unfold input2spectrumOperation
          refine Stays.read fun q hq => ?_
          rw [hq rfl, h2 hf hs]
          exact (only_pure _).stays (Set.notMem_empty _) _
        · exact (only_pure _).stays (Set.notMem_empty _) _
    · exact (only_pure _).stays (Set.notMem_empty _) _
  · exact (only_convertOperand hM hK c b op subset_rfl).stays (notMem_objects e) _

theorem stays_spAddPhase {l : Loc} {o : RelObj} (s : Loc) (b : PyOperand V) (op : MathOp)
    (hb : b = .obj l → o.cls.isSignal = false) : Stays l o (spAddPhase P M s b op) := by
  unfold spAddPhase
  refine (stays_input2spectrum hM hK b hb).bind fun so => Only.stays (S := ∅) ?_ (Set.notMem_empty _) _
  refine (only_getAmp hM hK _).bind fun amp => (only_getPhase hM hK _).bind fun p1 => ?_
  refine (only_getPhase hM hK _).bindR (ownM_getPhase hM _).freshR fun p2 => ?_
  exact (only_operator hM hK _ _ _ (objects_insert _)).bind fun _ => only_fromAmpPhase hM hK _ _

theorem stays_sgAddPhase {l : Loc} {o : RelObj} {s : Loc} (hs : l ≠ s) (b : PyOperand V) (op : MathOp)
    (hb : b = .obj l → o.cls.isSignal = false) : Stays l o (sgAddPhase P M s b op) := by
  unfold sgAddPhase
  refine Stays.read fun q _ => ((only_getSpectrum hM hK (Set.mem_singleton s) _ _).stays (S := {s}) hs _).bind fun sp => ?_
  intro h ho
  have k := stays_spAddPhase hM hK sp b op hb h ho
  rcases hk : spAddPhase P M sp b op h with ⟨e | a, h1⟩
  · rw [bind_of_error hk]; rw [hk] at k; exact k
  · rw [bind_of_ok hk]; rw [hk] at k
    have hf := (ownM_spAddPhase hM sp b op).freshR h a h1 hk
    refine ((only_getSignal hM hK (Set.mem_singleton a) _ _).bind (S := {a}) fun _ => only_construct hM hK _ _ _ _) h1 l o k ?_
    rintro rfl
    exact absurd (List.getElem?_eq_some_iff.1 ho).1 (Nat.not_lt.2 hf)

theorem stays_shift {l : Loc} {o : RelObj} (r : Loc) (d : K) (hl : l = r → o.cls.isSignal = false) :
    Stays l o (shift P M r d) := by
  unfold shift
  refine Stays.read fun q hq => ?_
  by_cases e : l = r
  · rw [hq e.symm, hl e]
    exact (only_relShift hM hK _ _).stays (Set.notMem_empty _) _
  · split
    · exact (only_sgShift hM hK (Set.mem_singleton r) d).stays (S := {r}) e _
    · exact (only_relShift hM hK _ _).stays (Set.notMem_empty _) _

theorem stays_defConv {l : Loc} {o : RelObj} (np : List V → List V → List V) (r1 r2 : Loc)
    (hl : o.cls.isSignal = true → l ≠ r1 ∧ l ≠ r2) : Stays l o (defConv P M np r1 r2) := by
  have h1 : l = r1 → o.cls.isSignal = false := fun e => by
    by_contra hc
    exact (hl (by simpa using hc)).1 e
  have h2 : l = r2 → o.cls.isSignal = false := fun e => by
    by_contra hc
    exact (hl (by simpa using hc)).2 e
  unfold defConv
  refine Stays.read fun _ _ => ((only_getAxis _).stays (Set.notMem_empty _) _).bind fun _ =>
    (stays_shift hM hK r1 _ h1).bind fun _ => Stays.read fun _ _ => ((only_getAxis _).stays (Set.notMem_empty _) _).bind fun _ =>
    (stays_shift hM hK r2 _ h2).bind fun _ => Only.stays (S := ∅) ?_ (Set.notMem_empty _) _
  exact
    (only_relEqualize hM hK _ _).bind fun _ => (only_getRel _).bind fun _ => (only_getAxis _).bind fun _ =>
    (only_axisNew _ _ _).bind fun _ => (only_getY _).bind fun _ => (only_getRel _).bind fun _ => (only_getY _).bind fun _ =>
    (only_newY _).bind fun _ => only_pure _

/-- what a conversion returns: the operand, its counterpart, or a new object; and what it does to counterparts -/
theorem refill_counterparts {s : Loc} {m : HM K V (Loc × Loc)} (hm : Only ∅ m) (c : Cls) {h : Heap K V}
    {f : Loc × Loc → HM K V Loc} (hf : f = fun p => do
      let sp ← construct P M c (.axis p.1) (.arr p.2) (some s)
      let o ← getRel s
      putRel s { o with counterpart := some sp }
      pure sp) (hw : Safe P ∅ m) {k : Loc} {h' : Heap K V} (hr : (m >>= f) h = (.ok k, h')) :
    h.rels.length ≤ k ∧ ∀ i j, i < h.rels.length → counterpartAt h' i = some j →
      counterpartAt h i = some j ∨ h.rels.length ≤ j := by
  rw [bind_ok] at hr
  obtain ⟨p, h1, e1, hr⟩ := hr
  subst hf
  simp only [] at hr
  rw [bind_ok] at hr
  obtain ⟨sp, h2, e2, hr⟩ := hr
  rw [bind_ok] at hr
  obtain ⟨q, h3, e3, hr⟩ := hr
  obtain ⟨hq, rfl⟩ := getRel_ok.1 e3
  rw [bind_ok] at hr
  obtain ⟨u, h4, e4, hr⟩ := hr
  simp only [putRel, Prod.mk.injEq] at e4
  obtain ⟨-, rfl⟩ := e4
  simp only [pure_run, Prod.mk.injEq, Except.ok.injEq] at hr
  obtain ⟨rfl, rfl⟩ := hr
  have w1 := (hw h).1
  rw [e1] at w1
  have hn : h.rels.length ≤ sp := w1.rels_len.trans (fresh_construct hM c _ _ _ h1 sp h3 e2)
  refine ⟨hn, fun i j hi hj => ?_⟩
  obtain ⟨o, ho⟩ : ∃ o, h.rels[i]? = some o := ⟨_, List.getElem?_eq_getElem hi⟩
  have k1 : h1.rels[i]? = some o := by
    have := hm h i o ho (Set.notMem_empty _)
    rwa [e1] at this
  have k2 : h3.rels[i]? = some o := by
    have := only_construct (S := ∅) hM hK c (.axis p.1) (.arr p.2) (some s) h1 i o k1 (Set.notMem_empty _)
    rwa [e2] at this
  by_cases his : s = i
  · subst his
    right
    have hlt : s < h3.rels.length := (List.getElem?_eq_some_iff.1 k2).1
    simp only [counterpartAt, List.getElem?_set_self hlt, Option.bind_some, Option.some.injEq] at hj
    exact hj ▸ hn
  · left
    simp only [counterpartAt, List.getElem?_set_ne his, k2, Option.bind_some] at hj
    simp only [counterpartAt, ho, Option.bind_some]
    exact hj

/-- nothing happens to the counterparts of existing objects but that a new object is entered -/
def NewCounterparts (h h' : Heap K V) : Prop :=
  ∀ i j, i < h.rels.length → counterpartAt h' i = some j → counterpartAt h i = some j ∨ h.rels.length ≤ j

theorem newCounterparts_of_only {m : HM K V α} (hm : Only ∅ m) {h h' : Heap K V} {a : Except Err α} (hr : m h = (a, h')) :
    NewCounterparts h h' := by
  intro i j hi hj
  left
  have ho : h.rels[i]? = some h.rels[i] := List.getElem?_eq_getElem hi
  have := hm h i _ ho (Set.notMem_empty _)
  rw [hr] at this
  simp only [counterpartAt, this, Option.bind_some] at hj
  simp only [counterpartAt, ho, Option.bind_some]
  exact hj

theorem getSpectrum_result {s : Loc} {h h' : Heap K V} {k : Loc} (hr : getSpectrum P M s .none false h = (.ok k, h')) :
    (counterpartAt h s = some k ∨ h.rels.length ≤ k) ∧ NewCounterparts h h' := by
  unfold getSpectrum at hr
  rw [bind_ok] at hr
  obtain ⟨o, h1, e1, hr⟩ := hr
  obtain ⟨ho, rfl⟩ := getRel_ok.1 e1
  rcases hc : o.counterpart with _ | c
  · rw [hc] at hr
    have := refill_counterparts hM hK (hK.signal2spectrum _ _ _ _) .spectrum rfl (hM.signal2spectrum _ _ _ _) hr
    exact ⟨.inr this.1, this.2⟩
  · rw [hc] at hr
    simp only [HSize.truthy, pure_run, Prod.mk.injEq, Except.ok.injEq] at hr
    obtain ⟨rfl, rfl⟩ := hr
    exact ⟨.inl (by simp [counterpartAt, ho, hc]), fun _ _ _ h => .inl h⟩

theorem getSignal_result {s : Loc} {h h' : Heap K V} {k : Loc} (hr : getSignal P M s .none none h = (.ok k, h')) :
    (counterpartAt h s = some k ∨ h.rels.length ≤ k) ∧ NewCounterparts h h' := by
  unfold getSignal at hr
  rw [bind_ok] at hr
  obtain ⟨o, h1, e1, hr⟩ := hr
  obtain ⟨ho, rfl⟩ := getRel_ok.1 e1
  rcases hc : o.counterpart with _ | c
  · rw [hc] at hr
    have := refill_counterparts hM hK (hK.spectrum2signal _ _ _ _) .signal rfl (hM.spectrum2signal _ _ _ _) hr
    exact ⟨.inr this.1, this.2⟩
  · rw [hc] at hr
    simp only [HSize.truthy, pure_run, Prod.mk.injEq, Except.ok.injEq] at hr
    obtain ⟨rfl, rfl⟩ := hr
    exact ⟨.inl (by simp [counterpartAt, ho, hc]), fun _ _ _ h => .inl h⟩

theorem inp2signal_result {b : PyOperand V} {h h' : Heap K V} {k : Loc} (hr : inp2signal P M b h = (.ok k, h')) :
    (∃ l, b = .obj l ∧ (k = l ∨ counterpartAt h l = some k ∨ h.rels.length ≤ k)) ∧ NewCounterparts h h' := by
  cases b with
  | obj l =>
    simp only [inp2signal] at hr
    rw [bind_ok] at hr
    obtain ⟨o, h1, e1, hr⟩ := hr
    obtain ⟨ho, rfl⟩ := getRel_ok.1 e1
    split at hr
    · have := getSignal_result hM hK hr
      exact ⟨⟨l, rfl, .inr this.1⟩, this.2⟩
    · split at hr
      · simp only [pure_run, Prod.mk.injEq, Except.ok.injEq] at hr
        obtain ⟨rfl, rfl⟩ := hr
        exact ⟨⟨l, rfl, .inl rfl⟩, fun _ _ _ h => .inl h⟩
      · exact ⟨⟨l, rfl, .inr (.inr (fresh_construct hM _ _ _ _ _ _ _ hr))⟩,
          newCounterparts_of_only hM hK (only_construct hM hK _ _ _ _) hr⟩
  | number => simp [inp2signal, raise] at hr
  | other => simp [inp2signal, raise] at hr

theorem input2spectrum_result {b : PyOperand V} {h h' : Heap K V} {k : Loc} (hr : input2spectrum P M b h = (.ok k, h')) :
    (∃ l, b = .obj l ∧ (k = l ∨ counterpartAt h l = some k ∨ h.rels.length ≤ k)) ∧ NewCounterparts h h' := by
  cases b with
  | obj l =>
    simp only [input2spectrum] at hr
    rw [bind_ok] at hr
    obtain ⟨o, h1, e1, hr⟩ := hr
    obtain ⟨ho, rfl⟩ := getRel_ok.1 e1
    split at hr
    · have := getSpectrum_result hM hK hr
      exact ⟨⟨l, rfl, .inr this.1⟩, this.2⟩
    · split at hr
      · simp only [pure_run, Prod.mk.injEq, Except.ok.injEq] at hr
        obtain ⟨rfl, rfl⟩ := hr
        exact ⟨⟨l, rfl, .inl rfl⟩, fun _ _ _ h => .inl h⟩
      · exact ⟨⟨l, rfl, .inr (.inr (fresh_construct hM _ _ _ _ _ _ _ hr))⟩,
          newCounterparts_of_only hM hK (only_construct hM hK _ _ _ _) hr⟩
  | number => simp [input2spectrum, raise] at hr
  | other => simp [input2spectrum, raise] at hr

/-- a convolution of two converted operands -/
theorem keeps_convert {conv : PyOperand V → HM K V Loc} (hs : ∀ b, Safe P ∅ (conv b))
    (hr : ∀ {b : PyOperand V} {h h' : Heap K V} {k : Loc}, conv b h = (.ok k, h') →
      (∃ l, b = .obj l ∧ (k = l ∨ counterpartAt h l = some k ∨ h.rels.length ≤ k)) ∧ NewCounterparts h h')
    {l : Loc} {o : RelObj} {h : Heap K V} (ho : h.rels[l]? = some o) {a b : PyOperand V}
    (ha : Stays l o (conv a)) (hb : Stays l o (conv b)) (he : ∀ k, IsArg a b k → k < h.rels.length)
    (hl : o.cls.isSignal = true → ¬ IsArg a b l ∧ ∀ k, IsArg a b k → counterpartAt h k ≠ some l)
    {f : Loc → Loc → HM K V Loc} (hf : ∀ r1 r2, (o.cls.isSignal = true → l ≠ r1 ∧ l ≠ r2) → Stays l o (f r1 r2)) :
    ((conv a >>= fun r1 => conv b >>= fun r2 => f r1 r2) h).2.rels[l]? = some o := by
  have hlt : l < h.rels.length := (List.getElem?_eq_some_iff.1 ho).1
  have k1 := ha h ho
  rcases e1 : conv a h with ⟨e | r1, h1⟩
  · rw [bind_of_error e1]; rw [e1] at k1; exact k1
  rw [bind_of_ok e1]
  rw [e1] at k1
  have k2 := hb h1 k1
  rcases e2 : conv b h1 with ⟨e | r2, h2⟩
  · rw [bind_of_error e2]; rw [e2] at k2; exact k2
  rw [bind_of_ok e2]
  rw [e2] at k2
  refine hf r1 r2 (fun hsig => ?_) h2 k2
  obtain ⟨ha', hc⟩ := hl hsig
  obtain ⟨⟨la, rfl, p1⟩, n1⟩ := hr e1
  obtain ⟨⟨lb, rfl, p2⟩, -⟩ := hr e2
  have w1 := (hs (.obj la) h).1
  rw [e1] at w1
  constructor
  · rintro rfl
    rcases p1 with rfl | p | p
    · exact ha' (.inl rfl)
    · exact hc la (.inl rfl) p
    · exact absurd hlt (Nat.not_lt.2 p)
  · rintro rfl
    rcases p2 with rfl | p | p
    · exact ha' (.inr rfl)
    · rcases n1 lb l (he lb (.inr rfl)) p with q | q
      · exact hc lb (.inr rfl) q
      · exact absurd hlt (Nat.not_lt.2 q)
    · exact absurd hlt (Nat.not_lt.2 (w1.rels_len.trans p))

theorem keeps_clsConv {D : ConvCall K V} (hD : ∀ g c r1 r2 l o, (o.cls.isSignal = true → l ≠ r1 ∧ l ≠ r2) → Stays l o (D g c r1 r2))
    {l : Loc} {o : RelObj} {h : Heap K V} (ho : h.rels[l]? = some o) (c : Cls) {a b : PyOperand V}
    (he : ∀ k, IsArg a b k → k < h.rels.length) (h1 : IsArg a b l → o.cls.isSignal = false ∧ o.cls ≠ .spectrum)
    (h2 : o.cls.isSignal = true → ∀ k, IsArg a b k → counterpartAt h k ≠ some l) :
    (clsConv P M D c a b h).2.rels[l]? = some o := by
  have hl : o.cls.isSignal = true → ¬ IsArg a b l ∧ ∀ k, IsArg a b k → counterpartAt h k ≠ some l := fun k =>
    ⟨fun ha => by simp [(h1 ha).1] at k, h2 k⟩
  have key : ∀ r1 r2, (o.cls.isSignal = true → l ≠ r1 ∧ l ≠ r2) → Stays l o (relConv P M D c r1 r2) := fun r1 r2 hr => by
    unfold relConv
    exact (only_config.stays (Set.notMem_empty _) _).bind fun _ => (hD _ _ _ _ _ _ hr).bind fun _ =>
      (only_construct hM hK _ _ _ _).stays (Set.notMem_empty _) _
  have sig : ((inp2signal P M a >>= fun r1 => inp2signal P M b >>= fun r2 => relConv P M D c r1 r2 >>= fun q =>
      construct P M c (.rel q) .absent) h).2.rels[l]? = some o :=
    keeps_convert hM hK (fun b => safe_inp2signal hM b) (fun {_ _ _ _} => inp2signal_result hM hK) ho
      (stays_inp2signal hM hK a fun e => (h1 (.inl e)).2) (stays_inp2signal hM hK b fun e => (h1 (.inr e)).2) he hl
      fun r1 r2 hr => (key r1 r2 hr).bind fun _ => (only_construct hM hK _ _ _ _).stays (Set.notMem_empty _) _
  cases c with
  | relation =>
    cases a with
    | obj r1 =>
      cases b with
      | obj r2 =>
        refine key r1 r2 (fun k => ⟨?_, ?_⟩) h ho
        · rintro rfl; exact (hl k).1 (.inl rfl)
        · rintro rfl; exact (hl k).1 (.inr rfl)
      | number => exact ho
      | other => exact ho
    | number => exact ho
    | other => exact ho
  | spectrum =>
    exact keeps_convert hM hK (fun b => safe_input2spectrum hM b) (fun {_ _ _ _} => input2spectrum_result hM hK) ho
      (stays_input2spectrum hM hK a fun e => (h1 (.inl e)).1) (stays_input2spectrum hM hK b fun e => (h1 (.inr e)).1) he hl key
  | signal => exact sig
  | sweep => exact sig

end

theorem only_one {S : Set Loc} {m : HM K V α} (f : α → List Loc) (hm : Only S m) : Only S (one m f) :=
  hm.bind fun _ => only_pure _

theorem one_heap (m : HM K V α) (f : α → List Loc) (h : Heap K V) : (one m f h).2 = (m h).2 := by
  unfold one
  rcases e : m h with ⟨x | a, h1⟩
  · rw [bind_of_error e]
  · rw [bind_of_ok e]; rfl

theorem only_relMax {S : Set Loc} (r : Loc) : Only S (relMax P r) := by
  unfold relMax
  exact (only_getRel _).bind fun _ => (only_getY _).bind fun _ => only_lift _

theorem only_relMin {S : Set Loc} (r : Loc) : Only S (relMin P r) := by
  unfold relMin
  exact (only_getRel _).bind fun _ => (only_getY _).bind fun _ => only_lift _

theorem only_relLen {S : Set Loc} (r : Loc) : Only S (relLen P r) :=
  (only_getRel _).bind fun _ => only_axisSize _

theorem only_relItem {S : Set Loc} (r : Loc) (v : K) : Only S (relItem P r v) :=
  (only_getRel _).bind fun _ => (only_axisValues _).bind fun _ => (only_getY _).bind fun _ => only_lift _

end SweepDesign.Mem

namespace SweepDesign

open Mem Mem.HM Spec

variable {K V : Type} {P : Prims K V} {M : Methods K V} {C : ConvMethods K V} {α β : Type}

/-! ## C85 -/

/-- A call leaves every existing relation object outside `mayFill` as it is. -/
theorem C85_untouched (hM : GoodMethods P M) (hK : OnlyMethods M) (hC : OnlySignals C) (c : Call K V)
    {h : Heap K V} (he : ArgsExist h c) {l : Loc} {o : RelObj} (ho : h.rels[l]? = some o) (hl : l ∉ mayFill h c) :
    (c.exec P M C h).2.rels[l]? = some o := by
  have E : ∀ {α : Type} (m : HM K V α) (f : α → List Loc), Only ∅ m → (one m f h).2.rels[l]? = some o :=
    fun m f hm => only_one f hm h l o ho (Set.notMem_empty _)
  have G : ∀ {α : Type} (m : HM K V α) (f : α → List Loc) {S : Set Loc}, Only S m → l ∉ S → (one m f h).2.rels[l]? = some o :=
    fun m f _ hm hl => only_one f hm h l o ho hl
  have A : ∀ {α : Type} (m : HM K V α) (f : α → List Loc), (m h).2.rels[l]? = some o → (one m f h).2.rels[l]? = some o :=
    fun m f hm => by rw [one_heap]; exact hm
  have nsig : ¬ SignalAt h l → o.cls.isSignal = false := fun k => by
    by_contra hc
    exact k ⟨o, ho, isSignal_iff.1 (by simpa using hc)⟩
  have nspec : ¬ SpectrumAt h l → o.cls ≠ .spectrum := fun k hc => k ⟨o, ho, hc⟩
  cases c with
  | axisNew => exact E _ _ (only_axisNew _ _ _)
  | axisArray => exact E _ _ (only_axisArray _)
  | axisActual => exact E _ _ (only_axisActual _)
  | axisCopy => exact E _ _ (only_axisCopy _)
  | construct => exact E _ _ (only_construct hM hK _ _ _ _)
  | getData => exact E _ _ (only_relGetData _)
  | max => exact E _ _ (only_relMax _)
  | min => exact E _ _ (only_relMin _)
  | norm => exact E _ _ (only_getNorm hM hK _)
  | select => exact E _ _ (only_relSelect hM hK _ _ _)
  | exp => exact E _ _ (only_relExp hM hK _)
  | diff => exact E _ _ (only_relDiff hM hK _)
  | integrate => exact E _ _ (only_relIntegrate hM hK _)
  | interp => exact E _ _ (only_relInterp hM hK _ _)
  | shift r d => exact A _ _ (stays_shift hM hK r d (fun e => nsig fun k => hl ⟨e, k⟩) h ho)
  | equalize => exact E _ _ (only_relEqualize hM hK _ _)
  | operator r b op =>
    refine A _ _ ?_
    unfold Mem.operator
    rcases hr : h.rels[r]? with _ | q
    · rw [bind_of_error (getRel_none hr)]; exact ho
    · rw [bind_of_ok (getRel_run hr)]
      refine ((stays_convertOperand hM hK q.cls b op (fun e f s => nspec fun k => hl ⟨e, forward_iff.1 f, .inl ⟨⟨q, hr, isSignal_iff.1 s⟩, k⟩⟩)
        (fun e f s => nsig fun k => hl ⟨e, forward_iff.1 f, .inr ⟨⟨q, hr, s⟩, k⟩⟩)).bind fun _ => ?_) h ho
      exact (only_relOperation hM hK _ _ _).stays (Set.notMem_empty _) _
  | len => exact E _ _ (only_relLen _)
  | item => exact E _ _ (only_relItem _ _)
  | getSpectrum r f z => exact G _ _ (only_getSpectrum hM hK (Set.mem_singleton r) _ _) hl
  | getSignal r f z => exact G _ _ (only_getSignal hM hK (Set.mem_singleton r) _ _) hl
  | getAmp => exact E _ _ (only_getAmp hM hK _)
  | getPhase => exact E _ _ (only_getPhase hM hK _)
  | sgAmp r f z => exact G _ _ ((only_getSpectrum hM hK (Set.mem_singleton r) _ _).bind fun _ => only_getAmp hM hK _) hl
  | sgPhase r f z => exact G _ _ ((only_getSpectrum hM hK (Set.mem_singleton r) _ _).bind fun _ => only_getPhase hM hK _) hl
  | spAddPhase r b op => exact A _ _ (stays_spAddPhase hM hK r b op (fun e => nsig fun k => hl ⟨e, k⟩) h ho)
  | sgAddPhase r b op =>
    exact A _ _ (stays_sgAddPhase hM hK (fun e => hl (.inl e)) b op (fun e => nsig fun k => hl (.inr ⟨e, k⟩)) h ho)
  | reverseFilter => exact E _ _ (only_reverseFilter hM hK _ _ _ _ _)
  | reverseSignal r p b fs fe => exact G _ _ (only_reverseSignal hM hK (Set.mem_singleton r) _ _ _ _) hl
  | fromAmpPhase => exact E _ _ (only_fromAmpPhase hM hK _ _)
  | convolve c a b =>
    exact A _ _ (keeps_clsConv hM hK hC.convolve ho c he
      (fun e => ⟨nsig fun k => hl (.inl ⟨e, .inl k⟩), nspec fun k => hl (.inl ⟨e, .inr k⟩)⟩)
      (fun s k e q => hl (.inr ⟨⟨o, ho, isSignal_iff.1 s⟩, k, e, q⟩)))
  | correlate c a b =>
    exact A _ _ (keeps_clsConv hM hK hC.correlate ho c he
      (fun e => ⟨nsig fun k => hl (.inl ⟨e, .inl k⟩), nspec fun k => hl (.inl ⟨e, .inr k⟩)⟩)
      (fun s k e q => hl (.inr ⟨⟨o, ho, isSignal_iff.1 s⟩, k, e, q⟩)))

/-- edits by hand touch no relation object -/
theorem edit_rels (e : Edit K V) (h : Heap K V) : (e.exec h).2.rels = h.rels := by
  have key : ∀ (l : Loc) (f : AxisObj K → AxisObj K), ((getAxis l >>= fun a => putAxis l (f a) : HM K V Unit) h).2.rels = h.rels := by
    intro l f
    rcases ha : h.axes[l]? with _ | a
    · rw [bind_of_error (getAxis_none ha)]
    · rw [bind_of_ok (getAxis_run ha)]; rfl
  cases e with
  | setStart l v => exact key l _
  | setStop l v => exact key l _
  | setSample l v => exact key l _
  | pokeX => rfl
  | pokeY => rfl
  | setConfig => rfl

/-- in the history `ss` from `h`, no call may touch `l` -/
def _root_.SweepDesign.Spec.Apart85 (P : Prims K V) (M : Methods K V) (C : ConvMethods K V) (l : Loc) :
    List (Step K V) → Heap K V → Prop
  | [], _ => True
  | .call c :: ss, h => ArgsExist h c ∧ l ∉ mayFill h c ∧ Apart85 P M C l ss (Step.run P M C (.call c) h)
  | .edit e :: ss, h => Apart85 P M C l ss (Step.run P M C (.edit e) h)

/-- An object no call of a history may touch is the same object at its end. -/
theorem C85_history (hM : GoodMethods P M) (hK : OnlyMethods M) (hC : OnlySignals C) {l : Loc} {o : RelObj}
    (ss : List (Step K V)) {h : Heap K V} (ho : h.rels[l]? = some o) (hs : Apart85 P M C l ss h) :
    (runSteps P M C ss h).rels[l]? = some o := by
  induction ss generalizing h with
  | nil => exact ho
  | cons st ss ih =>
    cases st with
    | call c => exact ih (C85_untouched hM hK hC c hs.1 ho hs.2.1) hs.2.2
    | edit e => exact ih (by show (e.exec h).2.rels[l]? = _; rw [edit_rels]; exact ho) hs

/-- The default methods meet the contracts. -/
theorem C85_defaults (hM : GoodMethods P M) (hK : OnlyMethods M) :
    OnlyMethods (defaultMethods P) ∧ OnlySignals (defaultConvMethods P M) :=
  ⟨only_defaultMethods, fun _ _ _ _ _ _ h => stays_defConv hM hK _ _ _ h, fun _ _ _ _ _ _ h => stays_defConv hM hK _ _ _ h⟩

/-- a signal (object 0), a spectrum (1), a relation (2) and another signal (3) -/
def fourObjects : Heap ℚ ℚ :=
  runSteps ratPrims (defaultMethods ratPrims) (defaultConvMethods ratPrims (defaultMethods ratPrims))
    [.call (.axisNew 0 3 1), .call (.construct .signal (.axis 0) (.list [1, 2, 3, 4])),
     .call (.axisNew 0 2 1), .call (.construct .spectrum (.axis 1) (.list [5, 6, 7])),
     .call (.axisNew 0 3 1), .call (.construct .relation (.axis 2) (.list [1, 1, 1, 1])),
     .call (.axisNew 0 3 1), .call (.construct .signal (.axis 3) (.list [4, 3, 2, 1]))] (emptyHeap ℚ ℚ)

/-- `signal + spectrum` enters a signal in the spectrum and touches nothing else; `signal + relation` and
`spectrum * relation` touch nothing; `Signal.convolve(signal, relation)` touches the signal only. -/
example :
    let M := defaultMethods ratPrims
    let C := defaultConvMethods ratPrims M
    let after : Call ℚ ℚ → List (Option Loc) := fun c =>
      [0, 1, 2, 3].map (counterpartAt (c.exec ratPrims M C fourObjects).2)
    after (.operator 0 (.obj 1) .add) = [none, some 4, none, none] ∧
    after (.operator 0 (.obj 2) .add) = [none, none, none, none] ∧
    after (.operator 1 (.obj 2) .mul) = [none, none, none, none] ∧
    after (.operator 1 (.obj 3) .mul) = [none, none, none, some 4] ∧
    after (.convolve .signal (.obj 0) (.obj 2)) = [some 5, none, none, none] := by
  refine ⟨?_, ?_, ?_, ?_, ?_⟩ <;> decide +kernel

/-- the hypotheses are met: the second signal in the first case -/
example : 3 ∉ mayFill fourObjects (.operator 0 (.obj 1) .add) ∧ (fourObjects.rels[3]?).isSome = true := by
  refine ⟨?_, by decide +kernel⟩
  rintro ⟨h, -⟩
  cases h

end SweepDesign
