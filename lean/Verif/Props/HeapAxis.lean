import Verif.Heap.Read
import Verif.Heap.Exact

/-!
# C01, C09: reads are never stale
-/

set_option linter.unusedSectionVars false

namespace SweepDesign

open Mem Spec HM

variable {K V : Type} {P : Prims K V}

theorem axisCall_sim (c : AxisCall K) {h : Heap K V} (hc : Coh P h) :
    (c.run P h).1 = (axisStep (freshAxis P) c (h.axes.map fields)).1 ∧
    ((c.run P h).2).axes.map fields = (axisStep (freshAxis P) c (h.axes.map fields)).2 ∧ Coh P (c.run P h).2 := by
  have setter : ∀ (l : Loc) (f : AxisObj K → AxisObj K) (g : Axis K → Axis K)
      (_ : ∀ a, f a = { f a with arr := none, actual := none }) (_ : ∀ a, fields (f a) = g (fields a)),
      let p := (getAxis l >>= fun a => putAxis l (f a) : HM K V Unit) h
      (AxisReply.of (fun _ => AxisReply.none) p.1 : AxisReply K) = (assign (h.axes.map fields) l g).1 ∧
      p.2.axes.map fields = (assign (h.axes.map fields) l g).2 ∧ Coh P p.2 := by
    intro l f g hf hg p
    have hs := (safe_setter (P := P) (X := ⟨{l}, ∅, ∅⟩) l f hf rfl h).2 hc
    simp only [p, assign, List.getElem?_map]
    rcases ha : h.axes[l]? with _ | a
    · rw [bind_of_error (getAxis_none ha)]; exact ⟨rfl, rfl, hc⟩
    · rw [bind_of_ok (getAxis_run ha)]
      rw [bind_of_ok (getAxis_run ha)] at hs
      refine ⟨rfl, ?_, hs⟩
      show (h.axes.set l (f a)).map fields = (h.axes.map fields).set l (g (fields a))
      rw [List.map_set, hg]
  cases c with
  | new s e d =>
    refine ⟨by simp [AxisCall.run, axisStep, axisNew, newAxis, AxisReply.of], ?_,
      (safe_axisNew (P := P) (X := ∅) s e d h).2 hc⟩
    simp [AxisCall.run, axisStep, axisNew, newAxis, fields]
  | array l =>
    refine ⟨?_, axisValues_fields l h, (safe_axisValues (P := P) (X := ∅) l h).2 hc⟩
    simp only [AxisCall.run, axisStep, reply, List.getElem?_map]
    rcases ha : h.axes[l]? with _ | a
    · rw [axisValues_dangling ha]; rfl
    · rw [axisValues_run hc ha]; rfl
  | size l =>
    refine ⟨?_, ?_, (safe_axisSize (P := P) (X := ∅) l h).2 hc⟩
    · simp only [AxisCall.run, axisStep, reply, List.getElem?_map]
      rcases ha : h.axes[l]? with _ | a
      · rw [axisSize, bind_of_error (axisValues_dangling ha)]; rfl
      · rw [axisSize_run hc ha]; rfl
    · simp only [AxisCall.run, axisSize_state]; exact axisValues_fields l h
  | actualSample l =>
    refine ⟨?_, axisActual_fields l h, (safe_axisActual (P := P) (X := ∅) l h).2 hc⟩
    simp only [AxisCall.run, axisStep, reply, List.getElem?_map]
    rcases ha : h.axes[l]? with _ | a
    · rw [axisActual, bind_of_error (getAxis_none ha)]; rfl
    · rw [axisActual_run hc ha]; rfl
  | setStart l v =>
    exact setter l (fun a => { a with start := v, arr := none, actual := none })
      (fun a => { a with start := v }) (fun _ => rfl) (fun _ => rfl)
  | setStop l v =>
    exact setter l (fun a => { a with stop := v, arr := none, actual := none })
      (fun a => { a with stop := v }) (fun _ => rfl) (fun _ => rfl)
  | setSample l v =>
    exact setter l (fun a => { a with sample := v, arr := none, actual := none })
      (fun a => { a with sample := v }) (fun _ => rfl) (fun _ => rfl)
  | copy l =>
    refine ⟨?_, ?_, (safe_axisCopy (P := P) (X := ∅) l h).2 hc⟩ <;>
    · simp only [AxisCall.run, axisStep, axisCopy, List.getElem?_map]
      rcases ha : h.axes[l]? with _ | a
      · rw [bind_of_error (getAxis_none ha)]; simp [AxisReply.of]
      · rw [bind_of_ok (getAxis_run ha)]; simp [newAxis, AxisReply.of]

/-- **C01** Reads are never stale: for every history of axis operations, the replies are those of the reference machine
in which every axis is just its three numbers and every read is computed anew. Any coherent starting heap, any
arithmetic. -/
theorem C01_axis_history (cs : List (AxisCall K)) (h : Heap K V) (hc : Coh P h) :
    (AxisCall.runAll P cs h).1 = axisRun (freshAxis P) cs (h.axes.map fields) := by
  induction cs generalizing h with
  | nil => rfl
  | cons c cs ih =>
    obtain ⟨h1, h2, h3⟩ := axisCall_sim (P := P) c hc
    simp only [AxisCall.runAll, axisRun]
    rw [h1, ih _ h3, h2]

/-- **C01** from scratch: no objects at the beginning. -/
theorem C01_axis_history_from_start (cs : List (AxisCall K)) :
    (AxisCall.runAll P cs (emptyHeap K V)).1 = axisRun (freshAxis P) cs [] :=
  C01_axis_history cs _ (coh_empty P)

/-- edits that do not write into ndarrays by hand -/
def Mem.Step.noPoke : Step K V → Prop
  | .edit (.pokeX _ _) => False
  | _ => True

theorem coh_steps {M : Methods K V} {C : ConvMethods K V} (hM : GoodMethods P M) (hC : GoodConvMethods P C)
    (ss : List (Step K V)) (hs : ∀ s ∈ ss, s.noPoke) (h : Heap K V) (hc : Coh P h) : Coh P (runSteps P M C ss h) := by
  induction ss generalizing h with
  | nil => exact hc
  | cons s ss ih =>
    refine ih (fun s hs' => hs s (List.mem_cons_of_mem _ hs')) _ ?_
    have := hs s List.mem_cons_self
    cases s with
    | call c => exact (safe_call hM hC c h).2 hc
    | edit e =>
      cases e with
      | setStart l v => exact (safe_axisSetStart (P := P) (X := ⟨{l}, ∅, ∅⟩) v rfl h).2 hc
      | setStop l v => exact (safe_axisSetStop (P := P) (X := ⟨{l}, ∅, ∅⟩) v rfl h).2 hc
      | setSample l v => exact (safe_axisSetSample (P := P) (X := ⟨{l}, ∅, ∅⟩) v rfl h).2 hc
      | pokeX => exact absurd this id
      | pokeY l f => exact hc
      | setConfig g => exact hc

/-- **C01** with everything else going on: after any history of calls of the package, assignments and writes into y
arrays, every axis object (also those inside relations, spectra, sweeps) reads as a new axis with its current fields. -/
theorem C01_never_stale {M : Methods K V} {C : ConvMethods K V} (hM : GoodMethods P M) (hC : GoodConvMethods P C)
    (ss : List (Step K V)) (hs : ∀ s ∈ ss, s.noPoke) (l : Loc) (a : Axis K)
    (ha : fieldsAt (runSteps P M C ss (emptyHeap K V)) l = some a) :
    arrayAt P (runSteps P M C ss (emptyHeap K V)) l = (freshAxis P).array a ∧
    (axisSize P l (runSteps P M C ss (emptyHeap K V))).1 = (freshAxis P).size a ∧
    (axisActual P l (runSteps P M C ss (emptyHeap K V))).1 = (freshAxis P).actualSample a := by
  have hc := coh_steps hM hC ss hs (emptyHeap K V) (coh_empty P)
  rw [fieldsAt, Option.map_eq_some_iff] at ha
  obtain ⟨o, ho, rfl⟩ := ha
  exact ⟨axisValues_run hc ho, axisSize_run hc ho, axisActual_run hc ho⟩

/-- reads before and after assignments, through a copy -/
example : (AxisCall.runAll ratPrims
    [.new 0 2 1, .array 0, .copy 0, .setStop 0 4, .array 0, .array 1, .actualSample 1, .size 0, .setSample 1 2, .array 1]
    (emptyHeap ℚ ℚ)).1.length = 10 := by decide +kernel

example : arrayAt ratPrims ((AxisCall.runAll ratPrims [.new 0 2 1, .array 0, .copy 0, .setStop 0 4]
    (emptyHeap ℚ ℚ)).2) 1 = .ok [0, 1, 2] := by decide +kernel

example : arrayAt ratPrims ((AxisCall.runAll ratPrims [.new 0 2 1, .array 0, .copy 0, .setStop 0 4]
    (emptyHeap ℚ ℚ)).2) 0 = .ok [0, 1, 2, 3, 4] := by decide +kernel

/-! ## C09 -/

/-- an assignment through a relation -/
inductive RelSet (K : Type)
  | start (v : K)
  | stop (v : K)
  | sample (v : K)

/-- run it (`relation.py:136-179`) -/
def RelSet.run (r : Loc) (s : RelSet K) (h : Heap K V) : Heap K V :=
  match s with
  | .start v => (relSetStart r v h).2
  | .stop v => (relSetStop r v h).2
  | .sample v => (relSetSample r v h).2

/-- its effect on the three numbers -/
def RelSet.apply (a : Axis K) : RelSet K → Axis K
  | .start v => { a with start := v }
  | .stop v => { a with stop := v }
  | .sample v => { a with sample := v }

theorem relSet_run (r : Loc) (s : RelSet K) {h : Heap K V} (hc : Coh P h) {o : RelObj} (ho : h.rels[r]? = some o)
    {a : AxisObj K} (ha : h.axes[o.x]? = some a) :
    Coh P (s.run r h) ∧ (s.run r h).rels = h.rels ∧ (s.run r h).yarrs = h.yarrs ∧
    ∃ a', (s.run r h).axes[o.x]? = some a' ∧ fields a' = s.apply (fields a) := by
  have key : ∀ (f : AxisObj K → AxisObj K) (_ : ∀ a, f a = { f a with arr := none, actual := none }),
      let h' := ((getRel r >>= fun o => getAxis o.x >>= fun a => putAxis o.x (f a) : HM K V Unit) h).2
      Coh P h' ∧ h'.rels = h.rels ∧ h'.yarrs = h.yarrs ∧ h'.axes[o.x]? = some (f a) := by
    intro f hf h'
    have hs := (safe_setter (P := P) (X := ⟨{o.x}, ∅, ∅⟩) o.x f hf rfl h).2 hc
    simp only [h']
    rw [bind_of_ok (getRel_run ho)]
    rw [bind_of_ok (getAxis_run ha)] at hs ⊢
    exact ⟨hs, rfl, rfl, set_getElem?_self ha⟩
  cases s with
  | start v =>
    obtain ⟨h1, h2, h3, h4⟩ := key (fun a => { a with start := v, arr := none, actual := none }) (fun _ => rfl)
    exact ⟨h1, h2, h3, _, h4, rfl⟩
  | stop v =>
    obtain ⟨h1, h2, h3, h4⟩ := key (fun a => { a with stop := v, arr := none, actual := none }) (fun _ => rfl)
    exact ⟨h1, h2, h3, _, h4, rfl⟩
  | sample v =>
    obtain ⟨h1, h2, h3, h4⟩ := key (fun a => { a with sample := v, arr := none, actual := none }) (fun _ => rfl)
    exact ⟨h1, h2, h3, _, h4, rfl⟩

/-- **C09** After any history of assignments to a relation's start, end and sample, `get_data` is decided by the
current three numbers and the number of y values: it raises what computing the axis array raises, raises `NotEqualError`
when the lengths differ, and otherwise returns that array and y. -/
theorem C09_get_data (ss : List (RelSet K)) (h : Heap K V) (hc : Coh P h) (r : Loc) (o : RelObj)
    (ho : h.rels[r]? = some o) (a : AxisObj K) (ha : h.axes[o.x]? = some a) (y : List V)
    (hy : h.yarrs[o.y]? = some y) :
    dataAt P (ss.foldl (fun h s => s.run r h) h) r =
      match (freshAxis P).array (ss.foldl RelSet.apply (fields a)) with
      | .error e => .error e
      | .ok v => if v.length = y.length then .ok (some v, some y) else .error (.notEqual v.length y.length) := by
  induction ss generalizing h a with
  | nil => exact dataAt_run hc ho ha hy
  | cons s ss ih =>
    obtain ⟨h1, h2, h3, a', h4, h5⟩ := relSet_run (P := P) r s hc ho ha
    simp only [List.foldl_cons]
    rw [ih (s.run r h) h1 (by rw [h2]; exact ho) a' h4 (by rw [h3]; exact hy), h5]

/-- **C09** in exact arithmetic: two arrays of equal length, `NotEqualError` with both lengths, or the arithmetic error
of a zero sample. -/
theorem C09_three_outcomes {K V : Type} [Field K] [LinearOrder K] [IsStrictOrderedRing K] [FloorRing K] [Field V]
    [Algebra K V] [Star V] [DecidableEq V] [PyPow V] (T : Transcendental K V) (ss : List (RelSet K)) (h : Heap K V)
    (hc : Coh (exactPrims T) h) (r : Loc) (o : RelObj)
    (ho : h.rels[r]? = some o) (a : AxisObj K) (ha : h.axes[o.x]? = some a) (y : List V)
    (hy : h.yarrs[o.y]? = some y) :
    let b := ss.foldl RelSet.apply (fields a)
    (b.sample = 0 ∧ dataAt (exactPrims T) (ss.foldl (fun h s => s.run r h) h) r = .error .zeroDivision) ∨
    (b.sample ≠ 0 ∧ ∃ v, b.array = .ok v ∧ v.length = y.length ∧
      dataAt (exactPrims T) (ss.foldl (fun h s => s.run r h) h) r = .ok (some v, some y)) ∨
    (b.sample ≠ 0 ∧ ∃ v, b.array = .ok v ∧ v.length ≠ y.length ∧
      dataAt (exactPrims T) (ss.foldl (fun h s => s.run r h) h) r = .error (.notEqual v.length y.length)) := by
  intro b
  have hb : (freshAxis (exactPrims T)).array (ss.foldl RelSet.apply (fields a)) = b.array := rfl
  rw [C09_get_data ss h hc r o ho a ha y hy, hb]
  by_cases hs : b.sample = 0
  · refine .inl ⟨hs, ?_⟩
    rw [Axis.array, if_pos hs]
  · obtain ⟨v, hv⟩ : ∃ v, b.array = .ok v := by rw [Axis.array, if_neg hs]; exact ⟨_, rfl⟩
    rw [hv]
    by_cases hn : v.length = y.length
    · exact .inr (.inl ⟨hs, v, rfl, hn, by simp only [hn, if_true]⟩)
    · exact .inr (.inr ⟨hs, v, rfl, hn, by simp only [hn, if_false]⟩)

/-- a relation object on `[0, 1, 2]` whose array has been read -/
def exampleHeap : Heap ℚ ℚ :=
  runSteps ratPrims (defaultMethods ratPrims) (defaultConvMethods ratPrims (defaultMethods ratPrims))
    [.call (.axisNew 0 2 1), .call (.construct .relation (.axis 0) (.list [1, 2, 3])), .call (.getData 0)]
    (emptyHeap ℚ ℚ)

example : dataAt ratPrims exampleHeap 0 = .ok (some [0, 1, 2], some [1, 2, 3]) := by decide +kernel
example : dataAt ratPrims ([RelSet.stop 4].foldl (fun h s => s.run 0 h) exampleHeap) 0 = .error (.notEqual 5 3) := by
  decide +kernel
example : dataAt ratPrims ([RelSet.stop 4, RelSet.sample 2].foldl (fun h s => s.run 0 h) exampleHeap) 0 =
    .ok (some [0, 2, 4], some [1, 2, 3]) := by decide +kernel
example : dataAt ratPrims ([RelSet.sample 0].foldl (fun h s => s.run 0 h) exampleHeap) 0 = .error .zeroDivision := by
  decide +kernel

end SweepDesign
