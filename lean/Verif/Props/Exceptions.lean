import Verif.Props.Codes
import Verif.Props.Prepared
import Verif.Props.Dwell
import Verif.Props.Spectral

/-!
# Which exception (C113)

What the entry points raise when their input cannot be used: an empty code, a code or an axis too short or too long for an
m-sequence, no time, a time array without differences, no a-priori data, descriptions of a wrong length, segments that do
not fit, a signal running backwards.
-/

set_option linter.unusedSectionVars false

namespace SweepDesign

/-- **C113** An empty code raises `IndexError` for a relation, a signal and a sweep, whatever they are. -/
theorem C113_empty_code (P : SweepPrims ℝ) (base : Rel ℝ ℝ) (sweep : Sweep ℝ) [PyPow ℝ] :
    getCodeSweepSegments P [] base = .error .index ∧ getCodeSweepSegmentsSignal P [] base = .error .index ∧
    getCodeSweepSegmentsSweep P [] sweep = .error .index :=
  ⟨rfl, rfl, rfl⟩

/-- A code of two entries does not raise `IndexError`: the exception above is due to the empty code. -/
example : codeSegments [1, -1] (⟨⟨0, 2, 1⟩, [1, 2, 3]⟩ : Rel ℚ ℚ) = .ok ⟨⟨0, 5, 1⟩, [1, 2, 3, -1, -2, -3]⟩ := by
  decide +kernel

/-! ## m-sequences -/

theorem maxLenSeq_error {V : Type} (mls : ℕ → List ℤ → List V) (nbits : ℕ) (state : List ℤ)
    (h : nbits < 2 ∨ 32 < nbits) : maxLenSeq mls nbits state = .error .value := by
  unfold maxLenSeq
  rw [if_pos h]

theorem clog_gt_32 (n : ℕ) (h : 2 ^ 32 < n) : 32 < Nat.clog 2 n := by
  by_contra hc
  have h1 := Nat.le_pow_clog (by norm_num : 1 < 2) n
  have h2 : 2 ^ Nat.clog 2 n ≤ 2 ^ 32 := Nat.pow_le_pow_right (by norm_num) (by omega)
  omega

/-- **C113** A code longer than scipy's longest m-sequence raises `ValueError`. -/
theorem C113_long_code {V : Type} (mls : ℕ → List ℤ → List V) (rand : ℕ → ℤ) (isFull : Bool) (L : ℤ)
    (h : 2 ^ 32 + 1 < L) : getMSequenceCode mls rand L isFull = .error .value := by
  obtain ⟨m, rfl⟩ : ∃ m : ℕ, L = (m : ℤ) + 1 := ⟨(L - 1).toNat, by omega⟩
  have hm : 2 ^ 32 < m := by omega
  have hc := clog_gt_32 m hm
  have hlog : ceilLog2 ((m : ℤ) + 1 - 1) = .ok (Nat.clog 2 m) := by
    unfold ceilLog2
    have e : ((m : ℤ) + 1 - 1).toNat = m := by omega
    rw [if_neg (by omega), e]
  obtain ⟨l', f1, -⟩ := fixStart_ok ((List.range (Nat.clog 2 m)).map rand) (by
    intro h
    have := congrArg List.length h
    simp only [List.length_map, List.length_range, List.length_nil] at this
    omega)
  simp only [getMSequenceCode, hlog, except_bind_ok, f1, maxLenSeq_error mls _ l' (.inr hc), except_bind_error]

example : ((2 : ℤ) ^ 32 + 1 < 5000000000) := by norm_num

section
variable {K : Type} [Field K] [LinearOrder K] [IsStrictOrderedRing K] [FloorRing K]

/-- **C113** `get_relation_m_sequence` without a start sequence: an axis of one or three points, or of more than
`2^32 + 1`, raises `ValueError`, of two points `IndexError`; an axis whose array cannot be computed raises what computing
it raises. -/
theorem C113_relation_m_sequence {V : Type} (mls : ℕ → List ℤ → List V) (rand : ℕ → ℤ) (t : Axis K) (isFull : Bool) :
    (∀ n, t.size = .ok n → n = 1 ∨ n = 3 ∨ 2 ^ 32 + 1 < n →
      getRelationMSequence mls rand t isFull = .error .value) ∧
    (t.size = .ok 2 → getRelationMSequence mls rand t isFull = .error .index) ∧
    (∀ e, t.size = .error e → getRelationMSequence mls rand t isFull = .error e) := by
  refine ⟨fun n hn h => ?_, fun hn => ?_, fun e he => ?_⟩
  · rcases h with rfl | h
    · have : ceilLog2 (((1 : ℕ) : ℤ) - 1) = .error .value := by
        unfold ceilLog2; norm_num
      simp only [getRelationMSequence, hn, except_bind_ok, this, except_bind_error]
    · have h2 : 2 ≤ n - 1 := by omega
      have hk : Nat.clog 2 (n - 1) < 2 ∨ 32 < Nat.clog 2 (n - 1) := by
        rcases h with rfl | h
        · left
          have : Nat.clog 2 (3 - 1) = 1 := by
            rw [Nat.clog_of_two_le (by norm_num) (by norm_num)]; norm_num
          omega
        · exact .inr (clog_gt_32 _ (by omega))
      have hpos : 0 < Nat.clog 2 (n - 1) := Nat.clog_pos (by norm_num) h2
      have hlog : ceilLog2 ((n : ℤ) - 1) = .ok (Nat.clog 2 (n - 1)) := by
        unfold ceilLog2
        have e : ((n : ℤ) - 1).toNat = n - 1 := by omega
        rw [if_neg (by omega), e]
      obtain ⟨l', f1, f2, -⟩ := fixStart_ok ((List.range (Nat.clog 2 (n - 1))).map rand) (by
        intro h
        have := congrArg List.length h
        simp only [List.length_map, List.length_range, List.length_nil] at this
        omega)
      have f2' : l'.length = Nat.clog 2 (n - 1) := by simpa using f2
      simp only [getRelationMSequence, hn, except_bind_ok, hlog, f1, relationOfMSequence,
        maxLenSeq_error mls l'.length l' (by rw [f2']; exact hk), except_bind_error]
  · have : ceilLog2 (((2 : ℕ) : ℤ) - 1) = .ok 0 := by
      unfold ceilLog2; norm_num
    simp only [getRelationMSequence, hn, except_bind_ok, this, List.range_zero, List.map_nil, fixStart, except_bind_error]
  · simp only [getRelationMSequence, he, except_bind_error]

/-- **C113** `get_relation_m_sequence` with a start sequence on an axis of at least two points: an empty one raises
`IndexError`, one of a single entry or of more than 32 raises `ValueError`. On an axis of one point every start sequence
raises `ValueError` and is left alone. -/
theorem C113_start_sequence {V : Type} (mls : ℕ → List ℤ → List V) (t : Axis K) (n : ℕ) (hn : t.size = .ok n)
    (isFull : Bool) :
    (2 ≤ n → getRelationMSequenceFrom mls t [] isFull = (.error .index, [])) ∧
    (2 ≤ n → ∀ start : List ℤ, start.length = 1 ∨ 32 < start.length →
      (getRelationMSequenceFrom mls t start isFull).1 = .error .value) ∧
    (n = 1 → ∀ start : List ℤ, getRelationMSequenceFrom mls t start isFull = (.error .value, start)) := by
  have hlog : 2 ≤ n → ceilLog2 ((n : ℤ) - 1) = .ok (Nat.clog 2 (n - 1)) := by
    intro h
    unfold ceilLog2
    have e : ((n : ℤ) - 1).toNat = n - 1 := by omega
    rw [if_neg (by omega), e]
  refine ⟨fun h => ?_, fun h start hs => ?_, fun h start => ?_⟩
  · simp only [getRelationMSequenceFrom, hn, except_bind_ok, hlog h, fixStart]
  · obtain ⟨l', f1, f2, -⟩ := fixStart_ok start (by rintro rfl; simp at hs)
    simp only [getRelationMSequenceFrom, hn, except_bind_ok, hlog h, f1, relationOfMSequence,
      maxLenSeq_error mls l'.length l' (by omega), except_bind_error]
  · subst h
    have : ceilLog2 (((1 : ℕ) : ℤ) - 1) = .error .value := by
      unfold ceilLog2; norm_num
    simp only [getRelationMSequenceFrom, hn, except_bind_ok, this]

example : (⟨0, 1, 1⟩ : Axis ℚ).size = .ok 2 ∧ (⟨0, 0, 1⟩ : Axis ℚ).size = .ok 1 ∧
    (⟨0, 1, 0⟩ : Axis ℚ).size = .error .zeroDivision := by decide +kernel

/-! ## Time arrays -/

/-- **C113** An array of less than two numbers has no differences: wherever an axis is made of it, `ValueError` is raised —
by the constructor of a relation, by interpolation and by both stages of an uncalculated sweep. -/
theorem C113_short_array {V : Type} [Field V] [Algebra K V] (P : SweepPrims K) (l : List K) (hl : l.length ≤ 1)
    (isFloat : Bool) (y : List V) (r : Rel K V) (fd ad : Ftat K) (u : UncalculatedSweep K) (tht0 : K) :
    Rel.init (.array l isFloat : XArg K V) (some y) = .error .value ∧
    r.interpolateExtrapolate (.array l isFloat) = .error .value ∧
    UncalculatedSweep.init (.array l isFloat) fd ad = .error .value ∧
    u.call P (.array l isFloat) tht0 = .error .value := by
  have h : ∀ b, axisFromArray l isFloat b = .error .value := by
    intro b
    match l, hl with
    | [], _ => rfl
    | [a], _ => rfl
  refine ⟨?_, ?_, ?_, ?_⟩
  · simp only [Rel.init, h, except_bind_error]
  · simp only [Rel.interpolateExtrapolate, h, except_bind_error]
  · simp only [UncalculatedSweep.init, TimeArg.toAxis, h, except_bind_error]
  · simp only [UncalculatedSweep.call, UncalculatedSweep.calcTime, TimeArg.toAxis, h, except_bind_error]

/-- **C113** `get_array_axis_from_array` raises nothing but `ValueError`, for an array of less than two numbers, and
`ZeroDivisionError`, for a float array whose step is rounded. -/
theorem C113_axis_from_array (l : List K) (isFloat roundDx : Bool) (e : Err) (h : axisFromArray l isFloat roundDx = .error e) :
    e = .value ∧ l.length ≤ 1 ∨ e = .zeroDivision ∧ 2 ≤ l.length ∧ isFloat = true ∧ roundDx = true := by
  match l, h with
  | [], h => exact .inl ⟨by cases h; rfl, by simp⟩
  | [a], h => exact .inl ⟨by cases h; rfl, by simp⟩
  | a :: b :: l, h =>
    have hd : ∃ m, getActualSample (a :: b :: l) = .ok m := ⟨_, rfl⟩
    obtain ⟨m, hm⟩ := hd
    obtain ⟨z, hz⟩ : ∃ z, (a :: b :: l).getLast? = some z := ⟨_, List.getLast?_eq_some_getLast (by simp)⟩
    unfold axisFromArray at h
    rw [hm, except_bind_ok] at h
    simp only [List.head?_cons, hz] at h
    cases isFloat <;> cases roundDx <;>
      simp only [Bool.and_true, Bool.and_false, Bool.false_eq_true, if_false, if_true, except_pure, except_bind_ok, reduceCtorEq] at h
    refine .inr ⟨?_, by simp, rfl, rfl⟩
    unfold roundStep at h
    split at h
    · split at h
      · cases h; rfl
      · split at h
        · cases h; rfl
        · cases h
    · cases h

example : axisFromArray [(0 : ℚ), 0, 1] true true = .error .zeroDivision ∧ axisFromArray [(4 : ℚ), 1] true true = .error .zeroDivision ∧
    axisFromArray [(1 : ℚ)] true true = .error .value := by decide +kernel

theorem npMin_eq {l : List K} {m : K} (hm : m ∈ l) (h : ∀ a ∈ l, m ≤ a) : npMin l = .ok m := by
  have hfold : ∀ (l : List K) (a : K), (l.foldl min a ≤ a ∧ ∀ b ∈ l, l.foldl min a ≤ b) := by
    intro l
    induction l with
    | nil => intro a; simp
    | cons c l ih =>
      intro a
      obtain ⟨h1, h2⟩ := ih (min a c)
      simp only [List.foldl_cons]
      refine ⟨h1.trans (min_le_left _ _), fun b hb => ?_⟩
      rcases List.mem_cons.1 hb with rfl | hb
      · exact h1.trans (min_le_right _ _)
      · exact h2 b hb
  have hmem : ∀ (l : List K) (a : K), l.foldl min a ∈ a :: l := by
    intro l
    induction l with
    | nil => intro a; simp
    | cons c l ih =>
      intro a
      have := ih (min a c)
      simp only [List.foldl_cons]
      rcases List.mem_cons.1 this with h | h
      · rw [h]; rcases min_choice a c with h | h <;> rw [h] <;> simp
      · exact List.mem_cons_of_mem _ (List.mem_cons_of_mem _ h)
  match l, hm with
  | a :: l, hm =>
    simp only [npMin, Except.ok.injEq]
    refine le_antisymm ?_ (h _ (hmem l a))
    rcases List.mem_cons.1 hm with rfl | hm
    · exact (hfold l m).1
    · exact (hfold l a).2 m hm

/-- **C113** An array of floats in which the smallest difference is zero cannot be given a rounded step:
`ZeroDivisionError`. Interpolation, which does not round, raises the same, for the axis with a zero step has no array. -/
theorem C113_repeated_time {V : Type} [Field V] [Algebra K V] (P : SweepPrims K) (l : List K) (i : ℕ)
    (hi : i + 1 < l.length) (heq : l[i + 1] = l[i])
    (hmono : l.Pairwise (· ≤ ·)) (y : List V) (r : Rel K V) (hr : r.x.sample ≠ 0)
    (fd ad : Ftat K) (u : UncalculatedSweep K) (tht0 : K) :
    Rel.init (.array l true : XArg K V) (some y) = .error .zeroDivision ∧
    r.interpolateExtrapolate (.array l true) = .error .zeroDivision ∧
    UncalculatedSweep.init (.array l true) fd ad = .error .zeroDivision ∧
    u.call P (.array l true) tht0 = .error .zeroDivision := by
  have hne : npDiff l ≠ [] := by
    intro h0
    have := congrArg List.length h0
    rw [npDiff_length] at this
    simp at this
    omega
  have hmin : getActualSample l = .ok 0 := by
    have hi' : i < (npDiff l).length := by rw [npDiff_length]; omega
    refine npMin_eq ?_ ?_
    · have h1 := npDiff_getElem l i hi' (by omega)
      rw [heq, sub_self] at h1
      exact h1 ▸ List.getElem_mem hi'
    · intro a ha
      obtain ⟨j, hj, rfl⟩ := List.getElem_of_mem ha
      have hj' : j + 1 < l.length := by rw [npDiff_length] at hj; omega
      rw [npDiff_getElem l j hj hj']
      exact sub_nonneg.2 (List.pairwise_iff_getElem.1 hmono j (j + 1) (by omega) hj' (by omega))
  have h : axisFromArray l true true = .error .zeroDivision := by
    simp [axisFromArray, hmin, except_bind_ok, roundStep, except_bind_error]
  refine ⟨?_, ?_, ?_, ?_⟩
  · simp only [Rel.init, h, except_bind_error]
  · match l, hi with
    | s :: l', _ =>
      have hlast : (s :: l').getLast? = some ((s :: l').getLast (by simp)) := List.getLast?_eq_getLast_of_ne_nil (by simp)
      have h' : axisFromArray (s :: l') true false = .ok ⟨s, (s :: l').getLast (by simp), 0⟩ := by
        simp only [axisFromArray, hmin, except_bind_ok, Bool.false_and, Bool.false_eq_true, if_false, except_pure, hlast,
          List.head?_cons]
      have h0 : (⟨s, (s :: l').getLast (by simp), 0⟩ : Axis K).array = .error .zeroDivision := by
        simp only [Axis.array, if_true]
      obtain ⟨lx, hx⟩ : ∃ lx, r.x.array = .ok lx := ⟨_, Axis.array_eq _ hr⟩
      simp only [Rel.interpolateExtrapolate, h', except_bind_ok, Rel.interpAxis, hx, h0, except_bind_error]
  · simp only [UncalculatedSweep.init, TimeArg.toAxis, h, except_bind_error]
  · simp only [UncalculatedSweep.call, UncalculatedSweep.calcTime, TimeArg.toAxis, h, except_bind_error]

example : [(0 : ℚ), 1/2, 1/2, 1].Pairwise (· ≤ ·) ∧
    Rel.init (.array [(0 : ℚ), 1/2, 1/2, 1] true : XArg ℚ ℚ) (some [1, 2, 3, 4]) = .error .zeroDivision ∧
    Rel.init (.array [(0 : ℚ), 1/2, 1, 3/2] true : XArg ℚ ℚ) (some [1, 2, 3, 4]) = .ok ⟨⟨0, 3/2, 1/2⟩, [1, 2, 3, 4]⟩ := by
  decide +kernel

theorem npMul_wrong (a b : List K) (hab : a.length ≠ b.length) (hb : 2 ≤ b.length) :
    (a.length = 1 → ∃ c, npMul a b = .ok c) ∧ (a.length ≠ 1 → npMul a b = .error .value) := by
  unfold npMul
  rw [if_neg hab]
  match a, b, hb with
  | [], _ :: _ :: _, _ => simp
  | [c], b, _ => simp
  | _ :: _ :: _, _ :: _ :: _, _ => simp

/-- **C113** A description function that returns a wrong number of values. For the frequency this is `NotEqualError` with
both numbers. For the amplitude it is `ValueError`, for numpy cannot multiply the arrays; but a single value is broadcast
over the samples, and then the constructor of the amplitude description raises `NotEqualError`. -/
theorem C113_wrong_length (P : SweepPrims K) (u : UncalculatedSweep K) (t : Axis K) (l : List K) (ht : t.array = .ok l)
    (f : List K → Except Err (List K)) (g : K → K) (v : List K) (hv : f l = .ok v) (hlen : v.length ≠ l.length) (tht0 : K) :
    (u.frequencyTime = .func f g → u.call P (.axis t) tht0 = .error (.notEqual l.length v.length)) ∧
    (u.amplitudeTime = .func f g → ∀ ff fg fv, u.frequencyTime = .func ff fg → ff l = .ok fv → fv.length = l.length →
      2 ≤ l.length → u.call P (.axis t) tht0 =
        if v.length = 1 then .error (.notEqual l.length 1) else .error .value) := by
  have hct : u.calcTime (.axis t) = .ok t := by
    simp only [UncalculatedSweep.calcTime, TimeArg.toAxis, except_bind_ok, except_pure]
  have hsize : t.size = .ok l.length := by simp only [Axis.size, ht, Except.map]
  constructor
  · intro hf
    simp only [UncalculatedSweep.call, hct, except_bind_ok, hf, Descr.values, ht, hv, Rel.make, hsize, ne_eq, hlen.symm,
      not_false_eq_true, if_true, except_bind_error]
  · intro ha ff fg fv hf hfv hfl h2
    have hl1 : ((0 : K) :: l.tail.map fun s => 2 * P.pi * P.quad fg t.start s).length = l.length := by
      simp only [List.length_cons, List.length_map, List.length_tail]; omega
    have hm := npMul_wrong v ((0 :: l.tail.map fun s => 2 * P.pi * P.quad fg t.start s).map fun w => P.sin (w + tht0))
      (by rw [List.length_map, hl1]; exact hlen) (by rw [List.length_map, hl1]; exact h2)
    have hl2 : ¬ l.length = 1 := by omega
    by_cases h1 : v.length = 1
    · obtain ⟨b, hb⟩ := hm.1 h1
      simp only [UncalculatedSweep.call, hct, except_bind_ok, hf, ha, Descr.values, ht, hv, hfv, Rel.make, hsize, ne_eq, hfl,
        not_true_eq_false, if_false, except_pure, Descr.tht, funcTht, hl1, hb, h1, hl2, not_false_eq_true, if_true,
        except_bind_error]
    · simp only [UncalculatedSweep.call, hct, except_bind_ok, hf, ha, Descr.values, ht, hv, hfv, Rel.make, hsize, ne_eq, hfl,
        not_true_eq_false, if_false, except_pure, Descr.tht, funcTht, hl1, hm.2 h1, except_bind_error, h1]

/-- the frequency runs with the time, the amplitude function drops the first value: `ValueError`; it gives one value:
`NotEqualError` -/
example : (⟨0, 2, 1⟩ : Axis ℚ).array = .ok [0, 1, 2] ∧
    (UncalculatedSweep.call toyPrims ⟨none, linearTime, .func (fun l => .ok l.tail) id⟩ (.axis ⟨0, 2, 1⟩) 0).map Sweep.rel
      = .error .value ∧
    (UncalculatedSweep.call toyPrims ⟨none, linearTime, .func (fun _ => .ok [5]) id⟩ (.axis ⟨0, 2, 1⟩) 0).map Sweep.rel
      = .error (.notEqual 3 1) ∧
    (UncalculatedSweep.call toyPrims ⟨none, .func (fun l => .ok l.tail) id, constOne⟩ (.axis ⟨0, 2, 1⟩) 0).map Sweep.rel
      = .error (.notEqual 3 2) := by decide +kernel

end

/-! ## Sweeps made of a time -/

/-- **C113** No time: `AttributeError` from `get_linear_sweep` (`None` has no `array`), `ValueError` from `get_shuffle` and
`get_dwell_sweep`, whatever the other arguments are. A time array of less than two numbers raises `ValueError` in the last
two. -/
theorem C113_no_time (P : SweepPrims ℝ) (fs fe length : ℝ) (rn : Option ℤ) (tt : Option ℝ) (shuffle : List ℝ → List ℝ)
    (fs' fc' fe' : Option ℝ) (data : AprData) (l : List ℝ) (hl : l.length ≤ 1) (isFloat : Bool) :
    getLinearSweep P .none fs fe tt = .error .typeError ∧
    getShuffle P .none fs fe length rn tt shuffle = .error .value ∧
    getDwellSweep P .none fs' fc' fe' tt data = .error .value ∧
    getShuffle P (.array l isFloat) fs fe length rn tt shuffle = .error .value ∧
    getDwellSweep P (.array l isFloat) fs' fc' fe' tt data = .error .value := by
  have h : ∀ b, axisFromArray l isFloat b = .error .value := by
    intro b
    match l, hl with
    | [], _ => rfl
    | [a], _ => rfl
  refine ⟨rfl, rfl, rfl, ?_, ?_⟩
  · simp only [getShuffle, TimeArg.toAxis, h, except_bind_error]
  · simp only [getDwellSweep, TimeArg.asAxis, h, except_bind_error]

/-- **C113** A zero sample raises `ZeroDivisionError` in all three prepared sweeps; `get_shuffle` and `get_dwell_sweep` get
that far if the segment is longer than the sample, its number of frequencies is not negative and the
a-priori data can be converted. -/
theorem C113_zero_sample (P : SweepPrims ℝ) (a b fs fe length : ℝ) (rn : Option ℤ) (tt : Option ℝ)
    (shuffle : List ℝ → List ℝ) (fs' fc' fe' : Option ℝ) (data : AprData) :
    getLinearSweep P (.axis ⟨a, b, 0⟩) fs fe tt = .error .zeroDivision ∧
    (0 < length → 0 ≤ ⌈b / length⌉ + 1 →
      getShuffle P (.axis ⟨a, b, 0⟩) fs fe length rn tt shuffle = .error .zeroDivision) ∧
    (∀ u, AprSweep.init (.axis ⟨a, b, 0⟩) data (dwell fs' fe' fc') = .ok u →
      getDwellSweep P (.axis ⟨a, b, 0⟩) fs' fc' fe' tt data = .error .zeroDivision) := by
  have h0 : (⟨a, b, 0⟩ : Axis ℝ).array = .error .zeroDivision := by simp only [Axis.array, if_true]
  refine ⟨?_, fun hl hn => ?_, fun u hu => ?_⟩
  · simp only [getLinearSweep, TimeArg.timeArray, h0, except_bind_error]
  · simp only [getShuffle, TimeArg.toAxis, except_bind_ok, shuffleFrequency, ge_iff_le, not_le.2 hl, if_false,
      segmentFrequencies, nSegments, hl.ne', not_lt.2 hn, except_pure, risingCos, if_true, except_bind_error]
  · simp only [getDwellSweep, TimeArg.asAxis, except_bind_ok, hu, h0, except_bind_error]

/-- **C113** `get_shuffle` with a negative sample or an end so far before zero that `np.linspace` is asked for a negative
number of segment frequencies: `ValueError`; with a segment of length zero: `ZeroDivisionError`. -/
theorem C113_shuffle (P : SweepPrims ℝ) (t : Axis ℝ) (fs fe length : ℝ) (rn : Option ℤ) (tt : Option ℝ)
    (shuffle : List ℝ → List ℝ) (h : t.sample < length) :
    (length = 0 → getShuffle P (.axis t) fs fe length rn tt shuffle = .error .zeroDivision) ∧
    (length ≠ 0 → ⌈t.stop / length⌉ + 1 < 0 → getShuffle P (.axis t) fs fe length rn tt shuffle = .error .value) ∧
    (length ≠ 0 → 0 ≤ ⌈t.stop / length⌉ + 1 → t.sample ≠ 0 → ⌈length / t.sample⌉ + 1 < 0 →
      getShuffle P (.axis t) fs fe length rn tt shuffle = .error .value) := by
  refine ⟨fun h0 => ?_, fun h0 hn => ?_, fun h0 hn hs hn' => ?_⟩
  · subst h0
    simp only [getShuffle, TimeArg.toAxis, except_bind_ok, shuffleFrequency, ge_iff_le, not_le.2 h, if_false,
      segmentFrequencies, nSegments, if_true, except_bind_error]
  · simp only [getShuffle, TimeArg.toAxis, except_bind_ok, shuffleFrequency, ge_iff_le, not_le.2 h, if_false,
      segmentFrequencies, nSegments, h0, hn, if_true, except_bind_error]
  · simp only [getShuffle, TimeArg.toAxis, except_bind_ok, shuffleFrequency, ge_iff_le, not_le.2 h, if_false,
      segmentFrequencies, nSegments, h0, not_lt.2 hn, except_pure, risingCos, hs, hn', if_true, except_bind_error]

/-- an axis from -10 to -5 with sample 1 and segments of 2: `⌈-5 / 2⌉ + 1 = -1`; with sample -1 and end 4 there are two
segments but the cosine would have `⌈2 / -1⌉ + 1 = -1` samples -/
example : (1 : ℝ) < 2 ∧ ⌈(-5 : ℝ) / 2⌉ + 1 < 0 ∧ 0 ≤ ⌈(4 : ℝ) / 2⌉ + 1 ∧ ⌈(2 : ℝ) / -1⌉ + 1 < 0 := by
  have h1 : ⌈(-5 : ℝ) / 2⌉ = -2 := by rw [Int.ceil_eq_iff]; norm_num
  have h2 : ⌈(4 : ℝ) / 2⌉ = 2 := by rw [Int.ceil_eq_iff]; norm_num
  have h3 : ⌈(2 : ℝ) / -1⌉ = -2 := by rw [Int.ceil_eq_iff]; norm_num
  rw [h1, h2, h3]
  norm_num

/-! ## A-priori data -/

/-- **C113** A-priori sweeps: no data raises `BadInputError` whatever the time and the conversion method are; bare values
without a time raise `ValueError`; values of another number than the points of the time raise `NotEqualError` with both
numbers. The exception of a conversion method is passed on. -/
theorem C113_a_priori (time : TimeArg ℝ) (method : Rel ℝ ℂ → Except Err (List ℝ × List ℝ × List ℝ)) (l : List ℝ) :
    (AprSweep.init time .none method).map AprSweep.aPrior = .error .badInput ∧
    (AprSweep.init .none (.array l) method).map AprSweep.aPrior = .error .value ∧
    (∀ t n, t.size = .ok n → n ≠ l.length →
      (AprSweep.init (.axis t) (.array l) method).map AprSweep.aPrior = .error (.notEqual n l.length)) ∧
    (∀ s spec e, Rel.getSpectrum s = .ok spec → method spec = .error e →
      (AprSweep.init time (.signal s) method).map AprSweep.aPrior = .error e) := by
  refine ⟨rfl, rfl, fun t n hn hl => ?_, fun s spec e hs he => ?_⟩
  · simp only [AprSweep.init, aprInfo, Rel.init, Rel.make, hn, except_bind_ok, ne_eq, hl, not_false_eq_true, if_true,
      except_bind_error, Except.map]
  · simp only [AprSweep.init, aprInfo, hs, except_bind_ok, except_pure, he, except_bind_error, Except.map]

example : (⟨0, 2, 1⟩ : Axis ℚ).size = .ok 3 ∧ 3 ≠ ([1, 2] : List ℚ).length := by decide +kernel

/-! ## Signals running backwards -/

/-- **C113** `get_spectrum` prolongs a signal that starts after time zero, or ends before it, to time zero. If the axis
prolonged has less points than the signal has samples, which happens when the signal runs backwards, `ValueError` is
raised, whatever frequencies are asked for; with `is_start_zero` the signal is taken as it is. -/
theorem C113_backwards (r : Rel ℝ ℝ) (freq : SizeArg) (m : ℕ) (hm : m < r.y.length) :
    (0 < r.x.start → (⟨0, r.x.stop, r.x.sample⟩ : Axis ℝ).size = .ok m → r.getSpectrum freq = .error .value) ∧
    (r.x.start ≤ 0 → r.x.stop < 0 → (⟨r.x.start, 0, r.x.sample⟩ : Axis ℝ).size = .ok m →
      r.getSpectrum freq = .error .value) := by
  have hz : npZeros ((m : ℤ) - r.y.length) = .error .value := by
    unfold npZeros
    rw [if_pos (by omega)]
  refine ⟨fun h0 hs => ?_, fun h0 h1 hs => ?_⟩
  · simp only [Rel.getSpectrum, signal2spectrum, Bool.false_eq_true, if_false, h0, if_true, hs, except_bind_ok, hz,
      except_bind_error]
  · simp only [Rel.getSpectrum, signal2spectrum, Bool.false_eq_true, if_false, not_lt.2 h0, h1, if_true, hs, except_bind_ok,
      hz, except_bind_error]

/-- from 5 down to 1 there are five samples, from 0 to 1 two points; from -1 down to -5 five samples, from -1 to 0 two
points -/
example : (⟨5, 1, 1⟩ : Axis ℚ).size = .ok 5 ∧ (⟨0, 1, 1⟩ : Axis ℚ).size = .ok 2 ∧ (⟨-1, -5, 1⟩ : Axis ℚ).size = .ok 5 ∧
    (⟨-1, 0, 1⟩ : Axis ℚ).size = .ok 2 := by decide +kernel

end SweepDesign
