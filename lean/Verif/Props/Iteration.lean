import Verif.Model.Iteration
import Verif.Props.Relation
import Verif.Props.Axis
import Verif.Lemmas.Spectral

/-!
# C99: iterating over a relation
-/

set_option linter.unusedSectionVars false

namespace SweepDesign
open Spec

variable {K : Type} [Field K] [LinearOrder K] [IsStrictOrderedRing K] [FloorRing K] {V : Type}

theorem seqIter_ok {α : Type} {get : ℕ → Except Err α} {f : ℕ → α} (h : ∀ i, get i = .ok (f i)) (n i : ℕ) :
    seqIter get n i = ((List.range n).map fun k => f (i + k), .running) := by
  induction n generalizing i with
  | zero => rfl
  | succ n ih =>
    rw [seqIter, h i]
    simp only [ih, List.range_succ_eq_map, List.map_cons, List.map_map, Nat.add_zero]
    congr 2
    refine List.map_congr_left fun k _ => ?_
    simp only [Function.comp_apply]
    congr 1
    omega

/-- the sample that item `i` is -/
theorem item_exists {r : Rel K V} {lx : List K} {ly : List V} (h : r.getData = .ok (lx, ly)) :
    ∃ f : ℕ → K × V, ∀ i : ℕ, r.getItem (i : K) = .ok (f i) := by
  have := fun i : ℕ => C12_nearest_sample r lx ly h (i : K)
  choose j hj hj' e _ _ using this
  exact ⟨_, e⟩

/-- **C99.** An iteration over a relation never ends: however often it is asked, there is one more item. -/
theorem C99_never_ends (r : Rel K V) (lx : List K) (ly : List V) (h : r.getData = .ok (lx, ly)) (n : ℕ) :
    (r.iter n).2 = .running ∧ (r.iter n).1.length = n := by
  obtain ⟨f, hf⟩ := item_exists h
  unfold Rel.iter
  rw [seqIter_ok hf]
  simp

/-- Item `i` is the first of the samples nearest to the position `i` on the axis. -/
theorem C99_items (r : Rel K V) (lx : List K) (ly : List V) (h : r.getData = .ok (lx, ly)) (n i : ℕ) (hi : i < n) :
    ∃ (j : ℕ) (hj : j < lx.length) (hj' : j < ly.length), (r.iter n).1[i]? = some (lx[j], ly[j]) ∧
      (∀ k (hk : k < lx.length), |lx[j] - i| ≤ |lx[k] - i|) ∧ (∀ k (hk : k < lx.length), k < j → |lx[j] - i| < |lx[k] - i|) := by
  obtain ⟨f, hf⟩ := item_exists h
  obtain ⟨j, hj, hj', e, h1, h2⟩ := C12_nearest_sample r lx ly h (i : K)
  refine ⟨j, hj, hj', ?_, h1, h2⟩
  rw [hf i] at e
  unfold Rel.iter
  rw [seqIter_ok hf, List.getElem?_map, List.getElem?_range hi]
  simpa using e

theorem array_pairwise {a : Axis K} {l : List K} (h : a.array = .ok l) (hi : a.start ≤ a.stop) : l.Pairwise (· < ·) := by
  have hs : a.sample ≠ 0 := by
    intro e
    rw [a.array_zero e] at h
    cases h
  obtain ⟨l', n, d, e, -, hn, hln, -, -, -, hp, -⟩ := C02_array_shape a hs
  rw [h] at e
  simp only [Except.ok.injEq] at e
  subst e
  rcases hi.lt_or_eq with hlt | heq
  · exact hp hlt
  · have : l.length = 1 := by
      have h0 : a.steps = 0 := by unfold Axis.steps; rw [heq, sub_self, zero_div, abs_zero]; simp [pyRound]
      have := (Axis.array_spaced h).1
      omega
    obtain ⟨x, rfl⟩ := List.length_eq_one_iff.1 this
    exact List.pairwise_singleton _ _

/-- From the end of the axis on it is the last sample again and again. -/
theorem C99_tail (r : Rel K V) (lx : List K) (ly : List V) (h : r.getData = .ok (lx, ly)) (hx : r.x.start ≤ r.x.stop) (n i : ℕ)
    (hi : i < n) (hs : ∀ x ∈ lx, x ≤ i) : (r.iter n).1[i]? = (lx.zip ly).getLast? := by
  obtain ⟨j, hj, hj', e, h1, h2⟩ := C99_items r lx ly h n i hi
  obtain ⟨ha, rfl, hlen⟩ := (getData_ok_iff _ _ _).1 h
  have hp := array_pairwise ha hx
  have hlast : j = lx.length - 1 := by
    by_contra hne
    have hlt : lx[j] < lx[lx.length - 1] := List.pairwise_iff_getElem.1 hp j (lx.length - 1) hj (by omega) (by omega)
    have hle := hs _ (List.getElem_mem (show lx.length - 1 < lx.length by omega))
    have := h1 (lx.length - 1) (by omega)
    rw [abs_of_nonpos (by linarith), abs_of_nonpos (by linarith)] at this
    linarith
  subst hlast
  rw [e, List.getLast?_eq_getElem?, List.length_zip, ← hlen, Nat.min_self, List.getElem?_eq_getElem (by simp; omega)]
  simp

/-- For samples at 0, 1, 2, … the items are the samples in order, and then the last one repeated. -/
theorem C99_samples (r : Rel K V) (lx : List K) (ly : List V) (h : r.getData = .ok (lx, ly))
    (hx : lx = (List.range lx.length).map fun i : ℕ => (i : K)) : (r.iter lx.length).1 = lx.zip ly := by
  have hlen := ((getData_ok_iff _ _ _).1 h).2.2
  refine List.ext_getElem? fun i => ?_
  by_cases hi : i < lx.length
  · obtain ⟨j, hj, hj', e, h1, -⟩ := C99_items r lx ly h lx.length i hi
    have hv : ∀ k (hk : k < lx.length), lx[k] = (k : K) := fun k hk => by
      have := congrArg (fun l => l[k]?) hx
      simp only [List.getElem?_eq_getElem hk, List.getElem?_map, List.getElem?_range hk, Option.map_some, Option.some.injEq] at this
      exact this
    have := h1 i hi
    rw [hv i hi, sub_self, abs_zero] at this
    have h0 := abs_eq_zero.1 (le_antisymm this (abs_nonneg _))
    rw [hv j hj, sub_eq_zero, Nat.cast_inj] at h0
    subst h0
    rw [e, List.getElem?_eq_getElem (by simp; omega)]
    simp
  · rw [List.getElem?_eq_none (by rw [(C99_never_ends r lx ly h lx.length).2]; omega),
      List.getElem?_eq_none (by simp; omega)]

/-- `reversed(r)` ends: it gives as many items as there are samples, the items `n - 1`, …, 1, 0 of the iteration. -/
theorem C99_reversed (r : Rel K V) (lx : List K) (ly : List V) (h : r.getData = .ok (lx, ly)) :
    r.reversed = .ok ((r.iter lx.length).1.reverse) := by
  obtain ⟨f, hf⟩ := item_exists h
  obtain ⟨ha, rfl, hlen⟩ := (getData_ok_iff _ _ _).1 h
  have hm : ∀ l : List ℕ, (l.mapM fun i : ℕ => r.getItem (i : K)) = .ok (l.map f) := by
    intro l
    induction l with
    | nil => rfl
    | cons a l ih => rw [List.mapM_cons, hf, ih]; rfl
  unfold Rel.reversed Rel.len Rel.iter
  rw [Axis.size_of_array ha, seqIter_ok hf]
  simp only [except_bind_ok, hm, List.map_reverse, Nat.zero_add]

/-- Indexing by an object that is neither a number nor a slice returns nothing; numbers and slices are C12. -/
theorem C99_other (r : Rel K V) (v : K) (a b : Option K) :
    r.pyGetItem .other = .ok .none ∧
    (∀ x y, r.pyGetItem (.number v) = .ok (.pair x y) ↔ r.getItem v = .ok (x, y)) ∧
    (∀ q, r.pyGetItem (.slice a b) = .ok (.rel q) ↔ r.selectData a b = .ok q) := by
  refine ⟨rfl, fun x y => ?_, fun q => ?_⟩
  · simp only [Rel.pyGetItem]
    rcases r.getItem v with e | ⟨x', y'⟩
    · simp
    · simp [except_pure]
  · simp only [Rel.pyGetItem, Rel.getSlice]
    rcases r.selectData a b with e | q'
    · simp
    · simp [except_pure]

/-- A relation cannot be unpacked. -/
theorem C99_unpack (r : Rel K V) (lx : List K) (ly : List V) (h : r.getData = .ok (lx, ly)) (k : ℕ) :
    r.unpack k = .error .value := by
  have := C99_never_ends r lx ly h (k + 1)
  unfold Rel.unpack
  rcases hr : r.iter (k + 1) with ⟨l, s⟩
  rw [hr] at this
  obtain ⟨rfl, -⟩ := this
  rfl

section
/-- samples at 0, 2, 4: position 1 is as near to 0 as to 2 -/
def every2 : Rel ℚ ℚ := ⟨⟨0, 4, 2⟩, [10, 20, 30]⟩

example : every2.getData = .ok ([0, 2, 4], [10, 20, 30]) ∧
    every2.iter 7 = ([(0, 10), (0, 10), (2, 20), (2, 20), (4, 30), (4, 30), (4, 30)], .running) ∧
    every2.reversed = .ok [(2, 20), (0, 10), (0, 10)] ∧ every2.unpack 3 = .error .value := by
  refine ⟨?_, ?_, ?_, ?_⟩ <;> decide +kernel

/-- After the axis of a relation with two samples was stretched, `get_data` raises, and the iteration ends with the first position
that is nearest to a point without a sample. -/
example : (⟨⟨0, 3, 1⟩, [10, 20]⟩ : Rel ℚ ℚ).getData = .error (.notEqual 4 2) ∧
    (⟨⟨0, 3, 1⟩, [10, 20]⟩ : Rel ℚ ℚ).iter 7 = ([(0, 10), (1, 20)], .stopped) := by
  refine ⟨?_, ?_⟩ <;> decide +kernel

/-- That relation can be unpacked, into two names; into one or three it cannot. -/
theorem C99_unpack_witness :
    (⟨⟨0, 3, 1⟩, [10, 20]⟩ : Rel ℚ ℚ).unpack 2 = .ok [(0, 10), (1, 20)] ∧
    (⟨⟨0, 3, 1⟩, [10, 20]⟩ : Rel ℚ ℚ).unpack 1 = .error .value ∧ (⟨⟨0, 3, 1⟩, [10, 20]⟩ : Rel ℚ ℚ).unpack 3 = .error .value := by
  refine ⟨?_, ?_, ?_⟩ <;> decide +kernel

/-- Making a list or an array of a relation gives no result, however long one waits. -/
theorem C99_no_list (r : Rel K V) (lx : List K) (ly : List V) (h : r.getData = .ok (lx, ly)) (n : ℕ) : r.listed n = none := by
  have := (C99_never_ends r lx ly h n).1
  unfold Rel.listed
  rcases hr : r.iter n with ⟨l, s⟩
  rw [hr] at this
  obtain rfl := this
  rfl

/-- `p in r` is never answered with `False`. It is answered with `True` if and only if `p` is the item of some whole number, and otherwise
never; in particular only for pairs that are a position with its sample. On the axis 0, 1, 2, .. it is answered for each of those. -/
theorem C99_in [DecidableEq V] (r : Rel K V) (lx : List K) (ly : List V) (h : r.getData = .ok (lx, ly)) (p : K × V) :
    (∀ n, r.contains p n = some (.ok true) ∨ r.contains p n = none) ∧
    ((∃ n, r.contains p n = some (.ok true)) ↔ ∃ i : ℕ, r.getItem (i : K) = .ok p) ∧
    ((∃ n, r.contains p n = some (.ok true)) → p ∈ lx.zip ly) ∧
    (lx = (List.range lx.length).map (fun i : ℕ => (i : K)) → p ∈ lx.zip ly → ∃ n, r.contains p n = some (.ok true)) := by
  obtain ⟨f, hf⟩ := item_exists h
  have hlist : ∀ n, (r.iter n).1 = (List.range n).map fun i => f i := by
    intro n
    unfold Rel.iter
    rw [seqIter_ok hf]
    simp
  have hsome : ∀ n, r.contains p n = some (.ok true) ↔ p ∈ (r.iter n).1 := by
    intro n
    unfold Rel.contains
    rw [(C99_never_ends r lx ly h n).1]
    split <;> simp_all
  have hiff : (∃ n, r.contains p n = some (.ok true)) ↔ ∃ i : ℕ, r.getItem (i : K) = .ok p := by
    constructor
    · rintro ⟨n, hn⟩
      rw [hsome, hlist, List.mem_map] at hn
      obtain ⟨i, -, rfl⟩ := hn
      exact ⟨i, hf i⟩
    · rintro ⟨i, hi⟩
      refine ⟨i + 1, ?_⟩
      rw [hsome, hlist, List.mem_map]
      rw [hf i, Except.ok.injEq] at hi
      exact ⟨i, by simp, hi⟩
  refine ⟨fun n => ?_, hiff, fun he => ?_, fun hx hp => ?_⟩
  · unfold Rel.contains
    rw [(C99_never_ends r lx ly h n).1]
    split <;> simp
  · obtain ⟨i, hi⟩ := hiff.1 he
    obtain ⟨j, hj, hj', e, -⟩ := C12_nearest_sample r lx ly h (i : K)
    rw [hi, Except.ok.injEq] at e
    rw [e]
    refine List.mem_iff_getElem.2 ⟨j, by simp [hj, hj'], by simp⟩
  · refine ⟨lx.length, ?_⟩
    rw [hsome, C99_samples r lx ly h hx]
    exact hp

/-- The pair of the middle sample of the axis 0, 1/2, 1 is never found. -/
theorem C99_in_witness (n : ℕ) : (⟨⟨0, 1, 1/2⟩, [10, 20, 30]⟩ : Rel ℚ ℚ).contains (1/2, 20) n = none := by
  have hd : (⟨⟨0, 1, 1/2⟩, [10, 20, 30]⟩ : Rel ℚ ℚ).getData = .ok ([0, 1/2, 1], [10, 20, 30]) := by decide +kernel
  obtain ⟨h1, h2, -⟩ := C99_in _ _ _ hd ((1/2, 20) : ℚ × ℚ)
  rcases h1 n with h | h
  · obtain ⟨i, hi⟩ := h2.1 ⟨n, h⟩
    obtain ⟨j, hj, hj', e, hm, -⟩ := C12_nearest_sample _ _ _ hd (i : ℚ)
    rw [hi, Except.ok.injEq] at e
    have h0 := hm 0 (by simp)
    have h2 := hm 2 (by simp)
    have hx : (1/2 : ℚ) = [0, 1/2, 1][j] := congrArg Prod.fst e
    rw [← hx] at h0 h2
    simp only [List.getElem_cons_zero, List.getElem_cons_succ] at h0 h2
    rcases Nat.eq_zero_or_pos i with rfl | hp
    · norm_num at h0
    · have hp' : (1 : ℚ) ≤ i := by exact_mod_cast hp
      rw [abs_of_nonpos (by linarith), abs_of_nonpos (by linarith)] at h2
      linarith
  · exact h

end

end SweepDesign
