import Verif.Props.Relation
import Verif.Lemmas.Arith

/-!
# C111: windows and operations

`select_data` cuts a window out of a relation. Computing on the window and cutting the window out of what was computed
for the whole relation give the same relation: for the operators with a number and with a relation on the same axis,
for `exp` and for `diff`. The integral over a window differs from the integral of the whole by the value reached at the
beginning of the window, and the integrals over two neighbouring windows add up.
-/

set_option linter.unusedSectionVars false

namespace SweepDesign
open Spec

variable {K : Type} [Field K] [LinearOrder K] [IsStrictOrderedRing K] [FloorRing K]

/-! ### What a window is, as a function of the axis alone -/

theorem filter_eq_of_sub {α : Type} (p : α → Bool) : ∀ (l : List α) (i k : ℕ),
    (∀ j (h : j < l.length), p l[j] = decide (i ≤ j ∧ j < i + k)) → l.filter p = (l.drop i).take k := by
  intro l
  induction l with
  | nil => intro i k _; simp
  | cons a l ih =>
    intro i k h
    have h0 := h 0 (by simp)
    have hs : ∀ j (hj : j < l.length), p l[j] = decide (i ≤ j + 1 ∧ j + 1 < i + k) := fun j hj => by
      have := h (j + 1) (by simpa using hj)
      simpa using this
    cases i with
    | zero =>
      cases k with
      | zero =>
        have : p a = false := by simpa using h0
        rw [List.filter_cons_of_neg (by simp [this]), ih 0 0 (fun j hj => by rw [hs j hj]; simp)]
        simp
      | succ k =>
        have : p a = true := by simpa using h0
        rw [List.filter_cons_of_pos this, ih 0 k (fun j hj => by rw [hs j hj]; simp)]
        simp
    | succ i =>
      have : p a = false := by simpa using h0
      rw [List.filter_cons_of_neg (by simp [this]), ih i k (fun j hj => by
        rw [hs j hj]; congr 1; exact propext ⟨fun h => ⟨by omega, by omega⟩, fun h => ⟨by omega, by omega⟩⟩)]
      simp

theorem convex_range (P : ℕ → Prop) [DecidablePred P] (n : ℕ)
    (h : ∀ i j k, k < n → i < j → j < k → P i → P k → P j) :
    (∀ j, j < n → ¬ P j) ∨ ∃ i k, 1 ≤ k ∧ i + k ≤ n ∧ ∀ j, j < n → (P j ↔ i ≤ j ∧ j < i + k) := by
  by_cases hne : ∃ j, j < n ∧ P j
  · right
    set i := Nat.find hne with hi
    obtain ⟨hi1, hi2⟩ : i < n ∧ P i := Nat.find_spec hne
    set m := Nat.findGreatest P (n - 1) with hm
    have hmi : i ≤ m := Nat.le_findGreatest (by omega) hi2
    have hmn : m ≤ n - 1 := Nat.findGreatest_le _
    have hPm : P m := Nat.findGreatest_spec (P := P) (by omega : i ≤ n - 1) hi2
    refine ⟨i, m + 1 - i, by omega, by omega, fun j hj => ⟨fun hp => ⟨Nat.find_min' hne ⟨hj, hp⟩, ?_⟩, ?_⟩⟩
    · have := Nat.le_findGreatest (P := P) (by omega : j ≤ n - 1) hp
      omega
    · rintro ⟨h1, h2⟩
      rcases Nat.eq_or_lt_of_le h1 with rfl | h1
      · exact hi2
      rcases Nat.eq_or_lt_of_le (by omega : j ≤ m) with rfl | h3
      · exact hPm
      exact h i j m (by omega) h1 h3 hi2 hPm
  · left
    intro j hj hp
    exact hne ⟨j, hj, hp⟩

/-- The window depends on the axis and the bounds only: `k` consecutive samples from the `i`-th on, with a new axis `nx`;
or no sample, and then `IndexError`. -/
theorem select_shape (x : Axis K) (lx : List K) (hx : x.array = .ok lx) (a b : Option K) :
    ((∀ j (h : j < lx.length), ¬ (a.getD x.start ≤ lx[j] ∧ lx[j] ≤ b.getD x.stop)) ∧
      ∀ {V : Type} (y : List V), y.length = lx.length → (⟨x, y⟩ : Rel K V).selectData a b = .error .index) ∨
    ∃ (nx : Axis K) (i k : ℕ), 1 ≤ k ∧ i + k ≤ lx.length ∧ nx.sample = x.sample ∧
      nx.start = x.start + i * x.step ∧ nx.stop = x.start + i * x.step + ((k : K) - 1) * x.step ∧
      nx.array = .ok ((lx.drop i).take k) ∧
      (∀ j (h : j < lx.length), (a.getD x.start ≤ lx[j] ∧ lx[j] ≤ b.getD x.stop) ↔ i ≤ j ∧ j < i + k) ∧
      ∀ {V : Type} (y : List V), y.length = lx.length →
        (⟨x, y⟩ : Rel K V).selectData a b = .ok ⟨nx, (y.drop i).take k⟩ := by
  obtain ⟨hs, -⟩ := (x.array_ok_iff lx).1 hx
  have hsp := Axis.array_spaced hx
  set lo := a.getD x.start with hlo
  set hi := b.getD x.stop with hhi
  rcases convex_range (fun j => lo ≤ x.start + j * x.step ∧ x.start + j * x.step ≤ hi) lx.length (by
    intro i j k _ hij hjk h1 h2
    have e1 : (i : K) < j := by exact_mod_cast hij
    have e2 : (j : K) < k := by exact_mod_cast hjk
    rcases le_total 0 x.step with hd | hd
    · constructor <;> nlinarith
    · constructor <;> nlinarith) with hno | ⟨i, k, hk, hik, hiff⟩
  · left
    refine ⟨fun j hj => by rw [hsp.2 j hj]; exact hno j hj, ?_⟩
    intro V y hy
    have : lx.filter (fun t => decide (lo ≤ t) && decide (t ≤ hi)) = [] := by
      rw [List.filter_eq_nil_iff]
      intro t ht
      obtain ⟨j, hj, rfl⟩ := List.mem_iff_getElem.1 ht
      have := hno j hj
      rw [← hsp.2 j hj] at this
      simpa using this
    have hm := maskSelect_self (fun t => decide (lo ≤ t) && decide (t ≤ hi)) lx
    rw [this] at hm
    simp only [Rel.selectData, hx, except_bind_ok, ← hlo, ← hhi, hm]
    simp
  · right
    have hp : ∀ j (h : j < lx.length), (decide (lo ≤ lx[j]) && decide (lx[j] ≤ hi)) = decide (i ≤ j ∧ j < i + k) := by
      intro j hj
      rw [← Bool.decide_and, decide_eq_decide, hsp.2 j hj]
      exact hiff j hj
    have hm1 : maskSelect (lx.map fun t => decide (lo ≤ t) && decide (t ≤ hi)) lx = .ok ((lx.drop i).take k) := by
      rw [maskSelect_self, filter_eq_of_sub _ lx i k hp]
    have hll : ((lx.drop i).take k).length = k := by simp; omega
    have hselsp : EvenlySpaced ((lx.drop i).take k) (x.start + i * x.step) x.step k := by
      refine ⟨hll, ?_⟩
      intro j hj
      rw [List.getElem_take, List.getElem_drop, hsp.2]
      push_cast
      ring
    have hst : Axis.steps (⟨x.start + i * x.step,
        x.start + i * x.step + ((k : K) - 1) * x.step, x.sample⟩ : Axis K) + 1 = k := by
      rw [steps_of_subrange x (k - 1) (by rw [hsp.1] at hik; omega)]
      · omega
      · rw [Nat.cast_sub hk]; push_cast; ring
    have harr := spaced_array_of_steps hselsp hk hs hst
    refine ⟨⟨x.start + i * x.step, x.start + i * x.step + ((k : K) - 1) * x.step, x.sample⟩, i, k, hk, hik, rfl, rfl, rfl,
      harr, fun j hj => ?_, ?_⟩
    · rw [hsp.2 j hj]; exact hiff j hj
    intro V y hy
    have hm2 : maskSelect (lx.map fun t => decide (lo ≤ t) && decide (t ≤ hi)) y = .ok ((y.drop i).take k) := by
      rw [maskSelect_snd _ _ _ hy.symm, filter_eq_of_sub _ (lx.zip y) i k (by
        intro j hj
        rw [List.getElem_zip]
        exact hp j (by simp at hj; omega)), List.map_take, List.map_drop, List.map_snd_zip (by omega)]
    simp only [Rel.selectData, hx, except_bind_ok, ← hlo, ← hhi, hm1, hm2, hselsp.head hk, hselsp.last hk]
    apply make_ok
    rw [Axis.size_of_array harr, hll]
    simp; omega

section
variable {V : Type}

/-- `select_shape` for a balanced relation -/
theorem select_cases (r : Rel K V) (hb : Balanced r) (a b : Option K) :
    ((∀ j, j < r.y.length → ¬ (a.getD r.x.start ≤ r.x.start + j * r.x.step ∧ r.x.start + j * r.x.step ≤ b.getD r.x.stop)) ∧
      ∀ {W : Type} (y : List W), y.length = r.y.length → (⟨r.x, y⟩ : Rel K W).selectData a b = .error .index) ∨
    ∃ (nx : Axis K) (i k : ℕ), 1 ≤ k ∧ i + k ≤ r.y.length ∧ nx.sample = r.x.sample ∧
      nx.start = r.x.start + i * r.x.step ∧ nx.stop = r.x.start + i * r.x.step + ((k : K) - 1) * r.x.step ∧
      nx.size = .ok k ∧
      (∀ j, j < r.y.length → ((a.getD r.x.start ≤ r.x.start + j * r.x.step ∧ r.x.start + j * r.x.step ≤ b.getD r.x.stop) ↔
        i ≤ j ∧ j < i + k)) ∧
      ∀ {W : Type} (y : List W), y.length = r.y.length →
        (⟨r.x, y⟩ : Rel K W).selectData a b = .ok ⟨nx, (y.drop i).take k⟩ := by
  obtain ⟨⟨lx, ly⟩, hd⟩ := (balanced_iff_getData r).1 hb
  obtain ⟨hx, rfl, hlen⟩ := (getData_ok_iff _ _ _).1 hd
  have hsp := Axis.array_spaced hx
  rcases select_shape r.x lx hx a b with h | ⟨nx, i, k, h1, h2, h3, h4, h5, h6, h7, h8⟩
  · left
    refine ⟨fun j hj => ?_, fun y hy => h.2 y (by omega)⟩
    rw [← hsp.2 j (by omega)]
    exact h.1 j (by omega)
  · right
    refine ⟨nx, i, k, h1, by omega, h3, h4, h5, ?_, ?_, fun y hy => h8 y (by omega)⟩
    · rw [Axis.size_of_array h6]; congr 1; simp; omega
    · intro j hj
      rw [← hsp.2 j (by omega)]
      exact h7 j (by omega)

end

section
variable {V : Type} [Field V] [Algebra K V] [DecidableEq V] [PyPow V]

theorem finite_sub (l : List (Option V)) (m : List V) (h : finite l = .ok m) (i k : ℕ) :
    finite ((l.drop i).take k) = .ok ((m.drop i).take k) := by
  rw [finite_ok_iff] at h ⊢
  rw [h, List.map_take, List.map_drop]

/-- **C111.** An operator with a number applied to the whole relation, then windowed: the operator applied to the
window. -/
theorem C111_number (r q : Rel K V) (hb : Balanced r) (op : MathOp) (c : V) (h : r.operation (.other (.num c)) op = .ok q)
    (a b : Option K) :
    q.selectData a b = (r.selectData a b >>= fun w => w.operation (.other (.num c)) op) := by
  obtain ⟨x, y⟩ := r
  simp only [Rel.operation, mathOperation, except_bind_eq_ok] at h
  obtain ⟨z, hz, h⟩ := h
  obtain ⟨hq, rfl⟩ := (make_ok_iff _ _ _).1 h
  have hzl : z.length = y.length := by
    have := congrArg List.length ((finite_ok_iff _ _).1 hz)
    simpa using this.symm
  rcases select_cases ⟨x, y⟩ hb a b with ⟨-, h⟩ | ⟨nx, i, k, h1, h2, h3, h4, h5, h6, h7, h8⟩
  · rw [h z hzl, h y rfl]; rfl
  · rw [h8 z hzl, h8 y rfl]
    simp only [except_bind_ok, Rel.operation, mathOperation]
    rw [List.map_take, List.map_drop, finite_sub _ _ hz]
    simp only [except_bind_ok]
    rw [make_ok]
    rw [h6]; congr 1; simp at h2 ⊢; omega

/-- **C111.** The same for `exp`. -/
theorem C111_exp (r p : Rel K V) (hb : Balanced r) (e : V → V) (h : r.exp e = .ok p) (a b : Option K) :
    p.selectData a b = (r.selectData a b >>= fun w => w.exp e) := by
  obtain ⟨x, y⟩ := r
  obtain ⟨hp, rfl⟩ := (make_ok_iff _ _ _).1 h
  rcases select_cases ⟨x, y⟩ hb a b with ⟨-, h⟩ | ⟨nx, i, k, h1, h2, h3, h4, h5, h6, h7, h8⟩
  · rw [h _ (by simp), h y rfl]; rfl
  · rw [h8 _ (by simp), h8 y rfl]
    simp only [except_bind_ok, Rel.exp]
    rw [make_ok, List.map_take, List.map_drop]
    rw [h6]; congr 1; simp at h2 ⊢; omega

/-- **C111.** The same for two relations on equal axes (the two windows again have equal axes). -/
theorem C111_pair (r1 r2 q : Rel K V) (h1 : Balanced r1) (h2 : Balanced r2) (hx : r1.x = r2.x) (same same' : Bool) (op : MathOp)
    (h : r1.operation (.rel same r2) op = .ok q) (a b : Option K) :
    q.selectData a b =
      (r1.selectData a b >>= fun w1 => r2.selectData a b >>= fun w2 => w1.operation (.rel same' w2) op) := by
  have hl := balanced_length_eq h1 h2 hx
  rw [operation_equal_axes same r1 r2 op h1 h2 hx] at h
  obtain ⟨x, y1⟩ := r1
  obtain ⟨x', y2⟩ := r2
  simp only at hx hl
  subst hx
  rcases finite_cases (List.zipWith op.fn y1 y2) with ⟨z, hz⟩ | hz
  swap
  · rw [hz] at h; simp [Except.map] at h
  rw [hz] at h
  simp only [Except.map, Except.ok.injEq] at h
  subst h
  have hzl : z.length = y1.length := by
    have := congrArg List.length ((finite_ok_iff _ _).1 hz)
    simp at this; omega
  rcases select_cases ⟨x, y1⟩ h1 a b with ⟨-, h⟩ | ⟨nx, i, k, h3, h4, h5, h6, h7, h8, h9, h10⟩
  · rw [h z hzl, h y1 rfl]; rfl
  · simp only at h4 h10
    rw [h10 z hzl, h10 y1 rfl, h10 y2 hl.symm]
    simp only [except_bind_ok]
    have hb : ∀ y : List V, y.length = y1.length → Balanced (⟨nx, (y.drop i).take k⟩ : Rel K V) := by
      intro y hy
      refine balanced_of_make (make_ok ?_)
      rw [h8]; congr 1; simp; omega
    rw [operation_equal_axes same' _ _ op (hb y1 rfl) (hb y2 hl.symm) rfl]
    simp only
    have : List.zipWith op.fn ((y1.drop i).take k) ((y2.drop i).take k) = ((List.zipWith op.fn y1 y2).drop i).take k := by
      rw [List.drop_zipWith, List.take_zipWith]
    rw [this, finite_sub _ _ hz]
    rfl

/-! ### Differences and integrals -/

theorem interval_unique {n i k i' k' : ℕ} (h1 : 1 ≤ k) (h2 : i + k ≤ n) (h3 : 1 ≤ k') (h4 : i' + k' ≤ n)
    (h : ∀ j, j < n → (i ≤ j ∧ j < i + k ↔ i' ≤ j ∧ j < i' + k')) : i = i' ∧ k = k' := by
  have a1 := h i (by omega)
  have a2 := h i' (by omega)
  have a3 := h (i + k - 1) (by omega)
  have a4 := h (i' + k' - 1) (by omega)
  omega

/-- An axis whose length is a whole number of samples, traversed forwards. -/
def Spec.Fits (x : Axis K) (n : ℕ) : Prop := 0 < x.sample ∧ x.stop = x.start + n * x.sample

theorem Spec.Fits.steps {x : Axis K} {n : ℕ} (h : Fits x n) : x.steps = n := by
  have : |(x.stop - x.start) / x.sample| = (n : K) := by
    rw [h.2, add_sub_cancel_left, mul_div_assoc, div_self h.1.ne', mul_one, abs_of_nonneg (by positivity)]
  unfold Axis.steps
  rw [this, pyRound_natCast]
  simp

theorem Spec.Fits.pos {x : Axis K} {n : ℕ} (h : Fits x n) {j : ℕ} (hj : j ≤ n) : (j : K) * x.step = j * x.sample := by
  rcases Nat.eq_zero_or_pos n with rfl | hn
  · have : j = 0 := by omega
    simp [this]
  unfold Axis.step
  rw [h.steps, h.2]
  have : (n : K) ≠ 0 := by exact_mod_cast hn.ne'
  field_simp
  ring

theorem inner_window (r q : Rel K V) (n : ℕ) (hf : Fits r.x (n + 1)) (hb : Balanced r) (hfq : Fits q.x n) (hbq : Balanced q)
    (hs : q.x.sample = r.x.sample) (a b a' b' : Option K)
    (ha : a'.getD q.x.start - q.x.start = a.getD r.x.start - r.x.start)
    (hb' : b'.getD q.x.stop - q.x.start = b.getD r.x.stop - r.x.start - r.x.sample) :
    (r.selectData a b = .error .index ∧ q.selectData a' b' = .error .index) ∨
    (∃ w, r.selectData a b = .ok w ∧ w.y.length = 1 ∧ Balanced w ∧ q.selectData a' b' = .error .index) ∨
    ∃ (i k : ℕ) (nx : Axis K), 1 ≤ k ∧ i + k ≤ n + 1 ∧ nx.sample = r.x.sample ∧
      nx.start = r.x.start + i * r.x.sample ∧ nx.stop = r.x.start + (i + k : ℕ) * r.x.sample ∧
      r.selectData a b = .ok ⟨nx, (r.y.drop i).take (k + 1)⟩ ∧
      (⟨q.x.start + i * q.x.sample, q.x.start + (i + k - 1 : ℕ) * q.x.sample, q.x.sample⟩ : Axis K).size = .ok k ∧
      q.selectData a' b' = .ok ⟨⟨q.x.start + i * q.x.sample, q.x.start + (i + k - 1 : ℕ) * q.x.sample, q.x.sample⟩,
        (q.y.drop i).take k⟩ := by
  have hd := hf.1
  set d := r.x.sample with hdd
  have hl := ((balanced_iff r).1 hb).2
  have hlq := ((balanced_iff q).1 hbq).2
  rw [hf.steps] at hl
  rw [hfq.steps] at hlq
  have hposR : ∀ j, j < r.y.length → r.x.start + (j : K) * r.x.step = r.x.start + j * d := fun j hj => by
    rw [hf.pos (by omega)]
  have hposQ : ∀ j, j < q.y.length → q.x.start + (j : K) * q.x.step = q.x.start + j * d := fun j hj => by
    rw [hfq.pos (by omega), hs]
  -- the condition for the j-th sample of the inner relation
  have key : ∀ j : ℕ, (a'.getD q.x.start ≤ q.x.start + (j : K) * d ∧ q.x.start + (j : K) * d ≤ b'.getD q.x.stop) ↔
      (a.getD r.x.start ≤ r.x.start + (j : K) * d ∧ r.x.start + (j : K) * d ≤ b.getD r.x.stop) ∧
      (a.getD r.x.start ≤ r.x.start + ((j + 1 : ℕ) : K) * d ∧ r.x.start + ((j + 1 : ℕ) : K) * d ≤ b.getD r.x.stop) := by
    intro j
    push_cast
    constructor
    · rintro ⟨h1, h2⟩
      refine ⟨⟨?_, ?_⟩, ?_, ?_⟩ <;> nlinarith
    · rintro ⟨⟨h1, h2⟩, h3, h4⟩
      constructor <;> nlinarith
  have hQempty : (∀ j, j < q.y.length → ¬ (a'.getD q.x.start ≤ q.x.start + (j : K) * d ∧ q.x.start + (j : K) * d ≤ b'.getD q.x.stop)) →
      q.selectData a' b' = .error .index := by
    intro h
    rcases select_cases q hbq a' b' with ⟨-, h1⟩ | ⟨nx, i, k, h1, h2, h3, h4, h5, h6, h7, h8⟩
    · exact h1 q.y rfl
    · exfalso
      refine h i (by omega) ?_
      rw [← hposQ i (by omega)]
      exact (h7 i (by omega)).2 ⟨le_refl _, by omega⟩
  rcases select_cases r hb a b with ⟨h0, h1⟩ | ⟨nx, i, k, h1, h2, h3, h4, h5, h6, h7, h8⟩
  · left
    refine ⟨h1 r.y rfl, hQempty fun j hj h => ?_⟩
    have := h0 j (by omega)
    rw [hposR j (by omega)] at this
    exact this ((key j).1 h).1
  · right
    have h7' : ∀ j, j < r.y.length → ((a.getD r.x.start ≤ r.x.start + (j : K) * d ∧ r.x.start + (j : K) * d ≤ b.getD r.x.stop) ↔
        i ≤ j ∧ j < i + k) := fun j hj => by rw [← hposR j hj]; exact h7 j hj
    have hw : r.selectData a b = .ok ⟨nx, (r.y.drop i).take k⟩ := h8 r.y rfl
    have hwl : ((r.y.drop i).take k).length = k := by simp; omega
    rcases Nat.eq_or_lt_of_le h1 with rfl | hk
    · left
      refine ⟨_, hw, hwl, balanced_of_make (make_ok (by rw [h6, hwl])), hQempty fun j hj h => ?_⟩
      obtain ⟨e1, e2⟩ := (key j).1 h
      have e1' := (h7' j (by omega)).1 e1
      have e2' := (h7' (j + 1) (by omega)).1 e2
      omega
    · right
      have hqiff : ∀ j, j < q.y.length → ((a'.getD q.x.start ≤ q.x.start + (j : K) * d ∧ q.x.start + (j : K) * d ≤ b'.getD q.x.stop) ↔
          i ≤ j ∧ j < i + (k - 1)) := by
        intro j hj
        rw [key j, h7' j (by omega), h7' (j + 1) (by omega)]
        omega
      rcases select_cases q hbq a' b' with ⟨g1, -⟩ | ⟨mx, i', k', g1, g2, g3, g4, g5, g6, g7, g8⟩
      · exfalso
        refine g1 i (by omega) ?_
        rw [hposQ i (by omega)]
        exact (hqiff i (by omega)).2 ⟨le_refl _, by omega⟩
      · obtain ⟨e1, e2⟩ := interval_unique (n := q.y.length) (i := i) (k := k - 1) (i' := i') (k' := k') (by omega) (by omega) g1 g2 (by
          intro j hj
          rw [← hqiff j hj, ← hposQ j hj]
          exact g7 j hj)
        subst e1 e2
        obtain ⟨k, rfl⟩ : ∃ m, k = m + 1 := ⟨k - 1, by omega⟩
        simp only [Nat.add_sub_cancel] at g1 g2 g4 g5 g6 g7 g8
        have hmx : mx = ⟨q.x.start + i * q.x.sample, q.x.start + (i + k - 1 : ℕ) * q.x.sample, q.x.sample⟩ := by
          apply Axis.ext'
          · rw [g4, hfq.pos (by omega)]
          · have e := hfq.pos (j := i + k - 1) (by omega)
            rw [g5, ← e, Nat.cast_sub (by omega)]
            push_cast; ring
          · exact g3
        rw [hmx] at g6 g8
        refine ⟨i, k, nx, g1, by omega, h3, ?_, ?_, hw, g6, g8 q.y rfl⟩
        · rw [h4, hf.pos (by omega)]
        · have e := hf.pos (j := i + k) (by omega)
          rw [h5, ← e]
          push_cast; ring

/-- **C111.** The differences inside a window are the window of the differences. -/
theorem C111_diff (r q : Rel K V) (n : ℕ) (hf : Fits r.x n) (h : r.diff = .ok q) (hb : Balanced r) (a b : Option K) (p : Rel K V) :
    q.selectData (a.map (· + r.x.sample / 2)) (b.map (· - r.x.sample / 2)) = .ok p ↔
      ∃ w, r.selectData a b = .ok w ∧ w.diff = .ok p := by
  have hl := ((balanced_iff r).1 hb).2
  rw [hf.steps] at hl
  obtain ⟨c1, c2, c3, c4, c5, c6, c7⟩ := C14_diff_values r q h
  have hq1 : 1 ≤ q.y.length := by
    obtain ⟨-, e⟩ := (Axis.size_ok_iff _ _).1 c5
    omega
  obtain ⟨n, rfl⟩ : ∃ m, n = m + 1 := ⟨n - 1, by omega⟩
  have hfq : Fits q.x n := ⟨by rw [c3]; exact hf.1, by rw [c1, c2, c3, hf.2]; push_cast; ring⟩
  rcases inner_window r q n hf hb hfq c5 c3 a b (a.map (· + r.x.sample / 2)) (b.map (· - r.x.sample / 2))
    (by rw [c1]; cases a <;> simp) (by rw [c1, c2]; cases b <;> simp <;> ring) with
    ⟨h1, h2⟩ | ⟨w, h1, h2, h3, h4⟩ | ⟨i, k, nx, h1, h2, h3, h4, h5, h6, h7, h8⟩
  · simp [h1, h2]
  · obtain ⟨-, ⟨m1, m2, e⟩⟩ := (C15_accepted w h3).2.1 h2
    simp [h1, h4, e]
  · rw [h8, h6]
    simp only [Except.ok.injEq, exists_eq_left']
    have : (⟨nx, (r.y.drop i).take (k + 1)⟩ : Rel K V).diff =
        .ok ⟨⟨q.x.start + i * q.x.sample, q.x.start + (i + k - 1 : ℕ) * q.x.sample, q.x.sample⟩, (q.y.drop i).take k⟩ := by
      unfold Rel.diff
      simp only
      have hax : ({ start := nx.start + nx.sample / 2, stop := nx.stop - nx.sample / 2, sample := nx.sample } : Axis K) =
          ⟨q.x.start + i * q.x.sample, q.x.start + (i + k - 1 : ℕ) * q.x.sample, q.x.sample⟩ := by
        apply Axis.ext'
        · simp only [h4, h3, c1, c3]; ring
        · simp only [h5, h3, c1, c3]; rw [Nat.cast_sub (by omega)]; push_cast; ring
        · simp only [h3, c3]
      have hy : (npDiff ((r.y.drop i).take (k + 1))).map (fun v => nx.sample⁻¹ • v) = (q.y.drop i).take k := by
        apply List.ext_getElem
        · simp [npDiff_length]; omega
        · intro j h1 h2
          simp only [List.length_map, npDiff_length, List.length_take, List.length_drop] at h1
          rw [List.getElem_map, npDiff_getElem _ _ (by simp [npDiff_length]; omega) (by simp; omega), List.getElem_take,
            List.getElem_drop, List.getElem_take, List.getElem_drop, List.getElem_take, List.getElem_drop, c7,
            getD_lt _ _ _ (by omega), getD_lt _ _ _ (by omega), h3]
          rfl
      rw [hax, hy]
      apply make_ok
      rw [h7]; congr 1; simp; omega
    rw [this]
    simp

/-- **C111.** The integral over a window is the integral of the whole, less the value it has reached where the window
begins (nothing, when the window begins where the relation begins). -/
theorem C111_integrate (r q : Rel K V) (n : ℕ) (hf : Fits r.x n) (h : r.integrate = .ok q) (hb : Balanced r) (a b : Option K)
    (w p : Rel K V) (hw : r.selectData a b = .ok w) (hp : w.integrate = .ok p) :
    ∃ c, ((w.x.start = r.x.start ∧ c = 0) ∨ (w.x.start ≠ r.x.start ∧ q.getItem w.x.start = .ok (w.x.start, c))) ∧
      q.selectData (a.map (· + r.x.sample)) b = .ok ⟨p.x, p.y.map (· + c)⟩ := by
  have hl := ((balanced_iff r).1 hb).2
  rw [hf.steps] at hl
  obtain ⟨c1, c2, c3, c4, c5, c6⟩ := C13_integrate_values r q h
  have hq1 : 1 ≤ q.y.length := by
    obtain ⟨-, e⟩ := (Axis.size_ok_iff _ _).1 c5
    omega
  obtain ⟨n, rfl⟩ : ∃ m, n = m + 1 := ⟨n - 1, by omega⟩
  have hfq : Fits q.x n := ⟨by rw [c3]; exact hf.1, by rw [c1, c2, c3, hf.2]; push_cast; ring⟩
  rcases inner_window r q n hf hb hfq c5 c3 a b (a.map (· + r.x.sample)) b
    (by rw [c1]; cases a <;> simp) (by rw [c1, c2]; cases b <;> simp <;> ring) with
    ⟨h1, h2⟩ | ⟨w', h1, h2, h3, h4⟩ | ⟨i, k, nx, h1, h2, h3, h4, h5, h6, h7, h8⟩
  · rw [hw] at h1; simp at h1
  · rw [hw] at h1
    obtain rfl := Except.ok.inj h1
    obtain ⟨⟨m1, m2, e⟩, -⟩ := (C15_accepted w h3).2.1 h2
    rw [hp] at e; simp at e
  · rw [hw] at h6
    obtain rfl := Except.ok.inj h6
    obtain ⟨p1, p2, p3, p4, p5, p6⟩ := C13_integrate_values _ _ hp
    simp only at p1 p2 p3 p4 p6 ⊢
    set T : ℕ → V := fun m => r.x.sample • ∑ j ∈ Finset.range m, (r.y.getD j 0 + r.y.getD (j + 1) 0) / 2 with hT
    have hd := hf.1
    refine ⟨T i, ?_, ?_⟩
    · rcases Nat.eq_zero_or_pos i with rfl | hi
      · left
        simp [h4, hT]
      · right
        have hne : (0 : K) < i * r.x.sample := by
          have : (0 : K) < i := by exact_mod_cast hi
          positivity
        refine ⟨by rw [h4]; intro e; linarith, ?_⟩
        obtain ⟨⟨lx, ly⟩, hdata⟩ := (balanced_iff_getData q).1 c5
        obtain ⟨hx, rfl, hlen⟩ := (getData_ok_iff _ _ _).1 hdata
        have hsp := Axis.array_spaced hx
        have hpos : ∀ j (hj : j < lx.length), lx[j] = q.x.start + j * r.x.sample := fun j hj => by
          rw [hsp.2 j hj, hfq.pos (by omega), c3]
        obtain ⟨i0, e1, e2, e3, e4, -⟩ := C12_nearest_sample q lx q.y hdata nx.start
        have hv : lx[i - 1]'(by omega) = nx.start := by
          rw [hpos, h4, c1, Nat.cast_sub hi]; push_cast; ring
        have hz := e4 (i - 1) (by omega)
        rw [hv, sub_self, abs_zero] at hz
        have hi0 : lx[i0] = nx.start := by
          have := abs_eq_zero.1 (le_antisymm hz (abs_nonneg _))
          linarith
        have : i0 = i - 1 := by
          have e := hi0.trans hv.symm
          rw [hpos, hpos] at e
          have := mul_right_cancel₀ hd.ne' (add_left_cancel e)
          exact_mod_cast this
        subst this
        rw [e3, hi0, c6]
        rw [show i - 1 + 1 = i by omega]
    · rw [h8]
      congr 2
      · apply Axis.ext'
        · rw [p1, h4, h3, c1, c3]; ring
        · rw [p2, h5, c1, c3, Nat.cast_sub (by omega)]; push_cast; ring
        · rw [p3, h3, c3]
      · apply List.ext_getElem
        · simp at p4 ⊢; omega
        · intro j g1 g2
          simp only [List.length_map] at g2
          rw [List.getElem_take, List.getElem_drop, c6, List.getElem_map, p6, h3]
          have hlt : j < k := by simp at g1; omega
          have e : ∀ m, m ≤ j → ((r.y.drop i).take (k + 1)).getD m 0 = r.y.getD (i + m) 0 ∧
              ((r.y.drop i).take (k + 1)).getD (m + 1) 0 = r.y.getD (i + m + 1) 0 := by
            intro m hm
            constructor
            · rw [getD_lt _ _ _ (by simp; omega), getD_lt _ _ _ (by omega), List.getElem_take, List.getElem_drop]
            · rw [getD_lt _ _ _ (by simp; omega), getD_lt _ _ _ (by omega), List.getElem_take, List.getElem_drop]
              rfl
          have es : ∑ m ∈ Finset.range (j + 1), (((r.y.drop i).take (k + 1)).getD m 0 + ((r.y.drop i).take (k + 1)).getD (m + 1) 0) / 2 =
              ∑ m ∈ Finset.range (j + 1), (r.y.getD (i + m) 0 + r.y.getD (i + m + 1) 0) / 2 := by
            refine Finset.sum_congr rfl fun m hm => ?_
            obtain ⟨e1, e2⟩ := e m (by have := Finset.mem_range.1 hm; omega)
            rw [e1, e2]
          rw [es]
          rw [hT, ← smul_add]
          congr 1
          rw [show i + j + 1 = i + (j + 1) by omega, Finset.sum_range_add, add_comm]

theorem last_integral {nx : Axis K} {y : List V} {i k : ℕ} {p : Rel K V} (hik : i + k ≤ y.length)
    (h : (⟨nx, (y.drop i).take k⟩ : Rel K V).integrate = .ok p) :
    2 ≤ k ∧ p.y.getLast? = some (nx.sample • ∑ j ∈ Finset.range (k - 1), (y.getD (i + j) 0 + y.getD (i + j + 1) 0) / 2) := by
  obtain ⟨p1, p2, p3, p4, p5, p6⟩ := C13_integrate_values _ _ h
  have h1 : 1 ≤ p.y.length := by
    obtain ⟨-, e⟩ := (Axis.size_ok_iff _ _).1 p5
    omega
  have hk : p.y.length + 1 = k := by simp at p4; omega
  refine ⟨by omega, ?_⟩
  rw [List.getLast?_eq_getElem?, List.getElem?_eq_getElem (by omega), p6, show p.y.length - 1 + 1 = k - 1 by omega]
  congr 2
  refine Finset.sum_congr rfl fun m hm => ?_
  have := Finset.mem_range.1 hm
  simp only
  rw [getD_lt _ _ _ (by simp; omega), getD_lt _ _ _ (by simp; omega), getD_lt _ _ _ (by omega), getD_lt _ _ _ (by omega),
    List.getElem_take, List.getElem_drop, List.getElem_take, List.getElem_drop]
  rfl

/-- **C111.** The integral over a window is the sum of the integrals over its two parts, when they share the sample at
which it is split. -/
theorem C111_additive (r w w1 w2 p p1 p2 : Rel K V) (n : ℕ) (hf : Fits r.x n) (hb : Balanced r) (lx : List K) (hx : r.x.array = .ok lx)
    (a m b : K) (hm : m ∈ lx)
    (hw : r.selectData (some a) (some b) = .ok w) (hw1 : r.selectData (some a) (some m) = .ok w1)
    (hw2 : r.selectData (some m) (some b) = .ok w2)
    (hp : w.integrate = .ok p) (hp1 : w1.integrate = .ok p1) (hp2 : w2.integrate = .ok p2) :
    ∃ v1 v2, p1.y.getLast? = some v1 ∧ p2.y.getLast? = some v2 ∧ p.y.getLast? = some (v1 + v2) := by
  have hl := ((balanced_iff r).1 hb).2
  rw [hf.steps] at hl
  have hd := hf.1
  have hsp := Axis.array_spaced hx
  have hlx := hsp.1
  rw [hf.steps] at hlx
  obtain ⟨im, him, rfl⟩ := List.mem_iff_getElem.1 hm
  have hpm : lx[im] = r.x.start + im * r.x.step := hsp.2 im him
  have hmono : ∀ j j' : ℕ, j < n + 1 → j' < n + 1 → (r.x.start + (j : K) * r.x.step ≤ r.x.start + (j' : K) * r.x.step ↔ j ≤ j') := by
    intro j j' h1 h2
    rw [hf.pos (by omega), hf.pos (by omega), add_le_add_iff_left, mul_le_mul_iff_left₀ hd]
    exact_mod_cast Iff.rfl
  have cases3 : ∀ (a b : K) (w : Rel K V), r.selectData (some a) (some b) = .ok w → ∃ (nx : Axis K) (i k : ℕ), 1 ≤ k ∧ i + k ≤ n + 1 ∧
      nx.sample = r.x.sample ∧ w = ⟨nx, (r.y.drop i).take k⟩ ∧
      ∀ j, j < n + 1 → ((a ≤ r.x.start + (j : K) * r.x.step ∧ r.x.start + (j : K) * r.x.step ≤ b) ↔ i ≤ j ∧ j < i + k) := by
    intro a b w hw
    rcases select_cases r hb (some a) (some b) with ⟨-, h⟩ | ⟨nx, i, k, h1, h2, h3, h4, h5, h6, h7, h8⟩
    · have := h r.y rfl
      rw [hw] at this; simp at this
    · refine ⟨nx, i, k, h1, by omega, h3, ?_, fun j hj => h7 j (by omega)⟩
      have := h8 r.y rfl
      rw [hw] at this
      exact Except.ok.inj this
  obtain ⟨nx, i, k, a1, a2, a3, rfl, a4⟩ := cases3 _ _ _ hw
  obtain ⟨nx1, i1, k1, b1, b2, b3, rfl, b4⟩ := cases3 _ _ _ hw1
  obtain ⟨nx2, i2, k2, c1, c2, c3, rfl, c4⟩ := cases3 _ _ _ hw2
  rw [hpm] at b4 c4
  have A : ∀ j j' : ℕ, j ≤ j' → j' < n + 1 → a ≤ r.x.start + (j : K) * r.x.step → a ≤ r.x.start + (j' : K) * r.x.step :=
    fun j j' h1 h2 h3 => h3.trans ((hmono j j' (by omega) h2).2 h1)
  have B : ∀ j j' : ℕ, j ≤ j' → j' < n + 1 → r.x.start + (j' : K) * r.x.step ≤ b → r.x.start + (j : K) * r.x.step ≤ b :=
    fun j j' h1 h2 h3 => ((hmono j j' (by omega) h2).2 h1).trans h3
  obtain ⟨x1, x2⟩ := (b4 i1 (by omega)).2 ⟨le_refl _, by omega⟩
  rw [hmono _ _ (by omega) (by omega)] at x2
  obtain ⟨y1, y2⟩ := (c4 (i2 + k2 - 1) (by omega)).2 ⟨by omega, by omega⟩
  rw [hmono _ _ (by omega) (by omega)] at y1
  have Am := A _ _ x2 (by omega) x1
  have Bm := B _ _ y1 (by omega) y2
  have e1 := (b4 im (by omega)).1 ⟨Am, le_refl _⟩
  have e2 := (b4 (i1 + k1 - 1) (by omega)).2 ⟨by omega, by omega⟩
  rw [hmono _ _ (by omega) (by omega)] at e2
  have e3 := (c4 im (by omega)).1 ⟨le_refl _, Bm⟩
  have e4 := (c4 i2 (by omega)).2 ⟨by omega, by omega⟩
  rw [hmono _ _ (by omega) (by omega)] at e4
  have e5 := (a4 i1 (by omega)).1 ⟨x1, B _ _ x2 (by omega) Bm⟩
  have e6 := (a4 im (by omega)).1 ⟨Am, Bm⟩
  have e7 := (b4 i (by omega)).1 ⟨((a4 i (by omega)).2 ⟨by omega, by omega⟩).1, (hmono _ _ (by omega) (by omega)).2 e6.1⟩
  have e8 := (a4 (i2 + k2 - 1) (by omega)).1 ⟨A _ _ y1 (by omega) Am, y2⟩
  have e9 := (c4 (i + k - 1) (by omega)).1
    ⟨(hmono _ _ (by omega) (by omega)).2 (by omega), ((a4 (i + k - 1) (by omega)).2 ⟨by omega, by omega⟩).2⟩
  obtain ⟨f1, f2⟩ := last_integral (by omega) hp
  obtain ⟨g1, g2⟩ := last_integral (by omega) hp1
  obtain ⟨l1, l2⟩ := last_integral (by omega) hp2
  refine ⟨_, _, g2, l2, ?_⟩
  rw [f2, a3, b3, c3, ← smul_add]
  congr 2
  rw [show k - 1 = (k1 - 1) + (k2 - 1) by omega, Finset.sum_range_add]
  have hi : i = i1 := by omega
  have hi2 : i2 = i1 + (k1 - 1) := by omega
  rw [hi, hi2]
  congr 1
  refine Finset.sum_congr rfl fun m _ => ?_
  rw [show i1 + (k1 - 1 + m) = i1 + (k1 - 1) + m by omega]

/-- The hypotheses, on a relation of five samples: the window from 1 to 3 and its two halves. -/
example : Fits (⟨0, 4, 1⟩ : Axis ℚ) 4 ∧
    (⟨⟨0, 4, 1⟩, [1, 2, 5, 6, 9]⟩ : Rel ℚ ℚ).diff = .ok ⟨⟨1/2, 7/2, 1⟩, [1, 3, 1, 3]⟩ ∧
    (⟨⟨0, 4, 1⟩, [1, 2, 5, 6, 9]⟩ : Rel ℚ ℚ).integrate = .ok ⟨⟨1, 4, 1⟩, [3/2, 5, 21/2, 18]⟩ ∧
    (⟨⟨0, 4, 1⟩, [1, 2, 5, 6, 9]⟩ : Rel ℚ ℚ).selectData (some 1) (some 3) = .ok ⟨⟨1, 3, 1⟩, [2, 5, 6]⟩ ∧
    (⟨⟨1, 3, 1⟩, [2, 5, 6]⟩ : Rel ℚ ℚ).diff = .ok ⟨⟨3/2, 5/2, 1⟩, [3, 1]⟩ ∧
    (⟨⟨1/2, 7/2, 1⟩, [1, 3, 1, 3]⟩ : Rel ℚ ℚ).selectData (some (3/2)) (some (5/2)) = .ok ⟨⟨3/2, 5/2, 1⟩, [3, 1]⟩ ∧
    (⟨⟨1, 3, 1⟩, [2, 5, 6]⟩ : Rel ℚ ℚ).integrate = .ok ⟨⟨2, 3, 1⟩, [7/2, 9]⟩ ∧
    (⟨⟨1, 4, 1⟩, [3/2, 5, 21/2, 18]⟩ : Rel ℚ ℚ).getItem 1 = .ok (1, 3/2) ∧
    (⟨⟨0, 4, 1⟩, [1, 2, 5, 6, 9]⟩ : Rel ℚ ℚ).selectData (some 1) (some 2) = .ok ⟨⟨1, 2, 1⟩, [2, 5]⟩ ∧
    (⟨⟨0, 4, 1⟩, [1, 2, 5, 6, 9]⟩ : Rel ℚ ℚ).selectData (some 2) (some 3) = .ok ⟨⟨2, 3, 1⟩, [5, 6]⟩ ∧
    (⟨⟨1, 2, 1⟩, [2, 5]⟩ : Rel ℚ ℚ).integrate = .ok ⟨⟨2, 2, 1⟩, [7/2]⟩ ∧
    (⟨⟨2, 3, 1⟩, [5, 6]⟩ : Rel ℚ ℚ).integrate = .ok ⟨⟨3, 3, 1⟩, [11/2]⟩ := by
  refine ⟨⟨by norm_num, by norm_num⟩, ?_⟩
  decide +kernel

/-- **C111.** Why the axis has to be a whole number of samples long: otherwise the points are not `sample` apart, `diff`
moves its axis by half of `sample` all the same, and the two ways to the difference of the last two values put it at
different places. -/
theorem C111_unfitting_witness :
    (⟨⟨0, 22/5, 2⟩, [1, 2, 5]⟩ : Rel ℚ ℚ).diff = .ok ⟨⟨1, 17/5, 2⟩, [1/2, 3/2]⟩ ∧
    (⟨⟨1, 17/5, 2⟩, [1/2, 3/2]⟩ : Rel ℚ ℚ).selectData (some (11/5 + 1)) (some (22/5 - 1)) = .ok ⟨⟨17/5, 17/5, 2⟩, [3/2]⟩ ∧
    (⟨⟨0, 22/5, 2⟩, [1, 2, 5]⟩ : Rel ℚ ℚ).selectData (some (11/5)) (some (22/5)) = .ok ⟨⟨11/5, 22/5, 2⟩, [2, 5]⟩ ∧
    (⟨⟨11/5, 22/5, 2⟩, [2, 5]⟩ : Rel ℚ ℚ).diff = .ok ⟨⟨16/5, 17/5, 2⟩, [3/2]⟩ ∧
    (⟨⟨17/5, 17/5, 2⟩, [3/2]⟩ : Rel ℚ ℚ).getData = .ok ([17/5], [3/2]) ∧
    (⟨⟨16/5, 17/5, 2⟩, [3/2]⟩ : Rel ℚ ℚ).getData = .ok ([16/5], [3/2]) := by
  decide +kernel

/-- The first kind of law: the window of a quotient, and an operator whose result has no window. -/
example : (⟨⟨0, 4, 1⟩, [1, 2, 5, 6, 9]⟩ : Rel ℚ ℚ).operation (.other (.num 2)) .rsub = .ok ⟨⟨0, 4, 1⟩, [1, 0, -3, -4, -7]⟩ ∧
    (⟨⟨0, 4, 1⟩, [1, 0, -3, -4, -7]⟩ : Rel ℚ ℚ).selectData (some (1/2)) (some 3) = .ok ⟨⟨1, 3, 1⟩, [0, -3, -4]⟩ ∧
    (⟨⟨1, 3, 1⟩, [2, 5, 6]⟩ : Rel ℚ ℚ).operation (.other (.num 2)) .rsub = .ok ⟨⟨1, 3, 1⟩, [0, -3, -4]⟩ ∧
    (⟨⟨0, 4, 1⟩, [1, 0, -3, -4, -7]⟩ : Rel ℚ ℚ).selectData (some (5/4)) (some (7/4)) = .error .index := by
  decide +kernel

end

end SweepDesign
