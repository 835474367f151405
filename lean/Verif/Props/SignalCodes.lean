import Verif.Props.CodeConv
import Verif.Props.FourierSum

/-!
# C127: codes made from signals and sweeps wrap round the base's axis

`get_code_zinger_relation` and `get_code_sweep_segments` shift the base by multiples of its end. `Signal.shift` moves the samples round the
axis of the signal, so for a signal or a sweep nothing is appended: the copies are added up inside the axis of the base.
-/

set_option linter.unusedSectionVars false

namespace SweepDesign
open Spec

noncomputable section

/-- sample `j` of `y`, counted round the circle -/
def Spec.around (y : List ℝ) (j : ℤ) : ℝ := y.getD (j % y.length).toNat 0

/-- samples at `-c * s, …, b * s` -/
structure Spec.SamplesAt (r : Rel ℝ ℝ) (c b : ℕ) (s : ℝ) : Prop where
  axis : r.x = ⟨-(c * s), b * s, s⟩
  step : 0 < s
  samples : r.y.length = c + b + 1
  two : 2 ≤ c + b + 1

theorem Spec.SamplesAt.balanced {r : Rel ℝ ℝ} {c b : ℕ} {s : ℝ} (h : SamplesAt r c b s) : Balanced r :=
  balanced_whole r (c + b) (by rw [h.axis]; exact h.step) (by rw [h.axis]; push_cast; ring) h.samples

theorem around_of_lt {y : List ℝ} {j : ℕ} (h : j < y.length) : around y j = y.getD j 0 := by
  have : ((j : ℤ) % y.length).toNat = j := by
    rw [Int.emod_eq_of_lt (by omega) (by omega)]; simp
  rw [around, this]

theorem around_congr {y : List ℝ} {i j : ℤ} (h : i % y.length = j % y.length) : around y i = around y j := by
  rw [around, around, h]

/-- `Signal.shift` by `m` samples moves the samples round the axis -/
theorem shift_around {r : Rel ℝ ℝ} {c b : ℕ} {s : ℝ} (h : SamplesAt r c b s) (m : ℤ) :
    ∃ q, r.signalShift (m * s) = .ok q ∧ q.x = r.x ∧ q.y.length = r.y.length ∧
      ∀ j : ℤ, around q.y j = around r.y (j - m + 2 * c) := by
  have hb := h.balanced
  obtain ⟨⟨lx, ly⟩, hd⟩ := (balanced_iff_getData r).1 hb
  have hcount : (lx.countP fun t => decide (t < 0)) = c := by
    obtain ⟨hax, -, -⟩ := (getData_ok_iff _ _ _).1 hd
    have := array_whole r.x (c + b) (by rw [h.axis]; exact h.step) (by rw [h.axis]; push_cast; ring)
    rw [hax] at this
    simp only [Except.ok.injEq] at this
    rw [this, List.countP_map, show c + b + 1 = c + (b + 1) by ring, List.range_add, List.countP_append,
      List.countP_eq_length.2, List.countP_eq_zero.2, List.length_range, add_zero]
    · intro a ha
      obtain ⟨b, -, rfl⟩ := List.mem_map.1 ha
      simp only [h.axis, Function.comp, decide_eq_true_eq, not_lt]
      push_cast
      nlinarith [(Nat.cast_nonneg b : (0 : ℝ) ≤ b), h.step]
    · intro a ha
      have ha' : (a : ℝ) < c := by exact_mod_cast List.mem_range.1 ha
      simp only [h.axis, Function.comp, decide_eq_true_eq]
      nlinarith [h.step]
  have hp := h.step
  obtain ⟨q, e1, e2, e3, e4⟩ := C77_shift r lx ly hd (by rw [h.samples]; exact h.two)
    (by rw [h.axis]; simp only; nlinarith [(Nat.cast_nonneg c : (0 : ℝ) ≤ c)]) (by rw [h.axis]; positivity) m
  rw [hcount] at e4
  refine ⟨q, by rw [← e1, h.axis], e2, e3, fun j => ?_⟩
  have hN : (0 : ℤ) < r.y.length := by rw [h.samples]; positivity
  set i := (j - m + 2 * c) % (r.y.length : ℤ) with hi
  have i0 : 0 ≤ i := Int.emod_nonneg _ hN.ne'
  have i1 : i < r.y.length := Int.emod_lt_of_pos _ hN
  have hlt : i.toNat < r.y.length := by omega
  have := e4 i.toNat hlt
  rw [Int.toNat_of_nonneg i0] at this
  have hj : (i + m - 2 * c) % (r.y.length : ℤ) = j % r.y.length := by
    rw [hi, show (j - m + 2 * c) % (r.y.length : ℤ) + m - 2 * c = (j - m + 2 * c) % (r.y.length : ℤ) + (m - 2 * c) by ring,
      Int.emod_add_emod]
    congr 1; ring
  rw [hj] at this
  rw [around, around, e3, ← hi, List.getD_eq_getElem?_getD, this, Option.getD_some, getD_lt _ _ _ hlt]

theorem around_zipWith {y z : List ℝ} (h : y.length = z.length) (j : ℤ) :
    around (List.zipWith (· + ·) y z) j = around y j + around z j := by
  rcases Nat.eq_zero_or_pos y.length with h0 | h0
  · have : y = [] := List.length_eq_zero_iff.1 h0
    subst this
    have : z = [] := List.length_eq_zero_iff.1 (by simpa using h.symm)
    subst this
    simp [around]
  · have hN : (0 : ℤ) < y.length := by exact_mod_cast h0
    have e : (List.zipWith (· + ·) y z).length = y.length := by simp [h]
    have l : (j % (y.length : ℤ)).toNat < y.length := by
      have := Int.emod_lt_of_pos j hN
      have := Int.emod_nonneg j hN.ne'
      omega
    rw [around, around, around, e, ← h, getD_lt _ _ _ (by omega), getD_lt _ _ _ l, getD_lt _ _ _ (by omega)]
    simp

theorem around_map {y : List ℝ} (a : ℝ) (j : ℤ) : around (y.map fun w => w * a) j = around y j * a := by
  rw [around, around, List.length_map, List.getD_eq_getElem?_getD, List.getD_eq_getElem?_getD, List.getElem?_map]
  rcases y[(j % (y.length : ℤ)).toNat]? with _ | v <;> simp

/-- the loop of the zinger code over any list of numbers of periods -/
theorem zinger_loop {r : Rel ℝ ℝ} {c b : ℕ} {s : ℝ} (h : SamplesAt r c b s) (ks : List ℕ) (acc : Rel ℝ ℝ) (hx : acc.x = r.x)
    (hl : acc.y.length = r.y.length) :
    ∃ q, ks.foldlM (fun sequence (k : ℕ) => do
        let shifted ← r.signalShift (r.x.stop * k)
        sequence.add (.rel false shifted)) acc = (.ok q : Except Err (Rel ℝ ℝ)) ∧ q.x = r.x ∧ q.y.length = r.y.length ∧
      ∀ j : ℤ, around q.y j = around acc.y j + (ks.map fun k : ℕ => around r.y (j - k * b + 2 * c)).sum := by
  induction ks generalizing acc with
  | nil => exact ⟨acc, rfl, hx, hl, fun j => by simp⟩
  | cons k ks ih =>
    obtain ⟨q, e1, e2, e3, e4⟩ := shift_around h (k * b : ℤ)
    have e1' : r.signalShift (r.x.stop * k) = .ok q := by
      rw [← e1]; congr 1; rw [h.axis]; push_cast; ring
    have hb := h.balanced
    have ba : Balanced acc := by show acc.x.size = _; rw [hx, hl]; exact hb
    have bq : Balanced q := by show q.x.size = _; rw [e2, e3]; exact hb
    obtain ⟨w, w1, w2, w3, w4⟩ := ih ⟨acc.x, List.zipWith (· + ·) acc.y q.y⟩ hx (by simp [hl, e3])
    refine ⟨w, ?_, w2, w3, fun j => ?_⟩
    · rw [List.foldlM_cons, e1']
      simp only [except_bind_ok, add_same_axis acc q ba bq (by rw [e2, hx])]
      exact w1
    · rw [w4, around_zipWith (by rw [hl, e3]), e4, List.map_cons, List.sum_cons]
      ring

/-- **C127** `get_code_zinger_relation` of a signal, for more than one period: the axis is the one of the signal, and sample `j` is
`y j` plus the samples `y (j - k b + 2 c)`, counted round the circle, for `k = 0, …, periods - 1`. -/
theorem C127_zinger {r : Rel ℝ ℝ} {c b : ℕ} {s : ℝ} (h : SamplesAt r c b s) (p : ℕ) (hp : 1 < p) :
    ∃ q, getCodeZingerSignal r p = .ok q ∧ q.x = r.x ∧ q.y.length = r.y.length ∧
      ∀ j < r.y.length, q.y.getD j 0 = r.y.getD j 0 + ∑ k ∈ Finset.range p, around r.y (j - k * b + 2 * c) := by
  obtain ⟨q, e1, e2, e3, e4⟩ := zinger_loop h (List.range p) r rfl rfl
  refine ⟨q, ?_, e2, e3, fun j hj => ?_⟩
  · unfold getCodeZingerSignal
    rw [if_pos (by exact_mod_cast hp), Int.toNat_natCast]
    exact e1
  · rw [← around_of_lt (by omega), e4, around_of_lt hj, sum_map_range]

/-- **C127** A signal that begins at zero: sample `j` of the zinger code is `y j + y j + y (j + 1) + … + y (j + periods - 1)`, counted
round the circle. -/
theorem C127_zinger_zero {r : Rel ℝ ℝ} {b : ℕ} {s : ℝ} (h : SamplesAt r 0 b s) (p : ℕ) (hp : 1 < p) :
    ∃ q, getCodeZingerSignal r p = .ok q ∧ q.x = r.x ∧ q.y.length = r.y.length ∧
      ∀ j < r.y.length, q.y.getD j 0 = r.y.getD j 0 + ∑ k ∈ Finset.range p, r.y.getD ((j + k) % r.y.length) 0 := by
  obtain ⟨q, e1, e2, e3, e4⟩ := C127_zinger h p hp
  refine ⟨q, e1, e2, e3, fun j hj => ?_⟩
  rw [e4 j hj]
  congr 1
  refine Finset.sum_congr rfl fun k _ => ?_
  have hN : (r.y.length : ℤ) = b + 1 := by rw [h.samples]; push_cast; ring
  have : ((j : ℤ) - k * b + 2 * (0 : ℕ)) % (r.y.length : ℤ) = (((j + k) % r.y.length : ℕ) : ℤ) := by
    rw [show ((j : ℤ) - k * b + 2 * (0 : ℕ)) = (j + k : ℤ) + r.y.length * (-k) by rw [hN]; push_cast; ring, Int.add_mul_emod_self_left]
    push_cast; rfl
  rw [around, this, Int.toNat_natCast]

/-- **C127** With as many periods as the signal has samples, the zinger code of a signal that begins at zero adds the sum of all samples to
every sample. -/
theorem C127_zinger_full {r : Rel ℝ ℝ} {b : ℕ} {s : ℝ} (h : SamplesAt r 0 b s) :
    ∃ q, getCodeZingerSignal r r.y.length = .ok q ∧ q.x = r.x ∧ q.y = r.y.map fun v => v + r.y.sum := by
  obtain ⟨q, e1, e2, e3, e4⟩ := C127_zinger_zero h r.y.length (by rw [h.samples]; exact h.two)
  refine ⟨q, e1, e2, List.ext_getElem (by simp [e3]) fun j h1 h2 => ?_⟩
  have hj : j < r.y.length := by omega
  have := e4 j hj
  rw [getD_lt _ _ _ h1, getD_lt _ _ _ hj] at this
  rw [this, List.getElem_map]
  congr 1
  rw [← (List.rotate_perm r.y j).sum_eq, list_sum_eq, List.length_rotate, Finset.sum_range]
  rw [Finset.sum_range]
  refine Finset.sum_congr rfl fun k _ => ?_
  rw [getD_lt _ _ _ (Nat.mod_lt _ (by omega)), getD_lt (r.y.rotate j) _ _ (by rw [List.length_rotate]; exact k.2), List.getElem_rotate]
  simp only [add_comm]

theorem segments_around {r : Rel ℝ ℝ} {c b : ℕ} {s : ℝ} (h : SamplesAt r c b s) (a : ℝ) (code z : List ℝ)
    (hz : SignalSegments r 1 code (r.y.map fun v => v * a) z) :
    ∀ j < r.y.length, z.getD j 0 = a * r.y.getD j 0 +
        ∑ i ∈ Finset.range code.length, code.getD i 0 * around r.y (j - ((i + 1) * b + 1) + 2 * c) := by
  obtain ⟨copies, c1, c2, c3, c4⟩ := hz
  intro j hj
  rw [c4 j (by rw [c3, List.length_map]; exact hj), getD_lt _ _ _ (by rw [List.length_map]; exact hj), getD_lt _ _ _ hj, List.getElem_map,
    mul_comm]
  congr 1
  refine Finset.sum_congr rfl fun i hi => ?_
  have hi' : i < copies.length := by rw [c1]; exact Finset.mem_range.1 hi
  obtain ⟨q, q1, q2⟩ := c2 i hi'
  obtain ⟨q', e1, e2, e3, e4⟩ := shift_around h ((i + 1) * b + 1 : ℤ)
  have : ((1 + i : ℕ) : ℝ) * r.x.stop + r.x.sample = (((i + 1) * b + 1 : ℤ) : ℝ) * s := by
    rw [h.axis]; push_cast; ring
  rw [this, e1, Except.ok.injEq] at q1
  subst q1
  rw [getD_lt copies _ _ hi', ← q2, ← around_of_lt (by rw [e3]; exact hj), e4, mul_comm]

/-- **C127** `get_code_sweep_segments` of a signal or of a sweep: the axis is the one of the base; copy `k` of the base (`k = 1, 2, …`),
scaled by entry `k` of the code, appears moved round the axis by `k b + 1 - 2 c` places. -/
theorem C127_segments (P : SweepPrims ℝ) (a : ℝ) (code : List ℝ) {c b : ℕ} {s : ℝ} :
    (∀ r, SamplesAt r c b s → PrimsWork P → ∃ w, getCodeSweepSegmentsSignal P (a :: code) r = .ok w) ∧
    (∀ r w, SamplesAt r c b s → getCodeSweepSegmentsSignal P (a :: code) r = .ok w →
      w.rel.x = r.x ∧ w.rel.y.length = r.y.length ∧
      ∀ j < r.y.length, w.rel.y.getD j 0 = a * r.y.getD j 0 +
        ∑ i ∈ Finset.range code.length, code.getD i 0 * around r.y (j - ((i + 1) * b + 1) + 2 * c)) ∧
    (∀ r : Sweep ℝ, ∀ w, SamplesAt r.rel c b s → getCodeSweepSegmentsSweep P (a :: code) r = .ok w →
      w.rel.x = r.rel.x ∧ w.rel.y.length = r.rel.y.length ∧
      ∀ j < r.rel.y.length, w.rel.y.getD j 0 = a * r.rel.y.getD j 0 +
        ∑ i ∈ Finset.range code.length, code.getD i 0 * around r.rel.y (j - ((i + 1) * b + 1) + 2 * c)) := by
  refine ⟨fun r h hP => ?_, fun r w h hw => ?_, fun r w h hw => ?_⟩
  · have hp := h.step
    exact C62_signal_succeeds P hP a code r h.balanced
      (by rw [h.axis]; simp only; nlinarith [(Nat.cast_nonneg c : (0 : ℝ) ≤ c), (Nat.cast_nonneg b : (0 : ℝ) ≤ b)])
      (by rw [h.axis]; exact hp) (by rw [h.samples]; exact h.two)
  · obtain ⟨e1, e2, e3⟩ := C62_signal P a code r h.balanced w hw
    exact ⟨e1, e2, segments_around h a code _ e3⟩
  · obtain ⟨e1, e2, e3⟩ := C62_sweep P a code r h.balanced w hw
    exact ⟨e1, e2, segments_around h a code _ e3⟩

/-- **C127** A base that begins at zero: sample `j` of the segments is `code 0 * y j + code 1 * y j + code 2 * y (j + 1) + …`, counted round
the circle. -/
theorem C127_segments_zero (P : SweepPrims ℝ) (a : ℝ) (code : List ℝ) {b : ℕ} {s : ℝ} (r : Rel ℝ ℝ) (w : Sweep ℝ) (h : SamplesAt r 0 b s)
    (hw : getCodeSweepSegmentsSignal P (a :: code) r = .ok w) :
    w.rel.x = r.x ∧ w.rel.y.length = r.y.length ∧
      ∀ j < r.y.length, w.rel.y.getD j 0 = a * r.y.getD j 0 +
        ∑ i ∈ Finset.range code.length, code.getD i 0 * r.y.getD ((j + i) % r.y.length) 0 := by
  obtain ⟨e1, e2, e3⟩ := (C127_segments P a code).2.1 r w h hw
  refine ⟨e1, e2, fun j hj => ?_⟩
  rw [e3 j hj]
  congr 1
  refine Finset.sum_congr rfl fun i _ => ?_
  have hN : (r.y.length : ℤ) = b + 1 := by rw [h.samples]; push_cast; ring
  have : ((j : ℤ) - ((i + 1) * b + 1) + 2 * (0 : ℕ)) % (r.y.length : ℤ) = (((j + i) % r.y.length : ℕ) : ℤ) := by
    rw [show ((j : ℤ) - ((i + 1) * b + 1) + 2 * (0 : ℕ)) = (j + i : ℤ) + r.y.length * (-(i + 1)) by rw [hN]; push_cast; ring,
      Int.add_mul_emod_self_left]
    push_cast; rfl
  rw [around, this, Int.toNat_natCast]

/-- **C127** The code `1, -1` of a signal that begins at zero is silent: the second copy cancels the first. -/
theorem C127_silent (P : SweepPrims ℝ) {b : ℕ} {s : ℝ} (r : Rel ℝ ℝ) (w : Sweep ℝ) (h : SamplesAt r 0 b s)
    (hw : getCodeSweepSegmentsSignal P [1, -1] r = .ok w) : w.rel = ⟨r.x, r.y.map fun _ => 0⟩ := by
  obtain ⟨e1, e2, e3⟩ := C127_segments_zero P 1 [-1] r w h hw
  rcases hq : w.rel with ⟨x, y⟩
  rw [hq] at e1 e2 e3
  simp only at e1 e2 e3
  subst e1
  congr 1
  refine List.ext_getElem (by simp [e2]) fun j h1 h2 => ?_
  have hj : j < r.y.length := by omega
  have := e3 j hj
  rw [getD_lt _ _ _ h1, getD_lt _ _ _ hj] at this
  rw [this]
  simp [Nat.mod_eq_of_lt hj, hj]

/-! ## examples -/

theorem samplesAt_three : SamplesAt ⟨⟨0, 2, 1⟩, [1, 2, 4]⟩ 0 2 1 := ⟨by norm_num, by norm_num, rfl, by norm_num⟩

/-- two periods of the signal 1, 2, 4: three samples again -/
example : ∃ q, getCodeZingerSignal ⟨⟨0, 2, 1⟩, [1, 2, 4]⟩ 2 = .ok q ∧ q.x = ⟨0, 2, 1⟩ ∧ q.y = [4, 8, 9] := by
  obtain ⟨q, e1, e2, e3, e4⟩ := C127_zinger_zero samplesAt_three 2 (by norm_num)
  refine ⟨q, e1, e2, ?_⟩
  have a0 := e4 0 (by simp)
  have a1 := e4 1 (by simp)
  have a2 := e4 2 (by simp)
  rcases q with ⟨qx, _ | ⟨u, _ | ⟨v, _ | ⟨z, _ | ⟨t, l⟩⟩⟩⟩⟩ <;> simp [Finset.sum_range_succ] at e3 a0 a1 a2 ⊢
  subst a0 a1 a2
  norm_num

/-- the code 1, -1 of the signal 1, 2, 4 is silent: the second copy falls on the first -/
example : ∃ w, getCodeSweepSegmentsSignal realPrims [1, -1] ⟨⟨0, 2, 1⟩, [1, 2, 4]⟩ = .ok w ∧ w.rel.x = ⟨0, 2, 1⟩ ∧ w.rel.y = [0, 0, 0] := by
  obtain ⟨w, hw⟩ := (C127_segments realPrims 1 [-1]).1 _ samplesAt_three realPrims_work
  obtain ⟨e2, e3, e4⟩ := C127_segments_zero realPrims 1 [-1] _ w samplesAt_three hw
  refine ⟨w, hw, e2, ?_⟩
  have a0 := e4 0 (by simp)
  have a1 := e4 1 (by simp)
  have a2 := e4 2 (by simp)
  rcases hq : w.rel with ⟨qx, _ | ⟨u, _ | ⟨v, _ | ⟨z, _ | ⟨t, l⟩⟩⟩⟩⟩ <;> rw [hq] at e3 a0 a1 a2 <;>
    simp at e3 a0 a1 a2 ⊢
  exact ⟨a0, a1, a2⟩

end

end SweepDesign
