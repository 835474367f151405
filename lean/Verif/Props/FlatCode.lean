import Verif.Props.CodeCorrelation
import Verif.Props.FourierSum
import Verif.Model.SignalSpectra
import Mathlib.Data.Rat.Floor

/-!
# C167: the amplitude spectrum of a code, and the m-sequence signal of the documentation
-/

set_option linter.unusedSectionVars false

namespace SweepDesign
open Spec

noncomputable section

/-- the correlation of `N` numbers with themselves moved round by `d` -/
def Spec.roundCorrelation (y : List ℝ) (d : ℕ) : ℝ := ∑ i ∈ Finset.range y.length, y.getD i 0 * y.getD ((i + d) % y.length) 0

theorem sum_turned {M : Type} [AddCommMonoid M] (N : ℕ) (f : ℕ → M) (t : ℕ) :
    ∑ j ∈ Finset.range N, f ((t + j) % N) = ∑ j ∈ Finset.range N, f j := by
  rcases Nat.eq_zero_or_pos N with rfl | hN
  · simp
  refine Finset.sum_nbij (fun j => (t + j) % N) (fun j _ => Finset.mem_range.2 (Nat.mod_lt _ hN)) ?_ ?_ fun _ _ => rfl
  · intro a ha b hb hab
    have ha' := Finset.mem_range.1 (Finset.mem_coe.1 ha)
    have hb' := Finset.mem_range.1 (Finset.mem_coe.1 hb)
    have : t + a ≡ t + b [MOD N] := hab
    exact Nat.ModEq.eq_of_lt_of_lt (Nat.ModEq.add_left_cancel' t this) ha' hb'
  · intro b hb
    have hb' := Finset.mem_range.1 (Finset.mem_coe.1 hb)
    refine ⟨(b + (N - t % N)) % N, Finset.mem_coe.2 (Finset.mem_range.2 (Nat.mod_lt _ hN)), ?_⟩
    have ht := Nat.mod_lt t hN
    change (t + (b + (N - t % N)) % N) % N = b
    rw [Nat.add_mod_mod, Nat.add_mod, ← Nat.add_mod, ← Nat.mod_add_mod,
      show t % N + (b + (N - t % N)) = b + N by omega, Nat.add_mod_right, Nat.mod_eq_of_lt hb']

theorem unitRoot_mod (N : ℕ) (hN : 0 < N) (j : ℕ) (k : ℤ) : unitRoot N (-(((j % N : ℕ) : ℤ) * k)) = unitRoot N (-((j : ℤ) * k)) := by
  conv_rhs => rw [← Nat.mod_add_div j N]
  rw [show -((((j % N + N * (j / N) : ℕ)) : ℤ) * k) = -(((j % N : ℕ) : ℤ) * k) + N * (-((j / N : ℕ) : ℤ) * k) by push_cast; ring,
    unitRoot_add, unitRoot_period N hN, mul_one]

theorem unitRoot_cos (N : ℕ) (a : ℤ) : (unitRoot N (-a)).re = Real.cos (2 * Real.pi * a / N) := by
  unfold unitRoot
  rw [show (2 * Real.pi * Complex.I * ((-a : ℤ) : ℂ) / (N : ℂ)) = ((-(2 * Real.pi * a / N) : ℝ) : ℂ) * Complex.I by push_cast; ring,
    Complex.exp_ofReal_mul_I_re, Real.cos_neg]

/-- the square of a transform is the transform of the correlation round the circle -/
theorem dft_square (y : List ℝ) (hy : 0 < y.length) (k : ℤ) :
    ‖∑ j ∈ Finset.range y.length, ((y.getD j 0 : ℝ) : ℂ) * unitRoot y.length (-((j : ℤ) * k))‖ ^ 2 =
      ∑ d ∈ Finset.range y.length, roundCorrelation y d * Real.cos (2 * Real.pi * (d * k) / y.length) := by
  set N := y.length with hN
  set u := fun a : ℤ => unitRoot N a with hu
  set z := ∑ j ∈ Finset.range N, ((y.getD j 0 : ℝ) : ℂ) * u (-((j : ℤ) * k)) with hz
  have h1 : (starRingEnd ℂ) z * z = ∑ d ∈ Finset.range N, ((roundCorrelation y d : ℝ) : ℂ) * u (-((d : ℤ) * k)) := by
    have e1 : (starRingEnd ℂ) z = ∑ i ∈ Finset.range N, ((y.getD i 0 : ℝ) : ℂ) * u ((i : ℤ) * k) := by
      rw [hz, map_sum]
      refine Finset.sum_congr rfl fun i _ => ?_
      rw [map_mul, Complex.conj_ofReal, hu]
      simp only
      rw [unitRoot_conj, neg_neg]
    have e2 : ∀ i : ℕ, z = ∑ d ∈ Finset.range N, ((y.getD ((i + d) % N) 0 : ℝ) : ℂ) * u (-((((i + d) % N : ℕ) : ℤ) * k)) := by
      intro i
      rw [hz]
      exact (sum_turned N (fun j => ((y.getD j 0 : ℝ) : ℂ) * u (-((j : ℤ) * k))) i).symm
    rw [e1, Finset.sum_mul]
    have e3 : ∀ i ∈ Finset.range N, ((y.getD i 0 : ℝ) : ℂ) * u ((i : ℤ) * k) * z =
        ∑ d ∈ Finset.range N, ((y.getD i 0 * y.getD ((i + d) % N) 0 : ℝ) : ℂ) * u (-((d : ℤ) * k)) := by
      intro i _
      conv_lhs => rw [e2 i]
      rw [Finset.mul_sum]
      refine Finset.sum_congr rfl fun d _ => ?_
      have : u ((i : ℤ) * k) * u (-((((i + d) % N : ℕ) : ℤ) * k)) = u (-((d : ℤ) * k)) := by
        simp only [hu]
        rw [unitRoot_mod N hy, ← unitRoot_add]
        congr 1
        push_cast
        ring
      rw [← this]
      push_cast
      ring
    rw [Finset.sum_congr rfl e3, Finset.sum_comm]
    refine Finset.sum_congr rfl fun d _ => ?_
    rw [roundCorrelation, Complex.ofReal_sum, Finset.sum_mul]
  have h2 : ((‖z‖ ^ 2 : ℝ) : ℂ) = (starRingEnd ℂ) z * z := by
    rw [Complex.conj_mul']
    push_cast
    rfl
  have h3 := congrArg Complex.re (h2.trans h1)
  rw [Complex.ofReal_re, Complex.re_sum] at h3
  rw [h3]
  refine Finset.sum_congr rfl fun d _ => ?_
  rw [Complex.re_ofReal_mul]
  congr 1
  simp only [hu]
  rw [unitRoot_cos]
  push_cast
  rfl

/-- the amplitudes of a signal whose axis contains zero -/
theorem amplitude_whole (r : Rel ℝ ℝ) (lt ly : List ℝ) (h : r.getData = .ok (lt, ly)) (s : ℝ) (hs : 0 < s) (a b : ℤ) (ha : a ≤ 0)
    (hb : 0 ≤ b) (hab : a < b) (hsample : r.x.sample = s) (hstart : r.x.start = a * s) (hstop : r.x.stop = b * s) :
    ∃ q lf la, r.signalAmplitude = .ok q ∧ q.getData = .ok (lf, la) ∧ lf.length = ly.length / 2 + 1 ∧ la.length = ly.length / 2 + 1 ∧
      ∀ k (h1 : k < lf.length) (h2 : k < la.length), lf[k] = k / (ly.length * s) ∧
        la[k] = ‖∑ j ∈ Finset.range ly.length, ((ly.getD j 0 : ℝ) : ℂ) * unitRoot ly.length (-((j : ℤ) * (k : ℤ)))‖ := by
  obtain ⟨d, hd⟩ : ∃ d : ℕ, b = a + d := ⟨(b - a).toNat, by omega⟩
  have harr := array_whole r.x d (by rw [hsample]; exact hs) (by rw [hstart, hstop, hsample, hd]; push_cast; ring)
  obtain ⟨g1, rfl, g3⟩ := (getData_ok_iff _ _ _).1 h
  rw [harr] at g1
  obtain rfl := Except.ok.inj g1
  have hlen : r.y.length = d + 1 := by rw [← g3]; simp
  obtain ⟨sp, lf, lv, e1, e2, e3, e4, e5⟩ := C69_fourier_sum r _ _ h s hs a b hab hsample hstart hstop r.y.length (by
    rw [hlen, max_eq_left hb, min_eq_left ha]; push_cast; omega)
  obtain ⟨f1, rfl, f3⟩ := (getData_ok_iff _ _ _).1 e2
  have hbal : sp.getAmpSpectrum = .ok ⟨sp.x, sp.y.map fun z => ‖z‖⟩ :=
    (make_ok_iff _ _ _).2 ⟨by simp [Axis.size, f1, Except.map, f3], rfl⟩
  refine ⟨⟨sp.x, sp.y.map fun z => ‖z‖⟩, lf, sp.y.map fun z => ‖z‖, ?_, ?_, e3, ?_, fun k h1 h2 => ?_⟩
  · rw [Rel.signalAmplitude, e1, except_bind_ok, hbal]
  · exact (getData_ok_iff _ _ _).2 ⟨f1, rfl, by simp [f3]⟩
  · simp [e4]
  · have h3 : k < sp.y.length := by simpa using h2
    obtain ⟨c1, c2⟩ := e5 k h1 h3
    refine ⟨c1, ?_⟩
    have hN : (0 : ℝ) < r.y.length := by rw [hlen]; positivity
    have hc : sp.y[k] = unitRoot r.y.length (-(a * k)) *
        ∑ j ∈ Finset.range r.y.length, ((r.y.getD j 0 : ℝ) : ℂ) * unitRoot r.y.length (-((j : ℤ) * (k : ℤ))) := by
      rw [c2, Finset.mul_sum]
      refine Finset.sum_congr rfl fun j hj => ?_
      have hj' := Finset.mem_range.1 hj
      rw [mul_left_comm, ← unitRoot_add]
      congr 1
      rw [getD_lt _ _ _ (by simpa [hlen] using hj'), List.getElem_map, List.getElem_range, c1, hsample, hstart]
      unfold unitRoot
      congr 1
      have h1 : ((r.y.length : ℝ) : ℂ) ≠ 0 := by exact_mod_cast hN.ne'
      have h2 : (s : ℂ) ≠ 0 := by exact_mod_cast hs.ne'
      push_cast at h1 ⊢
      field_simp
      ring
    have hu : ‖unitRoot r.y.length (-(a * k))‖ = 1 := by
      unfold unitRoot
      rw [show (2 * Real.pi * Complex.I * ((-(a * k) : ℤ) : ℂ) / ((r.y.length : ℕ) : ℂ)) =
        ((2 * Real.pi * (-(a * k)) / r.y.length : ℝ) : ℂ) * Complex.I by push_cast; ring]
      exact Complex.norm_exp_ofReal_mul_I _
    rw [List.getElem_map, hc, norm_mul, hu, one_mul]

/-- **C167.** The squared amplitudes of a signal of `N` samples whose axis contains zero are the cosine sums of the correlation of the
samples with themselves round the circle. -/
theorem C167_circular (r : Rel ℝ ℝ) (lt ly : List ℝ) (h : r.getData = .ok (lt, ly)) (s : ℝ) (hs : 0 < s) (a b : ℤ) (ha : a ≤ 0)
    (hb : 0 ≤ b) (hab : a < b) (hsample : r.x.sample = s) (hstart : r.x.start = a * s) (hstop : r.x.stop = b * s) :
    ∃ q lf la, r.signalAmplitude = .ok q ∧ q.getData = .ok (lf, la) ∧ lf.length = ly.length / 2 + 1 ∧ la.length = ly.length / 2 + 1 ∧
      ∀ k (h1 : k < lf.length) (h2 : k < la.length), lf[k] = k / (ly.length * s) ∧ 0 ≤ la[k] ∧
        la[k] ^ 2 = ∑ d ∈ Finset.range ly.length, roundCorrelation ly d * Real.cos (2 * Real.pi * (d * k) / ly.length) := by
  obtain ⟨q, lf, la, e1, e2, e3, e4, e5⟩ := amplitude_whole r lt ly h s hs a b ha hb hab hsample hstart hstop
  have hpos : 0 < ly.length := by
    have harr := array_whole r.x (b - a).toNat (by rw [hsample]; exact hs) (by
      have : (((b - a).toNat : ℤ) : ℝ) = b - a := by rw [Int.toNat_of_nonneg (by omega)]; push_cast; rfl
      rw [hstart, hstop, hsample, ← Int.cast_natCast, this]; ring)
    obtain ⟨g1, -, g3⟩ := (getData_ok_iff _ _ _).1 h
    rw [harr] at g1
    rw [← g3, ← Except.ok.inj g1]
    simp
  refine ⟨q, lf, la, e1, e2, e3, e4, fun k h1 h2 => ?_⟩
  obtain ⟨c1, c2⟩ := e5 k h1 h2
  refine ⟨c1, by rw [c2]; exact norm_nonneg _, ?_⟩
  rw [c2, dft_square ly hpos]
  push_cast
  rfl

/-- the cosines of all points but the first -/
theorem cosines_round (N : ℕ) (hN : 0 < N) (k : ℕ) :
    ∑ d ∈ Finset.range N, Real.cos (2 * Real.pi * (d * k) / N) = if N ∣ k then (N : ℝ) else 0 := by
  have h := congrArg Complex.re (unitRoot_sum N hN (-(k : ℤ)))
  rw [Complex.re_sum] at h
  have e : ∀ d ∈ Finset.range N, Real.cos (2 * Real.pi * (d * k) / N) = (unitRoot N (-(k : ℤ) * d)).re := by
    intro d _
    rw [show -(k : ℤ) * d = -((d : ℤ) * k) by ring, unitRoot_cos]
    push_cast
    rfl
  rw [Finset.sum_congr rfl e, h]
  have : ((N : ℤ) ∣ -(k : ℤ)) ↔ N ∣ k := by rw [dvd_neg, Int.natCast_dvd_natCast]
  simp only [this]
  split_ifs <;> simp

/-- **C167.** The signal of the signs of a full m-sequence, on an axis that contains zero, has the same amplitude at every frequency but
zero, whatever the random start: the square root of `2 ^ k`, and 1 at zero. -/
theorem C167_flat (rand : ℕ → ℤ) (L : ℤ) (k : ℕ) (hL : 2 ≤ L) (hk : k = Nat.clog 2 (L - 1).toNat) (h2 : 2 ≤ k) (h32 : k ≤ 32) :
    ∃ m : List ℤ, getMSequenceCode scipyMls rand L true = .ok m ∧ ∀ (s : ℝ) (a b : ℤ), 0 < s → a ≤ 0 → 0 ≤ b → b - a = 2 ^ k - 2 →
      ∃ r q lf la, Rel.make ⟨a * s, b * s, s⟩ (m.map fun v : ℤ => (v : ℝ) * 2 - 1) = .ok r ∧ r.signalAmplitude = .ok q ∧
        q.getData = .ok (lf, la) ∧ la.length = 2 ^ (k - 1) ∧
        ∀ i (h1 : i < lf.length) (h2 : i < la.length), lf[i] = i / ((2 ^ k - 1) * s) ∧
          la[i] = if i = 0 then 1 else Real.sqrt (2 ^ k) := by
  obtain ⟨m, hm, ml, mv, -, mc, -⟩ := C97_code rand L k hL hk h2 h32
  refine ⟨m, hm, fun s a b hs ha hb hab => ?_⟩
  have h4 : 2 ^ 2 ≤ 2 ^ k := Nat.pow_le_pow_right (by norm_num) h2
  have hcast : ((2 ^ k : ℕ) : ℤ) = 2 ^ k := by push_cast; rfl
  have hcastR : ((2 ^ k - 1 : ℕ) : ℝ) = 2 ^ k - 1 := by rw [Nat.cast_sub (by omega)]; push_cast; rfl
  have harr := array_whole (⟨a * s, b * s, s⟩ : Axis ℝ) (2 ^ k - 2) hs (by
    have : ((2 ^ k - 2 : ℕ) : ℤ) = b - a := by rw [hab]; omega
    have : ((2 ^ k - 2 : ℕ) : ℝ) = b - a := by exact_mod_cast this
    simp only
    rw [this]; ring)
  set y := m.map fun v : ℤ => (v : ℝ) * 2 - 1 with hy
  have hyl : y.length = 2 ^ k - 1 := by simp [hy, ml]
  have hdata : (⟨⟨a * s, b * s, s⟩, y⟩ : Rel ℝ ℝ).getData = .ok (_, y) :=
    (getData_ok_iff _ _ _).2 ⟨harr, rfl, by simp [hyl]; omega⟩
  obtain ⟨q, lf, la, e1, e2, e3, e4, e5⟩ := C167_circular ⟨⟨a * s, b * s, s⟩, y⟩ _ _ hdata s hs a b ha hb (by omega) rfl rfl rfl
  have hhalf : y.length / 2 + 1 = 2 ^ (k - 1) := by
    have : 2 ^ k = 2 * 2 ^ (k - 1) := by
      conv_lhs => rw [show k = (k - 1) + 1 by omega]
      rw [pow_succ]; ring
    omega
  refine ⟨_, q, lf, la, (make_ok_iff _ _ _).2 ⟨?_, rfl⟩, e1, e2, by rw [e4, hhalf], fun i h1 h2 => ?_⟩
  · simp [Axis.size, harr, Except.map, hyl]; omega
  obtain ⟨c1, c2, c3⟩ := e5 i h1 h2
  rw [hyl, hcastR] at c1
  refine ⟨c1, ?_⟩
  have hget : ∀ j < 2 ^ k - 1, y.getD j 0 = -((1 - 2 * at0 m j : ℤ) : ℝ) := by
    intro j hj
    rw [getD_lt _ _ _ (by omega), at0_eq _ _ (by omega)]
    simp [hy]
    ring
  have hcor : ∀ d < 2 ^ k - 1, roundCorrelation y d = if d = 0 then (2 : ℝ) ^ k - 1 else -1 := by
    intro d hd
    have hsum : roundCorrelation y d =
        ((∑ j ∈ Finset.range m.length, (1 - 2 * at0 m j) * (1 - 2 * at0 m ((j + d) % m.length)) : ℤ) : ℝ) := by
      rw [roundCorrelation, hyl, ml, Int.cast_sum]
      refine Finset.sum_congr rfl fun j hj => ?_
      rw [hget j (Finset.mem_range.1 hj), hget _ (Nat.mod_lt _ (by omega))]
      push_cast
      ring
    rw [hsum]
    split_ifs with h0
    · have hone : ∀ j ∈ Finset.range m.length, (1 - 2 * at0 m j) * (1 - 2 * at0 m ((j + d) % m.length)) = 1 := by
        intro j hj
        have hj' := Finset.mem_range.1 hj
        rw [h0, add_zero, Nat.mod_eq_of_lt hj', at0_eq _ _ hj']
        rcases mv _ (List.getElem_mem hj') with h | h <;> rw [h] <;> norm_num
      rw [Finset.sum_congr rfl hone, Finset.sum_const, Finset.card_range, ml, nsmul_eq_mul, mul_one, Int.cast_natCast, hcastR]
    · rw [mc d (fun hdv => h0 (Nat.eq_zero_of_dvd_of_lt hdv hd))]
      norm_num
  have hsq : la[i] ^ 2 = if i = 0 then 1 else (2 : ℝ) ^ k := by
    rw [c3, hyl]
    have hi : i < 2 ^ (k - 1) := by rw [e4, hhalf] at h2; exact h2
    have e : ∀ d ∈ Finset.range (2 ^ k - 1), roundCorrelation y d * Real.cos (2 * Real.pi * (d * i) / ((2 ^ k - 1 : ℕ) : ℝ)) =
        (if d = 0 then (2 : ℝ) ^ k else 0) - Real.cos (2 * Real.pi * (d * i) / ((2 ^ k - 1 : ℕ) : ℝ)) := by
      intro d hd
      rw [hcor d (Finset.mem_range.1 hd)]
      split_ifs with h0
      · rw [h0]; simp
      · ring
    rw [Finset.sum_congr rfl e, Finset.sum_sub_distrib, cosines_round _ (by omega), Finset.sum_ite_eq' ,
      if_pos (Finset.mem_range.2 (by omega))]
    have hdv : (2 ^ k - 1 ∣ i) ↔ i = 0 := by
      refine ⟨fun h => Nat.eq_zero_of_dvd_of_lt h ?_, fun h => h ▸ dvd_zero _⟩
      omega
    simp only [hdv, hcastR]
    split_ifs <;> ring
  split_ifs with h0
  · rw [if_pos h0] at hsq
    nlinarith
  · rw [if_neg h0] at hsq
    rw [← hsq, Real.sqrt_sq c2]

/-- **C167.** The m-sequence signal of the documentation, a code of `size + 1` on an axis of `size` points: it can be made unless the
number of points is a power of two. -/
theorem C167_recipe (rand : ℕ → ℤ) (t : Axis ℝ) (n : ℕ) (hn : t.size = .ok n) (h1 : 1 ≤ n) (h32 : n ≤ 2 ^ 32) :
    (∃ r, (do let m ← getMSequenceCode scipyMls rand (n + 1) false
              Rel.make t (m.map fun v : ℤ => (v : ℝ) * 2 - 1) : Except Err (Rel ℝ ℝ)) = .ok r) ↔ ¬ ∃ k, n = 2 ^ k := by
  rcases Nat.lt_or_ge n 3 with h3 | h3
  · obtain ⟨-, g2, g3⟩ := C61_small (V := ℤ) scipyMls rand false
    rcases (by omega : n = 1 ∨ n = 2) with rfl | rfl
    · have : ((1 : ℕ) : ℤ) + 1 = 2 := rfl
      rw [this, g2]
      simp only [except_bind_error, reduceCtorEq, exists_false, false_iff, not_not]
      exact ⟨0, rfl⟩
    · have : ((2 : ℕ) : ℤ) + 1 = 3 := rfl
      rw [this, g3]
      simp only [except_bind_error, reduceCtorEq, exists_false, false_iff, not_not]
      exact ⟨1, rfl⟩
  obtain ⟨l, k, e1, e2, e3, -, e5, -⟩ := C61_code_length scipyMls C97_full_period rand (n + 1) (by omega) (by omega)
  simp only [Nat.add_sub_cancel, Nat.cast_add, Nat.cast_one] at e1 e2 e3 e5
  rw [e1, except_bind_ok]
  have hl : l.length = n ↔ ¬ n = 2 ^ k := by
    rw [e5]
    split_ifs with h
    · simp only [h, not_true_eq_false, iff_false]; omega
    · simp [h]
  constructor
  · rintro ⟨r, hr⟩ ⟨j, hj⟩
    obtain ⟨g, -⟩ := (make_ok_iff _ _ _).1 hr
    rw [hn, List.length_map, Except.ok.injEq] at g
    have h4 := e3 j hj.le
    have : 2 ^ k ≤ 2 ^ j := Nat.pow_le_pow_right (by norm_num) h4
    exact hl.1 g.symm (by omega)
  · intro h
    exact ⟨_, (make_ok_iff _ _ _).2 ⟨by rw [hn, List.length_map, hl.2 fun h' => h ⟨k, h'⟩], rfl⟩⟩

end

/-- a code of seven signs on an axis from -2 to 4: four amplitudes, 1 and three times the root of 8 -/
example : getMSequenceCode scipyMls (fun _ => 1) 8 true = .ok [1, 1, 1, 0, 1, 0, 0] ∧ (3 = Nat.clog 2 (8 - 1 : ℤ).toNat) ∧
    ((4 : ℤ) - (-2) = 2 ^ 3 - 2) ∧ 2 ^ (3 - 1) = 4 := by
  decide +kernel

example : (⟨⟨-2, 4, 1⟩, [1, 1, 1, -1, 1, -1, -1]⟩ : Rel ℚ ℚ).getData = .ok ([-2, -1, 0, 1, 2, 3, 4], [1, 1, 1, -1, 1, -1, -1]) := by
  decide +kernel

/-- the axis of the notebook, ten seconds at 0.25 ms, has 40001 points, no power of two -/
example : (⟨0, 10, 1 / 4000⟩ : Axis ℝ).size = .ok 40001 ∧ (¬ ∃ k, 40001 = 2 ^ k) ∧ 40001 ≤ 2 ^ 32 := by
  refine ⟨?_, ?_, by norm_num⟩
  · have := array_whole (⟨0, 10, 1 / 4000⟩ : Axis ℝ) 40000 (by norm_num) (by norm_num)
    rw [Axis.size, this]
    simp [Except.map]
  rintro ⟨k, hk⟩
  rcases Nat.lt_or_ge k 16 with h | h
  · interval_cases k <;> omega
  · have : 2 ^ 16 ≤ 2 ^ k := Nat.pow_le_pow_right (by norm_num) h
    omega

/-- on four points the code has three values and the signal cannot be made -/
example : (do let m ← getMSequenceCode scipyMls (fun _ => 1) (4 + 1) false
              Rel.make ⟨0, 3, 1⟩ (m.map fun v : ℤ => (v : ℚ) * 2 - 1) : Except Err (Rel ℚ ℚ)) = .error (.notEqual 4 3) := by
  decide +kernel

end SweepDesign
