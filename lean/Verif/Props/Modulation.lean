import Verif.Props.ShiftLaws
import Verif.Props.ConvSpectrum
import Verif.Props.SweepLaws

/-!
# C131: the spectrum of a product of signals

C74 turns convolutions into products of spectra. Here the signals are multiplied: by another signal, or by a tone of any frequency.
-/

set_option linter.unusedSectionVars false

namespace SweepDesign
open Spec

noncomputable section

theorem mul_same_axis (same : Bool) (r q : Rel ℝ ℝ) (h1 : Balanced r) (h2 : Balanced q) (hx : q.x = r.x) :
    r.mul (.rel same q) = .ok ⟨r.x, List.zipWith (· * ·) r.y q.y⟩ := by
  rw [Rel.mul, operation_equal_axes _ _ _ _ h1 h2 hx.symm]
  have : List.zipWith MathOp.mul.fn r.y q.y = (List.zipWith (· * ·) r.y q.y).map some := by
    rw [List.map_zipWith]; rfl
  rw [this, finite_map_some]
  rfl

theorem getD_products {a b : List ℝ} (h : a.length = b.length) (j : ℕ) :
    (List.zipWith (· * ·) a b).getD j 0 = a.getD j 0 * b.getD j 0 := by
  rcases Nat.lt_or_ge j a.length with hj | hj
  · rw [getD_lt _ _ _ (by simp; omega), getD_lt _ _ _ hj, getD_lt _ _ _ (by omega), List.getElem_zipWith]
  · simp [List.getD_eq_getElem?_getD, hj]

/-- **C131.** The spectrum of a signal times a cosine of frequency `f0`: half of what the signal has `f0` below the frequency, turned by the
phase of the cosine, and half of what it has `f0` above, turned back. -/
theorem C131_tone (same : Bool) (r q : Rel ℝ ℝ) (lt ly : List ℝ) (h : r.getData = .ok (lt, ly)) (s : ℝ) (hs : 0 < s) (a b : ℤ)
    (hab : a < b) (hsample : r.x.sample = s) (hstart : r.x.start = a * s) (hstop : r.x.stop = b * s) (N : ℕ)
    (hN : (N : ℤ) = max b 0 - min a 0 + 1) (f0 φ : ℝ) (hqx : q.x = r.x)
    (hq : q.y = lt.map fun t => Real.cos (2 * Real.pi * f0 * t + φ)) :
    ∃ p sp lf lv, r.mul (.rel same q) = .ok p ∧ p.getSpectrum = .ok sp ∧ sp.getData = .ok (lf, lv) ∧ lf.length = N / 2 + 1 ∧
      lv.length = N / 2 + 1 ∧ ∀ k (h1 : k < lf.length) (h2 : k < lv.length), lf[k] = k / (N * s) ∧
        lv[k] = (Complex.exp (Complex.I * φ) * fourierSum lt ly (lf[k] - f0) +
          Complex.exp (-(Complex.I * φ)) * fourierSum lt ly (lf[k] + f0)) / 2 := by
  have hb := (balanced_iff_getData r).2 ⟨_, h⟩
  obtain ⟨hx, rfl, hlen⟩ := (getData_ok_iff _ _ _).1 h
  have hbq : Balanced q := (balanced_iff_getData q).2 ⟨(lt, q.y), (getData_ok_iff _ _ _).2 ⟨by rw [hqx]; exact hx, rfl, by rw [hq]; simp⟩⟩
  have hlq : r.y.length = q.y.length := by rw [hq]; simp [hlen]
  have hp : (⟨r.x, List.zipWith (· * ·) r.y q.y⟩ : Rel ℝ ℝ).getData = .ok (lt, List.zipWith (· * ·) r.y q.y) :=
    (getData_ok_iff _ _ _).2 ⟨hx, rfl, by simp; omega⟩
  obtain ⟨sp, lf, lv, e1, e2, e3, e4, e5⟩ := C69_fourier_sum _ lt _ hp s hs a b hab hsample hstart hstop N hN
  refine ⟨_, sp, lf, lv, mul_same_axis same r q hb hbq hqx, e1, e2, e3, e4, fun k h1 h2 => ⟨(e5 k h1 h2).1, ?_⟩⟩
  rw [(e5 k h1 h2).2]
  generalize lf[k] = f
  unfold fourierSum
  rw [Finset.mul_sum, Finset.mul_sum, ← Finset.sum_add_distrib, Finset.sum_div]
  have hl : (List.zipWith (· * ·) r.y q.y).length = r.y.length := by simp; omega
  rw [hl]
  refine Finset.sum_congr rfl fun j hj => ?_
  have hj := Finset.mem_range.1 hj
  rw [getD_products hlq]
  have hqj : q.y.getD j 0 = Real.cos (2 * Real.pi * f0 * lt.getD j 0 + φ) := by
    rw [hq, getD_lt _ _ _ (by simp; omega), getD_lt _ _ _ (by omega), List.getElem_map]
  rw [hqj]
  generalize lt.getD j 0 = t
  push_cast
  rw [Complex.cos]
  have k1 : Complex.exp ((2 * Real.pi * f0 * t + φ) * Complex.I) * Complex.exp (-(2 * Real.pi * Complex.I * (f * t))) =
      Complex.exp (Complex.I * φ) * Complex.exp (-(2 * Real.pi * Complex.I * ((f - f0) * t))) := by
    rw [← Complex.exp_add, ← Complex.exp_add]; congr 1; ring
  have k2 : Complex.exp (-(2 * Real.pi * f0 * t + φ) * Complex.I) * Complex.exp (-(2 * Real.pi * Complex.I * (f * t))) =
      Complex.exp (-(Complex.I * φ)) * Complex.exp (-(2 * Real.pi * Complex.I * ((f + f0) * t))) := by
    rw [← Complex.exp_add, ← Complex.exp_add]; congr 1; ring
  calc _ = (r.y.getD j 0 : ℂ) * (Complex.exp ((2 * Real.pi * f0 * t + φ) * Complex.I) * Complex.exp (-(2 * Real.pi * Complex.I * (f * t))) +
        Complex.exp (-(2 * Real.pi * f0 * t + φ) * Complex.I) * Complex.exp (-(2 * Real.pi * Complex.I * (f * t)))) / 2 := by ring
    _ = _ := by rw [k1, k2]; ring

theorem dft_product (n : ℕ) (hn : 0 < n) (a b : ℕ → ℝ) (k : ℤ) :
    (n : ℂ) * dft n (fun j => a j * b j) k = ∑ m ∈ Finset.range n, dft n a m * dft n b (k - m) := by
  have key : ∀ j < n, ∑ m ∈ Finset.range n, dft n a m * unitRoot n (j * m) = n * (a j : ℂ) := fun j hj => by
    have h := dft_inverse n hn a 0 j
    simp only [mul_zero, neg_zero, unitRoot_zero, mul_one, sub_zero] at h
    rw [h]
    congr 3
    rw [← Int.natCast_mod, Int.toNat_natCast, Nat.mod_eq_of_lt hj]
  have h1 : ∀ m ∈ Finset.range n, dft n a m * dft n b (k - m) =
      ∑ j ∈ Finset.range n, dft n a m * unitRoot n (j * m) * ((b j : ℂ) * unitRoot n (-(j * k))) := fun m _ => by
    conv_lhs => rw [dft.eq_1 n b]
    rw [Finset.mul_sum]
    refine Finset.sum_congr rfl fun j _ => ?_
    rw [show -((j : ℤ) * (k - m)) = j * m + -(j * k) by ring, unitRoot_add]
    ring
  rw [Finset.sum_congr rfl h1, Finset.sum_comm]
  conv_lhs => rw [dft, Finset.mul_sum]
  refine Finset.sum_congr rfl fun j hj => ?_
  rw [← Finset.sum_mul, key j (Finset.mem_range.1 hj)]
  push_cast; ring

theorem fourierSum_grid {lt ly : List ℝ} {s : ℝ} (hs : 0 < s) {n : ℕ} (hn : 0 < n) (hl : ly.length = n)
    (ht : ∀ j < n, lt.getD j 0 = j * s) (m : ℤ) : fourierSum lt ly (m / (n * s)) = dft n (at0 ly) m := by
  unfold fourierSum dft
  rw [hl]
  refine Finset.sum_congr rfl fun j hj => ?_
  have hn' : (n : ℂ) ≠ 0 := by exact_mod_cast hn.ne'
  have hs' : (s : ℂ) ≠ 0 := by exact_mod_cast hs.ne'
  rw [ht j (Finset.mem_range.1 hj), unitRoot]
  congr 2
  push_cast; field_simp

/-- **C131.** The spectrum of the product of two signals on the axis `0, s, …, K s`: the sums of the products of their Fourier sums at
frequencies that add up (all `K + 1` frequencies, going round), divided by the number of samples. -/
theorem C131_product (same : Bool) (r q : Rel ℝ ℝ) (lt ly lz : List ℝ) (hr : r.getData = .ok (lt, ly)) (hq : q.getData = .ok (lt, lz))
    (s : ℝ) (hs : 0 < s) (K : ℕ) (hK : 1 ≤ K) (hrx : r.x = ⟨0, K * s, s⟩) (hqx : q.x = ⟨0, K * s, s⟩) :
    ∃ p sp lf lv, r.mul (.rel same q) = .ok p ∧ p.getSpectrum = .ok sp ∧ sp.getData = .ok (lf, lv) ∧
      lf.length = (K + 1) / 2 + 1 ∧ lv.length = (K + 1) / 2 + 1 ∧
      ∀ k (h1 : k < lf.length) (h2 : k < lv.length), lf[k] = k / (((K + 1 : ℕ) : ℝ) * s) ∧
        lv[k] = (∑ m ∈ Finset.range (K + 1), fourierSum lt ly (m / (((K + 1 : ℕ) : ℝ) * s)) *
          fourierSum lt lz (lf[k] - m / (((K + 1 : ℕ) : ℝ) * s))) / ((K + 1 : ℕ) : ℂ) := by
  have hb := (balanced_iff_getData r).2 ⟨_, hr⟩
  have hbq := (balanced_iff_getData q).2 ⟨_, hq⟩
  obtain ⟨rfl, l1, t1⟩ := times_whole r s hs K hrx lt ly hr
  obtain ⟨rfl, l2, t2⟩ := times_whole q s hs K hqx lt lz hq
  obtain ⟨hx, -, hlen⟩ := (getData_ok_iff _ _ _).1 hr
  have hlq : r.y.length = q.y.length := by omega
  have hp : (⟨r.x, List.zipWith (· * ·) r.y q.y⟩ : Rel ℝ ℝ).getData = .ok (lt, List.zipWith (· * ·) r.y q.y) :=
    (getData_ok_iff _ _ _).2 ⟨hx, rfl, by simp; omega⟩
  obtain ⟨sp, lf, lv, e1, e2, e3, e4, e5⟩ := C69_fourier_sum _ lt _ hp s hs 0 K (by omega) (by simp [hrx]) (by simp [hrx]) (by simp [hrx])
    (K + 1) (by simp)
  refine ⟨_, sp, lf, lv, mul_same_axis same r q hb hbq (by rw [hrx, hqx]), e1, e2, e3, e4, fun k h1 h2 => ⟨(e5 k h1 h2).1, ?_⟩⟩
  have hn : 0 < K + 1 := by omega
  have hnc : ((K + 1 : ℕ) : ℂ) ≠ 0 := by exact_mod_cast hn.ne'
  have g : lv[k] = fourierSum lt (List.zipWith (· * ·) r.y q.y) (((k : ℤ) : ℝ) / (((K + 1 : ℕ) : ℝ) * s)) := by
    rw [(e5 k h1 h2).2, (e5 k h1 h2).1]; rfl
  rw [g, fourierSum_grid hs hn (by simp; omega) t1, eq_div_iff hnc, mul_comm]
  have hd : dft (K + 1) (at0 (List.zipWith (· * ·) r.y q.y)) k = dft (K + 1) (fun j => at0 r.y j * at0 q.y j) k :=
    dft_congr _ _ _ _ fun i _ => getD_products hlq i
  rw [hd, dft_product _ hn]
  refine Finset.sum_congr rfl fun m _ => ?_
  rw [← fourierSum_grid hs hn l1 t1, ← fourierSum_grid hs hn l2 t2, (e5 k h1 h2).1]
  congr 2
  push_cast; ring

/-! ### cases that meet the hypotheses -/

theorem points131 : (⟨0, 1, 1⟩ : Axis ℝ).array = .ok [0, 1] := by
  rw [array_whole _ 1 (by norm_num) (by norm_num)]
  norm_num [List.range_succ]

/-- the signals `1, 2` and `3, 4`: the product `3, 8` has the spectrum `11, -5`, found from the sums `3, -1` and `7, -1` of the factors -/
example : ∃ p sp lf lv, (⟨⟨0, 1, 1⟩, [1, 2]⟩ : Rel ℝ ℝ).mul (.rel false ⟨⟨0, 1, 1⟩, [3, 4]⟩) = .ok p ∧ p.getSpectrum = .ok sp ∧
    sp.getData = .ok (lf, lv) ∧ lv = [11, -5] := by
  obtain ⟨p, sp, lf, lv, e1, e2, e3, e4, e5, e6⟩ := C131_product false ⟨⟨0, 1, 1⟩, [1, 2]⟩ ⟨⟨0, 1, 1⟩, [3, 4]⟩ [0, 1] [1, 2] [3, 4]
    ((getData_ok_iff _ _ _).2 ⟨points131, rfl, rfl⟩) ((getData_ok_iff _ _ _).2 ⟨points131, rfl, rfl⟩) 1 (by norm_num) 1 le_rfl
    (by norm_num) (by norm_num)
  refine ⟨p, sp, lf, lv, e1, e2, e3, ?_⟩
  have hpi : Complex.exp (-(2 * Real.pi * Complex.I * (1 / 2))) = -1 := by
    rw [show -(2 * Real.pi * Complex.I * (1 / 2) : ℂ) = -(Real.pi * Complex.I) by ring, Complex.exp_neg, Complex.exp_pi_mul_I]; norm_num
  have hpi' : Complex.exp (2 * Real.pi * Complex.I * (1 / 2)) = -1 := by
    rw [show (2 * Real.pi * Complex.I * (1 / 2) : ℂ) = Real.pi * Complex.I by ring, Complex.exp_pi_mul_I]
  refine List.ext_getElem (by simp [e5]) fun k h1 h2 => ?_
  rw [(e6 k (by omega) h1).2, (e6 k (by omega) h1).1]
  have hk : k < 2 := by simpa using h2
  interval_cases k
  · norm_num [Finset.sum_range_succ, fourierSum, hpi, hpi']
  · norm_num [Finset.sum_range_succ, fourierSum, hpi, hpi']

/-- a signal times a cosine of a frequency that is no frequency of the spectrum -/
example : ∃ p sp lf lv, (⟨⟨0, 1, 1⟩, [1, 2]⟩ : Rel ℝ ℝ).mul (.rel false ⟨⟨0, 1, 1⟩, [0, 1].map fun t => Real.cos (2 * Real.pi * (1 / 7) * t + 1)⟩) = .ok p ∧
    p.getSpectrum = .ok sp ∧ sp.getData = .ok (lf, lv) ∧ lf.length = 2 := by
  obtain ⟨p, sp, lf, lv, e1, e2, e3, e4, -⟩ := C131_tone false ⟨⟨0, 1, 1⟩, [1, 2]⟩
    ⟨⟨0, 1, 1⟩, [0, 1].map fun t => Real.cos (2 * Real.pi * (1 / 7) * t + 1)⟩ [0, 1] [1, 2]
    ((getData_ok_iff _ _ _).2 ⟨points131, rfl, rfl⟩) 1 (by norm_num) 0 1 (by norm_num) rfl (by norm_num) (by norm_num) 2 (by norm_num) (1 / 7) 1 rfl rfl
  exact ⟨p, sp, lf, lv, e1, e2, e3, e4⟩

end

end SweepDesign
