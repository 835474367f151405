import Verif.Props.FourierSum
import Verif.Props.SignalShift
import Verif.Props.Convolution
import Mathlib.Algebra.Polynomial.BigOperators
import Mathlib.Algebra.Polynomial.Eval.Degree

/-!
# C74: spectra of convolutions and correlations of signals
-/

set_option linter.unusedSectionVars false

namespace SweepDesign
open Spec

/-- the Fourier sum `Σ y_j e^{-2πi f t_j}` of samples `ly` at the times `lt` -/
noncomputable def Spec.fourierSum (lt ly : List ℝ) (f : ℝ) : ℂ :=
  ∑ j ∈ Finset.range ly.length,
    ((ly.getD j 0 : ℝ) : ℂ) * Complex.exp (-(2 * Real.pi * Complex.I * ((f * lt.getD j 0 : ℝ) : ℂ)))

/-- shifting a signal that starts at zero by its start gives it back -/
theorem signalShift_zero (r : Rel ℝ ℝ) (h : Balanced r) (hn : 2 ≤ r.y.length) (h0 : r.x.start = 0)
    (hinc : r.x.start < r.x.stop) : r.signalShift (-r.x.start) = .ok r := by
  obtain ⟨q, e1, e2, e3, e4⟩ := C41_circular_delay r h hn h0 hinc 0
  have : -r.x.start = ((0 : ℤ) : ℝ) * r.x.sample := by rw [h0]; simp
  rw [this, e1]
  congr 1
  have hy : q.y = r.y := by
    refine List.ext_getElem e3 fun i hi hi' => ?_
    have := e4 i hi'
    rw [show (((i : ℤ) + 0) % (r.y.length : ℤ)).toNat = i by
      rw [add_zero, Int.emod_eq_of_lt (by omega) (by omega)]; simp, List.getElem?_eq_getElem hi] at this
    simpa using this
  rcases q with ⟨qx, qy⟩
  simp only at e2 hy
  subst e2 hy
  rfl

theorem shift_zero (r : Rel ℝ ℝ) (h : Balanced r) (h0 : r.x.start = 0) : r.shift (-r.x.start) = .ok r := by
  have hx : (⟨r.x.start + -r.x.start, r.x.stop + -r.x.start, r.x.sample⟩ : Axis ℝ) = r.x := by
    rcases r with ⟨⟨a, b, c⟩, y⟩
    simp only at h0
    simp [h0]
  have := shift_neg_start r h
  rw [this]
  congr 1
  rcases r with ⟨⟨a, b, c⟩, y⟩
  simp only at h0
  simp [Rel.zeroed, h0]

theorem signalAlign_zero (r1 r2 : Rel ℝ ℝ) (h1 : Balanced r1) (h2 : Balanced r2) (n1 : 2 ≤ r1.y.length)
    (n2 : 2 ≤ r2.y.length) (s1 : r1.x.start = 0) (s2 : r2.x.start = 0) (i1 : r1.x.start < r1.x.stop)
    (i2 : r2.x.start < r2.x.stop) : Rel.signalAlign r1 r2 = Rel.alignForConv r1 r2 := by
  unfold Rel.signalAlign Rel.alignForConv
  rw [signalShift_zero r1 h1 n1 s1 i1, signalShift_zero r2 h2 n2 s2 i2, shift_zero r1 h1 s1, shift_zero r2 h2 s2]

/-- signals that start at zero are convolved and correlated like relations -/
theorem signalConvolve_zero (r1 r2 : Rel ℝ ℝ) (h1 : Balanced r1) (h2 : Balanced r2) (n1 : 2 ≤ r1.y.length)
    (n2 : 2 ≤ r2.y.length) (s1 : r1.x.start = 0) (s2 : r2.x.start = 0) (i1 : r1.x.start < r1.x.stop)
    (i2 : r2.x.start < r2.x.stop) :
    r1.signalConvolve r2 = r1.convolve r2 ∧ r1.signalCorrelate r2 = r1.correlate r2 := by
  have ha := signalAlign_zero r1 r2 h1 h2 n1 n2 s1 s2 i1 i2
  constructor
  · unfold Rel.signalConvolve Rel.convolve
    rw [ha]
    cases Rel.alignForConv r1 r2 with
    | error e => rfl
    | ok p =>
      simp only [except_bind_ok]
      cases Rel.make p.2.2 (npConvolve p.1.y p.2.1.y) <;> rfl
  · unfold Rel.signalCorrelate Rel.correlate
    rw [ha]
    cases Rel.alignForConv r1 r2 with
    | error e => rfl
    | ok p =>
      simp only [except_bind_ok]
      cases Rel.make p.2.2 (npCorrelate p.1.y p.2.1.y) <;> rfl

/-- product of two finite sums of powers -/
theorem sum_antidiagonal_pow (f g : ℕ → ℂ) (E : ℕ) (hf : ∀ i, E < i → f i = 0) (hg : ∀ i, E < i → g i = 0) (w : ℂ) :
    ∑ k ∈ Finset.range (2 * E + 1), (∑ p ∈ Finset.antidiagonal k, f p.1 * g p.2) * w ^ k =
      (∑ i ∈ Finset.range (E + 1), f i * w ^ i) * ∑ i ∈ Finset.range (E + 1), g i * w ^ i := by
  have key : ∀ u : ℕ → ℂ, (∀ i, E < i → u i = 0) →
      ∃ p : Polynomial ℂ, p.natDegree ≤ E ∧ (∀ i, p.coeff i = u i) ∧
        p.eval w = ∑ i ∈ Finset.range (E + 1), u i * w ^ i := by
    intro u hu
    refine ⟨∑ i ∈ Finset.range (E + 1), Polynomial.monomial i (u i), ?_, ?_, ?_⟩
    · refine Polynomial.natDegree_sum_le_of_forall_le _ _ fun i hi => ?_
      exact (Polynomial.natDegree_monomial_le _).trans (by have := Finset.mem_range.1 hi; omega)
    · intro i
      rw [Polynomial.finsetSum_coeff]
      simp only [Polynomial.coeff_monomial, Finset.sum_ite_eq', Finset.mem_range]
      split_ifs with h
      · rfl
      · exact (hu i (by omega)).symm
    · rw [Polynomial.eval_finsetSum]
      simp
  obtain ⟨p, p1, p2, p3⟩ := key f hf
  obtain ⟨q, q1, q2, q3⟩ := key g hg
  rw [← p3, ← q3, ← Polynomial.eval_mul, Polynomial.eval_eq_sum_range' (n := 2 * E + 1)]
  · refine Finset.sum_congr rfl fun k _ => ?_
    rw [Polynomial.coeff_mul]
    congr 1
    exact Finset.sum_congr rfl fun x _ => by rw [p2, q2]
  · have := Polynomial.natDegree_mul_le (p := p) (q := q)
    omega

/-- the exponential factors of a Fourier sum are powers of one number -/
theorem fourier_factor (f s : ℝ) (j : ℕ) :
    Complex.exp (-(2 * Real.pi * Complex.I * ((f * (j * s) : ℝ) : ℂ))) =
      Complex.exp (-(2 * Real.pi * Complex.I * ((f * s : ℝ) : ℂ))) ^ j := by
  rw [← Complex.exp_nat_mul]
  congr 1
  push_cast
  ring

/-- Fourier sum of samples at the times `0, s, 2s, ...`, with zeros appended -/
theorem fourierSum_zero (lt ly : List ℝ) (k E : ℕ) (s f : ℝ) (hly : ly.length = k + 1) (hk : k ≤ E)
    (hlt : ∀ j < k + 1, lt.getD j 0 = j * s) :
    fourierSum lt ly f = ∑ i ∈ Finset.range (E + 1),
      ((ly.getD i 0 : ℝ) : ℂ) * Complex.exp (-(2 * Real.pi * Complex.I * ((f * s : ℝ) : ℂ))) ^ i := by
  unfold fourierSum
  rw [hly]
  refine Eq.trans (Finset.sum_congr rfl fun j hj => ?_)
    (Finset.sum_subset (Finset.range_subset_range.2 (by omega : k + 1 ≤ E + 1)) fun i _ hi => ?_)
  · rw [hlt j (Finset.mem_range.1 hj), fourier_factor]
  · have : ly.getD i 0 = 0 := by
      rw [getD_ge]
      have := Finset.mem_range.not.1 hi
      omega
    rw [this]
    simp

theorem times_whole (r : Rel ℝ ℝ) (s : ℝ) (hs : 0 < s) (k : ℕ) (hx : r.x = ⟨0, k * s, s⟩) (lt ly : List ℝ)
    (h : r.getData = .ok (lt, ly)) : ly = r.y ∧ ly.length = k + 1 ∧ ∀ j < k + 1, lt.getD j 0 = j * s := by
  obtain ⟨e1, rfl, e3⟩ := (getData_ok_iff _ _ _).1 h
  have := array_whole r.x k (by rw [hx]; exact hs) (by rw [hx]; simp)
  rw [e1] at this
  simp only [Except.ok.injEq] at this
  refine ⟨rfl, by rw [← e3, this]; simp, fun j hj => ?_⟩
  rw [this, getD_lt _ _ _ (by simpa using hj)]
  simp [hx]

/-- **C74.** Two signals that start at time zero, with the same sample `s`, from 0 to `k1 s` and to `k2 s`; let
`E = max k1 k2`. Their convolution is on the axis from `-E s` to `E s`, and its spectrum at each of its frequencies
`f = k / ((2E + 1) s)` is the product of the Fourier sums of the two signals times `e^{2πi f E s}`: the convolution is
placed `E s` too early. -/
theorem C74_convolution (r1 r2 : Rel ℝ ℝ) (lt1 ly1 lt2 ly2 : List ℝ) (h1 : r1.getData = .ok (lt1, ly1))
    (h2 : r2.getData = .ok (lt2, ly2)) (s : ℝ) (hs : 0 < s) (k1 k2 E : ℕ) (p1 : 1 ≤ k1) (p2 : 1 ≤ k2)
    (hx1 : r1.x = ⟨0, k1 * s, s⟩) (hx2 : r2.x = ⟨0, k2 * s, s⟩) (hE : E = max k1 k2) :
    ∃ c sp lf lv, r1.signalConvolve r2 = .ok c ∧ c.x = ⟨-(E * s), E * s, s⟩ ∧ c.getSpectrum = .ok sp ∧
      sp.getData = .ok (lf, lv) ∧ lf.length = E + 1 ∧ lv.length = E + 1 ∧
      ∀ k (g1 : k < lf.length) (g2 : k < lv.length), lf[k] = k / ((2 * E + 1) * s) ∧
        lv[k] = fourierSum lt1 ly1 lf[k] * fourierSum lt2 ly2 lf[k] *
          Complex.exp (2 * Real.pi * Complex.I * ((lf[k] * (E * s) : ℝ) : ℂ)) := by
  have b1 := (balanced_iff_getData r1).2 ⟨_, h1⟩
  have b2 := (balanced_iff_getData r2).2 ⟨_, h2⟩
  obtain ⟨rfl, l1, t1⟩ := times_whole r1 s hs k1 hx1 lt1 ly1 h1
  obtain ⟨rfl, l2, t2⟩ := times_whole r2 s hs k2 hx2 lt2 ly2 h2
  have q1 : (1 : ℝ) ≤ k1 := by exact_mod_cast p1
  have q2 : (1 : ℝ) ≤ k2 := by exact_mod_cast p2
  have hz := (signalConvolve_zero r1 r2 b1 b2 (by omega) (by omega) (by rw [hx1]) (by rw [hx2])
    (by rw [hx1]; simp only; nlinarith) (by rw [hx2]; simp only; nlinarith)).1
  obtain ⟨c, e1, e2, e3, e4, e5, e6⟩ := C28_values r1 r2 b1 b2 k1 k2 s hs (by rw [hx1]) (by rw [hx2])
    (by rw [hx1]; simp) (by rw [hx2]; simp)
  rw [← hE] at e2 e3
  rw [← hE] at e5
  have hcx : c.x = ⟨-(E * s), E * s, s⟩ := by
    rcases c with ⟨⟨a, b, d⟩, y⟩
    simp only at e2 e3 e4
    rw [e2, e3, e4]
  have hbc : Balanced c := balanced_whole c (2 * E) (by rw [hcx]; exact hs) (by rw [hcx]; push_cast; ring) e5
  obtain ⟨⟨lt, ly⟩, hd⟩ := (balanced_iff_getData c).1 hbc
  obtain ⟨sp, lf, lv, f1, f2, f3, f4, f5⟩ := C69_fourier_sum c lt ly hd s hs (-(E : ℤ)) E (by omega) e4
    (by rw [e2]; push_cast; ring) (by rw [e3]; push_cast; ring) (2 * E + 1) (by push_cast; omega)
  have hN : (2 * E + 1) / 2 + 1 = E + 1 := by omega
  rw [hN] at f3 f4
  refine ⟨c, sp, lf, lv, hz.trans e1, hcx, f1, f2, f3, f4, fun k g1 g2 => ?_⟩
  obtain ⟨v1, v2⟩ := f5 k g1 g2
  refine ⟨by rw [v1]; push_cast; ring, ?_⟩
  obtain ⟨u1, rfl, u3⟩ := (getData_ok_iff _ _ _).1 hd
  have harr := array_whole c.x (2 * E) (by rw [hcx]; exact hs) (by rw [hcx]; push_cast; ring)
  rw [u1] at harr
  simp only [Except.ok.injEq] at harr
  rw [v2, fourierSum_zero lt1 r1.y k1 E s lf[k] l1 (by omega) t1,
    fourierSum_zero lt2 r2.y k2 E s lf[k] l2 (by omega) t2]
  set w := Complex.exp (-(2 * Real.pi * Complex.I * ((lf[k] * s : ℝ) : ℂ))) with hw
  rw [← sum_antidiagonal_pow (fun i => ((r1.y.getD i 0 : ℝ) : ℂ)) (fun i => ((r2.y.getD i 0 : ℝ) : ℂ)) E
    (fun i hi => by rw [getD_ge _ _ _ (by omega)]; simp)
    (fun i hi => by rw [getD_ge _ _ _ (by omega)]; simp) w, Finset.sum_mul, e5]
  refine Finset.sum_congr rfl fun j hj => ?_
  have hj' := Finset.mem_range.1 hj
  have hc : c.y.getD j 0 = ∑ p ∈ Finset.antidiagonal j, r1.y.getD p.1 0 * r2.y.getD p.2 0 := by
    rw [getD_lt _ _ _ (by omega), e6 j (by omega)]
  have ht : lt.getD j 0 = -(E * s) + j * s := by
    rw [harr, getD_lt _ _ _ (by simpa using hj')]
    simp [hcx]
  rw [hc, ht, mul_assoc (∑ p ∈ _, _), hw, ← fourier_factor, ← Complex.exp_add]
  congr 1
  · push_cast
    rfl
  · congr 1
    push_cast
    ring

/-- one row of the correlation sum -/
theorem sum_shifted (y : List ℝ) (E i : ℕ) (hi : i ≤ E) (hy : y.length ≤ E + 1) (w v : ℂ) (hwv : w * v = 1) :
    ∑ j ∈ Finset.range (2 * E + 1), ((zext y ((i : ℤ) + ((j : ℤ) - E)) : ℝ) : ℂ) * (w ^ j * v ^ E) =
      v ^ i * ∑ l ∈ Finset.range (E + 1), ((y.getD l 0 : ℝ) : ℂ) * w ^ l := by
  rw [Finset.mul_sum]
  symm
  refine Finset.sum_of_injOn (fun l => l + (E - i)) (fun a _ b _ h => by simpa using h) (fun l hl => ?_)
    (fun j hj hn => ?_) (fun l hl => ?_)
  · have := Finset.mem_range.1 (Finset.mem_coe.1 hl)
    exact Finset.mem_coe.2 (Finset.mem_range.2 (show l + (E - i) < 2 * E + 1 by omega))
  · have hj' := Finset.mem_range.1 hj
    have : zext y ((i : ℤ) + ((j : ℤ) - E)) = 0 := by
      unfold zext
      split_ifs with h
      · rw [getD_ge]
        by_contra hc
        refine hn ⟨i + j - E, Finset.mem_coe.2 (Finset.mem_range.2 (by omega)), ?_⟩
        show i + j - E + (E - i) = j
        omega
      · rfl
    rw [this]
    simp
  · have : zext y ((i : ℤ) + (((l + (E - i) : ℕ) : ℤ) - E)) = y.getD l 0 := by
      unfold zext
      rw [if_pos (by omega)]
      congr 1
      omega
    rw [this]
    have h2 : w ^ (l + (E - i)) * v ^ E = v ^ i * w ^ l := by
      obtain ⟨d, rfl⟩ := Nat.exists_eq_add_of_le hi
      rw [show i + d - i = d by omega, pow_add, pow_add, show w ^ l * w ^ d * (v ^ i * v ^ d) =
        (w * v) ^ d * (v ^ i * w ^ l) by rw [mul_pow]; ring, hwv, one_pow, one_mul]
    rw [h2]
    ring

/-- **C74.** The spectrum of the correlation of such signals is the Fourier sum of the first times the conjugate of that of
the second, without a further factor. -/
theorem C74_correlation (r1 r2 : Rel ℝ ℝ) (lt1 ly1 lt2 ly2 : List ℝ) (h1 : r1.getData = .ok (lt1, ly1))
    (h2 : r2.getData = .ok (lt2, ly2)) (s : ℝ) (hs : 0 < s) (k1 k2 E : ℕ) (p1 : 1 ≤ k1) (p2 : 1 ≤ k2)
    (hx1 : r1.x = ⟨0, k1 * s, s⟩) (hx2 : r2.x = ⟨0, k2 * s, s⟩) (hE : E = max k1 k2) :
    ∃ c sp lf lv, r1.signalCorrelate r2 = .ok c ∧ c.x = ⟨-(E * s), E * s, s⟩ ∧ c.getSpectrum = .ok sp ∧
      sp.getData = .ok (lf, lv) ∧ lf.length = E + 1 ∧ lv.length = E + 1 ∧
      ∀ k (g1 : k < lf.length) (g2 : k < lv.length), lf[k] = k / ((2 * E + 1) * s) ∧
        lv[k] = fourierSum lt1 ly1 lf[k] * (starRingEnd ℂ) (fourierSum lt2 ly2 lf[k]) := by
  have b1 := (balanced_iff_getData r1).2 ⟨_, h1⟩
  have b2 := (balanced_iff_getData r2).2 ⟨_, h2⟩
  obtain ⟨rfl, l1, t1⟩ := times_whole r1 s hs k1 hx1 lt1 ly1 h1
  obtain ⟨rfl, l2, t2⟩ := times_whole r2 s hs k2 hx2 lt2 ly2 h2
  have q1 : (1 : ℝ) ≤ k1 := by exact_mod_cast p1
  have q2 : (1 : ℝ) ≤ k2 := by exact_mod_cast p2
  have hz := (signalConvolve_zero r1 r2 b1 b2 (by omega) (by omega) (by rw [hx1]) (by rw [hx2])
    (by rw [hx1]; simp only; nlinarith) (by rw [hx2]; simp only; nlinarith)).2
  obtain ⟨c, e1, e2, e3, e4, e5, e6⟩ := C29_values r1 r2 b1 b2 k1 k2 s hs (by rw [hx1]) (by rw [hx2])
    (by rw [hx1]; simp) (by rw [hx2]; simp)
  rw [← hE] at e2 e3
  rw [← hE] at e5 e6
  have hcx : c.x = ⟨-(E * s), E * s, s⟩ := by
    rcases c with ⟨⟨a, b, d⟩, y⟩
    simp only at e2 e3 e4
    rw [e2, e3, e4]
  have hbc : Balanced c := balanced_whole c (2 * E) (by rw [hcx]; exact hs) (by rw [hcx]; push_cast; ring) e5
  obtain ⟨⟨lt, ly⟩, hd⟩ := (balanced_iff_getData c).1 hbc
  obtain ⟨sp, lf, lv, f1, f2, f3, f4, f5⟩ := C69_fourier_sum c lt ly hd s hs (-(E : ℤ)) E (by omega) e4
    (by rw [e2]; push_cast; ring) (by rw [e3]; push_cast; ring) (2 * E + 1) (by push_cast; omega)
  have hN : (2 * E + 1) / 2 + 1 = E + 1 := by omega
  rw [hN] at f3 f4
  refine ⟨c, sp, lf, lv, hz.trans e1, hcx, f1, f2, f3, f4, fun k g1 g2 => ?_⟩
  obtain ⟨v1, v2⟩ := f5 k g1 g2
  refine ⟨by rw [v1]; push_cast; ring, ?_⟩
  obtain ⟨u1, rfl, u3⟩ := (getData_ok_iff _ _ _).1 hd
  have harr := array_whole c.x (2 * E) (by rw [hcx]; exact hs) (by rw [hcx]; push_cast; ring)
  rw [u1] at harr
  simp only [Except.ok.injEq] at harr
  rw [v2, fourierSum_zero lt1 r1.y k1 E s lf[k] l1 (by omega) t1,
    fourierSum_zero lt2 r2.y k2 E s lf[k] l2 (by omega) t2]
  set w := Complex.exp (-(2 * Real.pi * Complex.I * ((lf[k] * s : ℝ) : ℂ))) with hw
  set v := Complex.exp (2 * Real.pi * Complex.I * ((lf[k] * s : ℝ) : ℂ)) with hv
  have hwv : w * v = 1 := by rw [hw, hv, ← Complex.exp_add]; simp
  have hconj : (starRingEnd ℂ) w = v := by
    rw [hw, hv, ← Complex.exp_conj]
    congr 1
    simp [Complex.conj_ofReal, map_ofNat]
  have hrow : ∀ j < 2 * E + 1, ((c.y.getD j 0 : ℝ) : ℂ) *
      Complex.exp (-(2 * Real.pi * Complex.I * ((lf[k] * lt.getD j 0 : ℝ) : ℂ))) =
      ∑ i ∈ Finset.range (E + 1), ((r2.y.getD i 0 : ℝ) : ℂ) *
        (((zext r1.y ((i : ℤ) + ((j : ℤ) - E)) : ℝ) : ℂ) * (w ^ j * v ^ E)) := by
    intro j hj
    have ht : lt.getD j 0 = -(E * s) + j * s := by
      rw [harr, getD_lt _ _ _ (by simpa using hj)]
      simp [hcx]
    have hexp : Complex.exp (-(2 * Real.pi * Complex.I * ((lf[k] * lt.getD j 0 : ℝ) : ℂ))) = w ^ j * v ^ E := by
      rw [ht, hw, hv, ← Complex.exp_nat_mul, ← Complex.exp_nat_mul, ← Complex.exp_add]
      congr 1
      push_cast
      ring
    rw [hexp, getD_lt _ _ _ (by omega), e6 j (by omega)]
    push_cast
    rw [Finset.sum_mul]
    refine Finset.sum_congr rfl fun i _ => ?_
    simp only [star_trivial]
    ring
  rw [e5, Finset.sum_congr rfl fun j hj => hrow j (Finset.mem_range.1 hj), Finset.sum_comm, map_sum, Finset.mul_sum]
  refine Finset.sum_congr rfl fun i hi => ?_
  rw [← Finset.mul_sum, sum_shifted r1.y E i (by have := Finset.mem_range.1 hi; omega) (by omega) w v hwv, map_mul,
    map_pow, hconj, Complex.conj_ofReal]
  ring

/-- **C74.** The spectrum of an autocorrelation is the squared modulus of the Fourier sum: real and not negative. -/
theorem C74_autocorrelation (r : Rel ℝ ℝ) (lt ly : List ℝ) (h : r.getData = .ok (lt, ly)) (s : ℝ) (hs : 0 < s) (E : ℕ)
    (p : 1 ≤ E) (hx : r.x = ⟨0, E * s, s⟩) :
    ∃ c sp lf lv, r.signalCorrelate r = .ok c ∧ c.getSpectrum = .ok sp ∧ sp.getData = .ok (lf, lv) ∧
      lf.length = E + 1 ∧ lv.length = E + 1 ∧
      ∀ k (g1 : k < lf.length) (g2 : k < lv.length), lv[k] = ((‖fourierSum lt ly lf[k]‖ ^ 2 : ℝ) : ℂ) := by
  obtain ⟨c, sp, lf, lv, e1, -, e2, e3, e4, e5, e6⟩ :=
    C74_correlation r r lt ly lt ly h h s hs E E E p p hx hx (by simp)
  refine ⟨c, sp, lf, lv, e1, e2, e3, e4, e5, fun k g1 g2 => ?_⟩
  rw [(e6 k g1 g2).2, Complex.mul_conj, Complex.normSq_eq_norm_sq]

/-- a case of the hypotheses: the signals 1, 2 and 3, 4, 5 with the sample 1/2 -/
example : ∃ c sp lf lv,
    (⟨⟨0, 1 / 2, 1 / 2⟩, [1, 2]⟩ : Rel ℝ ℝ).signalConvolve ⟨⟨0, 1, 1 / 2⟩, [3, 4, 5]⟩ = .ok c ∧
    c.getSpectrum = .ok sp ∧ sp.getData = .ok (lf, lv) ∧ lv.length = 3 ∧ ∀ h : 0 < lv.length, lv[0] = 36 := by
  have b1 : Balanced (⟨⟨0, 1 / 2, 1 / 2⟩, [1, 2]⟩ : Rel ℝ ℝ) :=
    balanced_whole _ 1 (by norm_num) (by norm_num) rfl
  have b2 : Balanced (⟨⟨0, 1, 1 / 2⟩, [3, 4, 5]⟩ : Rel ℝ ℝ) :=
    balanced_whole _ 2 (by norm_num) (by norm_num) rfl
  obtain ⟨⟨lt1, ly1⟩, h1⟩ := (balanced_iff_getData _).1 b1
  obtain ⟨⟨lt2, ly2⟩, h2⟩ := (balanced_iff_getData _).1 b2
  obtain ⟨c, sp, lf, lv, e1, -, e2, e3, e4, e5, e6⟩ := C74_convolution _ _ lt1 ly1 lt2 ly2 h1 h2 (1 / 2) (by norm_num) 1 2 2
    (by norm_num) (by norm_num) (by norm_num) (by norm_num) (by norm_num)
  refine ⟨c, sp, lf, lv, e1, e2, e3, e5, fun h => ?_⟩
  obtain ⟨f0, f1⟩ := e6 0 (by omega) h
  obtain ⟨-, rfl, -⟩ := (getData_ok_iff _ _ _).1 h1
  obtain ⟨-, rfl, -⟩ := (getData_ok_iff _ _ _).1 h2
  rw [f1, f0]
  simp [fourierSum, Finset.sum_range_succ]
  norm_num

end SweepDesign
