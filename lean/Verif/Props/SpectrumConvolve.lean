import Verif.Props.Aliasing
import Verif.Props.Convolution
import Verif.Props.HeapSignals

/-!
# C138: convolution and correlation of spectra

`Spectrum.convolve` and `Spectrum.correlate` work on the stored half of the spectra (frequencies from zero up) and put the result on an axis
around zero. What they compute, on objects of every class, and how it differs from the spectrum of the product of the signals.
-/

set_option linter.unusedSectionVars false

namespace SweepDesign
open Mem Spec HM

noncomputable section

/-! ## objects -/

section
variable {T : Transcendental ℝ ℂ} {h h' : Heap ℝ ℂ}

local notation "Pf" => exactPrims (fourier T)
local notation "Df" => defaultMethods (exactPrims (fourier T))

/-- what `_input2spectrum` makes of the object `s`: a spectrum is taken as it is, the numbers of a plain relation are taken as a spectrum, a
signal or sweep is transformed -/
def Spec.spectrumOf (h : Heap ℝ ℂ) (s : Loc) (x : Except Err (Rel ℝ ℂ)) : Prop :=
  (∃ c w, valueAt h s = some (c, w) ∧ (c = .relation ∨ c = .spectrum) ∧ x = .ok w) ∨
    ∃ c u, isSignal h c s u ∧ cacheFits h s u ∧ x = u.getSpectrum

theorem asSpectrum_of {s : Loc} {x : Except Err (Rel ℝ ℂ)} (hx : spectrumOf h s x) : AsSpectrum h s x := by
  rcases hx with ⟨c, w, hw, hc, rfl⟩ | ⟨c, u, hu, hf, rfl⟩
  · exact .plain c w (relIs_of_valueAt hw) (by rcases hc with rfl | rfl <;> rfl)
  · exact .signal c u (sig_of hu hf) (isSignal_cls hu)

theorem sim_input2spectrum_sigs (hc : Coh Pf h) {so : Loc} {x : Except Err (Rel ℝ ℂ)} (hx : AsSpectrum h so x) :
    Sim Pf h (input2spectrum Pf Df (.obj so)) x (fun h' l w => IsNew .spectrum h' l w ∧ Sigs h h') := by
  rcases hx with ⟨c, w, ⟨o, ho⟩, hk⟩ | ⟨c, u, hu, hk⟩
  · refine Sim.read (getRel_run ho.rel) ?_
    rw [ho.cls, hk]
    by_cases hsp : c = .spectrum
    · subst hsp
      exact sim_pure hc ⟨⟨o, ho⟩, fun _ _ _ hs => hs⟩
    · rw [if_neg (by simp), if_neg hsp]
      refine ((sim_construct_rel hc _ (.of_ne (by decide)) ho (by simp) .absent none).kept
        (only_construct (S := ∅) good_defaultMethods only_defaultMethods _ _ _ _)).run (Q := fun h' => Le ∅ h h') (fun w => w) |>.mono ?_
      rintro h' l v ⟨⟨hl, hkept⟩, w⟩
      exact ⟨hl, fun s c v hs => hs.kept w hkept (Set.notMem_empty _)⟩
  · have hs := hu
    obtain ⟨o, ho, -⟩ := hu
    refine Sim.read (getRel_run ho.rel) ?_
    rw [ho.cls, if_pos hk]
    exact sim_getSpectrum_sigs hc hs

theorem sim_clsConv_spectrum (hc : Coh Pf h) {s1 s2 : Loc} {x1 x2 : Except Err (Rel ℝ ℂ)} (h1 : AsSpectrum h s1 x1)
    (h2 : AsSpectrum h s2 x2) {np : List ℂ → List ℂ → List ℂ} {C : ConvCall ℝ ℂ} (hC : ∀ g c s1 s2, C g c s1 s2 = defConv Pf Df np s1 s2) :
    Sim Pf h (clsConv Pf Df C .spectrum (.obj s1) (.obj s2))
      (do let v1 ← x1; let v2 ← x2; let p ← Rel.alignForConv v1 v2; Rel.make p.2.2 (np p.1.y p.2.1.y)) (IsNew .spectrum) := by
  have e0 : clsConv Pf Df C .spectrum (.obj s1) (.obj s2) = (input2spectrum Pf Df (.obj s1) >>= fun r1 =>
      input2spectrum Pf Df (.obj s2) >>= fun r2 => relConv Pf Df C .spectrum r1 r2) := rfl
  rw [e0]
  refine (sim_input2spectrum_sigs hc h1).bind fun r1 v1 g1 w1 c1 q1 => ?_
  obtain ⟨q1, p1⟩ := q1
  refine (sim_input2spectrum_sigs c1 (h2.later w1 p1)).bind fun r2 v2 g2 w2 c2 q2 => ?_
  obtain ⟨o1, ho1⟩ := q1.later w2
  obtain ⟨o2, ho2⟩ := q2.1
  unfold relConv
  refine Sim.read rfl ?_
  rw [hC]
  have k := (sim_defConv c2 ho1 ho2 rfl rfl np).bind
    (f := fun p => construct Pf Df .spectrum (.axis p.1) (.arr p.2))
    (g := fun p => Rel.make p.1 p.2) (R' := IsNew .spectrum) fun p q h1 w1 k1 hp =>
      sim_construct_axis k1 _ (.of_ne (by decide)) hp.1 hp.2 none
  rw [bind_assoc] at k
  exact k

/-- **C138.** `Spectrum.convolve` and `Spectrum.correlate` of two objects of any class (possibly the same object): a new spectrum with the
values `Relation.convolve` and `Relation.correlate` give for the operands read as spectra. The first operand is read first: if both
transforms raise, the exception is the first one's. -/
theorem C138_objects (hc : Coh Pf h) (s1 s2 : Loc) (x1 x2 : Except Err (Rel ℝ ℂ)) (h1 : spectrumOf h s1 x1) (h2 : spectrumOf h s2 x2) :
    let C := defaultConvMethods Pf Df
    outcome (clsConv Pf Df C.convolveCall .spectrum (.obj s1) (.obj s2)) h =
      asObject .spectrum (do let v1 ← x1; let v2 ← x2; v1.convolve v2) ∧
    outcome (clsConv Pf Df C.correlateCall .spectrum (.obj s1) (.obj s2)) h =
      asObject .spectrum (do let v1 ← x1; let v2 ← x2; v1.correlate v2) :=
  ⟨outcome_of_sim (sim_clsConv_spectrum hc (asSpectrum_of h1) (asSpectrum_of h2) (np := npConvolve) fun _ _ _ _ => rfl),
    outcome_of_sim (sim_clsConv_spectrum hc (asSpectrum_of h1) (asSpectrum_of h2) (np := npCorrelate) fun _ _ _ _ => rfl)⟩

end

/-! ## spectra of signals -/

/-- the axis of the spectrum, beside what C69 says -/
theorem spectrum_axis {r : Rel ℝ ℝ} {lt ly : List ℝ} (h : r.getData = .ok (lt, ly)) {s : ℝ} (hs : 0 < s) {a b : ℤ} (hab : a < b)
    (hrx : r.x = ⟨a * s, b * s, s⟩) {N : ℕ} (hN : (N : ℤ) = max b 0 - min a 0 + 1) :
    ∃ sp, r.getSpectrum = .ok sp ∧ Balanced sp ∧ sp.x = ⟨0, ((N / 2 : ℕ) : ℝ) * (1 / (N * s)), 1 / (N * s)⟩ ∧ sp.y.length = N / 2 + 1 ∧
      ∀ k < N / 2 + 1, sp.y.getD k 0 = fourierSum lt ly (k * (1 / (N * s))) := by
  obtain ⟨sp, lf, lv, e1, e2, e3, e4, e5⟩ := C69_fourier_sum r lt ly h s hs a b hab (by rw [hrx]) (by rw [hrx]) (by rw [hrx]) N hN
  have hb := (balanced_iff_getData r).2 ⟨_, h⟩
  obtain ⟨-, hlen⟩ := times_grid h hs hab.le hrx
  have hly : ly = r.y := ((getData_ok_iff _ _ _).1 h).2.1
  have hle : r.x.start ≤ r.x.stop := by
    rw [hrx]
    exact mul_le_mul_of_nonneg_right (by exact_mod_cast hab.le) hs.le
  obtain ⟨y, z, -, f2, -, -, -, f6⟩ := getSpectrum_eq r hb hle (by rw [← hly, hlen]; omega)
  obtain rfl := Except.ok.inj (e1.symm.trans f6)
  obtain ⟨g1, rfl, g3⟩ := (getData_ok_iff _ _ _).1 e2
  rw [hrx] at g1 e2 e1 f6
  simp only at g1
  have hL2 : y.length / 2 = N / 2 := by
    have := e4
    simp at this
    exact this
  have hN2 : 2 ≤ N := by omega
  have hyl : 2 ≤ y.length := by rw [← hly, hlen] at f2; omega
  have hfa := (freqAxis_eq y.length s hyl hs.ne').2
  have hLN : y.length = N := by
    have hk : 1 < lf.length := by omega
    have := (e5 1 hk (by omega)).1
    have hlf : lf = rfftfreq y.length s := Except.ok.inj (g1.symm.trans hfa)
    subst hlf
    have h1 : (rfftfreq y.length s)[1] = 1 / (y.length * s) := by simp [rfftfreq]
    rw [h1] at this
    have hy0 : (y.length : ℝ) ≠ 0 := by exact_mod_cast (by omega : y.length ≠ 0)
    have hn0 : (N : ℝ) ≠ 0 := by exact_mod_cast (by omega : N ≠ 0)
    rw [Nat.cast_one, div_eq_div_iff (mul_ne_zero hy0 hs.ne') (mul_ne_zero hn0 hs.ne')] at this
    have : (N : ℝ) = y.length := mul_right_cancel₀ hs.ne' (by linarith)
    exact_mod_cast this.symm
  refine ⟨_, by rw [← hrx] at f6; exact f6, (balanced_iff_getData _).2 ⟨_, by rw [hrx]; exact e2⟩, by rw [hrx, hLN], e4, fun k hk => ?_⟩
  have := e5 k (by omega) (by omega)
  rw [getD_lt _ _ _ (by rw [e4]; exact hk), this.2, this.1, show (k : ℝ) / (N * s) = k * (1 / (N * s)) by ring]
  rfl

/-- **C138.** `Spectrum.convolve` of the spectra of two signals with the same sample and the same number `N` of points (prolonged to time zero):
value `k` is the sum of the products of Fourier sums at two frequencies from zero to half the sampling rate whose sum is `k / (N s)`. But it
stands at the frequency `(k - N / 2) / (N s)`. -/
theorem C138_convolve (r q : Rel ℝ ℝ) (lt ly lu lz : List ℝ) (hr : r.getData = .ok (lt, ly)) (hq : q.getData = .ok (lu, lz)) (s : ℝ) (hs : 0 < s)
    (a b a' b' : ℤ) (hab : a < b) (hab' : a' < b') (hrx : r.x = ⟨a * s, b * s, s⟩) (hqx : q.x = ⟨a' * s, b' * s, s⟩) (N : ℕ)
    (hN : (N : ℤ) = max b 0 - min a 0 + 1) (hN' : (N : ℤ) = max b' 0 - min a' 0 + 1) :
    ∃ sp sq c lf lv, r.getSpectrum = .ok sp ∧ q.getSpectrum = .ok sq ∧ sp.convolve sq = .ok c ∧ c.getData = .ok (lf, lv) ∧
      lf.length = 2 * (N / 2) + 1 ∧ lv.length = 2 * (N / 2) + 1 ∧
      ∀ k (h1 : k < lf.length) (h2 : k < lv.length), lf[k] = ((k : ℝ) - (N / 2 : ℕ)) / (N * s) ∧
        lv[k] = ∑ p ∈ (Finset.antidiagonal k).filter (fun p => p.1 ≤ N / 2 ∧ p.2 ≤ N / 2),
          fourierSum lt ly (p.1 / (N * s)) * fourierSum lu lz (p.2 / (N * s)) := by
  obtain ⟨sp, e1, e2, e3, e4, e5⟩ := spectrum_axis hr hs hab hrx hN
  obtain ⟨sq, f1, f2, f3, f4, f5⟩ := spectrum_axis hq hs hab' hqx hN'
  have hN0 : (0 : ℝ) < N := by exact_mod_cast (by omega : 0 < N)
  have hd : (0 : ℝ) < 1 / (N * s) := by positivity
  obtain ⟨c, g1, g2, g3, g4, g5, g6⟩ := C28_values sp sq e2 f2 (N / 2) (N / 2) (1 / (N * s)) hd (by rw [e3]) (by rw [f3])
    (by rw [e3]; simp) (by rw [f3]; simp)
  simp only [max_self] at g2 g3 g5
  have harr := array_whole c.x (2 * (N / 2)) (by rw [g4]; exact hd) (by rw [g2, g3, g4]; push_cast; ring)
  refine ⟨sp, sq, c, _, c.y, e1, f1, g1, (getData_ok_iff _ _ _).2 ⟨harr, rfl, by simp [g5]⟩, by simp, g5, fun k h1 h2 => ⟨?_, ?_⟩⟩
  · simp only [List.getElem_map, List.getElem_range, g2, g4]
    ring
  · rw [g6 k h2, Finset.sum_filter]
    refine Finset.sum_congr rfl fun p _ => ?_
    split_ifs with hc
    · rw [e5 _ (by omega), f5 _ (by omega)]
      congr 2 <;> ring
    · rcases not_and_or.1 hc with h | h
      · rw [getD_ge _ _ _ (by rw [e4]; omega), zero_mul]
      · rw [getD_ge sq.y _ _ (by rw [f4]; omega), mul_zero]

/-- **C138.** `Spectrum.correlate` of such spectra: the value at the frequency `d / (N s)`, `-N / 2 ≤ d ≤ N / 2`, is the sum over the stored
frequencies of the Fourier sum of the first signal `d` steps higher times the conjugate of the one of the second. -/
theorem C138_correlate (r q : Rel ℝ ℝ) (lt ly lu lz : List ℝ) (hr : r.getData = .ok (lt, ly)) (hq : q.getData = .ok (lu, lz)) (s : ℝ)
    (hs : 0 < s) (a b a' b' : ℤ) (hab : a < b) (hab' : a' < b') (hrx : r.x = ⟨a * s, b * s, s⟩) (hqx : q.x = ⟨a' * s, b' * s, s⟩) (N : ℕ)
    (hN : (N : ℤ) = max b 0 - min a 0 + 1) (hN' : (N : ℤ) = max b' 0 - min a' 0 + 1) :
    ∃ sp sq c lf lv, r.getSpectrum = .ok sp ∧ q.getSpectrum = .ok sq ∧ sp.correlate sq = .ok c ∧ c.getData = .ok (lf, lv) ∧
      lf.length = 2 * (N / 2) + 1 ∧ lv.length = 2 * (N / 2) + 1 ∧
      ∀ k (h1 : k < lf.length) (h2 : k < lv.length), lf[k] = ((k : ℝ) - (N / 2 : ℕ)) / (N * s) ∧
        lv[k] = ∑ i ∈ (Finset.range (N / 2 + 1)).filter (fun i => N / 2 ≤ i + k ∧ i + k ≤ N / 2 + N / 2),
          fourierSum lt ly (i / (N * s) + lf[k]) * (starRingEnd ℂ) (fourierSum lu lz (i / (N * s))) := by
  obtain ⟨sp, e1, e2, e3, e4, e5⟩ := spectrum_axis hr hs hab hrx hN
  obtain ⟨sq, f1, f2, f3, f4, f5⟩ := spectrum_axis hq hs hab' hqx hN'
  have hN0 : (0 : ℝ) < N := by exact_mod_cast (by omega : 0 < N)
  have hd : (0 : ℝ) < 1 / (N * s) := by positivity
  obtain ⟨c, g1, g2, g3, g4, g5, g6⟩ := C29_values sp sq e2 f2 (N / 2) (N / 2) (1 / (N * s)) hd (by rw [e3]) (by rw [f3])
    (by rw [e3]; simp) (by rw [f3]; simp)
  simp only [max_self] at g2 g3 g5 g6
  have harr := array_whole c.x (2 * (N / 2)) (by rw [g4]; exact hd) (by rw [g2, g3, g4]; push_cast; ring)
  have hpos : ∀ k : ℕ, -((N / 2 : ℕ) * (1 / (N * s))) + (k : ℝ) * (1 / (N * s)) = ((k : ℝ) - (N / 2 : ℕ)) / (N * s) := fun k => by ring
  refine ⟨sp, sq, c, _, c.y, e1, f1, g1, (getData_ok_iff _ _ _).2 ⟨harr, rfl, by simp [g5]⟩, by simp, g5, fun k h1 h2 => ?_⟩
  simp only [List.getElem_map, List.getElem_range, g2, g4, hpos]
  refine ⟨trivial, ?_⟩
  rw [g6 k h2, Finset.sum_filter]
  refine Finset.sum_congr rfl fun i hi => ?_
  have hi := Finset.mem_range.1 hi
  unfold zext
  split_ifs with c1 c2 c2
  · rw [e5 _ (by omega), f5 _ hi]
    have : (((i + ((k : ℤ) - (N / 2 : ℕ))).toNat : ℕ) : ℝ) = (i : ℝ) + ((k : ℝ) - (N / 2 : ℕ)) := by
      have : (((i + ((k : ℤ) - (N / 2 : ℕ))).toNat : ℤ) : ℝ) = ((i + ((k : ℤ) - (N / 2 : ℕ)) : ℤ) : ℝ) := by rw [Int.toNat_of_nonneg c1]
      push_cast at this; exact_mod_cast this
    rw [this]
    congr 2
    · ring
    · congr 1; ring
  · rw [getD_ge _ _ _ (by rw [e4]; omega), zero_mul]
  · omega
  · rw [zero_mul]

/-- **C138.** Compared with the spectrum of the product of the signals, on the axis `0, s, …, K s` (`N = K + 1` samples): `N` times the value of
that spectrum at `k / (N s)` is value `k` of `Spectrum.convolve` plus the products with a negative frequency, which `Spectrum.convolve` leaves
out. -/
theorem C138_rest (same : Bool) (r q : Rel ℝ ℝ) (lt ly lz : List ℝ) (hr : r.getData = .ok (lt, ly)) (hq : q.getData = .ok (lt, lz))
    (s : ℝ) (hs : 0 < s) (K : ℕ) (hK : 1 ≤ K) (hrx : r.x = ⟨0, K * s, s⟩) (hqx : q.x = ⟨0, K * s, s⟩) :
    ∃ sp sq c p st lf lv, r.getSpectrum = .ok sp ∧ q.getSpectrum = .ok sq ∧ sp.convolve sq = .ok c ∧ r.mul (.rel same q) = .ok p ∧
      p.getSpectrum = .ok st ∧ st.getData = .ok (lf, lv) ∧ lv.length = (K + 1) / 2 + 1 ∧ lf.length = lv.length ∧
      ∀ k (h1 : k < lf.length) (h2 : k < lv.length), ((K + 1 : ℕ) : ℂ) * lv[k] = c.y.getD k 0 +
        ∑ m ∈ Finset.Ico (k + 1) (K + 1), fourierSum lt ly (m / (((K + 1 : ℕ) : ℝ) * s)) *
          fourierSum lt lz (lf[k] - m / (((K + 1 : ℕ) : ℝ) * s)) := by
  obtain ⟨sp, sq, c, lf, lv, e1, e2, e3, e4, e5, e6, e7⟩ := C138_convolve r q lt ly lt lz hr hq s hs 0 K 0 K (by omega) (by omega)
    (by simpa using hrx) (by simpa using hqx) (K + 1) (by push_cast; omega) (by push_cast; omega)
  obtain ⟨p, st, lf', lv', f1, f2, f3, f4, f5, f6⟩ := C131_product same r q lt ly lz hr hq s hs K hK hrx hqx
  refine ⟨sp, sq, c, p, st, lf', lv', e1, e2, e3, f1, f2, f3, f5, f4.trans f5.symm, fun k h1 h2 => ?_⟩
  have hcy : lv = c.y := ((getData_ok_iff _ _ _).1 e4).2.1
  have hk : k < K + 1 := by omega
  have hk2 : k ≤ (K + 1) / 2 := by omega
  have hN : ((K + 1 : ℕ) : ℂ) ≠ 0 := by exact_mod_cast (by omega : K + 1 ≠ 0)
  rw [← hcy, getD_lt _ _ _ (by omega), (e7 k (by omega) (by omega)).2, (f6 k h1 h2).2, mul_div_cancel₀ _ hN,
    ← Finset.sum_range_add_sum_Ico _ (show k + 1 ≤ K + 1 by omega)]
  congr 1
  rw [Finset.filter_true_of_mem (fun p hp => by have := Finset.mem_antidiagonal.1 hp; omega),
    Finset.Nat.sum_antidiagonal_eq_sum_range_succ_mk]
  refine Finset.sum_congr rfl fun m hm => ?_
  have hm := Finset.mem_range.1 hm
  rw [(f6 k h1 h2).1]
  congr 2
  rw [Nat.cast_sub (by omega)]
  ring

theorem exp_minus_pi : Complex.exp (-(2 * Real.pi * Complex.I * (1 / 2))) = -1 := by
  rw [show -(2 * Real.pi * Complex.I * (1 / 2) : ℂ) = -(Real.pi * Complex.I) by ring, Complex.exp_neg, Complex.exp_pi_mul_I]; norm_num

theorem list_of_two {l : List ℂ} {a b : ℂ} (h : l.length = 2) (h0 : l.getD 0 0 = a) (h1 : l.getD 1 0 = b) : l = [a, b] := by
  match l, h with
  | [x, y], _ => simp_all

/-- the samples `1, -1` squared are `1, 1`, whose spectrum is `2, 0`; convolving their spectrum with itself gives `0, 0, 4`: nothing at frequency
zero, and `4` at half the sampling rate -/
theorem C138_witness : ∃ (v w : Rel ℝ ℝ) (sp c st : Rel ℝ ℂ), v.x = ⟨0, 1, 1⟩ ∧ v.y = [1, -1] ∧ v.getSpectrum = .ok sp ∧ sp.convolve sp = .ok c ∧
    v.mul (.rel true v) = .ok w ∧ w.getSpectrum = .ok st ∧ c.x = ⟨-(1 / 2), 1 / 2, 1 / 2⟩ ∧ c.y = [0, 0, 4] ∧ st.y = [2, 0] := by
  have ha : (⟨0, 1, 1⟩ : Axis ℝ).array = .ok [0, 1] := by
    have := array_whole (⟨0, 1, 1⟩ : Axis ℝ) 1 one_pos (by norm_num)
    rw [this]
    norm_num [List.range_succ]
  have hv : (⟨⟨0, 1, 1⟩, [1, -1]⟩ : Rel ℝ ℝ).getData = .ok ([0, 1], [1, -1]) := (getData_ok_iff _ _ _).2 ⟨ha, rfl, rfl⟩
  have hw : (⟨⟨0, 1, 1⟩, [1, 1]⟩ : Rel ℝ ℝ).getData = .ok ([0, 1], [1, 1]) := (getData_ok_iff _ _ _).2 ⟨ha, rfl, rfl⟩
  obtain ⟨sp, e1, e2, e3, e4, e5⟩ := spectrum_axis hv one_pos (a := 0) (b := 1) one_pos (by norm_num) (N := 2) (by norm_num)
  obtain ⟨st, f1, f2, f3, f4, f5⟩ := spectrum_axis hw one_pos (a := 0) (b := 1) one_pos (by norm_num) (N := 2) (by norm_num)
  have hmul := mul_same_axis true _ _ ((balanced_iff_getData _).2 ⟨_, hv⟩) ((balanced_iff_getData _).2 ⟨_, hv⟩) rfl
  norm_num at hmul e3 e4 f4
  have four : ∀ (x y : ℝ) (k : ℕ), k < 2 → fourierSum [0, 1] [x, y] (k * (1 / ((2 : ℕ) * 1))) = x + (-1) ^ k * y := by
    intro x y k hk
    have hk : k = 0 ∨ k = 1 := by omega
    rcases hk with rfl | rfl
    · norm_num [fourierSum, Finset.sum_range_succ]
    · norm_num [fourierSum, Finset.sum_range_succ, exp_minus_pi]
  have s0 : sp.y.getD 0 0 = 0 := by rw [e5 0 (by norm_num), four _ _ _ (by norm_num)]; norm_num
  have s1 : sp.y.getD 1 0 = 2 := by rw [e5 1 (by norm_num), four _ _ _ (by norm_num)]; norm_num
  have t0 : st.y.getD 0 0 = 2 := by rw [f5 0 (by norm_num), four _ _ _ (by norm_num)]; norm_num
  have t1 : st.y.getD 1 0 = 0 := by rw [f5 1 (by norm_num), four _ _ _ (by norm_num)]; norm_num
  have hsp := list_of_two e4 s0 s1
  have hst := list_of_two f4 t0 t1
  obtain ⟨c, g1, g2, g3, g4, g5, g6⟩ := C28_values sp sp e2 e2 1 1 (1 / 2) (by norm_num) (by rw [e3]) (by rw [e3]) (by rw [e3]; norm_num)
    (by rw [e3]; norm_num)
  norm_num at g2 g3 g5
  refine ⟨_, _, sp, c, st, rfl, rfl, e1, g1, hmul, f1, ?_, ?_, hst⟩
  · rcases hcx : c.x with ⟨x1, x2, x3⟩
    rw [hcx] at g2 g3 g4
    simp_all
  · refine List.ext_getElem g5 fun k h1 h2 => ?_
    rw [g6 k h1, hsp]
    have hk : k = 0 ∨ k = 1 ∨ k = 2 := by omega
    rcases hk with rfl | rfl | rfl <;> norm_num [Finset.Nat.antidiagonal_succ]

/-- the conditions of `C138_objects`: a signal that is transformed and a relation that is read as a spectrum -/
example : Coh (exactPrims (fourier easyT)) signalAndCode ∧
    spectrumOf signalAndCode 0 (⟨⟨-1, 1, 1⟩, [1, 2, 3]⟩ : Rel ℝ ℝ).getSpectrum ∧
    spectrumOf signalAndCode 1 (.ok (⟨⟨-1, 1, 1⟩, [1, -1, 0]⟩ : Rel ℝ ℝ).toComplex) := by
  refine ⟨?_, .inr ⟨.signal, _, ⟨.inl rfl, ?_⟩, fits_of_none rfl, rfl⟩, .inl ⟨.relation, _, ?_, .inl rfl, rfl⟩⟩
  · intro i a hi
    have : a = ⟨-1, 1, 1, none, none⟩ := by
      rcases i with _ | _ | i
      · exact (Option.some.inj hi).symm
      · exact (Option.some.inj hi).symm
      · simp [signalAndCode] at hi
    subst this
    constructor <;> intro _ h <;> cases h
  · simp [valueAt, signalAndCode, mkRelObj, fieldsAt, fields, Rel.toComplex]
  · simp [valueAt, signalAndCode, mkRelObj, fieldsAt, fields, Rel.toComplex]

end

end SweepDesign
