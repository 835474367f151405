import Verif.Props.TaperEnergy
import Verif.Props.Extremes
import Verif.Props.Shuffle

/-!
# C170: sweeps that differ in the amplitude description only
-/

set_option linter.unusedSectionVars false

namespace SweepDesign
open Spec

section
variable {K : Type} [Field K] [LinearOrder K] [IsStrictOrderedRing K] [FloorRing K] [PyPow K]

/-- **C170.** Two generators with one time and one frequency description: their sweeps have one axis and one frequency, and are the two
amplitudes times one oscillation. -/
theorem C170_one_oscillation (P : SweepPrims K) (t0 : TimeArg K) (fd ad bd : Ftat K) (u v : UncalculatedSweep K)
    (hu : UncalculatedSweep.init t0 fd ad = .ok u) (hv : UncalculatedSweep.init t0 fd bd = .ok v) (time : TimeArg K) (tht0 : K)
    (p q : Sweep K) (hp : u.call P time tht0 = .ok p) (hq : v.call P time tht0 = .ok q) :
    p.rel.x = q.rel.x ∧ p.frequencyTime = q.frequencyTime ∧ p.amplitudeTime.x = p.rel.x ∧ q.amplitudeTime.x = q.rel.x ∧
    p.rel.x.size = .ok p.rel.y.length ∧ p.rel.y.length = q.rel.y.length ∧ p.amplitudeTime.y.length = p.rel.y.length ∧
    q.amplitudeTime.y.length = q.rel.y.length ∧
    ∃ c : List K, c.length = p.rel.y.length ∧ (∀ i, p.rel.y.getD i 0 = p.amplitudeTime.y.getD i 0 * c.getD i 0) ∧
      ∀ i, q.rel.y.getD i 0 = q.amplitudeTime.y.getD i 0 * c.getD i 0 := by
  obtain ⟨a1, a2, -⟩ := uinit_ok hu
  obtain ⟨b1, b2, -⟩ := uinit_ok hv
  have ht : u.time = v.time := by rw [a1] at b1; exact Except.ok.inj b1
  have hf : u.frequencyTime = v.frequencyTime := by rw [ht, b2] at a2; exact (Except.ok.inj a2).symm
  obtain ⟨t, th, c1, c2, -, c4, c5, c6, c7, c8, c9, c10, c11, -⟩ := call_ok hp
  obtain ⟨t', th', d1, d2, -, d4, d5, d6, d7, d8, d9, d10, d11, -⟩ := call_ok hq
  have htt : t = t' := by
    have : u.calcTime time = v.calcTime time := by simp only [UncalculatedSweep.calcTime, ht]
    rw [this, d1] at c1
    exact (Except.ok.inj c1).symm
  subst htt
  rw [hf, d2] at c2
  have hfy := Except.ok.inj c2
  rw [hf, ← hfy, d4] at c4
  have hth : th' = th := by
    have := Except.ok.inj c4
    simpa using congrArg Rel.y this
  subst hth
  have hl1 : p.rel.y.length = th'.length := by rw [c11, List.length_zipWith, c10, min_self]
  have hl2 : q.rel.y.length = th'.length := by rw [d11, List.length_zipWith, d10, min_self]
  have value : ∀ (y a : List K), y = List.zipWith (fun a v => a * P.sin (v + tht0)) a th' → a.length = th'.length → ∀ i : ℕ,
      y.getD i 0 = a.getD i 0 * (th'.map fun v => P.sin (v + tht0)).getD i 0 := by
    intro y a hy ha i
    rcases Nat.lt_or_ge i th'.length with hi | hi
    · rw [hy, getD_lt _ _ _ (by simp; omega), getD_lt _ _ _ (by omega), getD_lt _ _ _ (by simpa using hi)]
      simp
    · rw [hy, getD_ge _ _ _ (by simp; omega), getD_ge _ _ _ (by omega), zero_mul]
  refine ⟨by rw [c6, d6], ?_, by rw [c8, c6], by rw [d8, d6], by rw [c6, c5, hl1], by rw [hl1, hl2], by rw [c10, hl1], by rw [d10, hl2],
    th'.map fun v => P.sin (v + tht0), by simp [hl1], value _ _ c11 c10, value _ _ d11 d10⟩
  cases hpf : p.frequencyTime with
  | mk x y =>
    cases hqf : q.frequencyTime with
    | mk x' y' =>
      rw [hpf] at c7 hfy
      rw [hqf] at d7 hfy
      simp only at c7 d7 hfy
      rw [c7, d7, hfy]

/-- norms follow the absolute values of the samples -/
theorem norm_mono (r q : Rel K K) (h1 : Spec.Balanced r) (h2 : Spec.Balanced q) (hx : r.x = q.x) (hs : 0 < r.x.sample)
    (hinc : r.x.start ≤ r.x.stop) (hle : ∀ i < r.y.length, |r.y.getD i 0| ≤ |q.y.getD i 0|) :
    ∃ v w, r.getNorm = .ok v ∧ q.getNorm = .ok w ∧ v ≤ w := by
  have hl := balanced_length_eq h1 h2 hx
  have sq : ∀ r : Rel K K, Spec.Balanced r → r.pow (.other (.num 2)) = .ok ⟨r.x, r.y.map fun a => a ^ 2⟩ := by
    intro r hb
    rw [Rel.pow, operation_num r 2 .pow hb]
    have : (r.y.map fun a => MathOp.fn .pow a 2) = (r.y.map fun a => a ^ 2).map some := by
      simp [MathOp.fn, PyPow.ppow_two, pow_two]
    rw [this, finite_map_some]
    rfl
  have b1 := balanced_map (fun a : K => a ^ 2) h1
  have b2 := balanced_map (fun a : K => a ^ 2) h2
  have o1 := oneIntegrate_sum _ b1
  have o2 := oneIntegrate_sum _ b2
  have hord := (C114_order ⟨r.x, r.y.map fun a => a ^ 2⟩ ⟨q.x, q.y.map fun a => a ^ 2⟩ b1 b2 hx hs hinc (by
    intro i ha hb
    simp only [List.length_map] at ha hb
    have := hle i ha
    rw [getD_lt _ _ _ ha, getD_lt _ _ _ hb] at this
    simp only [List.getElem_map]
    exact sq_le_sq.2 this)).1 _ _ o1 o2
  refine ⟨_, _, by rw [Rel.getNorm, sq r h1, except_bind_ok, o1, except_bind_ok]; rfl,
    by rw [Rel.getNorm, sq q h2, except_bind_ok, o2, except_bind_ok]; rfl, ?_⟩
  have hsample : q.x.sample = r.x.sample := by rw [hx]
  rw [smul_eq_mul, smul_eq_mul, hsample]
  exact mul_le_mul_of_nonneg_left hord (inv_nonneg.2 hs.le)

/-- **C170.** Where one amplitude is nowhere larger than the other, no sample is larger, and on a rising axis the norm is not larger. -/
theorem C170_smaller (P : SweepPrims K) (t0 : TimeArg K) (fd ad bd : Ftat K) (u v : UncalculatedSweep K)
    (hu : UncalculatedSweep.init t0 fd ad = .ok u) (hv : UncalculatedSweep.init t0 fd bd = .ok v) (time : TimeArg K) (tht0 : K)
    (p q : Sweep K) (hp : u.call P time tht0 = .ok p) (hq : v.call P time tht0 = .ok q)
    (hle : ∀ i < q.rel.y.length, |q.amplitudeTime.y.getD i 0| ≤ |p.amplitudeTime.y.getD i 0|) :
    (∀ i < q.rel.y.length, |q.rel.y.getD i 0| ≤ |p.rel.y.getD i 0|) ∧
    (0 < q.rel.x.sample → q.rel.x.start ≤ q.rel.x.stop → ∃ v w, q.rel.getNorm = .ok v ∧ p.rel.getNorm = .ok w ∧ v ≤ w) := by
  obtain ⟨e1, -, -, -, e5, e6, -, -, c, -, e9, e10⟩ := C170_one_oscillation P t0 fd ad bd u v hu hv time tht0 p q hp hq
  have hs : ∀ i < q.rel.y.length, |q.rel.y.getD i 0| ≤ |p.rel.y.getD i 0| := by
    intro i hi
    rw [e9, e10, abs_mul, abs_mul]
    exact mul_le_mul_of_nonneg_right (hle i hi) (abs_nonneg _)
  exact ⟨hs, fun h1 h2 => norm_mono _ _ (by rw [Spec.Balanced, ← e1, ← e6]; exact e5) e5 e1.symm h1 h2 hs⟩

end

/-- **C170.** A taper on a shuffle sweep from time zero, with the same order of frequencies: every sample is multiplied by a number from
0 to 1, and by 1 where both ends are further away than the taper; the norm does not grow. -/
theorem C170_shuffle [PyPow ℝ] (P : SweepPrims ℝ) (t : Axis ℝ) (h0 : t.start = 0) (hs : 0 < t.sample) (k : ℕ) (hk : 1 ≤ k)
    (hT : t.stop = k * t.sample) (fStart fEnd length : ℝ) (rd : Option ℤ) (tt : ℝ) (shuffle : List ℝ → List ℝ) (p q : Sweep ℝ)
    (hp : getShuffle P (.axis t) fStart fEnd length rd none shuffle = .ok p)
    (hq : getShuffle P (.axis t) fStart fEnd length rd (some tt) shuffle = .ok q) :
    p.rel.x = t ∧ q.rel.x = t ∧ p.frequencyTime = q.frequencyTime ∧ p.rel.y.length = k + 1 ∧ q.rel.y.length = k + 1 ∧
    (∀ i ≤ k, ∃ w, 0 ≤ w ∧ w ≤ 1 ∧ q.rel.y.getD i 0 = w * p.rel.y.getD i 0 ∧
      (tt < i * t.sample → tt < (k - i : ℕ) * t.sample → w = 1)) ∧
    ∃ v w, q.rel.getNorm = .ok v ∧ p.rel.getNorm = .ok w ∧ v ≤ w := by
  have hw : t.stop - t.start = k * t.sample := by rw [hT, h0, sub_zero]
  have harr := array_whole t k hs hw
  have hsize : t.size = .ok (k + 1) := by rw [Axis.size, harr]; simp [Except.map]
  simp only [getShuffle, TimeArg.toAxis, except_bind_ok, except_bind_eq_ok] at hp hq
  obtain ⟨ft, f1, l, f2, w0, f3, u, f4, f5⟩ := hp
  obtain ⟨ft', g1, l', g2, w1, g3, v, g4, g5⟩ := hq
  obtain rfl : ft = ft' := by rw [f1] at g1; exact Except.ok.inj g1
  rw [harr] at f2 g2
  obtain rfl := Except.ok.inj f2
  obtain rfl := Except.ok.inj g2
  obtain ⟨l0, -⟩ := (C52_shape _ _ _).1 _ f3
  obtain ⟨l1, l2⟩ := (C52_shape _ _ _).1 _ g3
  rw [List.length_map, List.length_range] at l0 l1
  have ap := ((C50_own_axis P t h0 (k + 1) hsize (by omega) w0 (by omega) _ _ u f4 .none (Or.inl rfl) 0 p f5).2 rfl).2.2.2 l0
  have aq := ((C50_own_axis P t h0 (k + 1) hsize (by omega) w1 (by omega) _ _ v g4 .none (Or.inl rfl) 0 q g5).2 rfl).2.2.2 l1
  obtain ⟨e1, e2, e3, e4, e5, e6, e7, e8, c, e9, e10, e11⟩ := C170_one_oscillation P _ _ _ _ u v f4 g4 _ _ p q f5 g5
  have hone : ∀ i ≤ k, p.amplitudeTime.y.getD i 0 = 1 := by
    intro i hi
    rw [ap, getD_lt _ _ _ (by omega)]
    exact C52_ones _ _ _ _ f3 (Or.inl rfl) _ (List.getElem_mem _)
  have hbet : ∀ i ≤ k, 0 ≤ q.amplitudeTime.y.getD i 0 ∧ q.amplitudeTime.y.getD i 0 ≤ 1 := by
    intro i hi
    rw [aq, getD_lt _ _ _ (by omega)]
    exact l2 _ (List.getElem_mem _)
  have hxp : p.rel.x = t := by
    obtain ⟨t', _, c1, -, -, -, -, c6, -⟩ := call_ok f5
    obtain ⟨a1, -⟩ := uinit_ok f4
    simp only [TimeArg.toAxis, Except.ok.injEq] at a1
    simp only [UncalculatedSweep.calcTime, TimeArg.toAxis, ← a1, except_bind_ok, except_pure, Except.ok.injEq] at c1
    rw [c6, c1]
  have hlen : p.rel.y.length = k + 1 := by rw [← e7, ap, l0]
  have hinc : ((List.range (k + 1)).map fun i : ℕ => t.start + (i : ℝ) * t.sample).Pairwise (· < ·) := by
    rw [List.pairwise_map]
    refine List.pairwise_lt_range.imp fun {a b} hab => ?_
    have : (a : ℝ) * t.sample < b * t.sample := mul_lt_mul_of_pos_right (by exact_mod_cast hab) hs
    linarith
  refine ⟨hxp, e1 ▸ hxp, e2, hlen, by omega, fun i hi => ⟨q.amplitudeTime.y.getD i 0, (hbet i hi).1, (hbet i hi).2, ?_, fun h1 h2 => ?_⟩, ?_⟩
  · rw [e10, e11, hone i hi, one_mul]
  · rw [aq]
    exact (C52_plateau _ tt hinc i (by simp; omega) (by simpa [h0] using h1) _).1 (by simpa [h0] using h2) g3
  · refine (C170_smaller P _ _ _ _ u v f4 g4 _ _ p q f5 g5 fun i hi => ?_).2 (by rw [← e1, hxp]; exact hs) (by
      rw [← e1, hxp, h0, hT]; positivity)
    rw [hone i (by omega), abs_one, abs_of_nonneg (hbet i (by omega)).1]
    exact (hbet i (by omega)).2

/-- **C170.** A shuffle sweep exists, with every taper, as soon as its frequency description has two values. -/
theorem C170_exists (P : SweepPrims ℝ) (t : Axis ℝ) (h0 : t.start = 0) (hs : 0 < t.sample) (k : ℕ) (hk : 1 ≤ k)
    (hT : t.stop = k * t.sample) (fStart fEnd length : ℝ) (rd : Option ℤ) (tt : Option ℝ) (shuffle : List ℝ → List ℝ) (ft : List ℝ)
    (hft : shuffleFrequency t fStart fEnd length rd shuffle = .ok ft) (hl : 2 ≤ ft.length)
    (hw : ∀ r : Rel ℝ ℝ, r.x = t → Spec.Balanced r → SpectrogramWorks P r) :
    ∃ s, getShuffle P (.axis t) fStart fEnd length rd tt shuffle = .ok s := by
  have harr := array_whole t k hs (by rw [hT, h0, sub_zero])
  have hn : t.size = .ok (k + 1) := by rw [Axis.size, harr]; simp [Except.map]
  have hkR : (0 : ℝ) < k := by exact_mod_cast hk
  have hq : (t.stop - t.start) / t.sample = k := by rw [hT, h0, sub_zero]; field_simp
  obtain ⟨a, ha⟩ := (C52_shape _ tt .both).2.1 (.inl (by simp : (List.range (k + 1)).map (fun i : ℕ => t.start + (i : ℝ) * t.sample) ≠ []))
  have hal : a.length = k + 1 := by rw [((C52_shape _ _ _).1 a ha).1]; simp
  obtain ⟨u, s, e1, e2⟩ := C47_succeeds P t h0 (k + 1) hn (by omega) (by rw [hq]; exact hkR)
    (by rw [hq]; rintro ⟨m, hm⟩
        have : (2 * (k : ℤ)) = 2 * m + 1 := by
          have : (2 * (k : ℝ)) = 2 * m + 1 := by rw [hm]; ring
          exact_mod_cast this
        omega) ft a hl (by omega) hw 0
  exact ⟨s, by simp only [getShuffle, TimeArg.toAxis, harr, except_bind_ok, hft, ha, e1, e2]⟩

/-- five segments in reverse order, with a taper of one second and without -/
example [PyPow ℝ] : ∃ p q v w, getShuffle realPrims (.axis ⟨0, 5, 1 / 2⟩) 10 60 1 none none List.reverse = .ok p ∧
    getShuffle realPrims (.axis ⟨0, 5, 1 / 2⟩) 10 60 1 none (some 1) List.reverse = .ok q ∧ q.rel.y.getD 5 0 = p.rel.y.getD 5 0 ∧
    q.rel.getNorm = .ok v ∧ p.rel.getNorm = .ok w ∧ v ≤ w := by
  obtain ⟨ft, hft, hl⟩ : ∃ ft, shuffleFrequency ⟨0, 5, 1/2⟩ 10 60 1 none List.reverse = .ok ft ∧ ft.length = 8 := by
    obtain ⟨N, m, g, r, f, ft, hN, hm, -, -, -, h, hl, -⟩ := C108_description ⟨0, 5, 1/2⟩ 10 60 1 none List.reverse
      (fun l => List.length_reverse) (by norm_num) (by norm_num) (by norm_num)
    refine ⟨ft, h, ?_⟩
    have e1 : N = 5 := by
      have : ((5 : ℝ) / 1) = ((5 : ℤ) : ℝ) := by norm_num
      simp only [this, Int.ceil_intCast] at hN
      exact_mod_cast hN.symm
    have e2 : m = 2 := by
      have : ((1 : ℝ) / (1 / 2)) = ((2 : ℤ) : ℝ) := by norm_num
      simp only [this, Int.ceil_intCast] at hm
      exact_mod_cast hm.symm
    rw [hl, e1, e2]
  have ex := fun tt => C170_exists realPrims ⟨0, 5, 1 / 2⟩ rfl (by norm_num) 10 (by norm_num) (by norm_num) 10 60 1 none tt List.reverse
    ft hft (by omega) fun r _ _ => realPrims_works r
  obtain ⟨p, hp⟩ := ex none
  obtain ⟨q, hq⟩ := ex (some 1)
  obtain ⟨-, -, -, -, -, h, v, w, h1, h2, h3⟩ := C170_shuffle realPrims ⟨0, 5, 1 / 2⟩ rfl (by norm_num) 10 (by norm_num) (by norm_num)
    10 60 1 none 1 List.reverse p q hp hq
  obtain ⟨a, -, -, ha, hb⟩ := h 5 (by norm_num)
  rw [hb (by norm_num) (by norm_num), one_mul] at ha
  exact ⟨p, q, v, w, hp, hq, ha, h1, h2, h3⟩

/-- an amplitude of 1, 1, 1 and one of 0, 1/2, -1: the second sweep is the first times these numbers -/
example :
    (((UncalculatedSweep.init (.axis ⟨0, 2, 1⟩) (.array [10, 20, 30]) .absent).bind fun u => u.call toyPrims .none 1).map fun s => s.rel.y) =
      .ok [1, 16, 41] ∧
    (((UncalculatedSweep.init (.axis ⟨0, 2, 1⟩) (.array [10, 20, 30]) (.array [0, 1 / 2, -1])).bind fun u =>
      u.call toyPrims .none 1).map fun s => s.rel.y) = .ok [0, 8, -41] := by decide +kernel

end SweepDesign
