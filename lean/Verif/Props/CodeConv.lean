import Verif.Props.ConvSpectrum
import Verif.Props.Codes

/-!
# C77: the sweep made by convolving a base sweep with a code
-/

set_option linter.unusedSectionVars false

namespace SweepDesign
open Spec

/-- **C77.** `Signal.shift` by `m` samples on an axis that contains zero, `c` of its times being negative: the axis stays,
and the values move circularly by `m - 2 * c` places. (Both transforms move the values of the negative times to the end.) -/
theorem C77_shift (r : Rel ℝ ℝ) (lx ly : List ℝ) (h : r.getData = .ok (lx, ly)) (hn : 2 ≤ r.y.length)
    (h0 : r.x.start ≤ 0) (h1 : 0 ≤ r.x.stop) (m : ℤ) :
    ∃ q, r.signalShift (m * r.x.sample) = .ok q ∧ q.x = r.x ∧ q.y.length = r.y.length ∧
      ∀ i (hi : i < r.y.length),
        q.y[((i + m - 2 * (lx.countP fun t => decide (t < 0))) % r.y.length).toNat]? = some r.y[i] := by
  have hb := (balanced_iff_getData r).2 ⟨_, h⟩
  obtain ⟨hs, hl⟩ := (balanced_iff r).1 hb
  obtain ⟨hx, rfl, hlen⟩ := (getData_ok_iff _ _ _).1 h
  have hinc : r.x.start ≤ r.x.stop := h0.trans h1
  obtain ⟨y, z, w, q, e1, e2, e3, e4, e5, e6, e7, e8, e9⟩ := signalShift_eq r hb hinc hn (m * r.x.sample)
  obtain ⟨p1, rfl⟩ := e2 h0 h1
  set c := lx.countP fun t => decide (t < 0) with hc
  rw [p1, reorder_sorted r.x lx r.y hx hlen hinc, ← hc] at e3
  simp only [Except.ok.injEq] at e3
  rw [reorder_sorted r.x lx w hx (by omega) hinc, ← hc] at e7
  simp only [Except.ok.injEq] at e7
  set n := r.y.length with hndef
  have hn0 : (n : ℝ) ≠ 0 := by exact_mod_cast (by omega : n ≠ 0)
  have hn0c : (n : ℂ) ≠ 0 := by exact_mod_cast (by omega : n ≠ 0)
  have hsc : (r.x.sample : ℂ) ≠ 0 := by exact_mod_cast hs
  rw [irfft_dft (at0 z) n (by omega) m _ _ rfl] at e5
  · simp only [Except.ok.injEq] at e5
    refine ⟨_, e9, rfl, e8, ?_⟩
    intro i hi
    have hnz : (0 : ℤ) < n := by omega
    set j : ℕ := (((i : ℤ) + m - 2 * c) % n).toNat with hjdef
    have hj : (j : ℤ) = ((i : ℤ) + m - 2 * c) % n := Int.toNat_of_nonneg (Int.emod_nonneg _ hnz.ne')
    have hjn : j < n := by
      have := Int.emod_lt_of_pos ((i : ℤ) + m - 2 * c) hnz
      omega
    show q[j]? = some r.y[i]
    have hk1 : (j + c) % n < n := Nat.mod_lt _ (by omega)
    set k : ℕ := ((((j + c) % n : ℕ) : ℤ) - m) % n |>.toNat with hkdef
    have hk : (k : ℤ) = (i - c) % n := by
      rw [hkdef, Int.toNat_of_nonneg (Int.emod_nonneg _ hnz.ne')]
      push_cast
      rw [Int.emod_sub_emod, hj, show ((i : ℤ) + m - 2 * c) % n + c - m = ((i : ℤ) + m - 2 * c) % n - (m - c) by ring,
        Int.emod_sub_emod]
      congr 1
      ring
    have hkn : k < n := by
      have := Int.emod_lt_of_pos ((i : ℤ) - c) hnz
      omega
    have hki : (k + c) % n = i := by
      have : (((k + c) % n : ℕ) : ℤ) = i := by
        push_cast
        rw [hk, Int.emod_add_emod, sub_add_cancel, Int.emod_eq_of_lt (by omega) (by omega)]
      exact_mod_cast this
    have hzl : z.length = n := by rw [← e3]; simp [hndef]
    rw [← e7, List.getElem?_eq_getElem (by simpa [e6] using hjn), Option.some.injEq, List.getElem_rotate]
    simp only [e6]
    rw [List.getElem_of_eq e5.symm]
    simp only [List.getElem_map, List.getElem_range]
    rw [← hkdef, at0_eq z k (by omega), List.getElem_of_eq e3.symm, List.getElem_rotate]
    simp only [← hndef, hki]
  · intro k hk
    rw [at0_eq _ _ (by simp; omega)]
    simp only [List.getElem_map, List.getElem_range]
    congr 1
    unfold unitRoot
    congr 1
    push_cast
    field_simp

/-- the part up to `M s` of a relation on the axis from `-E s` to `E s` -/
theorem select_upto (r : Rel ℝ ℝ) (E M : ℕ) (s : ℝ) (hs : 0 < s) (hx : r.x = ⟨-(E * s), E * s, s⟩)
    (hl : r.y.length = 2 * E + 1) :
    r.getSlice none (some (M * s)) = .ok ⟨⟨-(E * s), (min M E : ℕ) * s, s⟩, r.y.take (E + min M E + 1)⟩ := by
  have hy : r.y = (List.range (2 * E + 1)).map fun i => r.y.getD i 0 := by
    refine List.ext_getElem (by simp [hl]) fun i h1 h2 => ?_
    rw [List.getElem_map, List.getElem_range, getD_lt _ _ _ h1]
  have ha := array_whole r.x (2 * E) (by rw [hx]; exact hs) (by rw [hx]; push_cast; ring)
  have hlen : ((List.range (2 * E + 1)).map fun i : ℕ => r.x.start + (i : ℝ) * r.x.sample).length = r.y.length := by
    simp [hl]
  have hfil : ∀ N k : ℕ, k ≤ N → (List.range N).filter (fun i => decide (i < k)) = List.range k := by
    intro N k hk
    obtain ⟨d, rfl⟩ := Nat.exists_eq_add_of_le hk
    rw [List.range_add, List.filter_append, List.filter_eq_self.2, List.filter_eq_nil_iff.2, List.append_nil]
    · intro a ha'
      obtain ⟨b, -, rfl⟩ := List.mem_map.1 ha'
      simp
    · intro a ha'
      simpa using ha'
  have hp : ∀ i : ℕ, i < 2 * E + 1 → ((decide (r.x.start ≤ r.x.start + (i : ℝ) * r.x.sample) &&
      decide (r.x.start + (i : ℝ) * r.x.sample ≤ M * s)) = decide (i < E + min M E + 1)) := by
    intro i hi
    have h1 : r.x.start ≤ r.x.start + (i : ℝ) * r.x.sample := by
      rw [hx]; simp only; nlinarith [(Nat.cast_nonneg i : (0 : ℝ) ≤ i)]
    rw [decide_eq_true h1, Bool.true_and]
    congr 1
    rw [eq_iff_iff, hx]
    simp only
    rw [show -(E * s) + i * s ≤ M * s ↔ (i : ℝ) * s ≤ ((E + M : ℕ) : ℝ) * s by push_cast; constructor <;> intro _ <;> linarith,
      mul_le_mul_iff_left₀ hs, Nat.cast_le]
    omega
  have hK : E + min M E + 1 ≤ 2 * E + 1 := by omega
  unfold Rel.getSlice Rel.selectData
  rw [ha]
  simp only [except_bind_ok, Option.getD_none, Option.getD_some]
  rw [maskSelect_self, maskSelect_snd _ _ _ hlen]
  have hsel : ((List.range (2 * E + 1)).map fun i : ℕ => r.x.start + (i : ℝ) * r.x.sample).filter
      (fun t => decide (r.x.start ≤ t) && decide (t ≤ M * s)) =
      (List.range (E + min M E + 1)).map fun i : ℕ => r.x.start + (i : ℝ) * r.x.sample := by
    rw [List.filter_map]
    congr 1
    rw [← hfil (2 * E + 1) _ hK]
    refine List.filter_congr fun i hi => ?_
    exact hp i (List.mem_range.1 hi)
  have hsnd : ((((List.range (2 * E + 1)).map fun i : ℕ => r.x.start + (i : ℝ) * r.x.sample).zip r.y).filter
      fun q => decide (r.x.start ≤ q.1) && decide (q.1 ≤ M * s)).map Prod.snd = r.y.take (E + min M E + 1) := by
    conv_lhs => rw [hy]
    conv_rhs => rw [hy]
    rw [List.zip_map', List.filter_map, List.map_map, ← List.map_take, List.take_range, Nat.min_eq_left hK]
    rw [← hfil (2 * E + 1) _ hK]
    rw [show (List.range (2 * E + 1)).filter (fun i => decide (i < E + min M E + 1)) =
      (List.range (2 * E + 1)).filter ((fun q : ℝ × ℝ => decide (r.x.start ≤ q.1) && decide (q.1 ≤ M * s)) ∘
        fun i : ℕ => (r.x.start + (i : ℝ) * r.x.sample, r.y.getD i 0)) from
      List.filter_congr fun i hi => (hp i (List.mem_range.1 hi)).symm]
    rfl
  rw [hsel, hsnd]
  have hhead : ((List.range (E + min M E + 1)).map fun i : ℕ => r.x.start + (i : ℝ) * r.x.sample).head? =
      some (-(E * s)) := by
    rw [List.range_succ_eq_map]
    simp [hx]
  have hlast : ((List.range (E + min M E + 1)).map fun i : ℕ => r.x.start + (i : ℝ) * r.x.sample).getLast? =
      some ((min M E : ℕ) * s) := by
    rw [List.range_succ, List.map_append, List.getLast?_append]
    simp [hx]
    ring
  simp only [except_bind_ok, hhead, hlast]
  rw [hx]
  have hb : Balanced (⟨⟨-(E * s), (min M E : ℕ) * s, s⟩, r.y.take (E + min M E + 1)⟩ : Rel ℝ ℝ) := by
    refine balanced_whole _ (E + min M E) hs ?_ (by simp [hl]; omega)
    push_cast
    ring
  exact make_ok hb

theorem sweepInit_works (P : SweepPrims ℝ) (hP : PrimsWork P) (r : Rel ℝ ℝ) (hb : Balanced r) (hs : 0 < r.x.sample) :
    ∃ s, Sweep.init P (.rel r) none none none none = .ok s ∧ s.rel = r := by
  obtain ⟨⟨f, hf⟩, ⟨a, ha⟩, d, g, hd, hg⟩ := hP r hb hs
  refine ⟨⟨r, f, a, g, none⟩, ?_, rfl⟩
  simp only [Sweep.init, Rel.init, except_bind_ok, orDerive, hf, ha, hd, hg, except_pure]

/-- **C77.** `get_convolution_sweep_and_code` with a code of `M >= 2` numbers and a base sweep from 0 to `k s`; let
`E = max (M - 1) k` and `n = E + min M E + 1`. The result is on the axis from `-E s` to `min M E * s`, with `n` samples,
and the `i`-th value of the convolution of code and base is its sample number `i + k - 2 E`, modulo `n`. -/
theorem C77_convolution_sweep (P : SweepPrims ℝ) (hP : PrimsWork P) (code : List ℝ) (base : Rel ℝ ℝ) (hb : Balanced base)
    (s : ℝ) (hs : 0 < s) (k M E n : ℕ) (hk : 1 ≤ k) (hx : base.x = ⟨0, k * s, s⟩) (hM : code.length = M) (hM2 : 2 ≤ M)
    (hE : E = max (M - 1) k) (hn : n = E + min M E + 1) :
    ∃ w, getConvolutionSweepAndCode P (.list code) base = .ok w ∧ w.rel.x = ⟨-(E * s), (min M E : ℕ) * s, s⟩ ∧
      w.rel.y.length = n ∧
      ∀ i < n, w.rel.y[(((i : ℤ) + k - 2 * E) % n).toNat]? =
        some (∑ p ∈ Finset.antidiagonal i, code.getD p.1 0 * base.y.getD p.2 0) := by
  have hM1 : ((M - 1 : ℕ) : ℝ) = (M : ℝ) - 1 := by
    rw [Nat.cast_sub (by omega)]; simp
  set cr : Rel ℝ ℝ := ⟨⟨0, ((M : ℝ) - 1) * s, s⟩, code⟩ with hcr
  have hcb : Balanced cr := balanced_whole _ (M - 1) hs (by rw [hcr]; simp [hM1]) (by rw [hcr]; simp only; omega)
  have hto : (CodeArg.list code).toRel base.x.sample = .ok cr := by
    unfold CodeArg.toRel
    simp only [hx, hM]
    exact make_ok hcb
  have hbl : base.y.length = k + 1 := by
    obtain ⟨-, h2⟩ := (balanced_iff base).1 hb
    have ha := array_whole base.x k (by rw [hx]; exact hs) (by rw [hx]; simp)
    have h3 : base.x.size = .ok base.y.length := hb
    rw [Axis.size_of_array ha] at h3
    simpa using h3.symm
  have k1 : (1 : ℝ) ≤ k := by exact_mod_cast hk
  have m1 : (2 : ℝ) ≤ M := by exact_mod_cast hM2
  obtain ⟨c, e1, e2, e3, e4, e5, e6⟩ := C28_values cr base hcb hb (M - 1) k s hs rfl (by rw [hx])
    (by rw [hcr]; simp [hM1]) (by rw [hx]; simp)
  have hconv : cr.signalConvolve base = .ok c := by
    rw [(signalConvolve_zero cr base hcb hb (by rw [hcr]; simp only; omega) (by omega) rfl (by rw [hx])
      (by rw [hcr]; simp only; nlinarith) (by rw [hx]; simp only; nlinarith)).1, e1]
  rw [← hE] at e2 e3 e5
  have hcx : c.x = ⟨-(E * s), E * s, s⟩ := by
    rcases hc : c with ⟨⟨a, b, d⟩, y⟩
    rw [hc] at e2 e3 e4
    simp only at e2 e3 e4
    rw [e2, e3, e4]
  have hcbal : Balanced c := balanced_whole _ (2 * E) (by rw [hcx]; exact hs) (by rw [hcx]; push_cast; ring) e5
  obtain ⟨s1, i1, r1⟩ := sweepInit_works P hP c hcbal (by rw [hcx]; exact hs)
  have hsel := select_upto c E M s hs hcx e5
  set q : Rel ℝ ℝ := ⟨⟨-(E * s), (min M E : ℕ) * s, s⟩, c.y.take (E + min M E + 1)⟩ with hq
  have hql : q.y.length = n := by rw [hq, hn]; simp [e5]; omega
  have hqb : Balanced q := balanced_whole _ (E + min M E) hs (by rw [hq]; push_cast; ring) (by rw [hql, hn])
  obtain ⟨s2, i2, r2⟩ := sweepInit_works P hP q hqb hs
  obtain ⟨⟨lx, ly⟩, hd⟩ := (balanced_iff_getData q).1 hqb
  have hcount : (lx.countP fun t => decide (t < 0)) = E := by
    obtain ⟨hax, -, -⟩ := (getData_ok_iff _ _ _).1 hd
    have := array_whole q.x (E + min M E) hs (by rw [hq]; push_cast; ring)
    rw [hax] at this
    simp only [Except.ok.injEq] at this
    rw [this, List.countP_map, show E + min M E + 1 = E + (min M E + 1) by ring, List.range_add, List.countP_append,
      List.countP_eq_length.2, List.countP_eq_zero.2, List.length_range, add_zero]
    · intro a ha
      obtain ⟨b, -, rfl⟩ := List.mem_map.1 ha
      simp only [hq, Function.comp, decide_eq_true_eq, not_lt]
      push_cast
      nlinarith [(Nat.cast_nonneg b : (0 : ℝ) ≤ b)]
    · intro a ha
      have ha' : (a : ℝ) < E := by exact_mod_cast List.mem_range.1 ha
      simp only [hq, Function.comp, decide_eq_true_eq]
      nlinarith
  obtain ⟨sh, g1, g2, g3, g4⟩ := C77_shift q lx ly hd (by omega) (by rw [hq]; simp only; have := (Nat.cast_nonneg E : (0 : ℝ) ≤ E); nlinarith)
    (by rw [hq]; positivity) k
  rw [hcount] at g4
  have hshb : Balanced sh := by
    show sh.x.size = _
    rw [g2, g3]
    exact hqb
  obtain ⟨s3, i3, r3⟩ := sweepInit_works P hP sh hshb (by rw [g2]; exact hs)
  have hg1 : q.signalShift base.x.stop = .ok sh := by
    rw [hx]
    simpa using g1
  have hsz : cr.x.size = .ok M := by
    have : cr.x.size = .ok cr.y.length := hcb
    rw [this, hcr]
    simp only [hM]
  refine ⟨s3, ?_, by rw [r3, g2], by rw [r3, g3, hql], fun i hi => ?_⟩
  · unfold getConvolutionSweepAndCode
    rw [hto]
    simp only [except_bind_ok, hconv, i1, hsz, r1]
    rw [show base.x.sample = s by rw [hx], hsel]
    simp only [except_bind_ok, i2, Sweep.shift, r2, hg1, i3]
  · have hi' : i < q.y.length := by omega
    have := g4 i hi'
    rw [hql] at this
    rw [r3, show ((i : ℤ) + k - 2 * E) = (i : ℤ) + (k : ℤ) - 2 * (E : ℤ) from rfl]
    rw [this, Option.some.injEq]
    have hic : i < c.y.length := by omega
    rw [show q.y[i] = c.y[i] by simp [hq], e6 i hic]

/-- **C77.** A code of one number, even the number 1, raises: a signal of one sample has no spectrum, so it cannot be
shifted to zero. -/
theorem C77_one_number (P : SweepPrims ℝ) (v : ℝ) (base : Rel ℝ ℝ) (hs : 0 < base.x.sample) :
    getConvolutionSweepAndCode P (.list [v]) base = .error .value := by
  set s := base.x.sample with hsd
  have ha := array_whole (⟨0, 0, s⟩ : Axis ℝ) 0 hs (by simp)
  have hm : Rel.make (⟨0, 0, s⟩ : Axis ℝ) [v] = .ok ⟨⟨0, 0, s⟩, [v]⟩ := make_ok (by rw [Axis.size_of_array ha]; simp)
  have hr : reorderByTime ⟨0, 0, s⟩ [v] = .ok [v] := by
    unfold reorderByTime
    rw [ha]
    simp [maskSelect, bind, Except.bind, pure, Except.pure]
  have hsp : (⟨⟨0, 0, s⟩, [v]⟩ : Rel ℝ ℝ).getSpectrum = .error .value := by
    unfold Rel.getSpectrum signal2spectrum calculateSpectrum
    simp [hr, SizeArg.size, rfft, rfftfreq, axisFromArray, getActualSample, npDiff, npMin, bind, Except.bind, pure, Except.pure]
  unfold getConvolutionSweepAndCode
  simp [← hsd, CodeArg.toRel, hm, Rel.signalConvolve, Rel.signalAlign, Rel.signalShift, hsp, bind, Except.bind]

/-- **C77.** The code 1, 0 leaves a base 1, 2, 3 unchanged up to appended zeros, but its values come back in the order
3, 0, 0, 1, 2, on the axis from -2 to 2. -/
theorem C77_rotated_witness : ∃ w, getConvolutionSweepAndCode realPrims (.list [1, 0]) ⟨⟨0, 2, 1⟩, [1, 2, 3]⟩ = .ok w ∧
    w.rel.x = ⟨-2, 2, 1⟩ ∧ w.rel.y = [3, 0, 0, 1, 2] := by
  obtain ⟨w, h1, h2, h3, h4⟩ := C77_convolution_sweep realPrims realPrims_work [1, 0] ⟨⟨0, 2, 1⟩, [1, 2, 3]⟩
    (balanced_whole _ 2 (by norm_num) (by norm_num) rfl) 1 (by norm_num) 2 2 2 5 (by norm_num) (by norm_num) rfl (by norm_num)
    rfl rfl
  refine ⟨w, h1, by rw [h2]; norm_num, ?_⟩
  apply List.ext_getElem?
  intro i
  match i with
  | 0 => simpa [Finset.Nat.antidiagonal_succ] using h4 2 (by norm_num)
  | 1 => simpa [Finset.Nat.antidiagonal_succ] using h4 3 (by norm_num)
  | 2 => simpa [Finset.Nat.antidiagonal_succ] using h4 4 (by norm_num)
  | 3 => simpa [Finset.Nat.antidiagonal_succ] using h4 0 (by norm_num)
  | 4 => simpa [Finset.Nat.antidiagonal_succ] using h4 1 (by norm_num)
  | k + 5 =>
    rw [List.getElem?_eq_none (by omega), List.getElem?_eq_none (by simp)]

end SweepDesign
