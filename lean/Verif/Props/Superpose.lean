import Verif.Props.SameCarrier

/-!
# C171: sweeps add as their amplitudes do
-/

set_option linter.unusedSectionVars false

namespace SweepDesign
open Spec

section
variable {K : Type} [Field K] [LinearOrder K] [IsStrictOrderedRing K] [FloorRing K] [PyPow K]

/-- **C171.** The time and the frequency description, the time of the call and the initial phase fix the axis and one list of numbers;
every sweep made from them is its amplitude times this list. -/
theorem C171_carrier (P : SweepPrims K) (t0 : TimeArg K) (fd : Ftat K) (time : TimeArg K) (tht0 : K) :
    ∃ (t : Axis K) (c : List K), ∀ (ad : Ftat K) (u : UncalculatedSweep K) (s : Sweep K), UncalculatedSweep.init t0 fd ad = .ok u →
      u.call P time tht0 = .ok s → s.rel.x = t ∧ t.size = .ok c.length ∧ s.amplitudeTime.y.length = c.length ∧
      s.rel.y = List.zipWith (· * ·) s.amplitudeTime.y c := by
  by_cases hex : ∃ ad u s, UncalculatedSweep.init t0 fd ad = .ok u ∧ u.call P time tht0 = .ok s
  · obtain ⟨bd, v, q, hv, hq⟩ := hex
    obtain ⟨b1, b2, -⟩ := uinit_ok hv
    obtain ⟨t, th, d1, d2, -, d4, d5, d6, -⟩ := call_ok hq
    refine ⟨t, th.map fun v => P.sin (v + tht0), fun ad u s hu hs => ?_⟩
    obtain ⟨a1, a2, -⟩ := uinit_ok hu
    have ht : u.time = v.time := by rw [a1] at b1; exact Except.ok.inj b1
    have hf : u.frequencyTime = v.frequencyTime := by rw [ht, b2] at a2; exact (Except.ok.inj a2).symm
    obtain ⟨t', th', c1, c2, -, c4, c5, c6, -, -, -, c10, c11, -⟩ := call_ok hs
    obtain rfl : t = t' := by
      have : u.calcTime time = v.calcTime time := by simp only [UncalculatedSweep.calcTime, ht]
      rw [this, d1] at c1
      exact Except.ok.inj c1
    rw [hf, d2] at c2
    rw [hf, ← Except.ok.inj c2, d4] at c4
    obtain rfl : th = th' := by simpa using congrArg Rel.y (Except.ok.inj c4)
    refine ⟨c6, by rw [c5, List.length_map], by rw [c10, List.length_map], ?_⟩
    rw [c11, List.zipWith_map_right]
  · exact ⟨⟨0, 0, 0⟩, [], fun ad u s hu hs => absurd ⟨ad, u, s, hu, hs⟩ hex⟩

theorem sum_one_axis (r q : Rel K K) (h1 : Spec.Balanced r) (h2 : Spec.Balanced q) (hx : q.x = r.x) :
    r.add (.rel false q) = .ok ⟨r.x, List.zipWith (· + ·) r.y q.y⟩ := by
  rw [Rel.add, operation_equal_axes _ _ _ _ h1 h2 hx.symm]
  have : List.zipWith MathOp.add.fn r.y q.y = (List.zipWith (· + ·) r.y q.y).map some := by
    rw [List.map_zipWith]
    rfl
  rw [this, finite_map_some]
  rfl

theorem zipWith_add_mul (a b c : List K) :
    List.zipWith (· + ·) (List.zipWith (· * ·) a c) (List.zipWith (· * ·) b c) = List.zipWith (· * ·) (List.zipWith (· + ·) a b) c := by
  refine List.ext_getElem (by simp) fun i h1 h2 => ?_
  simp [add_mul]

/-- **C171.** Three generators with one time and one frequency description: if the amplitude of the third sweep is the sum of the amplitudes
of the first two, the sum of the first two sweeps is the third. -/
theorem C171_sum (P : SweepPrims K) (t0 : TimeArg K) (fd ad bd cd : Ftat K) (u v w : UncalculatedSweep K)
    (hu : UncalculatedSweep.init t0 fd ad = .ok u) (hv : UncalculatedSweep.init t0 fd bd = .ok v)
    (hw : UncalculatedSweep.init t0 fd cd = .ok w) (time : TimeArg K) (tht0 : K) (p q s : Sweep K)
    (hp : u.call P time tht0 = .ok p) (hq : v.call P time tht0 = .ok q) (hs : w.call P time tht0 = .ok s)
    (hsum : s.amplitudeTime.y = List.zipWith (· + ·) p.amplitudeTime.y q.amplitudeTime.y) :
    p.rel.add (.rel false q.rel) = .ok s.rel := by
  obtain ⟨t, c, h⟩ := C171_carrier P t0 fd time tht0
  obtain ⟨a1, a2, a3, a4⟩ := h _ _ _ hu hp
  obtain ⟨b1, -, b3, b4⟩ := h _ _ _ hv hq
  obtain ⟨c1, -, c3, c4⟩ := h _ _ _ hw hs
  have bal : ∀ s : Sweep K, s.rel.x = t → s.amplitudeTime.y.length = c.length → s.rel.y = List.zipWith (· * ·) s.amplitudeTime.y c →
      Spec.Balanced s.rel := by
    intro s e1 e2 e3
    rw [Spec.Balanced, e1, a2, e3, List.length_zipWith, e2, min_self]
  rw [sum_one_axis _ _ (bal p a1 a3 a4) (bal q b1 b3 b4) (by rw [a1, b1]), a4, b4, zipWith_add_mul, ← hsum, ← c4,
    a1, ← c1]

/-- **C171.** Amplitudes given by arrays with as many values as the time axis, which starts at 0: the sum of the sweeps is the sweep of
the sum of the arrays, and the sweep of an array times a number has its samples times that number. -/
theorem C171_arrays (P : SweepPrims K) (t : Axis K) (h0 : t.start = 0) (n : ℕ) (hn : t.size = .ok n) (h2 : 2 ≤ n) (fd : Ftat K)
    (a b : List K) (ha : a.length = n) (hb : b.length = n) (k : K) (u v w x : UncalculatedSweep K)
    (hu : UncalculatedSweep.init (.axis t) fd (.array a) = .ok u) (hv : UncalculatedSweep.init (.axis t) fd (.array b) = .ok v)
    (hw : UncalculatedSweep.init (.axis t) fd (.array (List.zipWith (· + ·) a b)) = .ok w)
    (hx : UncalculatedSweep.init (.axis t) fd (.array (a.map (k * ·))) = .ok x) (tht0 : K) (p q s z : Sweep K)
    (hp : u.call P .none tht0 = .ok p) (hq : v.call P .none tht0 = .ok q) (hs : w.call P .none tht0 = .ok s)
    (hz : x.call P .none tht0 = .ok z) :
    p.rel.add (.rel false q.rel) = .ok s.rel ∧ z.rel.x = p.rel.x ∧ z.rel.y = p.rel.y.map (k * ·) := by
  have own : ∀ (l : List K) (hl : l.length = n) (u : UncalculatedSweep K), UncalculatedSweep.init (.axis t) fd (.array l) = .ok u →
      ∀ s, u.call P .none tht0 = .ok s → s.amplitudeTime.y = l := fun l hl u hu s hs =>
    ((C50_own_axis P t h0 n hn h2 l (by omega) _ _ u hu .none (Or.inl rfl) tht0 s hs).2 rfl).2.2.2 hl
  refine ⟨C171_sum P _ fd _ _ _ u v w hu hv hw _ _ p q s hp hq hs ?_, ?_⟩
  · rw [own a ha u hu p hp, own b hb v hv q hq, own _ (by simp [ha, hb]) w hw s hs]
  · obtain ⟨t', c, h⟩ := C171_carrier P (.axis t) fd .none tht0
    obtain ⟨a1, -, -, a4⟩ := h _ _ _ hu hp
    obtain ⟨b1, -, -, b4⟩ := h _ _ _ hx hz
    refine ⟨by rw [a1, b1], ?_⟩
    rw [a4, b4, own a ha u hu p hp, own _ (by simp [ha]) x hx z hz, List.zipWith_map_left, List.map_zipWith]
    simp only [mul_assoc]

end

/-- amplitudes 1, 0, 2 and 0, 1/2, -1, their sum, and three times the first -/
example :
    let y := fun a : List ℚ => ((UncalculatedSweep.init (.axis ⟨0, 2, 1⟩) (.array [10, 20, 30]) (.array a)).bind fun u =>
      u.call toyPrims .none 1).map fun s => s.rel.y
    y [1, 0, 2] = .ok [1, 0, 82] ∧ y [0, 1 / 2, -1] = .ok [0, 8, -41] ∧ y [1, 1 / 2, 1] = .ok [1, 8, 41] ∧
    y [3, 0, 6] = .ok [3, 0, 246] := by decide +kernel

end SweepDesign
