import Verif.Model.Sweep
import Verif.Lemmas.Interp
import Verif.Props.Relation

set_option linter.unusedSectionVars false

/-!
# Lemmas about sweeps
-/

namespace SweepDesign

open Spec

variable {K : Type} [Field K] [LinearOrder K] [IsStrictOrderedRing K] [FloorRing K]

theorem init_axis (x : Axis K) {V : Type} (y : List V) : Rel.init (.axis x) (some y) = Rel.make x y := rfl

theorem sweepInit_ok {P : SweepPrims K} {x : XArg K K} {y : Option (List K)} {f a p : Option (Rel K K)} {s : Sweep K}
    (h : Sweep.init P x y f a p = .ok s) :
    Rel.init x y = .ok s.rel ∧ orDerive f P.getFT s.rel = .ok s.frequencyTime ∧
    orDerive a P.getAT s.rel = .ok s.amplitudeTime ∧
    (∃ d, P.spectrogram s.rel = .ok d ∧ getSpectrogram d = .ok s.spectrogram) ∧ s.aPriorSignal = p := by
  simp only [Sweep.init, except_bind_eq_ok] at h
  obtain ⟨r, h1, ft, h2, at', h3, d, h4, g, h5, h6⟩ := h
  simp only [pure, Except.pure, Except.ok.injEq] at h6
  subst h6
  exact ⟨h1, h2, h3, ⟨d, h4, h5⟩, rfl⟩

theorem npMul_eq {a b : List K} (h : a.length = b.length) : npMul a b = .ok (List.zipWith (· * ·) a b) := by
  unfold npMul; exact if_pos h

/-- everything a successful call computed -/
theorem call_ok {P : SweepPrims K} {u : UncalculatedSweep K} {time : TimeArg K} {tht0 : K} {s : Sweep K}
    (h : u.call P time tht0 = .ok s) :
    ∃ (t : Axis K) (th : List K), u.calcTime time = .ok t ∧ u.frequencyTime.values t = .ok s.frequencyTime.y ∧
      u.amplitudeTime.values t = .ok s.amplitudeTime.y ∧ u.frequencyTime.tht P s.frequencyTime.y t = .ok ⟨t, th⟩ ∧
      t.size = .ok th.length ∧ s.rel.x = t ∧ s.frequencyTime.x = t ∧ s.amplitudeTime.x = t ∧
      s.frequencyTime.y.length = th.length ∧ s.amplitudeTime.y.length = th.length ∧
      s.rel.y = List.zipWith (fun a v => a * P.sin (v + tht0)) s.amplitudeTime.y th ∧ s.aPriorSignal = none := by
  simp only [UncalculatedSweep.call, except_bind_eq_ok] at h
  obtain ⟨t, h1, f, h2, fr, h3, am, h4, th, h5, sw, h6, ar, h7, h8⟩ := h
  obtain ⟨e1, e2, e3, -, e4⟩ := sweepInit_ok h8
  simp only [orDerive, Except.ok.injEq] at e2 e3
  obtain ⟨g1, rfl⟩ := (make_ok_iff _ _ _).1 h3
  obtain ⟨g2, rfl⟩ := (make_ok_iff _ _ _).1 h7
  have hth : t.size = .ok th.y.length ∧ th.x = t := by
    unfold Descr.tht at h5
    split at h5
    · simp only [arrayTht, except_bind_eq_ok] at h5
      obtain ⟨_, -, _, -, h5⟩ := h5
      obtain ⟨g, rfl⟩ := (make_ok_iff _ _ _).1 h5
      exact ⟨g, rfl⟩
    · simp only [funcTht, except_bind_eq_ok] at h5
      obtain ⟨_, -, h5⟩ := h5
      obtain ⟨g, rfl⟩ := (make_ok_iff _ _ _).1 h5
      exact ⟨g, rfl⟩
  obtain ⟨g3, g4⟩ := hth
  have len : ∀ {a b : ℕ}, t.size = .ok a → t.size = .ok b → a = b := by
    intro a b ha hb; rw [ha] at hb; simpa using hb
  obtain ⟨tx, ty⟩ := th
  obtain rfl : tx = t := g4
  rw [npMul_eq (by rw [List.length_map]; exact len g2 g3)] at h6
  simp only [Except.ok.injEq] at h6
  rw [init_axis] at e1
  obtain ⟨g5, e1⟩ := (make_ok_iff _ _ _).1 e1
  rw [← e2, ← e3]
  refine ⟨tx, ty, h1, h2, h4, h5, g3, by rw [e1], rfl, rfl, len g1 g3, len g2 g3, ?_, e4⟩
  rw [e1, ← h6, List.zipWith_map_right]

/-! ### stretching -/

theorem map_affine_spaced {l : List K} {a d : K} {n : ℕ} (h : EvenlySpaced l a d n) (c e : K) :
    EvenlySpaced (l.map fun v => v * c + e) (a * c + e) (d * c) n := by
  refine ⟨by simp [h.1], fun i hi => ?_⟩
  rw [List.getElem_map, h.2 i (by simpa using hi)]
  ring

/-- an `InterpolateArray` whose positions are evenly spaced from zero puts its values evenly over the new axis -/
theorem stretch_spaced {f : InterpArr K} {d : K} {n : ℕ} (hx : EvenlySpaced f.x 0 d n) (hn : 2 ≤ n) (hd : d ≠ 0)
    (t : Axis K) :
    ∃ p, f.stretch t = .ok p ∧ EvenlySpaced p t.start ((t.stop - t.start) / ((n : K) - 1)) n := by
  have h0 := hx.head (by omega)
  have hl := hx.last (by omega)
  have hn1 : ((n : K) - 1) ≠ 0 := by
    have : (2 : K) ≤ n := by exact_mod_cast hn
    intro h; linarith
  have hxl : (0 : K) + ((n : K) - 1) * d ≠ 0 := by rw [zero_add]; exact mul_ne_zero hn1 hd
  have hcast : ((n - 1 : ℕ) : K) = (n : K) - 1 := by push_cast [Nat.cast_sub (by omega : 1 ≤ n)]; ring
  refine ⟨f.x.map fun v => v * ((t.stop - t.start) / (0 + ((n : K) - 1) * d)) - 0 + t.start, ?_, ?_⟩
  · unfold InterpArr.stretch
    rw [h0, hl]
    simp only []
    rw [if_neg hxl]
  · have := map_affine_spaced hx ((t.stop - t.start) / (0 + ((n : K) - 1) * d)) t.start
    simp only [sub_zero, zero_mul, zero_add] at this ⊢
    have e : d * ((t.stop - t.start) / (((n : K) - 1) * d)) = (t.stop - t.start) / ((n : K) - 1) := by
      rw [← mul_div_assoc, mul_comm d, mul_div_mul_right _ _ hd]
    rw [e] at this
    exact this

theorem spaced_monotone {p : List K} {a d : K} {n : ℕ} (h : EvenlySpaced p a d n) (hd : d ≠ 0) :
    p.Pairwise (· < ·) ∨ p.Pairwise (· > ·) := by
  rcases lt_or_gt_of_ne hd with hd | hd
  · exact .inr (h.pairwise_gt hd)
  · exact .inl (h.pairwise_lt hd)

/-- the values of such a description on an axis of positive length are the interpolants of its entries placed evenly over
the axis -/
theorem call_spaced {f : InterpArr K} {d : K} {n : ℕ} (hx : EvenlySpaced f.x 0 d n) (hy : f.y.length = n) (hn : 2 ≤ n)
    (hd : d ≠ 0) (t : Axis K) (hs : t.sample ≠ 0) (ht : t.start ≠ t.stop) :
    ∃ p xs v, EvenlySpaced p t.start ((t.stop - t.start) / ((n : K) - 1)) n ∧ t.array = .ok xs ∧ f.call t = .ok v ∧
      v.length = xs.length ∧
      ∀ i (h : i < xs.length) (h' : i < v.length), IsInterpolant p f.y xs[i] v[i] := by
  obtain ⟨p, h1, h2⟩ := stretch_spaced hx hn hd t
  have hn1 : ((n : K) - 1) ≠ 0 := by
    have : (2 : K) ≤ n := by exact_mod_cast hn
    intro h; linarith
  obtain ⟨v, h3, h4, h5⟩ := interp1d_spec p f.y (linspace t.start t.stop (t.steps + 1)) (by rw [h2.1, hy])
    (by rw [h2.1]; omega) (spaced_monotone h2 (div_ne_zero (sub_ne_zero.2 ht.symm) hn1))
  refine ⟨p, _, v, h2, t.array_eq hs, ?_, h4, h5⟩
  simp only [InterpArr.call, h1, t.array_eq hs, except_bind_ok, h3]

/-- interpolants at the samples are the samples -/
theorem interpolant_self {p y v : List K} (hv : v.length = p.length) (hy : y.length = p.length)
    (h : ∀ i (h : i < p.length) (h' : i < v.length), IsInterpolant p y p[i] v[i]) : v = y := by
  apply List.ext_getElem (by omega)
  intro i h1 h2
  exact (h i (by omega) h1).sample i (by omega) h2 rfl

theorem size_cast_step {a : Axis K} {l : List K} (h : a.array = .ok l) :
    EvenlySpaced l a.start ((a.stop - a.start) / ((l.length : K) - 1)) l.length := by
  have hsp := Axis.array_spaced h
  have := hsp.1
  refine ⟨rfl, fun i hi => ?_⟩
  rw [hsp.2 i hi, this]
  simp [Axis.step]

end SweepDesign
