import Verif.Props.Dwell

/-!
# C101: what an a-priori sweep is described by
-/

set_option linter.unusedSectionVars false

namespace SweepDesign

open Spec

/-- the a-priori signal and spectrum meant by the data: a spectrum with its signal, a signal with its spectrum, a relation
taken as a spectrum, or samples on the time given -/
def Spec.PriorOf (time : TimeArg ℝ) (data : AprData) (sig : Rel ℝ ℝ) (spec : Rel ℝ ℂ) : Prop :=
  match data with
  | .spectrum s => spec = s ∧ s.getSignal = .ok sig
  | .signal s => sig = s ∧ s.getSpectrum = .ok spec
  | .relation r => spec = r ∧ r.getSignal = .ok sig
  | .array l => sig.getSpectrum = .ok spec ∧
      ((∃ a, time = .axis a ∧ Rel.init (.axis a) (some l) = .ok sig) ∨
        ∃ x isFloat, time = .array x isFloat ∧ Rel.init (.array x isFloat) (some l) = .ok sig)
  | .none => False

theorem aprInfo_ok {time : TimeArg ℝ} {data : AprData} {method : Rel ℝ ℂ → Except Err (List ℝ × List ℝ × List ℝ)}
    {r : InterpArr ℝ × InterpArr ℝ × Rel ℝ ℝ} (h : aprInfo time data method = .ok r) :
    ∃ spec t f a, PriorOf time data r.2.2 spec ∧ method spec = .ok (t, f, a) ∧ r.1 = ⟨t, f⟩ ∧ r.2.1 = ⟨t, a⟩ := by
  simp only [aprInfo, except_bind_eq_ok] at h
  obtain ⟨⟨sig, spec⟩, h1, ⟨t, f, a⟩, h2, h3⟩ := h
  simp only [except_pure, Except.ok.injEq] at h3
  subst h3
  refine ⟨spec, t, f, a, ?_, h2, rfl, rfl⟩
  cases data with
  | spectrum s =>
    simp only [except_bind_eq_ok, except_pure, Except.ok.injEq, Prod.mk.injEq] at h1
    obtain ⟨g, hg, rfl, rfl⟩ := h1
    exact ⟨rfl, hg⟩
  | signal s =>
    simp only [except_bind_eq_ok, except_pure, Except.ok.injEq, Prod.mk.injEq] at h1
    obtain ⟨g, hg, rfl, rfl⟩ := h1
    exact ⟨rfl, hg⟩
  | relation s =>
    simp only [except_bind_eq_ok, except_pure, Except.ok.injEq, Prod.mk.injEq] at h1
    obtain ⟨g, hg, rfl, rfl⟩ := h1
    exact ⟨rfl, hg⟩
  | array l =>
    simp only [except_bind_eq_ok, except_pure, Except.ok.injEq, Prod.mk.injEq] at h1
    obtain ⟨g, hg, sp, hsp, rfl, rfl⟩ := h1
    refine ⟨hsp, ?_⟩
    cases time with
    | none => simp at hg
    | axis a => exact .inl ⟨a, rfl, hg⟩
    | array x b => exact .inr ⟨x, b, rfl, hg⟩
  | none => simp at h1

theorem interpArr_values {t y v : List ℝ} {T : ℝ} {x : Axis ℝ} (hl : t.length = y.length) (h0 : t.head? = some 0)
    (hT : t.getLast? = some T) (ht : t.Pairwise (· < ·)) (hpos : T ≠ 0) (hx : x.start ≠ x.stop)
    (h : (⟨t, y⟩ : InterpArr ℝ).call x = .ok v) :
    ∃ xs, x.array = .ok xs ∧ v.length = xs.length ∧ ∀ i (_ : i < xs.length) (_ : i < v.length),
      IsInterpolant (t.map fun u => x.start + u * ((x.stop - x.start) / T)) y xs[i] v[i] := by
  simp only [InterpArr.call, except_bind_eq_ok, InterpArr.stretch, h0, hT, if_neg hpos, Except.ok.injEq] at h
  obtain ⟨s, rfl, xs, hxs, h⟩ := h
  have hne : t ≠ [] := by rintro rfl; simp at h0
  have e : (t.map fun u => u * ((x.stop - x.start) / T) - 0 + x.start) = t.map fun u => x.start + u * ((x.stop - x.start) / T) :=
    List.map_congr_left fun u _ => by ring
  rw [e] at h
  have hc : (x.stop - x.start) / T ≠ 0 := div_ne_zero (sub_ne_zero.2 hx.symm) hpos
  obtain ⟨ys, g1, g2, g3⟩ := interp1d_spec (t.map fun u => x.start + u * ((x.stop - x.start) / T)) y xs (by simpa using hl)
    (by simpa using hne) (by
      rcases lt_or_gt_of_ne hc with hc | hc
      · exact .inr (List.pairwise_map.2 (ht.imp fun h => by nlinarith))
      · exact .inl (List.pairwise_map.2 (ht.imp fun h => by nlinarith)))
  rw [h, Except.ok.injEq] at g1
  subst g1
  exact ⟨xs, hxs, g2, g3⟩

/-- The a-priori signal and the descriptions come from the data: the method is asked once, for the spectrum of the data, and
what it returned describes the sweep. On the axis of the sweep, `frequency_time` is the piecewise linear function through
the frequencies it returned, and `amplitude_time` the one through the amplitudes, both placed at the returned times
stretched over the axis. -/
theorem C101_described (P : SweepPrims ℝ) {t0 : TimeArg ℝ} {data : AprData}
    {method : Rel ℝ ℂ → Except Err (List ℝ × List ℝ × List ℝ)} {u : AprSweep} (hu : AprSweep.init t0 data method = .ok u)
    {time : TimeArg ℝ} {tht0 : ℝ} {s : Sweep ℝ} (h : u.call P time tht0 false = .ok s) :
    ∃ spec t f a, PriorOf t0 data u.aPrior spec ∧ method spec = .ok (t, f, a) ∧ s.aPriorSignal = some u.aPrior ∧
      ∀ T, t.length = f.length → t.length = a.length → t.head? = some 0 → t.getLast? = some T → t.Pairwise (· < ·) → T ≠ 0 →
        s.rel.x.start ≠ s.rel.x.stop → ∃ xs, s.rel.x.array = .ok xs ∧
          s.frequencyTime.y.length = xs.length ∧ s.amplitudeTime.y.length = xs.length ∧
          (∀ i (_ : i < xs.length) (_ : i < s.frequencyTime.y.length),
            IsInterpolant (t.map fun v => s.rel.x.start + v * ((s.rel.x.stop - s.rel.x.start) / T)) f xs[i] s.frequencyTime.y[i]) ∧
          (∀ i (_ : i < xs.length) (_ : i < s.amplitudeTime.y.length),
            IsInterpolant (t.map fun v => s.rel.x.start + v * ((s.rel.x.stop - s.rel.x.start) / T)) a xs[i] s.amplitudeTime.y[i]) := by
  simp only [AprSweep.init, except_bind_eq_ok] at hu
  obtain ⟨⟨fd, ad, sig⟩, h1, base, h2, h3⟩ := hu
  simp only [except_pure, Except.ok.injEq] at h3
  subst h3
  obtain ⟨spec, t, f, a, p1, p2, p3, p4⟩ := aprInfo_ok h1
  obtain ⟨c1, -, c3, -, c5⟩ := C55_not_normalised P _ time tht0 s h
  obtain ⟨-, e1, e2⟩ := uinit_ok h2
  simp only [extract, Except.ok.injEq] at e1 e2
  simp only [← e1, ← e2, Descr.values] at c1 c3
  dsimp only at p3 p4
  subst p3 p4
  refine ⟨spec, t, f, a, p1, p2, c5, fun T l1 l2 g0 gT gp gn gx => ?_⟩
  obtain ⟨xs, q1, q2, q3⟩ := interpArr_values l1 g0 gT gp gn gx c1
  obtain ⟨xs', r1, r2, r3⟩ := interpArr_values l2 g0 gT gp gn gx c3
  rw [q1, Except.ok.injEq] at r1
  subst r1
  exact ⟨xs, q1, q2, r2, q3, r3⟩

/-- the spectrum 1, 1, 1 on the frequencies 1, 2, 3 with the law of `dwell`: the method returns the times 0, 1/16, 1/8, the
frequencies 1, 2, 3 and the amplitudes 1, 4, 4, and so does the sweep on the times 0, 1/2, 1 -/
example : ∃ u s, AprSweep.init (.axis ⟨0, 1, 1 / 2⟩) (.spectrum ⟨⟨1, 3, 1⟩, [1, 1, 1]⟩) (dwell none none (some 2)) = .ok u ∧
    u.call realPrims .none 0 false = .ok s ∧ s.frequencyTime.y = [1, 2, 3] ∧ s.amplitudeTime.y = [1, 4, 4] := by
  obtain ⟨u, sw, h1, h2, h3, -⟩ := dwell_call
  have hs : u.call realPrims .none 0 false = .ok { sw with aPriorSignal := some u.aPrior } := by
    simp only [AprSweep.call, h2, except_bind_ok, Bool.false_eq_true, if_false, except_pure]
  refine ⟨u, _, h1, hs, ?_⟩
  obtain ⟨spec, t, f, a, ⟨rfl, -⟩, p2, -, p4⟩ := C101_described realPrims h1 hs
  rw [dwell_three] at p2
  simp only [Except.ok.injEq, Prod.mk.injEq] at p2
  obtain ⟨rfl, rfl, rfl⟩ := p2
  obtain ⟨xs, q1, q2, q3, q4, q5⟩ := p4 (1 / 8) rfl rfl rfl rfl (by norm_num) (by norm_num) (by simp only [h3]; norm_num)
  simp only [h3] at q1 q4 q5
  rw [array_three, Except.ok.injEq] at q1
  subst q1
  have e : ([0, 1 / 16, 1 / 8].map fun v : ℝ => 0 + v * ((1 - 0) / (1 / 8))) = [0, 1 / 2, 1] := by norm_num
  rw [e] at q4 q5
  exact ⟨interpolant_self q2 rfl q4, interpolant_self q3 rfl q5⟩

end SweepDesign
