import Verif.Props.FloatRoundTrip

/-!
# C157: many small shifts and one large shift in double precision

Shifting a relation step by step adds one rounding to each end per shift. The samples and their number are kept as long as the
accumulated error stays small against the step, but the axis reached is in general not the axis of the one shift by the whole amount,
and arithmetic between the two replaces an end sample by zero.
-/

set_option linter.unusedSectionVars false

namespace SweepDesign

open Spec

section
variable {K : Type} [Field K] [LinearOrder K] [IsStrictOrderedRing K] [FloorRing K]
variable {fl : K → K} {u : K} {n : ℕ} {M : K}

/-- `r.shift(a1).shift(a2)…` in double precision (the shifts of `relation.py:342-356`, one after the other) -/
def Spec.flShifts (fl : K → K) (r : Rel K K) (as : List K) : Except Err (Rel K K) := as.foldlM (fun r a => r.flShift fl a) r

/-- the total length of the way -/
def Spec.way (as : List K) : K := (as.map fun a => |a|).sum

/-! ## Machinery -/

theorem way_nonneg (as : List K) : 0 ≤ way as := by
  unfold way
  exact List.sum_nonneg (by simp only [List.mem_map]; rintro _ ⟨a, -, rfl⟩; exact abs_nonneg a)

theorem sum_le_way (as : List K) : |as.sum| ≤ way as := by
  induction as with
  | nil => simp [way]
  | cons a t ih =>
    have hw : way (a :: t) = |a| + way t := by simp [way]
    rw [hw, List.sum_cons]
    exact (abs_add_le _ _).trans (by linarith)

theorem drift (hfl : RelErr fl u) (as : List K) (p : K) :
    |as.foldl (fun p a => fl (p + a)) p - (p + as.sum)| ≤ ((1 + u) ^ as.length - 1) * (|p| + way as) := by
  have hu := relErr_nonneg hfl
  induction as generalizing p with
  | nil => simp [way]
  | cons a t ih =>
    have h1 := hfl (p + a)
    have h2 := ih (fl (p + a))
    have ht := way_nonneg t
    have hw : way (a :: t) = |a| + way t := by simp [way]
    have hp : |p + a| ≤ |p| + |a| := abs_add_le p a
    have h3 : |fl (p + a)| ≤ (1 + u) * (|p| + |a|) := by
      have e : fl (p + a) = (fl (p + a) - (p + a)) + (p + a) := by ring
      rw [e]
      refine (abs_add_le _ _).trans ?_
      have := mul_le_mul_of_nonneg_left hp (by linarith : 0 ≤ 1 + u)
      linarith
    have hg : 0 ≤ (1 + u) ^ t.length - 1 := by have := one_le_pow_u hu t.length; linarith
    have h4 : |fl (p + a)| + way t ≤ (1 + u) * (|p| + |a| + way t) := by
      have := mul_nonneg hu ht
      linarith
    have h5 := h2.trans (mul_le_mul_of_nonneg_left h4 hg)
    have h6 : u * |p + a| ≤ u * (|p| + |a| + way t) := mul_le_mul_of_nonneg_left (by linarith) hu
    have e : (a :: t).foldl (fun p a => fl (p + a)) p - (p + (a :: t).sum) =
        (t.foldl (fun p a => fl (p + a)) (fl (p + a)) - (fl (p + a) + t.sum)) + (fl (p + a) - (p + a)) := by
      simp only [List.foldl_cons, List.sum_cons]; ring
    rw [e, hw, List.length_cons]
    refine (abs_add_le _ _).trans ((add_le_add h5 (h1.trans h6)).trans (le_of_eq ?_))
    rw [pow_succ]; ring

theorem way_append (as : List K) (a : K) : way (as ++ [a]) = way as + |a| := by simp [way]

/-- the number of shifts is small against `1 / u` -/
theorem few_shifts {x : Axis K} {l y : List K} (h : WellResolved fl u x l n M y) {B : K} (hB : M ≤ B) (k : ℕ)
    (hk : 64 * k * u * B ≤ x.sample) : 2 * (k * u) ≤ 1 := by
  have hs := h.positive
  have hu := relErr_nonneg h.rel
  have hn : (1 : K) ≤ n := by exact_mod_cast h.many
  have b0 := abs_le.1 h.startBound
  have b1 := abs_le.1 h.stopBound
  have f := abs_le.1 h.fits
  have h1 : x.sample ≤ n * x.sample := le_mul_of_one_le_left hs.le hn
  have h2 : x.sample ≤ 3 * B := by linarith [b0.1, b1.2, f.1]
  have hB0 : 0 < B := by linarith
  have h3 : (64 * (k * u)) * B ≤ 3 * B := by
    have e : (64 * (k * u)) * B = 64 * k * u * B := by ring
    rw [e]; exact hk.trans h2
  have := le_of_mul_le_mul_right h3 hB0
  linarith

/-! ## C157 -/

/-- **C157** Shifting by `a1`, then by `a2`, … keeps the samples, the step and the number of points; each end is within
`2 k u B` of its exact place, where `k` is the number of shifts and `B` bounds the ends plus the length of the way. -/
theorem C157_shifts {r : Rel K K} {l : List K} (h : WellResolved fl u r.x l n M r.y)
    (hfit : |r.x.stop - (r.x.start + n * r.x.sample)| ≤ r.x.sample / 16) (as : List K) (B : K) (hB : M + way as ≤ B)
    (ha : 64 * (as.length + 4) * u * B ≤ r.x.sample) :
    ∃ m, flShifts fl r as = .ok m ∧ m.y = r.y ∧ m.x.sample = r.x.sample ∧
      |m.x.start - (r.x.start + as.sum)| ≤ 2 * as.length * u * B ∧ |m.x.stop - (r.x.stop + as.sum)| ≤ 2 * as.length * u * B ∧
      (∃ l', WellResolved fl u m.x l' n (2 * B) m.y) ∧
      ((∀ q, fl (fl q) = fl q) → fl r.x.start = r.x.start → fl m.x.start = m.x.start) := by
  have hs := h.positive
  have hu := relErr_nonneg h.rel
  have hM : 0 ≤ M := (abs_nonneg _).trans h.startBound
  have f := abs_le.1 hfit
  -- the ends after any part of the way
  have ends : ∀ bs : List K, M + way bs ≤ B → bs.length ≤ as.length → ∀ p, |p| ≤ M →
      |bs.foldl (fun p a => fl (p + a)) p - (p + bs.sum)| ≤ 2 * bs.length * u * B := by
    intro bs hb hlen p hp
    have hw := way_nonneg bs
    have hB0 : 0 ≤ B := by linarith
    have hl : (bs.length : K) ≤ as.length := by exact_mod_cast hlen
    have huB : 0 ≤ u * B := mul_nonneg hu hB0
    have hk : 2 * ((bs.length : K) * u) ≤ 1 := by
      refine few_shifts (B := B) h (by linarith) bs.length ?_
      have := mul_le_mul_of_nonneg_right hl huB
      linarith
    have hg := gamma_bound hu bs.length hk
    have hg0 := one_le_pow_u hu bs.length
    refine (drift h.rel bs p).trans ?_
    have h1 : ((1 + u) ^ bs.length - 1) * (|p| + way bs) ≤ ((1 + u) ^ bs.length - 1) * B :=
      mul_le_mul_of_nonneg_left (by linarith) (by linarith)
    have h2 := mul_le_mul_of_nonneg_right hg hB0
    linarith
  have acc : ∀ bs : List K, M + way bs ≤ B → bs.length ≤ as.length →
      flMake fl ⟨bs.foldl (fun p a => fl (p + a)) r.x.start, bs.foldl (fun p a => fl (p + a)) r.x.stop, r.x.sample⟩ r.y =
        .ok (⟨bs.foldl (fun p a => fl (p + a)) r.x.start, bs.foldl (fun p a => fl (p + a)) r.x.stop, r.x.sample⟩, r.y) := by
    intro bs hb hlen
    have hw := way_nonneg bs
    have hB0 : 0 ≤ B := by linarith
    have hl : (bs.length : K) ≤ as.length := by exact_mod_cast hlen
    have huB : 0 ≤ u * B := mul_nonneg hu hB0
    have hm := mul_le_mul_of_nonneg_right hl huB
    have e1 := abs_le.1 (ends bs hb hlen _ h.startBound)
    have e2 := abs_le.1 (ends bs hb hlen _ h.stopBound)
    refine h.accepts _ _ n le_rfl r.y h.values (r.x.sample / 4) ?_ le_rfl
    rw [abs_le]
    constructor <;> linarith [e1.1, e1.2, e2.1, e2.2, f.1, f.2]
  have run : ∀ bs : List K, M + way bs ≤ B → bs.length ≤ as.length → flShifts fl r bs =
      .ok ⟨⟨bs.foldl (fun p a => fl (p + a)) r.x.start, bs.foldl (fun p a => fl (p + a)) r.x.stop, r.x.sample⟩, r.y⟩ := by
    intro bs
    induction bs using List.reverseRecOn with
    | nil => intro _ _; rfl
    | append_singleton bs a ih =>
      intro hb hlen
      have hb' : M + way bs ≤ B := by rw [way_append] at hb; linarith [abs_nonneg a]
      have hlen' : bs.length ≤ as.length := by rw [List.length_append] at hlen; omega
      have hacc := acc (bs ++ [a]) hb hlen
      rw [List.foldl_append, List.foldl_append] at hacc ⊢
      have := ih hb' hlen'
      unfold flShifts at this ⊢
      rw [List.foldlM_append, this, except_bind_ok]
      simp only [List.foldlM_cons, List.foldlM_nil, bind_pure]
      unfold Rel.flShift flRel
      simp only [List.foldl_cons, List.foldl_nil] at hacc ⊢
      show (flMake fl ⟨_, _, _⟩ r.y).map _ = _
      rw [hacc]
      rfl
  have e1 := ends as hB le_rfl _ h.startBound
  have e2 := ends as hB le_rfl _ h.stopBound
  have hw := way_nonneg as
  have hB0 : 0 ≤ B := by linarith
  have huB : 0 ≤ u * B := mul_nonneg hu hB0
  have hk0 : 0 ≤ (as.length : K) * (u * B) := by positivity
  have hsum := sum_le_way as
  have hk : 2 * ((as.length : K) * u) ≤ 1 := few_shifts (B := B) h (by linarith) as.length (by linarith)
  have hkB := mul_le_mul_of_nonneg_right hk hB0
  have bound : ∀ p q : K, |p| ≤ M → |q - (p + as.sum)| ≤ 2 * as.length * u * B → |q| ≤ 2 * B := by
    intro p q hp hq
    have h1 := abs_le.1 hp
    have h2 := abs_le.1 hq
    have h3 := abs_le.1 hsum
    rw [abs_le]
    constructor <;> linarith [h1.1, h1.2, h2.1, h2.2, h3.1, h3.2]
  obtain ⟨l', hl', hlen⟩ := flMake_array (acc as hB le_rfl)
  have g1 := abs_le.1 e1
  have g2 := abs_le.1 e2
  refine ⟨_, run as hB le_rfl, rfl, rfl, e1, e2, ⟨l', h.rel, h.unit, hl', h.many, hlen.trans h.values, h.values,
    bound _ _ h.startBound e1, bound _ _ h.stopBound e2, ?_, ?_, hs⟩, ?_⟩
  · rw [abs_le]
    constructor <;> linarith [g1.1, g1.2, g2.1, g2.2, f.1, f.2]
  · show 128 * u * (2 * B) ≤ r.x.sample
    linarith
  · intro hidem h0
    show fl (as.foldl _ _) = as.foldl _ _
    rcases List.eq_nil_or_concat as with rfl | ⟨bs, a, rfl⟩
    · exact h0
    · rw [List.concat_eq_append, List.foldl_append]
      exact hidem _

/-- **C157** The difference of two relations with the same samples and step whose ends lie within `d` of each other: inside it is
small, but at an end that only one of them reaches it is the whole sample of that one. -/
theorem C157_same_samples {r b : Rel K K} {l1 l2 : List K} (h1 : WellResolved fl u r.x l1 n M r.y)
    (h2 : WellResolved fl u b.x l2 n M b.y) (ey : b.y = r.y) (es : b.x.sample = r.x.sample) (d : K)
    (d1 : |r.x.start - b.x.start| ≤ d) (d2 : |r.x.stop - b.x.stop| ≤ d) (hd : 16 * d ≤ r.x.sample)
    (hf1 : fl r.x.start = r.x.start) (hf2 : fl b.x.start = b.x.start) :
    ∃ q, Rel.flOperation fl false r b .sub = .ok q ∧ q.y.length = n + 1 ∧
      (∀ (p : 0 < q.y.length) (p' : 0 < r.y.length), (r.x.start < b.x.start → q.y[0] = fl r.y[0]) ∧
        (b.x.start < r.x.start → q.y[0] = fl (-r.y[0])) ∧ (b.x.start = r.x.start → q.y[0] = 0)) ∧
      (∀ (p : n < q.y.length) (p' : n < r.y.length), (b.x.stop < r.x.stop → q.y[n] = fl r.y[n]) ∧
        (r.x.stop < b.x.stop → q.y[n] = fl (-r.y[n])) ∧ (b.x.stop = r.x.stop → q.y[n] = 0)) ∧
      ∀ J Y : K, (∀ i (p : i + 1 < r.y.length), |r.y[i + 1] - r.y[i]| ≤ J) → (∀ v ∈ r.y, |v| ≤ Y) →
        ∀ k (_ : 0 < k) (_ : k < n) (p : k < q.y.length),
          |q.y[k]| ≤ 6 * (d + 16 * u * M) / r.x.sample * J + 42 * u * Y := by
  have hs := h1.positive
  have huu := h1.unit
  have hv := h1.values
  obtain ⟨q1, q2, he, x1, x2, n1, n2, f0, fn, i1, i2⟩ := C153_equalize h1 h2 d d1 d2 hd (by rw [es]; exact hd) hf1 hf2
  have hy : List.zipWith (FlOp.sub.fn fl) q1.y q2.y = (List.zipWith (fun s t => fl (s - t)) q1.y q2.y).map some := by
    apply List.ext_getElem (by simp)
    intro i g1 g2
    simp [FlOp.fn]
  have hacc : flMake fl q1.x q1.y = .ok (q1.x, q1.y) := by
    rw [x1, es, min_self]
    refine h1.accepts _ _ n le_rfl q1.y n1 (r.x.sample / 4) ?_ le_rfl
    have f := abs_le.1 h1.fits
    have g1 := abs_le.1 d1
    have g2 := abs_le.1 d2
    rw [abs_le]
    rcases min_cases r.x.start b.x.start with ⟨e, _⟩ | ⟨e, _⟩ <;>
      rcases max_cases r.x.stop b.x.stop with ⟨e', _⟩ | ⟨e', _⟩ <;> rw [e, e'] <;>
        constructor <;> linarith [f.1, f.2, g1.1, g1.2, g2.1, g2.2]
  obtain ⟨xs, hxs, hlen⟩ := flMake_array hacc
  have hz : fl 0 = 0 := fl_zero h1.rel
  refine ⟨⟨q1.x, List.zipWith (fun s t => fl (s - t)) q1.y q2.y⟩, ?_, by simp [n1, n2], ?_, ?_, ?_⟩
  · unfold Rel.flOperation
    rw [he, except_bind_ok]
    simp only [hy, finite_some, except_bind_ok]
    exact flRel_ok hxs (by simp [n1, n2, hlen])
  · intro p p'
    obtain ⟨g1, g2⟩ := f0 (by omega) (by omega) p' (by rw [ey]; exact p')
    simp only [List.getElem_zipWith, g1, g2, ey]
    refine ⟨fun c => ?_, fun c => ?_, fun c => ?_⟩
    · rw [if_pos c.le, if_neg (not_le.2 c), sub_zero]
    · rw [if_neg (not_le.2 c), if_pos c.le, zero_sub]
    · rw [if_pos c.ge, if_pos c.le, sub_self, hz]
  · intro p p'
    obtain ⟨g1, g2⟩ := fn (by omega) (by omega) p' (by rw [ey]; exact p')
    simp only [List.getElem_zipWith, g1, g2, ey]
    refine ⟨fun c => ?_, fun c => ?_, fun c => ?_⟩
    · rw [if_pos c.le, if_neg (not_le.2 c), sub_zero]
    · rw [if_neg (not_le.2 c), if_pos c.le, zero_sub]
    · rw [if_pos c.le, if_pos c.ge, sub_self, hz]
  · intro J Y hJ hY k k0 kn p
    have a1 := i1 J Y hJ hY k k0 kn (by omega) (by omega)
    have a2 := i2 J Y (by simpa only [ey] using hJ) (by simpa only [ey] using hY) k k0 kn (by omega) (by rw [ey]; omega)
    simp only [es, ey] at a2
    simp only [List.getElem_zipWith]
    have e' : 6 * (d + 16 * u * M) / r.x.sample * J + 42 * u * Y = 3 * (2 * (d + 16 * u * M) / r.x.sample * J + 14 * u * Y) := by ring
    rw [e']
    exact difference_small h1.rel huu a1 a2

/-- **C157** One shift by the whole amount minus many shifts by its parts (`c` is the amount as the caller computed it, off by at most
`e`): both succeed, their ends are within `d = (2 k + 1) u B + e` of each other, inside the difference is small, and at an end where they
differ at all it is the whole sample. -/
theorem C157_once {r : Rel K K} {l : List K} (h : WellResolved fl u r.x l n M r.y)
    (hfit : |r.x.stop - (r.x.start + n * r.x.sample)| ≤ r.x.sample / 16) (as : List K) (c B d : K) (hB : M + way as ≤ B)
    (hc : M + |c| ≤ B) (ha : 64 * (as.length + 4) * u * B ≤ r.x.sample) (hd : (2 * as.length + 1) * u * B + |c - as.sum| ≤ d)
    (hd' : 16 * d ≤ r.x.sample) (hidem : ∀ q, fl (fl q) = fl q) (hf : fl r.x.start = r.x.start) :
    ∃ s m q, r.flShift fl c = .ok s ∧ flShifts fl r as = .ok m ∧ |s.x.start - m.x.start| ≤ d ∧ |s.x.stop - m.x.stop| ≤ d ∧
      Rel.flOperation fl false s m .sub = .ok q ∧ q.y.length = n + 1 ∧
      (∀ (p : 0 < q.y.length) (p' : 0 < r.y.length), (s.x.start < m.x.start → q.y[0] = fl r.y[0]) ∧
        (m.x.start < s.x.start → q.y[0] = fl (-r.y[0])) ∧ (m.x.start = s.x.start → q.y[0] = 0)) ∧
      (∀ (p : n < q.y.length) (p' : n < r.y.length), (m.x.stop < s.x.stop → q.y[n] = fl r.y[n]) ∧
        (s.x.stop < m.x.stop → q.y[n] = fl (-r.y[n])) ∧ (m.x.stop = s.x.stop → q.y[n] = 0)) ∧
      (∀ J Y : K, (∀ i (p : i + 1 < r.y.length), |r.y[i + 1] - r.y[i]| ≤ J) → (∀ v ∈ r.y, |v| ≤ Y) →
        ∀ k (_ : 0 < k) (_ : k < n) (p : k < q.y.length),
          |q.y[k]| ≤ 6 * (d + 32 * u * B) / r.x.sample * J + 42 * u * Y) ∧
      (s.x.start < m.x.start ∨ m.x.stop < s.x.stop → Rel.flOperation fl false s m .truediv = .error .nonFinite) ∧
      (m.x.start < s.x.start ∨ s.x.stop < m.x.stop → Rel.flOperation fl false m s .truediv = .error .nonFinite) := by
  have hu := relErr_nonneg h.rel
  have hM : 0 ≤ M := (abs_nonneg _).trans h.startBound
  have hw := way_nonneg as
  have hB0 : 0 ≤ B := by linarith
  have huB : 0 ≤ u * B := mul_nonneg hu hB0
  have hk0 : 0 ≤ (as.length : K) * (u * B) := by positivity
  obtain ⟨m, hm, my, ms, m1, m2, ⟨lm, wm⟩, fm⟩ := C157_shifts h hfit as B hB ha
  obtain ⟨s, hs, sy, ss, s1, s2, ws, fs⟩ : ∃ s, r.flShift fl c = .ok s ∧ s.y = r.y ∧ s.x.sample = r.x.sample ∧
      |s.x.start - (r.x.start + c)| ≤ u * B ∧ |s.x.stop - (r.x.stop + c)| ≤ u * B ∧
      (∃ l', WellResolved fl u s.x l' n (2 * B) s.y) ∧ fl s.x.start = s.x.start := by
    have near : ∀ p, |p| ≤ M → |fl (p + c) - (p + c)| ≤ u * B := fun p hp =>
      (h.rel _).trans (mul_le_mul_of_nonneg_left ((abs_add_le _ _).trans (by linarith)) hu)
    have e1 := near _ h.startBound
    have e2 := near _ h.stopBound
    have g1 := abs_le.1 e1
    have g2 := abs_le.1 e2
    have f := abs_le.1 hfit
    have hacc : flMake fl (r.x.flShift fl c) r.y = .ok (r.x.flShift fl c, r.y) := by
      refine h.accepts _ _ n le_rfl r.y h.values (r.x.sample / 4) ?_ le_rfl
      rw [abs_le]
      constructor <;> linarith [g1.1, g1.2, g2.1, g2.2, f.1, f.2]
    obtain ⟨l', hl', hlen⟩ := flMake_array hacc
    have huB' : u * B ≤ B := by
      have := mul_le_mul_of_nonneg_right h.unit hB0
      linarith
    have bound : ∀ p q : K, |p| ≤ M → |q - (p + c)| ≤ u * B → |q| ≤ 2 * B := by
      intro p q hp hq
      have h1 := abs_le.1 hp
      have h2 := abs_le.1 hq
      have h3 := abs_le.1 (le_refl |c|)
      rw [abs_le]
      constructor <;> linarith [h1.1, h1.2, h2.1, h2.2, h3.1, h3.2]
    refine ⟨⟨r.x.flShift fl c, r.y⟩, ?_, rfl, rfl, e1, e2, ⟨l', h.rel, h.unit, hl', h.many, hlen.trans h.values, h.values,
      bound _ _ h.startBound e1, bound _ _ h.stopBound e2, ?_, ?_, h.positive⟩, hidem _⟩
    · unfold Rel.flShift flRel
      rw [hacc]; rfl
    · simp only [Axis.flShift]
      rw [abs_le]
      constructor <;> linarith [g1.1, g1.2, g2.1, g2.2, f.1, f.2]
    · simp only [Axis.flShift]
      linarith
  obtain ⟨ls, ws⟩ := ws
  have close : ∀ p a b : K, |a - (p + c)| ≤ u * B → |b - (p + as.sum)| ≤ 2 * as.length * u * B → |a - b| ≤ d := by
    intro p a b ha hb
    have h1 := abs_le.1 ha
    have h2 := abs_le.1 hb
    have h3 := abs_le.1 (le_refl |c - as.sum|)
    rw [abs_le]
    constructor <;> linarith [h1.1, h1.2, h2.1, h2.2, h3.1, h3.2]
  have d1 := close _ _ _ s1 m1
  have d2 := close _ _ _ s2 m2
  have fm' := fm hidem hf
  obtain ⟨q, hq, ql, q0, qn, qi⟩ := C157_same_samples ws wm (my.trans sy.symm) (ms.trans ss.symm) d d1 d2 (by rw [ss]; exact hd') fs fm'
  simp only [sy, ss] at q0 qn qi
  have hds : 16 * d ≤ s.x.sample := by rw [ss]; exact hd'
  have hdm : 16 * d ≤ m.x.sample := by rw [ms]; exact hd'
  refine ⟨s, m, q, hs, hm, d1, d2, hq, ql, q0, qn, ?_, ?_, ?_⟩
  · intro J Y hJ hY k k0 kn p
    have := qi J Y hJ hY k k0 kn p
    have e : d + 16 * u * (2 * B) = d + 32 * u * B := by ring
    rwa [e] at this
  · exact fun hend => C153_quotient ws wm d d1 d2 hds hdm fs fm' hend
  · exact fun hend => C153_quotient wm ws d (by rw [abs_sub_comm]; exact d1) (by rw [abs_sub_comm]; exact d2) hdm hds fm' fs hend

end

/-- **C157** Samples 1, 2, 4 at 0, 0.1, 0.2, shifted ten times by 0.1 and once by 1: the ten shifts end one rounding short of 1, so
the difference of the two starts with minus the whole first sample, and the quotient divides by zero. -/
theorem C157_witness : ∃ r s m : Rel ℚ ℚ, r = ⟨⟨0, fl64 (1 / 5), fl64 (1 / 10)⟩, [1, 2, 4]⟩ ∧
    r.flShift fl64 1 = .ok s ∧ flShifts fl64 r (List.replicate 10 (fl64 (1 / 10))) = .ok m ∧ m.y = s.y ∧
    m.x = { s.x with start := 1 - 2 ^ (-53 : ℤ) } ∧ s.x.start = 1 ∧
    Rel.flOperation fl64 false s m .sub = .ok ⟨m.x, [-1, -(5 * 2 ^ (-51 : ℤ)), 0]⟩ ∧
    Rel.flOperation fl64 false m s .truediv = .error .nonFinite := by
  refine ⟨⟨⟨0, fl64 (1 / 5), fl64 (1 / 10)⟩, [1, 2, 4]⟩, ⟨⟨1, fl64 (fl64 (1 / 5) + 1), fl64 (1 / 10)⟩, [1, 2, 4]⟩,
    ⟨⟨1 - 2 ^ (-53 : ℤ), fl64 (fl64 (1 / 5) + 1), fl64 (1 / 10)⟩, [1, 2, 4]⟩, rfl, ?_, ?_, rfl, rfl, rfl, ?_, ?_⟩ <;> decide +kernel

/-! Concrete cases -/

theorem fifth_wellResolved : Spec.WellResolved fl64 (2 ^ (-53 : ℤ)) ⟨0, fl64 (1 / 5), fl64 (1 / 10)⟩
    (flLinspace fl64 0 (fl64 (1 / 5)) 3) 2 (1 / 4) ([1, 2, 4] : List ℚ) where
  rel := fl64_relErr
  unit := by norm_num
  array := by decide +kernel
  many := by norm_num
  points := flLinspace_length _ _ _ _
  values := by simp
  startBound := by decide +kernel
  stopBound := by decide +kernel
  fits := by decide +kernel
  resolved := by decide +kernel
  positive := by decide +kernel

example := C157_shifts (r := ⟨⟨0, fl64 (1 / 5), fl64 (1 / 10)⟩, [1, 2, 4]⟩) fifth_wellResolved (by decide +kernel)
  (List.replicate 10 (fl64 (1 / 10))) (3 / 2) (by decide +kernel) (by decide +kernel)

example := C157_once (r := ⟨⟨0, fl64 (1 / 5), fl64 (1 / 10)⟩, [1, 2, 4]⟩) fifth_wellResolved (by decide +kernel)
  (List.replicate 10 (fl64 (1 / 10))) 1 (3 / 2) (1 / 1000) (by decide +kernel) (by decide +kernel) (by decide +kernel) (by decide +kernel)
  (by decide +kernel) fl64_idem (by decide +kernel)

theorem fifth_later : Spec.WellResolved fl64 (2 ^ (-53 : ℤ)) ⟨1 - 2 ^ (-53 : ℤ), fl64 (fl64 (1 / 5) + 1), fl64 (1 / 10)⟩
    (flLinspace fl64 (1 - 2 ^ (-53 : ℤ)) (fl64 (fl64 (1 / 5) + 1)) 3) 2 2 ([1, 2, 4] : List ℚ) where
  rel := fl64_relErr
  unit := by norm_num
  array := by decide +kernel
  many := by norm_num
  points := flLinspace_length _ _ _ _
  values := by simp
  startBound := by decide +kernel
  stopBound := by decide +kernel
  fits := by decide +kernel
  resolved := by decide +kernel
  positive := by decide +kernel

theorem fifth_moved : Spec.WellResolved fl64 (2 ^ (-53 : ℤ)) ⟨1, fl64 (fl64 (1 / 5) + 1), fl64 (1 / 10)⟩
    (flLinspace fl64 1 (fl64 (fl64 (1 / 5) + 1)) 3) 2 2 ([1, 2, 4] : List ℚ) where
  rel := fl64_relErr
  unit := by norm_num
  array := by decide +kernel
  many := by norm_num
  points := flLinspace_length _ _ _ _
  values := by simp
  startBound := by decide +kernel
  stopBound := by decide +kernel
  fits := by decide +kernel
  resolved := by decide +kernel
  positive := by decide +kernel

example := C157_same_samples (r := ⟨⟨1, fl64 (fl64 (1 / 5) + 1), fl64 (1 / 10)⟩, [1, 2, 4]⟩)
  (b := ⟨⟨1 - 2 ^ (-53 : ℤ), fl64 (fl64 (1 / 5) + 1), fl64 (1 / 10)⟩, [1, 2, 4]⟩) fifth_moved fifth_later rfl rfl (2 ^ (-53 : ℤ))
  (by decide +kernel) (by decide +kernel) (by decide +kernel) (by decide +kernel) (by decide +kernel)

end SweepDesign
