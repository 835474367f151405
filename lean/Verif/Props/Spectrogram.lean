import Verif.Props.Axis
import Verif.Lemmas.Sweep

set_option linter.unusedSectionVars false

/-!
# C67: axes and image of the spectrogram
-/

namespace SweepDesign

open Spec

variable {K : Type} [Field K] [LinearOrder K] [IsStrictOrderedRing K] [FloorRing K]

theorem getSpectrogram_ok {d : SpectroData K} {g : Spectrogram K} (h : getSpectrogram d = .ok g) :
    g.image = d.image ∧ (∃ l, padAxis d.time = .ok l ∧ axisFromArray l true true = .ok g.time) ∧
    (∃ l, padAxis d.frequency = .ok l ∧ axisFromArray l true true = .ok g.frequency) := by
  simp only [getSpectrogram, except_bind_eq_ok, except_pure, Except.ok.injEq] at h
  obtain ⟨l, h1, m, h2, a, h3, b, h4, rfl⟩ := h
  exact ⟨rfl, ⟨l, h1, h3⟩, ⟨m, h2, h4⟩⟩

theorem padded_size {l p : List K} {a : Axis K} (hl : l.length < 2) (hp : padAxis l = .ok p)
    (ha : axisFromArray p true true = .ok a) : l.length = 1 ∧ a.size = .ok 2 := by
  match l, hl with
  | [], _ => simp [padAxis] at hp
  | [t], _ =>
    simp only [padAxis, List.length_singleton, Nat.one_lt_ofNat, if_true, Except.ok.injEq] at hp
    subst hp
    refine ⟨rfl, ?_⟩
    obtain ⟨r, h1, h2, h3, -⟩ := C05_whole_or_reciprocal [t, t + 1] [(), ()] t 1 2 (1 : K) (by norm_num) (by simp)
      ⟨rfl, by
        intro i h
        match i, h with
        | 0, _ => simp
        | 1, _ => simp⟩ rfl (by norm_num)
    simp only [Rel.init, ha, except_bind_ok] at h1
    obtain ⟨hb, rfl⟩ := (make_ok_iff _ _ _).1 h1
    simpa using hb

/-- **C67** A spectrogram method that returned a single time (frequency): the image is stored as it is, and the time
(frequency) axis has two points. -/
theorem C67_single_entry (d : SpectroData K) (g : Spectrogram K) (h : getSpectrogram d = .ok g) :
    g.image = d.image ∧ (d.time.length = 1 → g.time.size = .ok 2) ∧ (d.frequency.length = 1 → g.frequency.size = .ok 2) := by
  obtain ⟨h1, ⟨l, h2, h3⟩, m, h4, h5⟩ := getSpectrogram_ok h
  exact ⟨h1, fun e => (padded_size (by omega) h2 h3).2, fun e => (padded_size (by omega) h4 h5).2⟩

/-- **C67** If the time (frequency) axis has as many points as the method returned times (frequencies), then there were
at least two of them. -/
theorem C67_at_least_two (d : SpectroData K) (g : Spectrogram K) (h : getSpectrogram d = .ok g) :
    (g.time.size = .ok d.time.length → 2 ≤ d.time.length) ∧
    (g.frequency.size = .ok d.frequency.length → 2 ≤ d.frequency.length) := by
  obtain ⟨-, ⟨l, h2, h3⟩, m, h4, h5⟩ := getSpectrogram_ok h
  constructor
  · intro e
    by_contra hc
    obtain ⟨a, b⟩ := padded_size (by omega) h2 h3
    rw [b, a] at e
    simp at e
  · intro e
    by_contra hc
    obtain ⟨a, b⟩ := padded_size (by omega) h4 h5
    rw [b, a] at e
    simp at e

theorem rounded_size {x : List K} {a d s : K} {n : ℕ} (hx : EvenlySpaced x a d n) (hn : 2 ≤ n) (hd : 0 < d)
    (hs : RoundedStep d s) :
    ∃ ax, axisFromArray x true true = .ok ax ∧ (ax.size = .ok n ↔ NearestEven (((n : K) - 1) * d / s) ((n : ℤ) - 1)) := by
  obtain ⟨h1, h2⟩ := C05_rounded_acceptance x (List.replicate n ()) a d s n hx (by simp) hn hd hs
  by_cases hc : NearestEven (((n : K) - 1) * d / s) ((n : ℤ) - 1)
  · obtain ⟨r, e, -, hr, -⟩ := h1 hc
    simp only [Rel.init, except_bind_eq_ok] at e
    obtain ⟨ax, e1, e2⟩ := e
    obtain ⟨hb, rfl⟩ := (make_ok_iff _ _ _).1 e2
    exact ⟨ax, e1, by simp [hb, hc]⟩
  · obtain ⟨m, hm, e⟩ := h2 hc
    simp only [Rel.init] at e
    match ha : axisFromArray x true true with
    | .error er =>
      obtain ⟨t, ht, -, -⟩ := roundStep_ok hd
      simp [axisFromArray, hx.actualSample hn, bind, Except.bind, hx.head (by omega), hx.last (by omega), pure,
        Except.pure, ht] at ha
    | .ok ax =>
      refine ⟨ax, rfl, ?_⟩
      rw [ha, except_bind_ok] at e
      constructor
      · intro hsz
        rw [make_ok (by simp [hsz])] at e
        simp at e
      · exact fun h => absurd h hc

/-- **C67** At least two evenly spaced times and frequencies: the spectrogram is built, and an axis has as many points as
the method returned positions exactly if the rounded step `s` reproduces that count. -/
theorem C67_two_or_more (d : SpectroData K) (t0 dt st f0 df sf : K) (m k : ℕ) (ht : EvenlySpaced d.time t0 dt m)
    (hm : 2 ≤ m) (hdt : 0 < dt) (hst : RoundedStep dt st) (hf : EvenlySpaced d.frequency f0 df k) (hk : 2 ≤ k) (hdf : 0 < df)
    (hsf : RoundedStep df sf) :
    ∃ g, getSpectrogram d = .ok g ∧ g.image = d.image ∧
      (g.time.size = .ok m ↔ NearestEven (((m : K) - 1) * dt / st) ((m : ℤ) - 1)) ∧
      (g.frequency.size = .ok k ↔ NearestEven (((k : K) - 1) * df / sf) ((k : ℤ) - 1)) := by
  obtain ⟨a, a1, a2⟩ := rounded_size ht hm hdt hst
  obtain ⟨b, b1, b2⟩ := rounded_size hf hk hdf hsf
  refine ⟨⟨a, b, d.image⟩, ?_, rfl, a2, b2⟩
  have e1 : padAxis d.time = .ok d.time := by unfold padAxis; exact if_neg (by rw [ht.1]; omega)
  have e2 : padAxis d.frequency = .ok d.frequency := by unfold padAxis; exact if_neg (by rw [hf.1]; omega)
  simp only [getSpectrogram, e1, e2, a1, b1, except_bind_ok, except_pure]

/-- **C67** Two or more times with the step 0.224 that scipy returns for 0.001-second samples: six times, but the rounded
step 1/4 gives a time axis of five points. -/
theorem C67_rounding_witness :
    (getSpectrogram ⟨[0, 224/1000, 448/1000, 672/1000, 896/1000, 1120/1000], [0, 1], []⟩ : Except Err (Spectrogram ℚ)) =
      .ok ⟨⟨0, 1120/1000, 1/4⟩, ⟨0, 1, 1⟩, []⟩ ∧ (⟨0, 1120/1000, 1/4⟩ : Axis ℚ).size = .ok 5 := by decide +kernel

/-- Contract of the default method: what `scipy.signal.spectrogram(y, fs, nperseg=min(n, 256))` returns for `n` samples
(`sweep_methods.py:276-283`): segments of `nperseg` samples overlapping by `nperseg // 8`; `nperseg // 2 + 1`
frequencies; one image row per frequency, one column per segment. -/
structure Spec.ScipyShape (P : SweepPrims K) : Prop where
  times : ∀ r d, P.spectrogram r = .ok d →
    d.time.length = (r.y.length - min r.y.length 256 / 8) / (min r.y.length 256 - min r.y.length 256 / 8)
  frequencies : ∀ r d, P.spectrogram r = .ok d → d.frequency.length = min r.y.length 256 / 2 + 1
  rows : ∀ r d, P.spectrogram r = .ok d → d.image.length = d.frequency.length
  columns : ∀ r d, P.spectrogram r = .ok d → ∀ row ∈ d.image, row.length = d.time.length

/-- **C67** With the shapes of the default method: every sweep of fewer than 480 samples has a spectrogram image with one
column and a time axis of two points. -/
theorem C67_short_sweeps (P : SweepPrims K) (hP : ScipyShape P) (x : XArg K K) (y : Option (List K))
    (f a p : Option (Rel K K)) (s : Sweep K) (h : Sweep.init P x y f a p = .ok s) (hn : s.rel.y.length < 480) :
    (∀ row ∈ s.spectrogram.image, row.length = 1) ∧ s.spectrogram.image.length = min s.rel.y.length 256 / 2 + 1 ∧
    s.spectrogram.time.size = .ok 2 := by
  simp only [Sweep.init, except_bind_eq_ok, except_pure, Except.ok.injEq] at h
  obtain ⟨r, -, ft, -, at', -, d, hd, g, hg, rfl⟩ := h
  simp only at hn
  have h1 := hP.times r d hd
  obtain ⟨i1, i2, -⟩ := C67_single_entry d g hg
  have hpos : d.time.length ≠ 0 := by
    intro h0
    obtain ⟨-, ⟨l, h2, -⟩, -⟩ := getSpectrogram_ok hg
    rw [List.length_eq_zero_iff.1 h0] at h2
    simp [padAxis] at h2
  have hone : d.time.length = 1 := by
    rcases Nat.lt_or_ge r.y.length 256 with hlt | hge
    · rw [min_eq_left hlt.le] at h1
      rw [h1] at hpos ⊢
      exact Nat.div_self (by rcases Nat.eq_zero_or_pos (r.y.length - r.y.length / 8) with h | h
                             · rw [h] at hpos; simp at hpos
                             · exact h)
    · rw [min_eq_right hge] at h1
      have : (r.y.length - 256 / 8) / (256 - 256 / 8) = 1 := by omega
      omega
  refine ⟨?_, ?_, i2 hone⟩
  · show ∀ row ∈ g.image, row.length = 1
    rw [i1]
    exact fun row hr => (hP.columns r d hd row hr).trans hone
  · show g.image.length = _
    rw [i1, hP.rows r d hd, hP.frequencies r d hd]

/-- one time segment, three frequencies: one column, two points -/
example : (getSpectrogram ⟨[3/2], [0, 1, 2], [[1], [2], [3]]⟩ : Except Err (Spectrogram ℚ)) =
    .ok ⟨⟨3/2, 5/2, 1⟩, ⟨0, 2, 1⟩, [[1], [2], [3]]⟩ ∧ (⟨3/2, 5/2, 1⟩ : Axis ℚ).size = .ok 2 := by decide +kernel

/-- the shape contract is met by a method that returns zeros of the right shape -/
example : ScipyShape (K := ℚ) ⟨id, 3, fun _ _ _ => 0, .ok, .ok, fun r => .ok
    ⟨List.replicate ((r.y.length - min r.y.length 256 / 8) / (min r.y.length 256 - min r.y.length 256 / 8)) 0,
      List.replicate (min r.y.length 256 / 2 + 1) 0,
      List.replicate (min r.y.length 256 / 2 + 1)
        (List.replicate ((r.y.length - min r.y.length 256 / 8) / (min r.y.length 256 - min r.y.length 256 / 8)) 0)⟩⟩ := by
  constructor <;> intro r d h <;> simp only [Except.ok.injEq] at h <;> subst h
  · simp
  · simp
  · simp
  · intro row hr
    simp only [List.mem_replicate] at hr
    simp [hr.2]

end SweepDesign
