import Verif.Heap.Text
import Verif.Props.HeapSharing
import Verif.Props.Axis
import Verif.Lemmas.Spectral

/-!
# C140: printing an axis or a relation, and looking up a complex number
-/

set_option linter.unusedSectionVars false

namespace SweepDesign

open Mem Spec HM

section
variable {K V : Type} {P : Prims K V}

theorem safe_axisStr {X : Ex} (l : Loc) : Safe P X (axisStr P l : HM K V _) :=
  (safe_getAxis l).bind fun _ => (safe_axisSize l).bind fun _ => (safe_axisActual l).bind fun _ => safe_pure _

theorem safe_relStr {X : Ex} (r : Loc) : Safe P X (relStr P r : HM K V _) :=
  (safe_getRel r).bind fun _ => (safe_getY _).bind fun _ => (safe_axisStr _).bind fun _ => safe_pure _

/-- nothing that can be read from the old objects has changed -/
def Spec.nothingChanged (P : Prims K V) (h h' : Heap K V) : Prop :=
  (∀ l a, fieldsAt h l = some a → fieldsAt h' l = some a ∧ arrayAt P h' l = arrayAt P h l ∧
    (axisActual P l h').1 = (axisActual P l h).1) ∧
  (∀ r p, partsAt h r = some p → partsAt h' r = some p) ∧ (∀ r y, yAt h r = some y → yAt h' r = some y) ∧ h'.config = h.config

theorem nothing_of_safe {α : Type} {m : HM K V α} (hm : Safe P ∅ m) {h : Heap K V} (hc : Coh P h) : nothingChanged P h (m h).2 := by
  have w := hm h
  have k := w.1.keep
  refine ⟨fun l a ha => ?_, fun r p hp => ?_, fun r y hry => ?_, w.1.config⟩
  · rw [fieldsAt, Option.map_eq_some_iff] at ha
    obtain ⟨o, ho, rfl⟩ := ha
    obtain ⟨o', ho', e⟩ := k.axes l o ho (Set.notMem_empty _)
    have h1 : o'.start = o.start := congrArg Axis.start e
    have h2 : o'.stop = o.stop := congrArg Axis.stop e
    have h3 : o'.sample = o.sample := congrArg Axis.sample e
    refine ⟨by rw [fieldsAt, ho']; simp [e], ?_, ?_⟩
    · rw [arrayAt, arrayAt, axisValues_run hc ho, axisValues_run (w.2 hc) ho', h1, h2, h3]
    · rw [axisActual_run hc ho, axisActual_run (w.2 hc) ho', h1, h2, h3]
  · rw [partsAt, Option.map_eq_some_iff] at hp
    obtain ⟨o, ho, rfl⟩ := hp
    obtain ⟨o', ho', e⟩ := k.rels r o ho
    rw [partsAt, ho']; simp [e.cls, e.x, e.y]
  · rw [yAt, Option.bind_eq_some_iff] at hry
    obtain ⟨o, ho, hoy⟩ := hry
    obtain ⟨o', ho', e⟩ := k.rels r o ho
    rw [yAt, ho']
    simp only [Option.bind_some, e.y]
    exact k.yarrs _ _ hoy (Set.notMem_empty _)

/-- **C140.** Printing an axis or a relation (whether it returns or raises) changes nothing that can be read later, in any heap with correct
caches. -/
theorem C140_changes_nothing (l : Loc) (h : Heap K V) (hc : Coh P h) :
    nothingChanged P h (axisStr P l h).2 ∧ nothingChanged P h (relStr P l h).2 :=
  ⟨nothing_of_safe (safe_axisStr l) hc, nothing_of_safe (safe_relStr l) hc⟩

end

section
variable {K : Type} [Field K] [LinearOrder K] [IsStrictOrderedRing K] [FloorRing K]
variable {V : Type} [Field V] [Algebra K V] [Star V] [DecidableEq V] [PyPow V]
variable {T : Transcendental K V} {h : Heap K V}

local notation "Pe" => exactPrims T

theorem axisStr_run (hc : Coh Pe h) {l : Loc} {a : Axis K} (ha : fieldsAt h l = some a) :
    (axisStr Pe l h).1 = (do let n ← a.size; let d ← a.actualSample; pure ⟨a.start, a.stop, a.sample, n, d⟩) := by
  rw [fieldsAt, Option.map_eq_some_iff] at ha
  obtain ⟨o, ho, rfl⟩ := ha
  have hsz : (axisSize Pe l h).1 = (Axis.mk o.start o.stop o.sample).size := axisSize_run hc ho
  unfold axisStr
  rw [bind_of_ok (getAxis_run ho)]
  have w := safe_axisSize (P := Pe) (X := ∅) l h
  rcases hs : axisSize Pe l h with ⟨e | n, h1⟩
  · rw [bind_of_error hs]
    rw [hs] at hsz
    show _ = (fields o).size >>= _
    rw [show fields o = Axis.mk o.start o.stop o.sample from rfl, ← hsz]
    rfl
  · rw [bind_of_ok hs]
    rw [hs] at hsz w
    show _ = (fields o).size >>= _
    rw [show fields o = Axis.mk o.start o.stop o.sample from rfl, ← hsz]
    obtain ⟨o', ho', e⟩ := w.1.keep.axes l o ho (Set.notMem_empty _)
    have e1 : o'.start = o.start := congrArg Axis.start e
    have e2 : o'.stop = o.stop := congrArg Axis.stop e
    have e3 : o'.sample = o.sample := congrArg Axis.sample e
    have hact := axisActual_run (w.2 hc) ho'
    rw [e1, e2, e3] at hact
    have hact' : (axisActual Pe l h1).1 = (Axis.mk o.start o.stop o.sample).actualSample := hact
    simp only [except_bind_ok]
    rcases hd : axisActual Pe l h1 with ⟨e | d, h2⟩
    · rw [bind_of_error hd]
      rw [hd] at hact'
      rw [← hact']
      rfl
    · rw [bind_of_ok hd]
      rw [hd] at hact'
      rw [← hact']
      rfl

/-- **C140.** What `str` of an axis shows: the fields, the number of points `n + 1` and the gap between neighbours `(end - start) / n`
(negative for an axis running backwards), where `n` is the rounded number of steps. For an axis of a single point it raises `ValueError` (there is
no gap to take the minimum of), and with a zero sample the exception of a division by zero. -/
theorem C140_axis (hc : Coh Pe h) (l : Loc) (a : Axis K) (ha : fieldsAt h l = some a) :
    (a.sample = 0 → (axisStr Pe l h).1 = .error .zeroDivision) ∧
    (a.sample ≠ 0 → NearestEven |(a.stop - a.start) / a.sample| 0 → (axisStr Pe l h).1 = .error .value) ∧
    (∀ n : ℕ, 0 < n → a.sample ≠ 0 → NearestEven |(a.stop - a.start) / a.sample| n →
      (axisStr Pe l h).1 = .ok ⟨a.start, a.stop, a.sample, n + 1, (a.stop - a.start) / n⟩) := by
  rw [axisStr_run hc ha]
  have hst : ∀ n : ℕ, NearestEven |(a.stop - a.start) / a.sample| n → a.steps = n := by
    intro n hn
    unfold Axis.steps
    rw [(pyRound_eq_iff _ _).2 hn]
    simp
  refine ⟨fun h0 => ?_, fun h0 h1 => ?_, fun n hn h0 h1 => ?_⟩
  · rw [a.size_zero h0]; rfl
  · have hs := hst 0 (by exact_mod_cast h1)
    have ha := a.array_eq h0
    rw [a.size_eq h0, except_bind_ok]
    unfold Axis.actualSample
    have hl : (linspace a.start a.stop (a.steps + 1)).length = 1 := by rw [linspace_length, hs]
    rw [ha]
    obtain ⟨x, hx⟩ := List.length_eq_one_iff.1 hl
    rw [hx]
    rfl
  · have hs := hst n h1
    have ha := a.array_eq h0
    have hsp := Axis.array_spaced ha
    rw [a.size_eq h0, except_bind_ok]
    unfold Axis.actualSample
    rw [ha]
    show (getActualSample _ >>= _) = _
    rw [hsp.actualSample (by omega), except_bind_ok, Axis.step, hs]
    rfl

/-- **C140.** `str` of a relation shows its samples and the text of its axis, and raises what `str` of its axis raises. -/
theorem C140_relation (r l : Loc) (c : Cls) (j : Loc) (y : List V) (hp : partsAt h r = some (c, l, j)) (hy : yAt h r = some y) :
    (relStr Pe r h).1 = (axisStr Pe l h).1.map fun t => (y, t) := by
  rw [partsAt, Option.map_eq_some_iff] at hp
  obtain ⟨o, ho, e⟩ := hp
  simp only [Prod.mk.injEq] at e
  obtain ⟨-, rfl, rfl⟩ := e
  rw [yAt, ho] at hy
  simp only [Option.bind_some] at hy
  unfold relStr
  rw [bind_of_ok (getRel_run ho), bind_of_ok (getY_run hy)]
  rcases hs : axisStr Pe o.x h with ⟨e | t, h1⟩
  · rw [bind_of_error hs]; rfl
  · rw [bind_of_ok hs]; rfl

/-- an axis of four points, one running backwards, and one of a single point -/
example : ((do let l ← axisNew (V := ℚ) 0 1 (3 / 10); axisStr ratPrims l : HM ℚ ℚ _) (emptyHeap ℚ ℚ)).1 = .ok ⟨0, 1, 3 / 10, 4, 1 / 3⟩ := by
  decide +kernel

example : ((do let l ← axisNew (V := ℚ) 1 0 (1 / 2); axisStr ratPrims l : HM ℚ ℚ _) (emptyHeap ℚ ℚ)).1 = .ok ⟨1, 0, 1 / 2, 3, -1 / 2⟩ := by
  decide +kernel

example : ((do let l ← axisNew (V := ℚ) 0 1 4; axisStr ratPrims l : HM ℚ ℚ _) (emptyHeap ℚ ℚ)).1 = .error .value := by
  decide +kernel

end

/-! ## a complex number as an item -/

section
variable {K : Type} [LinearOrder K]

theorem argminFrom_order {α : Type} (f g : α → K) (l : List α) (hfg : ∀ a b, f a < f b ↔ g a < g b) :
    ∀ (i k : ℕ) (b : α), argminFrom i (k, f b) (l.map f) = argminFrom i (k, g b) (l.map g) := by
  induction l with
  | nil => intro i k b; rfl
  | cons a l ih =>
    intro i k b
    simp only [List.map_cons, argminFrom, hfg]
    split
    · exact ih _ _ _
    · exact ih _ _ _

theorem argmin_order {α : Type} (f g : α → K) (l : List α) (hfg : ∀ a b, f a < f b ↔ g a < g b) : argmin (l.map f) = argmin (l.map g) := by
  cases l with
  | nil => rfl
  | cons a l => exact congrArg Except.ok (argminFrom_order f g l hfg 1 0 a)

end

/-- **C140.** `r[z]` for a complex number is `r[Re z]`: the imaginary part has no influence. -/
theorem C140_complex_item {V : Type} (r : Rel ℝ V) (z : ℂ) : r.getItemComplex z = r.getItem z.re := by
  have key : ∀ t u : ℝ, ‖(t : ℂ) - z‖ < ‖(u : ℂ) - z‖ ↔ |t - z.re| < |u - z.re| := by
    intro t u
    rw [← sq_lt_sq₀ (norm_nonneg _) (norm_nonneg _), ← sq_lt_sq, Complex.sq_norm, Complex.sq_norm, Complex.normSq_apply, Complex.normSq_apply]
    simp only [Complex.sub_re, Complex.sub_im, Complex.ofReal_re, Complex.ofReal_im]
    constructor <;> intro h <;> nlinarith
  unfold Rel.getItemComplex Rel.getItem
  rcases r.x.array with e | l
  · rfl
  · simp only [except_bind_ok]
    rw [argmin_order _ (fun t : ℝ => |t - z.re|) l key]
    rcases argmin (l.map fun t : ℝ => |t - z.re|) with e | i
    · rfl
    · simp only [except_bind_ok]
      cases l[i]? <;> cases r.y[i]? <;> rfl

/-- with samples at 0, 1, 2, `r[1.4 + 100j]` is the sample at 1 -/
example : Rel.getItemComplex (V := ℚ) ⟨⟨0, 2, 1⟩, [5, 6, 7]⟩ ⟨7 / 5, 100⟩ = .ok (1, 6) := by
  rw [C140_complex_item]
  unfold Rel.getItem
  rw [show Axis.array (K := ℝ) ⟨0, 2, 1⟩ = .ok [0, 1, 2] by
    rw [array_whole _ 2 (by norm_num) (by norm_num)]; norm_num [List.range_succ]]
  simp only [except_bind_ok]
  have : argmin ([0, 1, 2].map fun t : ℝ => |t - (⟨7 / 5, 100⟩ : ℂ).re|) = .ok 1 := by
    norm_num [argmin, argminFrom, abs_of_neg, abs_of_pos]
  rw [this]
  rfl

end SweepDesign
