import Verif.Model.SpecialPow
import Verif.Props.SpecialRelations
import Verif.Py.Pow
import Verif.Lemmas.Spectral
import Mathlib.Analysis.SpecialFunctions.Log.Basic
import Mathlib.Analysis.SpecialFunctions.Exp
import Mathlib.Topology.Algebra.Order.LiminfLimsup

/-!
# C143: powers and exponentials of samples with inf and nan

What a special value is, is said here by limits: `inf` stands for numbers that grow beyond all bounds, the two zeros for numbers that tend to
zero from above and from below. A result is right if the results for such numbers tend to it.
-/

set_option linter.unusedSectionVars false

namespace SweepDesign
open Filter Topology

/-- the numbers that a floating point number stands for -/
noncomputable def Spec.near : Ieee ℝ → Filter ℝ
  | .fin v => if v = 0 then 𝓝[>] 0 else 𝓝 v
  | .negZero => 𝓝[<] 0
  | .inf true => atBot
  | .inf false => atTop
  | .nan => ⊤

/-- the absolute value -/
def Spec.absOf : Ieee ℝ → Ieee ℝ
  | .fin v => .fin |v|
  | .negZero => .fin 0
  | .inf _ => .inf false
  | .nan => .nan

/-- `c` is `a ** b`: 1 if the exponent is a zero or the base is 1, whatever the other; nan if, apart from that, one of them is nan or the base is
a negative number and the exponent a number that is not whole; otherwise negative if the base is negative and the exponent odd, with the
absolute value that `|x| ** t` tends to when `x` tends to the base and `t` to the exponent (1 if the base is -1 and the exponent infinite). -/
structure Spec.IsPower (a b c : Ieee ℝ) : Prop where
  zero : b.val = some 0 → c = .fin 1
  one : a.val = some 1 → c = .fin 1
  unit : ∀ s, a.val = some (-1) → b = .inf s → c = .fin 1
  nan : c = .nan ↔ b.val ≠ some 0 ∧ a.val ≠ some 1 ∧
    (a = .nan ∨ b = .nan ∨ ∃ v w, a.val = some v ∧ b.val = some w ∧ v < 0 ∧ ¬ ∃ k : ℤ, w = k)
  sign : c ≠ .nan → (c.neg? = true ↔ a.neg? = true ∧ ∃ k : ℤ, b.val = some (2 * (k : ℝ) + 1))
  limit : c ≠ .nan → a ≠ .nan → b ≠ .nan → b.val ≠ some 0 → ¬ ((∃ v, a.val = some v ∧ |v| = 1) ∧ b.val = none) →
    Tendsto (fun p : ℝ × ℝ => |p.1| ^ p.2) (near a ×ˢ near b) (near (absOf c))

open Spec

/-- what `log |x|` does near a floating point number -/
inductive LogCase (a : Ieee ℝ) : Prop
  | large (h : a.val = none) (t : Tendsto (fun x => Real.log |x|) (near a) atTop) (e : ∀ᶠ x in near a, 0 < |x|)
  | small (h : a.val = some 0) (t : Tendsto (fun x => Real.log |x|) (near a) atBot) (e : ∀ᶠ x in near a, 0 < |x|)
  | middle (v : ℝ) (h : a.val = some v) (hv : v ≠ 0) (t : Tendsto (fun x => Real.log |x|) (near a) (𝓝 (Real.log |v|)))
      (e : ∀ᶠ x in near a, 0 < |x|)

theorem logCase {a : Ieee ℝ} (ha : a ≠ .nan) : LogCase a := by
  have hlog : (fun x : ℝ => Real.log |x|) = Real.log := by funext x; exact Real.log_abs x
  cases a with
  | nan => exact absurd rfl ha
  | inf s =>
    cases s with
    | false =>
      refine .large rfl ?_ ?_
      · rw [hlog]; exact Real.tendsto_log_atTop
      · exact (eventually_gt_atTop 0).mono fun x hx => abs_pos.2 (ne_of_gt hx)
    | true =>
      refine .large rfl (Real.tendsto_log_atTop.comp tendsto_abs_atBot_atTop) ?_
      exact (eventually_lt_atBot 0).mono fun x hx => abs_pos.2 (ne_of_lt hx)
  | negZero =>
    refine .small rfl ?_ ?_
    · rw [hlog]
      exact Real.tendsto_log_nhdsNE_zero.mono_left (nhdsWithin_mono _ fun x hx => ne_of_lt hx)
    · exact eventually_nhdsWithin_of_forall fun x hx => abs_pos.2 (ne_of_lt hx)
  | fin v =>
    by_cases hv : v = 0
    · subst hv
      refine .small rfl ?_ ?_
      · rw [hlog, near, if_pos rfl]
        exact Real.tendsto_log_nhdsNE_zero.mono_left (nhdsWithin_mono _ fun x hx => ne_of_gt hx)
      · rw [near, if_pos rfl]
        exact eventually_nhdsWithin_of_forall fun x hx => abs_pos.2 (ne_of_gt hx)
    · refine .middle v rfl hv ?_ ?_
      · rw [hlog, near, if_neg hv, Real.log_abs]
        exact Real.continuousAt_log hv
      · rw [near, if_neg hv]
        exact (isOpen_ne.eventually_mem hv).mono fun x hx => abs_pos.2 hx

theorem power_limit {a b : Ieee ℝ} (e : ∀ᶠ x in near a, 0 < |x|) {F G : Filter ℝ}
    (h : Tendsto (fun p : ℝ × ℝ => Real.log |p.1| * p.2) (near a ×ˢ near b) F) (hG : Tendsto Real.exp F G) :
    Tendsto (fun p : ℝ × ℝ => |p.1| ^ p.2) (near a ×ˢ near b) G := by
  refine (hG.comp h).congr' ?_
  have : ∀ᶠ p in near a ×ˢ near b, 0 < |p.1| := e.prod_inl _
  exact this.mono fun p hp => (Real.rpow_def_of_pos hp p.2).symm

theorem near_fin_pos {v : ℝ} (h : 0 < v) : near (.fin v) = 𝓝 v := by rw [near, if_neg h.ne']

theorem near_zero : near (.fin 0) = 𝓝[>] 0 := by rw [near, if_pos rfl]

theorem absOf_zero (s : Bool) : absOf (Ieee.zero s) = .fin 0 := by cases s <;> simp [Ieee.zero, absOf]

theorem val_none_cases {b : Ieee ℝ} (h : b.val = none) : b = .nan ∨ ∃ s, b = .inf s := by
  cases b <;> simp_all [Ieee.val]

theorem odd_iff (w : ℝ) : OddWhole w ↔ ∃ k : ℤ, some w = some (2 * (k : ℝ) + 1) := by
  simp [OddWhole]

theorem near_finite {b : Ieee ℝ} {w : ℝ} (h : b.val = some w) (hw : w ≠ 0) : near b = 𝓝 w ∧ b = .fin w := by
  cases b with
  | fin u =>
    simp only [Ieee.val, Option.some.injEq] at h
    subst h
    exact ⟨by rw [near, if_neg hw], rfl⟩
  | negZero => simp only [Ieee.val, Option.some.injEq] at h; exact absurd h.symm hw
  | inf s => simp [Ieee.val] at h
  | nan => simp [Ieee.val] at h

/-- the sign of a power with a whole exponent -/
theorem zpow_neg_iff (v : ℝ) (k : ℤ) : v ^ k < 0 ↔ v < 0 ∧ Odd k := by
  constructor
  · intro h
    rcases Int.even_or_odd k with he | ho
    · exact absurd (he.zpow_nonneg v) (not_le.2 h)
    · refine ⟨?_, ho⟩
      by_contra hn
      exact absurd (zpow_nonneg (not_lt.1 hn) k) (not_le.2 h)
  · rintro ⟨h1, h2⟩
    exact h2.zpow_neg h1

theorem oddWhole_int (k : ℤ) : OddWhole (k : ℝ) ↔ Odd k := by
  constructor
  · rintro ⟨m, hm⟩
    exact ⟨m, by exact_mod_cast hm⟩
  · rintro ⟨m, rfl⟩
    exact ⟨m, by push_cast; ring⟩

/-- the model's power is the power -/
theorem isPower_pow (a b : Ieee ℝ) : IsPower a b (a.pow b) := by
  classical
  by_cases h1 : b.val = some 0 ∨ a.val = some 1
  · have hp : a.pow b = .fin 1 := by rw [Ieee.pow, if_pos h1]
    rw [hp]
    refine ⟨fun _ => rfl, fun _ => rfl, fun _ _ _ => rfl, ⟨fun h => (nomatch h), fun ⟨x, y, _⟩ => ?_⟩, fun _ => ?_, ?_⟩
    · exact absurd h1 (by tauto)
    · constructor
      · intro h
        simp [Ieee.neg?] at h
        linarith
      · rintro ⟨x, k, hk⟩
        exfalso
        rcases h1 with h1 | h1
        · rw [h1] at hk
          have : (0 : ℝ) = 2 * (k : ℝ) + 1 := by simpa using hk
          have : (0 : ℤ) = 2 * k + 1 := by exact_mod_cast this
          omega
        · cases a with
          | fin v =>
            simp only [Ieee.val, Option.some.injEq] at h1
            simp only [Ieee.neg?, decide_eq_true_eq] at x
            linarith
          | negZero => simp [Ieee.val] at h1
          | inf s => simp [Ieee.val] at h1
          | nan => simp [Ieee.val] at h1
    · intro _ ha hb h0 hn
      have hav : a.val = some 1 := by tauto
      obtain ⟨na, ea⟩ := near_finite hav one_ne_zero
      have hbv : b.val ≠ none := fun h => hn ⟨⟨1, hav, by simp⟩, h⟩
      obtain ⟨w, hw⟩ := Option.ne_none_iff_exists'.1 hbv
      have hw0 : w ≠ 0 := fun h => h0 (by rw [hw, h])
      obtain ⟨nb, -⟩ := near_finite hw hw0
      rcases logCase ha with ⟨h, -, -⟩ | ⟨h, -, -⟩ | ⟨v, h, hv, t, e⟩
      · rw [hav] at h; cases h
      · rw [hav] at h; simp at h
      · rw [hav] at h
        cases h
        have hF : Tendsto (fun p : ℝ × ℝ => Real.log |p.1| * p.2) (near a ×ˢ near b) (𝓝 (Real.log |1| * w)) := by
          refine (t.comp tendsto_fst).mul ?_
          rw [nb]
          exact tendsto_snd
        have := power_limit e hF (Real.continuous_exp.tendsto _)
        simp only [abs_one, Real.log_one, zero_mul, Real.exp_zero] at this
        simp only [absOf, abs_one]
        rw [near_fin_pos one_pos]
        exact this
  have hb0 : b.val ≠ some 0 := fun h => h1 (.inl h)
  have ha1 : a.val ≠ some 1 := fun h => h1 (.inr h)
  by_cases h2 : a = .nan ∨ b = .nan
  · have hp : a.pow b = .nan := by rw [Ieee.pow, if_neg h1, if_pos h2]
    rw [hp]
    refine ⟨fun h => absurd h hb0, fun h => absurd h ha1, fun s hs hs' => ?_, ⟨fun _ => ⟨hb0, ha1, by tauto⟩, fun _ => rfl⟩,
      fun h => absurd rfl h, fun h => absurd rfl h⟩
    rcases h2 with rfl | rfl
    · simp [Ieee.val] at hs
    · cases hs'
  have han : a ≠ .nan := fun h => h2 (.inl h)
  have hbn : b ≠ .nan := fun h => h2 (.inr h)
  rcases hbv : b.val with _ | w
  · -- an infinite exponent
    obtain ⟨t, rfl⟩ : ∃ t, b = .inf t := (val_none_cases hbv).resolve_left hbn
    have hodd : ¬ ∃ k : ℤ, (Ieee.inf t : Ieee ℝ).val = some (2 * (k : ℝ) + 1) := by simp [Ieee.val]
    have hnan : ¬ (a = .nan ∨ (Ieee.inf t : Ieee ℝ) = .nan ∨
        ∃ v w, a.val = some v ∧ (Ieee.inf t : Ieee ℝ).val = some w ∧ v < 0 ∧ ¬ ∃ k : ℤ, w = k) := by
      rintro (h | h | ⟨v, w, -, h, -⟩)
      · exact han h
      · cases h
      · simp [Ieee.val] at h
    have key : ∀ c : Ieee ℝ, a.pow (.inf t) = c → c ≠ .nan → c.neg? = false → (∀ v, a.val = some v → |v| = 1 → c = .fin 1) →
        (¬ (∃ v, a.val = some v ∧ |v| = 1) →
          Tendsto (fun p : ℝ × ℝ => |p.1| ^ p.2) (near a ×ˢ near (.inf t)) (near (absOf c))) → IsPower a (.inf t) (a.pow (.inf t)) := by
      intro c hc k1 k2 k3 k4
      rw [hc]
      refine ⟨fun h => absurd h hb0, fun h => absurd h ha1, fun s hs _ => k3 _ hs (by simp), ⟨fun h => absurd h k1, fun h => absurd h.2.2 hnan⟩,
        fun _ => ⟨fun h => ?_, fun h => absurd h.2 hodd⟩, fun _ _ _ _ hn => k4 fun h => hn ⟨h, rfl⟩⟩
      rw [k2] at h
      cases h
    have hsnd : Tendsto (fun p : ℝ × ℝ => p.2) (near a ×ˢ near (.inf t)) (near (.inf t)) := tendsto_snd
    rcases logCase han with ⟨h, l, e⟩ | ⟨h, l, e⟩ | ⟨v, h, hv, l, e⟩
    · have hl := l.comp (tendsto_fst (f := near a) (g := near (.inf t)))
      cases t with
      | false =>
        refine key (.inf false) ?_ (by simp) rfl (by simp [h]) fun _ => ?_
        · rw [Ieee.pow, if_neg h1, if_neg h2]; simp [hbv, h, Ieee.neg?]
        · exact power_limit e (hl.atTop_mul_atTop₀ hsnd) Real.tendsto_exp_atTop
      | true =>
        refine key (.fin 0) ?_ (by simp) (by simp [Ieee.neg?]) (by simp [h]) fun _ => ?_
        · rw [Ieee.pow, if_neg h1, if_neg h2]; simp [hbv, h, Ieee.neg?]
        · simp only [absOf, abs_zero, near_zero]
          exact power_limit e (hl.atTop_mul_atBot₀ hsnd) Real.tendsto_exp_atBot_nhdsGT
    · have hl := l.comp (tendsto_fst (f := near a) (g := near (.inf t)))
      cases t with
      | false =>
        refine key (.fin 0) ?_ (by simp) (by simp [Ieee.neg?]) (by simp [h]) fun _ => ?_
        · rw [Ieee.pow, if_neg h1, if_neg h2]; simp [hbv, h, Ieee.neg?]
        · simp only [absOf, abs_zero, near_zero]
          exact power_limit e (hl.atBot_mul_atTop₀ hsnd) Real.tendsto_exp_atBot_nhdsGT
      | true =>
        refine key (.inf false) ?_ (by simp) rfl (by simp [h]) fun _ => ?_
        · rw [Ieee.pow, if_neg h1, if_neg h2]; simp [hbv, h, Ieee.neg?]
        · exact power_limit e (hl.atBot_mul_atBot₀ hsnd) Real.tendsto_exp_atTop
    · have hl := l.comp (tendsto_fst (f := near a) (g := near (.inf t)))
      by_cases hv1 : |v| = 1
      · refine key (.fin 1) ?_ (by simp) (by simp [Ieee.neg?, zero_le_one]) (fun _ _ _ => rfl) fun hn => absurd ⟨v, h, hv1⟩ hn
        rw [Ieee.pow, if_neg h1, if_neg h2]; simp [hbv, h, hv1]
      · have hun : ∀ u, a.val = some u → |u| = 1 → ∀ c : Ieee ℝ, c = .fin 1 := by
          intro u hu hu1
          rw [h] at hu
          cases hu
          exact absurd hu1 hv1
        rcases lt_or_gt_of_ne hv1 with hlt | hgt
        · have hneg : Real.log |v| < 0 := Real.log_neg (abs_pos.2 hv) hlt
          cases t with
          | false =>
            refine key (.fin 0) ?_ (by simp) (by simp [Ieee.neg?]) (fun u x y => hun u x y _) fun _ => ?_
            · rw [Ieee.pow, if_neg h1, if_neg h2]; simp [hbv, h, Ieee.neg?, hv1, hlt.le]
            · simp only [absOf, abs_zero, near_zero]
              exact power_limit e (hl.neg_mul_atTop hneg hsnd) Real.tendsto_exp_atBot_nhdsGT
          | true =>
            refine key (.inf false) ?_ (by simp) rfl (fun u x y => hun u x y _) fun _ => ?_
            · rw [Ieee.pow, if_neg h1, if_neg h2]; simp [hbv, h, Ieee.neg?, hv1, hlt.le]
            · exact power_limit e (hl.neg_mul_atBot hneg hsnd) Real.tendsto_exp_atTop
        · have hpos : 0 < Real.log |v| := Real.log_pos hgt
          cases t with
          | false =>
            refine key (.inf false) ?_ (by simp) rfl (fun u x y => hun u x y _) fun _ => ?_
            · rw [Ieee.pow, if_neg h1, if_neg h2]; simp [hbv, h, Ieee.neg?, hv1, hgt]
            · exact power_limit e (hl.pos_mul_atTop hpos hsnd) Real.tendsto_exp_atTop
          | true =>
            refine key (.fin 0) ?_ (by simp) (by simp [Ieee.neg?]) (fun u x y => hun u x y _) fun _ => ?_
            · rw [Ieee.pow, if_neg h1, if_neg h2]; simp [hbv, h, Ieee.neg?, hv1, hgt]
            · simp only [absOf, abs_zero, near_zero]
              exact power_limit e (hl.pos_mul_atBot hpos hsnd) Real.tendsto_exp_atBot_nhdsGT
  · -- a finite exponent
    have hw : w ≠ 0 := fun h => hb0 (by rw [hbv, h])
    obtain ⟨nb, eb⟩ := near_finite hbv hw
    have hsnd : Tendsto (fun p : ℝ × ℝ => p.2) (near a ×ˢ near b) (𝓝 w) := nb ▸ tendsto_snd
    have hodd : (∃ k : ℤ, b.val = some (2 * (k : ℝ) + 1)) ↔ OddWhole w := by rw [hbv, odd_iff]
    have hinf : ∀ s, b ≠ .inf s := fun s h => by rw [eb] at h; cases h
    have key : ∀ c : Ieee ℝ, a.pow b = c → (c = .nan ↔ ∃ v, a.val = some v ∧ v < 0 ∧ ¬ ∃ k : ℤ, w = k) →
        (c ≠ .nan → (c.neg? = true ↔ a.neg? = true ∧ OddWhole w)) →
        (c ≠ .nan → Tendsto (fun p : ℝ × ℝ => |p.1| ^ p.2) (near a ×ˢ near b) (near (absOf c))) → IsPower a b (a.pow b) := by
      intro c hc k1 k2 k3
      rw [hc]
      refine ⟨fun h => absurd h hb0, fun h => absurd h ha1, fun s _ hs => absurd hs (hinf s), ⟨fun h => ⟨hb0, ha1, ?_⟩, fun h => k1.2 ?_⟩,
        fun h => ?_, fun h _ _ _ _ => k3 h⟩
      · obtain ⟨v, x, y, z⟩ := k1.1 h
        exact .inr (.inr ⟨v, w, x, hbv, y, z⟩)
      · obtain ⟨-, -, h | h | ⟨v, u, x, y, z1, z2⟩⟩ := h
        · exact absurd h han
        · exact absurd h hbn
        · rw [hbv] at y
          cases y
          exact ⟨v, x, z1, z2⟩
      · rw [hodd]
        exact k2 h
    have hdec : (a.neg? && decide (OddWhole w)) = true ↔ a.neg? = true ∧ OddWhole w := by simp
    rcases logCase han with ⟨h, l, e⟩ | ⟨h, l, e⟩ | ⟨v, h, hv, l, e⟩
    · have hl := l.comp (tendsto_fst (f := near a) (g := near b))
      rcases lt_or_gt_of_ne hw with hneg | hpos
      · refine key (Ieee.zero (a.neg? && decide (OddWhole w))) ?_ ⟨fun h' => absurd h' (zero_ne_nan _), ?_⟩ (fun _ => ?_) fun _ => ?_
        · rw [Ieee.pow, if_neg h1, if_neg h2]; simp [hbv, h, not_lt.2 hneg.le]
        · rintro ⟨v, hv, -⟩; rw [h] at hv; cases hv
        · rw [neg?_zero, hdec]
        · rw [absOf_zero, near_zero]
          exact power_limit e (hl.atTop_mul_neg hneg hsnd) Real.tendsto_exp_atBot_nhdsGT
      · refine key (Ieee.inf (a.neg? && decide (OddWhole w))) ?_ ⟨fun h' => (nomatch h'), ?_⟩ (fun _ => ?_) fun _ => ?_
        · rw [Ieee.pow, if_neg h1, if_neg h2]; simp [hbv, h, hpos]
        · rintro ⟨v, hv, -⟩; rw [h] at hv; cases hv
        · exact hdec
        · exact power_limit e (hl.atTop_mul_pos hpos hsnd) Real.tendsto_exp_atTop
    · have hl := l.comp (tendsto_fst (f := near a) (g := near b))
      rcases lt_or_gt_of_ne hw with hneg | hpos
      · refine key (Ieee.inf (a.neg? && decide (OddWhole w))) ?_ ⟨fun h' => (nomatch h'), ?_⟩ (fun _ => ?_) fun _ => ?_
        · rw [Ieee.pow, if_neg h1, if_neg h2]; simp [hbv, h, not_lt.2 hneg.le]
        · rintro ⟨v, hv, h3, -⟩; rw [h] at hv; cases hv; exact absurd h3 (lt_irrefl _)
        · exact hdec
        · exact power_limit e (hl.atBot_mul_neg hneg hsnd) Real.tendsto_exp_atTop
      · refine key (Ieee.zero (a.neg? && decide (OddWhole w))) ?_ ⟨fun h' => absurd h' (zero_ne_nan _), ?_⟩ (fun _ => ?_) fun _ => ?_
        · rw [Ieee.pow, if_neg h1, if_neg h2]; simp [hbv, h, hpos]
        · rintro ⟨v, hv, h3, -⟩; rw [h] at hv; cases hv; exact absurd h3 (lt_irrefl _)
        · rw [neg?_zero, hdec]
        · rw [absOf_zero, near_zero]
          exact power_limit e (hl.atBot_mul_pos hpos hsnd) Real.tendsto_exp_atBot_nhdsGT
    · have hl := l.comp (tendsto_fst (f := near a) (g := near b))
      have hlim := power_limit e (hl.mul hsnd) (Real.continuous_exp.tendsto _)
      rw [← Real.rpow_def_of_pos (abs_pos.2 hv)] at hlim
      by_cases hbad : v < 0 ∧ ¬ ∃ k : ℤ, w = k
      · refine key .nan ?_ ⟨fun _ => ⟨v, h, hbad⟩, fun _ => rfl⟩ (fun h => absurd rfl h) fun h => absurd rfl h
        rw [Ieee.pow, if_neg h1, if_neg h2]; simp only [hbv, h, hv, if_false]; rw [if_pos hbad]
      · have hsgn : v ^ w < 0 ↔ v < 0 ∧ OddWhole w := by
          by_cases hn : v < 0
          · obtain ⟨k, rfl⟩ : ∃ k : ℤ, w = k := by
              by_contra hk
              exact hbad ⟨hn, hk⟩
            rw [Real.rpow_intCast, oddWhole_int]
            exact zpow_neg_iff v k
          · exact ⟨fun h' => absurd (Real.rpow_nonneg (not_lt.1 hn) w) (not_le.2 h'), fun h' => absurd h'.1 hn⟩
        have habs : |v ^ w| = |v| ^ w := by
          by_cases hn : v < 0
          · obtain ⟨k, rfl⟩ : ∃ k : ℤ, w = k := by
              by_contra hk
              exact hbad ⟨hn, hk⟩
            rw [Real.rpow_intCast, Real.rpow_intCast, abs_zpow]
          · rw [abs_of_nonneg (Real.rpow_nonneg (not_lt.1 hn) w), abs_of_nonneg (not_lt.1 hn)]
        have hne : a.neg? = decide (v < 0) := neg?_of_val h hv
        refine key (.fin (v ^ w)) ?_ ⟨fun h' => (nomatch h'), ?_⟩ (fun _ => ?_) fun _ => ?_
        · rw [Ieee.pow, if_neg h1, if_neg h2]; simp only [hbv, h, hv, if_false]; rw [if_neg hbad]
        · rintro ⟨u, hu, h3⟩
          rw [h] at hu
          cases hu
          exact absurd h3 hbad
        · rw [hne]
          simp only [Ieee.neg?, decide_eq_true_eq]
          exact hsgn
        · rw [absOf, habs, near_fin_pos (Real.rpow_pos_of_pos (abs_pos.2 hv) w)]
          exact hlim

/-! ## `IsPower` leaves no choice -/

theorem near_neBot {a : Ieee ℝ} : (near a).NeBot := by
  cases a with
  | nan => exact (inferInstance : (⊤ : Filter ℝ).NeBot)
  | negZero => exact (inferInstance : (𝓝[<] (0 : ℝ)).NeBot)
  | inf s => cases s <;> (unfold near; infer_instance)
  | fin v => rw [near]; split_ifs <;> infer_instance

theorem near_le {v : ℝ} : near (.fin v) ≤ 𝓝 v := by
  rw [near]
  split_ifs with h
  · rw [h]; exact nhdsWithin_le_nhds
  · exact le_rfl

theorem absOf_cases {c : Ieee ℝ} (h : c ≠ .nan) : (∃ v, absOf c = .fin v) ∨ absOf c = .inf false := by
  cases c <;> simp_all [absOf]

theorem limit_unique {α : Type} {F : Filter α} [F.NeBot] {g : α → ℝ} {c c' : Ieee ℝ} (hc : c ≠ .nan) (hc' : c' ≠ .nan)
    (h : Tendsto g F (near (absOf c))) (h' : Tendsto g F (near (absOf c'))) : absOf c = absOf c' := by
  rcases absOf_cases hc with ⟨v, e⟩ | e <;> rcases absOf_cases hc' with ⟨v', e'⟩ | e' <;> rw [e] at h ⊢ <;> rw [e'] at h' ⊢
  · rw [tendsto_nhds_unique (h.mono_right near_le) (h'.mono_right near_le)]
  · exact absurd (h.mono_right near_le) (not_tendsto_nhds_of_tendsto_atTop h' v)
  · exact absurd (h'.mono_right near_le) (not_tendsto_nhds_of_tendsto_atTop h v')

theorem eq_of_absOf {c c' : Ieee ℝ} (h : absOf c = absOf c') (hs : c.neg? = c'.neg?) : c = c' := by
  cases c with
  | nan => cases c' <;> simp_all [absOf]
  | inf s => cases c' <;> simp_all [absOf, Ieee.neg?]
  | negZero =>
    cases c' with
    | fin v =>
      simp only [absOf, Ieee.fin.injEq] at h
      have hv : v = 0 := abs_eq_zero.1 h.symm
      simp [Ieee.neg?, hv] at hs
    | negZero => rfl
    | inf s => simp [absOf] at h
    | nan => simp [absOf] at h
  | fin v =>
    cases c' with
    | fin w =>
      simp only [absOf, Ieee.fin.injEq, Ieee.neg?, decide_eq_decide] at h hs
      congr 1
      rcases abs_eq_abs.1 h with h | h
      · exact h
      · rcases lt_trichotomy v 0 with hv | hv | hv
        · have := hs.1 hv; linarith
        · rw [hv] at h ⊢; linarith
        · have : w < 0 := by linarith
          have := hs.2 this
          linarith
    | negZero =>
      simp only [absOf, Ieee.fin.injEq] at h
      have hv : v = 0 := abs_eq_zero.1 h
      simp [Ieee.neg?, hv] at hs
    | inf s => simp [absOf] at h
    | nan => simp [absOf] at h

/-- **C143.** There is only one power: what `IsPower` says determines the result. -/
theorem C143_unique {a b c c' : Ieee ℝ} (h : IsPower a b c) (h' : IsPower a b c') : c = c' := by
  by_cases h0 : b.val = some 0
  · rw [h.zero h0, h'.zero h0]
  by_cases h1 : a.val = some 1
  · rw [h.one h1, h'.one h1]
  by_cases hn : c = .nan
  · rw [hn, h'.nan.2 (h.nan.1 hn)]
  have hn' : c' ≠ .nan := fun e => hn (h.nan.2 (h'.nan.1 e))
  have ha : a ≠ .nan := fun e => hn (h.nan.2 ⟨h0, h1, .inl e⟩)
  have hb : b ≠ .nan := fun e => hn (h.nan.2 ⟨h0, h1, .inr (.inl e)⟩)
  have hs : c.neg? = c'.neg? := by
    have := (h.sign hn).trans (h'.sign hn').symm
    rwa [Bool.eq_iff_iff]
  by_cases hu : (∃ v, a.val = some v ∧ |v| = 1) ∧ b.val = none
  · obtain ⟨⟨v, hv, hv1⟩, hbn⟩ := hu
    obtain ⟨t, rfl⟩ := (val_none_cases hbn).resolve_left hb
    have : v = -1 := by
      rcases eq_or_eq_neg_of_abs_eq hv1 with e | e
      · rw [e] at hv; exact absurd hv h1
      · exact e
    rw [this] at hv
    rw [h.unit t hv rfl, h'.unit t hv rfl]
  · have n1 : (near a).NeBot := near_neBot
    have n2 : (near b).NeBot := near_neBot
    exact eq_of_absOf (limit_unique hn hn' (h.limit hn ha hb h0 hu) (h'.limit hn' ha hb h0 hu)) hs

/-! ## The short cuts of numpy -/

theorem oddWhole_one : OddWhole 1 := ⟨0, by simp⟩
theorem oddWhole_neg_one : OddWhole (-1) := ⟨-1, by push_cast; ring⟩
theorem not_oddWhole_two : ¬ OddWhole 2 := by
  rintro ⟨k, hk⟩
  have : (2 : ℤ) = 2 * k + 1 := by exact_mod_cast hk
  omega
theorem not_whole_half : ¬ ∃ k : ℤ, (1 / 2 : ℝ) = k := by
  rintro ⟨k, hk⟩
  have : (1 : ℝ) = 2 * k := by linarith
  have : (1 : ℤ) = 2 * k := by exact_mod_cast this
  omega
theorem not_oddWhole_half : ¬ OddWhole (1 / 2) := by
  rintro ⟨k, hk⟩
  exact not_whole_half ⟨2 * k + 1, by push_cast; exact hk⟩

/-- the two samples whose root is not their power 1/2 -/
theorem sqrt_eq {a : Ieee ℝ} (h1 : a ≠ .negZero) (h2 : a ≠ .inf true) : a.sqrt = a.pow (.fin (1 / 2)) := by
  cases a with
  | nan => simp [Ieee.sqrt, Ieee.pow, Ieee.val]
  | negZero => exact absurd rfl h1
  | inf s =>
    cases s with
    | true => exact absurd rfl h2
    | false => simp [Ieee.sqrt, Ieee.pow, Ieee.val, Ieee.neg?]
  | fin v =>
    have hw := not_whole_half
    by_cases hv : v = 1
    · subst hv; simp [Ieee.sqrt, Ieee.pow, Ieee.val, not_lt.2 zero_le_one]
    by_cases h0 : v = 0
    · subst h0; simp [Ieee.sqrt, Ieee.pow, Ieee.val, Ieee.neg?, Ieee.zero]
    have : ¬ ((Ieee.fin (1 / 2 : ℝ)).val = some 0 ∨ (Ieee.fin v).val = some 1) := by simp [Ieee.val, hv]
    rw [Ieee.pow, if_neg this, if_neg (by simp)]
    simp only [Ieee.val, h0, if_false, Ieee.sqrt]
    by_cases hn : v < 0
    · rw [if_pos hn, if_pos ⟨hn, hw⟩]
    · rw [if_neg hn, if_neg (fun h => hn h.1), Real.sqrt_eq_rpow]

theorem pow_one' (a : Ieee ℝ) : a.pow (.fin 1) = a := by
  cases a with
  | nan => simp [Ieee.pow, Ieee.val]
  | negZero => simp [Ieee.pow, Ieee.val, Ieee.neg?, oddWhole_one, Ieee.zero]
  | inf s => cases s <;> simp [Ieee.pow, Ieee.val, Ieee.neg?, oddWhole_one]
  | fin v =>
    by_cases hv : v = 1
    · subst hv; simp [Ieee.pow, Ieee.val]
    by_cases h0 : v = 0
    · subst h0; simp [Ieee.pow, Ieee.val, Ieee.neg?, Ieee.zero]
    have hk : ∃ k : ℤ, (1 : ℝ) = k := ⟨1, by simp⟩
    simp [Ieee.pow, Ieee.val, hv, h0, hk]

theorem pow_neg_one (a : Ieee ℝ) : a.pow (.fin (-1)) = (Ieee.fin 1).div a := by
  have hm : ¬ ((0 : ℝ) < -1) := by norm_num
  cases a with
  | nan => simp [Ieee.pow, Ieee.val, Ieee.div]
  | negZero => simp [Ieee.pow, Ieee.val, Ieee.neg?, oddWhole_neg_one, Ieee.div, hm, not_lt.2 zero_le_one]
  | inf s =>
    cases s <;>
      simp [Ieee.pow, Ieee.val, Ieee.neg?, oddWhole_neg_one, Ieee.div, Ieee.zero, hm, not_lt.2 zero_le_one]
  | fin v =>
    by_cases hv : v = 1
    · subst hv; simp [Ieee.pow, Ieee.val, Ieee.div, Ieee.ofVal]
    by_cases h0 : v = 0
    · subst h0; simp [Ieee.pow, Ieee.val, Ieee.neg?, Ieee.div, hm, not_lt.2 zero_le_one]
    have hk : ∃ k : ℤ, (-1 : ℝ) = k := ⟨-1, by simp⟩
    simp [Ieee.pow, Ieee.val, hv, h0, hk, Ieee.div, Ieee.ofVal, Real.rpow_neg_one]

theorem pow_two' (a : Ieee ℝ) : a.pow (.fin 2) = a.mul a := by
  cases a with
  | nan => simp [Ieee.pow, Ieee.val, Ieee.mul]
  | negZero => simp [Ieee.pow, Ieee.val, Ieee.neg?, not_oddWhole_two, Ieee.mul, Ieee.ofVal]
  | inf s => cases s <;> simp [Ieee.pow, Ieee.val, Ieee.neg?, not_oddWhole_two, Ieee.mul]
  | fin v =>
    by_cases hv : v = 1
    · subst hv; simp [Ieee.pow, Ieee.val, Ieee.mul, Ieee.ofVal]
    by_cases h0 : v = 0
    · subst h0; simp [Ieee.pow, Ieee.val, Ieee.neg?, Ieee.mul, Ieee.ofVal]
    have hk : ∃ k : ℤ, (2 : ℝ) = k := ⟨2, by simp⟩
    simp [Ieee.pow, Ieee.val, hv, h0, hk, Ieee.mul, Ieee.ofVal, pow_two]

/-- the short cuts give the power, except the root of the two samples -/
theorem powNum_eq {a c : Ieee ℝ} (h : ¬ (c = .fin (1 / 2) ∧ (a = .negZero ∨ a = .inf true))) : a.powNum c = a.pow c := by
  unfold Ieee.powNum
  split_ifs with h1 h2 h3 h4 h5
  · rw [h1, pow_one']
  · rw [h2, pow_neg_one]
  · rw [Ieee.pow, if_pos (.inl h3)]
  · rw [h4]
    exact sqrt_eq (fun e => h ⟨h4, .inl e⟩) fun e => h ⟨h4, .inr e⟩
  · rw [h5, pow_two']
  · rfl

/-- what `r ** c` puts in the place of a sample: the power, except that the root of -0 is -0 and that of -inf is nan -/
def Spec.IsPowerNum (a b c : Ieee ℝ) : Prop :=
  if b = .fin (1 / 2) ∧ a = .negZero then c = .negZero
  else if b = .fin (1 / 2) ∧ a = .inf true then c = .nan
  else IsPower a b c

theorem isPowerNum (a c : Ieee ℝ) : IsPowerNum a c (a.powNum c) := by
  have hn : (Ieee.fin (1 / 2) : Ieee ℝ) ≠ .fin 1 := by simp
  have hn' : (Ieee.fin (1 / 2) : Ieee ℝ) ≠ .fin (-1) := by simp; norm_num
  have hn0 : (Ieee.fin (1 / 2) : Ieee ℝ).val ≠ some 0 := by simp [Ieee.val]
  unfold IsPowerNum
  split_ifs with h1 h2
  · obtain ⟨rfl, rfl⟩ := h1
    rw [Ieee.powNum, if_neg hn, if_neg hn', if_neg hn0, if_pos rfl]
    rfl
  · obtain ⟨rfl, rfl⟩ := h2
    rw [Ieee.powNum, if_neg hn, if_neg hn', if_neg hn0, if_pos rfl]
    rfl
  · rw [powNum_eq (by tauto)]
    exact isPower_pow a c

/-! ## Relations -/

/-- **C143.** A relation raised to a number, which may itself be special, raises nothing: every sample is the power, except that the
root of -0 is -0 and that of -inf is nan. -/
theorem C143_number (a : ERel ℝ) (ha : Sized a) (c : Ieee ℝ) :
    ∃ f, a.powNum c = .ok f ∧ f.x = a.x ∧ f.y.length = a.y.length ∧
      ∀ i (h : i < f.y.length) (h1 : i < a.y.length), IsPowerNum a.y[i] c f.y[i] := by
  refine ⟨⟨a.x, a.y.map fun v => v.powNum c⟩, ?_, rfl, by simp, ?_⟩
  · apply eMake_ok
    rw [ha]
    simp
  · intro i h h1
    simp only [List.getElem_map]
    exact isPowerNum _ _

/-- **C143.** A number raised to a relation. -/
theorem C143_base (a : ERel ℝ) (ha : Sized a) (c : Ieee ℝ) :
    ∃ f, a.rpowNum c = .ok f ∧ f.x = a.x ∧ f.y.length = a.y.length ∧
      ∀ i (h : i < f.y.length) (h1 : i < a.y.length), IsPower c a.y[i] f.y[i] := by
  refine ⟨⟨a.x, a.y.map fun v => c.pow v⟩, ?_, rfl, by simp, ?_⟩
  · apply eMake_ok
    rw [ha]
    simp
  · intro i h h1
    simp only [List.getElem_map]
    exact isPower_pow _ _

/-- base and exponent of the two operators -/
def Spec.IsPowerOf (reflected : Bool) (a b c : Ieee ℝ) : Prop := if reflected then IsPower b a c else IsPower a b c

theorem isPowerOf (reflected : Bool) (a b : Ieee ℝ) :
    IsPowerOf reflected a b (if reflected then b.pow a else a.pow b) := by
  unfold IsPowerOf
  cases reflected
  · exact isPower_pow a b
  · exact isPower_pow b a

theorem ieeePowers_ok (reflected : Bool) {a b : List (Ieee ℝ)} (h : a.length = b.length) :
    ieeePowers reflected a b = .ok (List.zipWith (fun x y => if reflected then y.pow x else x.pow y) a b) := by
  unfold ieeePowers
  dsimp only
  rw [if_pos h]

/-- **C143.** A relation raised to a relation on an equal axis. -/
theorem C143_same_axis (reflected same : Bool) (a b : ERel ℝ) (ha : Sized a) (hb : Sized b) (hx : a.x = b.x) :
    ∃ f, ERel.powRel reflected same a b = .ok f ∧ f.x = a.x ∧ f.y.length = a.y.length ∧
      ∀ i (h : i < f.y.length) (h1 : i < a.y.length) (h2 : i < b.y.length), IsPowerOf reflected a.y[i] b.y[i] f.y[i] := by
  have hl : a.y.length = b.y.length := by
    unfold Sized at ha hb
    rw [hx, hb] at ha
    simpa using ha.symm
  refine ⟨⟨a.x, List.zipWith (fun x y => if reflected then y.pow x else x.pow y) a.y b.y⟩, ?_, rfl, by simp [hl], ?_⟩
  · simp only [ERel.powRel, eEqualize_same same a b ha hb hx, except_bind_ok, ieeePowers_ok reflected hl]
    apply eMake_ok
    rw [ha]
    simp [hl]
  · intro i h h1 h2
    simp only [List.getElem_zipWith]
    exact isPowerOf _ _ _

/-- **C143.** A relation raised to a relation on another axis: both are interpolated on the common axis first. -/
theorem C143_other_axes (reflected : Bool) (a b : ERel ℝ) (ha : Sized a) (hb : Sized b) :
    ∃ f xs la lb, ERel.powRel reflected false a b = .ok f ∧ f.x = commonX a.x b.x ∧ f.x.array = .ok xs ∧
      f.y.length = xs.length ∧ a.x.array = .ok la ∧ b.x.array = .ok lb ∧
      ∀ i (h : i < xs.length) (h' : i < f.y.length), ∃ c d, Between la a.y xs[i] c ∧ Between lb b.y xs[i] d ∧
        IsPowerOf reflected c d f.y[i] := by
  obtain ⟨q1, q2, xs, la, lb, e1, e2, e3, e4, e5, e6, e7, e8, e9⟩ := eEqualize_spec a b ha hb
  refine ⟨⟨commonX a.x b.x, List.zipWith (fun x y => if reflected then y.pow x else x.pow y) q1.y q2.y⟩, xs, la, lb, ?_, rfl,
    e6, by simp [e7, e8], e4, e5, ?_⟩
  · simp only [ERel.powRel, e1, except_bind_ok, ieeePowers_ok reflected (e7.trans e8.symm), e2]
    apply eMake_ok
    rw [Axis.size_of_array e6]
    simp [e7, e8]
  · intro i h h'
    have := e9 i h (by omega) (by omega)
    refine ⟨_, _, this.1, this.2, ?_⟩
    simp only [List.getElem_zipWith]
    exact isPowerOf _ _ _

/-- `c` is the exponential of `a`: nan for nan, otherwise what the exponential of the numbers near `a` tends to -/
def Spec.IsExp (a c : Ieee ℝ) : Prop :=
  (c = .nan ↔ a = .nan) ∧ (a ≠ .nan → c.neg? = false ∧ Tendsto Real.exp (near a) (near c))

theorem isExp_exp (a : Ieee ℝ) : IsExp a a.exp := by
  cases a with
  | nan => exact ⟨by simp [Ieee.exp], fun h => absurd rfl h⟩
  | negZero =>
    refine ⟨by simp [Ieee.exp], fun _ => ⟨by simp [Ieee.exp, Ieee.neg?, zero_le_one], ?_⟩⟩
    rw [Ieee.exp, near_fin_pos one_pos]
    have := Real.continuous_exp.tendsto 0
    rw [Real.exp_zero] at this
    exact this.mono_left nhdsWithin_le_nhds
  | inf s =>
    cases s with
    | false => exact ⟨by simp [Ieee.exp], fun _ => ⟨by simp [Ieee.exp, Ieee.neg?], Real.tendsto_exp_atTop⟩⟩
    | true =>
      refine ⟨by simp [Ieee.exp], fun _ => ⟨by simp [Ieee.exp, Ieee.neg?], ?_⟩⟩
      rw [Ieee.exp, if_pos rfl, near_zero]
      exact Real.tendsto_exp_atBot_nhdsGT
  | fin v =>
    refine ⟨by simp [Ieee.exp], fun _ => ⟨by simp [Ieee.exp, Ieee.neg?, (Real.exp_pos v).le], ?_⟩⟩
    rw [Ieee.exp, near_fin_pos (Real.exp_pos v)]
    refine (Real.continuous_exp.tendsto v).mono_left ?_
    rw [near]
    split_ifs with h
    · rw [h]; exact nhdsWithin_le_nhds
    · exact le_rfl

/-- **C143.** `exp` raises nothing. -/
theorem C143_exp (a : ERel ℝ) (ha : Sized a) :
    ∃ f, a.exp = .ok f ∧ f.x = a.x ∧ f.y.length = a.y.length ∧
      ∀ i (h : i < f.y.length) (h1 : i < a.y.length), IsExp a.y[i] f.y[i] := by
  refine ⟨⟨a.x, a.y.map Ieee.exp⟩, ?_, rfl, by simp, ?_⟩
  · apply eMake_ok
    rw [ha]
    simp
  · intro i h h1
    simp only [List.getElem_map]
    exact isExp_exp _

/-! ## Comparison with the model that stops at special values -/

theorem pow_val {a b : Ieee ℝ} {v w : ℝ} (ha : a.val = some v) (hb : b.val = some w) :
    (a.pow b).val = PyPow.ppow v w := by
  have han : a ≠ .nan := fun h => by rw [h] at ha; cases ha
  have hbn : b ≠ .nan := fun h => by rw [h] at hb; cases hb
  by_cases h1 : b.val = some 0 ∨ a.val = some 1
  · rw [Ieee.pow, if_pos h1]
    rw [ha, hb] at h1
    simp only [Option.some.injEq] at h1
    rcases h1 with rfl | rfl
    · have : ¬ ((v = 0 ∧ (0 : ℝ) < 0) ∨ (v < 0 ∧ ¬ ∃ k : ℤ, (k : ℝ) = 0)) := by
        rintro (⟨-, h⟩ | ⟨-, h⟩)
        · exact lt_irrefl _ h
        · exact h ⟨0, by simp⟩
      simp only [PyPow.ppow]
      rw [if_neg this]
      simp [Ieee.val]
    · simp [PyPow.ppow, Ieee.val, not_lt.2 zero_le_one]
  rw [Ieee.pow, if_neg h1, if_neg (by tauto)]
  rw [ha, hb] at h1 ⊢
  simp only [Option.some.injEq, not_or] at h1
  simp only [PyPow.ppow]
  by_cases hv : v = 0
  · subst hv
    rcases lt_or_gt_of_ne h1.1 with hn | hp
    · simp [hn, not_lt.2 hn.le, Ieee.val]
    · simp [hp, not_lt.2 hp.le, val_zero, Real.zero_rpow h1.1]
  · by_cases hk : ∃ k : ℤ, w = k
    · have hk' : ∃ k : ℤ, (k : ℝ) = w := by obtain ⟨k, hk⟩ := hk; exact ⟨k, hk.symm⟩
      simp [hv, hk, hk', Ieee.val]
    · have hk' : ¬ ∃ k : ℤ, (k : ℝ) = w := fun ⟨k, hk'⟩ => hk ⟨k, hk'.symm⟩
      by_cases hn : v < 0
      · have c1 : v < 0 ∧ ¬ ∃ k : ℤ, w = k := ⟨hn, hk⟩
        simp only [hv, if_false, false_and, false_or]
        rw [if_pos c1, if_pos (.inr ⟨hn, hk'⟩)]
        rfl
      · simp [hv, hn, Ieee.val]

theorem powNum_val {a c : Ieee ℝ} {v w : ℝ} (ha : a.val = some v) (hc : c.val = some w) :
    (a.powNum c).val = PyPow.ppow v w := by
  by_cases h : c = .fin (1 / 2) ∧ (a = .negZero ∨ a = .inf true)
  · obtain ⟨rfl, rfl | rfl⟩ := h
    · have h1 := isPowerNum .negZero (.fin (1 / 2))
      rw [IsPowerNum, if_pos ⟨rfl, rfl⟩] at h1
      rw [h1]
      simp only [Ieee.val, Option.some.injEq] at ha hc ⊢
      subst ha hc
      simp [PyPow.ppow]
    · simp [Ieee.val] at ha
  · rw [powNum_eq h]
    exact pow_val ha hc

theorem goes_collect {x : Axis ℝ} {y : List (Ieee ℝ)} {z : List (Option ℝ)} (h : y.map Ieee.val = z)
    (hs : x.size = .ok y.length) : Goes (ERel.make x y) (finite z >>= Rel.make x) := by
  have hm : ERel.make x y = .ok ⟨x, y⟩ := eMake_ok hs
  cases hf : finite z with
  | ok l =>
    exact make_reads (h.trans ((finite_ok_iff _ _).1 hf))
  | error e =>
    unfold finite at hf
    cases hn : z.mapM id with
    | some l => rw [hn] at hf; cases hf
    | none =>
      rw [hn] at hf
      cases hf
      refine ⟨fun q hq => by simp [Bind.bind, Except.bind] at hq, fun _ => ⟨_, hm, ?_⟩, fun k hk hk' => ?_⟩
      · have := (mapM_id_eq_none _).1 hn
        rw [← h] at this
        obtain ⟨s, h1, h2⟩ := List.mem_map.1 this
        exact ⟨s, h1, h2⟩
      · simp only [Bind.bind, Except.bind, Except.error.injEq] at hk
        exact absurd hk.symm hk'

theorem map_reads {f : Ieee ℝ → Ieee ℝ} {g : ℝ → Option ℝ} (hf : ∀ a v, a.val = some v → (f a).val = g v) {y : List (Ieee ℝ)}
    {z : List ℝ} (h : y.map Ieee.val = z.map some) : (y.map f).map Ieee.val = z.map g := by
  have hl : y.length = z.length := by simpa using congrArg List.length h
  refine List.ext_getElem (by simp [hl]) fun i h1 h2 => ?_
  simp only [List.getElem_map]
  exact hf _ _ (val_of_map h i (by simpa using h1) (by simpa using h2))

/-- **C143.** With finite samples and a finite number: the result of the finite model (C142), and where that stops, a result with a sample that
is not finite. -/
theorem C143_agrees_number {a : ERel ℝ} {r : Rel ℝ ℝ} (ha : Reads a r) (hr : Balanced r) {c : Ieee ℝ} {v : ℝ} (hc : c.val = some v) :
    Goes (a.powNum c) (r.pow (.other (.num v))) ∧ Goes (a.rpowNum c) (r.rpow (.other (.num v))) := by
  have la : a.y.length = r.y.length := by simpa using congrArg List.length ha.2
  constructor
  · unfold ERel.powNum Rel.pow Rel.operation
    simp only [mathOperation_num]
    rw [ha.1]
    refine goes_collect (map_reads (fun u w hu => ?_) ha.2) (by rw [hr]; simp [la])
    exact powNum_val hu hc
  · unfold ERel.rpowNum Rel.rpow Rel.operation
    simp only [mathOperation_num]
    rw [ha.1]
    refine goes_collect (map_reads (fun u w hu => ?_) ha.2) (by rw [hr]; simp [la])
    exact pow_val hc hu

theorem goes_powers (reflected : Bool) {a b : ERel ℝ} {r q : Rel ℝ ℝ} (ha : Reads a r) (hb : Reads b q)
    (hl : r.y.length = q.y.length) (hr : r.x.size = .ok r.y.length) :
    Goes (ieeePowers reflected a.y b.y >>= ERel.make a.x)
      (mathOperation r.y (.arr q.y) (if reflected then .rpow else .pow) >>= Rel.make r.x) := by
  have la : a.y.length = r.y.length := by simpa using congrArg List.length ha.2
  have lb : b.y.length = q.y.length := by simpa using congrArg List.length hb.2
  rw [ieeePowers_ok reflected (by omega), mathOperation_arr _ _ _ hl, except_bind_ok, ha.1]
  refine goes_collect ?_ (by rw [hr]; simp [la, lb, hl])
  refine List.ext_getElem (by simp [la, lb]) fun i h1 h2 => ?_
  have i1 : i < a.y.length := by simp at h1; omega
  have i2 : i < b.y.length := by simp at h1; omega
  have va := val_of_map ha.2 i i1 (by omega)
  have vb := val_of_map hb.2 i i2 (by omega)
  simp only [List.getElem_map, List.getElem_zipWith]
  cases reflected
  · exact pow_val va vb
  · exact pow_val vb va

/-- **C143.** The same for two relations. -/
theorem C143_agrees (reflected same : Bool) {a b : ERel ℝ} {r q : Rel ℝ ℝ} (ha : Reads a r) (hb : Reads b q) (hr : Balanced r)
    (hq : Balanced q) (hs : same = true → r.x = q.x) :
    Goes (ERel.powRel reflected same a b) (r.operation (.rel same q) (if reflected then .rpow else .pow)) := by
  cases same with
  | true => exact goes_powers reflected ha hb (balanced_length_eq hr hq (hs rfl)) hr
  | false =>
    unfold ERel.powRel Rel.operation ERel.equalize Rel.equalize
    simp only [Bool.false_eq_true, if_false]
    rw [ha.1, hb.1]
    rcases interp_reads ha (commonX r.x q.x) with ⟨k, h1, h2, h3⟩ | ⟨f, g, f1, f2, f3, f4, f5⟩
    · rw [h2, h3]; exact goes_error rfl rfl h1
    rcases interp_reads hb (commonX r.x q.x) with ⟨k, h1, h2, h3⟩ | ⟨f', g', g1, g2, g3, g4, g5⟩
    · rw [f1, f2, h2, h3]; exact goes_error rfl rfl h1
    rw [f1, f2, g1, g2]
    exact goes_powers reflected f3 g3 (by rw [f5] at g5; simpa using g5) (by rw [f4]; exact f5)

/-- **C143.** The exponential of finite samples is that of the finite model. -/
theorem C143_agrees_exp {a : ERel ℝ} {r : Rel ℝ ℝ} (ha : Reads a r) : Goes a.exp (r.exp Real.exp) := by
  unfold ERel.exp Rel.exp
  rw [ha.1]
  refine make_reads ?_
  rw [map_reads (g := fun v => some (Real.exp v)) (fun u w hu => ?_) ha.2, List.map_map]
  · rfl
  · cases u <;> simp_all [Ieee.val, Ieee.exp]
    rw [← hu, Real.exp_zero]

/-- **C143.** What `** 0.5` does to the two samples, and `1 ** r` and `r ** 0` to nan. -/
theorem C143_witness :
    (⟨⟨0, 3, 1⟩, [.negZero, .inf true, .fin 4, .nan]⟩ : ERel ℝ).powNum (.fin (1 / 2)) =
      .ok ⟨⟨0, 3, 1⟩, [.negZero, .nan, .fin 2, .nan]⟩ ∧
    (⟨⟨0, 3, 1⟩, [.negZero, .inf true, .fin 4, .nan]⟩ : ERel ℝ).powNum (.fin 0) =
      .ok ⟨⟨0, 3, 1⟩, [.fin 1, .fin 1, .fin 1, .fin 1]⟩ ∧
    (⟨⟨0, 3, 1⟩, [.negZero, .inf true, .fin 4, .nan]⟩ : ERel ℝ).rpowNum (.fin 1) =
      .ok ⟨⟨0, 3, 1⟩, [.fin 1, .fin 1, .fin 1, .fin 1]⟩ ∧
    (⟨⟨0, 3, 1⟩, [.negZero, .inf true, .fin 4, .nan]⟩ : ERel ℝ).powNum (.fin (-1)) =
      .ok ⟨⟨0, 3, 1⟩, [.inf true, .negZero, .fin (1 / 4), .nan]⟩ := by
  have hs : (⟨0, 3, 1⟩ : Axis ℝ).size = .ok 4 := Axis.size_of_array (array_whole ⟨0, 3, 1⟩ 3 (by norm_num) (by norm_num)) |>.trans (by simp)
  have s4 : Real.sqrt 4 = 2 := by rw [show (4 : ℝ) = 2 ^ 2 by norm_num]; exact Real.sqrt_sq (by norm_num)
  have hh : ¬ ((2 : ℝ)⁻¹ = -1) := by norm_num
  have hh1 : ¬ ((2 : ℝ)⁻¹ = 1) := by norm_num
  have n1 : ¬ ((-1 : ℝ) = 1) := by norm_num
  have n4 : ¬ ((4 : ℝ) < 0) := by norm_num
  have n01 : ¬ ((1 : ℝ) < 0) := by norm_num
  refine ⟨?_, ?_, ?_, ?_⟩
  all_goals
    first
    | unfold ERel.powNum
    | unfold ERel.rpowNum
    refine (eMake_ok (by rw [hs]; simp)).trans ?_
    simp [Ieee.powNum, Ieee.sqrt, Ieee.pow, Ieee.val, Ieee.div, Ieee.neg?, Ieee.zero, Ieee.ofVal, s4, hh, hh1, n1, n4, n01]

end SweepDesign
