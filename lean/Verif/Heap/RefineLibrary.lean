import Verif.Heap.RefinePrepared

/-!
# Heap layer: prepared sweeps, m-sequences and corrections compute the value-layer functions
-/

set_option linter.unusedSectionVars false

namespace SweepDesign.Mem

open HM Spec

/-! ## prepared sweeps -/

section
variable {T : Transcendental ℝ ℝ} {N : SweepNumbers ℝ} {h : Heap ℝ ℝ}

local notation "Tm" => SweepNumbers.over N T
local notation "Pm" => exactPrims (SweepNumbers.over N T)
local notation "Dm" => defaultMethods (exactPrims (SweepNumbers.over N T))
local notation "Gm" => exactGen (exactPrims (SweepNumbers.over N T)) N
local notation "Sm" => SweepNumbers.prims N (SweepNumbers.over N T)

/-- the arguments of the calls that make no object -/
structure LibArgs where
  /-- of `get_shuffle` -/
  fStart : ℝ
  fEnd : ℝ
  length : ℝ
  roundNumber : Option ℤ
  shuffle : List ℝ → List ℝ
  /-- `max_len_seq` and the random numbers -/
  mls : ℕ → List ℤ → List ℝ
  rand : ℕ → ℤ
  /-- of `get_correction_for_source` -/
  corr : CorrArgs

/-- the library functions of `Model/{Prepared,Codes,Correction}` in exact arithmetic -/
noncomputable def exactLib (q : LibArgs) : LibPrims ℝ ℝ where
  times n x := n * x
  last n x := x * (n - 1)
  mul a b := a * b
  zero := 0
  linear := ftLinearArray
  tukey := tukeyAT
  shuffled d e := shuffleFrequency ⟨0, e, d⟩ q.fStart q.fEnd q.length q.roundNumber q.shuffle
  bits n := ceilLog2 ((n : ℤ) - 1)
  draw k := ((List.range k).map q.rand).map fun v : ℤ => (v : ℝ)
  unit := 1
  isZero v := decide (v = 0)
  maxLenSeq y := maxLenSeq q.mls y.length (y.map fun v => ⌊v⌋)
  clip n rows :=
    softClipTimes (q.corr.limits.getD 0) q.corr.limitsPercent (q.corr.coefficientFunction n) n rows
  below y := decide (∀ v ∈ y, |v| < q.corr.limits.getD 0)

variable {q : LibArgs}

theorem TimeIs.le {h' : Heap ℝ ℝ} (w : Le ∅ h h') {t : HTime ℝ} {a : TimeArg ℝ} (ht : TimeIs h t a) : TimeIs h' t a := by
  cases t <;> cases a <;> try exact ht
  exact AxIs.le w ht

theorem sim_axisGiven (hc : Coh Pm h) {t : HTime ℝ} {a : TimeArg ℝ} (ht : TimeIs h t a) :
    Sim Pm h (axisGiven Pm t) a.asAxis AxIs := by
  cases t <;> cases a <;> try exact absurd ht id
  · exact sim_raise hc _
  · exact sim_pure hc ht
  · obtain ⟨rfl, rfl⟩ := ht
    exact sim_axisFromArray hc _ _ _

theorem sim_timeValues (hc : Coh Pm h) {t : HTime ℝ} {a : TimeArg ℝ} (ht : TimeIs h t a) :
    Sim Pm h (timeValues Pm t) a.timeArray (fun _ x y => x = y) := by
  cases t <;> cases a <;> try exact absurd ht id
  · exact sim_raise hc _
  · exact sim_axisValues hc ht
  · obtain ⟨rfl, rfl⟩ := ht
    exact sim_pure hc rfl

theorem sim_sweepOf (hc : Coh Pm h) {t : HTime ℝ} {a : TimeArg ℝ} (ht : TimeIs h t a) (f am : List ℝ) :
    Sim Pm h (sweepOf Pm Gm (exactLib q) Dm linearFun onesFun t f am)
      (UncalculatedSweep.init a (.array f) (.array am) >>= fun u => u.call Sm .none 0) SweepIs := by
  unfold sweepOf
  refine Sim.step (sim_newY hc f) fun lf h1 w1 c1 rf => ?_
  refine Sim.step (sim_newY c1 am) fun la h2 w2 c2 ra => ?_
  refine (sim_genInit c2 (ht.le (w1.trans w2)) (f := .arr lf) (am := .arr la) (F := .array f) (A := .array am) (yIs_le w2 rf) ra).bind
    fun gen u h3 w3 c3 hg => ?_
  exact sim_genCall c3 hg (t := .none) (a := .none) trivial 0

theorem sim_linearSweep (hc : Coh Pm h) {t : HTime ℝ} {a : TimeArg ℝ} (ht : TimeIs h t a) (fs fe : ℝ) (tp : Option ℝ) :
    Sim Pm h (linearSweep Pm Gm (exactLib q) Dm linearFun onesFun t fs fe tp) (getLinearSweep Sm a fs fe tp) SweepIs := by
  unfold linearSweep getLinearSweep
  refine (sim_timeValues hc ht).bind fun xs xs' h1 w1 c1 e => ?_
  subst e
  refine (sim_lift c1 (ftLinearArray xs fs fe)).bind fun f f' h2 w2 c2 e => ?_
  subst e
  refine (sim_lift c2 (tukeyAT xs tp .both)).bind fun am am' h3 w3 c3 e => ?_
  subst e
  exact sim_sweepOf c3 (ht.le ((w1.trans w2).trans w3)) f am

theorem getShuffle_asAxis (a : TimeArg ℝ) (fs fe len : ℝ) (rn : Option ℤ) (tp : Option ℝ) (sh : List ℝ → List ℝ) :
    getShuffle Sm a fs fe len rn tp sh = a.asAxis >>= fun t => (do
      let ft ← shuffleFrequency t fs fe len rn sh
      let l ← t.array
      let at' ← tukeyAT l tp .both
      let u ← UncalculatedSweep.init (.axis t) (.array ft) (.array at')
      u.call Sm .none 0) := by
  cases a with
  | none => rfl
  | axis a => rfl
  | array l b =>
    show ((SweepDesign.axisFromArray l b true >>= fun a => pure (some a)) >>= _) = SweepDesign.axisFromArray l b true >>= _
    rcases SweepDesign.axisFromArray l b true with e | a <;> rfl

theorem sim_shuffleSweep (hc : Coh Pm h) {t : HTime ℝ} {a : TimeArg ℝ} (ht : TimeIs h t a) (tp : Option ℝ) :
    Sim Pm h (shuffleSweep Pm Gm (exactLib q) Dm linearFun onesFun t tp)
      (getShuffle Sm a q.fStart q.fEnd q.length q.roundNumber tp q.shuffle) SweepIs := by
  unfold shuffleSweep
  rw [getShuffle_asAxis]
  refine (sim_axisGiven hc ht).bind fun l ax h1 w1 c1 hl => ?_
  obtain ⟨o, ho, e⟩ := hl
  refine Sim.read (getAxis_run ho) ?_
  have e1 : (exactLib q).shuffled o.sample o.stop =
      shuffleFrequency ax q.fStart q.fEnd q.length q.roundNumber q.shuffle := by rw [← e]; rfl
  rw [e1]
  refine (sim_lift c1 _).bind fun f f' h2 w2 c2 e2 => ?_
  subst e2
  have hl2 : AxIs h2 l ax := AxIs.le w2 ⟨o, ho, e⟩
  refine (sim_axisValues c2 hl2).bind fun xs xs' h3 w3 c3 e3 => ?_
  subst e3
  refine (sim_lift c3 (tukeyAT xs tp .both)).bind fun am am' h4 w4 c4 e4 => ?_
  subst e4
  exact sim_sweepOf c4 (t := .axis l) (a := .axis ax) (hl2.le (w3.trans w4)) f am

/-! ## m-sequences -/

theorem all_isZero (s : List ℤ) : (s.map fun v : ℤ => (v : ℝ)).all (exactLib q).isZero = decide (∀ v ∈ s, v = 0) := by
  rw [Bool.eq_iff_iff]
  simp [exactLib]

/-- the correction of the start sequence, in place -/
theorem fixStartArray_run {s : Loc} {l : List ℤ} (hs : h.yarrs[s]? = some (l.map fun v : ℤ => (v : ℝ))) :
    (∀ e, fixStart l = .error e → fixStartArray (exactLib q) s h = (.error e, h)) ∧
    (∀ l', fixStart l = .ok l' → fixStartArray (exactLib q) s h =
      (.ok (), { h with yarrs := h.yarrs.set s (l'.map fun v : ℤ => (v : ℝ)) })) := by
  unfold fixStartArray
  rw [bind_of_ok (getY_run hs), all_isZero]
  have hset : h.yarrs.set s (l.map fun v : ℤ => (v : ℝ)) = h.yarrs := by
    apply List.ext_getElem?
    intro i
    by_cases e : s = i
    · subst e
      rw [hs, List.getElem?_set_self (List.getElem?_eq_some_iff.1 hs).1]
    · rw [List.getElem?_set_ne e]
  cases l with
  | nil => exact ⟨fun e he => by cases he; rfl, fun l' he => by cases he⟩
  | cons a l =>
    refine ⟨fun e he => (by cases he), fun l' he => ?_⟩
    have he' : (if ∀ v ∈ a :: l, v = 0 then 1 :: l else a :: l) = l' := by simpa [fixStart] using he
    subst he'
    by_cases hz : ∀ v ∈ a :: l, v = 0
    · rw [if_pos hz, decide_eq_true hz, if_pos rfl]
      show (Except.ok (), ({ h with yarrs := h.yarrs.modify s _ } : Heap ℝ ℝ)) = _
      congr 2
      apply List.ext_getElem?
      intro i
      by_cases e : s = i
      · subst e
        rw [List.getElem?_set_self (List.getElem?_eq_some_iff.1 hs).1, List.getElem?_modify_eq, hs]
        simp [exactLib]
      · rw [List.getElem?_set_ne e, List.getElem?_modify_ne _ _ e]
    · rw [if_neg hz, decide_eq_false hz]
      simp only [Bool.false_eq_true, if_false]
      rw [hset]; rfl

/-- after the start sequence is known -/
theorem sim_ofMSequence (hc : Coh Pm h) {t s : Loc} {a : Axis ℝ} {n : ℕ} (hn : a.size = .ok n) {l : List ℤ} (ha : AxIs h t a)
    (hs : h.yarrs[s]? = some (l.map fun v : ℤ => (v : ℝ))) (isFull : Bool) :
    Sim Pm h (do
      let y ← getY s
      let m ← lift ((exactLib q).maxLenSeq y)
      if isFull then do
        let a ← getAxis t
        let nt ← axisNew (Pm).zero ((exactLib q).last m.length a.sample) a.sample
        construct Pm Dm .relation (.axis nt) (.list m)
      else construct Pm Dm .relation (.axis t) (.list (m.take n))) (relationOfMSequence q.mls a l isFull) (IsNew .relation) := by
  have hf : Fine Tm Dm .relation := Fine.of_ne (by decide)
  unfold relationOfMSequence
  refine Sim.read (getY_run hs) ?_
  have e1 : (exactLib q).maxLenSeq (l.map fun v : ℤ => (v : ℝ)) = maxLenSeq q.mls l.length l := by
    simp only [exactLib, List.length_map, List.map_map]
    congr 1
    conv_rhs => rw [← List.map_id l]
    refine List.map_congr_left fun v _ => ?_
    simp
  rw [e1]
  refine (sim_lift hc _).bind fun m m' h1 w1 c1 e => ?_
  subst e
  cases isFull with
  | true =>
    simp only [if_true]
    obtain ⟨o, ho, eo⟩ := ha.le w1
    refine Sim.read (getAxis_run ho) ?_
    refine Sim.step (sim_axisNew c1 _ _ _) fun nt h2 w2 c2 hnt => ?_
    have := sim_construct_list c2 Dm hf m hnt none
    rw [← eo]
    exact this
  | false =>
    simp only [Bool.false_eq_true, if_false, hn, except_bind_ok]
    exact sim_construct_list c1 Dm hf _ (ha.le w1) none

theorem sim_mSequenceRelation (hc : Coh Pm h) {t : HTime ℝ} {a : TimeArg ℝ} (ht : TimeIs h t a) (isFull : Bool) :
    Sim Pm h (mSequenceRelation Pm (exactLib q) Dm t none isFull)
      (a.asAxis >>= fun x => getRelationMSequence q.mls q.rand x isFull) (IsNew .relation) := by
  unfold mSequenceRelation getRelationMSequence
  refine (sim_axisGiven hc ht).bind fun l ax h1 w1 c1 hl => ?_
  refine ((sim_axisSize c1 hl).withOk).bind fun n n' h2 w2 c2 e => ?_
  obtain ⟨rfl, hn⟩ := e
  refine (sim_lift c2 (ceilLog2 ((n : ℤ) - 1))).bind fun k k' h3 w3 c3 e => ?_
  subst e
  have hl3 := hl.le (w2.trans w3)
  set d : List ℤ := (List.range k).map q.rand with hd
  -- the new array and its correction in one step
  have key : Sim Pm h3 (givenOr none (newY ((exactLib q).draw k)) >>= fun s => fixStartArray (exactLib q) s >>= fun _ => pure s)
      (fixStart d) (fun h' s l => h'.yarrs[s]? = some (l.map fun v : ℤ => (v : ℝ))) := by
    have e0 : givenOr none (newY ((exactLib q).draw k)) h3 =
        (.ok h3.yarrs.length, { h3 with yarrs := h3.yarrs ++ [d.map fun v : ℤ => (v : ℝ)] }) := rfl
    have hr := fixStartArray_run (q := q) (h := { h3 with yarrs := h3.yarrs ++ [d.map fun v : ℤ => (v : ℝ)] })
      (s := h3.yarrs.length) (l := d) (by simp)
    rcases hfx : fixStart d with e | d'
    · have hr := hr.1 e hfx
      have er : (givenOr none (newY ((exactLib q).draw k)) >>= fun s => fixStartArray (exactLib q) s >>= fun _ => pure s) h3 =
          (.error e, { h3 with yarrs := h3.yarrs ++ [d.map fun v : ℤ => (v : ℝ)] }) := by
        rw [bind_of_ok e0, bind_of_error hr]
      refine ⟨?_, ?_, ?_⟩ <;> rw [er]
      · exact (safe_newY (P := Pm) (X := ∅) (d.map fun v : ℤ => (v : ℝ)) h3).1
      · exact c3
      · rfl
    · have hr := hr.2 d' hfx
      have er : (givenOr none (newY ((exactLib q).draw k)) >>= fun s => fixStartArray (exactLib q) s >>= fun _ => pure s) h3 =
          (.ok h3.yarrs.length, { h3 with yarrs := h3.yarrs ++ [d'.map fun v : ℤ => (v : ℝ)] }) := by
        rw [bind_of_ok e0, bind_of_ok hr]
        simp; rfl
      refine ⟨?_, ?_, ?_⟩ <;> rw [er]
      · exact (safe_newY (P := Pm) (X := ∅) (d'.map fun v : ℤ => (v : ℝ)) h3).1
      · exact c3
      · show (h3.yarrs ++ [d'.map fun v : ℤ => (v : ℝ)])[h3.yarrs.length]? = _
        simp
  have := key.bind (f := fun s => do
      let y ← getY s
      let m ← lift ((exactLib q).maxLenSeq y)
      if isFull then do
        let a ← getAxis l
        let nt ← axisNew (Pm).zero ((exactLib q).last m.length a.sample) a.sample
        construct Pm Dm .relation (.axis nt) (.list m)
      else construct Pm Dm .relation (.axis l) (.list (m.take n)))
    (g := fun s => relationOfMSequence q.mls ax s isFull) (R' := IsNew .relation) fun s d' h4 w4 c4 hs =>
      sim_ofMSequence c4 hn (hl3.le w4) hs isFull
  simp only [hm_assoc] at this
  exact this

theorem mSequenceFrom_early {mls : ℕ → List ℤ → List ℝ} {x : Axis ℝ} {l : List ℤ} {isFull : Bool} {e : Err}
    (h : (x.size >>= fun n : ℕ => ceilLog2 ((n : ℤ) - 1) >>= fun _ => pure n) = .error e) :
    getRelationMSequenceFrom mls x l isFull = (.error e, l) := by
  unfold getRelationMSequenceFrom
  rcases hx : x.size with e' | n
  · rw [hx] at h; cases h; rfl
  · rw [hx, except_bind_ok] at h
    rcases hk : ceilLog2 ((n : ℤ) - 1) with e' | k
    · rw [hk] at h; cases h
      simp only [except_bind_ok, hk]
    · rw [hk] at h; cases h

theorem mSequenceFrom_late {mls : ℕ → List ℤ → List ℝ} {x : Axis ℝ} {l : List ℤ} {isFull : Bool} {n : ℕ}
    (h : (x.size >>= fun n : ℕ => ceilLog2 ((n : ℤ) - 1) >>= fun _ => pure n) = .ok n) :
    getRelationMSequenceFrom mls x l isFull = (match fixStart l with
      | .error e => (.error e, l)
      | .ok l' => (relationOfMSequence mls x l' isFull, l')) := by
  unfold getRelationMSequenceFrom
  rcases hx : x.size with e' | n'
  · rw [hx] at h; cases h
  · rw [hx, except_bind_ok] at h
    rcases hk : ceilLog2 ((n' : ℤ) - 1) with e' | k
    · rw [hk] at h; cases h
    · simp only [except_bind_ok, hk]
      rcases fixStart l with e | l' <;> rfl

/-- the call with a start sequence: the result, and the array afterwards -/
theorem runs_mSequenceFrom (hc : Coh Pm h) {t : HTime ℝ} {a : TimeArg ℝ} (ht : TimeIs h t a) (isFull : Bool) {s : Loc} {l : List ℤ}
    (hs : h.yarrs[s]? = some (l.map fun v : ℤ => (v : ℝ))) {x : Axis ℝ} (hx : a.asAxis = .ok x) :
    Agree (IsNew .relation (mSequenceRelation Pm (exactLib q) Dm t (some s) isFull h).2)
        (mSequenceRelation Pm (exactLib q) Dm t (some s) isFull h).1 (getRelationMSequenceFrom q.mls x l isFull).1 ∧
      (mSequenceRelation Pm (exactLib q) Dm t (some s) isFull h).2.yarrs[s]? =
        some ((getRelationMSequenceFrom q.mls x l isFull).2.map fun v : ℤ => (v : ℝ)) := by
  -- up to the start sequence
  let m1 : HM ℝ ℝ (Loc × ℕ) := axisGiven Pm t >>= fun l => axisSize Pm l >>= fun n => lift ((exactLib q).bits n) >>= fun _ => pure (l, n)
  let v1 : Except Err ℕ := x.size >>= fun n : ℕ => ceilLog2 ((n : ℤ) - 1) >>= fun _ => pure n
  have k1 : Sim Pm h m1 v1 (fun h' p n => AxIs h' p.1 x ∧ p.2 = n ∧ x.size = .ok n) := by
    have := (sim_axisGiven hc ht).withOk.bind (f := fun l => axisSize Pm l >>= fun n => lift ((exactLib q).bits n) >>= fun _ => pure (l, n))
      (g := fun x' : Axis ℝ => x'.size >>= fun n : ℕ => ceilLog2 ((n : ℤ) - 1) >>= fun _ => pure n)
      (R' := fun h' p n => AxIs h' p.1 x ∧ p.2 = n ∧ x.size = .ok n) ?_
    · rw [hx] at this; exact this
    · intro l x' h1 w1 c1 hl
      obtain ⟨hl, ex⟩ := hl
      rw [hx] at ex; cases ex
      refine ((sim_axisSize c1 hl).withOk).bind fun n n' h2 w2 c2 e => ?_
      obtain ⟨rfl, hn⟩ := e
      refine (sim_lift c2 (ceilLog2 ((n : ℤ) - 1))).bind fun k k' h3 w3 c3 e => ?_
      exact sim_pure c3 ⟨hl.le (w2.trans w3), rfl, hn⟩
  let rest : Loc × ℕ → HM ℝ ℝ Loc := fun p => do
      let y ← getY s
      let m ← lift ((exactLib q).maxLenSeq y)
      if isFull then do
        let a ← getAxis p.1
        let nt ← axisNew (Pm).zero ((exactLib q).last m.length a.sample) a.sample
        construct Pm Dm .relation (.axis nt) (.list m)
      else construct Pm Dm .relation (.axis p.1) (.list (m.take p.2))
  have em : mSequenceRelation Pm (exactLib q) Dm t (some s) isFull = m1 >>= fun p => fixStartArray (exactLib q) s >>= fun _ => rest p := by
    simp only [m1, hm_assoc]
    rfl
  rw [em]
  have w := k1.le; have c := k1.coh; have ag := k1.agree
  rcases hm : m1 h with ⟨e | p, h1⟩
  · rw [hm] at w c ag
    rcases hv : v1 with e' | n
    · rw [hv] at ag
      rw [bind_of_error hm, mSequenceFrom_early hv]
      exact ⟨ag, yIs_le w hs⟩
    · rw [hv] at ag; exact ag.elim
  · rw [hm] at w c ag
    rcases hv : v1 with e' | n
    · rw [hv] at ag; exact ag.elim
    · rw [hv] at ag
      obtain ⟨hl, rfl, hn⟩ := ag
      rw [bind_of_ok hm]
      have hr := fixStartArray_run (q := q) (yIs_le w hs)
      rw [mSequenceFrom_late hv]
      rcases hfx : fixStart l with e | l'
      · rw [bind_of_error (hr.1 e hfx)]
        exact ⟨rfl, yIs_le w hs⟩
      · rw [bind_of_ok (hr.2 l' hfx)]
        have hlt : s < h1.yarrs.length := (List.getElem?_eq_some_iff.1 (yIs_le w hs)).1
        have hs' : (h1.yarrs.set s (l'.map fun v : ℤ => (v : ℝ)))[s]? = some (l'.map fun v : ℤ => (v : ℝ)) :=
          List.getElem?_set_self hlt
        have k2 := sim_ofMSequence (T := T) (N := N) (q := q) (h := { h1 with yarrs := h1.yarrs.set s (l'.map fun v : ℤ => (v : ℝ)) })
          c hn hl hs' isFull
        exact ⟨k2.agree, yIs_le k2.le hs'⟩

/-! ## corrections -/

theorem sim_displacement (hc : Coh Pm h) {r : Loc} {c : Cls} {v : Rel ℝ ℝ} (hr : IsNew c h r v) (hf : Fine Tm Dm c) (mass : ℝ) :
    Sim Pm h (displacement Pm Dm r mass) (displacementOf v mass) (IsNew c) := by
  unfold displacement displacementOf
  obtain ⟨o, ho⟩ := hr
  refine (sim_relIntegrate hc ho hf).bind fun a va h1 w1 c1 ha => ?_
  obtain ⟨oa, ha⟩ := ha
  refine (sim_relIntegrate c1 ha hf).bind fun b vb h2 w2 c2 hb => ?_
  obtain ⟨ob, hb⟩ := hb
  exact sim_operator_number c2 hb hf mass .truediv

theorem sim_forceFrom (hc : Coh Pm h) {r : Loc} {c : Cls} {v : Rel ℝ ℝ} (hr : IsNew c h r v) (hf : Fine Tm Dm c) (mass : ℝ) :
    Sim Pm h (forceFrom Pm Dm r mass) (forceOf v mass) (IsNew c) := by
  unfold forceFrom forceOf
  obtain ⟨o, ho⟩ := hr
  refine (sim_relDiff hc ho hf).bind fun a va h1 w1 c1 ha => ?_
  obtain ⟨oa, ha⟩ := ha
  refine (sim_relDiff c1 ha hf).bind fun b vb h2 w2 c2 hb => ?_
  obtain ⟨ob, hb⟩ := hb
  exact sim_operator_number c2 hb hf mass .mul

theorem ownM_oneIMF {K V : Type} {P : Prims K V} {M : Methods K V} (hM : GoodMethods P M) (r : Loc) (k : List V) :
    OwnM (oneIMF P M r k) := by
  unfold oneIMF relX
  exact OwnM.bind (P := P) (X := ∅) ((safe_getRel _).bind fun _ => safe_pure _) fun _ =>
    OwnM.bindA (P := P) (X := ∅) (safe_axisCopy _) (fresh_axisCopy _) fun _ => ownX_construct hM _ _ _ _

theorem sim_oneIMF (hc : Coh Pm h) {r : Loc} {c : Cls} {v : Rel ℝ ℝ} (hr : IsNew c h r v) (k : List ℝ) :
    Sim Pm h (oneIMF Pm Dm r k) (Rel.make v.x k) (IsNew .signal) := by
  unfold oneIMF
  obtain ⟨o, ho⟩ := hr
  refine Sim.read (a := o.x) (by unfold relX; rw [bind_of_ok (getRel_run ho.rel)]; rfl) ?_
  refine Sim.step (sim_axisCopy hc ho.x) fun x h1 w1 c1 hx => ?_
  exact sim_construct_list c1 Dm (Fine.of_ne (by decide)) k hx none

/-- a new signal on an axis of its own -/
def OwnSig (n : ℕ) (h : Heap ℝ ℝ) (l : Loc) (v : Rel ℝ ℝ) : Prop :=
  ∃ o, RelIs h l .signal v o ∧ n ≤ o.x ∧ o.x < h.axes.length

theorem OwnSig.le {n : ℕ} {h' : Heap ℝ ℝ} {l : Loc} {v : Rel ℝ ℝ} (w : Le ∅ h h') (hr : OwnSig n h l v) : OwnSig n h' l v := by
  obtain ⟨o, ho, h1, h2⟩ := hr
  obtain ⟨o', ho', e⟩ := ho.le w
  exact ⟨o', ho', by rw [e]; exact h1, by rw [e]; exact h2.trans_le w.axes_len⟩

theorem OwnSig.mono {n m : ℕ} {l : Loc} {v : Rel ℝ ℝ} (hnm : n ≤ m) (hr : OwnSig m h l v) : OwnSig n h l v := by
  obtain ⟨o, ho, h1, h2⟩ := hr
  exact ⟨o, ho, hnm.trans h1, h2⟩

theorem sim_allIMFs {r : Loc} {c : Cls} {v : Rel ℝ ℝ} (ks : List (List ℝ)) :
    ∀ {h : Heap ℝ ℝ}, Coh Pm h → IsNew c h r v →
      Sim Pm h (allIMFs Pm Dm r ks) (ks.mapM fun k => Rel.make v.x k)
        (fun h' ls vs => List.Forall₂ (OwnSig h.axes.length h') ls vs) := by
  induction ks with
  | nil => intro h hc _; exact sim_pure hc .nil
  | cons k ks ih =>
    intro h hc hr
    rw [List.mapM_cons]
    refine ((sim_oneIMF hc hr k).own (ownM_oneIMF good_defaultMethods _ _)).bind fun l w h1 w1 c1 hl => ?_
    refine (ih c1 (hr.later w1)).bind fun ls ws h2 w2 c2 hls => ?_
    exact sim_pure c2 (.cons (OwnSig.le w2 hl) (hls.imp fun _ _ p => p.mono w1.axes_len))

theorem sim_firstOfIMFs (emd : Emd) (hc : Coh Pm h) {r : Loc} {c : Cls} {v : Rel ℝ ℝ} (hr : IsNew c h r v) :
    Sim Pm h (firstOfIMFs Pm Dm emd r) (firstIMF emd v) (OwnSig h.axes.length) := by
  unfold firstOfIMFs firstIMF
  have k : Sim Pm h (getIMFs Pm Dm emd r) (getIMFsEmd emd v)
      (fun h' ls vs => List.Forall₂ (OwnSig h.axes.length h') ls vs) := by
    unfold getIMFs getIMFsEmd
    obtain ⟨o, ho⟩ := hr
    refine Sim.read (a := o.y) (by unfold relY; rw [bind_of_ok (getRel_run ho.rel)]; rfl) (Sim.read (getY_run ho.y) ?_)
    have hl := sim_lift hc (emd v.y)
    rcases hE : emd v.y with e | ks
    · exact ⟨Le.refl _ _, hc, rfl⟩
    · exact Sim.read rfl (sim_allIMFs ks hc ⟨o, ho⟩)
  refine k.bind fun ls vs h1 w1 c1 hls => ?_
  cases hls with
  | nil => exact sim_raise c1 _
  | cons a b => exact sim_pure c1 a

theorem valuesOf_run {r : Loc} {c : Cls} {v : Rel ℝ ℝ} (hr : IsNew c h r v) : valuesOf r h = (.ok v.y, h) := by
  obtain ⟨o, ho⟩ := hr
  unfold valuesOf
  rw [bind_of_ok (show relY r h = (.ok o.y, h) by unfold relY; rw [bind_of_ok (getRel_run ho.rel)]; rfl)]
  exact getY_run ho.y

theorem operation_balanced {a d : Rel ℝ ℝ} {b : Operand ℝ ℝ} {op : MathOp} (e : a.operation b op = .ok d) : Balanced d := by
  unfold Rel.operation at e
  cases b with
  | rel same b =>
    obtain ⟨p, -, e⟩ := except_bind_eq_ok.1 e
    obtain ⟨y, -, e⟩ := except_bind_eq_ok.1 e
    exact Mem.balanced_of_make e
  | other o =>
    obtain ⟨y, -, e⟩ := except_bind_eq_ok.1 e
    exact Mem.balanced_of_make e

/-- `imf * window` -/
theorem sim_windowMul {h0 : Heap ℝ ℝ} {imf win : Loc} {c : Cls} {v w : Rel ℝ ℝ} (hw : IsNew c h0 win w) (hcs : c ≠ .spectrum)
    (hsw : c ≠ .sweep) (l : Le ∅ h0 h) (hc : Coh Pm h) (hi : OwnSig h0.axes.length h imf v) :
    Sim Pm h (operator Pm Dm imf (.obj win) .mul) (v.mul (.rel false w)) (fun h' l d => IsNew .signal h' l d ∧ Balanced d) :=
  ((sim_operator_earlier hw l hc hi (Fine.of_ne (by decide)) (Fine.of_ne hsw) .mul
    fun _ => ⟨fun _ => hcs, fun k => by cases k⟩).withOk).mono fun _ _ _ p => ⟨p.1, operation_balanced p.2⟩

theorem sim_correctionStep (emd : Emd) {h0 : Heap ℝ ℝ} (l0 : Le ∅ h0 h) (hc : Coh Pm h) {nt win : Loc} {x : Axis ℝ} {w : Rel ℝ ℝ} {cls : Cls}
    (hf : Fine Tm Dm cls) (hx : AxIs h nt x) (hw : IsNew .relation h0 win w) {limits : ℝ} (hl : q.corr.limits = some limits)
    (rows : List (ℝ × ℝ)) (cnt : ℕ) :
    Sim Pm h (correctionStep Pm (exactLib q) Dm emd cls q.corr.reactionMass nt win rows cnt)
      (correctionPass emd q.corr limits x w rows cnt) (fun h' p d => IsNew .signal h' p.2 d ∧ Balanced d) := by
  unfold correctionStep correctionPass
  have e1 : (exactLib q).clip cnt rows =
      softClipTimes limits q.corr.limitsPercent (q.corr.coefficientFunction cnt) cnt rows := by
    simp only [exactLib, hl, Option.getD_some]
  rw [e1]
  refine (sim_lift hc _).bind fun res res' h1 w1 c1 e => ?_
  subst e
  refine (sim_construct_list c1 Dm hf _ (hx.le w1) none).bind fun f vf h2 w2 c2 hfo => ?_
  refine (sim_displacement c2 hfo hf _).bind fun d vd h3 w3 c3 hd => ?_
  refine (sim_firstOfIMFs emd c3 hd).bind fun imf vi h4 w4 c4 hi => ?_
  have l3 := ((l0.trans w1).trans w2).trans w3
  have := sim_windowMul (hw.later l3) (by decide) (by decide) w4 c4 hi
  rw [except_bind_pure_id (vi.mul _)]
  exact this.bind fun nd vn h5 w5 c5 hn => sim_pure c5 hn

theorem sim_correctionRun (emd : Emd) {h0 : Heap ℝ ℝ} {nt win : Loc} {x : Axis ℝ} {w : Rel ℝ ℝ} {cls : Cls} (hf : Fine Tm Dm cls)
    (hw : IsNew .relation h0 win w) {limits : ℝ} (hl : q.corr.limits = some limits) (rows : List (ℝ × ℝ)) (fuel : ℕ) :
    ∀ {h : Heap ℝ ℝ} (cnt : ℕ), Le ∅ h0 h → Coh Pm h → AxIs h nt x →
      Sim Pm h (correctionRun Pm (exactLib q) Dm emd cls q.corr.reactionMass q.corr.limitIteration nt win rows fuel cnt)
        (correctionLoop (correctionPass emd q.corr limits x w rows) limits q.corr.limitIteration fuel cnt)
        (fun h' p d => match p, d with
          | none, none => True
          | some p, some d => IsNew .signal h' p.2 d.2 ∧ Balanced d.2
          | _, _ => False) := by
  induction fuel with
  | zero => intro h cnt _ hc _; exact sim_pure hc trivial
  | succ fuel ih =>
    intro h cnt l0 hc hx
    unfold correctionRun correctionLoop
    refine (sim_correctionStep emd l0 hc hf hx hw hl rows (cnt + 1)).bind fun p d h1 w1 c1 hp => ?_
    refine Sim.read (valuesOf_run hp.1) ?_
    have e1 : (exactLib q).below d.y = decide (∀ v ∈ d.y, |v| < limits) := by
      simp only [exactLib, hl, Option.getD_some]
    rw [e1]
    by_cases hb : ∀ v ∈ d.y, |v| < limits
    · rw [if_pos hb, decide_eq_true hb, if_pos rfl]
      exact sim_pure c1 hp
    rw [if_neg hb, decide_eq_false hb]
    simp only [Bool.false_eq_true, if_false]
    by_cases hk : ∃ k, q.corr.limitIteration = some k ∧ (cnt : ℤ) + 1 + 1 > k
    · rw [if_pos hk]
      obtain ⟨k, ek, hk⟩ := hk
      rw [ek]
      simp only [Option.elim_some, decide_eq_true_eq]
      rw [if_pos hk]
      exact sim_pure c1 hp
    · rw [if_neg hk]
      have : ¬ (q.corr.limitIteration.elim false fun k => decide (k < (cnt : ℤ) + 1 + 1)) = true := by
        rcases hq : q.corr.limitIteration with _ | k
        · simp
        · simp only [Option.elim_some, decide_eq_true_eq]
          exact fun h => hk ⟨k, hq, h⟩
      rw [if_neg this]
      exact ih (cnt + 1) (l0.trans w1) c1 (hx.le w1)

theorem sim_startedAxis (hc : Coh Pm h) {l : Loc} {ax : Axis ℝ} (hl : AxIs h l ax) :
    Sim Pm h (do
      let nt ← axisCopy l
      let a ← getAxis nt
      axisSetStart nt ((Pm).add a.start ((exactLib q).times 2 a.sample))
      pure nt) (.ok ()) (fun h' p _ => AxIs h' p { ax with start := ax.start + 2 * ax.sample }) := by
  obtain ⟨a, ha, ea⟩ := hl
  have e1 : a.start = ax.start := congrArg Axis.start ea
  have e2 : a.stop = ax.stop := congrArg Axis.stop ea
  have e3 : a.sample = ax.sample := congrArg Axis.sample ea
  refine sim_ok ?_ hc (a := h.axes.length)
    (h' := { h with axes := h.axes ++ [⟨a.start + ((2 : ℕ) : ℝ) * a.sample, a.stop, a.sample, none, none⟩] }) ?_ ?_
  · refine (safe_axisCopy _).bindA (fresh_axisCopy _) fun nx => ?_
    exact (safe_getAxis _).bind fun _ => (safe_axisSetStart _ (by simp)).bind fun _ => safe_pure _
  · rw [bind_of_ok (axisCopy_run ha), bind_of_ok (getAxis_append h a), bind_of_ok (setStart_append h a _)]
    rfl
  · exact ⟨⟨a.start + ((2 : ℕ) : ℝ) * a.sample, a.stop, a.sample, none, none⟩, by simp, by simp [fields, e1, e2, e3]⟩

/-- the outcome of `get_correction_for_source`: nothing, or the new object with its value -/
def CorrIs (h : Heap ℝ ℝ) (p : Option Loc) (d : Option (ℕ × Rel ℝ ℝ)) : Prop :=
  match p, d with
  | none, none => True
  | some l, some d => IsNew .signal h l d.2
  | _, _ => False

theorem sim_sourceCorrection (emd : Emd) (hc : Coh Pm h) {r : Loc} {c : Cls} {v : Rel ℝ ℝ} (hr : IsNew c h r v) (hf : Fine Tm Dm c)
    (fuel : ℕ) :
    Sim Pm h (sourceCorrection Pm (exactLib q) Dm emd r q.corr.reactionMass q.corr.limits.isSome q.corr.limitIteration
      q.corr.windowPercent fuel) (getCorrectionForSource emd v q.corr fuel) CorrIs := by
  have hfs : Fine Tm Dm .signal := Fine.of_ne (by decide)
  obtain ⟨o, ho⟩ := hr
  unfold sourceCorrection getCorrectionForSource
  refine Sim.read (getRel_run ho.rel) ?_
  set x : Axis ℝ := { v.x with start := v.x.start + 2 * v.x.sample } with hx
  rw [ho.cls]
  have key : ∀ nt h1, Le ∅ h h1 → Coh Pm h1 → AxIs h1 nt x → Sim Pm h1 (do
      let xs ← axisValues Pm nt
      let a ← getAxis nt
      let w ← lift ((exactLib q).tukey xs (some ((exactLib q).mul a.stop q.corr.windowPercent)) .left)
      let win ← construct Pm Dm .relation (.axis nt) (.list w)
      let d ← displacement Pm Dm r q.corr.reactionMass
      let imf ← firstOfIMFs Pm Dm emd d
      let imf0 ← operator Pm Dm imf (.obj win) .mul
      let u ← valuesOf imf0
      let v ← valuesOf r
      let rows ← lift (stackRows u v.tail.dropLast)
      if q.corr.limits.isSome then do
        let out ← correctionRun Pm (exactLib q) Dm emd c q.corr.reactionMass q.corr.limitIteration nt win rows fuel 0
        match out with
        | none => pure none
        | some p => do
          let nd ← nonEmptyOr Pm p
          let q ← forceFrom Pm Dm nd q.corr.reactionMass
          pure (some q)
      else do
        let q ← forceFrom Pm Dm imf0 q.corr.reactionMass
        pure (some q)) (getCorrectionForSource emd v q.corr fuel) CorrIs := by
    intro nt h1 w1 c1 hnt
    unfold getCorrectionForSource
    simp only [← hx]
    refine (sim_axisValues c1 hnt).bind fun xs xs' h2 w2 c2 e => ?_
    subst e
    have hnt2 := hnt.le w2
    obtain ⟨ax, hax, eax⟩ := hnt2
    refine Sim.read (getAxis_run hax) ?_
    have e1 : (exactLib q).tukey xs (some ((exactLib q).mul ax.stop q.corr.windowPercent)) .left =
        tukeyAT xs (some (x.stop * q.corr.windowPercent)) .left := by rw [← eax]; rfl
    rw [e1]
    refine (sim_lift c2 _).bind fun w w' h3 w3 c3 e => ?_
    subst e
    have hnt3 := hnt.le (w2.trans w3)
    refine (sim_construct_list c3 Dm (Fine.of_ne (by decide)) w hnt3 none).bind fun win vw h4 w4 c4 hw => ?_
    have l4 := (w1.trans w2).trans (w3.trans w4)
    have hr4 : IsNew c h4 r v := IsNew.later l4 ⟨o, ho⟩
    refine (sim_displacement c4 hr4 hf _).bind fun d vd h5 w5 c5 hd => ?_
    refine (sim_firstOfIMFs emd c5 hd).bind fun imf vi h6 w6 c6 hi => ?_
    refine (sim_windowMul (hw.later w5) (by decide) (by decide) w6 c6 hi).bind fun imf0 vi0 h7 w7 c7 hi0 => ?_
    have l7 := (w5.trans w6).trans w7
    refine Sim.read (valuesOf_run hi0.1) (Sim.read (valuesOf_run (hr4.later l7)) ?_)
    unfold stackRows
    by_cases hlen : vi0.y.length ≠ v.y.tail.dropLast.length
    · rw [if_pos hlen, if_pos hlen]
      exact ⟨Le.refl _ _, c7, rfl⟩
    rw [if_neg hlen, if_neg hlen]
    refine Sim.read rfl ?_
    rcases hl : q.corr.limits with _ | limits
    · simp only [Option.isSome_none, Bool.false_eq_true, if_false]
      refine (sim_forceFrom c7 hi0.1 hfs _).bind fun f vf h8 w8 c8 hfo => ?_
      exact sim_pure c8 hfo
    · simp only [Option.isSome_some, if_true]
      refine (sim_correctionRun emd hf (hw.later l7) hl _ fuel 0 (Le.refl _ _) c7 (hnt3.le (w4.trans l7))).bind
        fun p d h8 w8 c8 hp => ?_
      rcases p with _ | p <;> rcases d with _ | d
      · exact sim_pure c8 trivial
      · exact absurd hp id
      · exact absurd hp id
      · obtain ⟨k, d⟩ := d
        obtain ⟨⟨oa, hpn⟩, hbal⟩ := hp
        simp only []
        have e2 : Sim Pm h8 (nonEmptyOr Pm p) (.ok d) (IsNew .signal) := by
          unfold nonEmptyOr
          have hn : d.len = .ok d.y.length := hbal
          have k1 := sim_relLen c8 hpn
          rw [hn] at k1
          refine Sim.step k1 fun n h9 w9 c9 e => ?_
          rw [e]
          have : d.y.length ≠ 0 := by
            rw [((d.x.size_ok_iff _).1 hbal).2]
            exact Nat.succ_ne_zero _
          rw [if_neg this]
          exact sim_pure c9 (IsNew.later w9 ⟨oa, hpn⟩)
        refine Sim.step e2 fun nd h9 w9 c9 hnd => ?_
        refine (sim_forceFrom c9 hnd hfs _).bind fun f vf h10 w10 c10 hfo => ?_
        exact sim_pure c10 hfo
  have := Sim.step (sim_startedAxis (q := q) hc ho.x) fun nt h1 w1 c1 hnt => key nt h1 w1 c1 hnt
  simp only [hm_assoc] at this
  exact this

theorem sim_sweepCorrection (emd : Emd) (hc : Coh Pm h) {r : Loc} {c : Cls} {v : Rel ℝ ℝ} (hr : IsNew c h r v) (hf : Fine Tm Dm c)
    (startWindow : Option ℝ) :
    Sim Pm h (sweepCorrection Pm (exactLib q) Dm emd r startWindow) (correctSweep emd v startWindow) (IsNew .signal) := by
  have hfs : Fine Tm Dm .signal := Fine.of_ne (by decide)
  unfold sweepCorrection correctSweep
  obtain ⟨o, ho⟩ := hr
  refine (sim_relIntegrate hc ho hf).bind fun a va h1 w1 c1 ha => ?_
  obtain ⟨oa, ha⟩ := ha
  refine (sim_relIntegrate c1 ha hf).bind fun d vd h2 w2 c2 hd => ?_
  obtain ⟨od, hd⟩ := hd
  refine Sim.read (getRel_run hd.rel) ?_
  refine (sim_axisValues c2 hd.x).bind fun xs xs' h3 w3 c3 e => ?_
  subst e
  refine (sim_firstOfIMFs emd c3 (IsNew.later w3 ⟨od, hd⟩)).bind fun imf vi h4 w4 c4 hi => ?_
  have hi' : IsNew .signal h4 imf vi := let ⟨o, p, _⟩ := hi; ⟨o, p⟩
  have k : Sim Pm h4 (windowed Pm (exactLib q) Dm imf xs startWindow) (match startWindow with
      | some tt => do
        let w ← tukeyAT xs (some tt) .left
        let ws ← Rel.init (.array xs true) (some w)
        vi.mul (.rel false ws)
      | none => pure vi) (IsNew .signal) := by
    rcases startWindow with _ | tt
    · exact sim_pure c4 hi'
    · unfold windowed
      refine (sim_lift c4 (tukeyAT xs (some tt) .left)).bind fun w w' h5 w5 c5 e => ?_
      subst e
      refine ((sim_construct_array c5 hfs xs true w none).own
        (ownM_construct_array good_defaultMethods fresh_defaultMethods _ _ _ _ _)).bind fun win vw h6 w6 c6 hw => ?_
      exact sim_operator_later (hi'.later w5) w6 c6 hw hfs hfs .mul fun _ => ⟨fun _ => by decide, fun k => by cases k⟩
  refine k.bind fun nd vn h5 w5 c5 hn => ?_
  obtain ⟨on, hn⟩ := hn
  refine (sim_relDiff c5 hn hfs).bind fun b vb h6 w6 c6 hb => ?_
  obtain ⟨ob, hb⟩ := hb
  exact sim_relDiff c6 hb hfs

end

end SweepDesign.Mem
