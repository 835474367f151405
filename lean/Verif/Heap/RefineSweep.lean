import Verif.Heap.Refine
import Verif.Heap.ExactSweep

/-!
# Heap layer: sweep objects and generator objects compute the value-layer functions of `Model/Sweep.lean`
-/

set_option linter.unusedSectionVars false

namespace SweepDesign.Mem

open HM Spec

variable {K : Type} [Field K] [LinearOrder K] [IsStrictOrderedRing K] [FloorRing K] [Star K] [PyPow K]

/-- the methods of `SweepConfig` as functions on values -/
def SweepNumbers.prims (N : SweepNumbers K) (T : Transcendental K K) : SweepPrims K where
  sin := N.sin
  pi := N.pi
  quad := N.quad
  getFT := derivedFt T
  getAT := derivedAt T
  spectrogram r := N.spectro r.y r.x.sample

/-- an optional relation object and its value -/
def OptIs (h : Heap K K) : Option Loc → Option (Rel K K) → Prop
  | none, none => True
  | some l, some v => ∃ c, IsNew c h l v
  | _, _ => False

/-- `l` is a sweep object with the value `s`, up to the spectrogram -/
def SweepIs (h : Heap K K) (l : Loc) (s : Sweep K) : Prop :=
  ∃ ap, SweepOf h l s.rel s.frequencyTime s.amplitudeTime ap ∧ OptIs h ap s.aPriorSignal

variable {T : Transcendental K K} {N : SweepNumbers K} {h : Heap K K}

local notation "Tm" => SweepNumbers.over N T
local notation "Pm" => exactPrims (SweepNumbers.over N T)
local notation "Dm" => defaultMethods (exactPrims (SweepNumbers.over N T))
local notation "Gm" => exactGen (exactPrims (SweepNumbers.over N T)) N
local notation "Sm" => SweepNumbers.prims N (SweepNumbers.over N T)

theorem IsNew.le {c : Cls} {h' : Heap K K} {l : Loc} {v : Rel K K} (w : Le ∅ h h') (hr : IsNew c h l v) : IsNew c h' l v := by
  obtain ⟨o, ho⟩ := hr
  obtain ⟨o', ho', -⟩ := ho.le w
  exact ⟨o', ho'⟩

theorem Agree.of_map {α β γ : Type} {R : α → γ → Prop} {a : Except Err α} {x : Except Err β} {g : β → γ}
    (ag : Agree R a (x.map g)) : Agree (fun l s => R l (g s)) a x := by
  rcases a with e | a <;> rcases x with e' | b <;> exact ag

/-- `Sweep.init` up to the spectrogram -/
theorem sweepInit_parts (x : XArg K K) (y : Option (List K)) (f a ap : Option (Rel K K)) :
    (Sweep.init Sm x y f a ap).map (fun s => (s.rel, s.frequencyTime, s.amplitudeTime, s.aPriorSignal)) =
      (do
        let r ← Rel.init x y
        let p ← sweepParts Tm r f a
        pure (r, p.1, p.2, ap)) := by
  unfold Sweep.init
  rcases Rel.init x y with e | r
  · rfl
  have k1 : orDerive f (SweepNumbers.prims N Tm).getFT r = f.elim (derivedFt Tm r) .ok := by rcases f with _ | f <;> rfl
  have k2 : orDerive a (SweepNumbers.prims N Tm).getAT r = a.elim (derivedAt Tm r) .ok := by rcases a with _ | f <;> rfl
  show Except.map _ (orDerive f (SweepNumbers.prims N Tm).getFT r >>= _) = (sweepParts Tm r f a >>= _)
  unfold sweepParts
  rw [k1, k2]
  rcases f.elim (derivedFt Tm r) .ok with e | fv
  · rfl
  rcases a.elim (derivedAt Tm r) .ok with e | av
  · rfl
  show Except.map _ (N.spectro r.y r.x.sample >>= _) =
    (((N.spectro r.y r.x.sample >>= getSpectrogram).map fun _ => ()) >>= _) >>= _
  rcases N.spectro r.y r.x.sample with e | d
  · rfl
  show Except.map _ (getSpectrogram d >>= _) = (((getSpectrogram d).map fun _ => ()) >>= _) >>= _
  rcases getSpectrogram d with e | s <;> rfl

/-- the constructor of a sweep, given a new relation of class `Sweep` -/
theorem runs_sweep {x : HXArg K} {y : HYArg K} {cp : Option Loc} {xa : XArg K K} {ya : Option (List K)}
    (hs : Sim Pm h (relInit Pm Dm .sweep x y cp) (Rel.init xa ya) (IsNew .sweep)) {ft at' ap : Option Loc}
    {fv av apv : Option (Rel K K)} (hf : GivenIs h ft fv) (ha : GivenIs h at' av) (hap : OptIs h ap apv) :
    Runs Pm h (relInit Pm Dm .sweep x y cp >>= fun l => sweepInit Dm l ft at' ap) (Sweep.init Sm xa ya fv av apv)
      SweepIs := by
  have gl : ∀ {h' : Heap K K} {l : Option Loc} {v : Option (Rel K K)}, Le ∅ h h' → GivenIs h l v → GivenIs h' l v := by
    intro h' l v w g
    rcases l with _ | l <;> rcases v with _ | v
    · trivial
    · exact g
    · exact g
    · exact IsNew.le w g
  have k : Runs Pm h (relInit Pm Dm .sweep x y cp >>= fun l => sweepInit Dm l ft at' ap)
      ((Sweep.init Sm xa ya fv av apv).map fun s => (s.rel, s.frequencyTime, s.amplitudeTime, s.aPriorSignal))
      (fun h' l p => SweepOf h' l p.1 p.2.1 p.2.2.1 ap ∧ OptIs h' ap p.2.2.2) := by
    rw [sweepInit_parts]
    refine Runs.bind hs fun l r h1 w1 c1 n1 => ?_
    obtain ⟨o, ho⟩ := n1
    have q := runs_sweepInit c1 ho (gl w1 hf) (gl w1 ha) ap
    have sf := safe_sweepInit (P := Pm) (X := ⟨∅, {l}, ∅⟩) good_defaultMethods (Set.mem_singleton l) ft at' ap h1
    refine ⟨q.coh, ?_⟩
    have ag := q.agree
    have hap' : OptIs (sweepInit Dm l ft at' ap h1).2 ap apv := by
      rcases ap with _ | ap <;> rcases apv with _ | apv
      · trivial
      · exact hap
      · exact hap
      · obtain ⟨c, n⟩ := hap
        obtain ⟨o2, n⟩ := IsNew.le w1 n
        have w := sf.1
        obtain ⟨o', ho', e, -⟩ := w.rels ap o2 n.rel
        obtain ⟨a, hx, ea⟩ := n.x
        obtain ⟨a', hx', ea'⟩ := w.axes _ _ hx
        have ea' := ea' (Set.notMem_empty _)
        obtain ⟨y', hy', ey⟩ := w.yarrs _ _ n.y
        have ey := ey (Set.notMem_empty _)
        refine ⟨c, o', ho', e.cls.trans n.cls, ⟨a', by rw [e.x]; exact hx', ?_⟩, by rw [e.y, hy', ey]⟩
        rw [← ea]; simp [fields, ea'.start, ea'.stop, ea'.sample]
    revert ag hap'
    rcases sweepInit Dm l ft at' ap h1 with ⟨e | a, h2⟩ <;>
      rcases sweepParts Tm r fv av with e' | p <;> intro ag hap'
    · exact ag
    · exact ag
    · exact ag
    · obtain ⟨rfl, hr⟩ := ag
      exact ⟨hr, hap'⟩
  refine ⟨k.coh, ?_⟩
  have ag := k.agree.of_map
  revert ag
  generalize (relInit Pm Dm .sweep x y cp >>= fun l => sweepInit Dm l ft at' ap) h = res
  rcases res with ⟨e | l, h'⟩ <;> rcases Sweep.init Sm xa ya fv av apv with e' | s <;> intro ag
  · exact ag
  · exact ag
  · exact ag
  · exact ⟨ap, ag⟩

theorem sim_newSweep {x : HXArg K} {y : HYArg K} {cp : Option Loc} {xa : XArg K K} {ya : Option (List K)}
    (hs : Sim Pm h (relInit Pm Dm .sweep x y cp) (Rel.init xa ya) (IsNew .sweep)) {ft at' ap : Option Loc}
    {fv av apv : Option (Rel K K)} (hf : GivenIs h ft fv) (ha : GivenIs h at' av) (hap : OptIs h ap apv) :
    Sim Pm h (relInit Pm Dm .sweep x y cp >>= fun l => sweepInit Dm l ft at' ap) (Sweep.init Sm xa ya fv av apv)
      SweepIs := by
  have k := runs_sweep hs hf ha hap
  have sf : Safe Pm ∅ (relInit Pm Dm .sweep x y cp >>= fun l => sweepInit Dm l ft at' ap) :=
    Safe.bindR (safe_relInit good_defaultMethods _ _ _ _) (fresh_relInit good_defaultMethods _ _ _ _) fun _ =>
      safe_sweepInit good_defaultMethods (Set.mem_insert _ _) _ _ _
  exact ⟨(sf h).1, k.coh, k.agree⟩

/-- `type(self)(x, y)` for a sweep -/
theorem sim_construct_sweep {x : HXArg K} {y : HYArg K} {cp : Option Loc} {xa : XArg K K} {ya : Option (List K)}
    (hs : Sim Pm h (relInit Pm Dm .sweep x y cp) (Rel.init xa ya) (IsNew .sweep)) :
    Sim Pm h (construct Pm Dm .sweep x y cp) (Sweep.init Sm xa ya none none none) SweepIs := by
  unfold construct
  exact sim_newSweep hs (ft := none) (at' := none) (ap := none) trivial trivial trivial

/-! ## descriptions and generators -/

/-- a stored description and its value -/
def DescIs (h : Heap K K) : Desc K K → Descr K → Prop
  | .func f, .func a n => f.onArray = a ∧ f.onNumber = n
  | .interp x y, .interp F => x = F.x ∧ h.yarrs[y]? = some F.y
  | _, _ => False

/-- a description as given and its value -/
def ArgIs (h : Heap K K) : DescArg K K → Ftat K → Prop
  | .absent, .absent => True
  | .given d, .func a n => DescIs h d (.func a n)
  | .given d, .interp F => DescIs h d (.interp F)
  | .rel r, .rel v => ∃ c, IsNew c h r v
  | .arr l, .array y => h.yarrs[l]? = some y
  | _, _ => False

/-- a time argument and its value -/
def TimeIs (h : Heap K K) : HTime K → TimeArg K → Prop
  | .none, .none => True
  | .axis l, .axis a => AxIs h l a
  | .array x f, .array y g => x = y ∧ f = g
  | _, _ => False

/-- an optional axis object and its fields -/
def OptAx (h : Heap K K) : Option Loc → Option (Axis K) → Prop
  | none, none => True
  | some l, some a => AxIs h l a
  | _, _ => False

/-- a generator and its value -/
structure GenIs (h : Heap K K) (gen : Gen K K) (u : UncalculatedSweep K) : Prop where
  time : OptAx h gen.time u.time
  freq : DescIs h gen.freq u.frequencyTime
  amp : DescIs h gen.amp u.amplitudeTime

theorem DescIs.le {h' : Heap K K} (w : Le ∅ h h') {d : Desc K K} {D : Descr K} (hd : DescIs h d D) : DescIs h' d D := by
  cases d <;> cases D
  · exact hd
  · exact hd
  · exact hd
  · exact ⟨hd.1, yIs_le w hd.2⟩

theorem ArgIs.le {h' : Heap K K} (w : Le ∅ h h') {d : DescArg K K} {D : Ftat K} (hd : ArgIs h d D) : ArgIs h' d D := by
  cases d <;> cases D <;> try exact hd
  · exact DescIs.le w hd
  · exact DescIs.le w hd
  · obtain ⟨c, n⟩ := hd
    exact ⟨c, n.le w⟩
  · exact yIs_le w hd

theorem OptAx.le {h' : Heap K K} (w : Le ∅ h h') {l : Option Loc} {a : Option (Axis K)} (ha : OptAx h l a) :
    OptAx h' l a := by
  rcases l with _ | l <;> rcases a with _ | a
  · trivial
  · exact ha
  · exact ha
  · exact AxIs.le w ha

theorem sim_interpOfRel (hc : Coh Pm h) {r : Loc} {c : Cls} {v : Rel K K} (hr : IsNew c h r v) :
    Sim Pm h (interpOfRel Pm r) (InterpArr.ofRel v) (fun h' d F => DescIs h' d (.interp F)) := by
  obtain ⟨o, hr⟩ := hr
  unfold interpOfRel InterpArr.ofRel
  refine Sim.read (getRel_run hr.rel) ?_
  refine (sim_axisValues hc hr.x).bind fun x x' h1 w1 c1 e => ?_
  subst e
  refine Sim.read (getY_run (yIs_le w1 hr.y)) ?_
  exact Sim.step (sim_newY c1 v.y) fun l h2 w2 c2 ry => sim_pure c2 ⟨rfl, ry⟩

theorem sim_interpOfAxis (hc : Coh Pm h) {t ly : Loc} {a : Axis K} {y : List K} (ha : AxIs h t a)
    (hy : h.yarrs[ly]? = some y) :
    Sim Pm h (interpOfAxis Pm t ly) (InterpArr.ofAxis a y) (fun h' d F => DescIs h' d (.interp F)) := by
  unfold interpOfAxis InterpArr.ofAxis
  refine Sim.read (getY_run hy) ?_
  refine Sim.step (sim_newY hc y) fun l h1 w1 c1 ry => ?_
  refine (sim_axisValues c1 (ha.le w1)).bind fun x x' h2 w2 c2 e => ?_
  subst e
  exact sim_pure c2 ⟨rfl, yIs_le w2 ry⟩

theorem sim_axisArray (hc : Coh Pm h) {l : Loc} {a : Axis K} (ha : AxIs h l a) :
    Sim Pm h (axisArray Pm l) a.array (fun h' lx x => h'.xarrs[lx]? = some x) := by
  have w := safe_axisArray (P := Pm) (X := ∅) l h
  refine ⟨w.1, w.2 hc, ?_⟩
  obtain ⟨o, ho, rfl⟩ := ha
  have hm : (Pm).mkArr o.start o.stop o.sample = (fields o).array := rfl
  unfold axisArray
  rw [bind_of_ok (getAxis_run ho)]
  rcases hj : o.arr with _ | j
  · simp only [hm]
    rcases (fields o).array with e | v
    · rfl
    · rw [bind_of_ok (lift_run _ _)]
      show (h.xarrs ++ [v])[h.xarrs.length]? = some v
      simp
  · obtain ⟨v, hv, hv'⟩ := (hc l o ho).1 j hj
    rw [hm] at hv'
    rw [hv']
    exact hv

theorem sim_calcAxis (hc : Coh Pm h) {t ly : Loc} {a : Axis K} {y : List K} (ha : AxIs h t a)
    (hy : h.yarrs[ly]? = some y) :
    Sim Pm h (do
        let o ← getAxis t
        let d ← lift ((Gm).respace o.start o.stop y.length)
        let c ← axisNew o.start o.stop d
        let lx ← axisArray Pm c
        let g ← config
        (Dm).interp g.interp lx ly t) (resample a y) (fun h' l w => h'.yarrs[l]? = some w) := by
  obtain ⟨o, ho, rfl⟩ := ha
  refine Sim.read (getAxis_run ho) ?_
  unfold resample
  show Sim Pm h (lift (if y.length = 1 then .error .zeroDivision else .ok ((o.start - o.stop) / ((y.length : K) - 1))) >>= _) _ _
  by_cases h1 : y.length = 1
  · rw [if_pos h1, if_pos h1]
    exact ⟨Le.refl _ _, hc, rfl⟩
  rw [if_neg h1, if_neg h1]
  refine Sim.read rfl ?_
  refine Sim.step (sim_axisNew hc _ _ _) fun c h1 w1 c1 ra => ?_
  refine (sim_axisArray c1 ra).bind fun lx x h2 w2 c2 rx => ?_
  refine Sim.read rfl ?_
  exact sim_defInterp c2 rx (yIs_le (w1.trans w2) hy) (AxIs.le (w1.trans w2) ⟨o, ho, rfl⟩) _

theorem Sim.withOk {P : Prims K K} {α β : Type} {m : HM K K α} {x : Except Err β} {R : Heap K K → α → β → Prop}
    (h1 : Sim P h m x R) : Sim P h m x (fun h' a b => R h' a b ∧ x = .ok b) := by
  refine ⟨h1.le, h1.coh, ?_⟩
  have := h1.agree
  revert this
  rcases (m h).1 with e | a <;> rcases x with e' | b <;> intro hh
  · exact hh
  · exact hh
  · exact hh
  · exact ⟨hh, rfl⟩

theorem Sim.mapR {P : Prims K K} {α β γ : Type} {m : HM K K α} {x : Except Err β} {R : Heap K K → α → β → Prop} {g : β → γ}
    {R' : Heap K K → α → γ → Prop} (h1 : Sim P h m x R) (hR : ∀ h' a b, R h' a b → R' h' a (g b)) :
    Sim P h m (x >>= fun b => pure (g b)) R' := by
  refine ⟨h1.le, h1.coh, ?_⟩
  have := h1.agree
  revert this
  rcases (m h).1 with e | a <;> rcases x with e' | b <;> intro hh
  · exact hh
  · exact hh
  · exact hh
  · exact hR _ _ _ hh

theorem sim_extractDesc (hc : Coh Pm h) {t : Option Loc} {a : Option (Axis K)} (ht : OptAx h t a) {f : PyFun K K}
    {D : Descr K} (hf : DescIs h (.func f) D) {x : DescArg K K} {X : Ftat K} (hx : ArgIs h x X) :
    Sim Pm h (extractDesc Pm Gm Dm t f x) (extract a X D) DescIs := by
  cases x <;> cases X <;> try exact absurd hx id
  · exact sim_pure hc hf
  · exact sim_pure hc hx
  · exact sim_pure hc hx
  · obtain ⟨c, hx⟩ := hx
    exact (sim_interpOfRel hc hx).mapR fun _ _ _ r => r
  · rename_i ly y
    unfold extractDesc extract
    rcases t with _ | t <;> rcases a with _ | a
    · exact sim_raise hc _
    · exact absurd ht id
    · exact absurd ht id
    simp only []
    refine (sim_axisSize hc ht).bind fun n n' h1 w1 c1 e => ?_
    subst e
    have hy := yIs_le w1 hx
    have ht1 := AxIs.le w1 ht
    refine Sim.read (getY_run hy) ?_
    by_cases hn : n ≠ y.length
    · rw [if_pos hn, if_pos hn]
      have k := (sim_calcAxis c1 ht1 hy).bind (f := fun y' => interpOfAxis Pm t y')
        (g := fun y' => InterpArr.ofAxis a y' >>= fun F => pure (.interp F)) (R' := DescIs) fun l y' h2 w2 c2 ry =>
          (sim_interpOfAxis c2 (ht1.le w2) ry).mapR (g := Descr.interp) fun _ _ _ r => r
      simp only [hm_assoc] at k
      exact k
    · rw [if_neg hn, if_neg hn]
      exact (sim_interpOfAxis c1 ht1 hy).mapR fun _ _ _ r => r

theorem sim_genTime (hc : Coh Pm h) (g : ConfigIds) {t : HTime K} {a : TimeArg K} (ht : TimeIs h t a) :
    Sim Pm h (genTime Dm g t) a.toAxis OptAx := by
  cases t <;> cases a <;> try exact absurd ht id
  · exact sim_pure hc trivial
  · exact sim_pure hc ht
  · obtain ⟨rfl, rfl⟩ := ht
    exact (sim_axisFromArray hc _ _ _).bind fun l a h1 w1 c1 r => sim_pure c1 r

theorem sim_genInit (hc : Coh Pm h) {t : HTime K} {a : TimeArg K} (ht : TimeIs h t a) {f am : DescArg K K} {F A : Ftat K}
    (hf : ArgIs h f F) (ha : ArgIs h am A) :
    Sim Pm h (genInit Pm Gm Dm linearFun onesFun t f am) (UncalculatedSweep.init a F A) GenIs := by
  unfold genInit UncalculatedSweep.init
  refine Sim.read rfl ?_
  refine (sim_genTime hc _ ht).bind fun l x h1 w1 c1 r1 => ?_
  refine (sim_extractDesc c1 r1 (D := linearTime) ⟨rfl, rfl⟩ (hf.le w1)).bind fun d D h2 w2 c2 r2 => ?_
  refine (sim_extractDesc c2 (r1.le w2) (D := constOne) ⟨rfl, rfl⟩ (ha.le (w1.trans w2))).bind fun e E h3 w3 c3 r3 => ?_
  exact sim_pure c3 ⟨r1.le (w2.trans w3), r2.le w3, r3⟩

theorem GenIs.le {h' : Heap K K} (w : Le ∅ h h') {gen : Gen K K} {u : UncalculatedSweep K} (hg : GenIs h gen u) :
    GenIs h' gen u := ⟨hg.time.le w, hg.freq.le w, hg.amp.le w⟩

theorem sim_calcTime (hc : Coh Pm h) {gen : Gen K K} {u : UncalculatedSweep K} (hg : GenIs h gen u) {t : HTime K}
    {a : TimeArg K} (ht : TimeIs h t a) :
    Sim Pm h (calcTime Dm gen t) (u.calcTime a) AxIs := by
  unfold UncalculatedSweep.calcTime
  cases t <;> cases a <;> try exact absurd ht id
  · have := hg.time
    unfold calcTime
    show Sim Pm h _ (match (none : Option (Axis K)), u.time with
      | some a, _ => pure a
      | none, some a => pure a
      | none, none => .error .badInput) _
    revert this
    rcases gen.time with _ | t <;> rcases u.time with _ | a <;> intro this
    · exact sim_raise hc _
    · exact absurd this id
    · exact absurd this id
    · exact sim_pure hc this
  · exact sim_pure hc ht
  · obtain ⟨rfl, rfl⟩ := ht
    rename_i x f
    show Sim Pm h (axisFromArray Pm x f true) ((SweepDesign.axisFromArray x f true >>= fun a => pure (some a)) >>= _) _
    rw [bind_assoc]
    exact (sim_axisFromArray hc _ _ _).mapR (g := id) fun _ _ _ r => r

theorem sim_descOn (hc : Coh Pm h) {d : Desc K K} {D : Descr K} (hd : DescIs h d D) {t : Loc} {a : Axis K} (ha : AxIs h t a) :
    Sim Pm h (descOn Pm Gm Dm d t) (D.values a) (fun h' l y => h'.yarrs[l]? = some y) := by
  cases d <;> cases D <;> try exact absurd hd id
  · rename_i f oa on
    obtain ⟨rfl, rfl⟩ := hd
    unfold descOn Descr.values
    refine (sim_axisValues hc ha).bind fun x x' h1 w1 c1 e => ?_
    subst e
    rcases f.onArray x with e | y
    · exact ⟨Le.refl _ _, c1, rfl⟩
    · exact Sim.read rfl (sim_ok (safe_newY _) c1 rfl (by simp))
  · rename_i x y F
    obtain ⟨rfl, hy⟩ := hd
    obtain ⟨o, ho, rfl⟩ := ha
    unfold descOn Descr.values InterpArr.call
    refine Sim.read (getAxis_run ho) ?_
    refine (sim_lift hc (F.stretch (fields o))).bind fun s s' h1 w1 c1 e => ?_
    subst e
    refine Sim.step (sim_newX c1 s) fun lx h2 w2 c2 rx => ?_
    refine Sim.read rfl ?_
    exact sim_defInterp c2 rx (yIs_le (w1.trans w2) hy) (AxIs.le (w1.trans w2) ⟨o, ho, rfl⟩) _

theorem sim_thtOn (hc : Coh Pm h) {gen : Gen K K} {D : Descr K} (hd : DescIs h gen.freq D) {t : Loc} {a : Axis K}
    (ha : AxIs h t a) {v : Option Loc} {y : List K} (hv : ∀ F, D = .interp F → ∃ l, v = some l ∧ h.yarrs[l]? = some y) :
    Sim Pm h (thtOn Pm Gm Dm gen v t) (D.tht Sm y a) (fun _ l r => l = r.y) := by
  unfold thtOn Descr.tht
  revert hd
  rcases gen.freq with f | ⟨x, ly⟩ <;> rcases D with ⟨oa, on⟩ | F <;> intro hd
  · obtain ⟨rfl, rfl⟩ := hd
    simp only []
    unfold funcTht
    show Sim Pm h (defIntFun Pm N f t >>= _) _ _
    unfold defIntFun
    simp only [hm_assoc]
    refine (sim_axisValues hc ha).bind fun x x' h1 w1 c1 e => ?_
    subst e
    obtain ⟨o, ho, e⟩ := ha.le w1
    refine Sim.read (getAxis_run ho) ?_
    have e3 : o.start = a.start := congrArg Axis.start e
    rw [e3]
    refine Sim.step (sim_newY c1 _) fun l h2 w2 c2 ry => ?_
    refine Sim.read rfl ?_
    rw [except_bind_pure_id (Rel.make _ _)]
    refine (sim_relInit_axis c2 Dm .relation ((ha.le w1).le w2) ry none).bind fun r w h3 w3 c3 hr => ?_
    obtain ⟨o, hr⟩ := hr
    exact Sim.read (getRel_run hr.rel) (sim_ok (safe_getY _) c3 (getY_run hr.y) rfl)
  · exact absurd hd id
  · exact absurd hd id
  · obtain ⟨l, rfl, hl⟩ := hv F rfl
    simp only []
    unfold arrayTht
    refine (sim_relInit_axis hc Dm .relation ha hl none).bind fun r w h1 w1 c1 hr => ?_
    obtain ⟨o, hr⟩ := hr
    refine (sim_relIntegrate c1 hr (Fine.of_ne (by decide))).bind fun q i h2 w2 c2 hq => ?_
    obtain ⟨o2, hq⟩ := hq
    refine Sim.read (getRel_run hq.rel) (Sim.read (getY_run hq.y) ?_)
    rw [except_bind_pure_id (Rel.make _ _)]
    refine (sim_relInit_axis_list c2 Dm .relation _ (ha.le (w1.trans w2)) none).bind fun r w h3 w3 c3 hr => ?_
    obtain ⟨o, hr⟩ := hr
    exact Sim.read (getRel_run hr.rel) (sim_ok (safe_getY _) c3 (getY_run hr.y) rfl)

/-- what a call computes once the axis is chosen -/
def callOn (P : SweepPrims K) (u : UncalculatedSweep K) (a : Axis K) (tht0 : K) : Except Err (Sweep K) := do
  let f ← u.frequencyTime.values a
  let ft ← Rel.make a f
  let am ← u.amplitudeTime.values a
  let tht ← u.frequencyTime.tht P f a
  let sw ← npMul am (tht.y.map fun v => P.sin (v + tht0))
  let at' ← Rel.make a am
  Sweep.init P (.axis a) (some sw) (some ft) (some at') none

theorem sim_calculate (hc : Coh Pm h) {gen : Gen K K} {u : UncalculatedSweep K} (hg : GenIs h gen u) (tht0 : K) {t : Loc}
    {a : Axis K} (ha : AxIs h t a) :
    Sim Pm h (calculate Pm Gm Dm gen tht0 t) (callOn Sm u a tht0) SweepIs := by
  have tail : ∀ (h : Heap K K) (v : Option Loc) (_ : Coh Pm h) (_ : GenIs h gen u) (_ : AxIs h t a)
      (_ : ∀ F y, u.frequencyTime = .interp F → u.frequencyTime.values a = .ok y → ∃ l, v = some l ∧ h.yarrs[l]? = some y),
      Sim Pm h (do
        let w ← descOn Pm Gm Dm gen.freq t
        let ft ← relInit Pm Dm .relation (.axis t) (.arr w) none
        let amp ← descOn Pm Gm Dm gen.amp t
        let a ← getY amp
        let th ← thtOn Pm Gm Dm gen v t
        let y ← lift ((Gm).swing a th tht0)
        let at' ← relInit Pm Dm .relation (.axis t) (.arr amp) none
        let s ← relInit Pm Dm .sweep (.axis t) (.list y) none
        sweepInit Dm s (some ft) (some at') none) (callOn Sm u a tht0) SweepIs := by
    intro h v hc hg ha hv
    unfold callOn
    refine (sim_descOn hc hg.freq ha).withOk.bind fun w f h1 w1 c1 r1 => ?_
    obtain ⟨r1, hf⟩ := r1
    refine (sim_relInit_axis c1 Dm .relation (ha.le w1) r1 none).bind fun ft fv h2 w2 c2 r2 => ?_
    have w12 := w1.trans w2
    refine (sim_descOn c2 (hg.amp.le w12) (ha.le w12)).bind fun amp am h3 w3 c3 r3 => ?_
    refine Sim.read (getY_run r3) ?_
    have w13 := w12.trans w3
    refine (sim_thtOn c3 (hg.freq.le w13) (ha.le w13) (y := f) fun F hF => ?_).bind fun th tv h4 w4 c4 r4 => ?_
    · obtain ⟨l, hl, hy⟩ := hv F f hF hf
      exact ⟨l, hl, yIs_le w13 hy⟩
    subst r4
    refine (sim_lift c4 (npMul am (tv.y.map fun v => N.sin (v + tht0)))).bind fun y y' h5 w5 c5 e => ?_
    subst e
    have w35 := w4.trans w5
    refine (sim_relInit_axis c5 Dm .relation ((ha.le w13).le w35) (yIs_le w35 r3) none).bind fun at' av h6 w6 c6 r6 => ?_
    have w36 := w35.trans w6
    exact sim_newSweep (sim_relInit_axis_list c6 Dm .sweep y ((ha.le w13).le w36) none) (ft := some ft) (at' := some at')
      (fv := some fv) (av := some av) (ap := none) (apv := none) (r2.le (w3.trans w36)) r6 trivial
  unfold calculate firstFreq
  have hfr := hg.freq
  rcases hgf : gen.freq with f | ⟨x, ly⟩
  · refine Sim.read rfl ?_
    have k := tail h none hc hg ha fun F y e => ?_
    · rw [hgf] at k
      exact k
    · rw [hgf, e] at hfr
      exact absurd hfr id
  · simp only [hm_assoc]
    rcases hD : u.frequencyTime with ⟨oa, on⟩ | F
    · rw [hgf, hD] at hfr
      exact absurd hfr id
    have dup : callOn Sm u a tht0 = u.frequencyTime.values a >>= fun _ => callOn Sm u a tht0 := by
      rcases hval : u.frequencyTime.values a with e | f
      · unfold callOn
        rw [hval]
        rfl
      · rfl
    rw [dup]
    rw [← hgf]
    refine (sim_descOn hc hg.freq ha).withOk.bind fun w f h1 w1 c1 r1 => ?_
    refine Sim.read rfl ?_
    refine tail h1 (some w) c1 (hg.le w1) (ha.le w1) fun F y _ e => ?_
    rw [r1.2] at e
    cases e
    exact ⟨w, rfl, r1.1⟩

theorem sim_genCall (hc : Coh Pm h) {gen : Gen K K} {u : UncalculatedSweep K} (hg : GenIs h gen u) {t : HTime K}
    {a : TimeArg K} (ht : TimeIs h t a) (tht0 : K) :
    Sim Pm h (genCall Pm Gm Dm gen t tht0) (u.call Sm a tht0) SweepIs :=
  (sim_calcTime hc hg ht).bind fun _ _ _ w1 c1 r1 => sim_calculate c1 (hg.le w1) tht0 r1

/-! ## operators on sweeps -/

theorem sweep_operation_make {a : Axis K} {y : Except Err (List K)} :
    ((y >>= fun y => Rel.make a y) >>= fun r => Sweep.init Sm (.axis r.x) (some r.y) none none none) =
      y >>= fun y => Sweep.init Sm (.axis a) (some y) none none none := by
  rcases y with e | y
  · rfl
  show (Rel.make a y >>= _) = Sweep.init Sm (.axis a) (some y) none none none
  rcases hm : Rel.make a y with e | w
  · unfold Sweep.init
    show _ = (Rel.make a y >>= _)
    rw [hm]; rfl
  · obtain ⟨-, rfl⟩ := (make_ok_iff a y w).1 hm
    rfl

theorem sim_sweep_other (hc : Coh Pm h) {r : Loc} {s : Sweep K} {o : RelObj} (hr : RelIs h r .sweep s.rel o) {w : HOperand K}
    {b : NpOperand K} (hw : OperandIs h w b) (op : MathOp) :
    Sim Pm h (operator Pm Dm r (.other w) op) (s.operation Sm (.other b) op) SweepIs := by
  unfold operator
  refine Sim.read (getRel_run hr.rel) ?_
  have : convertOperand Pm Dm o.cls (.other w) op h = (.ok (.other w), h) := by
    rw [hr.cls]
    unfold convertOperand
    split <;> rfl
  refine Sim.read this ?_
  unfold relOperation Sweep.operation Rel.operation
  rw [sweep_operation_make]
  refine Sim.read (getRel_run hr.rel) ?_
  refine Sim.step (sim_axisCopy hc hr.x) fun nx h1 w1 c1 ra => ?_
  refine Sim.read (getY_run (yIs_le w1 hr.y)) ?_
  refine Sim.step (sim_newY c1 s.rel.y) fun l1 h2 w2 c2 ry => ?_
  refine (sim_defMathOp c2 ry (hw.le (w1.trans w2)) op _).bind fun ny y h3 w3 c3 hy => ?_
  rw [hr.cls]
  exact sim_construct_sweep (sim_relInit_axis c3 Dm .sweep ((ra.le w2).le w3) hy none)

theorem sim_sweep_number (hc : Coh Pm h) {r : Loc} {s : Sweep K} {o : RelObj} (hr : RelIs h r .sweep s.rel o) (a : K)
    (op : MathOp) :
    Sim Pm h (operator Pm Dm r (.number a) op) (s.operation Sm (.other (.num a)) op) SweepIs := by
  have k := sim_sweep_other hc hr (w := .num a) (b := .num a) rfl op
  have e : operator Pm Dm r (.number a) op h = operator Pm Dm r (.other (.num a)) op h := by
    unfold operator
    rw [bind_of_ok (getRel_run hr.rel), bind_of_ok (getRel_run hr.rel), hr.cls]
    have e1 : convertOperand Pm Dm .sweep (.number a) op h = (.ok (.other (.num a)), h) := by
      unfold convertOperand
      split <;> rfl
    have e2 : convertOperand Pm Dm .sweep (.other (.num a)) op h = (.ok (.other (.num a)), h) := by
      unfold convertOperand
      split <;> rfl
    rw [bind_of_ok e1, bind_of_ok e2]
  exact ⟨e ▸ k.le, e ▸ k.coh, e ▸ k.agree⟩

/-- with another object, when the methods deriving descriptions succeed: equalising makes further sweeps -/
theorem sim_sweep_rel (hc : Coh Pm h) {r r2 : Loc} {s : Sweep K} {o o2 : RelObj} (hr : RelIs h r .sweep s.rel o) {c2 : Cls}
    {v2 : Rel K K} (hr2 : RelIs h r2 c2 v2 o2) (hd : Describes Tm) (hcc : c2 ≠ .spectrum) (op : MathOp) :
    Sim Pm h (operator Pm Dm r (.obj r2) op) (s.operation Sm (.rel (decide (o.x = o2.x)) v2) op) SweepIs := by
  have fine : ∀ c, Fine Tm Dm c := fun _ _ => ⟨rfl, hd⟩
  unfold operator
  refine Sim.read (getRel_run hr.rel) ?_
  have : convertOperand Pm Dm o.cls (.obj r2) op h = (.ok (.rel r2), h) := by
    rw [hr.cls]
    unfold convertOperand
    split
    · refine (bind_of_ok (getRel_run hr2.rel)).trans ?_
      rw [hr2.cls, if_neg hcc]; rfl
    · rfl
  refine Sim.read this ?_
  unfold relOperation Sweep.operation Rel.operation
  simp only [bind_assoc]
  refine Sim.read (getRel_run hr.rel) ?_
  refine (sim_relEqualize hc hr hr2 (fine _) (fine _)).bind fun p q h1 w1 k1 hpq => ?_
  obtain ⟨p1, p2⟩ := p
  obtain ⟨q1, q2⟩ := q
  obtain ⟨⟨u1, hu1⟩, ⟨u2, hu2⟩⟩ := hpq
  simp only [] at hu1 hu2 ⊢
  refine Sim.read (getRel_run hu1.rel) (Sim.read (getRel_run hu2.rel) ?_)
  refine Sim.step (sim_axisCopy k1 hu1.x) fun nx h2 w2 k2 ra => ?_
  refine Sim.read (getY_run (yIs_le w2 hu1.y)) ?_
  refine Sim.step (sim_newY k2 q1.y) fun l1 h3 w3 k3 ry1 => ?_
  refine Sim.read (getY_run (yIs_le (w2.trans w3) hu2.y)) ?_
  refine Sim.step (sim_newY k3 q2.y) fun l2 h4 w4 k4 ry2 => ?_
  have e := sweep_operation_make (T := T) (N := N) (a := q1.x) (y := mathOperation q1.y (.arr q2.y) op)
  rw [bind_assoc] at e
  rw [e]
  refine (sim_defMathOp k4 (yIs_le w4 ry1) (w := .arr l2) (b := .arr q2.y) ry2 op _).bind fun ny y h5 w5 k5 hy => ?_
  rw [hr.cls]
  exact sim_construct_sweep (sim_relInit_axis k5 Dm .sweep (ra.le ((w3.trans w4).trans w5)) hy none)

theorem sim_sweepNorm (hc : Coh Pm h) {r : Loc} {s : Sweep K} {o : RelObj} (hr : RelIs h r .sweep s.rel o) :
    Sim Pm h (getNorm Pm Dm r) (s.getNorm Sm) (fun _ a b => a = b) := by
  unfold getNorm relNorm Sweep.getNorm
  refine Sim.read (getRel_run hr.rel) ?_
  refine (sim_sweep_number hc hr (Pm).two .pow).bind fun sq w h1 w1 c1 hsq => ?_
  obtain ⟨ap, ⟨u, lf, la, hu, -⟩, -⟩ := hsq
  have hint : Sim Pm h1 ((Dm).integrateOne o.caps.integrateOne sq) w.rel.oneIntegrate (fun _ a b => a = b) := by
    show Sim _ h1 (defIntegrateOne _ sq) _ _
    unfold defIntegrateOne Rel.oneIntegrate
    refine (sim_relGetData c1 hu).bind fun p d h2 w2 c2 hp => ?_
    obtain ⟨p1, p2⟩ := p
    obtain ⟨d1, d2⟩ := d
    exact Sim.read (getX_run hp.1) (Sim.read (getY_run hp.2) (sim_pure c2 rfl))
  refine hint.bind fun i i' h2 w2 c2 e => ?_
  subst e
  obtain ⟨a, ha, ea⟩ := hr.x.le (w1.trans w2)
  refine Sim.read (getAxis_run ha) ?_
  have e3 : a.sample = s.rel.x.sample := congrArg Axis.sample ea
  rw [e3, div_eq_inv_mul, ← smul_eq_mul]
  exact sim_lift c2 (.ok (s.rel.x.sample⁻¹ • i))

/-! ## a-priori generators -/

theorem Runs.after {P : Prims K K} {α β γ δ : Type} {m : HM K K α} {x : Except Err β} {R : Heap K K → α → β → Prop}
    {f : α → HM K K γ} {g : β → Except Err δ} {R' : Heap K K → γ → δ → Prop} (h1 : Runs P h m x R)
    (h2 : ∀ a b h', Coh P h' → R h' a b → Runs P h' (f a) (g b) R') : Runs P h (m >>= f) (x >>= g) R' := by
  have c := h1.coh; have ag := h1.agree
  rcases hm : m h with ⟨e | a, h'⟩
  · rw [hm] at c ag
    rcases x with e' | b
    · refine ⟨by rw [bind_of_error hm]; exact c, ?_⟩
      rw [bind_of_error hm]; exact ag
    · exact absurd ag id
  · rw [hm] at c ag
    rcases x with e' | b
    · exact absurd ag id
    · have k := h2 a b h' c ag
      refine ⟨by rw [bind_of_ok hm]; exact k.coh, ?_⟩
      rw [bind_of_ok hm]; exact k.agree

/-- the normalised sweep of an a-priori generator -/
def normalised (P : SweepPrims K) (N : SweepNumbers K) (s : Sweep K) (v : Rel K K) : Except Err (Sweep K) := do
  let ns ← s.getNorm P
  let na ← v.getNorm
  let a ← N.sqrt na
  let b ← N.sqrt ns
  if b = 0 then .error .zeroDivision
  else
    let _ ← s.amplitudeTime.mul (.other (.num (a / b)))
    s.operation P (.other (.num (a / b))) .mul

theorem runs_normalise (hc : Coh Pm h) {l ap : Loc} {s : Sweep K} (hs : SweepIs h l s) {c : Cls} {v : Rel K K}
    (hap : IsNew c h ap v) (hn : Fine Tm Dm c) :
    Runs Pm h (normalise Pm Gm Dm l ap) (normalised Sm N s v) (fun h' l' s' => SweepIs h' l' s' ∧ IsNew c h' ap v) := by
  obtain ⟨ap0, ⟨o, lf, la, hr, of, oa, nf, na0, oap⟩, hopt⟩ := hs
  unfold normalise normalised
  refine Runs.bind (sim_sweepNorm hc hr) fun ns ns' h1 w1 c1 e => ?_
  subst e
  obtain ⟨p, hp⟩ := hap.le w1
  refine Runs.bind (sim_relNorm c1 hp hn) fun na na' h2 w2 c2 e => ?_
  subst e
  have w12 := w1.trans w2
  obtain ⟨o2, ho2, e2, m2⟩ := w12.rels l o hr.rel
  have hr2 : RelIs h2 l .sweep s.rel o2 :=
    ⟨ho2, e2.cls.trans hr.cls, by rw [e2.x]; exact hr.x.le w12, by rw [e2.y]; exact yIs_le w12 hr.y⟩
  have oa2 : o2.ampTime = some la := (m2 (Set.notMem_empty _)).ampTime _ oa
  show Runs Pm h2 (lift (N.sqrt na >>= fun a => N.sqrt ns >>= fun b =>
    if b = 0 then .error .zeroDivision else .ok (a / b)) >>= _) _ _
  rcases N.sqrt na with e | a
  · exact ⟨c2, rfl⟩
  rcases N.sqrt ns with e | b
  · exact ⟨c2, rfl⟩
  show Runs Pm h2 (lift (if b = 0 then .error .zeroDivision else .ok (a / b)) >>= _) (if b = 0 then _ else _) _
  by_cases hb : b = 0
  · rw [if_pos hb, if_pos hb]
    exact ⟨c2, rfl⟩
  rw [if_neg hb, if_neg hb]
  refine Runs.step (h' := h2) rfl (Runs.step (getRel_run hr2.rel) ?_)
  rw [oa2]
  simp only []
  obtain ⟨q, hq⟩ := na0.le w12
  refine Runs.bind (sim_operator_number c2 hq (Fine.of_ne (by decide)) (a / b) .mul) fun la' av h3 w3 c3 n3 => ?_
  obtain ⟨o3, hr3, -⟩ := hr2.le w3
  refine Runs.step (getRel_run hr3.rel) (Runs.step putRel_run ?_)
  have fx3 : RelFix o3 { o3 with ampTime := some la' } := ⟨rfl, rfl, rfl, rfl⟩
  have c4 : Coh Pm { h3 with rels := h3.rels.set l { o3 with ampTime := some la' } } := c3
  have hap4 := ((hap.le w12).le w3).set hr3.rel fx3
  have k := sim_sweep_number c4 (hr3.setSelf fx3) (s := s) (a / b) .mul
  refine ⟨k.coh, ?_⟩
  have hap5 := hap4.le k.le
  have ag := k.agree
  revert ag hap5
  generalize operator Pm Dm l (.number (a / b)) .mul { h3 with rels := h3.rels.set l { o3 with ampTime := some la' } } = res
  rcases res with ⟨e | l', h5⟩ <;> rcases s.operation Sm (.other (.num (a / b))) .mul with e' | s' <;> intro hap5 ag
  · exact ag
  · exact ag
  · exact ag
  · exact ⟨ag, hap5⟩

theorem runs_setAprior (hc : Coh Pm h) {l ap : Loc} {s : Sweep K} (hs : SweepIs h l s) {c : Cls} {v : Rel K K}
    (hap : IsNew c h ap v) :
    Runs Pm h (setAprior l (some ap) >>= fun _ => pure l) (pure { s with aPriorSignal := some v }) SweepIs := by
  obtain ⟨ap0, ⟨o, lf, la, hr, of, oa, nf, na, -⟩, -⟩ := hs
  have fx : RelFix o { o with aPrior := some ap } := ⟨rfl, rfl, rfl, rfl⟩
  have e : setAprior l (some ap) h = (.ok (), { h with rels := h.rels.set l { o with aPrior := some ap } }) := by
    unfold setAprior
    rw [bind_of_ok (getRel_run hr.rel)]; rfl
  refine Runs.step e ⟨hc, some ap, ⟨_, lf, la, hr.setSelf fx, of, oa, nf.set hr.rel fx, na.set hr.rel fx, rfl⟩, c, ?_⟩
  exact hap.set hr.rel fx

theorem runs_aprioriCall (hc : Coh Pm h) {gen : Gen K K} {u : UncalculatedSweep K} (hg : GenIs h gen u) {t : HTime K}
    {a : TimeArg K} (ht : TimeIs h t a) (tht0 : K) {ap : Loc} {c : Cls} {v : Rel K K} (hap : IsNew c h ap v)
    (hn : Fine Tm Dm c) (isNormalize : Bool) :
    Runs Pm h (aprioriCall Pm Gm Dm gen ap t tht0 isNormalize)
      (do
        let s ← u.call Sm a tht0
        let s' ← (if isNormalize then normalised Sm N s v else pure s)
        pure { s' with aPriorSignal := some v }) SweepIs := by
  unfold aprioriCall
  refine Runs.bind (sim_genCall hc hg ht tht0) fun l s h1 w1 c1 r1 => ?_
  cases isNormalize
  · rw [if_neg (by simp), if_neg (by simp)]
    exact Runs.step (pure_run _ _) (runs_setAprior c1 r1 (hap.le w1))
  · rw [if_pos rfl, if_pos rfl]
    exact Runs.after (runs_normalise c1 r1 (hap.le w1) hn) fun l' s' h2 c2 r2 => runs_setAprior c2 r2.1 r2.2

end SweepDesign.Mem
