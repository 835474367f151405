import Verif.Heap.RefineFourier
import Verif.Heap.RefinePrepared

/-!
# Heap layer: codes built from signal and sweep objects, and phase operands of every class
-/

set_option linter.unusedSectionVars false

namespace SweepDesign.Mem

open HM Spec

/-! ## new objects have no counterpart -/

section
variable {K V α β : Type} {P : Prims K V} {M : Methods K V} {l : Loc}

/-- the call does not change the counterpart of `l` -/
def KeepsCp (l : Loc) (m : HM K V α) : Prop :=
  ∀ h o, h.rels[l]? = some o → ∃ o', (m h).2.rels[l]? = some o' ∧ o'.counterpart = o.counterpart

theorem KeepsCp.bind {m : HM K V α} {f : α → HM K V β} (hm : KeepsCp l m) (hf : ∀ a, KeepsCp l (f a)) : KeepsCp l (m >>= f) := by
  intro h o ho
  obtain ⟨o1, h1, e1⟩ := hm h o ho
  rcases hr : m h with ⟨e | a, h'⟩
  · rw [hr] at h1
    rw [bind_of_error hr]
    exact ⟨o1, h1, e1⟩
  · rw [hr] at h1
    rw [bind_of_ok hr]
    obtain ⟨o2, h2, e2⟩ := hf a h' o1 h1
    exact ⟨o2, h2, e2.trans e1⟩

theorem Only.keepsCp {m : HM K V α} (hm : Only ∅ m) : KeepsCp l m := fun h o ho => ⟨o, hm h l o ho (Set.notMem_empty _), rfl⟩

theorem keepsCp_edit (e : RelObj → RelObj) (he : ∀ o, (e o).counterpart = o.counterpart) {k : HM K V α} (hk : KeepsCp l k) :
    KeepsCp l (getRel l >>= fun o => putRel l (e o) >>= fun _ => k) := by
  intro h o ho
  rw [bind_of_ok (getRel_run ho), bind_of_ok (m := putRel l (e o)) rfl]
  obtain ⟨o', h', e'⟩ := hk { h with rels := h.rels.set l (e o) } (e o) (set_getElem?_self ho)
  exact ⟨o', h', e'.trans (he o)⟩

theorem keepsCp_sweepInit (oM : OnlyMethods M) (ft at' ap : Option Loc) : KeepsCp l (sweepInit M l ft at' ap) := by
  unfold sweepInit
  refine (only_config.keepsCp).bind fun g => ?_
  refine ((only_givenOr oM _ (oM.getFt _ _)).keepsCp).bind fun f => ?_
  refine keepsCp_edit (fun o => { o with freqTime := some f }) (fun _ => rfl) ?_
  refine ((only_givenOr oM _ (oM.getAt _ _)).keepsCp).bind fun a => ?_
  refine keepsCp_edit (fun o => { o with ampTime := some a }) (fun _ => rfl) ?_
  refine ((oM.spectrogram _ _).keepsCp).bind fun _ => ?_
  exact keepsCp_edit (fun o => { o with aPrior := ap }) (fun _ => rfl) (only_pure _).keepsCp

/-- the returned relation has no counterpart -/
def NoCp (m : HM K V Loc) : Prop := ∀ h l h', m h = (.ok l, h') → ∃ o, h'.rels[l]? = some o ∧ o.counterpart = none

theorem NoCp.bind {m : HM K V α} {f : α → HM K V Loc} (hf : ∀ a, NoCp (f a)) : NoCp (m >>= f) := by
  intro h l h' hh
  rcases hr : m h with ⟨e | a, h1⟩
  · rw [bind_of_error hr] at hh; cases hh
  · rw [bind_of_ok hr] at hh
    exact hf a h1 l h' hh

theorem noCp_raise (e : Err) : NoCp (raise e : HM K V Loc) := by
  intro h l h' hh
  cases hh

theorem noCp_newRel (c : Cls) (g : ConfigIds) (ax ly : Loc) : NoCp (newRel (mkRelObj c g ax ly none) : HM K V Loc) := by
  intro h l h' hh
  cases hh
  exact ⟨mkRelObj c g ax ly none, by simp, rfl⟩

theorem noCp_initAxis (c : Cls) (g : ConfigIds) (ax ly : Loc) : NoCp (initAxis P c g ax ly none) := by
  unfold initAxis
  refine NoCp.bind fun n => NoCp.bind fun y => ?_
  split
  · exact noCp_raise _
  · exact noCp_newRel _ _ _ _

theorem noCp_relInit (c : Cls) (x : HXArg K) (y : HYArg V) : NoCp (relInit P M c x y none) := by
  unfold relInit
  refine NoCp.bind fun g => ?_
  rcases x with r | ax | ⟨l, f⟩
  · exact NoCp.bind fun o => NoCp.bind fun ax => NoCp.bind fun v => NoCp.bind fun ly => noCp_newRel _ _ _ _
  · exact NoCp.bind fun ly => noCp_initAxis _ _ _ _
  · exact NoCp.bind fun ly => NoCp.bind fun ax => noCp_initAxis _ _ _ _

theorem sweepInit_result {ft at' ap : Option Loc} {h h' : Heap K V} {r : Loc} (hh : sweepInit M l ft at' ap h = (.ok r, h')) : r = l := by
  have key : ∀ {γ : Type} (m : HM K V γ) (f : γ → HM K V Loc), (∀ a h1 h2, f a h1 = (.ok r, h2) → r = l) →
      ∀ h1 h2, (m >>= f) h1 = (.ok r, h2) → r = l := by
    intro γ m f hf h1 h2 hr
    rcases hm : m h1 with ⟨e | a, h3⟩
    · rw [bind_of_error hm] at hr; cases hr
    · rw [bind_of_ok hm] at hr
      exact hf a h3 h2 hr
  refine key _ _ (fun g => key _ _ fun f => key _ _ fun o => key _ _ fun _ => key _ _ fun a => key _ _ fun o => key _ _ fun _ =>
    key _ _ fun _ => key _ _ fun o => key _ _ fun _ h1 h2 e => ?_) h h' hh
  cases e; rfl

theorem noCp_construct (oM : OnlyMethods M) (c : Cls) (x : HXArg K) (y : HYArg V) : NoCp (construct P M c x y none) := by
  intro h l h' hh
  unfold construct at hh
  rcases hr : relInit P M c x y none h with ⟨e | a, h1⟩
  · rw [bind_of_error hr] at hh; cases hh
  · rw [bind_of_ok hr] at hh
    obtain ⟨o, ho, hn⟩ := noCp_relInit c x y h a h1 hr
    split at hh
    · have := sweepInit_result hh
      subst this
      obtain ⟨o', ho', e⟩ := keepsCp_sweepInit oM none none none h1 o ho
      rw [hh] at ho'
      exact ⟨o', ho', e.trans hn⟩
    · cases hh
      exact ⟨o, ho, hn⟩

theorem noCp_relSelect (oM : OnlyMethods M) (r : Loc) (s e : Option K) : NoCp (relSelect P M r s e) :=
  NoCp.bind fun _ => NoCp.bind fun _ => NoCp.bind fun _ => NoCp.bind fun _ => NoCp.bind fun _ => NoCp.bind fun _ => noCp_construct oM _ _ _

theorem noCp_relShift (oM : OnlyMethods M) (r : Loc) (d : K) : NoCp (relShift P M r d) :=
  NoCp.bind fun _ => NoCp.bind fun _ => NoCp.bind fun _ => NoCp.bind fun _ => NoCp.bind fun _ => NoCp.bind fun _ => noCp_construct oM _ _ _

theorem noCp_sgAddPhase (oM : OnlyMethods M) (s : Loc) (p : PyOperand V) (op : MathOp) : NoCp (sgAddPhase P M s p op) :=
  NoCp.bind fun _ => NoCp.bind fun _ => NoCp.bind fun _ => NoCp.bind fun _ => noCp_construct oM _ _ _

theorem noCp_shift (oM : OnlyMethods M) (r : Loc) (d : K) : NoCp (shift P M r d) := by
  refine NoCp.bind fun o => ?_
  split
  · exact NoCp.bind fun _ => NoCp.bind fun _ => NoCp.bind fun _ => NoCp.bind fun _ => noCp_sgAddPhase oM _ _ _
  · exact noCp_relShift oM _ _

end

noncomputable section

variable {T : Transcendental ℝ ℂ} {h h' : Heap ℝ ℂ} {L : LibPrims ℝ ℂ}

local notation "Pf" => exactPrims (fourier T)
local notation "Df" => defaultMethods (exactPrims (fourier T))

/-! ## signal objects whose cache fits -/

/-- `s` is an object of class `c` with the real values `v`; a cached spectrum is the spectrum of `v` -/
def Sig (h : Heap ℝ ℂ) (s : Loc) (c : Cls) (v : Rel ℝ ℝ) : Prop := ∃ o, RelIs h s c v.toComplex o ∧ FreshSpectrum h o v

theorem Sig.isNew {s : Loc} {c : Cls} {v : Rel ℝ ℝ} (hs : Sig h s c v) : IsNew c h s v.toComplex := hs.imp fun _ => And.left

theorem relIs_unique {s : Loc} {c1 c2 : Cls} {v1 v2 : Rel ℝ ℝ} {o1 o2 : RelObj} (h1 : RelIs h s c1 v1.toComplex o1)
    (h2 : RelIs h s c2 v2.toComplex o2) : c1 = c2 ∧ v1 = v2 := by
  have ho : o1 = o2 := Option.some.inj (h1.rel.symm.trans h2.rel)
  subst ho
  refine ⟨h1.cls.symm.trans h2.cls, toComplex_injective ?_⟩
  have hy : v1.toComplex.y = v2.toComplex.y := Option.some.inj (h1.y.symm.trans h2.y)
  obtain ⟨a, ha, ea⟩ := h1.x
  obtain ⟨b, hb, eb⟩ := h2.x
  have hab : a = b := Option.some.inj (ha.symm.trans hb)
  have hx : v1.toComplex.x = v2.toComplex.x := by rw [← ea, ← eb, hab]
  generalize v1.toComplex = A at *
  generalize v2.toComplex = B at *
  cases A; cases B; simp_all

theorem Sig.keep {s : Loc} {c : Cls} {v : Rel ℝ ℝ} (hs : Sig h s c v) (w : Le ∅ h h')
    (hk : ∀ o, h.rels[s]? = some o → h'.rels[s]? = some o) : Sig h' s c v := by
  obtain ⟨o, ho, hf⟩ := hs
  obtain ⟨o', ho', -⟩ := ho.le w
  have : o' = o := Option.some.inj (ho'.rel.symm.trans (hk o ho.rel))
  subst this
  exact ⟨o', ho', hf.le w⟩

theorem Sig.of_none {s : Loc} {c : Cls} {v : Rel ℝ ℝ} (hs : IsNew c h s v.toComplex)
    (hn : ∃ o, h.rels[s]? = some o ∧ o.counterpart = none) : Sig h s c v := by
  obtain ⟨o, ho⟩ := hs
  obtain ⟨o', ho', e⟩ := hn
  have : o' = o := Option.some.inj (ho'.symm.trans ho.rel)
  subst this
  exact ⟨o', ho, fun k hk => by rw [e] at hk; cases hk⟩

section
variable {α β : Type} {P : Prims ℝ ℂ}

/-- what is known of every run of the program may be added to a simulation -/
theorem Sim.also {m : HM ℝ ℂ α} {x : Except Err β} {R : Heap ℝ ℂ → α → β → Prop} (hs : Sim P h m x R)
    {Q : Heap ℝ ℂ → α → Prop} (hq : ∀ a h', m h = (.ok a, h') → Q h' a) : Sim P h m x (fun h' a b => R h' a b ∧ Q h' a) := by
  refine ⟨hs.le, hs.coh, ?_⟩
  have ag := hs.agree
  rcases hm : m h with ⟨e | a, h'⟩
  · rw [hm] at ag; rcases x with e' | b <;> exact ag
  · rw [hm] at ag
    rcases x with e' | b
    · exact ag
    · exact ⟨ag, hq a h' hm⟩

/-- the objects outside `S` are as before -/
def Kept (S : Set Loc) (h h' : Heap ℝ ℂ) : Prop := ∀ l o, h.rels[l]? = some o → l ∉ S → h'.rels[l]? = some o

theorem Sim.kept {m : HM ℝ ℂ α} {x : Except Err β} {R : Heap ℝ ℂ → α → β → Prop} (hs : Sim P h m x R) {S : Set Loc} (ho : Only S m) :
    Sim P h m x (fun h' a b => R h' a b ∧ Kept S h h') := hs.run fun _ => ho h

end

theorem Sig.kept {S : Set Loc} {s : Loc} {c : Cls} {v : Rel ℝ ℝ} (hs : Sig h s c v) (w : Le ∅ h h') (hk : Kept S h h') (hn : s ∉ S) :
    Sig h' s c v := hs.keep w fun o ho => hk s o ho hn

theorem IsNew.lt {c : Cls} {s : Loc} {v : Rel ℝ ℂ} (hs : IsNew c h s v) : s < h.rels.length := by
  obtain ⟨o, ho⟩ := hs
  exact (List.getElem?_eq_some_iff.1 ho.rel).1

/-- every signal whose cache fitted before is one now -/
def Sigs (h h' : Heap ℝ ℂ) : Prop := ∀ s c v, Sig h s c v → Sig h' s c v

theorem Sim.sig {m : HM ℝ ℂ Loc} {x : Except Err (Rel ℝ ℝ)} {c : Cls} (hs : Sim Pf h m (x.map Rel.toComplex) (IsNew c)) (hn : NoCp m) :
    Sim Pf h m x (fun h' l v => Sig h' l c v) :=
  (hs.of_map.also fun l h' hm => hn h l h' hm).mono fun _ _ _ hh => .of_none hh.1 hh.2

/-- `get_spectrum` fills the cache with the right spectrum -/
theorem sim_getSpectrum_sigs (hc : Coh Pf h) {s : Loc} {c : Cls} {v : Rel ℝ ℝ} (hs : Sig h s c v) :
    Sim Pf h (Mem.getSpectrum Pf Df s) v.getSpectrum (fun h' l w => IsNew .spectrum h' l w ∧ Sigs h h') := by
  obtain ⟨o, ho, hf⟩ := hs
  refine ((sim_getSpectrum hc ho hf).eq.kept (only_getSpectrum good_defaultMethods only_defaultMethods (S := {s}) rfl .none false)).run
    (Q := fun h' => Le ∅ h h') (fun w => w) |>.mono ?_
  rintro h' l u ⟨⟨⟨⟨hl, hcp⟩, e⟩, hk⟩, w⟩
  refine ⟨hl, fun s' c' v' hs' => ?_⟩
  by_cases hss : s' = s
  · subst hss
    obtain ⟨o', ho', -⟩ := hs'
    obtain ⟨rfl, rfl⟩ := relIs_unique ho ho'
    obtain ⟨o2, ho2, -⟩ := ho.le w
    exact ⟨o2, ho2, .of_cpIs ho2.rel hcp hl e⟩
  · exact hs'.kept w hk hss

/-- a new signal of class `c` on its own axis object, nothing cached -/
structure NewSig (h : Heap ℝ ℂ) (c : Cls) (h' : Heap ℝ ℂ) (l : Loc) (v : Rel ℝ ℝ) : Prop where
  own : ∃ o, RelIs h' l c v.toComplex o ∧ h.axes.length ≤ o.x ∧ o.x < h'.axes.length
  sig : Sig h' l c v
  fresh : h.rels.length ≤ l

/-- `shift` of a signal object -/
theorem sim_shift_sig (hc : Coh Pf h) {s : Loc} {c : Cls} {v : Rel ℝ ℝ} (hs : Sig h s c v) (hk : c.isSignal = true)
    (hn : Fine (fourier T) Df c) (d : ℝ) :
    Sim Pf h (Mem.shift Pf Df s d) (v.signalShift d) (fun h' l w => NewSig h c h' l w ∧ Sigs h h') := by
  obtain ⟨o, ho, hf⟩ := hs
  have e : Mem.shift Pf Df s d h = Mem.sgShift Pf Df s d h := by
    unfold Mem.shift
    rw [bind_of_ok (getRel_run ho.rel), ho.cls, hk]; rfl
  have gM := good_defaultMethods (P := Pf)
  have oM := only_defaultMethods (P := Pf)
  have k := (((sim_sgShift_fresh hc ho hn hf d).congr e).of_map.kept (only_shift gM oM (S := {s}) rfl d)).run
    (Q := fun h' => Le ∅ h h') (fun w => w)
  have k2 := (k.also (Q := fun h' l => (∃ o, OwnsParts h h' l o) ∧ ∃ o, h'.rels[l]? = some o ∧ o.counterpart = none) fun l h' hm =>
    ⟨ownM_shift gM s d h l h' hm, noCp_shift oM s d h l h' hm⟩)
  refine k2.mono ?_
  rintro h' l u ⟨⟨⟨⟨hl, hfr⟩, hkp⟩, w⟩, ⟨o1, ho1⟩, hno⟩
  have hsig := Sig.of_none hl hno
  refine ⟨⟨?_, hsig, ho1.isNew⟩, fun s' c' v' hs' => ?_⟩
  · obtain ⟨o2, ho2⟩ := hl
    have : o1 = o2 := Option.some.inj (ho1.rel.symm.trans ho2.rel)
    subst this
    exact ⟨o1, ho2, ho1.axis, ho1.axis_lt⟩
  · by_cases hss : s' = s
    · subst hss
      obtain ⟨o', ho', -⟩ := hs'
      obtain ⟨rfl, rfl⟩ := relIs_unique ho ho'
      obtain ⟨o2, ho2, -⟩ := ho.le w
      exact ⟨o2, ho2, hfr o2 ho2.rel⟩
    · exact hs'.kept w hkp hss

/-! ## phase operands -/

/-- what `_input2spectrum` makes of the object `so` (`spectrum.py:304-314`) -/
inductive AsSpectrum (h : Heap ℝ ℂ) (so : Loc) : Except Err (Rel ℝ ℂ) → Prop
  | plain (c : Cls) (w : Rel ℝ ℂ) (hw : IsNew c h so w) (hc : c.isSignal = false) : AsSpectrum h so (.ok w)
  | signal (c : Cls) (u : Rel ℝ ℝ) (hu : Sig h so c u) (hc : c.isSignal = true) : AsSpectrum h so u.getSpectrum

theorem sim_input2spectrum (hc : Coh Pf h) {so : Loc} {x : Except Err (Rel ℝ ℂ)} (hx : AsSpectrum h so x) :
    Sim Pf h (input2spectrum Pf Df (.obj so)) x (IsNew .spectrum) := by
  rcases hx with ⟨c, w, ⟨o, ho⟩, hk⟩ | ⟨c, u, hu, hk⟩
  · refine Sim.read (getRel_run ho.rel) ?_
    rw [ho.cls, hk]
    by_cases hsp : c = .spectrum
    · subst hsp
      exact sim_pure hc ⟨o, ho⟩
    · rw [if_neg (by simp), if_neg hsp]
      exact sim_construct_rel hc _ (.of_ne (by decide)) ho (by simp) .absent none
  · have hs := hu
    obtain ⟨o, ho, -⟩ := hu
    refine Sim.read (getRel_run ho.rel) ?_
    rw [ho.cls, if_pos hk]
    exact (sim_getSpectrum_sigs hc hs).mono fun _ _ _ => And.left

theorem sim_spAddPhase_any (hc : Coh Pf h) {s so : Loc} {c : Cls} {v : Rel ℝ ℂ} {x : Except Err (Rel ℝ ℂ)} (hs : IsNew c h s v)
    (hso : AsSpectrum h so x) (op : MathOp) (hp : op.isPow = false) :
    Sim Pf h (Mem.spAddPhase Pf Df s (.obj so) op) (x >>= fun w => withPhase op v w) (IsNewCp .spectrum none) := by
  have e : Mem.spAddPhase Pf Df s (.obj so) op = (input2spectrum Pf Df (.obj so) >>= fun k => do
      let amp ← getAmp Pf Df s
      let p1 ← getPhase Pf Df s
      let p2 ← getPhase Pf Df k
      let p ← operator Pf Df p1 (.obj p2) op
      fromAmpPhase Pf Df amp p) := rfl
  rw [e]
  refine (sim_input2spectrum hc hso).bind fun k w h1 w1 c1 hk => ?_
  obtain ⟨o1, hs1⟩ := hs.later w1
  obtain ⟨ok, hk⟩ := hk
  refine (sim_spAddPhase c1 hs1 hk rfl op hp).congr ?_
  unfold Mem.spAddPhase
  have hin : input2spectrum Pf Df (.obj k) h1 = (.ok k, h1) := by
    refine (bind_of_ok (getRel_run hk.rel)).trans ?_
    rw [hk.cls]; rfl
  rw [bind_of_ok hin]

theorem AsSpectrum.later {so : Loc} {x : Except Err (Rel ℝ ℂ)} (hx : AsSpectrum h so x) (w : Le ∅ h h') (hs : Sigs h h') :
    AsSpectrum h' so x := by
  rcases hx with ⟨c, v, hv, hk⟩ | ⟨c, u, hu, hk⟩
  · exact .plain c v (hv.later w) hk
  · exact .signal c u (hs _ _ _ hu) hk

theorem sim_sgAddPhase_any (hc : Coh Pf h) {s so : Loc} {c : Cls} {v : Rel ℝ ℝ} {x : Except Err (Rel ℝ ℂ)}
    (hs : Sig h s c v) (hn : Fine (fourier T) Df c) (hso : AsSpectrum h so x) (op : MathOp) (hp : op.isPow = false) :
    Sim Pf h (Mem.sgAddPhase Pf Df s (.obj so) op) ((do
      let sp ← v.getSpectrum
      let w ← x
      let q ← withPhase op sp w
      let g ← q.getSignal (.axis v.x)
      Rel.init (.rel g) none).map Rel.toComplex) (IsNew c) := by
  have hs0 := hs
  obtain ⟨o, ho, -⟩ := hs
  unfold Mem.sgAddPhase
  refine Sim.read (getRel_run ho.rel) ?_
  rw [except_map_bind]
  refine (sim_getSpectrum_sigs hc hs0).bind fun sp vs h1 w1 c1 hsp => ?_
  obtain ⟨hsp, hss⟩ := hsp
  have k := (sim_spAddPhase_any c1 hsp (hso.later w1 hss) op hp).bind
    (f := fun q => Mem.getSignal Pf Df q (.axis o.x) >>= fun g => construct Pf Df o.cls (.rel g) .absent)
    (g := fun w => (w.getSignal (.axis v.x) >>= fun s => Rel.init (.rel s) none).map Rel.toComplex) (R' := IsNew c)
    fun q vq h2 w2 c2 hq => by
      rw [ho.cls]
      exact sim_backToSignal c2 hq (ho.x.le (w1.trans w2)) hn
  rw [bind_assoc] at k
  simp only [except_map_bind] at k ⊢
  exact k

/-! ## zinger codes -/

theorem Sim.real_op {m : HM ℝ ℂ Loc} {v : Rel ℝ ℝ} {b : Operand ℝ ℝ} {op : MathOp} (hp : op.isPow = false) {c : Cls}
    (hs : Sim Pf h m (v.toComplex.operation b.toC op) (IsNew c)) :
    Sim Pf h m (v.operation b op) (fun h' l w => IsNew c h' l w.toComplex) := by
  rw [operation_toComplex _ _ _ hp] at hs
  exact hs.of_map

/-- `acc + s` where `s` is a new signal -/
theorem sim_add_new {h1 : Heap ℝ ℂ} {acc s : Loc} {c : Cls} {va vs : Rel ℝ ℝ} (hk : c.isSignal = true) (hn : Fine (fourier T) Df c)
    (ha : IsNew c h acc va.toComplex) (w : Le ∅ h h1) (hc : Coh Pf h1)
    (hs : ∃ o, RelIs h1 s c vs.toComplex o ∧ h.axes.length ≤ o.x ∧ o.x < h1.axes.length) (hf : h.rels.length ≤ s) :
    Sim Pf h1 (operator Pf Df acc (.obj s) .add) (va.add (.rel false vs))
      (fun h' l w => IsNew c h' l w.toComplex ∧ ∀ s' c' v', s' < h.rels.length → Sig h1 s' c' v' → Sig h' s' c' v') := by
  have hcs : c ≠ .spectrum := by rintro rfl; cases hk
  have k := (sim_operator_later ha w hc hs hn hn .add fun _ => ⟨fun _ => hcs, fun e => absurd e hcs⟩)
  have k2 := (Sim.real_op (v := va) (b := .rel false vs) rfl k).kept
    (only_operator good_defaultMethods only_defaultMethods (S := {s}) acc (.obj s) .add (fun _ hx => hx))
  refine (k2.run (Q := fun h' => Le ∅ h1 h') fun w => w).mono ?_
  rintro h' l u ⟨⟨hl, hkp⟩, w'⟩
  refine ⟨hl, fun s' c' v' hlt hs' => hs'.kept w' hkp ?_⟩
  rintro rfl
  exact absurd hf (Nat.not_le.2 hlt)

theorem sim_zingerLoop_signal (hL : ∀ n x, L.times n x = n * x) {r : Loc} {c : Cls} {v : Rel ℝ ℝ} (hk : c.isSignal = true)
    (hn : Fine (fourier T) Df c) (ks : List ℕ) :
    ∀ {h : Heap ℝ ℂ} {acc : Loc} {va : Rel ℝ ℝ}, Coh Pf h → Sig h r c v → IsNew c h acc va.toComplex →
      Sim Pf h (zingerLoop Pf L Df r ks acc) (ks.foldlM (fun sequence (k : ℕ) => do
        let shifted ← v.signalShift (v.x.stop * k)
        sequence.add (.rel false shifted)) va) (fun h' l w => IsNew c h' l w.toComplex) := by
  induction ks with
  | nil => intro h acc va hc _ ha; exact sim_pure hc ha
  | cons k ks ih =>
    intro h acc va hc hr ha
    rw [List.foldlM_cons]
    simp only [bind_assoc]
    refine Sim.axisOf hr.isNew fun o a ho hax e => ?_
    have e1 : L.times k a.stop = v.x.stop * k := by
      rw [hL, mul_comm, show a.stop = v.x.stop from congrArg Axis.stop e]
    rw [e1]
    refine (sim_shift_sig hc hr hk hn _).bind fun s vs h1 w1 c1 hs => ?_
    obtain ⟨hs, hss⟩ := hs
    refine (sim_add_new hk hn ha w1 c1 hs.own hs.fresh).bind fun acc' va' h2 w2 c2 ha' => ?_
    exact ih c2 (ha'.2 _ _ _ hr.isNew.lt (hss _ _ _ hr)) ha'.1

theorem sim_zinger_signal (hL : ∀ n x, L.times n x = n * x) (hc : Coh Pf h) {r : Loc} {c : Cls} {v : Rel ℝ ℝ} (hr : Sig h r c v)
    (hk : c.isSignal = true) (hn : Fine (fourier T) Df c) (n : ℤ) :
    Sim Pf h (zingerRelation Pf L Df r n) ((getCodeZingerSignal v n).map Rel.toComplex) (IsNew c) := by
  unfold zingerRelation getCodeZingerSignal
  refine Sim.to_map ?_
  split
  · exact sim_zingerLoop_signal hL hk hn _ hc hr hr.isNew
  · exact sim_pure hc hr.isNew

/-! ## segments -/

theorem sim_entry_real (hc : Coh Pf h) {r : Loc} {c : Cls} {v : Rel ℝ ℝ} (hr : IsNew c h r v.toComplex) (hn : Fine (fourier T) Df c)
    (hcs : c ≠ .spectrum) {p : PyOperand ℂ} {a : ℝ} (hp : EntryIs p (a : ℂ)) (op : MathOp) (hpow : op.isPow = false) :
    Sim Pf h (operator Pf Df r p op) (v.operation (.other (.num a)) op) (fun h' l w => IsNew c h' l w.toComplex) :=
  Sim.real_op (b := .other (.num a)) hpow (sim_operator_entry hc hr hn hcs hp op)

theorem only_operator_entry {r : Loc} {p : PyOperand ℂ} {a : ℂ} (hp : EntryIs p a) (op : MathOp) :
    Only ∅ (operator Pf Df r p op) := by
  refine only_operator good_defaultMethods only_defaultMethods r p op ?_
  rcases p with _ | q | _
  · exact absurd hp id
  · exact fun _ hx => hx
  · exact fun _ hx => hx

theorem sim_segmentsLoop_signal (hL : ∀ n x, L.times n x = n * x) {base : Loc} {c : Cls} {v : Rel ℝ ℝ} (hk : c.isSignal = true)
    (hn : Fine (fourier T) Df c) (code : List ℝ) :
    ∀ {h : Heap ℝ ℂ} {es : List (PyOperand ℂ)} {cnt : ℕ} {acc : Loc} {va : Rel ℝ ℝ}, List.Forall₂ EntryIs es (castC code) → Coh Pf h →
      Sig h base c v → IsNew c h acc va.toComplex →
      Sim Pf h (segmentsLoop Pf L Df base cnt es acc) (codeSegmentsSignalLoop v cnt code va)
        (fun h' l w => IsNew c h' l w.toComplex) := by
  have hcs : c ≠ .spectrum := by rintro rfl; cases hk
  induction code with
  | nil => intro h es cnt acc va he hc _ ha; cases he; exact sim_pure hc ha
  | cons b code ih =>
    intro h es cnt acc va he hc hr ha
    rcases es with _ | ⟨e, es⟩
    · cases he
    obtain ⟨he1, he2⟩ := List.forall₂_cons.1 he
    unfold segmentsLoop codeSegmentsSignalLoop
    refine Sim.axisOf hr.isNew fun o a ho hax ea => ?_
    have e1 : (Pf).add (L.times cnt a.stop) a.sample = cnt * v.x.stop + v.x.sample := by
      rw [hL, show a.stop = v.x.stop from congrArg Axis.stop ea, show a.sample = v.x.sample from congrArg Axis.sample ea]; rfl
    rw [e1]
    refine (sim_shift_sig hc hr hk hn _).bind fun s vs h1 w1 c1 hs => ?_
    obtain ⟨hs, hss⟩ := hs
    have km := (sim_entry_real c1 hs.sig.isNew hn hcs he1 .mul rfl).kept (only_operator_entry he1 .mul)
    have km2 := km.also (Q := fun h' l => ∃ o, OwnsParts h1 h' l o) fun l h' hm => ownM_operator good_defaultMethods _ _ _ h1 l h' hm
    refine km2.bind fun q vq h2 w2 c2 hq => ?_
    obtain ⟨⟨⟨oq, hq⟩, hkp⟩, o1, ho1⟩ := hq
    have : o1 = oq := Option.some.inj (ho1.rel.symm.trans hq.rel)
    subst this
    have hb2 : Sig h2 base c v := (hss _ _ _ hr).kept w2 hkp (Set.notMem_empty _)
    refine (sim_add_new hk hn (ha.later w1) w2 c2 ⟨o1, hq, ho1.axis, ho1.axis_lt⟩ ho1.isNew).bind fun acc' va' h3 w3 c3 ha' => ?_
    exact ih he2 c3 (ha'.2 _ _ _ (hss _ _ _ hr).isNew.lt hb2) ha'.1

/-- the values of the sweep `get_code_sweep_segments` returns for a signal -/
def segmentValues (code : List ℝ) (base : Rel ℝ ℝ) : Except Err (Rel ℝ ℝ) :=
  match code with
  | [] => .error .index
  | c :: rest => do
    let acc ← base.mul (.other (.num c))
    codeSegmentsSignalLoop base 1 rest acc

theorem balanced_toComplex {v : Rel ℝ ℝ} (hb : Balanced v) : Balanced v.toComplex := by
  simpa [Balanced, Rel.toComplex] using hb

theorem operation_balanced {v w : Rel ℝ ℝ} {b : Operand ℝ ℝ} {op : MathOp} (e : v.operation b op = .ok w) : Balanced w := by
  rcases b with ⟨s, q⟩ | b
  · obtain ⟨p, -, e⟩ := except_bind_eq_ok.1 e
    obtain ⟨y, -, e⟩ := except_bind_eq_ok.1 e
    exact balanced_of_make e
  · obtain ⟨y, -, e⟩ := except_bind_eq_ok.1 e
    exact balanced_of_make e

theorem segmentsLoop_balanced {base : Rel ℝ ℝ} (code : List ℝ) : ∀ {cnt : ℕ} {acc w : Rel ℝ ℝ}, Balanced acc →
    codeSegmentsSignalLoop base cnt code acc = .ok w → Balanced w := by
  induction code with
  | nil => intro cnt acc w hb e; cases e; exact hb
  | cons b code ih =>
    intro cnt acc w _ e
    obtain ⟨s, -, e⟩ := except_bind_eq_ok.1 e
    obtain ⟨p, -, e⟩ := except_bind_eq_ok.1 e
    obtain ⟨a, ha, e⟩ := except_bind_eq_ok.1 e
    exact ih (operation_balanced ha) e

theorem segmentValues_balanced {code : List ℝ} {base w : Rel ℝ ℝ} (e : segmentValues code base = .ok w) : Balanced w := by
  rcases code with _ | ⟨c, rest⟩
  · cases e
  · obtain ⟨a, ha, e⟩ := except_bind_eq_ok.1 e
    exact segmentsLoop_balanced rest (operation_balanced ha) e

theorem sim_segments_signal (hL : ∀ n x, L.times n x = n * x) (hc : Coh Pf h) {code : HCode ℂ} {y : List ℝ}
    (hy : CodeIs h code (castC y)) {base : Loc} {c : Cls} {v : Rel ℝ ℝ} (hr : Sig h base c v) (hk : c.isSignal = true)
    (hn : Fine (fourier T) Df c) (hd : Fine (fourier T) Df .sweep) :
    Sim Pf h (codeSweepSegments Pf L Df code base) ((segmentValues y v).map Rel.toComplex) (IsNew .sweep) := by
  have hcs : c ≠ .spectrum := by rintro rfl; cases hk
  unfold codeSweepSegments
  refine Sim.step (sim_codeEntries hc hy) fun es h1 w1 c1 hes => ?_
  obtain ⟨rfl, hes⟩ := hes
  rcases y with _ | ⟨a, y⟩
  · cases hes; exact sim_raise hc _
  · rcases es with _ | ⟨e, es⟩
    · cases hes
    obtain ⟨he1, he2⟩ := List.forall₂_cons.1 hes
    have k : Sim Pf h1 (operator Pf Df base e .mul >>= fun acc => segmentsLoop Pf L Df base 1 es acc) (segmentValues (a :: y) v)
        (fun h' l w => IsNew c h' l w.toComplex) := by
      refine (((sim_entry_real hc hr.isNew hn hcs he1 .mul rfl).kept (only_operator_entry he1 .mul))).bind fun acc va h2 w2 c2 ha => ?_
      exact sim_segmentsLoop_signal hL hk hn y he2 c2 (hr.kept w2 ha.2 (Set.notMem_empty _)) ha.1
    have k2 := k.eq.bind (f := fun acc => construct Pf Df .sweep (.rel acc) .absent) (g := fun r => .ok r.toComplex) (R' := IsNew .sweep)
      fun acc va h2 w2 c2 ha => by
        obtain ⟨⟨o, ho⟩, e⟩ := ha
        exact sim_construct_rel c2 _ hd ho (fun _ => balanced_toComplex (segmentValues_balanced e)) .absent none
    rw [hm_assoc] at k2
    have e : (segmentValues (a :: y) v).map Rel.toComplex = segmentValues (a :: y) v >>= fun r => .ok r.toComplex := by
      rcases segmentValues (a :: y) v with e | w <;> rfl
    rw [e]
    exact k2

/-! ## convolution with a code -/

/-- an object that may be convolved: a relation, or a signal whose cache fits -/
def Arg (h : Heap ℝ ℂ) (s : Loc) (c : Cls) (v : Rel ℝ ℝ) : Prop :=
  IsNew c h s v.toComplex ∧ c ≠ .spectrum ∧ (c.isSignal = true → Sig h s c v)

theorem Arg.kept {s : Loc} {c : Cls} {v : Rel ℝ ℝ} (hs : Arg h s c v) (w : Le ∅ h h') (hk : Kept ∅ h h') : Arg h' s c v :=
  ⟨hs.1.later w, hs.2.1, fun k => (hs.2.2 k).kept w hk (Set.notMem_empty _)⟩

theorem sim_inp2signal (hc : Coh Pf h) {s : Loc} {c : Cls} {v : Rel ℝ ℝ} (hs : Arg h s c v) (hn : Fine (fourier T) Df c) :
    Sim Pf h (inp2signal Pf Df (.obj s)) (.ok v)
      (fun h' l w => (∃ c', Sig h' l c' w ∧ c'.isSignal = true ∧ Fine (fourier T) Df c') ∧ Kept ∅ h h') := by
  obtain ⟨⟨o, ho⟩, hsp, hsig⟩ := hs
  refine Sim.read (getRel_run ho.rel) ?_
  rw [ho.cls, if_neg hsp]
  by_cases hk : c.isSignal = true
  · rw [if_pos hk]
    exact sim_pure hc ⟨⟨c, hsig hk, hk, hn⟩, fun _ _ ho _ => ho⟩
  · rw [if_neg hk]
    have k : Sim Pf h (construct Pf Df .signal (.rel s) .absent none) ((.ok v : Except Err (Rel ℝ ℝ)).map Rel.toComplex) (IsNew .signal) :=
      sim_construct_rel hc _ (.of_ne (by decide)) ho (by simp) .absent none
    refine ((k.sig (noCp_construct only_defaultMethods _ _ _)).kept
      (S := ∅) (only_construct good_defaultMethods only_defaultMethods _ _ _ _)).mono ?_
    rintro h' l w ⟨hs, hkp⟩
    exact ⟨⟨.signal, hs, rfl, .of_ne (by decide)⟩, hkp⟩

theorem sim_clsConv_any (hc : Coh Pf h) {s1 s2 : Loc} {k1 k2 kc : Cls} {v1 v2 : Rel ℝ ℝ} (h1 : Arg h s1 k1 v1) (h2 : Arg h s2 k2 v2)
    (gc : kc.isSignal = true) (n1 : Fine (fourier T) Df k1) (n2 : Fine (fourier T) Df k2) (nc : Fine (fourier T) Df kc)
    {np : List ℂ → List ℂ → List ℂ} (npr : List ℝ → List ℝ → List ℝ) (hnp : ∀ a b, np (castC a) (castC b) = castC (npr a b))
    {C : ConvCall ℝ ℂ} (hC : ∀ g c s1 s2, C g c s1 s2 = defConv Pf Df np s1 s2) :
    Sim Pf h (clsConv Pf Df C kc (.obj s1) (.obj s2))
      ((do let p ← Rel.signalAlign v1 v2; let r ← Rel.make p.2.2 (npr p.1.y p.2.1.y); Rel.init (.rel r) none).map Rel.toComplex)
      (IsNew kc) := by
  have e0 : clsConv Pf Df C kc (.obj s1) (.obj s2) = (inp2signal Pf Df (.obj s1) >>= fun r1 =>
      inp2signal Pf Df (.obj s2) >>= fun r2 =>
      relConv Pf Df C kc r1 r2 >>= fun q => construct Pf Df kc (.rel q) .absent) := by
    rcases kc
    · exact absurd gc (by decide)
    · rfl
    · exact absurd gc (by decide)
    · rfl
  rw [e0]
  refine Sim.step (sim_inp2signal hc h1 n1) fun r1 g1 w1 c1 q1 => ?_
  obtain ⟨⟨d1, q1, j1, m1⟩, p1⟩ := q1
  refine Sim.step (sim_inp2signal c1 (h2.kept w1 p1) n2) fun r2 g2 w2 c2 q2 => ?_
  obtain ⟨⟨d2, q2, j2, m2⟩, p2⟩ := q2
  obtain ⟨o1, ho1, f1⟩ := q1.kept w2 p2 (Set.notMem_empty _)
  obtain ⟨o2, ho2, f2⟩ := q2
  exact sim_relConv_signal c2 ho1 ho2 j1 j2 m1 m2 nc f1 f2 npr hnp fun g c => hC g c r1 r2

/-- the code given to `get_convolution_sweep_and_code` -/
inductive CodeMeans (h : Heap ℝ ℂ) : HCode ℂ → CodeArg → Prop
  | rel (l : Loc) (f : Bool) (c : Cls) (v : Rel ℝ ℝ) (hv : Arg h l c v) : CodeMeans h (.rel l f) (.rel v)
  | arr (l : Loc) (f : Bool) (y : List ℝ) (hy : h.yarrs[l]? = some (castC y)) : CodeMeans h (.arr l f) (.list y)
  | list (y : List ℝ) : CodeMeans h (.list (castC y)) (.list y)

theorem sim_codeRelation (hL : ∀ n x, L.last n x = (n - 1) * x) (hc : Coh Pf h) {code : HCode ℂ} {w : CodeArg} (hw : CodeMeans h code w)
    {base : Loc} {c : Cls} {v : Rel ℝ ℝ} (hb : IsNew c h base v.toComplex) :
    Sim Pf h (codeRelation Pf L Df code base) (w.toRel v.x.sample) (fun h' l u => (∃ c', Arg h' l c' u) ∧ Kept ∅ h h') := by
  have key : ∀ {g : Heap ℝ ℂ} {l : Loc} {y : List ℝ} {a : Axis ℝ} {m : HM ℝ ℂ Loc}, Coh Pf g →
      Sim Pf g m ((Rel.make a y).map Rel.toComplex) (IsNew .relation) → Only ∅ m → 
      Sim Pf g m (Rel.make a y) (fun h' l u => (∃ c', Arg h' l c' u) ∧ Kept ∅ g h') := by
    intro g l y a m _ hs ho
    exact (hs.of_map.kept ho).mono fun h' l u hh => ⟨⟨.relation, hh.1, by decide, fun k => by cases k⟩, hh.2⟩
  rcases hw with ⟨l, f, c', u, hu⟩ | ⟨l, f, y, hy⟩ | ⟨y⟩
  · exact sim_pure hc ⟨⟨c', hu⟩, fun _ _ ho _ => ho⟩
  · unfold codeRelation CodeArg.toRel
    refine Sim.axisOf hb fun o a ho hax e => ?_
    refine Sim.read (getY_run hy) ?_
    have es : a.sample = v.x.sample := congrArg Axis.sample e
    rw [hL, es]
    refine key hc (l := l) ?_ ((only_axisNew _ _ _).bind fun _ => only_construct good_defaultMethods only_defaultMethods _ _ _ _)
    refine Sim.step (sim_axisNew hc _ _ _) fun t h1 w1 c1 ht => ?_
    rw [← make_castC]
    have := sim_construct_axis c1 Df (c := .relation) (.of_ne (by decide)) ht (yIs_le w1 hy) none
    rw [show (castC y).length = y.length from List.length_map _] at this
    exact this
  · unfold codeRelation CodeArg.toRel
    refine Sim.axisOf hb fun o a ho hax e => ?_
    have es : a.sample = v.x.sample := congrArg Axis.sample e
    rw [hL, es]
    refine key hc (l := 0) ?_ ((only_axisNew _ _ _).bind fun _ => only_construct good_defaultMethods only_defaultMethods _ _ _ _)
    refine Sim.step (sim_axisNew hc _ _ _) fun t h1 w1 c1 ht => ?_
    rw [← make_castC]
    have := sim_construct_list c1 Df (c := .relation) (.of_ne (by decide)) (castC y) ht none
    rw [show (castC y).length = y.length from List.length_map _] at this
    exact this

/-- the values of the sweep `get_convolution_sweep_and_code` returns -/
def convolutionValues (code : CodeArg) (base : Rel ℝ ℝ) : Except Err (Rel ℝ ℝ) := do
  let code ← code.toRel base.x.sample
  let r ← Rel.signalConvolve code base
  let n ← code.x.size
  let q ← r.getSlice none (some (n * base.x.sample))
  q.signalShift base.x.stop

theorem sim_convolution (hL : ∀ n x, L.times n x = n * x) (hl : ∀ n x, L.last n x = (n - 1) * x) (hc : Coh Pf h) {code : HCode ℂ}
    {w : CodeArg} (hw : CodeMeans h code w) {base : Loc} {c : Cls} {v : Rel ℝ ℝ} (hb : Arg h base c v)
    (hd : Describes (fourier T)) {C : ConvCall ℝ ℂ} (hC : ∀ g c s1 s2, C g c s1 s2 = defConv Pf Df npConvolve s1 s2) :
    Sim Pf h (convolutionSweep Pf L Df C code base) ((convolutionValues w v).map Rel.toComplex) (IsNew .sweep) := by
  have fine : ∀ c, Fine (fourier T) Df c := fun c _ => ⟨rfl, hd⟩
  unfold convolutionSweep convolutionValues
  refine Sim.to_map ?_
  refine (sim_codeRelation hl hc hw hb.1).bind fun k u h1 w1 c1 hk => ?_
  obtain ⟨⟨ck, hk⟩, kp⟩ := hk
  have hb1 := hb.kept w1 kp
  refine (sim_clsConv_any c1 hk hb1 rfl (fine _) (fine _) (fine .sweep) npConvolve npConvolve_castC hC).of_map.bind
    fun q r h2 w2 c2 hq => ?_
  obtain ⟨ok, hk2⟩ := hk.1.later w2
  refine (sim_relLen c2 hk2).bind fun n n' h3 w3 c3 e => ?_
  subst e
  obtain ⟨oq, hq3⟩ := hq.later w3
  refine Sim.axisOf (hb1.1.later (w2.trans w3)) fun o a ho hax e => ?_
  have es : a.sample = v.x.sample := congrArg Axis.sample e
  rw [hL, es]
  have ks := sim_relSelect (M := Df) c3 hq3 (fine .sweep) none (some (n * v.x.sample))
  rw [selectData_toComplex] at ks
  refine (ks.sig (noCp_relSelect only_defaultMethods _ _ _)).bind fun s vs h4 w4 c4 hs => ?_
  obtain ⟨a', ha', e'⟩ := ho.x.le w4
  refine Sim.read (getAxis_run ha') ?_
  rw [show a'.stop = v.x.stop from congrArg Axis.stop e']
  exact (sim_shift_sig c4 hs rfl (fine .sweep) _).mono fun _ _ _ hh => hh.1.sig.isNew

end

end SweepDesign.Mem
