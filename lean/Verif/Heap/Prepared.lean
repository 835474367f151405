import Verif.Heap.Aprior
import Verif.Heap.Emd
import Verif.Heap.Only
import Verif.Model.Prepared

/-!
# Heap layer: the functions of `prepared_sweeps` and the corrections of `utility_functions`

`get_linear_sweep`, `get_shuffle`, `get_dwell_sweep`, `get_code_zinger_relation`, `get_relation_m_sequence`,
`get_code_sweep_segments`, `get_convolution_sweep_and_code`, `get_correction_for_source` and `correct_sweep` as heap programs. The
number crunching that makes no object (windows, frequencies, `max_len_seq`, `soft_clip`) is in the record `LibPrims`; the empirical mode
decomposition is a parameter as in `Heap/Emd`.
-/

set_option linter.unusedSectionVars false

namespace SweepDesign.Mem

open HM Spec

variable {K V : Type}

/-- The further number operations of the library functions. -/
structure LibPrims (K V : Type) where
  /-- product of a Python integer and an axis number -/
  times : ℕ → K → K
  /-- `(n - 1) * sample` (`sweep_from_code.py:33-34`, `code_m_sequence.py:76`) -/
  last : ℕ → K → K
  /-- product of two axis numbers (`source_sweep_correction.py:88-89`) -/
  mul : K → K → K
  /-- the number `0.0` given as `tht0` by default (`uncalculated_sweep.py:101`) -/
  zero : V
  /-- `f_t_linear_array(time, f_start, f_end)` (`f_t.py:25-39`) -/
  linear : List K → K → K → Except Err (List V)
  /-- `tukey_a_t(time, time_tapper, location)` (`a_t.py:10-56`) -/
  tukey : List K → Option K → Location → Except Err (List V)
  /-- the frequencies `f_t[:-2]` of `get_shuffle` made from `time.sample` and `time.end` (`pseudorandom_shuffle.py:32-58`); the other
  arguments and the random numbers are part of the function -/
  shuffled : K → K → Except Err (List V)
  /-- `math.ceil(math.log(size - 1, 2))` (`code_m_sequence.py:61`) -/
  bits : ℕ → Except Err ℕ
  /-- `np.array([random.randint(0, 1) for _ in range(n)])` (`code_m_sequence.py:64-65`) -/
  draw : ℕ → List V
  /-- the number 1 stored in an array -/
  unit : V
  /-- `v == 0` -/
  isZero : V → Bool
  /-- `max_len_seq(nbits=state.size, state=state)[0]` (`code_m_sequence.py:70-72`) -/
  maxLenSeq : List V → Except Err (List V)
  /-- `cnt` times `soft_clip` on the rows of the array (`source_sweep_correction.py:106-111`), with the arguments of the call -/
  clip : ℕ → List (V × V) → Except Err (List (V × V))
  /-- `np.all(np.abs(y) < limits)` (`source_sweep_correction.py:119`) -/
  below : List V → Bool

section
variable (P : Prims K V) (G : GenPrims K V) (L : LibPrims K V) (M : Methods K V)

/-- `if not isinstance(time, ArrayAxis): time = get_array_axis_from_array(time)` (`pseudorandom_shuffle.py:29-30`, `dwell_sweep.py:26-27`,
`code_m_sequence.py:58-59`); `np.diff` of the zero-dimensional `np.array(None)` raises `ValueError` -/
def axisGiven : HTime K → HM K V Loc
  | .none => raise .value
  | .axis l => pure l
  | .array x isFloat => axisFromArray P x isFloat true

/-- `time if isinstance(time, np.ndarray) else time.array` (`linear_sweep.py:18`) -/
def timeValues : HTime K → HM K V (List K)
  | .none => raise .typeError
  | .axis l => axisValues P l
  | .array x _ => pure x

/-- `UncalculatedSweep(time, f_t, a_t)()` with two new ndarrays (`linear_sweep.py:23-24`, `pseudorandom_shuffle.py:61-63`) -/
def sweepOf (linear ones : PyFun K V) (time : HTime K) (f a : List V) : HM K V Loc := do
  let lf ← newY f
  let la ← newY a
  let gen ← genInit P G M linear ones time (.arr lf) (.arr la)
  genCall P G M gen .none L.zero

/-- `get_linear_sweep` (`linear_sweep.py:11-24`) -/
def linearSweep (linear ones : PyFun K V) (time : HTime K) (fStart fEnd : K) (tapper : Option K) : HM K V Loc := do
  let xs ← timeValues P time
  let f ← lift (L.linear xs fStart fEnd)
  let a ← lift (L.tukey xs tapper .both)
  sweepOf P G L M linear ones time f a

/-- `get_shuffle` (`pseudorandom_shuffle.py:17-63`) -/
def shuffleSweep (linear ones : PyFun K V) (time : HTime K) (tapper : Option K) : HM K V Loc := do
  let t ← axisGiven P time
  let o ← getAxis t
  let f ← lift (L.shuffled o.sample o.stop)
  let xs ← axisValues P t
  let a ← lift (L.tukey xs tapper .both)
  sweepOf P G L M linear ones (.axis t) f a

/-- `get_dwell_sweep` (`dwell_sweep.py:13-34`); `method` is `dwell(f_start, f_end, f_central)`. -/
def dwellSweep (linear ones : PyFun K V) (method : Convert K V) (time : HTime K) (data : AprArg V) (tapper : Option K) :
    HM K V Loc := do
  let t ← axisGiven P time
  let (gen, ap) ← aprioriInit P G M linear ones (fun _ => method) (.axis t) data (some method)
  let xs ← axisValues P t
  let w ← lift (L.tukey xs tapper .both)
  let win ← construct P M .relation (.axis t) (.list w)
  let s ← aprioriCall P G M gen ap .none L.zero true
  operator P M s (.obj win) .mul

/-- the loop of `get_code_zinger_relation` (`code_zinger.py:43-44`) -/
def zingerLoop (r : Loc) : List ℕ → Loc → HM K V Loc
  | [], acc => pure acc
  | k :: ks, acc => do
    let o ← getRel r
    let a ← getAxis o.x
    let s ← shift P M r (L.times k a.stop)
    let acc ← operator P M acc (.obj s) .add
    zingerLoop r ks acc

/-- `get_code_zinger_relation` (`code_zinger.py:27-46`) -/
def zingerRelation (r : Loc) (periods : ℤ) : HM K V Loc :=
  if 1 < periods then zingerLoop P L M r (List.range periods.toNat) r else pure r

/-- a code: a relation object, an ndarray object, or a list of Python numbers (`sweep_from_code.py:14`, `51`); `isFloat` says whether the
entries of the y array or ndarray are of a type that is a subclass of `float` or `complex` -/
inductive HCode (V : Type)
  | rel (l : Loc) (isFloat : Bool)
  | arr (l : Loc) (isFloat : Bool)
  | list (y : List V)

/-- an entry of a numpy array as an operand -/
def npEntry (isFloat : Bool) (v : V) : PyOperand V := if isFloat then .number v else .other (.num v)

/-- `code.y` or the code itself (`sweep_from_code.py:61-62`): its entries as operands -/
def codeEntries : HCode V → HM K V (List (PyOperand V))
  | .rel l f => do
    let j ← relY l
    let y ← getY j
    pure (y.map (npEntry f))
  | .arr l f => do
    let y ← getY l
    pure (y.map (npEntry f))
  | .list y => pure (y.map .number)

/-- the loop of `get_code_sweep_segments` (`sweep_from_code.py:66-70`) -/
def segmentsLoop (base : Loc) : ℕ → List (PyOperand V) → Loc → HM K V Loc
  | _, [], acc => pure acc
  | cnt, v :: vs, acc => do
    let o ← getRel base
    let a ← getAxis o.x
    let s ← shift P M base (P.add (L.times cnt a.stop) a.sample)
    let q ← operator P M s v .mul
    let acc ← operator P M acc (.obj q) .add
    segmentsLoop base (cnt + 1) vs acc

/-- `get_code_sweep_segments` (`sweep_from_code.py:50-72`) -/
def codeSweepSegments (code : HCode V) (base : Loc) : HM K V Loc := do
  let es ← codeEntries code
  match es with
  | [] => raise .index
  | c :: rest => do
    let acc ← operator P M base c .mul
    let acc ← segmentsLoop P L M base 1 rest acc
    construct P M .sweep (.rel acc) .absent

/-- the code as a relation object (`sweep_from_code.py:30-36`) -/
def codeRelation (code : HCode V) (base : Loc) : HM K V Loc :=
  match code with
  | .rel l _ => pure l
  | .arr l _ => do
    let o ← getRel base
    let a ← getAxis o.x
    let y ← getY l
    let t ← axisNew P.zero (L.last y.length a.sample) a.sample
    construct P M .relation (.axis t) (.arr l)
  | .list y => do
    let o ← getRel base
    let a ← getAxis o.x
    let t ← axisNew P.zero (L.last y.length a.sample) a.sample
    construct P M .relation (.axis t) (.list y)

/-- `get_convolution_sweep_and_code` (`sweep_from_code.py:13-47`); the slice of a `Sweep` is a `Sweep`, so the last line is not reached -/
def convolutionSweep (C : ConvCall K V) (code : HCode V) (base : Loc) : HM K V Loc := do
  let c ← codeRelation P L M code base
  let q ← clsConv P M C .sweep (.obj c) (.obj base)
  let n ← relLen P c
  let o ← getRel base
  let a ← getAxis o.x
  let s ← relSelect P M q none (some (L.times n a.sample))
  let a ← getAxis o.x
  shift P M s a.stop

/-- `if np.all(start_sequence == 0): start_sequence[0] = 1` (`code_m_sequence.py:67-68`): written into the array object -/
def fixStartArray (s : Loc) : HM K V Unit := do
  let y ← getY s
  if y.all L.isZero then
    (match y with
    | [] => raise .index
    | _ :: _ => pokeY s fun l => L.unit :: l.tail)
  else pure ()

/-- `get_relation_m_sequence` (`code_m_sequence.py:41-79`) -/
def mSequenceRelation (time : HTime K) (start : Option Loc) (isFull : Bool) : HM K V Loc := do
  let t ← axisGiven P time
  let n ← axisSize P t
  let k ← lift (L.bits n)
  let s ← givenOr start (newY (L.draw k))
  fixStartArray L s
  let y ← getY s
  let m ← lift (L.maxLenSeq y)
  if isFull then do
    let a ← getAxis t
    let nt ← axisNew P.zero (L.last m.length a.sample) a.sample
    construct P M .relation (.axis nt) (.list m)
  else construct P M .relation (.axis t) (.list (m.take n))

/-- `force.integrate().integrate() / reaction_mass` (`source_sweep_correction.py:92`, `114`) -/
def displacement (r : Loc) (mass : V) : HM K V Loc := do
  let a ← relIntegrate P M r
  let b ← relIntegrate P M a
  operator P M b (.number mass) .truediv

/-- `get_IMFs_emd(r)[0]` (`source_sweep_correction.py:95-96`, `115-117`) -/
def firstOfIMFs (E : List V → Except Err (List (List V))) (r : Loc) : HM K V Loc := do
  let ls ← getIMFs P M E r
  match ls with
  | [] => raise .index
  | l :: _ => pure l

/-- the y values of a relation object -/
def valuesOf (r : Loc) : HM K V (List V) := do
  let j ← relY r
  getY j

/-- one pass of the loop (`source_sweep_correction.py:104-117`): the first IMF and the windowed displacement -/
def correctionStep (E : List V → Except Err (List (List V))) (cls : Cls) (mass : V) (nt win : Loc) (rows : List (V × V)) (cnt : ℕ) :
    HM K V (Loc × Loc) := do
  let res ← lift (L.clip cnt rows)
  let force ← construct P M cls (.axis nt) (.list (res.map Prod.snd))
  let d ← displacement P M force mass
  let imf ← firstOfIMFs P M E d
  let nd ← operator P M imf (.obj win) .mul
  pure (imf, nd)

/-- the loop (`source_sweep_correction.py:101-123`), at most `fuel` passes of it: `none` if it is still running after that many -/
def correctionRun (E : List V → Except Err (List (List V))) (cls : Cls) (mass : V) (limit : Option ℤ) (nt win : Loc)
    (rows : List (V × V)) : (fuel cnt : ℕ) → HM K V (Option (Loc × Loc))
  | 0, _ => pure none
  | fuel + 1, cnt => do
    let p ← correctionStep P L M E cls mass nt win rows (cnt + 1)
    let y ← valuesOf p.2
    if L.below y then pure (some p)
    else if (limit.elim false fun k => decide (k < (cnt : ℤ) + 1 + 1)) = true then pure (some p)
    else correctionRun E cls mass limit nt win rows fuel (cnt + 1)

/-- `new_displacement or imfs[0]` after the loop (`source_sweep_correction.py:125`): a relation is false if `len` of it is 0 -/
def nonEmptyOr (p : Loc × Loc) : HM K V Loc := do
  let n ← relLen P p.2
  if n = 0 then pure p.1 else pure p.2

/-- `new_displacement.diff().diff() * reaction_mass` (`source_sweep_correction.py:127`) -/
def forceFrom (r : Loc) (mass : V) : HM K V Loc := do
  let a ← relDiff P M r
  let b ← relDiff P M a
  operator P M b (.number mass) .mul

/-- `np.vstack((a, b))` followed by `np.transpose` (`source_sweep_correction.py:98-99`) -/
def stackRows (a b : List V) : Except Err (List (V × V)) := if a.length ≠ b.length then .error .value else .ok (a.zip b)

/-- `get_correction_for_source` (`source_sweep_correction.py:39-127`); `limited` says whether `limits` is given. The result is `none` if
the loop is still running after `fuel` passes. -/
def sourceCorrection (E : List V → Except Err (List (List V))) (r : Loc) (mass : V) (limited : Bool) (limit : Option ℤ) (percent : K)
    (fuel : ℕ) : HM K V (Option Loc) := do
  let o ← getRel r
  let nt ← axisCopy o.x
  let a ← getAxis nt
  axisSetStart nt (P.add a.start (L.times 2 a.sample))
  let xs ← axisValues P nt
  let a ← getAxis nt
  let w ← lift (L.tukey xs (some (L.mul a.stop percent)) .left)
  let win ← construct P M .relation (.axis nt) (.list w)
  let d ← displacement P M r mass
  let imf ← firstOfIMFs P M E d
  let imf0 ← operator P M imf (.obj win) .mul
  let u ← valuesOf imf0
  let v ← valuesOf r
  let rows ← lift (stackRows u v.tail.dropLast)
  if limited then do
    let out ← correctionRun P L M E o.cls mass limit nt win rows fuel 0
    match out with
    | none => pure none
    | some p => do
      let nd ← nonEmptyOr P p
      let q ← forceFrom P M nd mass
      pure (some q)
  else do
    let q ← forceFrom P M imf0 mass
    pure (some q)

/-- the window of `correct_sweep` (`sweep_correction.py:29-33`) -/
def windowed (imf : Loc) (xs : List K) : Option K → HM K V Loc
  | none => pure imf
  | some tt => do
    let w ← lift (L.tukey xs (some tt) .left)
    let win ← construct P M .signal (.array xs true) (.list w)
    operator P M imf (.obj win) .mul

/-- `correct_sweep` (`sweep_correction.py:6-37`) -/
def sweepCorrection (E : List V → Except Err (List (List V))) (r : Loc) (startWindow : Option K) : HM K V Loc := do
  let a ← relIntegrate P M r
  let d ← relIntegrate P M a
  let o ← getRel d
  let xs ← axisValues P o.x
  let imf ← firstOfIMFs P M E d
  let nd ← windowed P L M imf xs startWindow
  let a ← relDiff P M nd
  relDiff P M a

/-- the calls of the functions above, with the arguments that are objects or decide which objects are made -/
inductive LibCall (K V : Type)
  | linear (time : HTime K) (fStart fEnd : K) (tapper : Option K)
  | shuffle (time : HTime K) (tapper : Option K)
  | dwell (method : Convert K V) (time : HTime K) (data : AprArg V) (tapper : Option K)
  | zinger (r : Loc) (periods : ℤ)
  | segments (code : HCode V) (base : Loc)
  | convolution (code : HCode V) (base : Loc)
  | mSequence (time : HTime K) (start : Option Loc) (isFull : Bool)
  | correction (E : List V → Except Err (List (List V))) (r : Loc) (mass : V) (limited : Bool) (limit : Option ℤ) (percent : K)
      (fuel : ℕ)
  | correctSweep (E : List V → Except Err (List (List V))) (r : Loc) (startWindow : Option K)

/-- a call and the relation it returns; `none` only for the loop of `get_correction_for_source` cut off -/
def LibCall.exec (C : ConvMethods K V) (linear ones : PyFun K V) : LibCall K V → HM K V (Option Loc)
  | .linear time fs fe tp => linearSweep P G L M linear ones time fs fe tp >>= fun l => pure (some l)
  | .shuffle time tp => shuffleSweep P G L M linear ones time tp >>= fun l => pure (some l)
  | .dwell method time data tp => dwellSweep P G L M linear ones method time data tp >>= fun l => pure (some l)
  | .zinger r n => zingerRelation P L M r n >>= fun l => pure (some l)
  | .segments c b => codeSweepSegments P L M c b >>= fun l => pure (some l)
  | .convolution c b => convolutionSweep P L M C.convolveCall c b >>= fun l => pure (some l)
  | .mSequence time s b => mSequenceRelation P L M time s b >>= fun l => pure (some l)
  | .correction E r m b lim pc fuel => sourceCorrection P L M E r m b lim pc fuel
  | .correctSweep E r w => sweepCorrection P L M E r w >>= fun l => pure (some l)

end

/-! ## what they leave alone -/

variable {P : Prims K V} {G : GenPrims K V} {L : LibPrims K V} {M : Methods K V} {X : Ex}

theorem safe_axisGiven (time : HTime K) : Safe P X (axisGiven P time) := by
  cases time
  · exact safe_raise _
  · exact safe_pure _
  · exact safe_axisFromArray _ _ _

theorem safe_timeValues (time : HTime K) : Safe P X (timeValues P time) := by
  cases time
  · exact safe_raise _
  · exact safe_axisValues _
  · exact safe_pure _

theorem safe_interpOfAxis (t y : Loc) : Safe P X (interpOfAxis P t y) :=
  (safe_getY _).bind fun _ => (safe_newY _).bind fun _ => (safe_axisValues _).bind fun _ => safe_pure _

theorem safe_interpOfRel (r : Loc) : Safe P X (interpOfRel P r) :=
  (safe_getRel _).bind fun _ => (safe_axisValues _).bind fun _ => (safe_getY _).bind fun _ => (safe_newY _).bind fun _ => safe_pure _

/-- the y array objects in a description as given that the constructor may hand to the interpolation method -/
def DescArg.ys : DescArg K V → Set Loc
  | .arr l => {l}
  | _ => ∅

theorem safe_extractDesc (hM : GoodMethods P M) (t : Option Loc) (d : PyFun K V) (a : DescArg K V) (ha : a.ys ⊆ X.ys) :
    Safe P X (extractDesc P G M t d a) := by
  cases a with
  | absent => exact safe_pure _
  | given d => exact safe_pure _
  | rel r => exact safe_interpOfRel _
  | arr l =>
    cases t with
    | none => exact safe_raise _
    | some t =>
      refine (safe_axisSize _).bind fun _ => (safe_getY _).bind fun _ => ?_
      split
      · exact (safe_getAxis _).bind fun _ => (safe_lift _).bind fun _ => (safe_axisNew _ _ _).bind fun _ =>
          (safe_axisArray _).bind fun _ => safe_config.bind fun _ =>
          ((hM.interp _ _ _ _).mono (Set.empty_subset _) (Set.empty_subset _) ha).bind fun _ => safe_interpOfAxis _ _
      · exact safe_interpOfAxis _ _

theorem safe_genTime (hM : GoodMethods P M) (g : ConfigIds) (time : HTime K) : Safe P X (genTime M g time : HM K V _) := by
  cases time
  · exact safe_pure _
  · exact safe_pure _
  · exact (hM.fromArray _ _ _ _).of_empty.bind fun _ => safe_pure _

theorem safe_genInit (hM : GoodMethods P M) (linear ones : PyFun K V) (time : HTime K) (f a : DescArg K V) (hf : f.ys ⊆ X.ys)
    (ha : a.ys ⊆ X.ys) : Safe P X (genInit P G M linear ones time f a) :=
  safe_config.bind fun _ => (safe_genTime hM _ _).bind fun _ => (safe_extractDesc hM _ _ _ hf).bind fun _ =>
    (safe_extractDesc hM _ _ _ ha).bind fun _ => safe_pure _

theorem fresh_interpOfAxis {t y : Loc} {h h' : Heap K V} {d : Desc K V} (hh : interpOfAxis P t y h = (.ok d, h')) :
    ∀ i ∈ d.ys, h.yarrs.length ≤ i := by
  unfold interpOfAxis at hh
  obtain ⟨v, h1, e1, hh⟩ := bind_ok.1 hh
  obtain ⟨l, h2, e2, hh⟩ := bind_ok.1 hh
  obtain ⟨x, h3, e3, hh⟩ := bind_ok.1 hh
  simp only [pure_run, Prod.mk.injEq, Except.ok.injEq] at hh
  obtain ⟨rfl, rfl⟩ := hh
  rintro i rfl
  exact (le_of_run (P := P) (X := ∅) (safe_getY _) e1).yarrs_len.trans (fresh_newY _ _ _ _ e2)

/-- the array kept by a generator for a description given as an array is a new one -/
theorem fresh_extractDesc (hM : GoodMethods P M) {t : Option Loc} {d : PyFun K V} {l : Loc} {h h' : Heap K V} {q : Desc K V}
    (hh : extractDesc P G M t d (.arr l) h = (.ok q, h')) : ∀ i ∈ q.ys, h.yarrs.length ≤ i := by
  cases t with
  | none => simp [extractDesc, raise] at hh
  | some t =>
    unfold extractDesc at hh
    obtain ⟨n, h1, e1, hh⟩ := bind_ok.1 hh
    obtain ⟨y, h2, e2, hh⟩ := bind_ok.1 hh
    have w2 := (le_of_run (P := P) (X := ∅) (safe_axisSize _) e1).trans (le_of_run (P := P) (X := ∅) (safe_getY _) e2)
    split at hh
    · obtain ⟨a, h3, e3, hh⟩ := bind_ok.1 hh
      obtain ⟨b, h4, e4, hh⟩ := bind_ok.1 hh
      obtain ⟨c, h5, e5, hh⟩ := bind_ok.1 hh
      obtain ⟨lx, h6, e6, hh⟩ := bind_ok.1 hh
      obtain ⟨g, h7, e7, hh⟩ := bind_ok.1 hh
      obtain ⟨y', h8, e8, hh⟩ := bind_ok.1 hh
      have w5 := ((w2.trans (le_of_run (P := P) (safe_getAxis _) e3)).trans (le_of_run (P := P) (safe_lift _) e4)).trans
        (le_of_run (P := P) (safe_axisNew _ _ _) e5)
      have w7 := (w5.trans (le_of_run (P := P) (safe_axisArray _) e6)).trans (le_of_run (P := P) safe_config e7)
      have w8 := le_of_run (hM.interp _ _ _ _) e8
      intro i hi
      exact (w7.yarrs_len.trans w8.yarrs_len).trans (fresh_interpOfAxis hh i hi)
    · intro i hi
      exact w2.yarrs_len.trans (fresh_interpOfAxis hh i hi)

/-- the arrays a generator keeps when both descriptions are arrays are new ones -/
theorem fresh_genInit (hM : GoodMethods P M) {linear ones : PyFun K V} {time : HTime K} {lf la : Loc} {h h' : Heap K V} {gen : Gen K V}
    (hh : genInit P G M linear ones time (.arr lf) (.arr la) h = (.ok gen, h')) : ∀ i ∈ gen.ys, h.yarrs.length ≤ i := by
  unfold genInit at hh
  obtain ⟨g, h1, e1, hh⟩ := bind_ok.1 hh
  obtain ⟨t, h2, e2, hh⟩ := bind_ok.1 hh
  obtain ⟨fd, h3, e3, hh⟩ := bind_ok.1 hh
  obtain ⟨ad, h4, e4, hh⟩ := bind_ok.1 hh
  simp only [pure_run, Prod.mk.injEq, Except.ok.injEq] at hh
  obtain ⟨rfl, rfl⟩ := hh
  have w2 := (le_of_run (P := P) (X := ∅) safe_config e1).trans (le_of_run (safe_genTime hM _ _) e2)
  have w3 := le_of_run (X := ⟨∅, ∅, {lf}⟩) (safe_extractDesc hM _ _ (.arr lf) (Set.Subset.refl _)) e3
  rintro i (hi | hi)
  · exact w2.yarrs_len.trans (fresh_extractDesc hM e3 i hi)
  · exact (w2.yarrs_len.trans w3.yarrs_len).trans (fresh_extractDesc hM e4 i hi)

/-- a call of a generator keeps to itself if the arrays the generator holds are exempt -/
theorem safe_sweepOf (hM : GoodMethods P M) (hG : GoodGen P G) (linear ones : PyFun K V) (time : HTime K) (f a : List V) :
    Safe P X (sweepOf P G L M linear ones time f a) := by
  unfold sweepOf
  refine Safe.bindY (safe_newY _) (fresh_newY _) fun lf => Safe.bindY (safe_newY _) (fresh_newY _) fun la => ?_
  refine Safe.bind_fresh (X' := fun gen => ⟨X.axes, X.rels, insert la (insert lf X.ys) ∪ gen.ys⟩)
    (safe_genInit hM _ _ _ _ _ ?_ ?_) (fun gen => safe_genCall hM hG _ _ _ Set.subset_union_right)
    (fun _ _ _ _ _ h1 h2 => absurd h1 h2) (fun _ _ _ _ _ h1 h2 => absurd h1 h2) ?_
  · rintro i rfl; exact Set.mem_insert_of_mem _ (Set.mem_insert _ _)
  · rintro i rfl; exact Set.mem_insert _ _
  · rintro h gen h' hh i (hi | hi) hn
    · exact absurd hi hn
    · exact fresh_genInit hM hh i hi

theorem safe_linearSweep (hM : GoodMethods P M) (hG : GoodGen P G) (linear ones : PyFun K V) (time : HTime K) (fs fe : K)
    (tp : Option K) : Safe P X (linearSweep P G L M linear ones time fs fe tp) :=
  (safe_timeValues _).bind fun _ => (safe_lift _).bind fun _ => (safe_lift _).bind fun _ => safe_sweepOf hM hG _ _ _ _ _

theorem safe_shuffleSweep (hM : GoodMethods P M) (hG : GoodGen P G) (linear ones : PyFun K V) (time : HTime K)
    (tp : Option K) : Safe P X (shuffleSweep P G L M linear ones time tp) :=
  (safe_axisGiven _).bind fun _ => (safe_getAxis _).bind fun _ => (safe_lift _).bind fun _ => (safe_axisValues _).bind fun _ =>
    (safe_lift _).bind fun _ => safe_sweepOf hM hG _ _ _ _ _

theorem fresh_operator (hM : GoodMethods P M) (a : Loc) (b : PyOperand V) (op : MathOp) : FreshR (operator P M a b op) := by
  intro h l h' hh
  obtain ⟨o, p⟩ := ownM_operator hM a b op h l h' hh
  exact p.isNew

theorem fresh_genCall (hM : GoodMethods P M) (hG : GoodGen P G) (gen : Gen K V) (time : HTime K) (c : V) :
    FreshR (genCall P G M gen time c) := by
  intro h s h' hh
  unfold genCall at hh
  obtain ⟨t, h0, e0, hh⟩ := bind_ok.1 hh
  have w0 := le_of_run (P := P) (X := ∅) (safe_calcTime hM _ _) e0
  unfold calculate at hh
  obtain ⟨v, h1, e1, hh⟩ := bind_ok.1 hh
  obtain ⟨w, h2, e2, hh⟩ := bind_ok.1 hh
  obtain ⟨ft, h3, e3, hh⟩ := bind_ok.1 hh
  obtain ⟨amp, h4, e4, hh⟩ := bind_ok.1 hh
  obtain ⟨a, h5, e5, hh⟩ := bind_ok.1 hh
  obtain ⟨th, h6, e6, hh⟩ := bind_ok.1 hh
  obtain ⟨y, h7, e7, hh⟩ := bind_ok.1 hh
  obtain ⟨at', h8, e8, hh⟩ := bind_ok.1 hh
  obtain ⟨s', h9, e9, hh⟩ := bind_ok.1 hh
  have hs := sweepInit_ret hh
  subst hs
  let X : Ex := ⟨∅, ∅, gen.ys⟩
  have hf : gen.freq.ys ⊆ X.ys := Set.subset_union_left
  have ha : gen.amp.ys ⊆ X.ys := Set.subset_union_right
  have w1 : Le X h0 h2 := (le_of_run (safe_firstFreq hM gen t hf) e1).trans (le_of_run (safe_descOn hM _ _ hf) e2)
  have w3 : Le X h2 h3 := le_of_run (safe_relInit hM _ _ _ _) e3
  have w4 : Le X h3 h7 := ((le_of_run (safe_descOn hM _ _ ha) e4).trans (le_of_run (P := P) (safe_getY _) e5)).trans
    ((le_of_run (safe_thtOn hM hG _ _ _) e6).trans (le_of_run (P := P) (safe_lift _) e7))
  have w8 : Le X h7 h8 := le_of_run (safe_relInit hM _ _ _ _) e8
  have n9 := fresh_relInit hM _ _ _ _ _ _ _ e9
  exact (w0.rels_len.trans (w1.rels_len.trans (w3.rels_len.trans (w4.rels_len.trans w8.rels_len)))).trans n9

theorem safe_setAprior {s : Loc} (hs : s ∈ X.rels) (ap : Option Loc) : Safe P X (setAprior s ap : HM K V Unit) :=
  safe_putRel_new (fun o => { o with aPrior := ap }) (fun _ => ⟨rfl, rfl, rfl, rfl⟩) hs

theorem safe_putThen {s : Loc} (hs : s ∈ X.rels) (f : RelObj → RelObj) (hf : ∀ r, RelFix r (f r)) {α : Type} {m : HM K V α}
    (hm : Safe P X m) : Safe P X (getRel s >>= fun o => putRel s (f o) >>= fun _ => m) := by
  have e : (getRel s >>= fun o => putRel s (f o) >>= fun _ => m) = ((getRel s >>= fun o => putRel s (f o)) >>= fun _ => m) :=
    funext fun h => (bind_assoc_run _ _ _ h).symm
  rw [e]
  exact (safe_putRel_new f hf hs).bind fun _ => hm

theorem safe_normalise (hM : GoodMethods P M) {s : Loc} (hs : s ∈ X.rels) (ap : Loc) : Safe P X (normalise P G M s ap) := by
  unfold normalise
  refine (safe_getNorm hM _).bind fun _ => (safe_getNorm hM _).bind fun _ => (safe_lift _).bind fun c => (safe_getRel _).bind fun o => ?_
  split
  · exact safe_raise _
  · refine (safe_operator hM _ _ _).bind fun a' => ?_
    exact safe_putThen hs (fun o => { o with ampTime := some a' }) (fun _ => ⟨rfl, rfl, rfl, rfl⟩) (safe_operator hM _ _ _)

theorem ownM_normalise (hM : GoodMethods P M) (s ap : Loc) : OwnM (normalise P G M s ap) := by
  unfold normalise
  refine OwnM.bind (P := P) (X := ∅) (safe_getNorm hM _) fun _ => OwnM.bind (P := P) (X := ∅) (safe_getNorm hM _) fun _ =>
    OwnM.bind (P := P) (X := ∅) (safe_lift _) fun c => OwnM.bind (P := P) (X := ∅) (safe_getRel _) fun o => ?_
  split
  · intro h l h' hh; simp [raise] at hh
  · refine OwnM.bind (P := P) (X := ∅) (safe_operator hM _ _ _) fun a' => ?_
    have e : (getRel s >>= fun o => putRel s { o with ampTime := some a' } >>= fun _ => operator P M s (.number c) .mul) =
        ((getRel s >>= fun o => putRel s { o with ampTime := some a' }) >>= fun _ => operator P M s (.number c) .mul : HM K V Loc) :=
      funext fun h => (bind_assoc_run _ _ _ h).symm
    rw [e]
    exact OwnM.bind (P := P) (X := ⟨∅, {s}, ∅⟩) (safe_putRel_new (fun o => { o with ampTime := some a' }) (fun _ => ⟨rfl, rfl, rfl, rfl⟩)
      rfl) fun _ => ownM_operator hM _ _ _

theorem safe_aprioriCall (hM : GoodMethods P M) (hG : GoodGen P G) (gen : Gen K V) (ap : Loc) (time : HTime K) (c : V) (b : Bool)
    (hd : gen.ys ⊆ X.ys) : Safe P X (aprioriCall P G M gen ap time c b) := by
  unfold aprioriCall
  refine Safe.bindR (safe_genCall hM hG _ _ _ hd) (fresh_genCall hM hG _ _ _) fun s => ?_
  cases b
  · rw [if_neg (by simp)]
    show Safe P _ (setAprior s (some ap) >>= fun _ => pure s)
    exact (safe_setAprior (Set.mem_insert _ _) _).bind fun _ => safe_pure _
  · rw [if_pos rfl]
    exact Safe.bindR (safe_normalise hM (Set.mem_insert _ _) _) (ownM_normalise hM _ _).freshR fun s' =>
      (safe_setAprior (Set.mem_insert _ _) _).bind fun _ => safe_pure _

theorem fresh_aprioriInit (hM : GoodMethods P M) {linear ones : PyFun K V} {Q : ℕ → Convert K V} (hQ : ∀ n s, Safe P ∅ (Q n s))
    {time : HTime K} {data : AprArg V} {method : Option (Convert K V)} (hm : ∀ q ∈ method, ∀ s, Safe P ∅ (q s)) {h h' : Heap K V}
    {gp : Gen K V × Loc} (hh : aprioriInit P G M linear ones Q time data method h = (.ok gp, h')) :
    ∀ i ∈ gp.1.ys, h.yarrs.length ≤ i := by
  unfold aprioriInit at hh
  obtain ⟨g, h1, e1, hh⟩ := bind_ok.1 hh
  obtain ⟨p, h2, e2, hh⟩ := bind_ok.1 hh
  obtain ⟨q, h3, e3, hh⟩ := bind_ok.1 hh
  obtain ⟨lf, h4, e4, hh⟩ := bind_ok.1 hh
  obtain ⟨la, h5, e5, hh⟩ := bind_ok.1 hh
  obtain ⟨gen, h6, e6, hh⟩ := bind_ok.1 hh
  simp only [pure_run, Prod.mk.injEq, Except.ok.injEq] at hh
  obtain ⟨rfl, rfl⟩ := hh
  have s3 : Safe P ∅ (method.getD (Q g.freq2time) p.2) := by
    cases method with
    | none => exact hQ _ _
    | some q => exact hm q rfl _
  have w3 := ((le_of_run (P := P) (X := ∅) safe_config e1).trans (le_of_run (safe_aprObjects hM _ _) e2)).trans (le_of_run s3 e3)
  have n4 := fresh_newY _ _ _ _ e4
  have n5 := fresh_newY _ _ _ _ e5
  have w4 := le_of_run (P := P) (X := ∅) (safe_newY _) e4
  have n3 := w3.yarrs_len
  have n6 := w4.yarrs_len
  unfold genInit at e6
  obtain ⟨g', k1, f1, e6⟩ := bind_ok.1 e6
  obtain ⟨t', k2, f2, e6⟩ := bind_ok.1 e6
  obtain ⟨fd, k3, f3, e6⟩ := bind_ok.1 e6
  obtain ⟨ad, k4, f4, e6⟩ := bind_ok.1 e6
  simp only [extractDesc, pure_run, Prod.mk.injEq, Except.ok.injEq] at f3 f4 e6
  obtain ⟨rfl, -⟩ := f3
  obtain ⟨rfl, -⟩ := f4
  obtain ⟨rfl, -⟩ := e6
  rintro i (hi | hi)
  · have hi : i = lf := hi
    subst hi; exact n3.trans n4
  · have hi : i = la := hi
    subst hi; exact n3.trans (n6.trans n5)

theorem safe_dwellSweep (hM : GoodMethods P M) (hG : GoodGen P G) (linear ones : PyFun K V) {method : Convert K V}
    (hm : ∀ s, Safe P ∅ (method s)) (time : HTime K) (data : AprArg V) (tp : Option K) :
    Safe P X (dwellSweep P G L M linear ones method time data tp) := by
  unfold dwellSweep
  refine (safe_axisGiven _).bind fun t => ?_
  refine Safe.bind_fresh (X' := fun gp => ⟨X.axes, X.rels, X.ys ∪ gp.1.ys⟩)
    (safe_aprioriInit hM _ _ (fun _ => hm) _ _ (by rintro q ⟨⟩; exact hm)) (fun gp => ?_)
    (fun _ _ _ _ _ h1 h2 => absurd h1 h2) (fun _ _ _ _ _ h1 h2 => absurd h1 h2) ?_
  · exact (safe_axisValues _).bind fun _ => (safe_lift _).bind fun _ => (safe_construct hM _ _ _ _).bind fun _ =>
      (safe_aprioriCall hM hG _ _ _ _ _ Set.subset_union_right).bind fun _ => safe_operator hM _ _ _
  · rintro h gp h' hh i (hi | hi) hn
    · exact absurd hi hn
    · exact fresh_aprioriInit hM (fun _ => hm) (by rintro q ⟨⟩; exact hm) hh i hi

theorem safe_zingerLoop (hM : GoodMethods P M) (r : Loc) (ks : List ℕ) (acc : Loc) : Safe P X (zingerLoop P L M r ks acc) := by
  induction ks generalizing acc with
  | nil => exact safe_pure _
  | cons k ks ih => exact (safe_getRel _).bind fun _ => (safe_getAxis _).bind fun _ => (safe_shift hM _ _).bind fun _ =>
      (safe_operator hM _ _ _).bind fun _ => ih _

theorem safe_zingerRelation (hM : GoodMethods P M) (r : Loc) (p : ℤ) : Safe P X (zingerRelation P L M r p) := by
  unfold zingerRelation
  split
  · exact safe_zingerLoop hM _ _ _
  · exact safe_pure _

theorem safe_relY (r : Loc) : Safe P X (relY r : HM K V Loc) := (safe_getRel _).bind fun _ => safe_pure _

theorem safe_codeEntries (c : HCode V) : Safe P X (codeEntries c : HM K V _) := by
  cases c
  · exact (safe_relY _).bind fun _ => (safe_getY _).bind fun _ => safe_pure _
  · exact (safe_getY _).bind fun _ => safe_pure _
  · exact safe_pure _

theorem safe_segmentsLoop (hM : GoodMethods P M) (b : Loc) (vs : List (PyOperand V)) (cnt : ℕ) (acc : Loc) :
    Safe P X (segmentsLoop P L M b cnt vs acc) := by
  induction vs generalizing acc cnt with
  | nil => exact safe_pure _
  | cons k ks ih => exact (safe_getRel _).bind fun _ => (safe_getAxis _).bind fun _ => (safe_shift hM _ _).bind fun _ =>
      (safe_operator hM _ _ _).bind fun _ => (safe_operator hM _ _ _).bind fun _ => ih _ _

theorem safe_codeSweepSegments (hM : GoodMethods P M) (c : HCode V) (b : Loc) : Safe P X (codeSweepSegments P L M c b) := by
  refine (safe_codeEntries _).bind fun es => ?_
  cases es
  · exact safe_raise _
  · exact (safe_operator hM _ _ _).bind fun _ => (safe_segmentsLoop hM _ _ _ _).bind fun _ => safe_construct hM _ _ _ _

theorem safe_codeRelation (hM : GoodMethods P M) (c : HCode V) (b : Loc) : Safe P X (codeRelation P L M c b) := by
  cases c
  · exact safe_pure _
  · exact (safe_getRel _).bind fun _ => (safe_getAxis _).bind fun _ => (safe_getY _).bind fun _ => (safe_axisNew _ _ _).bind fun _ =>
      safe_construct hM _ _ _ _
  · exact (safe_getRel _).bind fun _ => (safe_getAxis _).bind fun _ => (safe_axisNew _ _ _).bind fun _ =>
      safe_construct hM _ _ _ _

theorem safe_convolutionSweep (hM : GoodMethods P M) {C : ConvCall K V} (hC : GoodConv P C) (c : HCode V) (b : Loc) :
    Safe P X (convolutionSweep P L M C c b) :=
  (safe_codeRelation hM _ _).bind fun _ => (safe_clsConv hM hC _ _ _).bind fun _ => (safe_relLen _).bind fun _ =>
    (safe_getRel _).bind fun _ => (safe_getAxis _).bind fun _ => (safe_relSelect hM _ _ _).bind fun _ =>
    (safe_getAxis _).bind fun _ => safe_shift hM _ _

theorem safe_pokeY {l : Loc} (hl : l ∈ X.ys) (f : List V → List V) : Safe P X (pokeY l f : HM K V Unit) := by
  intro h
  refine ⟨⟨fun i a ha => ⟨a, ha, fun _ => AxisLe.refl _⟩, fun _ _ h => h, fun i v hv => ?_, fun i q hq => ⟨q, hq, RelFix.refl _,
    fun _ => RelMono.refl _⟩, rfl, fun _ hj => .inl hj⟩, fun c => c⟩
  by_cases hi : l = i
  · subst hi
    exact ⟨f v, by simp [pokeY, hv], fun hn => absurd hl hn⟩
  · exact ⟨v, by simp [pokeY, hi, hv], fun _ => rfl⟩

theorem safe_fixStartArray {s : Loc} (hs : s ∈ X.ys) : Safe P X (fixStartArray L s : HM K V Unit) := by
  refine (safe_getY _).bind fun y => ?_
  split
  · split
    · exact safe_raise _
    · exact safe_pokeY hs _
  · exact safe_pure _

theorem safe_mSequenceEnd (hM : GoodMethods P M) (t s : Loc) (n : ℕ) (b : Bool) (hs : s ∈ X.ys) :
    Safe P X (fixStartArray L s >>= fun _ => getY s >>= fun y => lift (L.maxLenSeq y) >>= fun m =>
      if b then (getAxis t >>= fun a => axisNew P.zero (L.last m.length a.sample) a.sample >>= fun nt =>
        construct P M .relation (.axis nt) (.list m))
      else construct P M .relation (.axis t) (.list (m.take n)) : HM K V Loc) := by
  refine (safe_fixStartArray hs).bind fun _ => (safe_getY _).bind fun _ => (safe_lift _).bind fun _ => ?_
  split
  · exact (safe_getAxis _).bind fun _ => (safe_axisNew _ _ _).bind fun _ => safe_construct hM _ _ _ _
  · exact safe_construct hM _ _ _ _

theorem safe_mSequenceRelation (hM : GoodMethods P M) (time : HTime K) (start : Option Loc) (b : Bool) (hs : ∀ l ∈ start, l ∈ X.ys) :
    Safe P X (mSequenceRelation P L M time start b) := by
  refine (safe_axisGiven _).bind fun t => (safe_axisSize _).bind fun n => (safe_lift _).bind fun k => ?_
  cases start with
  | none => exact Safe.bindY (safe_newY _) (fresh_newY _) fun s => safe_mSequenceEnd hM _ _ _ _ (Set.mem_insert _ _)
  | some s => exact safe_mSequenceEnd hM t s n b (hs s rfl)

theorem safe_displacement (hM : GoodMethods P M) (r : Loc) (m : V) : Safe P X (displacement P M r m) :=
  (safe_relIntegrate hM _).bind fun _ => (safe_relIntegrate hM _).bind fun _ => safe_operator hM _ _ _

theorem safe_firstOfIMFs (hM : GoodMethods P M) (E : List V → Except Err (List (List V))) (r : Loc) :
    Safe P X (firstOfIMFs P M E r) := by
  refine (safe_getIMFs hM _ _).bind fun ls => ?_
  cases ls
  · exact safe_raise _
  · exact safe_pure _

theorem safe_valuesOf (r : Loc) : Safe P X (valuesOf r : HM K V _) := (safe_relY _).bind fun _ => safe_getY _

theorem safe_correctionStep (hM : GoodMethods P M) (E : List V → Except Err (List (List V))) (c : Cls) (m : V) (nt win : Loc)
    (rows : List (V × V)) (cnt : ℕ) : Safe P X (correctionStep P L M E c m nt win rows cnt) :=
  (safe_lift _).bind fun _ => (safe_construct hM _ _ _ _).bind fun _ => (safe_displacement hM _ _).bind fun _ =>
    (safe_firstOfIMFs hM _ _).bind fun _ => (safe_operator hM _ _ _).bind fun _ => safe_pure _

theorem safe_correctionRun (hM : GoodMethods P M) (E : List V → Except Err (List (List V))) (c : Cls) (m : V) (lim : Option ℤ)
    (nt win : Loc) (rows : List (V × V)) (fuel cnt : ℕ) : Safe P X (correctionRun P L M E c m lim nt win rows fuel cnt) := by
  induction fuel generalizing cnt with
  | zero => exact safe_pure _
  | succ fuel ih =>
    refine (safe_correctionStep hM _ _ _ _ _ _ _).bind fun _ => (safe_valuesOf _).bind fun _ => ?_
    split
    · exact safe_pure _
    · split
      · exact safe_pure _
      · exact ih _

theorem safe_nonEmptyOr (p : Loc × Loc) : Safe P X (nonEmptyOr P p) := by
  refine (safe_relLen _).bind fun _ => ?_
  split <;> exact safe_pure _

theorem safe_forceFrom (hM : GoodMethods P M) (r : Loc) (m : V) : Safe P X (forceFrom P M r m) :=
  (safe_relDiff hM _).bind fun _ => (safe_relDiff hM _).bind fun _ => safe_operator hM _ _ _

theorem safe_sourceCorrection (hM : GoodMethods P M) (E : List V → Except Err (List (List V))) (r : Loc) (m : V) (b : Bool)
    (lim : Option ℤ) (pc : K) (fuel : ℕ) : Safe P X (sourceCorrection P L M E r m b lim pc fuel) := by
  refine (safe_getRel _).bind fun o => Safe.bindA (safe_axisCopy _) (fresh_axisCopy _) fun nt => ?_
  refine (safe_getAxis _).bind fun _ => (safe_axisSetStart _ (Set.mem_insert _ _)).bind fun _ => (safe_axisValues _).bind fun _ =>
    (safe_getAxis _).bind fun _ => (safe_lift _).bind fun _ => (safe_construct hM _ _ _ _).bind fun _ =>
    (safe_displacement hM _ _).bind fun _ => (safe_firstOfIMFs hM _ _).bind fun _ => (safe_operator hM _ _ _).bind fun _ =>
    (safe_valuesOf _).bind fun _ => (safe_valuesOf _).bind fun _ => (safe_lift _).bind fun _ => ?_
  split
  · refine (safe_correctionRun hM _ _ _ _ _ _ _ _ _).bind fun out => ?_
    cases out
    · exact safe_pure _
    · exact (safe_nonEmptyOr _).bind fun _ => (safe_forceFrom hM _ _).bind fun _ => safe_pure _
  · exact (safe_forceFrom hM _ _).bind fun _ => safe_pure _

theorem safe_windowed (hM : GoodMethods P M) (i : Loc) (xs : List K) (w : Option K) : Safe P X (windowed P L M i xs w) := by
  cases w
  · exact safe_pure _
  · exact (safe_lift _).bind fun _ => (safe_construct hM _ _ _ _).bind fun _ => safe_operator hM _ _ _

theorem safe_sweepCorrection (hM : GoodMethods P M) (E : List V → Except Err (List (List V))) (r : Loc) (w : Option K) :
    Safe P X (sweepCorrection P L M E r w) :=
  (safe_relIntegrate hM _).bind fun _ => (safe_relIntegrate hM _).bind fun _ => (safe_getRel _).bind fun _ =>
    (safe_axisValues _).bind fun _ => (safe_firstOfIMFs hM _ _).bind fun _ => (safe_windowed hM _ _ _).bind fun _ =>
    (safe_relDiff hM _).bind fun _ => safe_relDiff hM _

/-! ## what the result consists of -/

theorem OwnM.thenPure {m : HM K V Loc} (hm : OwnM m) : OwnM (m >>= fun a => pure a) := by
  intro h l h' hh
  obtain ⟨a, h1, e, hh⟩ := bind_ok.1 hh
  simp only [pure_run, Prod.mk.injEq, Except.ok.injEq] at hh
  obtain ⟨rfl, rfl⟩ := hh
  exact hm _ _ _ e

theorem ownM_zingerLoop (hM : GoodMethods P M) (r : Loc) (k : ℕ) (ks : List ℕ) (acc : Loc) :
    OwnM (zingerLoop P L M r (k :: ks) acc) := by
  induction ks generalizing k acc with
  | nil =>
    exact OwnM.bind (P := P) (X := ∅) (safe_getRel _) fun _ => OwnM.bind (P := P) (X := ∅) (safe_getAxis _) fun _ =>
      OwnM.bind (P := P) (X := ∅) (safe_shift hM _ _) fun _ => (ownM_operator hM _ _ _).thenPure
  | cons k' ks ih =>
    exact OwnM.bind (P := P) (X := ∅) (safe_getRel _) fun _ => OwnM.bind (P := P) (X := ∅) (safe_getAxis _) fun _ =>
      OwnM.bind (P := P) (X := ∅) (safe_shift hM _ _) fun _ => OwnM.bind (P := P) (X := ∅) (safe_operator hM _ _ _) fun _ => ih _ _

theorem ownM_zingerRelation (hM : GoodMethods P M) (r : Loc) (p : ℤ) (hp : 1 < p) : OwnM (zingerRelation P L M r p) := by
  unfold zingerRelation
  rw [if_pos hp]
  obtain ⟨n, hn⟩ : ∃ n, p.toNat = n + 1 := ⟨p.toNat - 1, by omega⟩
  rw [hn, List.range_succ_eq_map]
  exact ownM_zingerLoop hM _ _ _ _

theorem ownM_codeSweepSegments (hM : GoodMethods P M) (c : HCode V) (b : Loc) : OwnM (codeSweepSegments P L M c b) := by
  refine OwnM.bind (P := P) (X := ∅) (safe_codeEntries _) fun es => ?_
  cases es
  · intro h l h' hh; simp [raise] at hh
  · exact OwnM.bind (P := P) (X := ∅) (safe_operator hM _ _ _) fun _ => OwnM.bind (P := P) (X := ∅) (safe_segmentsLoop hM _ _ _ _)
      fun _ => ownM_construct_rel hM _ _ _ _

theorem ownM_convolutionSweep (hM : GoodMethods P M) {C : ConvCall K V} (hC : GoodConv P C) (c : HCode V) (b : Loc) :
    OwnM (convolutionSweep P L M C c b) :=
  OwnM.bind (P := P) (X := ∅) (safe_codeRelation hM _ _) fun _ => OwnM.bind (P := P) (X := ∅) (safe_clsConv hM hC _ _ _) fun _ =>
    OwnM.bind (P := P) (X := ∅) (safe_relLen _) fun _ => OwnM.bind (P := P) (X := ∅) (safe_getRel _) fun _ =>
    OwnM.bind (P := P) (X := ∅) (safe_getAxis _) fun _ => OwnM.bind (P := P) (X := ∅) (safe_relSelect hM _ _ _) fun _ =>
    OwnM.bind (P := P) (X := ∅) (safe_getAxis _) fun _ => ownM_shift hM _ _

theorem ownM_dwellSweep (hM : GoodMethods P M) (hG : GoodGen P G) (linear ones : PyFun K V) {method : Convert K V}
    (hm : ∀ s, Safe P ∅ (method s)) (time : HTime K) (data : AprArg V) (tp : Option K) :
    OwnM (dwellSweep P G L M linear ones method time data tp) :=
  OwnM.bind (P := P) (X := ∅) (safe_axisGiven _) fun _ =>
    OwnM.bind (P := P) (X := ∅) (safe_aprioriInit hM _ _ (fun _ => hm) _ _ (by rintro q ⟨⟩; exact hm)) fun gp =>
    OwnM.bind (P := P) (X := ∅) (safe_axisValues _) fun _ => OwnM.bind (P := P) (X := ∅) (safe_lift _) fun _ =>
    OwnM.bind (P := P) (X := ∅) (safe_construct hM _ _ _ _) fun _ =>
    OwnM.bind (P := P) (X := ⟨∅, ∅, gp.1.ys⟩) (safe_aprioriCall hM hG _ _ _ _ _ (Set.Subset.refl _)) fun _ => ownM_operator hM _ _ _

theorem ownM_forceFrom (hM : GoodMethods P M) (r : Loc) (m : V) : OwnM (forceFrom P M r m) :=
  OwnM.bind (P := P) (X := ∅) (safe_relDiff hM _) fun _ => OwnM.bind (P := P) (X := ∅) (safe_relDiff hM _) fun _ => ownM_operator hM _ _ _

theorem ownM_sweepCorrection (hM : GoodMethods P M) (hF : FreshMethods M) (E : List V → Except Err (List (List V))) (r : Loc)
    (w : Option K) : OwnM (sweepCorrection P L M E r w) :=
  OwnM.bind (P := P) (X := ∅) (safe_relIntegrate hM _) fun _ => OwnM.bind (P := P) (X := ∅) (safe_relIntegrate hM _) fun _ =>
    OwnM.bind (P := P) (X := ∅) (safe_getRel _) fun _ => OwnM.bind (P := P) (X := ∅) (safe_axisValues _) fun _ =>
    OwnM.bind (P := P) (X := ∅) (safe_firstOfIMFs hM _ _) fun _ => OwnM.bind (P := P) (X := ∅) (safe_windowed hM _ _ _) fun _ =>
    OwnM.bind (P := P) (X := ∅) (safe_relDiff hM _) fun _ => ownM_relDiff hM hF _

/-- a returned relation, if there is one, has its own parts -/
def OwnO (m : HM K V (Option Loc)) : Prop := ∀ h l h', m h = (.ok (some l), h') → ∃ o, OwnsParts h h' l o

theorem OwnO.bind {α : Type} {m : HM K V α} {f : α → HM K V (Option Loc)} (hm : Safe P X m) (hf : ∀ a, OwnO (f a)) :
    OwnO (m >>= f) := by
  intro h l h' hh
  obtain ⟨a, h1, h2, h3⟩ := bind_ok.1 hh
  have w := le_of_run hm h2
  obtain ⟨o, p⟩ := hf a _ _ _ h3
  exact ⟨o, p.rel, w.rels_len.trans p.isNew, w.axes_len.trans p.axis, w.yarrs_len.trans p.ys, p.axis_lt, p.ys_lt⟩

theorem OwnM.some {m : HM K V Loc} (hm : OwnM m) : OwnO (m >>= fun q => pure (some q)) := by
  intro h l h' hh
  obtain ⟨a, h1, e, hh⟩ := bind_ok.1 hh
  simp only [pure_run, Prod.mk.injEq, Except.ok.injEq, Option.some.injEq] at hh
  obtain ⟨rfl, rfl⟩ := hh
  exact hm _ _ _ e

theorem ownO_sourceCorrection (hM : GoodMethods P M) (E : List V → Except Err (List (List V))) (r : Loc) (m : V) (b : Bool)
    (lim : Option ℤ) (pc : K) (fuel : ℕ) : OwnO (sourceCorrection P L M E r m b lim pc fuel) := by
  refine OwnO.bind (P := P) (X := ∅) (safe_getRel _) fun o => OwnO.bind (P := P) (X := ∅) (safe_axisCopy _) fun nt => ?_
  refine OwnO.bind (P := P) (X := ∅) (safe_getAxis _) fun _ =>
    OwnO.bind (P := P) (X := ⟨{nt}, ∅, ∅⟩) (safe_axisSetStart _ rfl) fun _ => OwnO.bind (P := P) (X := ∅) (safe_axisValues _) fun _ =>
    OwnO.bind (P := P) (X := ∅) (safe_getAxis _) fun _ => OwnO.bind (P := P) (X := ∅) (safe_lift _) fun _ =>
    OwnO.bind (P := P) (X := ∅) (safe_construct hM _ _ _ _) fun _ => OwnO.bind (P := P) (X := ∅) (safe_displacement hM _ _) fun _ =>
    OwnO.bind (P := P) (X := ∅) (safe_firstOfIMFs hM _ _) fun _ => OwnO.bind (P := P) (X := ∅) (safe_operator hM _ _ _) fun _ =>
    OwnO.bind (P := P) (X := ∅) (safe_valuesOf _) fun _ => OwnO.bind (P := P) (X := ∅) (safe_valuesOf _) fun _ =>
    OwnO.bind (P := P) (X := ∅) (safe_lift _) fun _ => ?_
  split
  · refine OwnO.bind (P := P) (X := ∅) (safe_correctionRun hM _ _ _ _ _ _ _ _ _) fun out => ?_
    cases out
    · intro h l h' hh; simp [pure_run] at hh
    · exact OwnO.bind (P := P) (X := ∅) (safe_nonEmptyOr _) fun _ => (ownM_forceFrom hM _ _).some
  · exact (ownM_forceFrom hM _ _).some

/-- the methods handed to a call keep to themselves -/
def LibCall.Good (P : Prims K V) : LibCall K V → Prop
  | .dwell method _ _ _ => ∀ s, Safe P ∅ (method s)
  | _ => True

/-- the array given as `start_sequence` -/
def LibCall.startArray : LibCall K V → Set Loc
  | .mSequence _ (some s) _ => {s}
  | _ => ∅

theorem safe_libCall (hM : GoodMethods P M) {C : ConvMethods K V} (hC : GoodConvMethods P C) (hG : GoodGen P G) (linear ones : PyFun K V)
    (c : LibCall K V) (hg : c.Good P) (hX : c.startArray ⊆ X.ys) : Safe P X (c.exec P G L M C linear ones) := by
  cases c with
  | linear => exact (safe_linearSweep hM hG _ _ _ _ _ _).bind fun _ => safe_pure _
  | shuffle => exact (safe_shuffleSweep hM hG _ _ _ _).bind fun _ => safe_pure _
  | dwell => exact (safe_dwellSweep hM hG _ _ hg _ _ _).bind fun _ => safe_pure _
  | zinger => exact (safe_zingerRelation hM _ _).bind fun _ => safe_pure _
  | segments => exact (safe_codeSweepSegments hM _ _).bind fun _ => safe_pure _
  | convolution => exact (safe_convolutionSweep hM hC.convolve _ _).bind fun _ => safe_pure _
  | mSequence time s b =>
    refine (safe_mSequenceRelation hM _ _ _ ?_).bind fun _ => safe_pure _
    rintro l ⟨⟩
    exact hX rfl
  | correction => exact safe_sourceCorrection hM _ _ _ _ _ _ _
  | correctSweep => exact (safe_sweepCorrection hM _ _ _).bind fun _ => safe_pure _

end SweepDesign.Mem
