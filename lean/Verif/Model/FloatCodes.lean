import Verif.Model.Codes

/-!
# m-sequences: the number of bits in floating point

`math.ceil(math.log(n, 2))` once more (`code_m_sequence.py:26`, `61`), with the logarithm of the C library `ln` and the rounding
`fl` of the division: CPython computes `math.log(n, 2)` as `log(n) / log(2)`. The other parts of the two functions compute with
integers and are as in `Model/Codes`.
-/

namespace SweepDesign

noncomputable section

/-- `math.ceil(math.log(n, 2))` (`code_m_sequence.py:26`, `61`); `math.log` raises `ValueError` for `n <= 0`. A negative
number of bits would be an empty `range`, like 0. -/
def flCeilLog2 (ln fl : ℝ → ℝ) (n : ℤ) : Except Err ℕ :=
  if n ≤ 0 then .error .value else .ok ⌈fl (ln n / ln 2)⌉.toNat

/-- `get_m_sequence_code` (`code_m_sequence.py:12-38`); `rand i` is the `i`-th random number. -/
def flMSequenceCode {V : Type} (ln fl : ℝ → ℝ) (mls : ℕ → List ℤ → List V) (rand : ℕ → ℤ) (lengthCode : ℤ) (isFull : Bool) :
    Except Err (List V) := do
  let k ← flCeilLog2 ln fl (lengthCode - 1)
  let start ← fixStart ((List.range k).map rand)
  let m ← maxLenSeq mls k start
  if isFull then pure m else pure (m.take (lengthCode - 1).toNat)

/-- `get_relation_m_sequence` (`code_m_sequence.py:41-79`) without a start sequence. -/
def flRelationMSequence {K V : Type} [Field K] [LinearOrder K] [IsStrictOrderedRing K] [FloorRing K] (ln fl : ℝ → ℝ)
    (mls : ℕ → List ℤ → List V) (rand : ℕ → ℤ) (time : Axis K) (isFull : Bool) : Except Err (Rel K V) := do
  let n ← time.size
  let k ← flCeilLog2 ln fl ((n : ℤ) - 1)
  let start ← fixStart ((List.range k).map rand)
  relationOfMSequence mls time start isFull

end

end SweepDesign
