import Verif.Model.Codes

/-!
# `scipy.signal.max_len_seq`

The sequence that `code_m_sequence.py` asks scipy for, with scipy's table of taps and its ring buffer
(`scipy/signal/_max_len_seq.py`, `_max_len_seq_inner.pyx`; scipy is not in `/repo`).
-/

namespace SweepDesign

/-- `_mls_taps` -/
def mlsTaps : ℕ → List ℕ
  | 2 => [1] | 3 => [2] | 4 => [3] | 5 => [3] | 6 => [5] | 7 => [6] | 8 => [7, 6, 1]
  | 9 => [5] | 10 => [7] | 11 => [9] | 12 => [11, 10, 4] | 13 => [12, 11, 8]
  | 14 => [13, 12, 2] | 15 => [14] | 16 => [15, 13, 4] | 17 => [14]
  | 18 => [11] | 19 => [18, 17, 14] | 20 => [17] | 21 => [19] | 22 => [21]
  | 23 => [18] | 24 => [23, 22, 17] | 25 => [22] | 26 => [25, 24, 20]
  | 27 => [26, 25, 22] | 28 => [25] | 29 => [27] | 30 => [29, 28, 7]
  | 31 => [28] | 32 => [31, 30, 10]
  | _ => []

/-- the loop of `_max_len_seq_inner`: `state` is a ring buffer, `idx` the place of its oldest entry -/
def mlsInner (taps : List ℕ) (nbits : ℕ) : ℕ → List Bool → ℕ → List Bool
  | 0, _, _ => []
  | length + 1, state, idx =>
    let oldest := state.getD idx false
    let feedback := taps.foldl (fun f t => xor f (state.getD ((t + idx) % nbits) false)) oldest
    oldest :: mlsInner taps nbits length (state.set idx feedback) ((idx + 1) % nbits)

/-- the sequence of `max_len_seq(nbits, state)`: entries of the state count as 0 or 1, the length is `2**nbits - 1` -/
def scipyMls (nbits : ℕ) (state : List ℤ) : List ℤ :=
  (mlsInner (mlsTaps nbits) nbits (2 ^ nbits - 1) (state.map fun v => decide (v ≠ 0)) 0).map fun b => if b then 1 else 0

end SweepDesign
