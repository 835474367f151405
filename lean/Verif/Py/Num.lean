import Verif.Py.Basic
import Mathlib.Algebra.Algebra.Basic
import Mathlib.Algebra.Star.Basic
import Mathlib.Algebra.BigOperators.Group.List.Basic
import Mathlib.Data.List.Sort

/-!
# numpy / scipy primitives used by the code, on lists, in exact arithmetic

`K` is the type of axis coordinates, `V` the type of y values.
-/

namespace SweepDesign

section Generic
variable {α : Type}

/-- numpy boolean-mask indexing `a[mask]` (used in `/repo/sweep_design/relation.py:277,282`):
the selected elements in order; a mask of another length raises `IndexError`. -/
def maskSelect (mask : List Bool) (a : List α) : Except Err (List α) :=
  if mask.length = a.length then
    .ok ((a.zip mask).filterMap fun p => if p.2 then some p.1 else none)
  else .error .index

end Generic

section Coordinates
variable {K : Type} [Field K]

/-- `np.linspace(start, stop, num)` for `num ≥ 1` (numpy 1.23 `core/function_base.py`):
`arange(num) * step + start` with `step = (stop - start) / (num - 1)`, the last element overwritten by `stop`
when `num > 1`. Used in `/repo/sweep_design/axis.py:41-44`. -/
def linspace (start stop : K) (num : Nat) : List K :=
  let step := (stop - start) / ((num : K) - 1)
  if num ≤ 1 then List.replicate num start
  else (List.range num).map fun i => if i + 1 = num then stop else (i : K) * step + start

end Coordinates

section Values
variable {V : Type}

/-- `np.diff(y)`: `y[i+1] - y[i]`. Used in `/repo/sweep_design/axis.py:113` and
`/repo/sweep_design/defaults/methods.py:124`. -/
def npDiff [Sub V] (y : List V) : List V := List.zipWith (fun a b => b - a) y y.tail

/-- running sums starting from `acc` -/
def cumsumFrom [Add V] (acc : V) : List V → List V
  | [] => []
  | a :: l => (acc + a) :: cumsumFrom (acc + a) l

/-- `a.cumsum()` -/
def cumsum [AddMonoid V] (l : List V) : List V := cumsumFrom 0 l

/-- running products starting from `acc` -/
def cumprodFrom [Mul V] (acc : V) : List V → List V
  | [] => []
  | a :: l => (acc * a) :: cumprodFrom (acc * a) l

/-- `np.cumprod(a)` -/
def cumprod [Monoid V] (l : List V) : List V := cumprodFrom 1 l

/-- `scipy.integrate.cumulative_trapezoid(y)` with unit spacing and no initial value
(`cumsum((y[1:] + y[:-1]) / 2.0)`). Used in `/repo/sweep_design/defaults/methods.py:105`. -/
def cumTrapz [Field V] (y : List V) : List V :=
  cumsum (List.zipWith (fun a b => (b + a) / 2) y y.tail)

/-- `scipy.integrate.trapezoid(y, x)`: `sum(diff(x) * (y[1:] + y[:-1]) / 2)`.
Used in `/repo/sweep_design/defaults/methods.py:86`. -/
def trapz {K : Type} [Field K] [Field V] [Algebra K V] (y : List V) (x : List K) : V :=
  (List.zipWith (fun d v => d • v) (npDiff x) (List.zipWith (fun a b => (b + a) / 2) y y.tail)).sum

/-- `a[i]` for the sums below; out-of-range terms do not occur in numpy's sums and count as zero here. -/
def at0 [Zero V] (l : List V) (i : Nat) : V := l.getD i 0

/-- `np.convolve(a, v, "full")` for non-empty `a`, `v`: `out[k] = Σ_{i+j=k} a[i] * v[j]`, length `n + m - 1`.
Used in `/repo/sweep_design/defaults/methods.py:225`. -/
def npConvolve [Semiring V] (a v : List V) : List V :=
  (List.range (a.length + v.length - 1)).map fun k =>
    ((List.range (k + 1)).map fun i => at0 a i * at0 v (k - i)).sum

/-- `np.correlate(a, v, "full")`: `out[j] = Σ_n a[n + k] * conj(v[n])` with lag `k = j - (len v - 1)`; numpy computes
it as the convolution of `a` with the reversed conjugate of `v`.
Used in `/repo/sweep_design/defaults/methods.py:203`. -/
def npCorrelate [Semiring V] [Star V] (a v : List V) : List V :=
  npConvolve a ((v.map star).reverse)

end Values

section Ordered
variable {K : Type} [LinearOrder K]

/-- `np.min(a)`; raises `ValueError` on an empty array. Used in `/repo/sweep_design/axis.py:113`. -/
def npMin : List K → Except Err K
  | [] => .error .value
  | a :: l => .ok (l.foldl min a)

/-- `np.max(a)`; raises `ValueError` on an empty array. Used in `/repo/sweep_design/relation.py:231`. -/
def npMax : List K → Except Err K
  | [] => .error .value
  | a :: l => .ok (l.foldl max a)

/-- helper of `argmin`: `best` is the index and value of the first minimum among the first `i` entries -/
def argminFrom (i : Nat) (best : Nat × K) : List K → Nat
  | [] => best.1
  | a :: l => if a < best.2 then argminFrom (i + 1) (i, a) l else argminFrom (i + 1) best l

/-- `a.argmin()`: index of the first smallest entry; raises `ValueError` on an empty array.
Used in `/repo/sweep_design/relation.py:521`. -/
def argmin : List K → Except Err Nat
  | [] => .error .value
  | a :: l => .ok (argminFrom 1 (0, a) l)

end Ordered

section Interp
variable {K : Type} [Field K] [LinearOrder K] {V : Type} [Field V] [Algebra K V]

/-- Linear interpolation at one point `xn`, with the sample positions `x` already sorted:
scipy 1.9 `interp1d._call_linear_np` (i.e. `np.interp`) with `bounds_error=False, fill_value=0.0`:
outside `[x[0], x[-1]]` the value is `0`; otherwise, with `j` the last index with `x[j] ≤ xn`, it is `y[j]` if `j` is the
last index and `slope * (xn - x[j]) + y[j]` otherwise. For complex `y` scipy takes `_call_linear`, which gives the same
values on strictly increasing `x` with at least two entries (with a single complex sample it gives `nan`; not
modelled). -/
def interpAt (x : List K) (y : List V) (xn : K) : V :=
  match x.head?, x.getLast? with
  | some x0, some xl =>
    if xn < x0 then 0
    else if xl < xn then 0
    else
      let j := x.countP (fun t => decide (t ≤ xn)) - 1
      if j + 1 = x.length then at0 y j
      else
        let slope := (at0 x (j + 1) - at0 x j)⁻¹ • (at0 y (j + 1) - at0 y j)
        (xn - at0 x j) • slope + at0 y j
  | _, _ => 0

/-- `scipy.interpolate.interp1d(x, y, bounds_error=False, fill_value=0.0)` followed by the call on `xs`:
`x` is sorted (numpy: stable merge sort; here the stable insertion sort, together with `y`) and must have the length of `y` (`ValueError` otherwise), and at least one
entry. Used in `/repo/sweep_design/defaults/methods.py:151-156`. -/
def interp1d (x : List K) (y : List V) (xs : List K) : Except Err (List V) :=
  if x.length ≠ y.length then .error .value
  else if x.length = 0 then .error .value
  else
    let sorted := (x.zip y).insertionSort (fun p q => p.1 ≤ q.1)
    .ok (xs.map (interpAt (sorted.map Prod.fst) (sorted.map Prod.snd)))

end Interp

end SweepDesign
