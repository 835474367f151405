import Mathlib.Data.List.Basic

/-!
# The choice of a type for arrays by the version of numpy (`help_types.py`)
-/

namespace SweepDesign.Versions

/-- `packaging.version.parse` of a final release, as far as comparison goes: the numbers without zeros at the end (`_cmpkey` of packaging) -/
def key (v : List ℕ) : List ℕ := (v.reverse.dropWhile (· == 0)).reverse

/-- `a > b` for tuples of integers -/
def tupleGt : List ℕ → List ℕ → Bool
  | [], _ => false
  | _ :: _, [] => true
  | a :: as, b :: bs => if a = b then tupleGt as bs else b < a

/-- `version.parse(a) > version.parse(b)` for final releases -/
def newer (a b : List ℕ) : Bool := tupleGt (key a) (key b)

/-- what importing the package makes of `ArrayLike` -/
inductive Outcome
  | numpyType
  | any
  | importFails
  deriving DecidableEq

/-- `get_type` (`/repo/sweep_design/help_types.py:51-61`), called when the module is imported (`help_types.py:64`). `hasTyping`: the installed
numpy has the module `numpy.typing` -/
def getType (numpy : List ℕ) (hasTyping : Bool) : Outcome :=
  if newer numpy [1, 19] then if hasTyping then .numpyType else .importFails
  else .any

/-- `numpy.typing` came with numpy 1.20.0 (from numpy, not from `/repo`) -/
def typingSince (numpy : List ℕ) : Bool := newer numpy [1, 20] || key numpy = key [1, 20]

/-- `pyproject.toml:12-15`: the versions of numpy allowed with Python `(3, minor)` -/
def allowed (minor : ℕ) (numpy : List ℕ) : Bool :=
  if minor < 8 then !newer numpy [1, 19] else newer numpy [1, 19]

end SweepDesign.Versions
