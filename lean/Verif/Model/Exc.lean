import Verif.Model.Relation

/-!
# The exceptions of the package (`exc.py`)

An exception object is its class and the tuple `args` that `BaseException.__init__` stores. Texts are lists of characters.
-/

namespace SweepDesign.Exc

/-- the classes of `/repo/sweep_design/exc.py:1-21` -/
inductive Cls
  | notEqual | badInput | converting | typeFunc
  deriving DecidableEq

/-- what is passed to the constructors: texts, sizes, and types, given by what `str` makes of them (`<class 'numpy.ndarray'>`) -/
inductive Arg
  | text (s : List Char)
  | size (n : ℕ)
  | type (s : List Char)
  deriving DecidableEq

/-- `str(arg)`, as used by `{..}` in an f-string without format -/
def Arg.str : Arg → List Char
  | .text s => s
  | .size n => Nat.toDigits 10 n
  | .type s => s

/-- an exception object -/
structure Exn where
  cls : Cls
  args : List Arg
  deriving DecidableEq

/-- `args[i]` of a tuple: `IndexError` beyond its end -/
def item (args : List Arg) (i : ℕ) : Except Err Arg :=
  match args[i]? with
  | some a => .ok a
  | none => .error .index

/-- `NotEqualError.__init__` (`exc.py:2-4`), `ConvertingError.__init__` (`exc.py:12-14`), `TypeFuncError.__init__` (`exc.py:18-21`: the second
line of the text is a statement of its own, without `f` and without effect), `BadInputError` (`exc.py:7-8`: `Exception.__init__`, which keeps
the arguments). The result is `self.args`. -/
def init (cls : Cls) (args : List Arg) : Except Err (List Arg) :=
  match cls with
  | .notEqual => do
    let a ← item args 0
    let b ← item args 1
    pure [.text ("Different size x_array(".toList ++ a.str ++ ") and y_array(".toList ++ b.str ++ ")".toList)]
  | .converting => do
    let a ← item args 0
    let b ← item args 1
    pure [.text ("Can not convert type ".toList ++ a.str ++ " into type ".toList ++ b.str ++ ".".toList)]
  | .typeFunc => do
    let a ← item args 0
    pure [.text ("operation \"".toList ++ a.str ++ "\" did not complete with type".toList)]
  | .badInput => pure args

/-- `cls(*args)` -/
def make (cls : Cls) (args : List Arg) : Except Err Exn := do
  let args ← init cls args
  pure ⟨cls, args⟩

/-- `str(e)`: nothing without arguments, `str` of a single argument; the text of a longer tuple (`none`) is not modelled -/
def Exn.str (e : Exn) : Option (List Char) :=
  match e.args with
  | [] => some []
  | [a] => some a.str
  | _ => none

/-- `copy.copy(e)`, `copy.deepcopy(e)`, `pickle.loads(pickle.dumps(e))`: `BaseException.__reduce__` of CPython gives the class and `args`,
and the copy is `cls(*args)` -/
def Exn.copy (e : Exn) : Except Err Exn := make e.cls e.args

/-- the values of the enumeration `MathOperation` (`core.py:43-52`) -/
def opValue : MathOp → List Char
  | .add => "__add__".toList
  | .radd => "__radd__".toList
  | .sub => "__sub__".toList
  | .rsub => "__rsub__".toList
  | .mul => "__mul__".toList
  | .rmul => "__rmul__".toList
  | .truediv => "__truediv__".toList
  | .rtruediv => "__rtruediv__".toList
  | .pow => "__pow__".toList
  | .rpow => "__rpow__".toList

/-- `str.strip("_")` -/
def strip (s : List Char) : List Char :=
  ((s.dropWhile (· == '_')).reverse.dropWhile (· == '_')).reverse

/-- the exception of `math_operation` (`defaults/methods.py:67-68`); `t1`, `t2` are the texts of the types of the operands -/
def operationFailed (op : MathOp) (t1 t2 : List Char) : Except Err Exn :=
  make .typeFunc [.text (strip (opValue op)), .type t1, .type t2]

/-- the exception of `Relation.__init__` (`relation.py:105`) -/
def sizesDiffer (n m : ℕ) : Except Err Exn := make .notEqual [.size n, .size m]

/-- the exception of `_inp2signal` (`signal.py:299`) and of `_input2spectrum` and the one before it (`spectrum.py:301`, `314`); `t` is the
text of the type of the input, `target` that of `Signal` or `Spectrum` -/
def notConverted (t target : List Char) : Except Err Exn := make .converting [.type t, .type target]

/-- the other exceptions of the package: `BadInputError` with one text (`relation.py:97`, `uncalculated_sweep.py:128`,
`defaults/sweep_methods.py:76`, `253`, `prepared_sweeps/sweep_from_code.py:47`) -/
def notEnough (s : List Char) : Except Err Exn := make .badInput [.text s]

end SweepDesign.Exc
