/-!
# Model of `symfem/utils.py` and of `_nth` in `symfem/functionals.py`

Scalar functions are elements of a type `F`; equality in `F` stands for sympy's
`(first - second).expand().simplify() == 0`.
-/

namespace Verif.Utils

/-- The sympy formats that `_check_equal` distinguishes (`symfem/functions.py:28-36`):
an expression, a tuple of expressions, a matrix. -/
inductive Fmt (F : Type) where
  | scalar (e : F)
  | tuple (l : List F)
  | matrix (rows : List (List F))
  deriving DecidableEq

/-- Values that may be handed to `allequal`: nested lists or tuples, bare sympy expressions, and
function objects (represented by their sympy format). -/
inductive Val (F : Type) where
  | seq (l : List (Val F))
  | expr (e : F)
  | fn (v : Fmt F)

section
variable {F : Type}

/-- A scalar in sympy format, as required inside a tuple (`symfem/functions.py:63-66`). -/
def Val.toScalar : Val F → Option F
  | .expr e => some e
  | .fn (.scalar e) => some e
  | _ => none

/-- A row of a nested list given to `sympy.Matrix`. -/
def Val.toRow : Val F → Option (List F)
  | .seq l => l.mapM Val.toScalar
  | _ => none

/-- `_to_sympy_format` (`symfem/functions.py:42-72`); `none` means that it raises. The dictionary
format of piecewise functions is not modelled. -/
def Val.toFmt : Val F → Option (Fmt F)
  | .fn v => some v
  | .expr e => some (.scalar e)
  | .seq [] => none
  | .seq (.seq r :: rest) => ((Val.seq r :: rest).mapM Val.toRow).map Fmt.matrix
  | .seq (a :: rest) => ((a :: rest).mapM Val.toScalar).map Fmt.tuple

variable [DecidableEq F]

/-- `f == other` where at least one side is a function object (`symfem/functions.py:516-518`,
`_check_equal` at `75-109`); `none` means that it raises. -/
def fnEq (f : Fmt F) (other : Val F) : Option Bool :=
  match other.toFmt with
  | none => none
  | some g => some (decide (f = g))

mutual
/-- `allequal` (`symfem/utils.py:12-31`). Lines 27-31: a bare expression `a` is wrapped, and if `b`
is a bare expression it is `a` that is replaced by `ScalarFunction(b)`. `none` means that the call
raises. -/
def allequal : Val F → Val F → Option Bool
  | .seq l, .seq m => allequalList l m
  | .seq l, .expr e => let _ := l; fnEq (.scalar e) (.expr e)
  | .seq l, .fn v => fnEq v (.seq l)
  | .expr _, .expr e => fnEq (.scalar e) (.expr e)
  | .fn _, .expr e => fnEq (.scalar e) (.expr e)
  | .expr e, .seq m => fnEq (.scalar e) (.seq m)
  | .fn v, .seq m => fnEq v (.seq m)
  | .expr e, .fn v => fnEq (.scalar e) (.fn v)
  | .fn u, .fn v => fnEq u (.fn v)

/-- The loop over `zip(a, b)` (`symfem/utils.py:23-26`). -/
def allequalList : List (Val F) → List (Val F) → Option Bool
  | a :: l, b :: m =>
    match allequal a b with
    | none => none
    | some false => some false
    | some true => allequalList l m
  | [], _ => some true
  | _ :: _, [] => some true
end

end

/-- The ending chosen by `_nth` (`symfem/functionals.py:66-81`). -/
def nthSuffix (n : Nat) : String :=
  if n % 10 = 1 ∧ n ≠ 11 then "st"
  else if n % 10 = 2 ∧ n ≠ 12 then "nd"
  else if n % 10 = 3 ∧ n ≠ 12 then "rd"
  else "th"

/-- `_nth` (`symfem/functionals.py:66-81`). -/
def nth (n : Nat) : String := toString n ++ nthSuffix n

end Verif.Utils
