import Verif.Caching.Model
import Mathlib.Data.Rat.Defs
import Mathlib.Tactic.NormNum
/-!
# The entry codec for rational numbers

sympy prints an `Integer` as decimal digits with an optional minus sign and a `Rational` as
`p/q` in lowest terms with `q > 1`; `sympy.S` reads both back.  `sympy.S` accepts far more than this
(any Python-like expression); every other text is an error here.
-/

namespace Verif.Caching

/-- Decimal digit as a character. -/
def digitChar (d : Nat) : Char := Char.ofNat (48 + d)

/-- Value of a decimal digit character. -/
def charDigit (c : Char) : Option Nat :=
  if 48 ≤ c.toNat ∧ c.toNat ≤ 57 then some (c.toNat - 48) else none

/-- `str(n)` for a natural number. -/
def printNat (n : Nat) : Str :=
  if n < 10 then [digitChar n] else printNat (n / 10) ++ [digitChar (n % 10)]
decreasing_by omega

/-- Read digits, most significant first, into an accumulator. -/
def parseDigits : Nat → Str → Option Nat
  | acc, [] => some acc
  | acc, c :: t =>
    match charDigit c with
    | none => none
    | some d => parseDigits (10 * acc + d) t

/-- Read a non-empty digit string. -/
def parseNat : Str → Option Nat
  | [] => none
  | c :: t => parseDigits 0 (c :: t)

/-- Read an unsigned integer or fraction. `p/0` is `zoo` for sympy; it is an error here. -/
def parseUnsigned (s : Str) : Option ℚ :=
  match splitOn '/' s with
  | [p] =>
    match parseNat p with
    | some n => some (n : ℚ)
    | none => none
  | [p, q] =>
    match parseNat p, parseNat q with
    | some a, some b => if b = 0 then none else some ((a : ℚ) / (b : ℚ))
    | _, _ => none
  | _ => none

/-- `repr` of a sympy `Integer` or `Rational`. -/
def printUnsigned (num den : Nat) : Str :=
  if den = 1 then printNat num else printNat num ++ '/' :: printNat den

/-- `repr` of a sympy `Integer` or `Rational`. -/
def printRat (q : ℚ) : Str :=
  if q.num < 0 then '-' :: printUnsigned q.num.natAbs q.den else printUnsigned q.num.natAbs q.den

/-- `sympy.S` on the texts that `printRat` can produce. -/
def parseRat (s : Str) : Except Err ℚ :=
  match s with
  | '-' :: t => match parseUnsigned t with
    | some q => .ok (-q)
    | none => .error .parse
  | _ => match parseUnsigned s with
    | some q => .ok q
    | none => .error .parse

/-- The codec for rational entries. -/
def ratCodec : Codec ℚ := ⟨printRat, parseRat⟩

end Verif.Caching
