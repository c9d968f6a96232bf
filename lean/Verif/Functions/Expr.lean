import Mathlib.Analysis.Calculus.Deriv.Add
import Mathlib.Analysis.Calculus.Deriv.Inv
import Mathlib.Analysis.Calculus.Deriv.Mul
import Mathlib.Analysis.Calculus.Deriv.Pow
import Mathlib.Analysis.SpecialFunctions.Sqrt
import Mathlib.Tactic.FieldSimp
import Mathlib.Tactic.Ring
import Mathlib.Tactic.LinearCombination

/-!
# Sympy expressions

symfem's functions wrap sympy expressions.  Of sympy we use symbols, numbers, sums, products,
quotients, integer powers and square roots; substitution; and differentiation.  Sympy rewrites
expressions as it goes, which is assumed not to change their values (see DESIGN.md).
-/

namespace Verif.Functions

/-- A sympy expression. -/
inductive Expr where
  | num (c : ℝ)
  | sym (s : String)
  | add (a b : Expr)
  | sub (a b : Expr)
  | neg (a : Expr)
  | mul (a b : Expr)
  | div (a b : Expr)
  | pow (a : Expr) (n : ℕ)
  | sqrt (a : Expr)

namespace Expr

/-- The value of an expression, given values of the symbols. -/
noncomputable def eval (env : String → ℝ) : Expr → ℝ
  | num c => c
  | sym s => env s
  | add a b => a.eval env + b.eval env
  | sub a b => a.eval env - b.eval env
  | neg a => -a.eval env
  | mul a b => a.eval env * b.eval env
  | div a b => a.eval env / b.eval env
  | pow a n => a.eval env ^ n
  | sqrt a => √(a.eval env)

/-- The symbol occurs in the expression (`free_symbols`). -/
def Has (s : String) : Expr → Prop
  | num _ => False
  | sym s' => s = s'
  | add a b | sub a b | mul a b | div a b => a.Has s ∨ b.Has s
  | neg a | pow a _ | sqrt a => a.Has s

/-- `e.subs(s, v)` of sympy -/
def subst (e : Expr) (s : String) (v : Expr) : Expr :=
  match e with
  | num c => num c
  | sym s' => if s' = s then v else sym s'
  | add a b => add (a.subst s v) (b.subst s v)
  | sub a b => sub (a.subst s v) (b.subst s v)
  | neg a => neg (a.subst s v)
  | mul a b => mul (a.subst s v) (b.subst s v)
  | div a b => div (a.subst s v) (b.subst s v)
  | pow a n => pow (a.subst s v) n
  | sqrt a => sqrt (a.subst s v)

/-- `e.diff(s)` of sympy -/
noncomputable def diff (s : String) : Expr → Expr
  | num _ => num 0
  | sym s' => if s' = s then num 1 else num 0
  | add a b => add (a.diff s) (b.diff s)
  | sub a b => sub (a.diff s) (b.diff s)
  | neg a => neg (a.diff s)
  | mul a b => add (mul (a.diff s) b) (mul a (b.diff s))
  | div a b => div (sub (mul (a.diff s) b) (mul a (b.diff s))) (pow b 2)
  | pow a n => mul (mul (num n) (pow a (n - 1))) (a.diff s)
  | sqrt a => div (a.diff s) (mul (num 2) (sqrt a))

/-- The expression is defined and smooth where the symbols have these values: no division by zero,
no square root of a number that is not positive. -/
def Defined (env : String → ℝ) : Expr → Prop
  | num _ | sym _ => True
  | add a b | sub a b | mul a b => a.Defined env ∧ b.Defined env
  | div a b => a.Defined env ∧ b.Defined env ∧ b.eval env ≠ 0
  | neg a | pow a _ => a.Defined env
  | sqrt a => a.Defined env ∧ 0 < a.eval env

/-! ### Facts -/

theorem eval_subst (env : String → ℝ) (s : String) (v e : Expr) :
    (e.subst s v).eval env = e.eval (Function.update env s (v.eval env)) := by
  induction e with
  | num => rfl
  | sym s' =>
    simp only [subst]
    split_ifs with h
    · subst h; simp [eval]
    · simp [eval, Function.update_of_ne h]
  | _ => simp_all [eval, subst]

theorem eval_congr {env env' : String → ℝ} {e : Expr} (h : ∀ s, e.Has s → env s = env' s) :
    e.eval env = e.eval env' := by
  induction e with
  | num => rfl
  | sym s => exact h s rfl
  | add a b iha ihb | sub a b iha ihb | mul a b iha ihb | div a b iha ihb =>
    simp only [eval]
    rw [iha fun s hs => h s (Or.inl hs), ihb fun s hs => h s (Or.inr hs)]
  | neg a iha | pow a n iha | sqrt a iha =>
    simp only [eval]
    rw [iha fun s hs => h s hs]

/-- `diff` computes the derivative. -/
theorem hasDerivAt_diff (env : String → ℝ) (s : String) (e : Expr) (h : e.Defined env) :
    HasDerivAt (fun x => e.eval (Function.update env s x)) ((e.diff s).eval env) (env s) := by
  induction e with
  | num c => exact hasDerivAt_const _ _
  | sym s' =>
    simp only [eval, diff]
    split_ifs with hs
    · subst hs
      simpa [eval] using hasDerivAt_id' (env s')
    · simpa [eval, Function.update_of_ne hs] using hasDerivAt_const (env s) (env s')
  | add a b iha ihb => exact (iha h.1).fun_add (ihb h.2)
  | sub a b iha ihb => exact (iha h.1).fun_sub (ihb h.2)
  | neg a iha => exact (iha h).fun_neg
  | mul a b iha ihb =>
    have := (iha h.1).fun_mul (ihb h.2)
    simpa [eval, diff, Function.update_eq_self] using this
  | div a b iha ihb =>
    have := (iha h.1).fun_div (ihb h.2.1) (by simpa [Function.update_eq_self] using h.2.2)
    simpa [eval, diff, Function.update_eq_self] using this
  | pow a n iha =>
    have := (iha h).fun_pow n
    simpa [eval, diff, Function.update_eq_self] using this
  | sqrt a iha =>
    have := (iha h.1).sqrt (by simpa [Function.update_eq_self] using h.2.ne')
    simpa [eval, diff, Function.update_eq_self] using this

/-- Derivatives commute. -/
theorem diff_comm (env : String → ℝ) (s r : String) (e : Expr) :
    ((e.diff s).diff r).eval env = ((e.diff r).diff s).eval env := by
  induction e with
  | num => rfl
  | sym s' =>
    simp only [diff]
    split_ifs <;> rfl
  | add a b iha ihb | sub a b iha ihb => simp only [diff, eval, iha, ihb]
  | neg a iha => simp only [diff, eval, iha]
  | mul a b iha ihb => simp only [diff, eval, iha, ihb]; ring
  | div a b iha ihb =>
    simp only [diff, eval, iha, ihb]
    by_cases hb : b.eval env = 0
    · simp [hb]
    · field_simp
      ring
  | pow a n iha =>
    simp only [diff, eval, iha]
    ring
  | sqrt a iha =>
    simp only [diff, eval, iha]
    by_cases hb : √(a.eval env) = 0
    · simp [hb]
    · field_simp
      ring

end Expr

end Verif.Functions
