import Verif.Functions.Model
import Verif.Orthogonal.Integral

/-!
# Model of symfem/functionals.py

Functions are expressions, lists of expressions or lists of rows of expressions, as in
`Verif.Functions.Model`; piecewise functions are not covered.  `none`: an exception.
-/

namespace Verif.Functionals

open Verif.Functions Verif.Functions.Expr Verif.References Verif.Orthogonal

/-- A `ScalarFunction`, `VectorFunction` or `MatrixFunction`. -/
inductive FnObj where
  | scalar (f : Expr)
  | vector (v : List Expr)
  | matrix (m : List (List Expr))

namespace FnObj

/-- `subs` (symfem/functions.py:653-671, 1093-1103, 1613-1624) -/
def subs (vars : List String) (values : List Expr) : FnObj → Option FnObj
  | scalar f => some (scalar (subsList f vars values))
  | vector v => some (vector (vsubs v vars values))
  | matrix m => (msubs m vars values).map matrix

/-- `diff` (symfem/functions.py:673-683, 1105-1114, 1626-1640) -/
noncomputable def diff (s : String) : FnObj → Option FnObj
  | scalar f => some (scalar (f.diff s))
  | vector v => some (vector (vdiff v s))
  | matrix m => (mdiff m s).map matrix

/-- `dot` (symfem/functions.py:723-742, 1161-1182, 1682-1703): the shapes must agree. -/
def dot : FnObj → FnObj → Option Expr
  | scalar a, scalar b => some (mul a b)
  | vector v, vector w => vdot v w
  | matrix m, matrix n => mdot m n
  | _, _ => none

/-- `directional_derivative` (symfem/functions.py:685-697; not implemented for others, 1128-1137) -/
noncomputable def directional (d : List Expr) : FnObj → Option Expr
  | scalar f => some (directionalDerivative f d)
  | _ => none

/-- `jacobian_component` (symfem/functions.py:699-708) -/
noncomputable def second (i j : ℕ) : FnObj → Option Expr
  | scalar f => some (jacobianComponent f i j)
  | _ => none

/-- `div` (symfem/functions.py:752-758, 1206-1215) -/
noncomputable def divergence : FnObj → Option Expr
  | vector v => some (vdivergence v)
  | _ => none

/-- `grad(dim)` (symfem/functions.py:760-766; an exception for others, 1217-1223) -/
noncomputable def gradient (dim : ℕ) : FnObj → Option (List Expr)
  | scalar f => some (grad f dim)
  | _ => none

end FnObj

/-- An integration domain: a cell with its vertices (in `g` coordinates). -/
structure Domain where
  cell : Cell
  g : ℕ
  v : ℕ → ℕ → ℝ

/-- The point of the domain with parameters `t`: `point[i] += j * k` in every `_eval_symbolic` of an
integral (symfem/functionals.py:999-1002, 1083-1086, 1169-1172, 1289-1292, 1445-1448, 1489-1492). -/
noncomputable def Domain.point (D : Domain) : List Expr :=
  (List.range D.g).map fun i => ((List.range (axisVertices D.cell).length).zip t).foldl
    (fun e k => add e (mul (num (axis D.cell D.v k.1 i)) (sym k.2))) (num (D.v 0 i))

/-- The point inside `integral`: `point += ti * VectorFunction(a)` (symfem/functions.py:801-803). -/
noncomputable def Domain.integralPoint (D : Domain) : List Expr :=
  (List.range D.g).map fun i => (t.zip (List.range (axisVertices D.cell).length)).foldl
    (fun e k => add e (mul (sym k.1) (num (axis D.cell D.v k.2 i)))) (num (D.v 0 i))

/-- The values of the symbols, with the values of the parameters. -/
def tEnv (env : String → ℝ) (z : ℕ → ℝ) : String → ℝ := fun s =>
  if s = "t0" then z 0 else if s = "t1" then z 1 else if s = "t2" then z 2 else env s

/-- A value that may depend on symbols. -/
abbrev Value := (String → ℝ) → ℝ

/-- `ScalarFunction.integral` (symfem/functions.py:782-816).  The integral by `sympy` is the iterated
integral of the values.  `none`: no Jacobian or limits, and vertices, where the result is not a
`ScalarFunction` and `eval_symbolic` fails. -/
noncomputable def integral (D : Domain) (f : Expr) : Option Value :=
  match D.cell, References.jacobian D.cell D.g D.v with
  | .point, _ => none
  | _, none => none
  | _, some J =>
    let out := (x.zip D.integralPoint).foldl (fun out vp => out.subst vp.1 vp.2) f
    some fun env => cellInt D.cell fun z => (mul out (num J)).eval (tEnv env z)

/-- The functionals. `TangentIntegralMoment`, `NormalIntegralMoment`, … are moments with other
functions, see below. -/
inductive Functional where
  | pointEvaluation (p : List Expr)
  | weightedPointEvaluation (p : List Expr) (weight : Expr)
  | derivativePointEvaluation (p : List Expr) (derivative : List ℕ)
  | pointDirectionalDerivative (p d : List Expr)
  | pointSecondDerivative (p : List Expr) (i j : ℕ)
  | pointInnerProduct (p l r : List Expr)
  | dotPointEvaluation (p : List Expr) (vec : FnObj)
  | pointDivergence (p : List Expr)
  | integralAgainst (D : Domain) (f : FnObj)
  | integralOfDivergenceAgainst (D : Domain) (f : Expr)
  | integralOfDirectionalMultiderivative (D : Domain) (dirs : List (List ℝ)) (orders : List ℕ) (scale : ℝ)
  | integralMoment (D : Domain) (f : FnObj)
  | derivativeIntegralMoment (D : Domain) (f : Expr) (dotWith : List Expr)
  | divergenceIntegralMoment (D : Domain) (f : Expr)
  | innerProductIntegralMoment (D : Domain) (f : Expr) (l r : List Expr)

/-- The last step of an evaluation. -/
inductive Step where
  | done (e : Expr)
  | integrate (D : Domain) (e : Expr)

/-- A scalar function, or the assertion in `eval_symbolic` (symfem/functionals.py:216). -/
def asScalar : FnObj → Option Expr
  | .scalar e => some e
  | _ => none

/-- `for i, j in zip(x, self.derivative): for k in range(j): function = function.diff(i)`
(symfem/functionals.py:411-413) -/
noncomputable def multiDiff (derivative : List ℕ) (f : FnObj) : Option FnObj :=
  ((x.zip derivative).flatMap fun ij => List.replicate ij.2 ij.1).foldlM (fun f i => f.diff i) f

/-- `for dir, o in zip(self.directions, self.orders): for i in range(o):
function = function.grad(len(dir)).dot(VectorFunction(dir))` (symfem/functionals.py:1166-1168) -/
noncomputable def multiDirectional (dirs : List (List ℝ)) (orders : List ℕ) (f : FnObj) : Option FnObj :=
  ((dirs.zip orders).flatMap fun ij => List.replicate ij.2 ij.1).foldlM (fun f dir => do
    let g ← f.gradient dir.length
    let e ← vdot g (dir.map num)
    pure (.scalar e)) f

/-- `_eval_symbolic` of each class, up to the final integral. -/
noncomputable def step : Functional → FnObj → Option Step
  -- symfem/functionals.py:267-276
  | .pointEvaluation p, f => do
    let v ← f.subs x p
    let e ← asScalar v
    pure (.done e)
  -- symfem/functionals.py:333-342
  | .weightedPointEvaluation p w, f => do
    let v ← f.subs x p
    let e ← asScalar v
    pure (.done (mul e w))
  -- symfem/functionals.py:402-414
  | .derivativePointEvaluation p d, f => do
    let g ← multiDiff d f
    let v ← g.subs x p
    let e ← asScalar v
    pure (.done e)
  -- symfem/functionals.py:502-513
  | .pointDirectionalDerivative p d, f => do
    let e ← f.directional d
    pure (.done (subsList e x p))
  -- symfem/functionals.py:631-640
  | .pointSecondDerivative p i j, f => do
    let e ← f.second i j
    pure (.done (subsList e x p))
  -- symfem/functionals.py:706-717: `v @ rvec` only exists for matrices
  | .pointInnerProduct p l r, f => do
    let v ← f.subs x p
    match v with
    | .matrix m => do
      let w ← mvec m r
      let e ← vdot l w
      pure (.done e)
    | _ => none
  -- symfem/functionals.py:795-806
  | .dotPointEvaluation p vec, f => do
    let v1 ← f.subs x p
    let v2 ← vec.subs x p
    let e ← v1.dot v2
    pure (.done e)
  -- symfem/functionals.py:879-896
  | .pointDivergence p, f => do
    let e ← f.divergence
    pure (.done (subsList e x p))
  -- symfem/functionals.py:990-1016
  | .integralAgainst D h, f => do
    let v1 ← f.subs x D.point
    let e ← v1.dot h
    pure (.integrate D e)
  -- symfem/functionals.py:1074-1100
  | .integralOfDivergenceAgainst D h, f => do
    let e ← f.divergence
    pure (.integrate D (mul (subsList e x D.point) h))
  -- symfem/functionals.py:1157-1174
  | .integralOfDirectionalMultiderivative D dirs orders scale, f => do
    let g ← multiDirectional dirs orders f
    let v ← g.subs x D.point
    let e ← asScalar v
    pure (.integrate D (mul (num scale) e))
  -- symfem/functionals.py:1280-1307
  | .integralMoment D h, f => do
    let v1 ← f.subs x D.point
    let e ← v1.dot h
    pure (.integrate D e)
  -- symfem/functionals.py:1413-1451
  | .derivativeIntegralMoment D h dotWith, f => do
    let gr ← f.gradient D.g
    let e ← vdot (vsubs gr x D.point) dotWith
    pure (.integrate D (mul e h))
  -- symfem/functionals.py:1480-1495
  | .divergenceIntegralMoment D h, f => do
    let e ← f.divergence
    pure (.integrate D (mul (subsList e x D.point) h))
  -- symfem/functionals.py:1726-1741
  | .innerProductIntegralMoment D h l r, f => do
    let v ← f.subs x D.point
    match v with
    | .matrix m => do
      let w ← mvec m r
      let e ← vdot l w
      let J ← References.jacobian D.cell D.g D.v
      pure (.integrate D (mul (mul e h) (num J)))
    | _ => none

/-- The integral, if there is one. -/
noncomputable def Step.value : Step → Option Value
  | .done e => some fun env => e.eval env
  | .integrate D e => integral D e

/-- `_eval_symbolic` -/
noncomputable def value (F : Functional) (f : FnObj) : Option Value := do
  let s ← step F f
  s.value

open Classical in
/-- `eval_symbolic` (symfem/functionals.py:205-220): the value must be constant. -/
noncomputable def evalSymbolic (F : Functional) (f : FnObj) : Option ℝ := do
  let r ← value F f
  if ∀ env env', r env = r env' then pure (r fun _ => 0) else none

/-! ### Constructors -/

/-- `IntegralMoment.__init__` (symfem/functionals.py:1247-1251) on the default reference, for a function
with values in the space of the cell: `self.f = f.subs(x, t)`.  (`IntegralAgainst` is the same up to a
factor.) -/
def newIntegralMoment (D : Domain) (f : FnObj) : Option Functional :=
  (f.subs x (t.map sym)).map (.integralMoment D)

/-- `TangentIntegralMoment.__init__` (symfem/functionals.py:1535-1545): the moment against
`f * tangent`; with as many components as coordinates, the function is not mapped. -/
noncomputable def tangentIntegralMoment (D : Domain) (f : Expr) : Option Functional := do
  let tg ← tangent D.cell D.g D.v
  pure (.integralMoment D (.vector ((List.range D.g).map fun i => mul (subsList f x (t.map sym)) (num (tg i)))))

/-- `NormalIntegralMoment.__init__` (symfem/functionals.py:1598-1608) -/
noncomputable def normalIntegralMoment (D : Domain) (f : Expr) : Option Functional := do
  let n ← normal D.cell D.g D.v
  pure (.integralMoment D (.vector ((List.range D.g).map fun i => mul (subsList f x (t.map sym)) (num (n i)))))

/-- `NormalDerivativeIntegralMoment.__init__` (symfem/functionals.py:1661-1666) -/
noncomputable def normalDerivativeIntegralMoment (D : Domain) (f : Expr) : Option Functional := do
  let n ← normal D.cell D.g D.v
  pure (.derivativeIntegralMoment D (subsList f x (t.map sym)) ((List.range D.g).map fun i => num (n i)))

/-- `NormalInnerProductIntegralMoment.__init__` (symfem/functionals.py:1794-1805) -/
noncomputable def normalInnerProductIntegralMoment (D : Domain) (f : Expr) : Option Functional := do
  let n ← normal D.cell D.g D.v
  let ns := (List.range D.g).map fun i => num (n i)
  pure (.innerProductIntegralMoment D (subsList f x (t.map sym)) ns ns)

end Verif.Functionals
