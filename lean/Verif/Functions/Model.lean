import Verif.Functions.Expr

/-!
# Model of symfem/functions.py

A `ScalarFunction` is an expression, a `VectorFunction` a list of expressions and a
`MatrixFunction` a list of rows.  `none`: an exception (an assertion that fails, or `ValueError`).
-/

namespace Verif.Functions

open Expr

/-- `symfem.symbols.x` (symfem/symbols.py:9) -/
def x : List String := ["x", "y", "z"]

/-- `symfem.symbols.t` (symfem/symbols.py:10) -/
def t : List String := ["t0", "t1", "t2"]

/-- `sympy.Symbol(f"DUMMY_{i}")` (symfem/functions.py:663) -/
def dummySym (i : ℕ) : String := "DUMMY_" ++ toString i

/-! ### Scalar functions -/

/-- `ScalarFunction.subs` with a list of variables (symfem/functions.py:659-667). -/
def subsList (f : Expr) (vars : List String) (values : List Expr) : Expr :=
  let dummy := (List.range values.length).map dummySym
  let subbed := (vars.zip dummy).foldl (fun subbed ij => subbed.subst ij.1 (sym ij.2)) f
  (dummy.zip values).foldl (fun subbed ij => subbed.subst ij.1 ij.2) subbed

/-- `ScalarFunction.subs` with one variable (symfem/functions.py:668-671). -/
def subsOne (f : Expr) (var : String) (value : Expr) : Expr := f.subst var value

/-- `ScalarFunction.directional_derivative` (symfem/functions.py:685-697) -/
noncomputable def directionalDerivative (f : Expr) (direction : List Expr) : Expr :=
  (x.zip direction).foldl (fun out ij => add out (mul ij.2 (f.diff ij.1))) (num 0)

/-- `ScalarFunction.jacobian_component` (symfem/functions.py:699-708) -/
noncomputable def jacobianComponent (f : Expr) (i j : ℕ) : Expr :=
  (f.diff (x.getD i "")).diff (x.getD j "")

/-- `ScalarFunction.jacobian` (symfem/functions.py:710-721) -/
noncomputable def jacobian (f : Expr) (dim : ℕ) : List (List Expr) :=
  (List.range dim).map fun i => (List.range dim).map fun j => jacobianComponent f i j

/-- `ScalarFunction.grad` (symfem/functions.py:758-764) -/
noncomputable def grad (f : Expr) (dim : ℕ) : List Expr :=
  (List.range dim).map fun i => f.diff (x.getD i "")

/-- `ScalarFunction.norm` (symfem/functions.py:774-780): `abs`, which is the root of the square. -/
def snorm (f : Expr) : Expr := sqrt (pow f 2)

/-! ### Vector functions -/

/-- `VectorFunction.__add__` with a vector (symfem/functions.py:984-988) -/
def vadd (v w : List Expr) : Option (List Expr) :=
  if v.length = w.length then some (List.zipWith add v w) else none

/-- `VectorFunction.__add__` with a list (symfem/functions.py:989-990); `zip` stops at the shorter. -/
def vaddList (v w : List Expr) : List Expr := List.zipWith add v w

/-- `VectorFunction.__sub__` with a vector (symfem/functions.py:1002-1006) -/
def vsub (v w : List Expr) : Option (List Expr) :=
  if v.length = w.length then some (List.zipWith sub v w) else none

/-- `VectorFunction.__rsub__` with a vector (symfem/functions.py:1011-1015) -/
def vrsub (v w : List Expr) : Option (List Expr) :=
  if v.length = w.length then some (List.zipWith sub w v) else none

/-- `VectorFunction.__neg__` (symfem/functions.py:1020-1022) -/
def vneg (v : List Expr) : List Expr := v.map neg

/-- `VectorFunction.__mul__` (symfem/functions.py:1036-1042) -/
def vmul (v : List Expr) (f : Expr) : List Expr := v.map fun i => mul i f

/-- `VectorFunction.__rmul__` (symfem/functions.py:1044-1050) -/
def vrmul (f : Expr) (v : List Expr) : List Expr := v.map fun i => mul f i

/-- `VectorFunction.__truediv__` (symfem/functions.py:1024-1030) -/
def vdiv (v : List Expr) (f : Expr) : List Expr := v.map fun i => div i f

/-- `VectorFunction.subs` (symfem/functions.py:1093-1103) -/
def vsubs (v : List Expr) (vars : List String) (values : List Expr) : List Expr :=
  v.map fun i => subsList i vars values

/-- `VectorFunction.diff` (symfem/functions.py:1105-1114) -/
noncomputable def vdiff (v : List Expr) (var : String) : List Expr := v.map (diff var)

/-- `VectorFunction.dot` (symfem/functions.py:1149-1170) -/
def vdot (v w : List Expr) : Option Expr :=
  if v.length = w.length then
    some ((v.zip w).foldl (fun out ij => add out (mul ij.1 ij.2)) (num 0))
  else none

/-- The value of `VectorFunction.cross` is a scalar for two components, a vector for three. -/
inductive Cross where
  | scalar (e : Expr)
  | vector (v : List Expr)

/-- `VectorFunction.cross` (symfem/functions.py:1172-1194) -/
def vcross (v w : List Expr) : Option Cross :=
  match v, w with
  | [v0, v1], [w0, w1] => some (.scalar (sub (mul v0 w1) (mul v1 w0)))
  | [v0, v1, v2], [w0, w1, w2] =>
    some (.vector [sub (mul v1 w2) (mul v2 w1), sub (mul v2 w0) (mul v0 w2),
      sub (mul v0 w1) (mul v1 w0)])
  | _, _ => none

/-- `VectorFunction.div` (symfem/functions.py:1196-1205) -/
noncomputable def vdivergence (v : List Expr) : Expr :=
  (v.zip x).foldl (fun out ij => add out (ij.1.diff ij.2)) (num 0)

/-- `VectorFunction.curl` (symfem/functions.py:1215-1228) -/
noncomputable def vcurl (v : List Expr) : Option (List Expr) :=
  match v with
  | [v0, v1, v2] => some [sub (v2.diff "y") (v1.diff "z"), sub (v0.diff "z") (v2.diff "x"),
      sub (v1.diff "x") (v0.diff "y")]
  | _ => none

/-- `VectorFunction.norm` (symfem/functions.py:1230-1239) -/
def vnorm (v : List Expr) : Expr := sqrt (v.foldl (fun a i => add a (pow i 2)) (num 0))

/-! ### Matrix functions -/

/-- `MatrixFunction.__init__`: rows of one length (symfem/functions.py:1342-1387). -/
def mkMat (m : List (List Expr)) : Option (List (List Expr)) :=
  if ∀ r ∈ m, r.length = ((m[0]?).getD []).length then some m else none

/-- `MatrixFunction.shape` (symfem/functions.py:1382) -/
def shape (m : List (List Expr)) : ℕ × ℕ := (m.length, ((m[0]?).getD []).length)

/-- `self._mat[i][j]` -/
def entry (m : List (List Expr)) (i j : ℕ) : Expr := ((((m[i]?).getD [])[j]?).getD (num 0))

/-- `MatrixFunction.row` (symfem/functions.py:1405-1414) -/
def row (m : List (List Expr)) (n : ℕ) : List Expr :=
  (List.range (shape m).2).map fun i => entry m n i

/-- `MatrixFunction.col` (symfem/functions.py:1416-1425) -/
def col (m : List (List Expr)) (n : ℕ) : List Expr :=
  (List.range (shape m).1).map fun i => entry m i n

/-- `MatrixFunction.__add__` with a matrix (symfem/functions.py:1427-1436) -/
def madd (m n : List (List Expr)) : Option (List (List Expr)) :=
  if shape m = shape n then mkMat (List.zipWith (List.zipWith add) m n) else none

/-- `MatrixFunction.__sub__` with a matrix (symfem/functions.py:1479-1488) -/
def msub (m n : List (List Expr)) : Option (List (List Expr)) :=
  if shape m = shape n then mkMat (List.zipWith (List.zipWith sub) m n) else none

/-- `MatrixFunction.__neg__` (symfem/functions.py:1531-1533) -/
def mneg (m : List (List Expr)) : Option (List (List Expr)) := mkMat (m.map (·.map neg))

/-- `MatrixFunction.__mul__` (symfem/functions.py:1547-1553) -/
def mscale (m : List (List Expr)) (f : Expr) : Option (List (List Expr)) :=
  mkMat (m.map (·.map fun j => mul j f))

/-- `MatrixFunction.__matmul__` (symfem/functions.py:1563-1573) -/
def mmatmul (m n : List (List Expr)) : Option (List (List Expr)) :=
  if (shape n).1 = (shape m).2 then
    ((List.range (shape m).1).mapM fun i =>
      (List.range (shape n).2).mapM fun j => vdot (row m i) (col n j)).bind mkMat
  else none

/-- `VectorFunction.__rmatmul__`: `matrix @ vector` (symfem/functions.py:1063-1068) -/
def mvec (m : List (List Expr)) (v : List Expr) : Option (List Expr) :=
  if (shape m).2 = v.length then (List.range (shape m).1).mapM fun i => vdot (row m i) v else none

/-- `VectorFunction.__matmul__`: `vector @ matrix` (symfem/functions.py:1056-1061) -/
def vecm (v : List Expr) (m : List (List Expr)) : Option (List Expr) :=
  if (shape m).2 = v.length then
    (List.range (shape m).1).mapM fun i => if i < (shape m).2 then vdot (col m i) v else none
  else none

/-- `MatrixFunction.subs` (symfem/functions.py:1613-1624) -/
def msubs (m : List (List Expr)) (vars : List String) (values : List Expr) :
    Option (List (List Expr)) :=
  mkMat (m.map (·.map fun j => subsList j vars values))

/-- `MatrixFunction.diff` (symfem/functions.py:1626-1640) -/
noncomputable def mdiff (m : List (List Expr)) (var : String) : Option (List (List Expr)) :=
  mkMat ((List.range (shape m).1).map fun i => (List.range (shape m).2).map fun j =>
    (entry m i j).diff var)

/-- `MatrixFunction.dot` (symfem/functions.py:1675-1697): both loops are over the rows; `none` also if
an entry does not exist. -/
def mdot (m n : List (List Expr)) : Option Expr :=
  if shape m = shape n then
    if (shape m).1 ≤ (shape m).2 then
      some ((List.range (shape m).1).foldl (fun out i => (List.range (shape m).1).foldl
        (fun out j => add out (mul (entry m i j) (entry n i j))) out) (num 0))
    else none
  else none

/-- `Matrix.det` of sympy, by expansion along the first row. -/
noncomputable def sympyDet : (n : ℕ) → (ℕ → ℕ → Expr) → Expr
  | 0, _ => num 1
  | n + 1, a => (List.range (n + 1)).foldl (fun out j =>
      add out (mul (mul (num ((-1) ^ j)) (a 0 j))
        (sympyDet n fun r c => a (r + 1) (if c < j then c else c + 1)))) (num 0)

/-- `MatrixFunction.det` (symfem/functions.py:1753-1766) -/
noncomputable def mdet (m : List (List Expr)) : Option Expr :=
  if (shape m).1 = (shape m).2 then some (sympyDet (shape m).1 (entry m))
  else if (shape m).1 = 3 ∧ (shape m).2 = 2 then
    match vcross (col m 0) (col m 1) with
    | some (.vector v) => some (vnorm v)
    | some (.scalar e) => some (snorm e)
    | none => none
  else none

/-- `MatrixFunction.transpose` (symfem/functions.py:1768-1776) -/
def mtranspose (m : List (List Expr)) : Option (List (List Expr)) :=
  mkMat ((List.range (shape m).2).map fun j => (List.range (shape m).1).map fun i => entry m i j)

/-! ### Iteration -/

/-- An operation on an object: `__iter__` or `__next__`. -/
inductive IterOp where
  | iter
  | next

/-- `VectorFunction.__iter__` and `__next__` (symfem/functions.py:1260-1271).  The state is the value of
`iter_n` on each object; `lens o` is the number of components of object `o`.  The result of `__next__`
is the number of the component, or `none` for `StopIteration`. -/
def iterStep (lens : ℕ → ℕ) (st : ℕ → ℕ) (op : ℕ × IterOp) : (ℕ → ℕ) × Option ℕ :=
  match op with
  | (o, .iter) => (Function.update st o 0, none)
  | (o, .next) =>
    if st o < lens o then (Function.update st o (st o + 1), some (st o + 1 - 1)) else (st, none)

/-- `for c in o: body`: the components visited and the final state; `fuel` bounds the number of
rounds. -/
def forLoop (lens : ℕ → ℕ) (o : ℕ) (body : (ℕ → ℕ) → (ℕ → ℕ)) : ℕ → (ℕ → ℕ) → List ℕ × (ℕ → ℕ)
  | 0, st => ([], st)
  | fuel + 1, st =>
    match iterStep lens st (o, .next) with
    | (st', none) => ([], st')
    | (st', some c) =>
      let (cs, st'') := forLoop lens o body fuel (body st')
      (c :: cs, st'')

/-- A whole `for` statement: `__iter__`, then the loop. -/
def forStmt (lens : ℕ → ℕ) (o : ℕ) (body : (ℕ → ℕ) → (ℕ → ℕ)) (fuel : ℕ) (st : ℕ → ℕ) :
    List ℕ × (ℕ → ℕ) :=
  forLoop lens o body fuel (iterStep lens st (o, .iter)).1

end Verif.Functions
