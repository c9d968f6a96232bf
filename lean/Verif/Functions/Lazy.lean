import Verif.Functions.PropsSubs
import Verif.Functions.PropsArith

/-!
# Basis functions that have not been computed yet

`element.get_basis_function(n)` (symfem/finite_element.py:226-235) returns an object that stands for
the basis function and that computes it when it is used (symfem/basis_functions.py).  The model is of
Python's rules for operators: `a + b` is `a.__add__(b)`; if that is `NotImplemented` and the two types
differ, `b.__radd__(a)`; if that is `NotImplemented` too, `TypeError`.

Left out: piecewise functions as operands, `sympy.Matrix` as an operand, slices.
-/

namespace Verif.Functions

open Expr

namespace Lazy

/-- A function that is written out: `ScalarFunction`, `VectorFunction`, `MatrixFunction`
(symfem/functions.py:525, 931, 1336). -/
inductive Fn where
  | scalar (e : Expr)
  | vector (v : List Expr)
  | matrix (m : List (List Expr))

/-- `subs` of the three classes (symfem/functions.py:649-672, 1104-1115, 1620-1631) -/
def Fn.subs (vars : List String) (values : List Expr) : Fn → Option Fn
  | .scalar e => some (.scalar (subsList e vars values))
  | .vector v => some (.vector (vsubs v vars values))
  | .matrix m => (msubs m vars values).map .matrix

/-- A basis function: of an element (symfem/finite_element.py:1243-1270, `f` being the function that the
element computes), or with values substituted (symfem/basis_functions.py:385-401). -/
inductive Basis where
  | element (f : Fn)
  | subbed (b : Basis) (vars : List String) (values : List Expr)

/-- `get_function` (symfem/finite_element.py:1264-1270, symfem/basis_functions.py:403-409) -/
def Basis.getFunction : Basis → Option Fn
  | .element f => some f
  | .subbed b vars values => b.getFunction.bind (Fn.subs vars values)

/-- An operand: a Python `int`, a sympy expression, a list of expressions, a list of lists, a
function or a basis function. -/
inductive Val where
  | num (n : ℤ)
  | expr (e : Expr)
  | list (l : List Expr)
  | rows (l : List (List Expr))
  | fn (f : Fn)
  | basis (b : Basis)

/-- What a method returns: a value, `NotImplemented`, or an exception. -/
inductive Res where
  | ok (v : Val)
  | notImpl
  | err

/-- An operator -/
inductive Op where
  | add | sub | mul | div | matmul
deriving DecidableEq

/-- The operator of sympy; sympy expressions have no `@`. -/
def Op.sym : Op → Option (Expr → Expr → Expr)
  | .add => some Expr.add
  | .sub => some Expr.sub
  | .mul => some Expr.mul
  | .div => some Expr.div
  | .matmul => none

/-- A vector function with these components, if there are any -/
def ofVec : Option (List Expr) → Res
  | some v => .ok (.fn (.vector v))
  | none => .err

/-- A matrix function with these rows, if there are any -/
def ofMat : Option (List (List Expr)) → Res
  | some m => .ok (.fn (.matrix m))
  | none => .err

/-- `other` as a number or sympy expression: `isinstance(other, ScalarFunction)` gives `other._f`,
`isinstance(other, (int, sympy.core.expr.Expr))` gives `other` (for example
symfem/functions.py:552-555). -/
def asScalar : Val → Option Expr
  | .num n => some (.num n)
  | .expr e => some e
  | .fn (.scalar e) => some e
  | _ => none

/-- `MatrixFunction.__add__` and the like with a list (symfem/functions.py:1434-1439):
`zip` stops at the shorter, every row must have the right length. -/
def withRows (g : Expr → Expr → Expr) (m l : List (List Expr)) : Option (List (List Expr)) :=
  if ∀ r ∈ l.take m.length, r.length = (shape m).2 then mkMat (List.zipWith (List.zipWith g) m l)
  else none

/-- `__add__`, `__sub__`, `__mul__`, `__truediv__`, `__matmul__` of the three classes
(symfem/functions.py:550-616, 994-1067, 1425-1575) -/
def Fn.fwd (op : Op) : Fn → Val → Res
  | .scalar e, o =>
    match op.sym, asScalar o with
    | some g, some e' => .ok (.fn (.scalar (g e e')))
    | _, _ => .notImpl
  | .vector v, o =>
    match op with
    | .add | .sub =>
      match o with
      | .fn (.vector w) => ofVec (if v.length = w.length then
          some (List.zipWith (op.sym.getD Expr.add) v w) else none)
      | .list w => ofVec (some (List.zipWith (op.sym.getD Expr.add) v w))
      | .rows w => if v = [] ∨ w = [] then ofVec (some []) else .err
      | _ => .notImpl
    | .mul | .div =>
      match asScalar o with
      | some e => ofVec (some (v.map fun i => (op.sym.getD Expr.mul) i e))
      | none => .notImpl
    | .matmul =>
      match o with
      | .fn (.matrix m) => ofVec (vecm v m)
      | _ => .notImpl
  | .matrix m, o =>
    match op with
    | .add | .sub =>
      match o with
      | .fn (.matrix n) => ofMat (if shape m = shape n then
          mkMat (List.zipWith (List.zipWith (op.sym.getD Expr.add)) m n) else none)
      | .rows l => ofMat (withRows (op.sym.getD Expr.add) m l)
      | .list l => if m = [] ∨ l = [] then ofMat (some []) else .err
      | _ => .notImpl
    | .mul | .div =>
      match asScalar o with
      | some e => ofMat (mkMat (m.map (·.map fun j => (op.sym.getD Expr.mul) j e)))
      | none => .notImpl
    | .matmul =>
      match o with
      | .fn (.matrix n) => ofMat (mmatmul m n)
      | _ => .notImpl

/-- `__radd__`, `__rsub__`, `__rmul__`, `__rtruediv__`, `__rmatmul__` of the three classes
(symfem/functions.py:558-620, 1003-1074, 1452-1587) -/
def Fn.rev (op : Op) : Fn → Val → Res
  | .scalar e, o =>
    match op.sym, asScalar o with
    | some g, some e' => .ok (.fn (.scalar (g e' e)))
    | _, _ => .notImpl
  | .vector v, o =>
    match op with
    | .add | .sub =>
      match o with
      | .fn (.vector w) => ofVec (if v.length = w.length then
          some (List.zipWith (op.sym.getD Expr.add) w v) else none)
      | .list w => ofVec (some (List.zipWith (op.sym.getD Expr.add) w v))
      | .rows w => if v = [] ∨ w = [] then ofVec (some []) else .err
      | _ => .notImpl
    | .mul =>
      match asScalar o with
      | some e => ofVec (some (v.map fun i => Expr.mul e i))
      | none => .notImpl
    | .div => .notImpl
    | .matmul =>
      match o with
      | .fn (.matrix m) => ofVec (mvec m v)
      | _ => .notImpl
  | .matrix m, o =>
    match op with
    | .add | .sub =>
      match o with
      | .fn (.matrix n) => ofMat (if shape m = shape n then
          mkMat (List.zipWith (List.zipWith (op.sym.getD Expr.add)) n m) else none)
      | .rows l => ofMat (withRows (fun a b => (op.sym.getD Expr.add) b a) m l)
      | .list l => if m = [] ∨ l = [] then ofMat (some []) else .err
      | _ => .notImpl
    | .mul =>
      match asScalar o with
      | some e => ofMat (mkMat (m.map (·.map fun j => Expr.mul e j)))
      | none => .notImpl
    | .div => .notImpl
    | .matmul =>
      match o with
      | .fn (.matrix n) => ofMat (mmatmul n m)
      | _ => .notImpl

/-- What sympy takes as an expression: it calls `_sympy_`, which is `as_sympy` and is an expression
for scalars only (symfem/functions.py:484-486, symfem/basis_functions.py:180-186). -/
def sympify : Val → Option Expr
  | .num n => some (.num n)
  | .expr e => some e
  | .fn (.scalar e) => some e
  | .basis b =>
    match b.getFunction with
    | some (.scalar e) => some e
    | _ => none
  | _ => none

/-- `a.__op__(o)`.  A basis function passes the call on (symfem/basis_functions.py:51-170).  Numbers,
expressions and lists are Python's and sympy's. -/
def call (op : Op) : Val → Val → Res
  | .fn f, o => f.fwd op o
  | .basis b, o => (b.getFunction.map fun f => f.fwd op o).getD .err
  | .expr e, o =>
    match op.sym, sympify o with
    | some g, some e' => .ok (.expr (g e e'))
    | _, _ => .notImpl
  | .num n, .num m =>
    match op.sym with
    | some g => .ok (.expr (g (.num n) (.num m)))
    | none => .notImpl
  | .num _, _ => .notImpl
  | .list _, _ => .notImpl
  | .rows _, _ => .notImpl

/-- `o.__rop__(a)` -/
def rcall (op : Op) : Val → Val → Res
  | .fn f, a => f.rev op a
  | .basis b, a => (b.getFunction.map fun f => f.rev op a).getD .err
  | .expr e, a =>
    match op.sym, sympify a with
    | some g, some e' => .ok (.expr (g e' e))
    | _, _ => .notImpl
  | _, _ => .notImpl

/-- `type(a) is type(b)` -/
def sameType : Val → Val → Bool
  | .num _, .num _ => true
  | .expr _, .expr _ => true
  | .list _, .list _ => true
  | .rows _, .rows _ => true
  | .fn (.scalar _), .fn (.scalar _) => true
  | .fn (.vector _), .fn (.vector _) => true
  | .fn (.matrix _), .fn (.matrix _) => true
  | .basis (.element _), .basis (.element _) => true
  | .basis (.subbed ..), .basis (.subbed ..) => true
  | _, _ => false

/-- The expression `a op b` in Python. -/
def binop (op : Op) (a b : Val) : Res :=
  match call op a b with
  | .notImpl =>
    if sameType a b then .err
    else match rcall op b a with
      | .notImpl => .err
      | r => r
  | r => r

/-! ### Operators -/

/-- No operator takes two basis functions: `element.get_basis_function(0) +
element.get_basis_function(1)` raises `TypeError`, whatever the functions are. -/
theorem basis_basis (op : Op) (a b : Basis) (f g : Fn) (ha : a.getFunction = some f)
    (hb : b.getFunction = some g) : binop op (.basis a) (.basis b) = .err := by
  have h1 : call op (.basis a) (.basis b) = .notImpl := by
    simp only [call, ha, Option.map_some, Option.getD_some]
    cases f <;> cases op <;> rfl
  have h2 : rcall op (.basis b) (.basis a) = .notImpl := by
    simp only [rcall, hb, Option.map_some, Option.getD_some]
    cases g <;> cases op <;> rfl
  simp only [binop, h1, h2, ite_self]

/-- The functions themselves can be added, subtracted, multiplied and divided. -/
theorem plain_plain (op : Op) (hop : op ≠ .matmul) (e e' : Expr) :
    ∃ g, op.sym = some g ∧ binop op (.fn (.scalar e)) (.fn (.scalar e')) = .ok (.fn (.scalar (g e e'))) := by
  cases op
  case matmul => exact absurd rfl hop
  all_goals exact ⟨_, rfl, rfl⟩

/-- The products of a basis function (on the left) with something that is not of its kind: a scalar
function times a vector or a matrix, a matrix times a vector. -/
def MixedLeft (op : Op) (f : Fn) (c : Val) : Prop :=
  (op = .mul ∧ ∃ e, f = .scalar e ∧ ((∃ v, c = .fn (.vector v)) ∨ ∃ m, c = .fn (.matrix m))) ∨
    (op = .matmul ∧ ∃ m v, f = .matrix m ∧ c = .fn (.vector v))

/-- The same with the basis function on the right; a vector or matrix over a scalar as well. -/
def MixedRight (op : Op) (c : Val) (f : Fn) : Prop :=
  ((op = .mul ∨ op = .div) ∧
      ∃ e, f = .scalar e ∧ ((∃ v, c = .fn (.vector v)) ∨ ∃ m, c = .fn (.matrix m))) ∨
    (op = .matmul ∧ ∃ v m, c = .fn (.vector v) ∧ f = .matrix m)

/-- Other than in mixed products, a basis function on the left may be replaced by its function. -/
theorem basis_left (op : Op) (b : Basis) (f : Fn) (c : Val) (hb : b.getFunction = some f)
    (hc : ∀ b', c ≠ .basis b') (hm : ¬ MixedLeft op f c) :
    binop op (.basis b) c = binop op (.fn f) c := by
  rcases c with n | e | l | l | g | b'
  · rcases f with _ | _ | _ <;> cases op <;> simp [binop, call, rcall, hb, Fn.fwd, asScalar, Op.sym, sameType, ofVec, ofMat]
  · rcases f with _ | _ | _ <;> cases op <;> simp [binop, call, rcall, hb, Fn.fwd, asScalar, Op.sym, sameType, ofVec, sympify]
  · rcases f with _ | _ | _ <;> cases op <;> simp [binop, call, rcall, hb, Fn.fwd, asScalar, Op.sym, sameType, ofVec]
  · rcases f with _ | _ | _ <;> cases op <;> simp [binop, call, rcall, hb, Fn.fwd, asScalar, Op.sym, sameType, ofVec]
  · rcases f with e | v | m <;> rcases g with e' | v' | m' <;> cases op <;>
      simp [binop, call, rcall, hb, Fn.fwd, Fn.rev, asScalar, Op.sym, sameType, MixedLeft] at hm ⊢
  · exact absurd rfl (hc b')

/-- Mixed products raise. -/
theorem basis_left_mixed (op : Op) (b : Basis) (f : Fn) (c : Val) (hb : b.getFunction = some f)
    (hm : MixedLeft op f c) : binop op (.basis b) c = .err := by
  rcases hm with ⟨rfl, e, rfl, ⟨v, rfl⟩ | ⟨m, rfl⟩⟩ | ⟨rfl, m, v, rfl, rfl⟩ <;>
    simp [binop, call, rcall, hb, Fn.fwd, Fn.rev, asScalar, Op.sym, sameType]

/-- Other than in mixed products, a basis function on the right may be replaced by its function. -/
theorem basis_right (op : Op) (b : Basis) (f : Fn) (c : Val) (hb : b.getFunction = some f)
    (hc : ∀ b', c ≠ .basis b') (hm : ¬ MixedRight op c f) :
    binop op c (.basis b) = binop op c (.fn f) := by
  rcases c with n | e | l | l | g | b'
  · rcases f with _ | _ | _ <;> cases op <;> simp [binop, call, rcall, hb, Fn.rev, asScalar, Op.sym, sameType, ofVec]
  · rcases f with _ | _ | _ <;> cases op <;> simp [binop, call, rcall, hb, Fn.rev, asScalar, Op.sym, sameType, ofVec, sympify]
  · rcases f with _ | _ | _ <;> cases op <;> simp [binop, call, rcall, hb, Fn.rev, asScalar, Op.sym, sameType, ofVec]
  · rcases f with _ | _ | _ <;> cases op <;> simp [binop, call, rcall, hb, Fn.rev, asScalar, Op.sym, sameType, ofVec]
  · rcases f with e | v | m <;> rcases g with e' | v' | m' <;> cases op <;>
      simp [binop, call, rcall, hb, Fn.fwd, Fn.rev, asScalar, Op.sym, sameType, MixedRight,
        eq_comm] at hm ⊢
  · exact absurd rfl (hc b')

/-- Mixed products raise. -/
theorem basis_right_mixed (op : Op) (b : Basis) (f : Fn) (c : Val) (hb : b.getFunction = some f)
    (hm : MixedRight op c f) : binop op c (.basis b) = .err := by
  rcases hm with ⟨rfl | rfl, e, rfl, ⟨v, rfl⟩ | ⟨m, rfl⟩⟩ | ⟨rfl, m, v, rfl, rfl⟩ <;>
    simp [binop, call, rcall, hb, Fn.fwd, Fn.rev, asScalar, Op.sym, sameType]

/-! ### Methods -/

/-- `self.is_scalar`, `self.is_vector`, `self.is_matrix` agree (symfem/functions.py:115-126); a basis function
has the flags of its function (symfem/finite_element.py:1253-1260, symfem/basis_functions.py:398). -/
def sameKind : Fn → Fn → Bool
  | .scalar _, .scalar _ => true
  | .vector _, .vector _ => true
  | .matrix _, .matrix _ => true
  | _, _ => false

/-- `dot` of two functions (symfem/functions.py:723-739, 1161-1181, 1682-1703) -/
def Fn.dot : Fn → Fn → Option Expr
  | .scalar a, .scalar b => some (.mul a b)
  | .vector v, .vector w => vdot v w
  | .matrix m, .matrix n => mdot m n
  | _, _ => none

/-- An object with a `dot` method -/
inductive Fun where
  | fn (f : Fn)
  | basis (b : Basis)

/-- The function that the object stands for -/
def Fun.force : Fun → Option Fn
  | .fn f => some f
  | .basis b => b.getFunction

/-- `f.dot(o)`: if `o` is a basis function of the same kind, `o.dot(f)` (symfem/functions.py:736-737,
1178-1179, 1700-1701), which is `o.get_function().dot(f)` (symfem/basis_functions.py:243-252). -/
def Fn.dotWith (f : Fn) : Fun → Option Expr
  | .fn g => f.dot g
  | .basis b => b.getFunction.bind fun g => if sameKind g f then g.dot f else none

/-- `a.dot(b)` (symfem/basis_functions.py:243-252) -/
def Fun.dot (a b : Fun) : Option Expr := a.force.bind fun f => f.dotWith b

theorem vdot_comm (env : String → ℝ) (v w : List Expr) :
    (vdot v w).map (eval env) = (vdot w v).map (eval env) := by
  unfold vdot
  by_cases h : v.length = w.length
  · rw [if_pos h, if_pos h.symm, Option.map_some, Option.map_some, eval_foldl_add, eval_foldl_add]
    congr 2
    rw [← List.zip_swap v w, List.map_map]
    congr 1
    refine List.map_congr_left fun p _ => ?_
    simp [eval, mul_comm]
  · rw [if_neg h, if_neg (Ne.symm h)]

theorem mdot_comm (env : String → ℝ) (m n : List (List Expr)) :
    (mdot m n).map (eval env) = (mdot n m).map (eval env) := by
  by_cases h : shape m = shape n
  · by_cases h' : (shape m).1 ≤ (shape m).2
    · obtain ⟨e, he, hv⟩ := mdot_value (env := env) h h'
      obtain ⟨e', he', hv'⟩ := mdot_value (env := env) h.symm (h ▸ h')
      rw [he, he', Option.map_some, Option.map_some, hv, hv', h]
      simp only [mul_comm]
    · unfold mdot
      rw [if_pos h, if_pos h.symm, if_neg h', if_neg (h ▸ h')]
  · unfold mdot
    rw [if_neg h, if_neg (Ne.symm h)]

/-- `dot` does work for basis functions, on either side and on both: it has the value of the product
of the functions, and raises when that does. -/
theorem dot_basis (env : String → ℝ) (a b : Fun) (f g : Fn) (ha : a.force = some f) (hb : b.force = some g) :
    (a.dot b).map (eval env) = (f.dot g).map (eval env) := by
  unfold Fun.dot
  rw [ha, Option.bind_some]
  rcases b with g' | b
  · cases hb
    rfl
  · have hb' : b.getFunction = some g := hb
    simp only [Fn.dotWith, hb', Option.bind_some]
    rcases f with e | v | m <;> rcases g with e' | v' | m' <;> simp [sameKind, Fn.dot]
    · simp [eval, mul_comm]
    · exact vdot_comm env v' v
    · exact mdot_comm env m' m

/-- `shape` of a function (symfem/functions.py:381-387, 979-985, 1388-1394); scalars have none. -/
def Fn.shape : Fn → Option (List ℕ)
  | .scalar _ => none
  | .vector v => some [v.length]
  | .matrix m => some [(Functions.shape m).1, (Functions.shape m).2]

/-- `shape` of a basis function.  Only the class for substituted values has it
(symfem/basis_functions.py:411-418); the class for basis functions of an element inherits
`AnyFunction.shape`, which raises (symfem/functions.py:381-387). -/
def Basis.shape : Basis → Option (List ℕ)
  | .element _ => none
  | .subbed b _ _ => b.getFunction.bind Fn.shape

theorem mkMat_some {m n : List (List Expr)} (h : mkMat m = some n) : n = m := by
  unfold mkMat at h
  split_ifs at h
  exact (Option.some.inj h).symm

/-- The shape after substituting values is that of the function with the values substituted, although
it is computed without substituting. -/
theorem shape_subbed (b : Basis) (vars : List String) (values : List Expr) (f : Fn)
    (h : (Basis.subbed b vars values).getFunction = some f) :
    (Basis.subbed b vars values).shape = f.shape := by
  simp only [Basis.getFunction, Basis.shape] at h ⊢
  rcases hb : b.getFunction with _ | g
  · rw [hb] at h
    cases h
  · rw [hb, Option.bind_some] at h
    rw [Option.bind_some]
    rcases g with e | v | m
    · cases h
      rfl
    · cases h
      simp [Fn.shape, vsubs]
    · simp only [Fn.subs, Option.map_eq_some_iff] at h
      obtain ⟨n, hn, rfl⟩ := h
      unfold msubs at hn
      rw [mkMat_some hn]
      simp only [Fn.shape, Functions.shape, List.length_map, List.getElem?_map]
      cases m[0]? <;> simp

/-- A basis function of a vector-valued or matrix-valued element has no `shape`, its function has. -/
theorem shape_element (f : Fn) (h : ∀ e, f ≠ .scalar e) :
    (Basis.element f).shape = none ∧ ∃ s, f.shape = some s := by
  rcases f with e | v | m
  · exact absurd rfl (h e)
  · exact ⟨rfl, _, rfl⟩
  · exact ⟨rfl, _, rfl⟩

/-- `norm` of a function (symfem/functions.py:776-782, 1240-1249, 1740-1746) -/
def Fn.norm : Fn → Option Expr
  | .scalar e => some (snorm e)
  | .vector v => some (vnorm v)
  | .matrix _ => none

/-- `raise e` of something that is not an exception: `TypeError` -/
def raiseValue (_ : Option Expr) : Option Expr := none

/-- `BasisFunction.norm` (symfem/basis_functions.py:287-293): `raise self.get_function().norm()` -/
def Basis.norm (b : Basis) : Option Expr := raiseValue (b.getFunction.bind Fn.norm)

/-- The norm of a basis function always raises, also where its function has a norm. -/
theorem norm_raises (b : Basis) (f : Fn) (_ : b.getFunction = some f) (h : ∀ m, f ≠ .matrix m) :
    b.norm = none ∧ ∃ e, f.norm = some e := by
  rcases f with e | v | m
  · exact ⟨rfl, _, rfl⟩
  · exact ⟨rfl, _, rfl⟩
  · exact absurd rfl (h m)

/-- Substituting into a basis function and asking for its values later gives the values at the
point: substituting is simultaneous here as well. -/
theorem subbed_eval (b : Basis) (e : Expr) (hb : b.getFunction = some (.scalar e)) (vars : List String)
    (values : List Expr) (env : String → ℝ)
    (hf : ∀ i < values.length, ¬ e.Has (dummySym i)) (hvars : ∀ i < values.length, dummySym i ∉ vars)
    (hvalues : ∀ i < values.length, ∀ v ∈ values, ¬ v.Has (dummySym i)) :
    ∃ e', (Basis.subbed b vars values).getFunction = some (.scalar e') ∧
      e'.eval env = e.eval (replaced env vars values) := by
  refine ⟨subsList e vars values, ?_, ?_⟩
  · simp [Basis.getFunction, hb, Fn.subs]
  · exact subsList_eval e vars values env hf hvars hvalues

/-- The hypotheses hold: the basis function `x`, with `x` replaced by `y`, plus a number. -/
example : ∃ b : Basis, ∃ f, b.getFunction = some f ∧ ¬ MixedLeft .add f (.num 2) ∧
    binop .add (.basis b) (.num 2) = .ok (.fn (.scalar (.add (.sym "y") (.num 2)))) :=
  ⟨.subbed (.element (.scalar (.sym "x"))) ["x"] [.sym "y"], _, rfl, by simp [MixedLeft], by
    have h : subsList (.sym "x") ["x"] [.sym "y"] = .sym "y" := by
      simp [subsList, subst, dummySym]
    simp [binop, call, Basis.getFunction, Fn.subs, Fn.fwd, Op.sym, asScalar, h]⟩

end Lazy

end Verif.Functions
