import Verif.Functionals.Model

/-!
# Model of symfem/mappings.py on expressions, and of mapped moments

Maps are lists of expressions in the coordinates.
-/

namespace Verif.Functionals

open Verif.Functions Verif.Functions.Expr Verif.References

/-- `MatrixFunction.__truediv__` (symfem/functions.py:1537-1543) -/
def mdiv (m : List (List Expr)) (f : Expr) : Option (List (List Expr)) :=
  mkMat (m.map (·.map fun j => div j f))

/-- `MatrixFunction([[i.diff(x[j]) for j in range(tdim)] for i in map])` (symfem/mappings.py:77, 133, 213,
264) -/
noncomputable def jacobianMatrix (map : List Expr) (tdim : ℕ) : Option (List (List Expr)) :=
  mkMat (map.map fun i => (List.range tdim).map fun j => i.diff (x.getD j ""))

/-- `MatrixFunction([[i.diff(x[j]) for i in inverse_map] for j in range(tdim)])` (symfem/mappings.py:106,
289) -/
noncomputable def inverseJacobianMatrix (inv : List Expr) (tdim : ℕ) : Option (List (List Expr)) :=
  mkMat ((List.range tdim).map fun j => inv.map fun i => i.diff (x.getD j ""))

/-- `identity` (symfem/mappings.py:39-58) -/
def identity (f : FnObj) (_map inv : List Expr) (substitute : Bool) : Option FnObj :=
  if substitute then f.subs x inv else some f

/-- `l2` (symfem/mappings.py:61-84), for scalar functions -/
noncomputable def l2 (f : Expr) (map inv : List Expr) (substitute : Bool) : Option Expr := do
  let m ← jacobianMatrix map inv.length
  let jdet ← mdet m
  pure (div (if substitute then subsList f x inv else f) (snorm jdet))

/-- `covariant` (symfem/mappings.py:87-113) -/
noncomputable def covariant (f : List Expr) (_map inv : List Expr) (substitute : Bool) : Option (List Expr) := do
  let m ← inverseJacobianMatrix inv inv.length
  mvec m (if substitute then vsubs f x inv else f)

/-- `contravariant` (symfem/mappings.py:116-140) -/
noncomputable def contravariant (f : List Expr) (map inv : List Expr) (substitute : Bool) :
    Option (List Expr) := do
  let m ← jacobianMatrix map inv.length
  let d ← mdet m
  let m' ← mdiv m d
  mvec m' (if substitute then vsubs f x inv else f)

/-- The mappings whose inverse transpose exists. -/
inductive Mapping where
  | identity | l2 | covariant | contravariant

/-- `getattr(mappings, f"{mapping}_inverse_transpose")(f, map, inverse_map, substitute=False)`
(symfem/mappings.py:195-310) -/
noncomputable def inverseTranspose (mapping : Mapping) (f : FnObj) (map inv : List Expr) : Option FnObj :=
  match mapping, f with
  | .identity, f => some f
  | .l2, .scalar f => do
    let m ← jacobianMatrix map inv.length
    let jdet ← mdet m
    pure (.scalar (mul f (snorm jdet)))
  | .l2, .vector f => do
    let m ← jacobianMatrix map inv.length
    let jdet ← mdet m
    pure (.vector (vmul f (snorm jdet)))
  | .covariant, .vector f => do
    let m ← jacobianMatrix map inv.length
    let w ← mvec m f
    pure (.vector w)
  | .contravariant, .vector f => do
    let m ← inverseJacobianMatrix inv inv.length
    let d ← mdet m
    let m' ← mdiv m d
    let w ← mvec m' f
    pure (.vector w)
  | _, _ => none

/-- `self.f *= c` -/
def FnObj.scale (c : ℝ) : FnObj → Option FnObj
  | .scalar f => some (.scalar (mul f (num c)))
  | .vector v => some (.vector (vmul v (num c)))
  | .matrix m => (mscale m (num c)).map .matrix

/-- `IntegralMoment.__init__` on a reference that is not the default (symfem/functionals.py:1245-1278):
`D` is the entity of the default reference, `D'` the entity of the reference, `map` and `inv` are the maps
of the reference. -/
noncomputable def mappedIntegralMoment (mapping : Mapping) (D D' : Domain) (map inv : List Expr) (f : FnObj) :
    Option Functional := do
  let f1 ← f.subs x (t.map sym)
  let f2 ← inverseTranspose mapping f1 map inv
  let vol ← volume D.cell D.g D.v
  let vol' ← volume D'.cell D'.g D'.v
  let f3 ← f2.scale (vol / vol')
  pure (.integralMoment D' f3)

end Verif.Functionals
