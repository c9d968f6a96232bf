import Mathlib.Algebra.MvPolynomial.PDeriv
import Mathlib.Algebra.MvPolynomial.Monad
import Mathlib.LinearAlgebra.Matrix.NonsingularInverse
import Mathlib.Algebra.Order.Field.Basic

/-!
# Model of `symfem/mappings.py`

A function on an `n`-dimensional cell is a polynomial in `x[0], ..., x[n-1]` with exact
coefficients in an ordered field, a vector function is a tuple of polynomials and a matrix function
is a matrix of polynomials.  `.subs(x, inverse_map)` is simultaneous substitution (`bind₁`),
`.diff(x[j])` is `pderiv j`.

Simplifications.
* `tdim = gdim = n`, with `n` arbitrary.
* Dividing by a determinant is dividing by its constant coefficient.  The theorems are about affine
  maps, where the determinant *is* its constant coefficient.
-/

namespace Verif.Mappings

open MvPolynomial Matrix

variable {n : ℕ} {K : Type*} [Field K] [LinearOrder K] [IsStrictOrderedRing K]

/-- A scalar function. -/
abbrev SFun (n : ℕ) (K : Type*) [CommSemiring K] := MvPolynomial (Fin n) K
/-- A vector function. -/
abbrev VFun (n : ℕ) (K : Type*) [CommSemiring K] := Fin n → MvPolynomial (Fin n) K
/-- A matrix function. -/
abbrev MFun (n : ℕ) (K : Type*) [CommSemiring K] :=
  Matrix (Fin n) (Fin n) (MvPolynomial (Fin n) K)

/-- `ScalarFunction.subs(x, inverse_map)` (symfem/functions.py:653-668), as used in every mapping
under `if substitute` (e.g. symfem/mappings.py:55-58). -/
noncomputable def sub (substitute : Bool) (inv : VFun n K) (f : SFun n K) : SFun n K :=
  if substitute then bind₁ inv f else f

/-- `VectorFunction.subs(x, inverse_map)`: entry by entry (symfem/functions.py:1096-1111). -/
noncomputable def subV (substitute : Bool) (inv : VFun n K) (f : VFun n K) : VFun n K :=
  fun i => sub substitute inv (f i)

/-- `MatrixFunction.subs(x, inverse_map)`: entry by entry (symfem/functions.py:1612-1627). -/
noncomputable def subM (substitute : Bool) (inv : VFun n K) (f : MFun n K) : MFun n K :=
  Matrix.of fun i j => sub substitute inv (f i j)

/-- `MatrixFunction([[i.diff(x[j]) for j in range(tdim)] for i in map])`
(symfem/mappings.py:81, 136, 190, 239, 269). -/
noncomputable def jacobian (map : VFun n K) : MFun n K :=
  Matrix.of fun i j => pderiv j (map i)

/-- `MatrixFunction([[i.diff(x[j]) for i in inverse_map] for j in range(tdim)])`
(symfem/mappings.py:112, 165, 298). -/
noncomputable def jInv (inv : VFun n K) : MFun n K :=
  Matrix.of fun j i => pderiv j (inv i)

/-- The value of a determinant; `.det().as_sympy()` (symfem/mappings.py:81, 239). -/
noncomputable def detValue (m : MFun n K) : K := constantCoeff m.det

/-- `m /= m.det()` (symfem/mappings.py:137, 191, 299). -/
noncomputable def divDet (m : MFun n K) : MFun n K :=
  Matrix.of fun i j => C (detValue m)⁻¹ * m i j

/-- `identity` (symfem/mappings.py:39-59). -/
noncomputable def identity (f : SFun n K) (_map inv : VFun n K) (substitute : Bool := true) :
    SFun n K :=
  sub substitute inv f

/-- `l2` (symfem/mappings.py:62-86). -/
noncomputable def l2 (f : SFun n K) (map inv : VFun n K) (substitute : Bool := true) : SFun n K :=
  C |detValue (jacobian map)|⁻¹ * sub substitute inv f

/-- `covariant` (symfem/mappings.py:88-113); `j_inv @ f` dispatches to
`VectorFunction.__rmatmul__`, the dot products of the rows with `f`
(symfem/functions.py:1069-1074). -/
noncomputable def covariant (f : VFun n K) (_map inv : VFun n K) (substitute : Bool := true) :
    VFun n K :=
  (jInv inv).mulVec (subV substitute inv f)

/-- `contravariant` (symfem/mappings.py:116-139). -/
noncomputable def contravariant (f : VFun n K) (map inv : VFun n K) (substitute : Bool := true) :
    VFun n K :=
  (divDet (jacobian map)).mulVec (subV substitute inv f)

/-- `double_covariant` (symfem/mappings.py:142-166). -/
noncomputable def doubleCovariant (f : MFun n K) (_map inv : VFun n K)
    (substitute : Bool := true) : MFun n K :=
  jInv inv * subM substitute inv f * (jInv inv)ᵀ

/-- `double_contravariant` (symfem/mappings.py:169-194). -/
noncomputable def doubleContravariant (f : MFun n K) (map inv : VFun n K)
    (substitute : Bool := true) : MFun n K :=
  divDet (jacobian map) * subM substitute inv f * (divDet (jacobian map))ᵀ

/-- `identity_inverse_transpose` (symfem/mappings.py:197-217). -/
noncomputable def identityInverseTranspose (f : SFun n K) (_map inv : VFun n K)
    (substitute : Bool := true) : SFun n K :=
  sub substitute inv f

/-- `l2_inverse_transpose` (symfem/mappings.py:220-243). -/
noncomputable def l2InverseTranspose (f : SFun n K) (map inv : VFun n K)
    (substitute : Bool := true) : SFun n K :=
  sub substitute inv f * C |detValue (jacobian map)|

/-- `covariant_inverse_transpose` (symfem/mappings.py:246-271). -/
noncomputable def covariantInverseTranspose (f : VFun n K) (map inv : VFun n K)
    (substitute : Bool := true) : VFun n K :=
  (jacobian map).mulVec (subV substitute inv f)

/-- `contravariant_inverse_transpose` (symfem/mappings.py:274-300). -/
noncomputable def contravariantInverseTranspose (f : VFun n K) (_map inv : VFun n K)
    (substitute : Bool := true) : VFun n K :=
  (divDet (jInv inv)).mulVec (subV substitute inv f)

/-- `identity_inverse` (symfem/mappings.py:303-320). -/
noncomputable def identityInverse (f : SFun n K) (map inv : VFun n K)
    (substitute : Bool := true) : SFun n K :=
  identity f inv map substitute

/-- `l2_inverse` (symfem/mappings.py:323-340). -/
noncomputable def l2Inverse (f : SFun n K) (map inv : VFun n K) (substitute : Bool := true) :
    SFun n K :=
  l2 f inv map substitute

/-- `covariant_inverse` (symfem/mappings.py:343-360). -/
noncomputable def covariantInverse (f : VFun n K) (map inv : VFun n K)
    (substitute : Bool := true) : VFun n K :=
  covariant f inv map substitute

/-- `contravariant_inverse` (symfem/mappings.py:363-377). -/
noncomputable def contravariantInverse (f : VFun n K) (map inv : VFun n K)
    (substitute : Bool := true) : VFun n K :=
  contravariant f inv map substitute

/-- `double_covariant_inverse` (symfem/mappings.py:380-397). -/
noncomputable def doubleCovariantInverse (f : MFun n K) (map inv : VFun n K)
    (substitute : Bool := true) : MFun n K :=
  doubleCovariant f inv map substitute

/-- `double_contravariant_inverse` (symfem/mappings.py:400-414). -/
noncomputable def doubleContravariantInverse (f : MFun n K) (map inv : VFun n K)
    (substitute : Bool := true) : MFun n K :=
  doubleContravariant f inv map substitute

/-! ### `get_mapping` -/

/-- What a name is bound to in the module's `globals()`. -/
inductive Global
  /-- a mapping function, identified by the base name and the two variants -/
  | mapping (base : String) (inverse transpose : Bool)
  /-- anything else -/
  | other (name : String)
  deriving DecidableEq, Repr

/-- The module namespace of symfem/mappings.py: the function definitions (lines 39-417), the imports
(lines 3-11), the class (line 35), `__all__` (line 13) and the names every module has. -/
def globalsTable : List (String × Global) :=
  [("identity", .mapping "identity" false false),
   ("l2", .mapping "l2" false false),
   ("covariant", .mapping "covariant" false false),
   ("contravariant", .mapping "contravariant" false false),
   ("double_covariant", .mapping "double_covariant" false false),
   ("double_contravariant", .mapping "double_contravariant" false false),
   ("identity_inverse_transpose", .mapping "identity" true true),
   ("l2_inverse_transpose", .mapping "l2" true true),
   ("covariant_inverse_transpose", .mapping "covariant" true true),
   ("contravariant_inverse_transpose", .mapping "contravariant" true true),
   ("identity_inverse", .mapping "identity" true false),
   ("l2_inverse", .mapping "l2" true false),
   ("covariant_inverse", .mapping "covariant" true false),
   ("contravariant_inverse", .mapping "contravariant" true false),
   ("double_covariant_inverse", .mapping "double_covariant" true false),
   ("double_contravariant_inverse", .mapping "double_contravariant" true false)] ++
  (["get_mapping", "MappingNotImplemented", "annotations", "Callable", "sympy", "AnyFunction",
    "FunctionInput", "MatrixFunction", "parse_function_input", "PointType", "x", "__all__",
    "__name__", "__doc__", "__package__", "__loader__", "__spec__", "__file__", "__cached__",
    "__builtins__"].map fun s => (s, .other s))

/-- `get_mapping` (symfem/mappings.py:417-440); `none` is `ValueError`. -/
def getMapping (mapname : String) (inverse transpose : Bool) : Option Global :=
  let functionName := mapname
  let functionName := if inverse then functionName ++ "_inverse" else functionName
  let functionName := if transpose then functionName ++ "_transpose" else functionName
  globalsTable.lookup functionName

end Verif.Mappings
