import Verif.Families.Space
import Verif.Moments.Model
import Verif.Elements.Creation
import Verif.Elements.PropsQ
import Verif.Functionals.PropsMoment
import Mathlib.Topology.Algebra.MvPolynomial
/-!
# Model of the elements defined by integral moments

`symfem/elements/rt.py`, `symfem/elements/nedelec.py`, `symfem/elements/bdm.py`, `symfem/elements/q.py` and
`VectorLagrange` in `symfem/elements/lagrange.py`, on the default reference cells.

Functions are polynomials in the variables 0, 1, 2, which stand for x, y, z, or for t0, t1, t2 in the functions of the
moments.  The basis functions of the sub-elements are those of the model of `CiarletElement`.
-/

namespace Verif.Families
open Verif.References Verif.Moments Verif.Functionals Verif.Elements Verif.FiniteElement Verif.Polysets Verif.Orthogonal
open MvPolynomial

/-- Vector functions with `d` components. -/
abbrev Field (d : ℕ) := Fin d → MvPolynomial ℕ ℝ

/-- A basis function of a sub-element. -/
inductive Fun where
  | scalar (p : MvPolynomial ℕ ℝ)
  | vector (d : ℕ) (v : Field d)

/-- `reference.sub_entity(dim, i)` of a default reference (symfem/references.py:649-713); the default cell is its own
sub-entity. -/
noncomputable def entityDomain (c : Cell) (e : ℕ × ℕ) : Domain :=
  ⟨entType c e.1 e.2, c.tdim, entityVerts (refVertex c) (entVerts c e.1 e.2)⟩

/-- The function `self.f` of a moment of a vector function with `D.g` components
(symfem/functionals.py:1247-1263, 1535-1545, 1598-1608), as a function of the parameters of the entity.  A scalar
function in an `IntegralMoment` of a vector function is an error.  A vector function with fewer components than there are
coordinates is mapped to the entity by `contravariant`, whose Jacobian has the axes of the entity as columns and is
divided by its determinant, the norm of the cross product (symfem/mappings.py:116-140, symfem/functions.py:1766-1778).
The function has been written in terms of t0, t1, t2 before that, so nothing is substituted. -/
noncomputable def momentFn (kind : String) (D : Domain) : Fun → Option (Field D.g)
  | .scalar p =>
    if kind = "TangentIntegralMoment" then (tangent D.cell D.g D.v).map fun s i => C (s i) * p
    else if kind = "NormalIntegralMoment" then (normal D.cell D.g D.v).map fun s i => C (s i) * p
    else none
  | .vector d f =>
    if kind = "IntegralMoment" then
      if h : d = D.g then some fun i => f (i.cast h.symm)
      else if d = D.cell.tdim then
        (jacobian D.cell D.g D.v).map fun J i => ∑ k : Fin d, C (axis D.cell D.v k i / J) * f k
      else none
    else none

/-- The value of a moment (symfem/functionals.py:1280-1307, symfem/functions.py:782-816): the integral over the domain
of the product with the function of the moment. -/
noncomputable def momentValue (D : Domain) (J : ℝ) (w : Field D.g) (v : Field D.g) : ℝ :=
  cellInt D.cell fun z => (∑ i, eval (D.param z) (v i) * eval z (w i)) * J

theorem continuous_param (D : Domain) : Continuous D.param := by
  unfold Domain.param
  fun_prop

theorem continuous_moment (D : Domain) (J : ℝ) (w v : Field D.g) :
    Continuous fun z : ℕ → ℝ => (∑ i, eval (D.param z) (v i) * eval z (w i)) * J := by
  refine Continuous.mul (continuous_finsetSum _ fun i _ => Continuous.mul ?_ (MvPolynomial.continuous_eval (w i))) continuous_const
  exact (MvPolynomial.continuous_eval (v i)).comp (continuous_param D)

/-- The value as a linear map of the function. -/
noncomputable def momentMap (D : Domain) (J : ℝ) (w : Field D.g) : Field D.g →ₗ[ℝ] ℝ where
  toFun := momentValue D J w
  map_add' v v' := by
    unfold momentValue
    rw [← cellInt_add _ (continuous_moment D J w v) (continuous_moment D J w v')]
    congr 1
    funext z
    simp only [Pi.add_apply, map_add, add_mul, Finset.sum_add_distrib]
  map_smul' a v := by
    unfold momentValue
    rw [RingHom.id_apply, smul_eq_mul, ← cellInt_const_mul]
    congr 1
    funext z
    simp only [Pi.smul_apply, smul_eval, mul_assoc]
    rw [← Finset.mul_sum, mul_assoc]

/-- The number of the class of a functional in `Dof.kind`, and the mapping if none is given
(symfem/functionals.py:1231, 1524, 1587). -/
def momentDefault (kind : String) : ℕ × String :=
  if kind = "TangentIntegralMoment" then (12, "covariant")
  else if kind = "NormalIntegralMoment" then (13, "contravariant") else (11, "identity")

/-- `IntegralMoment(reference, f, d, (dim, i), mapping=mapping)` and its subclasses (symfem/moments.py:101-111). -/
noncomputable def momentDof (c : Cell) (m : MomentDof Fun) : Option (Dof ℝ (Field c.tdim)) :=
  let D := entityDomain c m.entity
  (momentFn m.moment D m.sub).bind fun w => (jacobian D.cell D.g D.v).map fun J =>
    ⟨(momentDefault m.moment).1, m.entity, some (m.mapping.getD (momentDefault m.moment).2), momentMap D J w⟩

/-- The functional of a `DotPointEvaluation` with a constant vector (symfem/functionals.py:795-806). -/
noncomputable def dotDof {r : ℕ} (d : PointDof) (dir : Fin r → ℝ) : Dof ℝ (Field r) where
  kind := 6
  entity := d.entity
  mapping := some "identity"
  eval := ∑ i, dir i • (aeval d.point).toLinearMap ∘ₗ LinearMap.proj i

/-- The element with the polynomials and the moments (the constructors of the elements below). -/
noncomputable def momentElement (classes : String → ElementClass Fun) (c : Cell) (poly : Option (List VecPoly)) (args : Args) :
    Option (Element ℝ (Field c.tdim)) :=
  poly.bind fun poly => (makeIntegralMomentDofs classes c args).bind fun ms => (ms.mapM (momentDof c)).bind fun dofs =>
    ciarlet (poly.map (denoteVec ℝ c.tdim)) dofs

/-- The basis functions of a scalar element. -/
noncomputable def scalarBasis (e : Option (Element ℝ (MvPolynomial ℕ ℝ))) : Option (List Fun) :=
  (e.bind getBasis).map fun fs => fs.map .scalar

/-- The basis functions of a vector element. -/
noncomputable def vectorBasis {d : ℕ} (e : Option (Element ℝ (Field d))) : Option (List Fun) :=
  (e.bind getBasis).map fun fs => fs.map (.vector d)

/-- The argument `variant`, with its default. -/
def variantOf (kw : Kwargs) : String := (kw.lookup "variant").getD "equispaced"

/-- `VectorLagrange(reference, order, variant)` on a cell with more than one dimension
(symfem/elements/lagrange.py:126-157), for the variants with point evaluations. -/
noncomputable def vectorLagrangeElement (variant : String) (c : Cell) (v : ℕ → ℕ → ℝ) (k : ℕ) :
    Option (Element ℝ (Field c.tdim)) :=
  (lagrangeDofs variant c v k).bind fun dofs => (polySetVector c.tdim c.tdim k).bind fun poly =>
    ciarlet (poly.map (denoteVec ℝ c.tdim))
      (dofs.flatMap fun p => (List.finRange c.tdim).map fun i => dotDof p fun j => if i = j then 1 else 0)

/-- The classes `Lagrange` and `VectorLagrange` (symfem/elements/lagrange.py:109, 186).  On an interval, the vector
element has the polynomials and functionals of the scalar element (lines 128-137). -/
noncomputable def lagrangeClass : ElementClass Fun where
  minOrder := 0
  create t k kw := scalarBasis (lagrangeElement (variantOf kw) t (refVertex t) k.toNat)

@[inherit_doc lagrangeClass]
noncomputable def vectorLagrangeClass : ElementClass Fun where
  minOrder := 0
  create t k kw :=
    if t.tdim = 1 then scalarBasis (lagrangeElement (variantOf kw) t (refVertex t) k.toNat)
    else vectorBasis (vectorLagrangeElement (variantOf kw) t (refVertex t) k.toNat)

/-- Names that are not classes. -/
def noClass : ElementClass Fun := ⟨0, fun _ _ _ => none⟩

/-- The classes used by `RaviartThomas` and `NedelecFirstKind`. -/
noncomputable def classes1 (name : String) : ElementClass Fun :=
  if name = "Lagrange" then lagrangeClass else if name = "VectorLagrange" then vectorLagrangeClass else noClass

/-- `RaviartThomas(reference, order, variant)` (symfem/elements/rt.py:26-55). -/
noncomputable def rtElement (variant : String) (c : Cell) (k : ℕ) : Option (Element ℝ (Field c.tdim)) :=
  momentElement classes1 c
    ((polySetVector c.tdim c.tdim ((k : ℤ) - 1)).bind fun a => (hdivSet c.tdim k).map fun b => a ++ b)
    { facets := some (.single [.cls "NormalIntegralMoment", .cls "Lagrange", .int ((k : ℤ) - 1), .dict [("variant", variant)]])
      cells := some (.single [.cls "IntegralMoment", .cls "VectorLagrange", .int ((k : ℤ) - 2), .str "contravariant",
        .dict [("variant", variant)]]) }

/-- `NedelecFirstKind(reference, order, variant)` (symfem/elements/nedelec.py:24-44). -/
noncomputable def n1Element (variant : String) (c : Cell) (k : ℕ) : Option (Element ℝ (Field c.tdim)) :=
  momentElement classes1 c
    ((polySetVector c.tdim c.tdim ((k : ℤ) - 1)).bind fun a => (hcurlSet c.tdim k).map fun b => a ++ b)
    { edges := some (.single [.cls "TangentIntegralMoment", .cls "Lagrange", .int ((k : ℤ) - 1), .dict [("variant", variant)]])
      faces := some (.single [.cls "IntegralMoment", .cls "VectorLagrange", .int ((k : ℤ) - 2), .str "covariant",
        .dict [("variant", variant)]])
      volumes := some (.single [.cls "IntegralMoment", .cls "VectorLagrange", .int ((k : ℤ) - 3), .str "covariant",
        .dict [("variant", variant)]]) }

/-- The classes used by `NedelecSecondKind` and `BDM` (symfem/elements/rt.py:76, symfem/elements/nedelec.py:71). -/
noncomputable def classes2 (name : String) : ElementClass Fun :=
  if name = "RaviartThomas" then ⟨1, fun t k kw => vectorBasis (rtElement (variantOf kw) t k.toNat)⟩
  else if name = "NedelecFirstKind" then ⟨1, fun t k kw => vectorBasis (n1Element (variantOf kw) t k.toNat)⟩
  else classes1 name

/-- `NedelecSecondKind(reference, order, variant)` (symfem/elements/nedelec.py:81-101). -/
noncomputable def n2Element (variant : String) (c : Cell) (k : ℕ) : Option (Element ℝ (Field c.tdim)) :=
  momentElement classes2 c (polySetVector c.tdim c.tdim k)
    { edges := some (.single [.cls "TangentIntegralMoment", .cls "Lagrange", .int k, .dict [("variant", variant)]])
      faces := some (.single [.cls "IntegralMoment", .cls "RaviartThomas", .int ((k : ℤ) - 1), .str "covariant",
        .dict [("variant", variant)]])
      volumes := some (.single [.cls "IntegralMoment", .cls "RaviartThomas", .int ((k : ℤ) - 2), .str "covariant",
        .dict [("variant", variant)]]) }

/-- `BDM(reference, order, variant)` (symfem/elements/bdm.py:26-51) on the default reference; any other is an error. -/
noncomputable def bdmElement (variant : String) (c : Cell) (k : ℕ) : Option (Element ℝ (Field c.tdim)) :=
  momentElement classes2 c (polySetVector c.tdim c.tdim k)
    { facets := some (.single [.cls "NormalIntegralMoment", .cls "Lagrange", .int k, .dict [("variant", variant)]])
      cells := some (.single [.cls "IntegralMoment", .cls "NedelecFirstKind", .int ((k : ℤ) - 1), .dict [("variant", variant)]]) }

end Verif.Families
