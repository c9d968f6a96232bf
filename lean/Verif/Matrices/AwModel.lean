import Verif.Matrices.HhjModel
/-!
# Model of the Arnold–Winther elements

`symfem/elements/aw.py`.  Both elements are defined on triangles only.
-/

namespace Verif.Matrices
open Verif.References Verif.Moments Verif.Functionals Verif.Elements Verif.FiniteElement Verif.Polysets Verif.Families
open MvPolynomial

/-- `((a, b), (b, c))`. -/
def symMat (a b c : MvPolynomial ℕ ℝ) : MField 2 := ![![a, b], ![b, c]]

/-- `c * x[0] ** i * x[1] ** j`. -/
noncomputable def term (c : ℝ) (i j : ℕ) : MvPolynomial ℕ ℝ := C c * X 0 ^ i * X 1 ^ j

/-- The polynomials for `k in range(order + 1)` (symfem/elements/aw.py:46-58).  Where the exponent `k - 1` or `k - 2` is negative, the
factor `k` or `k * (k - 1)` is 0 and SymPy drops the power; here the exponent is 0. -/
noncomputable def awTop (order k : ℕ) : MField 2 :=
  symMat (term (((order - k : ℕ) + 1 : ℝ) * ((order - k : ℕ) + 2)) k (order - k))
    (term (-(k * ((order - k : ℕ) + 2 : ℝ))) (k - 1) (order - k + 1))
    (term (k * (k - 1 : ℝ)) (k - 2) (order - k + 2))

/-- The last two polynomials (symfem/elements/aw.py:59-62). -/
noncomputable def awLast (order : ℕ) : List (MField 2) :=
  [symMat 0 (term 1 order 0) (term (-order) (order - 1) 1), symMat 0 0 (term 1 order 0)]

/-- The polynomials of `ArnoldWinther` (symfem/elements/aw.py:41-62). -/
noncomputable def awPoly (order : ℕ) : Option (List (MField 2)) :=
  (polySetVector 2 3 ((order : ℤ) - 1)).map fun l =>
    (l.map fun p => matrixOf index2 (denoteVec ℝ 3 p)) ++ (List.range (order + 1)).map (awTop order) ++ awLast order

/-- `PointInnerProduct(reference, v, d[0], d[1], entity=(0, v_n), mapping="double_contravariant")` (symfem/elements/aw.py:65-71,
symfem/functionals.py:676-717); kind 5. -/
noncomputable def awVertex (v : ℕ) (l r : ℕ → ℝ) : Dof ℝ (MField 2) :=
  ⟨5, (0, v), some "double_contravariant", innerForm (refVertex .triangle v) l r⟩

/-- The loop over the vertices (symfem/elements/aw.py:65-71). -/
noncomputable def awVertices : List (Dof ℝ (MField 2)) :=
  (List.range 3).flatMap fun v =>
    [awVertex v (coords [1, 0]) (coords [1, 0]), awVertex v (coords [1, 0]) (coords [0, 1]), awVertex v (coords [0, 1]) (coords [0, 1])]

/-- `InnerProductIntegralMoment(reference, p, component, sub_ref.normal(), dof, entity=(1, e_n), mapping="double_contravariant")` for
`component` the normal and the tangent of the edge (symfem/elements/aw.py:77-88, 193-204, symfem/functionals.py:1691-1740): the
integrand is `component.dot(V @ n) * p * jacobian`, and the integral over the edge multiplies by the Jacobian once more
(symfem/functions.py:782-816).  Kind 16. -/
noncomputable def awEdge (e : ℕ) (p : MvPolynomial ℕ ℝ) (tangential : Bool) : Option (Dof ℝ (MField 2)) :=
  let D := entityDomain .triangle (1, e)
  (if tangential then tangent D.cell D.g D.v else normal D.cell D.g D.v).bind fun l =>
  (normal D.cell D.g D.v).bind fun n =>
  (jacobian D.cell D.g D.v).map fun J =>
    ⟨16, (1, e), some "double_contravariant", momentMap D J (fun i => C (l i.val) * (p * C J)) ∘ₗ contract n⟩

/-- The loop over the edges, with `Lagrange(sub_ref.default_reference(), order, variant)` (symfem/elements/aw.py:72-88, 188-204). -/
noncomputable def awEdges (variant : String) (order : ℕ) : Option (List (Dof ℝ (MField 2))) :=
  ((List.range 3).mapM fun e => ((lagrangeElement variant .interval (refVertex .interval) order).bind getBasis).bind fun basis =>
    (basis.flatMap fun p => [(p, false), (p, true)]).mapM fun pt => awEdge e pt.1 pt.2).map List.flatten

/-- `IntegralMoment(reference, f, dof, entity=(2, 0), mapping=mapping)` with a matrix `f` (symfem/elements/aw.py:93-101, 113-115,
209-216, symfem/functionals.py:1224-1307); kind 11. -/
noncomputable def awMoment (mapping : String) (f : MField 2) : Option (Dof ℝ (MField 2)) :=
  let D := entityDomain .triangle (2, 0)
  (jacobian D.cell D.g D.v).map fun J => ⟨11, (2, 0), some mapping,
    ∑ i : Fin 2, momentMap D J (f i) ∘ₗ (LinearMap.proj i : MField 2 →ₗ[ℝ] Field 2)⟩

/-- `[((1, 0), (0, 0)), ((0, 1), (0, 0)), ((0, 0), (0, 1))]` (symfem/elements/aw.py:92, 208). -/
def awDirections : List (Fin 2 → Fin 2 → ℝ) := [![![1, 0], ![0, 0]], ![![0, 1], ![0, 0]], ![![0, 0], ![0, 1]]]

/-- The moments in the cell, with `Lagrange(reference, order, variant)` (symfem/elements/aw.py:89-101, 205-216). -/
noncomputable def awInterior (variant mapping : String) (order : ℕ) : Option (List (Dof ℝ (MField 2))) :=
  ((lagrangeElement variant .triangle (refVertex .triangle) order).bind getBasis).bind fun basis =>
    (basis.flatMap fun p => awDirections.map fun d => fun i j => p * C (d i j)).mapM (awMoment mapping)

/-- `f` and the matrix `J` (symfem/elements/aw.py:108-112). -/
noncomputable def awAiry (p : MvPolynomial ℕ ℝ) : MField 2 :=
  let f := p * X 0 ^ 2 * X 1 ^ 2 * (1 - X 0 - X 1) ^ 2
  ![![pderiv 1 (pderiv 1 f), -pderiv 1 (pderiv 0 f)], ![-pderiv 0 (pderiv 1 f), pderiv 0 (pderiv 0 f)]]

/-- The functionals for orders 4 and greater (symfem/elements/aw.py:103-115).  `sympy.Poly(f, x[:2]).degree()` is the degree in
`x[0]`. -/
noncomputable def awExtra (variant : String) (order : ℕ) : Option (List (Dof ℝ (MField 2))) :=
  if order ≥ 4 then
    ((lagrangeElement variant .triangle (refVertex .triangle) (order - 4)).bind getBasis).bind fun basis =>
      ((basis.filter fun p => p.degreeOf 0 = order - 4).map awAiry).mapM (awMoment "double_contravariant")
  else some []

/-- The functionals of `ArnoldWinther` (symfem/elements/aw.py:64-115). -/
noncomputable def awDofs (variant : String) (order : ℕ) : Option (List (Dof ℝ (MField 2))) :=
  (awEdges variant (order - 2)).bind fun edges =>
  (awInterior variant "double_contravariant" (order - 3)).bind fun interior =>
  (awExtra variant order).map fun extra => awVertices ++ edges ++ interior ++ extra

/-- `ArnoldWinther(reference, order, variant)` for orders 3 and greater (`min_order`, symfem/elements/aw.py:31-125, 153). -/
noncomputable def awElement (variant : String) (order : ℕ) : Option (Element ℝ (MField 2)) :=
  (awPoly order).bind fun poly => (awDofs variant order).bind fun dofs => ciarlet poly dofs

/-- The additional polynomials of `NonConformingArnoldWinther` (symfem/elements/aw.py:178-185). -/
noncomputable def ncTop : List (MField 2) :=
  [symMat 0 (X 1 ^ 2) (-2 * X 1 ^ 2), symMat (-2 * X 0 ^ 2) (X 0 ^ 2) 0, symMat (-2 * X 0 * X 1) (X 0 * X 1) 0,
    symMat (X 0 * (X 0 + X 1)) 0 0, symMat (X 0 ^ 2) 0 (X 0 * X 1), symMat (X 0 ^ 2) 0 (-(X 1 ^ 2))]

/-- `NonConformingArnoldWinther(reference, 2, variant)`, the only order (symfem/elements/aw.py:162-226, 254-255).  The functionals in the
cell have the default mapping of `IntegralMoment`, the identity (symfem/functionals.py:1227-1233). -/
noncomputable def ncAwElement (variant : String) : Option (Element ℝ (MField 2)) :=
  (polySetVector 2 3 1).bind fun l =>
  (awEdges variant 1).bind fun edges =>
  (awInterior variant "identity" 0).bind fun interior =>
  ciarlet ((l.map fun p => matrixOf index2 (denoteVec ℝ 3 p)) ++ ncTop) (edges ++ interior)

end Verif.Matrices
