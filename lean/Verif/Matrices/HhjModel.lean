import Verif.Matrices.Model
import Verif.Families.Mapped
/-!
# Model of the Hellan–Herrmann–Johnson elements

`symfem/elements/hhj.py`.
-/

namespace Verif.Matrices
open Verif.References Verif.Moments Verif.Functionals Verif.Elements Verif.FiniteElement Verif.Polysets Verif.Families
open MvPolynomial

/-- `((p[0], p[1], p[2]), (p[1], p[3], p[4]), (p[2], p[4], p[5]))` (symfem/elements/hhj.py:55-58). -/
def hhjIndex3 : Fin 3 → Fin 3 → Fin 6 := ![![0, 1, 2], ![1, 3, 4], ![2, 4, 5]]

/-- The polynomials (symfem/elements/hhj.py:47-58). -/
noncomputable def hhjPoly : (d : ℕ) → ℕ → Option (List (MField d))
  | 2, k => (polySetVector 2 3 k).map fun l => l.map fun p => matrixOf index2 (denoteVec ℝ 3 p)
  | 3, k => (polySetVector 3 6 k).map fun l => l.map fun p => matrixOf hhjIndex3 (denoteVec ℝ 6 p)
  | _, _ => some []

/-- `directions` (symfem/elements/hhj.py:52, 59-64). -/
def directions : (d : ℕ) → List (Fin d → Fin d → ℝ)
  | 2 => [![![0, 1], ![1, 0]], ![![-2, 1], ![1, 0]], ![![0, -1], ![-1, 2]]]
  | 3 => [![![0, 1, 1], ![1, 0, 1], ![1, 1, 0]], ![![-6, 1, 1], ![1, 0, 1], ![1, 1, 0]],
      ![![0, 1, 1], ![1, -6, 1], ![1, 1, 0]], ![![0, 1, 1], ![1, 0, 1], ![1, 1, -6]]]
  | _ => []

/-- `directions_extra` (symfem/elements/hhj.py:53, 65-68). -/
def directionsExtra : (d : ℕ) → List (Fin d → Fin d → ℝ)
  | 3 => [![![0, 0, -1], ![0, 0, 1], ![-1, 1, 0]], ![![0, -1, 0], ![-1, 0, 1], ![0, 1, 0]]]
  | _ => []

/-- `function @ vector` with a constant vector. -/
noncomputable def contract {d : ℕ} (n : ℕ → ℝ) : MField d →ₗ[ℝ] Field d :=
  LinearMap.pi fun i => ∑ j : Fin d, n j.val •
    (LinearMap.proj j : Field d →ₗ[ℝ] MvPolynomial ℕ ℝ) ∘ₗ (LinearMap.proj i : MField d →ₗ[ℝ] Field d)

/-- `NormalInnerProductIntegralMoment(reference, f, d, entity, mapping)` (symfem/functionals.py:1726-1740, 1777-1805): the
integrand is `n.dot(V @ n) * f * jacobian`, and the integral over the entity multiplies by the Jacobian once more
(symfem/functions.py:782-816).  Kind 17. -/
noncomputable def nnDof (c : Cell) (m : MomentDof Fun) : Option (Dof ℝ (MField c.tdim)) :=
  if m.moment = "NormalInnerProductIntegralMoment" then
    let D := entityDomain c m.entity
    match m.sub with
    | .scalar f => (normal D.cell D.g D.v).bind fun n => (jacobian D.cell D.g D.v).map fun J =>
      ⟨17, m.entity, some (m.mapping.getD "double_contravariant"),
        momentMap D J (fun i => C (n i.val) * (f * C J)) ∘ₗ contract n⟩
    | .vector _ _ => none
  else none

/-- `IntegralMoment(reference, p * _MatrixFunction(d), dof, entity=(reference.tdim, 0), mapping="double_contravariant")`
(symfem/elements/hhj.py:80-88, 94-102, symfem/functionals.py:1224-1307): the integral of the sum of the products of the
entries, as the sum over the rows of the integrals. -/
noncomputable def matrixDof (c : Cell) (p : MvPolynomial ℕ ℝ) (M : Fin c.tdim → Fin c.tdim → ℝ) : Option (Dof ℝ (MField c.tdim)) :=
  let D := entityDomain c (c.tdim, 0)
  (jacobian D.cell D.g D.v).map fun J => ⟨11, (c.tdim, 0), some "double_contravariant",
    ∑ i : Fin c.tdim, momentMap D J (fun j : Fin c.tdim => C (M i j) * p) ∘ₗ LinearMap.proj i⟩

/-- The loop over the basis functions of `Lagrange(reference, order, variant)` and the directions
(symfem/elements/hhj.py:77-88, 91-102). -/
noncomputable def hhjCell (variant : String) (c : Cell) (k : ℕ) (dirs : List (Fin c.tdim → Fin c.tdim → ℝ)) :
    Option (List (Dof ℝ (MField c.tdim))) :=
  ((lagrangeElement variant c (refVertex c) k).bind getBasis).bind fun basis =>
    (basis.flatMap fun p => dirs.map fun d => (p, d)).mapM fun pd => matrixDof c pd.1 pd.2

/-- `HellanHerrmannJohnson(reference, order, variant)` on the default cells (symfem/elements/hhj.py:31-121). -/
noncomputable def hhjElement (variant : String) (c : Cell) (k : ℕ) : Option (Element ℝ (MField c.tdim)) :=
  (hhjPoly c.tdim k).bind fun poly =>
  (makeIntegralMomentDofs classes1 c
    { facets := some (.single [.cls "NormalInnerProductIntegralMoment", .cls "Lagrange", .int k,
        .dict [("variant", variant)]]) }).bind fun ms =>
  (ms.mapM (nnDof c)).bind fun facets =>
  (if k > 0 then hhjCell variant c (k - 1) (directions c.tdim) else some []).bind fun cells =>
  (hhjCell variant c k (directionsExtra c.tdim)).bind fun extra =>
  ciarlet poly (facets ++ cells ++ extra)

/-- `double_contravariant` (symfem/mappings.py:169-194): the Jacobian divided by its determinant, times the function, times the
transpose of the former. -/
noncomputable def pushDoubleContra {d : ℕ} (M : Matrix (Fin d) (Fin d) ℝ) (f : Fin d → Fin d → ℝ) (r s : Fin d) : ℝ :=
  ∑ l, (∑ k, M r k / M.det * f k l) * (M s l / M.det)

/-- The function mapped to the cell with the vertices `V`: the inverse map is substituted.  `none` if there is no inverse. -/
noncomputable def mappedMatrix (c : Cell) (V : ℕ → ℕ → ℝ) (f : MField c.tdim) :
    Option ((ℕ → ℝ) → Fin c.tdim → Fin c.tdim → ℝ) :=
  (invMapTo c c.tdim V).map fun F x => pushDoubleContra (jacMat c V) fun k l => eval (coords (F x)) (f k l)

end Verif.Matrices
