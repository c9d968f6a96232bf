import Verif.Families.Model
/-!
# Model of the point variant of the Regge elements

`symfem/elements/regge.py`.  Functions are matrices of polynomials.
-/

namespace Verif.Matrices
open Verif.References Verif.Elements Verif.FiniteElement Verif.Polysets Verif.Families
open MvPolynomial

/-- Matrix functions with `d` rows and columns. -/
abbrev MField (d : ℕ) := Fin d → Fin d → MvPolynomial ℕ ℝ

/-- The matrix whose entry in row `i` and column `j` is `p[s[i][j]]`. -/
def matrixOf {d r : ℕ} (s : Fin d → Fin d → Fin r) : (Fin r → MvPolynomial ℕ ℝ) →ₗ[ℝ] MField d where
  toFun p i j := p (s i j)
  map_add' _ _ := rfl
  map_smul' _ _ := rfl

/-- `((p[0], p[1]), (p[1], p[2]))` (symfem/elements/regge.py:47-51, symfem/elements/hhj.py:48-51). -/
def index2 : Fin 2 → Fin 2 → Fin 3 := ![![0, 1], ![1, 2]]

/-- `((p[0], p[1], p[3]), (p[1], p[2], p[4]), (p[3], p[4], p[5]))` (symfem/elements/regge.py:52-56). -/
def index3 : Fin 3 → Fin 3 → Fin 6 := ![![0, 1, 3], ![1, 2, 4], ![3, 4, 5]]

/-- The polynomials of `Regge` (symfem/elements/regge.py:46-56). -/
noncomputable def reggePoly : (d : ℕ) → ℕ → Option (List (MField d))
  | 2, k => (polySetVector 2 3 k).map fun l => l.map fun p => matrixOf index2 (denoteVec ℝ 3 p)
  | 3, k => (polySetVector 3 6 k).map fun l => l.map fun p => matrixOf index3 (denoteVec ℝ 6 p)
  | _, _ => some []

/-- `lvec.dot(V(point) @ rvec)` (symfem/functionals.py:715-717). -/
noncomputable def innerForm {d : ℕ} (z l r : ℕ → ℝ) : MField d →ₗ[ℝ] ℝ :=
  ∑ i, ∑ j, (l i.val * r j.val) • (aeval z).toLinearMap ∘ₗ LinearMap.proj j ∘ₗ LinearMap.proj i

/-- `PointInnerProduct(reference, point, lvec, rvec, entity, mapping="double_covariant")`
(symfem/functionals.py:676-717); kind 5. -/
noncomputable def innerDof {d : ℕ} (p : PointDof) (l r : ℕ → ℝ) : Dof ℝ (MField d) :=
  ⟨5, p.entity, some "double_covariant", innerForm p.point l r⟩

/-- The functionals of sub-entity `n` of dimension `edim` (symfem/elements/regge.py:61-90): for every tuple of numbers
from `range(1, order + 2)` with sum less than `order + 2` and every edge of the entity, the last one first.  The zip of the
axes and the reversed tuple has `edim` entries. -/
noncomputable def reggeOn (c : Cell) (v : ℕ → ℕ → ℝ) (k edim n : ℕ) : Option (List (Dof ℝ (MField c.tdim))) :=
  match c.subEntityType edim n, (c.subEntities edim).bind (·[n]?) with
  | some t, some e =>
    let w := entityVerts v e
    some (((product (List.range' 1 (k + 1)) edim).filter fun i => decide (i.sum < k + 2)).flatMap fun i =>
      t.edges.reverse.map fun edge =>
        let tangent := psub (w (edge.getD 1 0)) (w (edge.getD 0 0))
        innerDof ⟨fun j => w 0 j + ∑ m ∈ Finset.range edim, axis t w m j * (i.reverse.getD m 0) / (k + 2), (edim, n)⟩
          tangent tangent)
  | _, _ => none

/-- The loop over the sub-entities (symfem/elements/regge.py:59-62). -/
noncomputable def reggePoints (c : Cell) (v : ℕ → ℕ → ℝ) (k : ℕ) : Option (List (Dof ℝ (MField c.tdim))) :=
  ((List.range' 1 3).mapM fun edim => (c.subEntityCount edim).bind fun count =>
    ((List.range count).mapM (reggeOn c v k edim)).map List.flatten).map List.flatten

/-- `Regge(reference, order, "point")` (symfem/elements/regge.py:34-90, 142-155), on a cell with vertices `v` and as many
coordinates as dimensions. -/
noncomputable def reggeElement (c : Cell) (v : ℕ → ℕ → ℝ) (k : ℕ) : Option (Element ℝ (MField c.tdim)) :=
  (reggePoly c.tdim k).bind fun poly => (reggePoints c v k).bind fun dofs => ciarlet poly dofs

/-- Symmetric matrices of polynomials of degree at most `k`. -/
def SymSpace (d : ℕ) (k : ℤ) (u : MField d) : Prop := (∀ i j, u i j = u j i) ∧ ∀ i j, u i j ∈ P d k

/-- The value of the bilinear form of a matrix function at a point. -/
noncomputable def formAt {d : ℕ} (u : MField d) (z s t : ℕ → ℝ) : ℝ := ∑ i, ∑ j, s i.val * eval z (u i j) * t j.val

end Verif.Matrices
