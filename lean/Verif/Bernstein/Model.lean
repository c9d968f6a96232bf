import Verif.Families.Trace
import Verif.Families.Model
import Verif.Create.Model
/-!
# Bernstein elements (symfem/elements/bernstein.py)

Default references.  A functional integrates over a sub-entity of the cell, whose Jacobian multiplies every integral
(symfem/functions.py:782-816).  `none` is an exception.
-/

namespace Verif.Bernstein
open Verif.References Verif.Moments Verif.Functionals Verif.Elements Verif.FiniteElement Verif.Polysets Verif.Orthogonal
open Verif.Families
open MvPolynomial

/-- `single_choose` (symfem/elements/bernstein.py:24-40). -/
def singleChoose (n k : ℕ) : ℚ :=
  (List.range' 1 (n - k)).foldl (fun o (i : ℕ) => o / (i : ℚ))
    ((List.range' (k + 1) (n - k)).foldl (fun o (i : ℕ) => o * (i : ℚ)) 1)

/-- `choose` (symfem/elements/bernstein.py:43-57); only called with powers that sum to `n`, so `n` stays a natural
number. -/
def choose (n : ℕ) (powers : List ℕ) : ℚ :=
  (powers.foldl (fun (s : ℚ × ℕ) p => (s.1 * singleChoose s.2 p, s.2 - p)) (1, n)).1

/-- `lambdas` (symfem/elements/bernstein.py:76, 79, 82). -/
noncomputable def lambdas : ℕ → List (MvPolynomial ℕ ℝ)
  | 1 => [1 - X 0, X 0]
  | 2 => [1 - X 0 - X 1, X 0, X 1]
  | 3 => [1 - X 0 - X 1 - X 2, X 0, X 1, X 2]
  | _ => []

/-- `powers` (symfem/elements/bernstein.py:77, 80, 83-88).  Other dimensions leave it unassigned. -/
def bernPowers (n : ℕ) : ℕ → List (List ℕ)
  | 1 => (List.range (n + 1)).map fun i => [n - i, i]
  | 2 => (List.range (n + 1)).flatMap fun i => (List.range (n + 1 - i)).map fun j => [n - i - j, j, i]
  | 3 => (List.range (n + 1)).flatMap fun i => (List.range (n + 1 - i)).flatMap fun j =>
      (List.range (n + 1 - i - j)).map fun k => [n - i - j - k, k, j, i]
  | _ => []

/-- One round of the loop (symfem/elements/bernstein.py:90-94). -/
noncomputable def bernTerm (n d : ℕ) (p : List ℕ) : MvPolynomial ℕ ℝ :=
  (List.zip (lambdas d) p).foldl (fun f ab => f * ab.1 ^ ab.2) (C (choose n p : ℝ))

/-- `bernstein_polynomials` (symfem/elements/bernstein.py:60-97). -/
noncomputable def bernstein (n d : ℕ) : List (MvPolynomial ℕ ℝ) := (bernPowers n d).map (bernTerm n d)

/-- The row of values of `orthogonal_basis(integral_domain.name, degree, 0, t)`
(symfem/elements/bernstein.py:124, symfem/polynomials/legendre.py:625-659), for the cells that are used. -/
noncomputable def orthRow (c : Cell) (n : ℕ) : List (MvPolynomial ℕ ℝ) :=
  match c with
  | .interval => rowOf (orthogonalInterval (X 0) n 0) 0
  | .triangle => rowOf (orthogonalTriangle (X 0) (X 1) n 0) 0
  | .tetrahedron => rowOf (orthogonalTetrahedron (X 0) (X 1) (X 2) n 0) 0
  | _ => []

/-- `orth` (symfem/elements/bernstein.py:122-125); `J` is the Jacobian of the domain. -/
noncomputable def orth (c : Cell) (J : ℝ) (n : ℕ) : List (MvPolynomial ℕ ℝ) :=
  (orthRow c n).map fun o => C (1 / √(J * cellInt c fun z => eval z (o * o))) * o

/-- `mat` (symfem/elements/bernstein.py:131), when it is square. -/
noncomputable def mat (c : Cell) (J : ℝ) (n : ℕ) : Matrix (Fin (orth c J n).length) (Fin (orth c J n).length) ℝ :=
  fun i j => J * cellInt c fun z => eval z ((orth c J n)[i] * (bernstein n c.tdim).getD j.val 0)

open scoped Classical in
/-- `self.moment` (symfem/elements/bernstein.py:130-135).  A matrix that is not square or not invertible has no inverse, and
an index that is not the number of a row is an error. -/
noncomputable def moment (c : Cell) (J : ℝ) (n idx : ℕ) : Option (MvPolynomial ℕ ℝ) :=
  if (bernstein n c.tdim).length = (orth c J n).length ∧ IsUnit (mat c J n).det then
    if h : idx < (orth c J n).length then
      some (∑ i : Fin (orth c J n).length, C ((mat c J n)⁻¹ ⟨idx, h⟩ i) * (orth c J n)[i])
    else none
  else none

/-- `BernsteinFunctional` (symfem/elements/bernstein.py:100-161). -/
noncomputable def bernDof (D : Domain) (idx n : ℕ) (entity : ℕ × ℕ) : Option (Dof ℝ (MvPolynomial ℕ ℝ)) :=
  (jacobian D.cell D.g D.v).bind fun J => (moment D.cell J n idx).map fun m =>
    ⟨100, entity, some "identity", J • (pairing1 D.cell m ∘ₗ (aeval (coordPoly D)).toLinearMap)⟩

/-- `index` (symfem/elements/bernstein.py:199-205); never called with numbers that make it negative. -/
def index (order x y z : ℕ) : ℕ :=
  ((z : ℤ) * ((z : ℤ) ^ 2 - 3 * z * order - 6 * z + 3 * (order : ℤ) ^ 2 + 12 * order + 11) / 6 +
    (y : ℤ) * (2 * ((order : ℤ) - z) + 3 - y) / 2 + x).toNat

/-- The functionals (symfem/elements/bernstein.py:191-240). -/
noncomputable def bernDofs (c : Cell) (order : ℕ) : Option (List (Dof ℝ (MvPolynomial ℕ ℝ))) :=
  if order = 0 then
    some [(⟨midpoint c (refVertex c), (c.tdim, 0)⟩ : PointDof).functional]
  else
    ((List.range ((c.subEntityCount 1).getD 0)).flatMap fun en =>
        (List.range' 1 (order - 1)).map fun i => bernDof (entityDomain c (1, en)) i order (1, en)).mapM id |>.bind fun de =>
    ((List.range ((c.subEntityCount 2).getD 0)).flatMap fun fn =>
        (List.range' 1 (order - 1)).flatMap fun i => (List.range' 1 (order - i - 1)).map fun j =>
          bernDof (entityDomain c (2, fn)) (index order i j 0) order (2, fn)).mapM id |>.bind fun df =>
    (if Create.cellName c = "tetrahedon" then
      ((List.range' 1 (order - 1)).flatMap fun i => (List.range' 1 (order - i - 1)).flatMap fun j =>
        (List.range' 1 (order - i - j - 1)).map fun k =>
          bernDof (entityDomain c (3, 0)) (index order i j k) order (3, 0)).mapM id
      else some []) |>.map fun dt =>
    (onVertices c (refVertex c)).map PointDof.functional ++ de ++ df ++ dt

/-- `Bernstein.__init__` (symfem/elements/bernstein.py:182-242). -/
noncomputable def bernsteinElement (c : Cell) (order : ℕ) : Option (Element ℝ (MvPolynomial ℕ ℝ)) :=
  (bernDofs c order).bind fun dofs => (polySet c.tdim order).bind fun poly =>
    ciarlet (poly.map (denoteMono ℝ)) dofs

end Verif.Bernstein
