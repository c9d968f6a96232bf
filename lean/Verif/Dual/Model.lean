import Verif.Elements.Creation
import Verif.Families.Mapped
import Verif.Functions.Piecewise
import Verif.References.PropsDualLattice

/-!
# Elements on dual polygons (C64, C98)

symfem/elements/dual.py
-/

namespace Verif.Dual

open MvPolynomial Verif.References Verif.Elements Verif.Families Verif.FiniteElement Verif.Functions

/-! ### Coefficients

The nested list `dual_coefficients[j]` with `N` rows of three entries is a function of the two indices.  The loops
over `j` in the code only write to `dual_coefficients[j]`. -/

/-- A list index of Python: negative numbers count from the end. -/
def pyIndex (N : ℕ) (i : ℤ) : ℕ := if i < 0 then (N + i).toNat else i.toNat

/-- `c[i][k] = v` -/
def setAt (N : ℕ) (c : ℕ → ℕ → ℝ) (i : ℤ) (k : ℕ) (v : ℝ) : ℕ → ℕ → ℝ :=
  fun i' k' => if i' = pyIndex N i ∧ k' = k then v else c i' k'

/-- `Dual.__init__`, order 1 (symfem/elements/dual.py:232-247). -/
noncomputable def dualRow (n j : ℕ) : ℕ → ℕ → ℝ :=
  let N := 2 * n
  let c : ℕ → ℕ → ℝ := fun _ k => if k = 0 then 1 / n else 0
  let c := setAt N c (2 * j - 1) 2 1
  let c := setAt N c (2 * j) 1 1
  let c := setAt N c (2 * j - 2) 2 (1 / 2)
  let c := setAt N c (2 * j - 1) 1 (1 / 2)
  let c := setAt N c (2 * j) 2 (1 / 2)
  setAt N c (2 * j + 1) 1 (1 / 2)

/-- The coefficients of each function: a list for each triangle (symfem/elements/dual.py:228-247). -/
noncomputable def dualCoefficients (n order : ℕ) : List (ℕ → List ℝ) :=
  if order = 0 then [fun _ => [1]]
  else (List.range n).map fun j i => (List.range 3).map (dualRow n j i)

/-- `BuffaChristiansen.__init__` (`s = 1`, symfem/elements/dual.py:293-306) and `RotatedBuffaChristiansen.__init__`
(`s = -1`, 362-375): the values written in the inner loop have opposite signs. -/
noncomputable def bcRow (s : ℝ) (n j : ℕ) : ℕ → ℕ → ℝ :=
  let N := 2 * n
  let c : ℕ → ℕ → ℝ := fun _ _ => 0
  let c := setAt N c (2 * j) 0 (-1 / 2)
  let c := setAt N c (2 * j - 1) 0 (-1 / 2)
  (List.range (N - 1)).foldl (fun c i =>
    let c := setAt N c (((2 * j + i) % N : ℕ) : ℤ) 2 (s * ((i : ℝ) + 1 - n) / N)
    setAt N c (((2 * j + i + 1) % N : ℕ) : ℤ) 1 (s * ((i : ℝ) + 1 - n) / N)) c

/-- The coefficients of each function. -/
noncomputable def bcCoefficients (s : ℝ) (n : ℕ) : List (ℕ → List ℝ) :=
  (List.range n).map fun j i => (List.range 3).map (bcRow s n j i)

/-! ### Functions -/

/-- The triangle number `i` of the refined polygon: the origin and two vertices
(symfem/elements/dual.py:103-109). -/
noncomputable def tri (n i : ℕ) : ℕ → ℕ → ℝ :=
  fun k => [fun _ => 0, dualVertex n i, dualVertex n ((i + 1) % (2 * n))].getD k fun _ => 0

/-- The key of a piece. -/
noncomputable def triCell (n i : ℕ) : List (Geometry.Point ℝ) :=
  (List.range 3).map fun k => (List.range 2).map (tri n i k)

/-- A piece of a scalar function: the coefficients times the basis functions mapped by the identity mapping, paired by
`zip` (symfem/elements/dual.py:110-115). -/
noncomputable def scalarPiece (n : ℕ) (basis : List (MvPolynomial ℕ ℝ)) (row : ℕ → List ℝ) (i : ℕ) :
    Option (List (Geometry.Point ℝ) × ((ℕ → ℝ) → ℝ)) :=
  (invMapTo .triangle 2 (tri n i)).map fun F =>
    (triCell n i, fun x => (((row i).zip basis).map fun ab => ab.1 * eval (coords (F x)) ab.2).sum)

/-- A piece of a vector function: the coefficients times the basis functions mapped by the mapping of the element
(symfem/elements/dual.py:110, 116-124). -/
noncomputable def vectorPiece (push : ∀ {d : ℕ}, Matrix (Fin d) (Fin d) ℝ → (Fin d → ℝ) → Fin d → ℝ) (n : ℕ)
    (basis : List (Field 2)) (row : ℕ → List ℝ) (i : ℕ) :
    Option (List (Geometry.Point ℝ) × ((ℕ → ℝ) → Fin 2 → ℝ)) :=
  (basis.mapM (mapped push .triangle (tri n i))).map fun sub =>
    (triCell n i, fun x r => (((row i).zip sub).map fun ab => ab.1 * ab.2 x r).sum)

/-- The pieces of a function, one for each triangle (symfem/elements/dual.py:101-126).  The keys are distinct when
there are at least three triangles. -/
def pieces {α : Type} (n : ℕ) (piece : ℕ → Option (List (Geometry.Point ℝ) × α)) : Option (Piecewise ℝ α) :=
  ((List.range (2 * n)).mapM piece).map (Piecewise.mk 2)

/-- `get_basis_functions` of `Dual` (symfem/elements/dual.py:79-131). -/
noncomputable def dualBasis (n order : ℕ) : Option (List (Piecewise ℝ ((ℕ → ℝ) → ℝ))) :=
  ((lagrangeElement "equispaced" .triangle (refVertex .triangle) order).bind getBasis).bind fun basis =>
    (dualCoefficients n order).mapM fun row => pieces n (scalarPiece n basis row)

/-- `get_basis_functions` of `BuffaChristiansen`. -/
noncomputable def bcBasis (n : ℕ) : Option (List (Piecewise ℝ ((ℕ → ℝ) → Fin 2 → ℝ))) :=
  ((rtElement "equispaced" .triangle 1).bind getBasis).bind fun basis =>
    (bcCoefficients 1 n).mapM fun row => pieces n (vectorPiece pushContra n basis row)

/-- `get_basis_functions` of `RotatedBuffaChristiansen`. -/
noncomputable def rbcBasis (n : ℕ) : Option (List (Piecewise ℝ ((ℕ → ℝ) → Fin 2 → ℝ))) :=
  ((n1Element "equispaced" .triangle 1).bind getBasis).bind fun basis =>
    (bcCoefficients (-1) n).mapM fun row => pieces n (vectorPiece pushCo n basis row)

/-- The value of a piecewise function at a point: `subs` with the coordinates
(symfem/piecewise_functions.py:304-324). -/
noncomputable def valueAt {α : Type} (f : Piecewise ℝ ((ℕ → ℝ) → α)) (p : Fin 2 → ℝ) : Except PErr α :=
  (f.getPiece (Geometry.tup p)).map fun g => g (coords (Geometry.tup p))

end Verif.Dual
