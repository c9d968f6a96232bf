import Verif.References.Shape
import Verif.Quadrature.Model
import Verif.Polysets.Model
/-!
# Model of the point evaluations of the Lagrange-type elements

`symfem/elements/lagrange.py`, `q.py`, `lagrange_prism.py`, `lagrange_pyramid.py` and `dpc.py`.  The
variants "legendre" and "lobatto", whose functionals are integrals, are not part of this file.
-/

namespace Verif.Elements
open Verif.References Verif.Quadrature Verif.Polysets

/-- A `PointEvaluation` functional: the point and the entity (symfem/functionals.py:245-285). -/
structure PointDof where
  point : ℕ → ℝ
  entity : ℕ × ℕ

/-- `itertools.product(l, repeat=d)`. -/
def product (l : List ℕ) : ℕ → List (List ℕ)
  | 0 => [[]]
  | d + 1 => l.flatMap fun i => (product l d).map fun t => i :: t

/-- `range(1, order)`. -/
def innerRange (k : ℕ) : List ℕ := List.range' 1 (k - 1)

/-- The vertices of a sub-entity with these vertex numbers. -/
def entityVerts (v : ℕ → ℕ → ℝ) (e : List ℕ) : ℕ → ℕ → ℝ := fun i => v (e.getD i 0)

/-- The point evaluations on sub-entity `n` of dimension `edim` (symfem/elements/lagrange.py:70-74,
q.py:72-83, lagrange_prism.py:62-87, lagrange_pyramid.py:60-85): one for every tuple of numbers from
`range(1, order)` that passes the test, at the point with coordinates `points[i]` for the reversed
tuple.  The code of the last three files writes out `get_point`. -/
noncomputable def onEntity (c : Cell) (v : ℕ → ℕ → ℝ) (points : List ℝ) (k : ℕ) (keep : Cell → List ℕ → Bool)
    (edim n : ℕ) : Option (List PointDof) :=
  match c.subEntityType edim n, (c.subEntities edim).bind (·[n]?) with
  | some t, some e =>
    ((product (innerRange k) edim).filter (keep t)).mapM fun i =>
      (getPoint t (entityVerts v e) (i.reverse.map fun j => points.getD j 0)).map fun p => ⟨p, (edim, n)⟩
  | _, _ => none

/-- The loop over the sub-entities of one dimension. -/
noncomputable def onEntities (c : Cell) (v : ℕ → ℕ → ℝ) (points : List ℝ) (k : ℕ) (keep : Cell → List ℕ → Bool)
    (edim : ℕ) : Option (List PointDof) :=
  (c.subEntityCount edim).bind fun count =>
    ((List.range count).mapM (onEntity c v points k keep edim)).map List.flatten

/-- The loop over the vertices (symfem/elements/lagrange.py:67-68). -/
def onVertices (c : Cell) (v : ℕ → ℕ → ℝ) : List PointDof :=
  (List.range c.nverts).map fun n => ⟨v n, (0, n)⟩

/-- Joining the lists of the dimensions. -/
def joined (l : List (Option (List PointDof))) : Option (List PointDof) :=
  (l.mapM id).map List.flatten

/-- The points of the rule, or `none` if the call fails.  The variants "legendre" and "lobatto" take other branches
in the code. -/
noncomputable def rulePoints (variant : String) (k : ℕ) : Option (List ℝ) :=
  if variant = "legendre" ∨ variant = "lobatto" then none
  else match getQuadrature variant (k + 1) with
  | .ok r => some r.1
  | .error _ => none

/-- `Lagrange.__init__` on a simplex (symfem/elements/lagrange.py:43-75). -/
noncomputable def lagrangeDofs (variant : String) (c : Cell) (v : ℕ → ℕ → ℝ) (k : ℕ) : Option (List PointDof) :=
  if variant = "legendre" then none
  else if k = 0 then
    (getPoint c v (List.replicate c.tdim (1 / ((c.tdim : ℝ) + 1)))).map fun p => [⟨p, (c.tdim, 0)⟩]
  else (rulePoints variant k).bind fun points =>
    if variant ≠ "equispaced" ∧ c ∉ [Cell.interval, Cell.quadrilateral, Cell.hexahedron] then none
    else joined (some (onVertices c v) ::
      (List.range' 1 3).map (onEntities c v points k fun _ i => decide (i.sum < k)))

/-- `Q.__init__` (symfem/elements/q.py:49-83). -/
noncomputable def qDofs (variant : String) (c : Cell) (v : ℕ → ℕ → ℝ) (k : ℕ) : Option (List PointDof) :=
  if variant = "legendre" then none
  else if k = 0 then
    (getPoint c v (List.replicate c.tdim (1 / 2))).map fun p => [⟨p, (c.tdim, 0)⟩]
  else (rulePoints variant k).bind fun points =>
    joined (some (onVertices c v) :: (List.range' 1 3).map (onEntities c v points k fun _ _ => true))

/-- The interior of prisms and pyramids (symfem/elements/lagrange_prism.py:90-101,
lagrange_pyramid.py:88-99): here the tuple is not reversed. -/
noncomputable def onInterior (c : Cell) (v : ℕ → ℕ → ℝ) (points : List ℝ) (k : ℕ) (keep : List ℕ → Bool) :
    Option (List PointDof) :=
  ((product (innerRange k) 3).filter keep).mapM fun i =>
    (getPoint c v (i.map fun j => points.getD j 0)).map fun p => ⟨p, (3, 0)⟩

/-- `len(entity.vertices) == 4 or sum(ii) < order` (symfem/elements/lagrange_prism.py:77). -/
def keepFace (k : ℕ) (t : Cell) (i : List ℕ) : Bool := decide (t.nverts = 4 ∨ i.sum < k)

/-- `Lagrange.__init__` on a prism (symfem/elements/lagrange_prism.py:45-101), on the default cell. -/
noncomputable def prismDofs (variant : String) (k : ℕ) : Option (List PointDof) :=
  let c := Cell.prism
  let v : ℕ → ℕ → ℝ := refVertex c
  if variant = "legendre" then none
  else if k = 0 then some [⟨fun _ => 1 / 4, (3, 0)⟩]
  else (rulePoints variant k).bind fun points =>
    joined [some (onVertices c v), onEntities c v points k (fun _ _ => true) 1,
      onEntities c v points k (keepFace k) 2,
      onInterior c v points k fun i => decide (i.getD 0 0 + i.getD 1 0 < k)]

/-- `Lagrange.__init__` on a pyramid (symfem/elements/lagrange_pyramid.py:43-99), on the default cell. -/
noncomputable def pyramidDofs (variant : String) (k : ℕ) : Option (List PointDof) :=
  let c := Cell.pyramid
  let v : ℕ → ℕ → ℝ := refVertex c
  if variant = "legendre" then none
  else if k = 0 then some [⟨fun _ => 1 / 4, (3, 0)⟩]
  else (rulePoints variant k).bind fun points =>
    joined [some (onVertices c v), onEntities c v points k (fun _ _ => true) 1,
      onEntities c v points k (keepFace k) 2,
      onInterior c v points k fun i => decide (max (i.getD 0 0) (i.getD 1 0) + i.getD 2 0 < k)]

/-- `DPC.__init__` on a quadrilateral or hexahedron (symfem/elements/dpc.py:48-59). -/
noncomputable def dpcDofs (c : Cell) (v : ℕ → ℕ → ℝ) (k : ℕ) : Option (List PointDof) :=
  if k = 0 then
    (getPoint c v (List.replicate c.tdim (1 / 2))).map fun p => [⟨p, (c.tdim, 0)⟩]
  else
    ((product (List.range (k + 1)) c.tdim).filter fun i => decide (i.sum ≤ k)).mapM fun i =>
      (getPoint c v (i.reverse.map fun j : ℕ => (j : ℝ) / k)).map fun p => ⟨p, (c.tdim, 0)⟩

end Verif.Elements
