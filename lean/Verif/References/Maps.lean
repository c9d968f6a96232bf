import Verif.References.Model
import Mathlib.LinearAlgebra.Matrix.NonsingularInverse
import Mathlib.Analysis.Real.Sqrt
/-!
# Model of the cell maps of `symfem/references.py`

A point is its coordinate function `ℕ → K`; the number of coordinates `g` (the geometric dimension,
at most 3) is a separate argument and coordinates at or above it are never looked at.  A vertex list
is a function from the vertex number.  The symbolic variables `x[0], x[1], x[2]` become the argument
of the map: substituting a point for `x` is applying the function.  All vertices of one cell have the
same number of coordinates, so that `zip(*vertices)` runs over the coordinates.
`none` is an exception (a failed `assert`, or `Matrix.inv` of a singular matrix).
-/

namespace Verif.References

variable {K : Type} [Field K] [DecidableEq K]

/-- `reference_vertices` of each class (symfem/references.py:779, 906, 1050, 1239, 1428, 1659-1668,
1906-1913, 2131-2133).  Dual polygons are not modelled here. -/
def refVerts : Cell → List (List K)
  | .point => [[]]
  | .interval => [[0], [1]]
  | .triangle => [[0, 0], [1, 0], [0, 1]]
  | .tetrahedron => [[0, 0, 0], [1, 0, 0], [0, 1, 0], [0, 0, 1]]
  | .quadrilateral => [[0, 0], [1, 0], [0, 1], [1, 1]]
  | .hexahedron => [[0, 0, 0], [1, 0, 0], [0, 1, 0], [1, 1, 0], [0, 0, 1], [1, 0, 1], [0, 1, 1],
      [1, 1, 1]]
  | .prism => [[0, 0, 0], [1, 0, 0], [0, 1, 0], [0, 0, 1], [1, 0, 1], [0, 1, 1]]
  | .pyramid => [[0, 0, 0], [1, 0, 0], [0, 1, 0], [1, 1, 0], [0, 0, 1]]
  | .dualPolygon _ => []

/-- A coordinate list as a coordinate function. -/
def coords (l : List K) : ℕ → K := fun j => l.getD j 0

/-- Vertex `i` of the default cell. -/
def refVertex (c : Cell) (i : ℕ) : ℕ → K := coords ((refVerts c).getD i [])

/-- `get_map_to(vertices)` on a default cell (symfem/references.py:830-840, 969-979, 1138-1148,
1324-1337, 1522-1535, 1778-1794, 2003-2017, 2206-2221), evaluated at `x`. -/
def mapTo (c : Cell) (v : ℕ → ℕ → K) (x : ℕ → K) : Option (ℕ → K) :=
  match c with
  | .point => some (v 0)
  | .interval => some fun j => v 0 j + (v 1 j - v 0 j) * x 0
  | .triangle => some fun j => v 0 j + (v 1 j - v 0 j) * x 0 + (v 2 j - v 0 j) * x 1
  | .tetrahedron => some fun j =>
      v 0 j + (v 1 j - v 0 j) * x 0 + (v 2 j - v 0 j) * x 1 + (v 3 j - v 0 j) * x 2
  | .quadrilateral => some fun j =>
      (1 - x 1) * ((1 - x 0) * v 0 j + x 0 * v 1 j) + x 1 * ((1 - x 0) * v 2 j + x 0 * v 3 j)
  | .hexahedron => some fun j =>
      (1 - x 2) * ((1 - x 1) * ((1 - x 0) * v 0 j + x 0 * v 1 j)
          + x 1 * ((1 - x 0) * v 2 j + x 0 * v 3 j))
        + x 2 * ((1 - x 1) * ((1 - x 0) * v 4 j + x 0 * v 5 j)
          + x 1 * ((1 - x 0) * v 6 j + x 0 * v 7 j))
  | .prism => some fun j =>
      (1 - x 2) * (v 0 j + x 0 * (v 1 j - v 0 j) + x 1 * (v 2 j - v 0 j))
        + x 2 * (v 3 j + x 0 * (v 4 j - v 3 j) + x 1 * (v 5 j - v 3 j))
  | .pyramid => some fun j =>
      (1 - x 2) * ((1 - x 1) * ((1 - x 0) * v 0 j + x 0 * v 1 j)
          + x 1 * ((1 - x 0) * v 2 j + x 0 * v 3 j))
        + x 2 * v 4 j
  | .dualPolygon _ => none

/-- `_vsub` (symfem/references.py:98-108). -/
def psub (v w : ℕ → K) : ℕ → K := fun j => v j - w j

/-- `_vdot` (symfem/references.py:124-137) on `g` coordinates. -/
def pdot (g : ℕ) (v w : ℕ → K) : K := ∑ j ∈ Finset.range g, v j * w j

/-- `_vcross` (symfem/references.py:140-153). -/
def pcross (v w : ℕ → K) : ℕ → K :=
  coords [v 1 * w 2 - v 2 * w 1, v 2 * w 0 - v 0 * w 2, v 0 * w 1 - v 1 * w 0]

/-- `sympy.Matrix([[a[0], b[0]], [a[1], b[1]]])`. -/
def mat2 (a b : ℕ → K) : Matrix (Fin 2) (Fin 2) K := !![a 0, b 0; a 1, b 1]

/-- `sympy.Matrix([[a[0], b[0], c[0]], [a[1], b[1], c[1]], [a[2], b[2], c[2]]])`. -/
def mat3 (a b c : ℕ → K) : Matrix (Fin 3) (Fin 3) K :=
  !![a 0, b 0, c 0; a 1, b 1, c 1; a 2, b 2, c 2]

/-- `mat = M.inv(); (_vdot(mat.row(0), p), _vdot(mat.row(1), p))` with a 2 by 2 matrix.  Further
coordinates of `p` are dropped by `zip` in `_vdot`. -/
noncomputable def solve2 (M : Matrix (Fin 2) (Fin 2) K) (v0 : ℕ → K) :
    Option ((ℕ → K) → List K) :=
  if M.det = 0 then none
  else some fun x => let p := psub x v0
    [M⁻¹ 0 0 * p 0 + M⁻¹ 0 1 * p 1, M⁻¹ 1 0 * p 0 + M⁻¹ 1 1 * p 1]

/-- The same with a 3 by 3 matrix, keeping the first `n` rows. -/
noncomputable def solve3 (n : ℕ) (M : Matrix (Fin 3) (Fin 3) K) (v0 : ℕ → K) :
    Option ((ℕ → K) → List K) :=
  if M.det = 0 then none
  else some fun x => let p := psub x v0
    [M⁻¹ 0 0 * p 0 + M⁻¹ 0 1 * p 1 + M⁻¹ 0 2 * p 2,
     M⁻¹ 1 0 * p 0 + M⁻¹ 1 1 * p 1 + M⁻¹ 1 2 * p 2,
     M⁻¹ 2 0 * p 0 + M⁻¹ 2 1 * p 1 + M⁻¹ 2 2 * p 2].take n

/-- `_vadd(vertices[a], vertices[d]) == _vadd(vertices[b], vertices[c])` for a face `(a, b, c, d)`. -/
def parallelogram (g : ℕ) (v : ℕ → ℕ → K) (f : List ℕ) : Bool :=
  (List.range g).all fun j =>
    decide (v (f.getD 0 0) j + v (f.getD 3 0) j = v (f.getD 1 0) j + v (f.getD 2 0) j)

/-- `get_inverse_map_to(vertices)` on a default cell (symfem/references.py:842-852, 981-994,
1150-1166, 1339-1358, 1537-1563, 1796-1817, 2019-2040, 2223-2244).  `g` is the number of
coordinates of the vertices.  For the interval with equal ends the code returns `nan`; here
division by zero gives 0. For the quadrilateral the dimension that is tested is that of the default
cell (`len(self.vertices[0])`, which is 2), not of the target. -/
noncomputable def invMapTo (c : Cell) (g : ℕ) (v : ℕ → ℕ → K) : Option ((ℕ → K) → List K) :=
  match c with
  | .point => some fun _ => []
  | .interval =>
    let d := psub (v 1) (v 0)
    some fun x => [pdot g (psub x (v 0)) d / pdot g d d]
  | .triangle =>
    if g = 2 then solve2 (mat2 (psub (v 1) (v 0)) (psub (v 2) (v 0))) (v 0) else none
  | .tetrahedron =>
    if g = 3 then
      solve3 3 (mat3 (psub (v 1) (v 0)) (psub (v 2) (v 0)) (psub (v 3) (v 0))) (v 0)
    else none
  | .quadrilateral =>
    if parallelogram g v [0, 1, 2, 3] then
      solve2 (mat2 (psub (v 1) (v 0)) (psub (v 2) (v 0))) (v 0)
    else none
  | .hexahedron =>
    if g = 3 ∧ Cell.hexahedron.faces.all (parallelogram g v) then
      solve3 3 (mat3 (psub (v 1) (v 0)) (psub (v 2) (v 0)) (psub (v 4) (v 0))) (v 0)
    else none
  | .prism =>
    if g = 3 ∧ ((Cell.prism.faces.drop 1).take 3).all (parallelogram g v) then
      solve3 3 (mat3 (psub (v 1) (v 0)) (psub (v 2) (v 0)) (psub (v 3) (v 0))) (v 0)
    else none
  | .pyramid =>
    if g = 3 ∧ (Cell.pyramid.faces.take 1).all (parallelogram g v) then
      solve3 3 (mat3 (psub (v 1) (v 0)) (psub (v 2) (v 0)) (psub (v 4) (v 0))) (v 0)
    else none
  | .dualPolygon _ => none

/-- `_compute_map_to_self` (symfem/references.py:854-860, 996-1002, 1168-1174, 1360-1369, 1565-1574,
1819-1831, 2042-2052, 2246-2257): the formulas of `get_map_to` with the cell's own vertices. -/
def mapToSelf (c : Cell) (v : ℕ → ℕ → K) (x : ℕ → K) : Option (ℕ → K) := mapTo c v x

/-- `_compute_inverse_map_to_self` of every cell other than triangles and quadrilaterals with three
coordinates (symfem/references.py:862-868, 1004-1012, 1176-1184, 1371-1384, 1576-1589, 1833-1851,
2054-2072, 2259-2277). -/
noncomputable def invMapToSelf (c : Cell) (g : ℕ) (v : ℕ → ℕ → K) :
    Option ((ℕ → K) → List K) :=
  match c with
  | .triangle =>
    if g = 2 then solve2 (mat2 (psub (v 1) (v 0)) (psub (v 2) (v 0))) (v 0) else none
  | .quadrilateral =>
    if parallelogram g v [0, 1, 2, 3] then
      if g = 2 then solve2 (mat2 (psub (v 1) (v 0)) (psub (v 2) (v 0))) (v 0)
      else if g = 3 then
        solve3 2 (mat3 (psub (v 1) (v 0)) (psub (v 2) (v 0))
          (pcross (psub (v 1) (v 0)) (psub (v 2) (v 0)))) (v 0)
      else none
    else none
  | c => invMapTo c g v

/-- `Triangle._compute_inverse_map_to_self` for vertices with three coordinates
(symfem/references.py:1185-1191): each coordinate is the inner product with an axis divided by the
*norm* of the axis. -/
noncomputable def triangleInvSelf3 (v : ℕ → ℕ → ℝ) (x : ℕ → ℝ) : List ℝ :=
  let a0 := psub (v 1) (v 0)
  let a1 := psub (v 2) (v 0)
  [pdot 3 (psub x (v 0)) a0 / √(pdot 3 a0 a0), pdot 3 (psub x (v 0)) a1 / √(pdot 3 a1 a1)]

end Verif.References
