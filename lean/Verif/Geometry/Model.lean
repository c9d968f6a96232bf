import Mathlib.Algebra.Order.Field.Basic
/-!
# Model of `symfem/geometry.py`

Coordinates are elements of a linearly ordered field `K` (sympy's exact real numbers).  The branches
for `sympy.Float` values are not modelled.  Division by a zero determinant (degenerate cells) gives
sympy's `nan`/`zoo` in the code and `0` in Lean; the properties assume non-degenerate cells.
-/

namespace Verif.Geometry

variable {K : Type} [Field K] [LinearOrder K]

/-- A point (`PointType`). -/
abbrev Point (K : Type) := List K

/-- `_vsub` (`symfem/geometry.py:73-83`): `zip` stops at the shorter point. -/
def vsub (v w : Point K) : Point K := List.zipWith (fun i j => i - j) v w

/-- `_vdot` (`symfem/geometry.py:86-99`). -/
def vdot (v w : Point K) : K := (List.zipWith (fun i j => i * j) v w).foldl (fun out t => out + t) 0

/-- `v[i]`. -/
def at' (v : List K) (i : ℕ) : K := v.getD i 0

/-- `cell[i]`. -/
def vertex (cell : List (Point K)) (i : ℕ) : Point K := cell.getD i []

/-- `point_in_interval` (`symfem/geometry.py:102-118`). -/
def pointInInterval (point : Point K) (interval : List (Point K)) : Bool :=
  let v := at' (vsub point (vertex interval 0)) 0 /
    at' (vsub (vertex interval 1) (vertex interval 0)) 0
  decide (0 ≤ v) && decide (v ≤ 1)

/-- `point_in_triangle` (`symfem/geometry.py:121-154`). -/
def pointInTriangle (point : Point K) (triangle : List (Point K)) : Bool :=
  let v0 := vsub (vertex triangle 2) (vertex triangle 0)
  let v1 := vsub (vertex triangle 1) (vertex triangle 0)
  let v2 := vsub point (vertex triangle 0)
  let dot00 := vdot v0 v0
  let dot01 := vdot v0 v1
  let dot02 := vdot v0 v2
  let dot11 := vdot v1 v1
  let dot12 := vdot v1 v2
  let det := dot00 * dot11 - dot01 * dot01
  let u := (dot11 * dot02 - dot01 * dot12) / det
  let v := (dot00 * dot12 - dot01 * dot02) / det
  let uv := u + v
  decide (u ≥ 0) && decide (v ≥ 0) && decide (uv ≤ 1)

/-- `point_in_quadrilateral` (`symfem/geometry.py:157-191`). -/
def pointInQuadrilateral (point : Point K) (quad : List (Point K)) : Bool :=
  let e0 := vsub (vertex quad 1) (vertex quad 0)
  let e1 := vsub (vertex quad 0) (vertex quad 2)
  let e2 := vsub (vertex quad 3) (vertex quad 1)
  let e3 := vsub (vertex quad 2) (vertex quad 3)
  let n0 := [-(at' e0 1), at' e0 0]
  let n1 := [-(at' e1 1), at' e1 0]
  let n2 := [-(at' e2 1), at' e2 0]
  let n3 := [-(at' e3 1), at' e3 0]
  let d0 := vdot n0 (vsub point (vertex quad 0))
  let d1 := vdot n1 (vsub point (vertex quad 2))
  let d2 := vdot n2 (vsub point (vertex quad 1))
  let d3 := vdot n3 (vsub point (vertex quad 3))
  decide (d0 ≥ 0) && decide (d1 ≥ 0) && decide (d2 ≥ 0) && decide (d3 ≥ 0)

/-- `point_in_tetrahedron` (`symfem/geometry.py:194-250`). -/
def pointInTetrahedron (point : Point K) (tetrahedron : List (Point K)) : Bool :=
  let v0 := vsub (vertex tetrahedron 3) (vertex tetrahedron 0)
  let v1 := vsub (vertex tetrahedron 2) (vertex tetrahedron 0)
  let v2 := vsub (vertex tetrahedron 1) (vertex tetrahedron 0)
  let v3 := vsub point (vertex tetrahedron 0)
  let dot00 := vdot v0 v0
  let dot01 := vdot v0 v1
  let dot02 := vdot v0 v2
  let dot03 := vdot v0 v3
  let dot11 := vdot v1 v1
  let dot12 := vdot v1 v2
  let dot13 := vdot v1 v3
  let dot22 := vdot v2 v2
  let dot23 := vdot v2 v3
  let det := dot00 * (dot11 * dot22 - dot12 * dot12) + dot01 * (dot02 * dot12 - dot01 * dot22)
    + dot02 * (dot01 * dot12 - dot11 * dot02)
  let u := ((dot11 * dot22 - dot12 * dot12) * dot03 + (dot02 * dot12 - dot01 * dot22) * dot13
    + (dot01 * dot12 - dot02 * dot11) * dot23) / det
  let v := ((dot12 * dot02 - dot01 * dot22) * dot03 + (dot00 * dot22 - dot02 * dot02) * dot13
    + (dot02 * dot01 - dot00 * dot12) * dot23) / det
  let w := ((dot01 * dot12 - dot11 * dot02) * dot03 + (dot01 * dot02 - dot00 * dot12) * dot13
    + (dot00 * dot11 - dot01 * dot01) * dot23) / det
  let uvw := u + v + w
  decide (u ≥ 0) && decide (v ≥ 0) && decide (w ≥ 0) && decide (uvw ≤ 1)

end Verif.Geometry
