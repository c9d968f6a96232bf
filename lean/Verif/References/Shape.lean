import Verif.References.Maps
import Mathlib.Algebra.Order.Field.Basic
/-!
# Model of the shape functions of `symfem/references.py`

`axes`, `normal`, `tangent`, `midpoint`, `jacobian`, `volume`, `contains`, `make_lattice`,
`make_lattice_with_lines` and `integration_limits`.  Points and vertex lists are represented as in
`Maps.lean`.
-/

namespace Verif.References

section field
variable {K : Type} [Field K]

/-- The vertex at the end of each of the `axes` passed to `__build__` (symfem/references.py:777, 906,
1050, 1235-1239, 1428, 1649-1653, 1899-1903, 2118-2122, 2347). -/
def axisVertices : Cell → List ℕ
  | .point => []
  | .interval => [1]
  | .triangle => [1, 2]
  | .tetrahedron => [1, 2, 3]
  | .quadrilateral => [1, 2]
  | .hexahedron => [1, 2, 4]
  | .prism => [1, 2, 3]
  | .pyramid => [1, 2, 4]
  | .dualPolygon _ => []

/-- `self.axes[k]`; the origin is vertex 0. -/
def axis (c : Cell) (v : ℕ → ℕ → K) (k : ℕ) : ℕ → K :=
  psub (v ((axisVertices c).getD k 0)) (v 0)

/-- `midpoint` (symfem/references.py:465-471). -/
def midpoint (c : Cell) (v : ℕ → ℕ → K) : ℕ → K := fun j =>
  (∑ i ∈ Finset.range c.nverts, v i j) / c.nverts

/-- `get_point` (symfem/references.py:370-384): `none` is the failed assertion. -/
def getPoint (c : Cell) (v : ℕ → ℕ → K) (cs : List K) : Option (ℕ → K) :=
  if cs.length = (axisVertices c).length then
    some fun j => cs.zipIdx.foldl (fun pt b => pt + axis c v b.2 j * b.1) (v 0 j)
  else none

end field

section real

/-- `_vnormalise` (symfem/references.py:156-180). -/
noncomputable def vnormalise (g : ℕ) (v : ℕ → ℝ) : ℕ → ℝ := fun j => v j / √(pdot g v v)

/-- `Reference.tangent` (symfem/references.py:502-512). -/
noncomputable def tangent (c : Cell) (g : ℕ) (v : ℕ → ℕ → ℝ) : Option (ℕ → ℝ) :=
  if c.tdim = 1 then
    let norm := √(∑ j ∈ Finset.range g, axis c v 0 j ^ 2)
    some (vnormalise g fun j => axis c v 0 j / norm)
  else none

/-- `Reference.normal` (symfem/references.py:514-528).  For a dual polygon in 3D the code would raise
`IndexError` as it has no axes. -/
noncomputable def normal (c : Cell) (g : ℕ) (v : ℕ → ℕ → ℝ) : Option (ℕ → ℝ) :=
  if c.tdim = 1 ∧ g = 2 then
    some (vnormalise 2 (coords [-(axis c v 0 1), axis c v 0 0]))
  else if c.tdim = 2 ∧ g = 3 ∧ (axisVertices c).length = 2 then
    some (vnormalise 3 (pcross (axis c v 0) (axis c v 1)))
  else none

/-- `Reference.jacobian` (symfem/references.py:473-492).  For two axes with two coordinates the cross
product is a scalar and `norm` is its absolute value. -/
noncomputable def jacobian (c : Cell) (g : ℕ) (v : ℕ → ℕ → ℝ) : Option ℝ :=
  if (axisVertices c).length = c.tdim then
    if c.tdim = 1 then some √(∑ j ∈ Finset.range g, axis c v 0 j ^ 2)
    else if c.tdim = 2 then
      if g = 2 then some |axis c v 0 0 * axis c v 1 1 - axis c v 0 1 * axis c v 1 0|
      else if g = 3 then
        let w := pcross (axis c v 0) (axis c v 1)
        some √(w 0 ^ 2 + w 1 ^ 2 + w 2 ^ 2)
      else none
    else if c.tdim = 3 then
      if g = 3 then some |pdot 3 (pcross (axis c v 0) (axis c v 1)) (axis c v 2)| else none
    else none
  else none

/-- `volume` of each cell (symfem/references.py:870-876, 1014-1020, 1193-1199, 1386-1392, 1601-1607,
1853-1859, 2074-2080, 2279-2285, 2419-2425). -/
noncomputable def volume (c : Cell) (g : ℕ) (v : ℕ → ℕ → ℝ) : Option ℝ :=
  match c with
  | .point => some 0
  | .interval | .quadrilateral | .hexahedron => jacobian c g v
  | .triangle | .prism => (jacobian c g v).map (1 / 2 * ·)
  | .tetrahedron => (jacobian c g v).map (1 / 6 * ·)
  | .pyramid => (jacobian c g v).map (1 / 3 * ·)
  | .dualPolygon _ => none

end real

section ordered
variable {K : Type} [Field K] [LinearOrder K]

/-- `self.vertices == self.reference_vertices`. -/
def isDefault (c : Cell) (g : ℕ) (v : ℕ → ℕ → K) : Bool :=
  decide (g = c.tdim) && (List.range c.nverts).all fun i =>
    (List.range g).all fun j => decide (v i j = refVertex c i j)

/-- `contains` (symfem/references.py:878-890, 1022-1034, 1201-1219, 1394-1412, 1609-1621, 1861-1873,
2082-2100, 2287-2305, 2359-2368).  `none` is an exception: `NotImplementedError`, or the inverse of a
singular matrix.  The point has `g` coordinates. -/
noncomputable def contains (c : Cell) (g : ℕ) (v : ℕ → ℕ → K) (p : ℕ → K) : Option Bool :=
  match c with
  | .point => some ((List.range g).all fun j => decide (p j = v 0 j))
  | .interval =>
    if isDefault c g v then some (decide (0 ≤ p 0) && decide (p 0 ≤ 1)) else none
  | .triangle =>
    if isDefault c g v then
      some (decide (0 ≤ p 0) && decide (0 ≤ p 1) && decide (p 0 + p 1 ≤ 1))
    else if g = 2 then
      let po := psub p (v 0)
      let a0 := axis c v 0
      let a1 := axis c v 1
      let det := a0 0 * a1 1 - a0 1 * a1 0
      let t0 := (a1 1 * po 0 - a1 0 * po 1) / det
      let t1 := (a0 0 * po 1 - a0 1 * po 0) / det
      some (decide (0 ≤ t0) && decide (0 ≤ t1) && decide (t0 + t1 ≤ 1))
    else none
  | .tetrahedron =>
    if isDefault c g v then
      some (decide (0 ≤ p 0) && decide (0 ≤ p 1) && decide (0 ≤ p 2)
        && decide (p 0 + p 1 + p 2 ≤ 1))
    else
      (solve3 3 (mat3 (axis c v 0) (axis c v 1) (axis c v 2)) (v 0)).map fun F =>
        let t0 := (F p).getD 0 0
        let t1 := (F p).getD 1 0
        let t2 := (F p).getD 2 0
        decide (0 ≤ t0) && decide (0 ≤ t1) && decide (0 ≥ t2) && decide (t0 + t1 + t2 ≤ 1)
  | .quadrilateral =>
    if isDefault c g v then
      some (decide (0 ≤ p 0) && decide (p 0 ≤ 1) && (decide (0 ≤ p 1) && decide (p 1 ≤ 1)))
    else none
  | .hexahedron =>
    if isDefault c g v then
      some (decide (0 ≤ p 0) && decide (p 0 ≤ 1) && (decide (0 ≤ p 1) && decide (p 1 ≤ 1))
        && (decide (0 ≤ p 2) && decide (p 2 ≤ 1)))
    else none
  | .prism =>
    if isDefault c g v then
      some (decide (p 0 ≥ 0) && decide (p 1 ≥ 0) && decide (p 2 ≥ 0) && decide (p 2 ≤ 1)
        && decide (p 0 + p 1 ≤ 1))
    else none
  | .pyramid =>
    if isDefault c g v then
      some (decide (p 0 ≥ 0) && decide (p 1 ≥ 0) && decide (p 2 ≥ 0) && decide (p 0 + p 2 ≤ 1)
        && decide (p 1 + p 2 ≤ 1))
    else none
  | .dualPolygon _ => none

/-- The generator `for i in range(n) for j in range(n - i)` of the triangle lattice. -/
def triIndices (n : ℕ) : List (ℕ × ℕ) :=
  (List.range n).flatMap fun i => (List.range (n - i)).map fun j => (i, j)

/-- `for i in range(m) for j in range(m)`. -/
def quadIndices (m : ℕ) : List (ℕ × ℕ) :=
  (List.range m).flatMap fun i => (List.range m).map fun j => (i, j)

/-- `for i in range(n) for j in range(n - i) for k in range(n - i - j)`. -/
def tetIndices (n : ℕ) : List (ℕ × ℕ × ℕ) :=
  (List.range n).flatMap fun i => (List.range (n - i)).flatMap fun j =>
    (List.range (n - i - j)).map fun k => (i, j, k)

/-- `for i in range(m) for j in range(m) for k in range(m)`. -/
def hexIndices (m : ℕ) : List (ℕ × ℕ × ℕ) :=
  (List.range m).flatMap fun i => (List.range m).flatMap fun j =>
    (List.range m).map fun k => (i, j, k)

/-- `for i in range(n + 1) for j in range(n + 1 - i) for k in range(n + 1)`. -/
def prismIndices (n : ℕ) : List (ℕ × ℕ × ℕ) :=
  (List.range (n + 1)).flatMap fun i => (List.range (n + 1 - i)).flatMap fun j =>
    (List.range (n + 1)).map fun k => (i, j, k)

/-- `sympy.Rational(2 * i + 1, 2 * (n + 1))`. -/
def half (n i : ℕ) : K := (2 * i + 1) / (2 * (n + 1))

/-- `make_lattice` (symfem/references.py:796-805, 925-939, 1068-1084, 1278-1295, 1455-1471, 1730-1749,
1955-1974, 2168-2177).  `none` is an exception.  `g` is the number of coordinates. -/
def lattice (c : Cell) (g : ℕ) (v : ℕ → ℕ → K) (n : ℕ) : Option (List (ℕ → K)) :=
  match c with
  | .interval => some ((List.range n).map fun i : ℕ => fun j =>
      v 0 j + (v 1 j - v 0 j) * half n i)
  | .triangle => some ((triIndices n).map fun q => fun j =>
      v 0 j + ((2 * (q.1 : K) + 1) * axis c v 0 j + (2 * (q.2 : K) + 1) * axis c v 1 j) / 2
        / ((n : K) + 1))
  | .tetrahedron => some ((tetIndices n).map fun q => fun j =>
      v 0 j + ((2 * (q.1 : K) + 1) * axis c v 0 j + (2 * (q.2.1 : K) + 1) * axis c v 1 j
        + (2 * (q.2.2 : K) + 1) * axis c v 2 j) / 2 / ((n : K) + 1))
  | .quadrilateral => some ((quadIndices (n + 1)).map fun q => fun j =>
      v 0 j + ((2 * (q.1 : K) + 1) * axis c v 0 j + (2 * (q.2 : K) + 1) * axis c v 1 j) / 2
        / ((n : K) + 1))
  | .hexahedron =>
    if isDefault c g v then
      some ((hexIndices (n + 1)).map fun q => coords [half n q.1, half n q.2.1, half n q.2.2])
    else none
  | .prism =>
    if isDefault c g v then
      some ((prismIndices n).map fun q => coords [half n q.1, half n q.2.1, half n q.2.2])
    else none
  | .point | .pyramid | .dualPolygon _ => none

/-- `DualPolygon.make_lattice` (symfem/references.py:2435-2451) on the vertices `v` of a dual polygon
with `m` triangles: the triangle lattice on each triangle `(origin, v1, v2)` of consecutive vertices.
The asserted default vertices are those of `dualVertex` below. -/
def dualLattice (m : ℕ) (origin : ℕ → K) (v : ℕ → ℕ → K) (n : ℕ) : List (ℕ → K) :=
  (List.range (2 * m)).flatMap fun i =>
    (lattice .triangle 2
      (fun k => if k = 0 then origin else if k = 1 then v i else v ((i + 1) % (2 * m)))
      (n / 2)).getD []

/-- `make_lattice_with_lines` (symfem/references.py:941-956, 1086-1114, 1473-1498), points. -/
def latticeLines (c : Cell) (v : ℕ → ℕ → K) (n : ℕ) : Option (List (ℕ → K)) :=
  match c with
  | .interval => some ((List.range n).map fun i : ℕ => fun j =>
      v 0 j + (v 1 j - v 0 j) * (i / ((n : K) - 1)))
  | .triangle => some ((triIndices n).map fun q => fun j =>
      v 0 j + (q.1 * axis c v 0 j + q.2 * axis c v 1 j) / ((n : K) - 1))
  | .quadrilateral => some ((quadIndices n).map fun q => fun j =>
      v 0 j + (q.1 * axis c v 0 j + q.2 * axis c v 1 j) / ((n : K) - 1))
  | _ => none

end ordered

/-- The first loop of the triangle pairs (symfem/references.py:1100-1104), with `m` standing for the
loop values `m, m - 1, ..., 1` still to come and `s` for the running offset. -/
def triRows : ℕ → ℕ → List (ℕ × ℕ)
  | 0, _ => []
  | m + 1, s => ((List.range (m + 1)).map fun t => (s + t, s + t + 1)) ++ triRows m (s + m + 2)

/-- The inner loop `for i in range(n, k, -1)` of the second part (symfem/references.py:1107-1112);
`d` is `i - k`. -/
def triCols (k : ℕ) : ℕ → ℕ → List (ℕ × ℕ)
  | 0, _ => []
  | d + 1, s =>
    let i := k + (d + 1)
    (if i ≠ k + 1 then [(s, s + i)] else []) ++ (if k ≠ 0 then [(s, s + i - 1)] else [])
      ++ triCols k d (s + i)

/-- `make_lattice_with_lines`, pairs. -/
def linePairs (c : Cell) (n : ℕ) : Option (List (ℕ × ℕ)) :=
  match c with
  | .interval => some ((List.range (n - 1)).map fun i => (i, i + 1))
  | .triangle => some (triRows (n - 1) 0 ++
      (List.range (n + 1)).flatMap fun k => triCols k (n - k) k)
  | .quadrilateral => some ((quadIndices n).flatMap fun q =>
      let node := q.1 * n + q.2
      (if q.2 ≠ n - 1 then [(node, node + 1)] else []) ++
      (if q.1 ≠ n - 1 then [(node, node + n)] ++
        (if q.2 ≠ 0 then [(node, node + n - 1)] else []) else []))
  | _ => none

/-- An affine expression in the integration variables: constant, then coefficients. -/
structure Affine where
  const : ℤ
  coeff : List ℤ

/-- Its value. -/
def Affine.eval {K : Type} [Field K] (e : Affine) (x : ℕ → K) : K :=
  e.const + ∑ i ∈ Finset.range e.coeff.length, (e.coeff.getD i 0 : K) * x i

/-- `integration_limits` (symfem/references.py:958-967, 1124-1136, 1309-1322, 1508-1520, 1763-1776,
1988-2001, 2191-2204): variable, lower and upper limit, in the order in which `sympy.integrate` uses
them. -/
def integrationLimits : Cell → Option (List (ℕ × Affine × Affine))
  | .point => some []
  | .interval => some [(0, ⟨0, []⟩, ⟨1, []⟩)]
  | .triangle => some [(1, ⟨0, []⟩, ⟨1, [-1]⟩), (0, ⟨0, []⟩, ⟨1, []⟩)]
  | .tetrahedron => some [(0, ⟨0, []⟩, ⟨1, [0, -1, -1]⟩), (1, ⟨0, []⟩, ⟨1, [0, 0, -1]⟩),
      (2, ⟨0, []⟩, ⟨1, []⟩)]
  | .quadrilateral => some [(1, ⟨0, []⟩, ⟨1, []⟩), (0, ⟨0, []⟩, ⟨1, []⟩)]
  | .hexahedron => some [(2, ⟨0, []⟩, ⟨1, []⟩), (1, ⟨0, []⟩, ⟨1, []⟩), (0, ⟨0, []⟩, ⟨1, []⟩)]
  | .prism => some [(2, ⟨0, []⟩, ⟨1, []⟩), (1, ⟨0, []⟩, ⟨1, [-1]⟩), (0, ⟨0, []⟩, ⟨1, []⟩)]
  | .pyramid => some [(0, ⟨0, []⟩, ⟨1, [0, 0, -1]⟩), (1, ⟨0, []⟩, ⟨1, [0, 0, -1]⟩),
      (2, ⟨0, []⟩, ⟨1, []⟩)]
  | .dualPolygon _ => none

end Verif.References
