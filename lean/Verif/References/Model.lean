/-!
# Model of the cell tables of `symfem/references.py`

The connectivity tables, the sub-entity types and the sub-entity functions.  A cell type is a value
of `Cell`; vertices are elements of any type `P` of points.
-/

namespace Verif.References

/-- The concrete subclasses of `Reference`. -/
inductive Cell
  | point | interval | triangle | tetrahedron | quadrilateral | hexahedron | prism | pyramid
  | dualPolygon (numberOfTriangles : Nat)
  deriving DecidableEq, Repr

namespace Cell

/-- The topological dimension passed to `__build__`
(symfem/references.py:775, 902, 1046, 1233, 1425, 1650, 1899, 2124, 2346). -/
def tdim : Cell → Nat
  | point => 0
  | interval => 1
  | triangle | quadrilateral | dualPolygon _ => 2
  | tetrahedron | hexahedron | prism | pyramid => 3

/-- The number of vertices: the `assert len(vertices) == ...` of each constructor
(symfem/references.py:772, 900, 1044, 1229, 1422, 1645, 1894, 2119); for the dual polygon the loop at
2325-2335 adds two vertices per triangle. -/
def nverts : Cell → Nat
  | point => 1
  | interval => 2
  | triangle => 3
  | tetrahedron | quadrilateral => 4
  | hexahedron => 8
  | prism => 6
  | pyramid => 5
  | dualPolygon n => 2 * n

/-- `edges` (symfem/references.py:780, 907, 1051, 1241, 1430, 1679-1692, 1917-1927, 2136-2145,
2352-2355). -/
def edges : Cell → List (List Nat)
  | point => []
  | interval => [[0, 1]]
  | triangle => [[1, 2], [0, 2], [0, 1]]
  | tetrahedron => [[2, 3], [1, 3], [1, 2], [0, 3], [0, 2], [0, 1]]
  | quadrilateral => [[0, 1], [0, 2], [1, 3], [2, 3]]
  | hexahedron => [[0, 1], [0, 2], [0, 4], [1, 3], [1, 5], [2, 3], [2, 6], [3, 7], [4, 5], [4, 6],
      [5, 7], [6, 7]]
  | prism => [[0, 1], [0, 2], [0, 3], [1, 2], [1, 4], [2, 5], [3, 4], [3, 5], [4, 5]]
  | pyramid => [[0, 1], [0, 2], [0, 4], [1, 3], [1, 4], [2, 3], [2, 4], [3, 4]]
  | dualPolygon n => (List.range (2 * n)).map fun i => [i, (i + 1) % (2 * n)]

/-- `faces` (same places as `edges`). -/
def faces : Cell → List (List Nat)
  | point | interval => []
  | triangle => [[0, 1, 2]]
  | tetrahedron => [[1, 2, 3], [0, 2, 3], [0, 1, 3], [0, 1, 2]]
  | quadrilateral => [[0, 1, 2, 3]]
  | hexahedron => [[0, 1, 2, 3], [0, 1, 4, 5], [0, 2, 4, 6], [1, 3, 5, 7], [2, 3, 6, 7],
      [4, 5, 6, 7]]
  | prism => [[0, 1, 2], [0, 1, 3, 4], [0, 2, 3, 5], [1, 2, 4, 5], [3, 4, 5]]
  | pyramid => [[0, 1, 2, 3], [0, 1, 4], [0, 2, 4], [1, 3, 4], [2, 3, 4]]
  | dualPolygon n => [List.range (2 * n)]

/-- `volumes` (same places as `edges`). -/
def volumes : Cell → List (List Nat)
  | tetrahedron => [[0, 1, 2, 3]]
  | hexahedron => [[0, 1, 2, 3, 4, 5, 6, 7]]
  | prism => [[0, 1, 2, 3, 4, 5]]
  | pyramid => [[0, 1, 2, 3, 4]]
  | _ => []

/-- `Reference.sub_entities(dim)` (symfem/references.py:530-560); `none` is `ValueError`. -/
def subEntities (c : Cell) (dim : Nat) : Option (List (List Nat)) :=
  if dim = 0 then some ((List.range c.nverts).map fun i => [i])
  else if dim = 1 then some c.edges
  else if dim = 2 then some c.faces
  else if dim = 3 then some c.volumes
  else none

/-- `Reference.sub_entity_count(dim)` (symfem/references.py:562-573). -/
def subEntityCount (c : Cell) (dim : Nat) : Option Nat := (c.subEntities dim).map List.length

/-- An entry of `sub_entity_types`: one type for all entities of a dimension, a list of types, or
`None`. -/
inductive SubType
  | all (c : Cell)
  | each (l : List Cell)
  | none

/-- `sub_entity_types` (symfem/references.py:783, 910, 1054, 1244, 1433, 1702, 1936-1941, 2154-2159,
2358). -/
def subEntityTypes : Cell → List SubType
  | point => [.all point, .none, .none, .none]
  | interval => [.all point, .all interval, .none, .none]
  | triangle => [.all point, .all interval, .all triangle, .none]
  | tetrahedron => [.all point, .all interval, .all triangle, .all tetrahedron]
  | quadrilateral => [.all point, .all interval, .all quadrilateral, .none]
  | hexahedron => [.all point, .all interval, .all quadrilateral, .all hexahedron]
  | prism => [.all point, .all interval,
      .each [triangle, quadrilateral, quadrilateral, quadrilateral, triangle], .all prism]
  | pyramid => [.all point, .all interval,
      .each [quadrilateral, triangle, triangle, triangle, triangle], .all pyramid]
  | dualPolygon n => [.all point, .all interval, .all (dualPolygon n), .none]

/-- The type of sub-entity `n` of dimension `dim` (symfem/references.py:589-592). -/
def subEntityType (c : Cell) (dim n : Nat) : Option Cell :=
  match c.subEntityTypes[dim]? with
  | some (.all t) => some t
  | some (.each l) => l[n]?
  | _ => Option.none

end Cell

/-- A reference cell: its class, its vertices and its origin (`Reference.__build__`,
symfem/references.py:190-244).  The origin is the first vertex except for dual polygons. -/
structure Ref (P : Type) where
  cell : Cell
  vertices : List P
  origin : P

variable {P : Type}

/-- `Reference.__eq__` (symfem/references.py:248-252).  `type(self) is type(other)` compares the
classes: all dual polygons have the same class. -/
def Ref.eq [DecidableEq P] (a b : Ref P) : Bool :=
  (match a.cell, b.cell with
    | .dualPolygon _, .dualPolygon _ => true
    | c, d => decide (c = d)) && decide (a.vertices = b.vertices)

/-- `Reference.__hash__` (symfem/references.py:254-256): the hash of the pair of the vertices of the
default cell and the vertices. -/
def Ref.hash (refVerts : Cell → List P) (h : List P × List P → Nat) (a : Ref P) : Nat :=
  h (refVerts a.cell, a.vertices)

/-- `Reference.sub_entity(dim, n)` with `reference_vertices = False` (symfem/references.py:575-607).
`none` is an error (no such entity).  `create_reference` of a point, interval, ... from a vertex
tuple takes the first vertex as the origin. -/
def Ref.subEntity (a : Ref P) (dim n : Nat) : Option (Ref P) :=
  if a.cell.tdim = dim then some a
  else
    match a.cell.subEntityType dim n, a.cell.subEntities dim with
    | some t, some ents =>
      match ents[n]? with
      | some e =>
        match e.mapM (fun i => a.vertices[i]?) with
        | some (v :: vs) => some ⟨t, v :: vs, v⟩
        | _ => none
      | none => none
    | _, _ => none

end Verif.References
