import Verif.References.Shape
/-!
# Model of `Reference.intersection`
-/

namespace Verif.References

/-- `_which_side` (symfem/references.py:55-95).  `q` has `g` coordinates; in 2D the line goes through
`p` and `q`, in 3D the plane contains `p` and has normal `q`. -/
noncomputable def whichSide (g n : ℕ) (vs : ℕ → ℕ → ℝ) (p q : ℕ → ℝ) : Option ℤ :=
  if g = 2 ∨ g = 3 then
    let cross := fun i =>
      if g = 2 then (vs i 0 - p 0) * (q 1 - p 1) - (vs i 1 - p 1) * (q 0 - p 0)
      else (vs i 0 - p 0) * q 0 + (vs i 1 - p 1) * q 1 + (vs i 2 - p 2) * q 2
    let sides : List ℤ := (List.range n).map fun i =>
      if cross i = 0 then 0 else if cross i > 0 then 1 else -1
    if -1 ∈ sides ∧ 1 ∈ sides then none
    else if 1 ∈ sides then (if 0 ∈ sides then some 1 else some 2)
    else if -1 ∈ sides then (if 0 ∈ sides then some (-1) else some (-2))
    else some 0
  else if n = 0 then some 0 else none

/-- The result of `intersection`: one of the two cells, `None`, or `NotImplementedError`. -/
inductive Meet
  | first | second | nothing | unsupported
  deriving DecidableEq

/-- A cell with its vertices. -/
structure Placed where
  cell : Cell
  v : ℕ → ℕ → ℝ

/-- All vertices of `a` are contained in `b`: the first loop (symfem/references.py:272-280); a
`NotImplementedError` has the same effect as a vertex outside. -/
noncomputable def allContained (g : ℕ) (a b : Placed) : Bool :=
  (List.range a.cell.nverts).all fun i => contains b.cell g b.v (a.v i) == some true

/-- `dir1 is not None and dir2 is not None and dir1 * dir2 < 0`. -/
def opposite : Option ℤ → Option ℤ → Bool
  | some x, some y => decide (x * y < 0)
  | _, _ => false

/-- The vertices of face `f`. -/
def faceVerts (v : ℕ → ℕ → ℝ) (f : List ℕ) : ℕ → ℕ → ℝ := fun i => v (f.getD i 0)

/-- The type of face `f`. -/
def faceCell (f : List ℕ) : Cell := if f.length = 3 then .triangle else .quadrilateral

/-- An edge (2D) or face (3D) of `a` separates `a` and `b` (symfem/references.py:282-299). -/
noncomputable def separated (g : ℕ) (a b : Placed) : Bool :=
  if g = 2 then a.cell.edges.any fun e =>
    let p := a.v (e.getD 0 0)
    let q := a.v (e.getD 1 0)
    opposite (whichSide g a.cell.nverts a.v p q) (whichSide g b.cell.nverts b.v p q)
  else if g = 3 then a.cell.faces.any fun f =>
    let p := midpoint (faceCell f) (faceVerts a.v f)
    match normal (faceCell f) 3 (faceVerts a.v f) with
    | some n => opposite (whichSide g a.cell.nverts a.v p n) (whichSide g b.cell.nverts b.v p n)
    | none => false
  else false

/-- `Reference.intersection` (symfem/references.py:260-299) for cells with the same number `g` of
coordinates. Dual polygons in 3D (whose faces have no normal) are not modelled. -/
noncomputable def intersection (g : ℕ) (a b : Placed) : Meet :=
  if allContained g a b then .first
  else if allContained g b a then .second
  else if separated g a b || separated g b a then .nothing
  else .unsupported

end Verif.References
