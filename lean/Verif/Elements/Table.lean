import Verif.Elements.Points
import Mathlib.Data.List.GetD
/-!
# Faces of the tensor-product cells

The table relating the entities of intervals, quadrilaterals and hexahedra to coordinates.
-/

namespace Verif.Elements
open Verif.References

/-- The tensor-product cells. -/
def Tensor (c : Cell) : Prop := c = .interval ∨ c = .quadrilateral ∨ c = .hexahedron

theorem Tensor.fixed {c : Cell} (h : Tensor c) : Fixed c := by
  rcases h with rfl | rfl | rfl <;> intro n h <;> cases h

/-- Which coordinates of a face are 0, which are 1, and which are free (2). -/
def patterns : ℕ → List (List ℕ)
  | 0 => [[0, 0, 0]]
  | 1 => (List.range 3).map fun a => [a, 0, 0]
  | 2 => (List.range 3).flatMap fun a => (List.range 3).map fun b => [a, b, 0]
  | _ => (List.range 3).flatMap fun a => (List.range 3).flatMap fun b => (List.range 3).map fun d => [a, b, d]

/-- The free coordinates. -/
def free (pat : List ℕ) : List ℕ := (List.range 3).filter fun j => decide (pat.getD j 0 = 2)

/-- The table, for one cell and one pattern: the entity with these fixed coordinates. -/
def TableRow (c : Cell) (pat : List ℕ) (n : ℕ) : Prop :=
  let e := entVerts c (free pat).length n
  let t := entType c (free pat).length n
  n < count c (free pat).length ∧
  (∀ j < 3, (refVertex c (e.getD 0 0) j : ℚ) = if pat.getD j 0 = 1 then 1 else 0) ∧
  (∀ m < (free pat).length, ∀ j < 3,
    (refVertex c (e.getD ((axisVertices t).getD m 0) 0) j : ℚ) - refVertex c (e.getD 0 0) j =
      if j = (free pat).getD m 0 then 1 else 0) ∧
  (∀ i ∈ e, i < c.nverts) ∧
  (∀ i < c.nverts, i ∈ e ↔ ∀ j < 3, pat.getD j 0 ≠ 2 → (refVertex c i j : ℚ) = pat.getD j 0)

instance (c : Cell) (pat : List ℕ) (n : ℕ) : Decidable (TableRow c pat n) := by
  unfold TableRow
  infer_instance

/-- Every face has a number. -/
theorem table (c : Cell) (hc : Tensor c) (pat : List ℕ) (hp : pat ∈ patterns c.tdim) :
    (free pat).length ≤ 3 ∧ ∃ n < count c (free pat).length, TableRow c pat n := by
  have key : ∀ c ∈ [Cell.interval, .quadrilateral, .hexahedron], ∀ pat ∈ patterns c.tdim,
      (free pat).length ≤ 3 ∧ ∃ n < count c (free pat).length, TableRow c pat n := by decide +kernel
  exact key c (by rcases hc with rfl | rfl | rfl <;> simp) pat hp

/-- Every entity is a face. -/
theorem table_surj (c : Cell) (hc : Tensor c) (dim n : ℕ) (hd : dim ≤ 3) (hn : n < count c dim) :
    ∃ pat ∈ patterns c.tdim, (free pat).length = dim ∧ TableRow c pat n := by
  have key : ∀ c ∈ [Cell.interval, .quadrilateral, .hexahedron], ∀ dim < 4, ∀ n < count c dim,
      ∃ pat ∈ patterns c.tdim, (free pat).length = dim ∧ TableRow c pat n := by decide +kernel
  exact key c (by rcases hc with rfl | rfl | rfl <;> simp) dim (by omega) n hn

theorem refVertex_cast (c : Cell) (i j : ℕ) : (refVertex c i j : ℝ) = ((refVertex c i j : ℚ) : ℝ) := by
  have key : ∀ (l : List (List ℚ)) (l' : List (List ℝ)), l' = l.map (·.map fun q : ℚ => (q : ℝ)) →
      coords (l'.getD i []) j = ((coords (l.getD i []) j : ℚ) : ℝ) := by
    rintro l l' rfl
    simp only [coords, List.getD_eq_getElem?_getD, List.getElem?_map]
    cases l[i]? with
    | none => simp
    | some r =>
      simp only [Option.map_some, Option.getD_some, List.getElem?_map]
      cases r[j]? with
      | none => simp
      | some q => simp
  refine key _ _ ?_
  cases c <;> simp [refVerts]

theorem refVertex_ge (c : Cell) (i j : ℕ) (hj : 3 ≤ j) : (refVertex c i j : ℝ) = 0 := by
  have key : ∀ l ∈ (refVerts c : List (List ℝ)), l.length ≤ 3 := by
    intro l hl
    cases c <;> simp [refVerts] at hl <;> first | (subst hl; simp) | (rcases hl with h | h | h | h | h | h | h | h <;> simp [h]) | (rcases hl with h | h | h | h | h | h <;> simp [h]) | (rcases hl with h | h | h | h | h <;> simp [h]) | (rcases hl with h | h | h | h <;> simp [h]) | (rcases hl with h | h | h <;> simp [h]) | (rcases hl with h | h <;> simp [h])
  unfold refVertex coords
  by_cases hi : i < (refVerts c : List (List ℝ)).length
  · rw [List.getD_eq_default]
    rw [List.getD_eq_getElem?_getD, List.getElem?_eq_getElem hi]
    exact (key _ (List.getElem_mem hi)).trans hj
  · rw [List.getD_eq_default (l := refVerts c) (hn := by omega)]
    simp

end Verif.Elements
