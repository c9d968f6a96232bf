import Verif.Plotting.Model
import Verif.References.Maps
import Mathlib.Tactic.FinCases
import Mathlib.Tactic.NormNum
/-!
# The order of drawing (C103)
-/

namespace Verif.Plotting
open Verif.References

/-- All sub-entities of a cell. -/
def allEntities (c : Cell) : List (ℕ × ℕ) :=
  (List.range (c.tdim + 1)).flatMap fun d => (List.range ((c.subEntityCount d).getD 0)).map fun n => (d, n)

theorem reverse_flatMap_perm {α β : Type} (l : List α) (f : α → List β) : (l.reverse.flatMap f).Perm (l.flatMap f) :=
  (List.reverse_perm l).flatMap_right f

/-- **C103.** The drawing order contains every sub-entity of the cell once. -/
theorem zOrdered_perm (c : Cell) : (zOrdered c).flatten.Perm (allEntities c) := by
  cases c
  case tetrahedron => decide
  case hexahedron => decide
  case prism => decide
  case pyramid => decide
  all_goals
    rw [zOrdered, List.flatten_singleton]
    · exact reverse_flatMap_perm _ _
    all_goals rintro ⟨⟩

theorem range_split {n N : ℕ} (h : n ≤ N) : List.range n ++ List.range' n (N - n) = List.range N := by
  have := List.range'_append_1 (s := 0) (m := n) (n := N - n)
  rw [List.range_eq_range', List.range_eq_range']
  rw [Nat.zero_add] at this
  rw [this]
  congr 1
  omega

/-- **C103.** The same for the drawing order used for functions with scalar values. -/
theorem zOrderedExtra_perm (c : Cell) (hc : c ≠ .dualPolygon 0) : (zOrderedExtra c).flatten.Perm (allEntities c) := by
  cases c
  case triangle => decide
  case quadrilateral => decide
  case dualPolygon t =>
    have ht : 0 < t := by
      rcases Nat.eq_zero_or_pos t with rfl | h
      · exact absurd rfl hc
      · exact h
    have hn : (t + 1) / 2 * 2 ≤ 2 * t := by omega
    have hn1 : 1 ≤ (t + 1) / 2 * 2 := by omega
    have e : allEntities (.dualPolygon t) = ((List.range (2 * t)).map fun i => (0, i)) ++
        ((List.range (2 * t)).map fun i => (1, i)) ++ [(2, 0)] := by
      simp [allEntities, Cell.tdim, Cell.subEntityCount, Cell.subEntities, Cell.nverts, Cell.edges, Cell.faces, List.range_succ]
    rw [e, zOrderedExtra]
    generalize hN : (t + 1) / 2 * 2 = n at hn hn1
    rw [← range_split hn]
    have e0 : List.range n = 0 :: List.range' 1 (n - 1) := by
      rw [List.range_eq_range']
      obtain ⟨m, rfl⟩ : ∃ m, n = m + 1 := ⟨n - 1, by omega⟩
      rw [List.range'_succ]
      rfl
    have e1 : ((List.range n ++ List.range' n (2 * t - n)).map fun i => ((0 : ℕ), i)) =
        (0, 0) :: (((List.range' 1 (n - 1)).map fun i => (0, i)) ++ (List.range' n (2 * t - n)).map fun i => (0, i)) := by
      rw [List.map_append, e0]
      simp
    rw [e1, List.map_append]
    rw [List.perm_iff_count]
    intro a
    simp [List.count_append, List.count_cons]
    omega
  case point => exact zOrdered_perm .point
  case interval => exact zOrdered_perm .interval
  case tetrahedron => exact zOrdered_perm .tetrahedron
  case hexahedron => exact zOrdered_perm .hexahedron
  case prism => exact zOrdered_perm .prism
  case pyramid => exact zOrdered_perm .pyramid

/-! ### Visible entities -/

/-- The point of the cell, with integer coordinates. -/
def intVertex (c : Cell) (i : ℕ) : List ℤ := (((refVerts c : List (List ℚ))).getD i []).map Rat.num

/-- A vector pointing to the viewer, times 25. -/
def toViewer : List ℤ := [25, -50, 12]

/-- The default axes map the vector to zero, and the depth used in `z` grows along it. -/
theorem toViewer_spec (pic : Picture) (h : pic.axes = defaultAxes) :
    pic.toTwoD (toViewer.map fun a : ℤ => (a : ℝ)) = some [0, 0] ∧ (0 : ℤ) < toViewer.getD 0 0 - 2 * toViewer.getD 1 0 := by
  constructor
  · simp [Picture.toTwoD, toViewer, h, defaultAxes]
    norm_num
  · decide

/-- The determinant of three vectors. -/
def det3 (a b c : List ℤ) : ℤ :=
  let f (l : List ℤ) (i : ℕ) := l.getD i 0
  f a 0 * (f b 1 * f c 2 - f b 2 * f c 1) - f a 1 * (f b 0 * f c 2 - f b 2 * f c 0) + f a 2 * (f b 0 * f c 1 - f b 1 * f c 0)

/-- A difference. -/
def subL (a b : List ℤ) : List ℤ := List.zipWith (· - ·) a b

/-- The facet with these vertices can be seen: the viewer and the vertices that are not on the facet are on different sides of
its plane. -/
def FacesViewer (c : Cell) (f : List ℕ) : Prop :=
  let p (i : ℕ) := intVertex c (f.getD i 0)
  ∀ v < c.nverts, v ∉ f →
    det3 (subL (p 1) (p 0)) (subL (p 2) (p 0)) (subL (intVertex c v) (p 0)) *
      det3 (subL (p 1) (p 0)) (subL (p 2) (p 0)) toViewer < 0

instance (c : Cell) (f : List ℕ) : Decidable (FacesViewer c f) := by unfold FacesViewer; infer_instance

/-- The sub-entity is on a facet that can be seen. -/
def Visible (c : Cell) (de : ℕ × ℕ) : Prop :=
  ∃ ent ∈ ((c.subEntities de.1).bind (·[de.2]?)), ∃ f ∈ c.faces, ent ⊆ f ∧ FacesViewer c f

instance (c : Cell) (de : ℕ × ℕ) : Decidable (Visible c de) := by
  unfold Visible
  cases h : (c.subEntities de.1).bind (·[de.2]?) with
  | none => exact isFalse (by rintro ⟨ent, h, -⟩; cases h)
  | some ent =>
    exact decidable_of_iff (∃ f ∈ c.faces, ent ⊆ f ∧ FacesViewer c f) ⟨fun h => ⟨ent, rfl, h⟩, fun ⟨e, he, h⟩ => by
      obtain rfl := Option.some.inj he; exact h⟩

/-- **C103.** For three dimensional cells: the sub-entities that are drawn before the interior are those that cannot be seen,
and those drawn after it are those that can be seen. -/
theorem zOrdered_visible {c : Cell} (hc : c.tdim = 3) : ∃ back front, (zOrdered c).flatten = back ++ (3, 0) :: front ∧
    (∀ de ∈ back, ¬ Visible c de) ∧ ∀ de ∈ front, Visible c de := by
  cases c
  case tetrahedron =>
    exact ⟨(zOrdered .tetrahedron).flatten.takeWhile (· ≠ (3, 0)), ((zOrdered .tetrahedron).flatten.dropWhile (· ≠ (3, 0))).tail,
      by decide +kernel, by decide +kernel, by decide +kernel⟩
  case hexahedron =>
    exact ⟨(zOrdered .hexahedron).flatten.takeWhile (· ≠ (3, 0)), ((zOrdered .hexahedron).flatten.dropWhile (· ≠ (3, 0))).tail,
      by decide +kernel, by decide +kernel, by decide +kernel⟩
  case prism =>
    exact ⟨(zOrdered .prism).flatten.takeWhile (· ≠ (3, 0)), ((zOrdered .prism).flatten.dropWhile (· ≠ (3, 0))).tail,
      by decide +kernel, by decide +kernel, by decide +kernel⟩
  case pyramid =>
    exact ⟨(zOrdered .pyramid).flatten.takeWhile (· ≠ (3, 0)), ((zOrdered .pyramid).flatten.dropWhile (· ≠ (3, 0))).tail,
      by decide +kernel, by decide +kernel, by decide +kernel⟩
  all_goals cases hc

/-! ### Outlines -/

/-- The default axes times 50. -/
def project (p : List ℤ) : ℤ × ℤ :=
  match p with
  | [a, b] => (50 * a, 50 * b)
  | [a, b, c] => (50 * a + 25 * b, -4 * a + 10 * b + 50 * c)
  | _ => (0, 0)

/-- The projection is the one of pictures. -/
theorem project_spec (pic : Picture) (h : pic.axes = defaultAxes) (p : List ℤ) (hp : p.length = 2 ∨ p.length = 3) :
    pic.parsePoint (p.map fun a : ℤ => (a : ℝ)) = some (((project p).1 : ℝ) / 50, ((project p).2 : ℝ) / 50) := by
  match p, hp with
  | [a, b], _ => simp [Picture.parsePoint, Picture.toTwoD, project]
  | [a, b, c], _ =>
    simp [Picture.parsePoint, Picture.toTwoD, project, h, defaultAxes]
    constructor <;> ring

/-- Twice the area of a triangle, positive if it is anticlockwise. -/
def turn (a b c : ℤ × ℤ) : ℤ := (b.1 - a.1) * (c.2 - a.2) - (b.2 - a.2) * (c.1 - a.1)

/-- **C103.** The vertices listed by `clockwise_vertices` are the corners of the convex hull of the drawn cell, in order: every
side of the polygon has all other vertices of the cell on one side. -/
theorem clockwise_hull {c : Cell} (hc : c ∈ [Cell.triangle, .quadrilateral, .tetrahedron, .hexahedron, .prism, .pyramid]) :
    ∀ i < (clockwise c).length, ∀ v < c.nverts,
      let a := (clockwise c).getD i 0
      let b := (clockwise c).getD ((i + 1) % (clockwise c).length) 0
      v = a ∨ v = b ∨ 0 < turn (project (intVertex c a)) (project (intVertex c b)) (project (intVertex c v)) := by
  fin_cases hc <;> decide +kernel

end Verif.Plotting
