import Verif.Elements.PropsDpc
/-!
# The points of Lagrange elements on prisms and pyramids

C83.  The points of the element are a lattice: on the prism the points with indices `a + b ≤ k`, `c ≤ k`, on the
pyramid those with `max(a, b) + c ≤ k`.  The nodes must be symmetric, since the edges opposite to the origin are
not parallel to the axes.
-/

namespace Verif.Elements
open Verif.References Verif.Quadrature Verif.Polysets Verif.FiniteElement
open MvPolynomial

/-- The evaluations of the interior, in closed form. -/
noncomputable def interiorList (c : Cell) (v : ℕ → ℕ → ℝ) (points : List ℝ) (k : ℕ) (keep : List ℕ → Bool) :
    List PointDof :=
  ((product (innerRange k) 3).filter keep).map fun i =>
    ⟨entityPoint c v (i.map fun j => points.getD j 0), (3, 0)⟩

/-- All evaluations, in closed form. -/
noncomputable def solidPoints (c : Cell) (points : List ℝ) (k : ℕ) (keep : List ℕ → Bool) : List PointDof :=
  onVertices c (refVertex c) ++
    ((List.range (count c 1)).flatMap (entityList c (refVertex c) points k (fun _ _ => true) 1) ++
    ((List.range (count c 2)).flatMap (entityList c (refVertex c) points k (keepFace k) 2) ++
    interiorList c (refVertex c) points k keep))

theorem solid_joined {c : Cell} (hc : Fixed c) (h3 : (axisVertices c).length = 3) (points : List ℝ) (k : ℕ)
    (keep : List ℕ → Bool) :
    joined [some (onVertices c (refVertex c)), onEntities c (refVertex c) points k (fun _ _ => true) 1,
      onEntities c (refVertex c) points k (keepFace k) 2, onInterior c (refVertex c) points k keep] =
      some (solidPoints c points k keep) := by
  have hi : onInterior c (refVertex c) points k keep = some (interiorList c (refVertex c) points k keep) := by
    refine mapM_some_of _ _ _ fun i hi => ?_
    rw [getPoint_eq]
    · rfl
    · rw [List.length_map, length_of_mem_product (List.mem_of_mem_filter hi), h3]
  rw [hi, onEntities_eq hc _ _ _ _ (by omega) (by omega), onEntities_eq hc _ _ _ _ (by omega) (by omega)]
  simp [joined, solidPoints, List.mapM_cons]

theorem solid_vertex {c : Cell} {points : List ℝ} {k : ℕ} {keep : List ℕ → Bool} (n : ℕ) (hn : n < c.nverts) :
    (⟨refVertex c n, (0, n)⟩ : PointDof) ∈ solidPoints c points k keep :=
  List.mem_append_left _ (List.mem_map.2 ⟨n, List.mem_range.2 hn, rfl⟩)

theorem solid_edge {c : Cell} {points : List ℝ} {k : ℕ} {keep : List ℕ → Bool} (n : ℕ) (hn : n < count c 1) (a : ℕ)
    (ha : 1 ≤ a) (hk : a < k) :
    (⟨entityPoint (entType c 1 n) (entityVerts (refVertex c) (entVerts c 1 n)) [points.getD a 0], (1, n)⟩ : PointDof) ∈
      solidPoints c points k keep := by
  refine List.mem_append_right _ (List.mem_append_left _ (List.mem_flatMap.2 ⟨n, List.mem_range.2 hn, ?_⟩))
  exact List.mem_map.2 ⟨[a], List.mem_filter.2 ⟨mem_product.2 ⟨rfl, by simp [mem_innerRange, ha, hk]⟩, rfl⟩, rfl⟩

theorem solid_face {c : Cell} {points : List ℝ} {k : ℕ} {keep : List ℕ → Bool} (n : ℕ) (hn : n < count c 2) (a b : ℕ)
    (ha : 1 ≤ a) (hak : a < k) (hb : 1 ≤ b) (hbk : b < k) (h : (entType c 2 n).nverts = 4 ∨ a + b < k) :
    (⟨entityPoint (entType c 2 n) (entityVerts (refVertex c) (entVerts c 2 n)) [points.getD a 0, points.getD b 0],
      (2, n)⟩ : PointDof) ∈ solidPoints c points k keep := by
  refine List.mem_append_right _ (List.mem_append_right _ (List.mem_append_left _
    (List.mem_flatMap.2 ⟨n, List.mem_range.2 hn, ?_⟩)))
  refine List.mem_map.2 ⟨[b, a], List.mem_filter.2 ⟨mem_product.2 ⟨rfl, by simp [mem_innerRange]; omega⟩, ?_⟩, rfl⟩
  refine decide_eq_true (h.imp id fun h => ?_)
  simp only [List.sum_cons, List.sum_nil]
  omega

theorem solid_interior {c : Cell} {points : List ℝ} {k : ℕ} {keep : List ℕ → Bool} (a b d : ℕ)
    (ha : 1 ≤ a) (hak : a < k) (hb : 1 ≤ b) (hbk : b < k) (hd : 1 ≤ d) (hdk : d < k) (h : keep [a, b, d] = true) :
    (⟨entityPoint c (refVertex c) [points.getD a 0, points.getD b 0, points.getD d 0], (3, 0)⟩ : PointDof) ∈
      solidPoints c points k keep := by
  refine List.mem_append_right _ (List.mem_append_right _ (List.mem_append_right _ ?_))
  exact List.mem_map.2 ⟨[a, b, d], List.mem_filter.2 ⟨mem_product.2 ⟨rfl, by simp [mem_innerRange]; omega⟩, h⟩, rfl⟩

/-- A point of the lattice. -/
def gridPoint (x y z : ℝ) : ℕ → ℝ := fun j => if j = 0 then x else if j = 1 then y else if j = 2 then z else 0

theorem gridPoint_ext {f : ℕ → ℝ} {x y z : ℝ} (h0 : f 0 = x) (h1 : f 1 = y) (h2 : f 2 = z)
    (h3 : ∀ j, 3 ≤ j → f j = 0) : f = gridPoint x y z := by
  funext j
  unfold gridPoint
  match j with
  | 0 => simpa using h0
  | 1 => simpa using h1
  | 2 => simpa using h2
  | j + 3 => simpa using h3 (j + 3) (by omega)

theorem entityPoint_ge (c t : Cell) (e : List ℕ) (cs : List ℝ) (j : ℕ) (hj : 3 ≤ j) :
    entityPoint t (entityVerts (refVertex c) e) cs j = 0 := by
  unfold entityPoint axis psub entityVerts
  simp [refVertex_ge _ _ _ hj]

theorem entityPoint_ge' (c : Cell) (cs : List ℝ) (j : ℕ) (hj : 3 ≤ j) :
    entityPoint c (refVertex c) cs j = 0 := by
  unfold entityPoint axis psub
  simp [refVertex_ge _ _ _ hj]

/-- The nodes are symmetric about the midpoint. -/
def Symm (points : List ℝ) (k : ℕ) : Prop := ∀ i, 1 ≤ i → i < k → points.getD (k - i) 0 = 1 - points.getD i 0

theorem node_zero (points : List ℝ) (k : ℕ) : nodeOf points k 0 = 0 := if_pos rfl

theorem node_last (points : List ℝ) {k : ℕ} (hk : 0 < k) : nodeOf points k k = 1 := by
  rw [nodeOf, if_neg hk.ne', if_pos rfl]

theorem node_inner (points : List ℝ) {k a : ℕ} (h1 : 1 ≤ a) (h2 : a < k) : nodeOf points k a = points.getD a 0 := by
  rw [nodeOf, if_neg (by omega), if_neg (by omega)]

set_option linter.unusedSimpArgs false
set_option linter.unusedVariables false
set_option linter.unnecessarySeqFocus false
set_option linter.unreachableTactic false
set_option linter.unusedTactic false

/-- The points of a prism are a lattice. -/
theorem prism_cover {points : List ℝ} {k : ℕ} (hk : 0 < k) (hs : Symm points k) {keep : List ℕ → Bool}
    (hkeep : ∀ a b d : ℕ, a + b < k → keep [a, b, d] = true) (a b d : ℕ) (hab : a + b ≤ k) (hd : d ≤ k) :
    ∃ e ∈ solidPoints .prism points k keep,
      e.point = gridPoint (nodeOf points k a) (nodeOf points k b) (nodeOf points k d) := by
  have h1 : (a = 0 ∧ b = 0) ∨
    (a = k ∧ b = 0) ∨
    (a = 0 ∧ b = k) ∨
    ((0 < a ∧ a < k) ∧ b = 0) ∨
    (a = 0 ∧ (0 < b ∧ b < k)) ∨
    ((0 < a ∧ 0 < b) ∧ a + b = k) ∨
    ((0 < a ∧ 0 < b) ∧ a + b < k) := by omega
  have h2 : (d = 0) ∨ (d = k) ∨ (0 < d ∧ d < k) := by omega
  rcases h1 with ⟨h, h'⟩ | ⟨h, h'⟩ | ⟨h, h'⟩ | ⟨h, h'⟩ | ⟨h, h'⟩ | ⟨h, h'⟩ | ⟨h, h'⟩
  · have xa : nodeOf points k a = 0 := by rw [show a = 0 by omega]; exact node_zero _ _
    have xb : nodeOf points k b = 0 := by rw [show b = 0 by omega]; exact node_zero _ _
    rcases h2 with h2 | h2 | h2
    · have xd : nodeOf points k d = 0 := by rw [show d = 0 by omega]; exact node_zero _ _
      refine ⟨_, solid_vertex 0 (by decide), gridPoint_ext ?_ ?_ ?_ fun j hj => refVertex_ge _ _ _ hj⟩
      · rw [xa]; simp [entityPoint, Finset.sum_range_succ, axis, psub, axisVertices, entityVerts, entVerts, entType, Cell.subEntities, Cell.edges, Cell.faces, Cell.subEntityType, Cell.subEntityTypes, refVertex, coords, refVerts] <;> ring
      · rw [xb]; simp [entityPoint, Finset.sum_range_succ, axis, psub, axisVertices, entityVerts, entVerts, entType, Cell.subEntities, Cell.edges, Cell.faces, Cell.subEntityType, Cell.subEntityTypes, refVertex, coords, refVerts] <;> ring
      · rw [xd]; simp [entityPoint, Finset.sum_range_succ, axis, psub, axisVertices, entityVerts, entVerts, entType, Cell.subEntities, Cell.edges, Cell.faces, Cell.subEntityType, Cell.subEntityTypes, refVertex, coords, refVerts] <;> ring
    · have xd : nodeOf points k d = 1 := by rw [show d = k by omega]; exact node_last _ hk
      refine ⟨_, solid_vertex 3 (by decide), gridPoint_ext ?_ ?_ ?_ fun j hj => refVertex_ge _ _ _ hj⟩
      · rw [xa]; simp [entityPoint, Finset.sum_range_succ, axis, psub, axisVertices, entityVerts, entVerts, entType, Cell.subEntities, Cell.edges, Cell.faces, Cell.subEntityType, Cell.subEntityTypes, refVertex, coords, refVerts] <;> ring
      · rw [xb]; simp [entityPoint, Finset.sum_range_succ, axis, psub, axisVertices, entityVerts, entVerts, entType, Cell.subEntities, Cell.edges, Cell.faces, Cell.subEntityType, Cell.subEntityTypes, refVertex, coords, refVerts] <;> ring
      · rw [xd]; simp [entityPoint, Finset.sum_range_succ, axis, psub, axisVertices, entityVerts, entVerts, entType, Cell.subEntities, Cell.edges, Cell.faces, Cell.subEntityType, Cell.subEntityTypes, refVertex, coords, refVerts] <;> ring
    · have xd : nodeOf points k d = points.getD d 0 := node_inner _ (by omega) (by omega)
      refine ⟨_, solid_edge 2 (by decide) d (by omega) (by omega), gridPoint_ext ?_ ?_ ?_ fun j hj => entityPoint_ge _ _ _ _ j hj⟩
      · rw [xa]; simp [entityPoint, Finset.sum_range_succ, axis, psub, axisVertices, entityVerts, entVerts, entType, Cell.subEntities, Cell.edges, Cell.faces, Cell.subEntityType, Cell.subEntityTypes, refVertex, coords, refVerts] <;> ring
      · rw [xb]; simp [entityPoint, Finset.sum_range_succ, axis, psub, axisVertices, entityVerts, entVerts, entType, Cell.subEntities, Cell.edges, Cell.faces, Cell.subEntityType, Cell.subEntityTypes, refVertex, coords, refVerts] <;> ring
      · rw [xd]; simp [entityPoint, Finset.sum_range_succ, axis, psub, axisVertices, entityVerts, entVerts, entType, Cell.subEntities, Cell.edges, Cell.faces, Cell.subEntityType, Cell.subEntityTypes, refVertex, coords, refVerts] <;> ring
  · have xa : nodeOf points k a = 1 := by rw [show a = k by omega]; exact node_last _ hk
    have xb : nodeOf points k b = 0 := by rw [show b = 0 by omega]; exact node_zero _ _
    rcases h2 with h2 | h2 | h2
    · have xd : nodeOf points k d = 0 := by rw [show d = 0 by omega]; exact node_zero _ _
      refine ⟨_, solid_vertex 1 (by decide), gridPoint_ext ?_ ?_ ?_ fun j hj => refVertex_ge _ _ _ hj⟩
      · rw [xa]; simp [entityPoint, Finset.sum_range_succ, axis, psub, axisVertices, entityVerts, entVerts, entType, Cell.subEntities, Cell.edges, Cell.faces, Cell.subEntityType, Cell.subEntityTypes, refVertex, coords, refVerts] <;> ring
      · rw [xb]; simp [entityPoint, Finset.sum_range_succ, axis, psub, axisVertices, entityVerts, entVerts, entType, Cell.subEntities, Cell.edges, Cell.faces, Cell.subEntityType, Cell.subEntityTypes, refVertex, coords, refVerts] <;> ring
      · rw [xd]; simp [entityPoint, Finset.sum_range_succ, axis, psub, axisVertices, entityVerts, entVerts, entType, Cell.subEntities, Cell.edges, Cell.faces, Cell.subEntityType, Cell.subEntityTypes, refVertex, coords, refVerts] <;> ring
    · have xd : nodeOf points k d = 1 := by rw [show d = k by omega]; exact node_last _ hk
      refine ⟨_, solid_vertex 4 (by decide), gridPoint_ext ?_ ?_ ?_ fun j hj => refVertex_ge _ _ _ hj⟩
      · rw [xa]; simp [entityPoint, Finset.sum_range_succ, axis, psub, axisVertices, entityVerts, entVerts, entType, Cell.subEntities, Cell.edges, Cell.faces, Cell.subEntityType, Cell.subEntityTypes, refVertex, coords, refVerts] <;> ring
      · rw [xb]; simp [entityPoint, Finset.sum_range_succ, axis, psub, axisVertices, entityVerts, entVerts, entType, Cell.subEntities, Cell.edges, Cell.faces, Cell.subEntityType, Cell.subEntityTypes, refVertex, coords, refVerts] <;> ring
      · rw [xd]; simp [entityPoint, Finset.sum_range_succ, axis, psub, axisVertices, entityVerts, entVerts, entType, Cell.subEntities, Cell.edges, Cell.faces, Cell.subEntityType, Cell.subEntityTypes, refVertex, coords, refVerts] <;> ring
    · have xd : nodeOf points k d = points.getD d 0 := node_inner _ (by omega) (by omega)
      refine ⟨_, solid_edge 4 (by decide) d (by omega) (by omega), gridPoint_ext ?_ ?_ ?_ fun j hj => entityPoint_ge _ _ _ _ j hj⟩
      · rw [xa]; simp [entityPoint, Finset.sum_range_succ, axis, psub, axisVertices, entityVerts, entVerts, entType, Cell.subEntities, Cell.edges, Cell.faces, Cell.subEntityType, Cell.subEntityTypes, refVertex, coords, refVerts] <;> ring
      · rw [xb]; simp [entityPoint, Finset.sum_range_succ, axis, psub, axisVertices, entityVerts, entVerts, entType, Cell.subEntities, Cell.edges, Cell.faces, Cell.subEntityType, Cell.subEntityTypes, refVertex, coords, refVerts] <;> ring
      · rw [xd]; simp [entityPoint, Finset.sum_range_succ, axis, psub, axisVertices, entityVerts, entVerts, entType, Cell.subEntities, Cell.edges, Cell.faces, Cell.subEntityType, Cell.subEntityTypes, refVertex, coords, refVerts] <;> ring
  · have xa : nodeOf points k a = 0 := by rw [show a = 0 by omega]; exact node_zero _ _
    have xb : nodeOf points k b = 1 := by rw [show b = k by omega]; exact node_last _ hk
    rcases h2 with h2 | h2 | h2
    · have xd : nodeOf points k d = 0 := by rw [show d = 0 by omega]; exact node_zero _ _
      refine ⟨_, solid_vertex 2 (by decide), gridPoint_ext ?_ ?_ ?_ fun j hj => refVertex_ge _ _ _ hj⟩
      · rw [xa]; simp [entityPoint, Finset.sum_range_succ, axis, psub, axisVertices, entityVerts, entVerts, entType, Cell.subEntities, Cell.edges, Cell.faces, Cell.subEntityType, Cell.subEntityTypes, refVertex, coords, refVerts] <;> ring
      · rw [xb]; simp [entityPoint, Finset.sum_range_succ, axis, psub, axisVertices, entityVerts, entVerts, entType, Cell.subEntities, Cell.edges, Cell.faces, Cell.subEntityType, Cell.subEntityTypes, refVertex, coords, refVerts] <;> ring
      · rw [xd]; simp [entityPoint, Finset.sum_range_succ, axis, psub, axisVertices, entityVerts, entVerts, entType, Cell.subEntities, Cell.edges, Cell.faces, Cell.subEntityType, Cell.subEntityTypes, refVertex, coords, refVerts] <;> ring
    · have xd : nodeOf points k d = 1 := by rw [show d = k by omega]; exact node_last _ hk
      refine ⟨_, solid_vertex 5 (by decide), gridPoint_ext ?_ ?_ ?_ fun j hj => refVertex_ge _ _ _ hj⟩
      · rw [xa]; simp [entityPoint, Finset.sum_range_succ, axis, psub, axisVertices, entityVerts, entVerts, entType, Cell.subEntities, Cell.edges, Cell.faces, Cell.subEntityType, Cell.subEntityTypes, refVertex, coords, refVerts] <;> ring
      · rw [xb]; simp [entityPoint, Finset.sum_range_succ, axis, psub, axisVertices, entityVerts, entVerts, entType, Cell.subEntities, Cell.edges, Cell.faces, Cell.subEntityType, Cell.subEntityTypes, refVertex, coords, refVerts] <;> ring
      · rw [xd]; simp [entityPoint, Finset.sum_range_succ, axis, psub, axisVertices, entityVerts, entVerts, entType, Cell.subEntities, Cell.edges, Cell.faces, Cell.subEntityType, Cell.subEntityTypes, refVertex, coords, refVerts] <;> ring
    · have xd : nodeOf points k d = points.getD d 0 := node_inner _ (by omega) (by omega)
      refine ⟨_, solid_edge 5 (by decide) d (by omega) (by omega), gridPoint_ext ?_ ?_ ?_ fun j hj => entityPoint_ge _ _ _ _ j hj⟩
      · rw [xa]; simp [entityPoint, Finset.sum_range_succ, axis, psub, axisVertices, entityVerts, entVerts, entType, Cell.subEntities, Cell.edges, Cell.faces, Cell.subEntityType, Cell.subEntityTypes, refVertex, coords, refVerts] <;> ring
      · rw [xb]; simp [entityPoint, Finset.sum_range_succ, axis, psub, axisVertices, entityVerts, entVerts, entType, Cell.subEntities, Cell.edges, Cell.faces, Cell.subEntityType, Cell.subEntityTypes, refVertex, coords, refVerts] <;> ring
      · rw [xd]; simp [entityPoint, Finset.sum_range_succ, axis, psub, axisVertices, entityVerts, entVerts, entType, Cell.subEntities, Cell.edges, Cell.faces, Cell.subEntityType, Cell.subEntityTypes, refVertex, coords, refVerts] <;> ring
  · have xa : nodeOf points k a = points.getD a 0 := node_inner _ (by omega) (by omega)
    have xb : nodeOf points k b = 0 := by rw [show b = 0 by omega]; exact node_zero _ _
    rcases h2 with h2 | h2 | h2
    · have xd : nodeOf points k d = 0 := by rw [show d = 0 by omega]; exact node_zero _ _
      refine ⟨_, solid_edge 0 (by decide) a (by omega) (by omega), gridPoint_ext ?_ ?_ ?_ fun j hj => entityPoint_ge _ _ _ _ j hj⟩
      · rw [xa]; simp [entityPoint, Finset.sum_range_succ, axis, psub, axisVertices, entityVerts, entVerts, entType, Cell.subEntities, Cell.edges, Cell.faces, Cell.subEntityType, Cell.subEntityTypes, refVertex, coords, refVerts] <;> ring
      · rw [xb]; simp [entityPoint, Finset.sum_range_succ, axis, psub, axisVertices, entityVerts, entVerts, entType, Cell.subEntities, Cell.edges, Cell.faces, Cell.subEntityType, Cell.subEntityTypes, refVertex, coords, refVerts] <;> ring
      · rw [xd]; simp [entityPoint, Finset.sum_range_succ, axis, psub, axisVertices, entityVerts, entVerts, entType, Cell.subEntities, Cell.edges, Cell.faces, Cell.subEntityType, Cell.subEntityTypes, refVertex, coords, refVerts] <;> ring
    · have xd : nodeOf points k d = 1 := by rw [show d = k by omega]; exact node_last _ hk
      refine ⟨_, solid_edge 6 (by decide) a (by omega) (by omega), gridPoint_ext ?_ ?_ ?_ fun j hj => entityPoint_ge _ _ _ _ j hj⟩
      · rw [xa]; simp [entityPoint, Finset.sum_range_succ, axis, psub, axisVertices, entityVerts, entVerts, entType, Cell.subEntities, Cell.edges, Cell.faces, Cell.subEntityType, Cell.subEntityTypes, refVertex, coords, refVerts] <;> ring
      · rw [xb]; simp [entityPoint, Finset.sum_range_succ, axis, psub, axisVertices, entityVerts, entVerts, entType, Cell.subEntities, Cell.edges, Cell.faces, Cell.subEntityType, Cell.subEntityTypes, refVertex, coords, refVerts] <;> ring
      · rw [xd]; simp [entityPoint, Finset.sum_range_succ, axis, psub, axisVertices, entityVerts, entVerts, entType, Cell.subEntities, Cell.edges, Cell.faces, Cell.subEntityType, Cell.subEntityTypes, refVertex, coords, refVerts] <;> ring
    · have xd : nodeOf points k d = points.getD d 0 := node_inner _ (by omega) (by omega)
      refine ⟨_, solid_face 1 (by decide) a d (by omega) (by omega) (by omega) (by omega) (Or.inl rfl), gridPoint_ext ?_ ?_ ?_ fun j hj => entityPoint_ge _ _ _ _ j hj⟩
      · rw [xa]; simp [entityPoint, Finset.sum_range_succ, axis, psub, axisVertices, entityVerts, entVerts, entType, Cell.subEntities, Cell.edges, Cell.faces, Cell.subEntityType, Cell.subEntityTypes, refVertex, coords, refVerts] <;> ring
      · rw [xb]; simp [entityPoint, Finset.sum_range_succ, axis, psub, axisVertices, entityVerts, entVerts, entType, Cell.subEntities, Cell.edges, Cell.faces, Cell.subEntityType, Cell.subEntityTypes, refVertex, coords, refVerts] <;> ring
      · rw [xd]; simp [entityPoint, Finset.sum_range_succ, axis, psub, axisVertices, entityVerts, entVerts, entType, Cell.subEntities, Cell.edges, Cell.faces, Cell.subEntityType, Cell.subEntityTypes, refVertex, coords, refVerts] <;> ring
  · have xa : nodeOf points k a = 0 := by rw [show a = 0 by omega]; exact node_zero _ _
    have xb : nodeOf points k b = points.getD b 0 := node_inner _ (by omega) (by omega)
    rcases h2 with h2 | h2 | h2
    · have xd : nodeOf points k d = 0 := by rw [show d = 0 by omega]; exact node_zero _ _
      refine ⟨_, solid_edge 1 (by decide) b (by omega) (by omega), gridPoint_ext ?_ ?_ ?_ fun j hj => entityPoint_ge _ _ _ _ j hj⟩
      · rw [xa]; simp [entityPoint, Finset.sum_range_succ, axis, psub, axisVertices, entityVerts, entVerts, entType, Cell.subEntities, Cell.edges, Cell.faces, Cell.subEntityType, Cell.subEntityTypes, refVertex, coords, refVerts] <;> ring
      · rw [xb]; simp [entityPoint, Finset.sum_range_succ, axis, psub, axisVertices, entityVerts, entVerts, entType, Cell.subEntities, Cell.edges, Cell.faces, Cell.subEntityType, Cell.subEntityTypes, refVertex, coords, refVerts] <;> ring
      · rw [xd]; simp [entityPoint, Finset.sum_range_succ, axis, psub, axisVertices, entityVerts, entVerts, entType, Cell.subEntities, Cell.edges, Cell.faces, Cell.subEntityType, Cell.subEntityTypes, refVertex, coords, refVerts] <;> ring
    · have xd : nodeOf points k d = 1 := by rw [show d = k by omega]; exact node_last _ hk
      refine ⟨_, solid_edge 7 (by decide) b (by omega) (by omega), gridPoint_ext ?_ ?_ ?_ fun j hj => entityPoint_ge _ _ _ _ j hj⟩
      · rw [xa]; simp [entityPoint, Finset.sum_range_succ, axis, psub, axisVertices, entityVerts, entVerts, entType, Cell.subEntities, Cell.edges, Cell.faces, Cell.subEntityType, Cell.subEntityTypes, refVertex, coords, refVerts] <;> ring
      · rw [xb]; simp [entityPoint, Finset.sum_range_succ, axis, psub, axisVertices, entityVerts, entVerts, entType, Cell.subEntities, Cell.edges, Cell.faces, Cell.subEntityType, Cell.subEntityTypes, refVertex, coords, refVerts] <;> ring
      · rw [xd]; simp [entityPoint, Finset.sum_range_succ, axis, psub, axisVertices, entityVerts, entVerts, entType, Cell.subEntities, Cell.edges, Cell.faces, Cell.subEntityType, Cell.subEntityTypes, refVertex, coords, refVerts] <;> ring
    · have xd : nodeOf points k d = points.getD d 0 := node_inner _ (by omega) (by omega)
      refine ⟨_, solid_face 2 (by decide) b d (by omega) (by omega) (by omega) (by omega) (Or.inl rfl), gridPoint_ext ?_ ?_ ?_ fun j hj => entityPoint_ge _ _ _ _ j hj⟩
      · rw [xa]; simp [entityPoint, Finset.sum_range_succ, axis, psub, axisVertices, entityVerts, entVerts, entType, Cell.subEntities, Cell.edges, Cell.faces, Cell.subEntityType, Cell.subEntityTypes, refVertex, coords, refVerts] <;> ring
      · rw [xb]; simp [entityPoint, Finset.sum_range_succ, axis, psub, axisVertices, entityVerts, entVerts, entType, Cell.subEntities, Cell.edges, Cell.faces, Cell.subEntityType, Cell.subEntityTypes, refVertex, coords, refVerts] <;> ring
      · rw [xd]; simp [entityPoint, Finset.sum_range_succ, axis, psub, axisVertices, entityVerts, entVerts, entType, Cell.subEntities, Cell.edges, Cell.faces, Cell.subEntityType, Cell.subEntityTypes, refVertex, coords, refVerts] <;> ring
  · have xa : nodeOf points k a = 1 - points.getD b 0 := by rw [show a = k - b by omega, node_inner _ (by omega) (by omega)]; exact hs b (by omega) (by omega)
    have xb : nodeOf points k b = points.getD b 0 := node_inner _ (by omega) (by omega)
    rcases h2 with h2 | h2 | h2
    · have xd : nodeOf points k d = 0 := by rw [show d = 0 by omega]; exact node_zero _ _
      refine ⟨_, solid_edge 3 (by decide) b (by omega) (by omega), gridPoint_ext ?_ ?_ ?_ fun j hj => entityPoint_ge _ _ _ _ j hj⟩
      · rw [xa]; simp [entityPoint, Finset.sum_range_succ, axis, psub, axisVertices, entityVerts, entVerts, entType, Cell.subEntities, Cell.edges, Cell.faces, Cell.subEntityType, Cell.subEntityTypes, refVertex, coords, refVerts] <;> ring
      · rw [xb]; simp [entityPoint, Finset.sum_range_succ, axis, psub, axisVertices, entityVerts, entVerts, entType, Cell.subEntities, Cell.edges, Cell.faces, Cell.subEntityType, Cell.subEntityTypes, refVertex, coords, refVerts] <;> ring
      · rw [xd]; simp [entityPoint, Finset.sum_range_succ, axis, psub, axisVertices, entityVerts, entVerts, entType, Cell.subEntities, Cell.edges, Cell.faces, Cell.subEntityType, Cell.subEntityTypes, refVertex, coords, refVerts] <;> ring
    · have xd : nodeOf points k d = 1 := by rw [show d = k by omega]; exact node_last _ hk
      refine ⟨_, solid_edge 8 (by decide) b (by omega) (by omega), gridPoint_ext ?_ ?_ ?_ fun j hj => entityPoint_ge _ _ _ _ j hj⟩
      · rw [xa]; simp [entityPoint, Finset.sum_range_succ, axis, psub, axisVertices, entityVerts, entVerts, entType, Cell.subEntities, Cell.edges, Cell.faces, Cell.subEntityType, Cell.subEntityTypes, refVertex, coords, refVerts] <;> ring
      · rw [xb]; simp [entityPoint, Finset.sum_range_succ, axis, psub, axisVertices, entityVerts, entVerts, entType, Cell.subEntities, Cell.edges, Cell.faces, Cell.subEntityType, Cell.subEntityTypes, refVertex, coords, refVerts] <;> ring
      · rw [xd]; simp [entityPoint, Finset.sum_range_succ, axis, psub, axisVertices, entityVerts, entVerts, entType, Cell.subEntities, Cell.edges, Cell.faces, Cell.subEntityType, Cell.subEntityTypes, refVertex, coords, refVerts] <;> ring
    · have xd : nodeOf points k d = points.getD d 0 := node_inner _ (by omega) (by omega)
      refine ⟨_, solid_face 3 (by decide) b d (by omega) (by omega) (by omega) (by omega) (Or.inl rfl), gridPoint_ext ?_ ?_ ?_ fun j hj => entityPoint_ge _ _ _ _ j hj⟩
      · rw [xa]; simp [entityPoint, Finset.sum_range_succ, axis, psub, axisVertices, entityVerts, entVerts, entType, Cell.subEntities, Cell.edges, Cell.faces, Cell.subEntityType, Cell.subEntityTypes, refVertex, coords, refVerts] <;> ring
      · rw [xb]; simp [entityPoint, Finset.sum_range_succ, axis, psub, axisVertices, entityVerts, entVerts, entType, Cell.subEntities, Cell.edges, Cell.faces, Cell.subEntityType, Cell.subEntityTypes, refVertex, coords, refVerts] <;> ring
      · rw [xd]; simp [entityPoint, Finset.sum_range_succ, axis, psub, axisVertices, entityVerts, entVerts, entType, Cell.subEntities, Cell.edges, Cell.faces, Cell.subEntityType, Cell.subEntityTypes, refVertex, coords, refVerts] <;> ring
  · have xa : nodeOf points k a = points.getD a 0 := node_inner _ (by omega) (by omega)
    have xb : nodeOf points k b = points.getD b 0 := node_inner _ (by omega) (by omega)
    rcases h2 with h2 | h2 | h2
    · have xd : nodeOf points k d = 0 := by rw [show d = 0 by omega]; exact node_zero _ _
      refine ⟨_, solid_face 0 (by decide) a b (by omega) (by omega) (by omega) (by omega) (Or.inr (by omega)), gridPoint_ext ?_ ?_ ?_ fun j hj => entityPoint_ge _ _ _ _ j hj⟩
      · rw [xa]; simp [entityPoint, Finset.sum_range_succ, axis, psub, axisVertices, entityVerts, entVerts, entType, Cell.subEntities, Cell.edges, Cell.faces, Cell.subEntityType, Cell.subEntityTypes, refVertex, coords, refVerts] <;> ring
      · rw [xb]; simp [entityPoint, Finset.sum_range_succ, axis, psub, axisVertices, entityVerts, entVerts, entType, Cell.subEntities, Cell.edges, Cell.faces, Cell.subEntityType, Cell.subEntityTypes, refVertex, coords, refVerts] <;> ring
      · rw [xd]; simp [entityPoint, Finset.sum_range_succ, axis, psub, axisVertices, entityVerts, entVerts, entType, Cell.subEntities, Cell.edges, Cell.faces, Cell.subEntityType, Cell.subEntityTypes, refVertex, coords, refVerts] <;> ring
    · have xd : nodeOf points k d = 1 := by rw [show d = k by omega]; exact node_last _ hk
      refine ⟨_, solid_face 4 (by decide) a b (by omega) (by omega) (by omega) (by omega) (Or.inr (by omega)), gridPoint_ext ?_ ?_ ?_ fun j hj => entityPoint_ge _ _ _ _ j hj⟩
      · rw [xa]; simp [entityPoint, Finset.sum_range_succ, axis, psub, axisVertices, entityVerts, entVerts, entType, Cell.subEntities, Cell.edges, Cell.faces, Cell.subEntityType, Cell.subEntityTypes, refVertex, coords, refVerts] <;> ring
      · rw [xb]; simp [entityPoint, Finset.sum_range_succ, axis, psub, axisVertices, entityVerts, entVerts, entType, Cell.subEntities, Cell.edges, Cell.faces, Cell.subEntityType, Cell.subEntityTypes, refVertex, coords, refVerts] <;> ring
      · rw [xd]; simp [entityPoint, Finset.sum_range_succ, axis, psub, axisVertices, entityVerts, entVerts, entType, Cell.subEntities, Cell.edges, Cell.faces, Cell.subEntityType, Cell.subEntityTypes, refVertex, coords, refVerts] <;> ring
    · have xd : nodeOf points k d = points.getD d 0 := node_inner _ (by omega) (by omega)
      refine ⟨_, solid_interior a b d (by omega) (by omega) (by omega) (by omega) (by omega) (by omega) (hkeep _ _ _ (by omega)), gridPoint_ext ?_ ?_ ?_ fun j hj => entityPoint_ge' _ _ j hj⟩
      · rw [xa]; simp [entityPoint, Finset.sum_range_succ, axis, psub, axisVertices, entityVerts, entVerts, entType, Cell.subEntities, Cell.edges, Cell.faces, Cell.subEntityType, Cell.subEntityTypes, refVertex, coords, refVerts] <;> ring
      · rw [xb]; simp [entityPoint, Finset.sum_range_succ, axis, psub, axisVertices, entityVerts, entVerts, entType, Cell.subEntities, Cell.edges, Cell.faces, Cell.subEntityType, Cell.subEntityTypes, refVertex, coords, refVerts] <;> ring
      · rw [xd]; simp [entityPoint, Finset.sum_range_succ, axis, psub, axisVertices, entityVerts, entVerts, entType, Cell.subEntities, Cell.edges, Cell.faces, Cell.subEntityType, Cell.subEntityTypes, refVertex, coords, refVerts] <;> ring

/-- The points of a pyramid are a lattice. -/
theorem pyramid_cover {points : List ℝ} {k : ℕ} (hk : 0 < k) (hs : Symm points k) {keep : List ℕ → Bool}
    (hkeep : ∀ a b d : ℕ, max a b + d < k → keep [a, b, d] = true) (a b d : ℕ) (hab : max a b + d ≤ k) :
    ∃ e ∈ solidPoints .pyramid points k keep,
      e.point = gridPoint (nodeOf points k a) (nodeOf points k b) (nodeOf points k d) := by
  have h0 : d = k ∨ d = 0 ∨ (0 < d ∧ d < k) := by omega
  have ha : a = 0 ∨ a = k - d ∨ (0 < a ∧ a < k - d) := by omega
  have hb : b = 0 ∨ b = k - d ∨ (0 < b ∧ b < k - d) := by omega
  rcases h0 with h0 | h0 | h0
  · have xd : nodeOf points k d = 1 := by rw [show d = k by omega]; exact node_last _ hk
    have xa : nodeOf points k a = 0 := by rw [show a = 0 by omega]; exact node_zero _ _
    have xb : nodeOf points k b = 0 := by rw [show b = 0 by omega]; exact node_zero _ _
    refine ⟨_, solid_vertex 4 (by decide), gridPoint_ext ?_ ?_ ?_ fun j hj => refVertex_ge _ _ _ hj⟩
    · rw [xa]; simp [entityPoint, Finset.sum_range_succ, axis, psub, axisVertices, entityVerts, entVerts, entType, Cell.subEntities, Cell.edges, Cell.faces, Cell.subEntityType, Cell.subEntityTypes, refVertex, coords, refVerts] <;> ring
    · rw [xb]; simp [entityPoint, Finset.sum_range_succ, axis, psub, axisVertices, entityVerts, entVerts, entType, Cell.subEntities, Cell.edges, Cell.faces, Cell.subEntityType, Cell.subEntityTypes, refVertex, coords, refVerts] <;> ring
    · rw [xd]; simp [entityPoint, Finset.sum_range_succ, axis, psub, axisVertices, entityVerts, entVerts, entType, Cell.subEntities, Cell.edges, Cell.faces, Cell.subEntityType, Cell.subEntityTypes, refVertex, coords, refVerts] <;> ring
  · have xd : nodeOf points k d = 0 := by rw [show d = 0 by omega]; exact node_zero _ _
    rcases ha with ha | ha | ha
    · have xa : nodeOf points k a = 0 := by rw [show a = 0 by omega]; exact node_zero _ _
      rcases hb with hb | hb | hb
      · have xb : nodeOf points k b = 0 := by rw [show b = 0 by omega]; exact node_zero _ _
        refine ⟨_, solid_vertex 0 (by decide), gridPoint_ext ?_ ?_ ?_ fun j hj => refVertex_ge _ _ _ hj⟩
        · rw [xa]; simp [entityPoint, Finset.sum_range_succ, axis, psub, axisVertices, entityVerts, entVerts, entType, Cell.subEntities, Cell.edges, Cell.faces, Cell.subEntityType, Cell.subEntityTypes, refVertex, coords, refVerts] <;> ring
        · rw [xb]; simp [entityPoint, Finset.sum_range_succ, axis, psub, axisVertices, entityVerts, entVerts, entType, Cell.subEntities, Cell.edges, Cell.faces, Cell.subEntityType, Cell.subEntityTypes, refVertex, coords, refVerts] <;> ring
        · rw [xd]; simp [entityPoint, Finset.sum_range_succ, axis, psub, axisVertices, entityVerts, entVerts, entType, Cell.subEntities, Cell.edges, Cell.faces, Cell.subEntityType, Cell.subEntityTypes, refVertex, coords, refVerts] <;> ring
      · have xb : nodeOf points k b = 1 := by rw [show b = k by omega]; exact node_last _ hk
        refine ⟨_, solid_vertex 2 (by decide), gridPoint_ext ?_ ?_ ?_ fun j hj => refVertex_ge _ _ _ hj⟩
        · rw [xa]; simp [entityPoint, Finset.sum_range_succ, axis, psub, axisVertices, entityVerts, entVerts, entType, Cell.subEntities, Cell.edges, Cell.faces, Cell.subEntityType, Cell.subEntityTypes, refVertex, coords, refVerts] <;> ring
        · rw [xb]; simp [entityPoint, Finset.sum_range_succ, axis, psub, axisVertices, entityVerts, entVerts, entType, Cell.subEntities, Cell.edges, Cell.faces, Cell.subEntityType, Cell.subEntityTypes, refVertex, coords, refVerts] <;> ring
        · rw [xd]; simp [entityPoint, Finset.sum_range_succ, axis, psub, axisVertices, entityVerts, entVerts, entType, Cell.subEntities, Cell.edges, Cell.faces, Cell.subEntityType, Cell.subEntityTypes, refVertex, coords, refVerts] <;> ring
      · have xb : nodeOf points k b = points.getD b 0 := node_inner _ (by omega) (by omega)
        refine ⟨_, solid_edge 1 (by decide) b (by omega) (by omega), gridPoint_ext ?_ ?_ ?_ fun j hj => entityPoint_ge _ _ _ _ j hj⟩
        · rw [xa]; simp [entityPoint, Finset.sum_range_succ, axis, psub, axisVertices, entityVerts, entVerts, entType, Cell.subEntities, Cell.edges, Cell.faces, Cell.subEntityType, Cell.subEntityTypes, refVertex, coords, refVerts] <;> ring
        · rw [xb]; simp [entityPoint, Finset.sum_range_succ, axis, psub, axisVertices, entityVerts, entVerts, entType, Cell.subEntities, Cell.edges, Cell.faces, Cell.subEntityType, Cell.subEntityTypes, refVertex, coords, refVerts] <;> ring
        · rw [xd]; simp [entityPoint, Finset.sum_range_succ, axis, psub, axisVertices, entityVerts, entVerts, entType, Cell.subEntities, Cell.edges, Cell.faces, Cell.subEntityType, Cell.subEntityTypes, refVertex, coords, refVerts] <;> ring
    · have xa : nodeOf points k a = 1 := by rw [show a = k by omega]; exact node_last _ hk
      rcases hb with hb | hb | hb
      · have xb : nodeOf points k b = 0 := by rw [show b = 0 by omega]; exact node_zero _ _
        refine ⟨_, solid_vertex 1 (by decide), gridPoint_ext ?_ ?_ ?_ fun j hj => refVertex_ge _ _ _ hj⟩
        · rw [xa]; simp [entityPoint, Finset.sum_range_succ, axis, psub, axisVertices, entityVerts, entVerts, entType, Cell.subEntities, Cell.edges, Cell.faces, Cell.subEntityType, Cell.subEntityTypes, refVertex, coords, refVerts] <;> ring
        · rw [xb]; simp [entityPoint, Finset.sum_range_succ, axis, psub, axisVertices, entityVerts, entVerts, entType, Cell.subEntities, Cell.edges, Cell.faces, Cell.subEntityType, Cell.subEntityTypes, refVertex, coords, refVerts] <;> ring
        · rw [xd]; simp [entityPoint, Finset.sum_range_succ, axis, psub, axisVertices, entityVerts, entVerts, entType, Cell.subEntities, Cell.edges, Cell.faces, Cell.subEntityType, Cell.subEntityTypes, refVertex, coords, refVerts] <;> ring
      · have xb : nodeOf points k b = 1 := by rw [show b = k by omega]; exact node_last _ hk
        refine ⟨_, solid_vertex 3 (by decide), gridPoint_ext ?_ ?_ ?_ fun j hj => refVertex_ge _ _ _ hj⟩
        · rw [xa]; simp [entityPoint, Finset.sum_range_succ, axis, psub, axisVertices, entityVerts, entVerts, entType, Cell.subEntities, Cell.edges, Cell.faces, Cell.subEntityType, Cell.subEntityTypes, refVertex, coords, refVerts] <;> ring
        · rw [xb]; simp [entityPoint, Finset.sum_range_succ, axis, psub, axisVertices, entityVerts, entVerts, entType, Cell.subEntities, Cell.edges, Cell.faces, Cell.subEntityType, Cell.subEntityTypes, refVertex, coords, refVerts] <;> ring
        · rw [xd]; simp [entityPoint, Finset.sum_range_succ, axis, psub, axisVertices, entityVerts, entVerts, entType, Cell.subEntities, Cell.edges, Cell.faces, Cell.subEntityType, Cell.subEntityTypes, refVertex, coords, refVerts] <;> ring
      · have xb : nodeOf points k b = points.getD b 0 := node_inner _ (by omega) (by omega)
        refine ⟨_, solid_edge 3 (by decide) b (by omega) (by omega), gridPoint_ext ?_ ?_ ?_ fun j hj => entityPoint_ge _ _ _ _ j hj⟩
        · rw [xa]; simp [entityPoint, Finset.sum_range_succ, axis, psub, axisVertices, entityVerts, entVerts, entType, Cell.subEntities, Cell.edges, Cell.faces, Cell.subEntityType, Cell.subEntityTypes, refVertex, coords, refVerts] <;> ring
        · rw [xb]; simp [entityPoint, Finset.sum_range_succ, axis, psub, axisVertices, entityVerts, entVerts, entType, Cell.subEntities, Cell.edges, Cell.faces, Cell.subEntityType, Cell.subEntityTypes, refVertex, coords, refVerts] <;> ring
        · rw [xd]; simp [entityPoint, Finset.sum_range_succ, axis, psub, axisVertices, entityVerts, entVerts, entType, Cell.subEntities, Cell.edges, Cell.faces, Cell.subEntityType, Cell.subEntityTypes, refVertex, coords, refVerts] <;> ring
    · have xa : nodeOf points k a = points.getD a 0 := node_inner _ (by omega) (by omega)
      rcases hb with hb | hb | hb
      · have xb : nodeOf points k b = 0 := by rw [show b = 0 by omega]; exact node_zero _ _
        refine ⟨_, solid_edge 0 (by decide) a (by omega) (by omega), gridPoint_ext ?_ ?_ ?_ fun j hj => entityPoint_ge _ _ _ _ j hj⟩
        · rw [xa]; simp [entityPoint, Finset.sum_range_succ, axis, psub, axisVertices, entityVerts, entVerts, entType, Cell.subEntities, Cell.edges, Cell.faces, Cell.subEntityType, Cell.subEntityTypes, refVertex, coords, refVerts] <;> ring
        · rw [xb]; simp [entityPoint, Finset.sum_range_succ, axis, psub, axisVertices, entityVerts, entVerts, entType, Cell.subEntities, Cell.edges, Cell.faces, Cell.subEntityType, Cell.subEntityTypes, refVertex, coords, refVerts] <;> ring
        · rw [xd]; simp [entityPoint, Finset.sum_range_succ, axis, psub, axisVertices, entityVerts, entVerts, entType, Cell.subEntities, Cell.edges, Cell.faces, Cell.subEntityType, Cell.subEntityTypes, refVertex, coords, refVerts] <;> ring
      · have xb : nodeOf points k b = 1 := by rw [show b = k by omega]; exact node_last _ hk
        refine ⟨_, solid_edge 5 (by decide) a (by omega) (by omega), gridPoint_ext ?_ ?_ ?_ fun j hj => entityPoint_ge _ _ _ _ j hj⟩
        · rw [xa]; simp [entityPoint, Finset.sum_range_succ, axis, psub, axisVertices, entityVerts, entVerts, entType, Cell.subEntities, Cell.edges, Cell.faces, Cell.subEntityType, Cell.subEntityTypes, refVertex, coords, refVerts] <;> ring
        · rw [xb]; simp [entityPoint, Finset.sum_range_succ, axis, psub, axisVertices, entityVerts, entVerts, entType, Cell.subEntities, Cell.edges, Cell.faces, Cell.subEntityType, Cell.subEntityTypes, refVertex, coords, refVerts] <;> ring
        · rw [xd]; simp [entityPoint, Finset.sum_range_succ, axis, psub, axisVertices, entityVerts, entVerts, entType, Cell.subEntities, Cell.edges, Cell.faces, Cell.subEntityType, Cell.subEntityTypes, refVertex, coords, refVerts] <;> ring
      · have xb : nodeOf points k b = points.getD b 0 := node_inner _ (by omega) (by omega)
        refine ⟨_, solid_face 0 (by decide) a b (by omega) (by omega) (by omega) (by omega) (Or.inl rfl), gridPoint_ext ?_ ?_ ?_ fun j hj => entityPoint_ge _ _ _ _ j hj⟩
        · rw [xa]; simp [entityPoint, Finset.sum_range_succ, axis, psub, axisVertices, entityVerts, entVerts, entType, Cell.subEntities, Cell.edges, Cell.faces, Cell.subEntityType, Cell.subEntityTypes, refVertex, coords, refVerts] <;> ring
        · rw [xb]; simp [entityPoint, Finset.sum_range_succ, axis, psub, axisVertices, entityVerts, entVerts, entType, Cell.subEntities, Cell.edges, Cell.faces, Cell.subEntityType, Cell.subEntityTypes, refVertex, coords, refVerts] <;> ring
        · rw [xd]; simp [entityPoint, Finset.sum_range_succ, axis, psub, axisVertices, entityVerts, entVerts, entType, Cell.subEntities, Cell.edges, Cell.faces, Cell.subEntityType, Cell.subEntityTypes, refVertex, coords, refVerts] <;> ring
  · have xd : nodeOf points k d = points.getD d 0 := node_inner _ (by omega) (by omega)
    rcases ha with ha | ha | ha
    · have xa : nodeOf points k a = 0 := by rw [show a = 0 by omega]; exact node_zero _ _
      rcases hb with hb | hb | hb
      · have xb : nodeOf points k b = 0 := by rw [show b = 0 by omega]; exact node_zero _ _
        refine ⟨_, solid_edge 2 (by decide) d (by omega) (by omega), gridPoint_ext ?_ ?_ ?_ fun j hj => entityPoint_ge _ _ _ _ j hj⟩
        · rw [xa]; simp [entityPoint, Finset.sum_range_succ, axis, psub, axisVertices, entityVerts, entVerts, entType, Cell.subEntities, Cell.edges, Cell.faces, Cell.subEntityType, Cell.subEntityTypes, refVertex, coords, refVerts] <;> ring
        · rw [xb]; simp [entityPoint, Finset.sum_range_succ, axis, psub, axisVertices, entityVerts, entVerts, entType, Cell.subEntities, Cell.edges, Cell.faces, Cell.subEntityType, Cell.subEntityTypes, refVertex, coords, refVerts] <;> ring
        · rw [xd]; simp [entityPoint, Finset.sum_range_succ, axis, psub, axisVertices, entityVerts, entVerts, entType, Cell.subEntities, Cell.edges, Cell.faces, Cell.subEntityType, Cell.subEntityTypes, refVertex, coords, refVerts] <;> ring
      · have xb : nodeOf points k b = 1 - points.getD d 0 := by rw [show b = k - d by omega, node_inner _ (by omega) (by omega)]; exact hs d (by omega) (by omega)
        refine ⟨_, solid_edge 6 (by decide) d (by omega) (by omega), gridPoint_ext ?_ ?_ ?_ fun j hj => entityPoint_ge _ _ _ _ j hj⟩
        · rw [xa]; simp [entityPoint, Finset.sum_range_succ, axis, psub, axisVertices, entityVerts, entVerts, entType, Cell.subEntities, Cell.edges, Cell.faces, Cell.subEntityType, Cell.subEntityTypes, refVertex, coords, refVerts] <;> ring
        · rw [xb]; simp [entityPoint, Finset.sum_range_succ, axis, psub, axisVertices, entityVerts, entVerts, entType, Cell.subEntities, Cell.edges, Cell.faces, Cell.subEntityType, Cell.subEntityTypes, refVertex, coords, refVerts] <;> ring
        · rw [xd]; simp [entityPoint, Finset.sum_range_succ, axis, psub, axisVertices, entityVerts, entVerts, entType, Cell.subEntities, Cell.edges, Cell.faces, Cell.subEntityType, Cell.subEntityTypes, refVertex, coords, refVerts] <;> ring
      · have xb : nodeOf points k b = points.getD b 0 := node_inner _ (by omega) (by omega)
        refine ⟨_, solid_face 2 (by decide) b d (by omega) (by omega) (by omega) (by omega) (Or.inr (by omega)), gridPoint_ext ?_ ?_ ?_ fun j hj => entityPoint_ge _ _ _ _ j hj⟩
        · rw [xa]; simp [entityPoint, Finset.sum_range_succ, axis, psub, axisVertices, entityVerts, entVerts, entType, Cell.subEntities, Cell.edges, Cell.faces, Cell.subEntityType, Cell.subEntityTypes, refVertex, coords, refVerts] <;> ring
        · rw [xb]; simp [entityPoint, Finset.sum_range_succ, axis, psub, axisVertices, entityVerts, entVerts, entType, Cell.subEntities, Cell.edges, Cell.faces, Cell.subEntityType, Cell.subEntityTypes, refVertex, coords, refVerts] <;> ring
        · rw [xd]; simp [entityPoint, Finset.sum_range_succ, axis, psub, axisVertices, entityVerts, entVerts, entType, Cell.subEntities, Cell.edges, Cell.faces, Cell.subEntityType, Cell.subEntityTypes, refVertex, coords, refVerts] <;> ring
    · have xa : nodeOf points k a = 1 - points.getD d 0 := by rw [show a = k - d by omega, node_inner _ (by omega) (by omega)]; exact hs d (by omega) (by omega)
      rcases hb with hb | hb | hb
      · have xb : nodeOf points k b = 0 := by rw [show b = 0 by omega]; exact node_zero _ _
        refine ⟨_, solid_edge 4 (by decide) d (by omega) (by omega), gridPoint_ext ?_ ?_ ?_ fun j hj => entityPoint_ge _ _ _ _ j hj⟩
        · rw [xa]; simp [entityPoint, Finset.sum_range_succ, axis, psub, axisVertices, entityVerts, entVerts, entType, Cell.subEntities, Cell.edges, Cell.faces, Cell.subEntityType, Cell.subEntityTypes, refVertex, coords, refVerts] <;> ring
        · rw [xb]; simp [entityPoint, Finset.sum_range_succ, axis, psub, axisVertices, entityVerts, entVerts, entType, Cell.subEntities, Cell.edges, Cell.faces, Cell.subEntityType, Cell.subEntityTypes, refVertex, coords, refVerts] <;> ring
        · rw [xd]; simp [entityPoint, Finset.sum_range_succ, axis, psub, axisVertices, entityVerts, entVerts, entType, Cell.subEntities, Cell.edges, Cell.faces, Cell.subEntityType, Cell.subEntityTypes, refVertex, coords, refVerts] <;> ring
      · have xb : nodeOf points k b = 1 - points.getD d 0 := by rw [show b = k - d by omega, node_inner _ (by omega) (by omega)]; exact hs d (by omega) (by omega)
        refine ⟨_, solid_edge 7 (by decide) d (by omega) (by omega), gridPoint_ext ?_ ?_ ?_ fun j hj => entityPoint_ge _ _ _ _ j hj⟩
        · rw [xa]; simp [entityPoint, Finset.sum_range_succ, axis, psub, axisVertices, entityVerts, entVerts, entType, Cell.subEntities, Cell.edges, Cell.faces, Cell.subEntityType, Cell.subEntityTypes, refVertex, coords, refVerts] <;> ring
        · rw [xb]; simp [entityPoint, Finset.sum_range_succ, axis, psub, axisVertices, entityVerts, entVerts, entType, Cell.subEntities, Cell.edges, Cell.faces, Cell.subEntityType, Cell.subEntityTypes, refVertex, coords, refVerts] <;> ring
        · rw [xd]; simp [entityPoint, Finset.sum_range_succ, axis, psub, axisVertices, entityVerts, entVerts, entType, Cell.subEntities, Cell.edges, Cell.faces, Cell.subEntityType, Cell.subEntityTypes, refVertex, coords, refVerts] <;> ring
      · have xb : nodeOf points k b = points.getD b 0 := node_inner _ (by omega) (by omega)
        refine ⟨_, solid_face 3 (by decide) b d (by omega) (by omega) (by omega) (by omega) (Or.inr (by omega)), gridPoint_ext ?_ ?_ ?_ fun j hj => entityPoint_ge _ _ _ _ j hj⟩
        · rw [xa]; simp [entityPoint, Finset.sum_range_succ, axis, psub, axisVertices, entityVerts, entVerts, entType, Cell.subEntities, Cell.edges, Cell.faces, Cell.subEntityType, Cell.subEntityTypes, refVertex, coords, refVerts] <;> ring
        · rw [xb]; simp [entityPoint, Finset.sum_range_succ, axis, psub, axisVertices, entityVerts, entVerts, entType, Cell.subEntities, Cell.edges, Cell.faces, Cell.subEntityType, Cell.subEntityTypes, refVertex, coords, refVerts] <;> ring
        · rw [xd]; simp [entityPoint, Finset.sum_range_succ, axis, psub, axisVertices, entityVerts, entVerts, entType, Cell.subEntities, Cell.edges, Cell.faces, Cell.subEntityType, Cell.subEntityTypes, refVertex, coords, refVerts] <;> ring
    · have xa : nodeOf points k a = points.getD a 0 := node_inner _ (by omega) (by omega)
      rcases hb with hb | hb | hb
      · have xb : nodeOf points k b = 0 := by rw [show b = 0 by omega]; exact node_zero _ _
        refine ⟨_, solid_face 1 (by decide) a d (by omega) (by omega) (by omega) (by omega) (Or.inr (by omega)), gridPoint_ext ?_ ?_ ?_ fun j hj => entityPoint_ge _ _ _ _ j hj⟩
        · rw [xa]; simp [entityPoint, Finset.sum_range_succ, axis, psub, axisVertices, entityVerts, entVerts, entType, Cell.subEntities, Cell.edges, Cell.faces, Cell.subEntityType, Cell.subEntityTypes, refVertex, coords, refVerts] <;> ring
        · rw [xb]; simp [entityPoint, Finset.sum_range_succ, axis, psub, axisVertices, entityVerts, entVerts, entType, Cell.subEntities, Cell.edges, Cell.faces, Cell.subEntityType, Cell.subEntityTypes, refVertex, coords, refVerts] <;> ring
        · rw [xd]; simp [entityPoint, Finset.sum_range_succ, axis, psub, axisVertices, entityVerts, entVerts, entType, Cell.subEntities, Cell.edges, Cell.faces, Cell.subEntityType, Cell.subEntityTypes, refVertex, coords, refVerts] <;> ring
      · have xb : nodeOf points k b = 1 - points.getD d 0 := by rw [show b = k - d by omega, node_inner _ (by omega) (by omega)]; exact hs d (by omega) (by omega)
        refine ⟨_, solid_face 4 (by decide) a d (by omega) (by omega) (by omega) (by omega) (Or.inr (by omega)), gridPoint_ext ?_ ?_ ?_ fun j hj => entityPoint_ge _ _ _ _ j hj⟩
        · rw [xa]; simp [entityPoint, Finset.sum_range_succ, axis, psub, axisVertices, entityVerts, entVerts, entType, Cell.subEntities, Cell.edges, Cell.faces, Cell.subEntityType, Cell.subEntityTypes, refVertex, coords, refVerts] <;> ring
        · rw [xb]; simp [entityPoint, Finset.sum_range_succ, axis, psub, axisVertices, entityVerts, entVerts, entType, Cell.subEntities, Cell.edges, Cell.faces, Cell.subEntityType, Cell.subEntityTypes, refVertex, coords, refVerts] <;> ring
        · rw [xd]; simp [entityPoint, Finset.sum_range_succ, axis, psub, axisVertices, entityVerts, entVerts, entType, Cell.subEntities, Cell.edges, Cell.faces, Cell.subEntityType, Cell.subEntityTypes, refVertex, coords, refVerts] <;> ring
      · have xb : nodeOf points k b = points.getD b 0 := node_inner _ (by omega) (by omega)
        refine ⟨_, solid_interior a b d (by omega) (by omega) (by omega) (by omega) (by omega) (by omega) (hkeep _ _ _ (by omega)), gridPoint_ext ?_ ?_ ?_ fun j hj => entityPoint_ge' _ _ j hj⟩
        · rw [xa]; simp [entityPoint, Finset.sum_range_succ, axis, psub, axisVertices, entityVerts, entVerts, entType, Cell.subEntities, Cell.edges, Cell.faces, Cell.subEntityType, Cell.subEntityTypes, refVertex, coords, refVerts] <;> ring
        · rw [xb]; simp [entityPoint, Finset.sum_range_succ, axis, psub, axisVertices, entityVerts, entVerts, entType, Cell.subEntities, Cell.edges, Cell.faces, Cell.subEntityType, Cell.subEntityTypes, refVertex, coords, refVerts] <;> ring
        · rw [xd]; simp [entityPoint, Finset.sum_range_succ, axis, psub, axisVertices, entityVerts, entVerts, entType, Cell.subEntities, Cell.edges, Cell.faces, Cell.subEntityType, Cell.subEntityTypes, refVertex, coords, refVerts] <;> ring

end Verif.Elements
