import Verif.Functionals.Positions
/-!
# Where the functionals of elements are drawn
-/

namespace Verif.Positions
open Verif.References Verif.Elements Verif.Functionals Finset

/-! ### Straight entities -/

/-- The map of a simplex with any vertices takes the vertices of the reference to the vertices. -/
theorem simplex_straight {t : Cell} (ht : t ∈ [Cell.point, .interval, .triangle, .tetrahedron]) (g : ℕ) (w : ℕ → ℕ → ℝ)
    {i : ℕ} (hi : i < t.nverts) (j : ℕ) : (⟨t, g, w⟩ : Domain).param (refVertex t i) j = w i j := by
  simp only [List.mem_cons, List.not_mem_nil, or_false] at ht
  rcases ht with rfl | rfl | rfl | rfl <;> simp only [Cell.nverts] at hi <;> interval_cases i <;>
    simp [Domain.param, refVertex, refVerts, coords, axisVertices, Cell.tdim, sum_range_succ]

/-- All sub-entities of points, intervals, triangles and tetrahedra with any vertices are straight. -/
theorem straight_simplex {c : Cell} (hc : c ∈ [Cell.point, .interval, .triangle, .tetrahedron]) (g : ℕ) (v : ℕ → ℕ → ℝ)
    {e : ℕ × ℕ} (he : Entity c e) : Straight c g v e := by
  have key : ∀ c ∈ [Cell.point, .interval, .triangle, .tetrahedron], ∀ d < 4, ∀ n < count c d,
      entType c d n ∈ [Cell.point, .interval, .triangle, .tetrahedron] ∧ (entVerts c d n).length = (entType c d n).nverts := by
    decide +kernel
  obtain ⟨h1, h2⟩ := key c hc e.1 (by have := he.1; omega) e.2 he.2
  intro i hi j _
  exact (simplex_straight h1 g _ (h2 ▸ hi) j).symm

/-- A quadrilateral is straight exactly if it is a parallelogram. -/
theorem straight_quad_iff (g : ℕ) (v : ℕ → ℕ → ℝ) :
    Straight .quadrilateral g v (2, 0) ↔ ∀ j < g, v 3 j = v 1 j + v 2 j - v 0 j := by
  have hv : ∀ i < 4, ∀ j, entityV .quadrilateral v (2, 0) i j = v i j := by
    intro i hi j
    interval_cases i <;> rfl
  have hp : ∀ i < 4, ∀ j, (⟨entityCell .quadrilateral (2, 0), g, entityV .quadrilateral v (2, 0)⟩ : Domain).param
      (refVertex (entityCell .quadrilateral (2, 0)) i) j =
      v 0 j + ((v 1 j - v 0 j) * refVertex .quadrilateral i 0 + (v 2 j - v 0 j) * refVertex .quadrilateral i 1) := by
    intro i _ j
    show v 0 j + ∑ k ∈ range 2, _ = _
    rw [sum_range_succ, sum_range_one]
    rfl
  constructor
  · intro h j hj
    have := h 3 (by decide) j hj
    rw [hv 3 (by omega), hp 3 (by omega)] at this
    simp [refVertex, refVerts, coords] at this
    linarith
  · intro h i hi j hj
    have hi : i < 4 := hi
    rw [hv i hi, hp i hi]
    have := h j hj
    interval_cases i <;> simp [refVertex, refVerts, coords]
    linarith

theorem cast_sum (f : ℕ → ℚ) (n : ℕ) : ((((List.range n).map f).sum : ℚ) : ℝ) = ∑ k ∈ range n, (f k : ℝ) := by
  induction n with
  | zero => simp
  | succ n ih => rw [List.range_succ, List.map_append, List.sum_append, sum_range_succ, ← ih]; simp

/-- The map of an entity of a default reference, in rational numbers. -/
def paramQ (c : Cell) (e : ℕ × ℕ) (i j : ℕ) : ℚ :=
  refVertex c ((entVerts c e.1 e.2).getD 0 0) j + ((List.range (entityCell c e).tdim).map fun k =>
    (refVertex c ((entVerts c e.1 e.2).getD ((axisVertices (entityCell c e)).getD k 0) 0) j -
      refVertex c ((entVerts c e.1 e.2).getD 0 0) j : ℚ) * refVertex (entityCell c e) i k).sum

/-- All sub-entities of all default references are straight. -/
theorem straight_default {c : Cell} (hc : Fixed c) {e : ℕ × ℕ} (he : Entity c e) : Straight c c.tdim (refVertex c) e := by
  have key : ∀ c ∈ cells, ∀ d < 4, ∀ n < count c d, ∀ i < (entVerts c d n).length, ∀ j < c.tdim,
      (refVertex c ((entVerts c d n).getD i 0) j : ℚ) = paramQ c (d, n) i j := by decide +kernel
  intro i hi j hj
  have h := key c (fixed_mem hc) e.1 (by have := he.1; omega) e.2 he.2 i hi j hj
  show refVertex c ((entVerts c e.1 e.2).getD i 0) j = refVertex c ((entVerts c e.1 e.2).getD 0 0) j +
    ∑ k ∈ range (entityCell c e).tdim, (refVertex c ((entVerts c e.1 e.2).getD ((axisVertices (entityCell c e)).getD k 0) 0) j -
      refVertex c ((entVerts c e.1 e.2).getD 0 0) j) * refVertex (entityCell c e) i k
  simp only [refVertex_cast]
  rw [h]
  unfold paramQ
  rw [Rat.cast_add, cast_sum]
  push_cast
  rfl

/-! ### Different sub-entities have no interior points in common -/

/-- Affine functions that are nonnegative on the default reference: for each a constant and coefficients. -/
def sides : Cell → List (List ℤ)
  | .point => []
  | .interval => [[0, 1], [1, -1]]
  | .triangle => [[0, 1, 0], [0, 0, 1], [1, -1, -1]]
  | .tetrahedron => [[0, 1, 0, 0], [0, 0, 1, 0], [0, 0, 0, 1], [1, -1, -1, -1]]
  | .quadrilateral => [[0, 1, 0], [0, 0, 1], [1, -1, 0], [1, 0, -1]]
  | .hexahedron => [[0, 1, 0, 0], [0, 0, 1, 0], [0, 0, 0, 1], [1, -1, 0, 0], [1, 0, -1, 0], [1, 0, 0, -1]]
  | .prism => [[0, 1, 0, 0], [0, 0, 1, 0], [1, -1, -1, 0], [0, 0, 0, 1], [1, 0, 0, -1]]
  | .pyramid => [[0, 1, 0, 0], [0, 0, 1, 0], [0, 0, 0, 1], [1, -1, 0, -1], [1, 0, -1, -1]]
  | .dualPolygon _ => []

/-- The value at a vertex. -/
def sideQ (c : Cell) (s : List ℤ) (i : ℕ) : ℚ :=
  s.getD 0 0 + ((List.range c.tdim).map fun j => (s.getD (j + 1) 0 : ℚ) * refVertex c i j).sum

/-- The value at a point. -/
noncomputable def sideR (c : Cell) (s : List ℤ) (p : ℕ → ℝ) : ℝ :=
  s.getD 0 0 + ∑ j ∈ range c.tdim, (s.getD (j + 1) 0 : ℝ) * p j

theorem sideR_vertex (c : Cell) (s : List ℤ) (i : ℕ) : sideR c s (refVertex c i) = (sideQ c s i : ℝ) := by
  unfold sideR sideQ
  simp only [refVertex_cast]
  rw [Rat.cast_add, cast_sum]
  push_cast
  rfl

theorem sideR_average {c : Cell} {ok : ℝ → Prop} {n : ℕ} {v : ℕ → ℕ → ℝ} {p : ℕ → ℝ} {w : ℕ → ℝ} (s : List ℤ)
    (h2 : ∑ i ∈ range n, w i = 1) (h3 : ∀ j < c.tdim, p j = ∑ i ∈ range n, w i * v i j) :
    sideR c s p = ∑ i ∈ range n, w i * sideR c s (v i) := by
  unfold sideR
  simp only [mul_add, sum_add_distrib, ← sum_mul]
  rw [h2, one_mul]
  congr 1
  simp only [mul_sum]
  rw [sum_comm]
  refine sum_congr rfl fun j hj => ?_
  rw [h3 j (mem_range.1 hj), mul_sum]
  exact sum_congr rfl fun i _ => by ring

/-- A point inside an entity is on a side exactly if all vertices of the entity are. -/
theorem side_zero_iff {c : Cell} {e : ℕ × ℕ} {p : ℕ → ℝ} (h : Interior c c.tdim (refVertex c) e p) {s : List ℤ}
    (hs : ∀ i ∈ entVerts c e.1 e.2, 0 ≤ sideQ c s i) : sideR c s p = 0 ↔ ∀ i ∈ entVerts c e.1 e.2, sideQ c s i = 0 := by
  obtain ⟨w, h1, h2, h3⟩ := h
  rw [sideR_average (ok := (0 < ·)) s h2 h3]
  have hval : ∀ k < (entVerts c e.1 e.2).length, sideR c s (entityV c (refVertex c) e k) =
      (sideQ c s ((entVerts c e.1 e.2).getD k 0) : ℝ) := fun k _ => sideR_vertex c s _
  have hmem : ∀ k (hk : k < (entVerts c e.1 e.2).length), (entVerts c e.1 e.2).getD k 0 ∈ entVerts c e.1 e.2 := by
    intro k hk
    rw [List.getD_eq_getElem _ _ hk]
    exact List.getElem_mem _
  rw [sum_eq_zero_iff_of_nonneg]
  · constructor
    · intro h i hi
      obtain ⟨k, hk, rfl⟩ := List.getElem_of_mem hi
      have := h k (mem_range.2 hk)
      rw [hval k hk] at this
      rcases mul_eq_zero.1 this with h' | h'
      · exact absurd h' (h1 k hk).ne'
      · rw [List.getD_eq_getElem _ _ hk] at h'
        exact_mod_cast h'
    · intro h k hk
      rw [hval k (mem_range.1 hk), h _ (hmem k (mem_range.1 hk))]
      simp
  · intro k hk
    rw [hval k (mem_range.1 hk)]
    exact mul_nonneg (h1 k (mem_range.1 hk)).le (by exact_mod_cast hs _ (hmem k (mem_range.1 hk)))

/-- Are all vertices of the entity on the side? -/
def onSide (c : Cell) (e : ℕ × ℕ) (s : List ℤ) : Bool := (entVerts c e.1 e.2).all fun i => decide (sideQ c s i = 0)

/-- A point is in the relative interior of one sub-entity of a default reference at most. -/
theorem interior_unique {c : Cell} (hc : Fixed c) {e e' : ℕ × ℕ} (he : Entity c e) (he' : Entity c e') {p p' : ℕ → ℝ}
    (hp : ∀ j < c.tdim, p j = p' j) (h : Interior c c.tdim (refVertex c) e p) (h' : Interior c c.tdim (refVertex c) e' p') :
    e = e' := by
  have hpos : ∀ c ∈ cells, ∀ s ∈ sides c, ∀ i < c.nverts, 0 ≤ sideQ c s i := by decide +kernel
  have key : ∀ c ∈ cells, ∀ d < 4, ∀ n < count c d, ∀ d' < 4, ∀ n' < count c d',
      (sides c).map (onSide c (d, n)) = (sides c).map (onSide c (d', n')) → d = d' ∧ n = n' := by
    decide +kernel
  have hcc := fixed_mem hc
  have heq : ∀ s, sideR c s p = sideR c s p' := fun s => by
    unfold sideR
    congr 1
    exact sum_congr rfl fun j hj => by rw [hp j (mem_range.1 hj)]
  have := key c hcc e.1 (by have := he.1; omega) e.2 he.2 e'.1 (by have := he'.1; omega) e'.2 he'.2 <| List.map_congr_left fun s hs => by
    rw [Bool.eq_iff_iff]
    simp only [onSide, List.all_eq_true, decide_eq_true_eq]
    rw [← side_zero_iff h fun i hi => hpos c hcc s hs i ((entity_facts hc he).2.2.1 i hi),
      ← side_zero_iff h' fun i hi => hpos c hcc s hs i ((entity_facts hc he').2.2.1 i hi), heq]
  exact Prod.ext this.1 this.2

/-- Integrals on different sub-entities are drawn at different places. -/
theorem adjusted_separate {c : Cell} (hc : Fixed c) {d d' : Located} (hd : Valid c c.tdim (refVertex c) d)
    (hd' : Valid c c.tdim (refVertex c) d') (hi : d.isIntegral = true) (hi' : d'.isIntegral = true)
    (h : ∀ j < c.tdim, adjusted c (refVertex c) d j = adjusted c (refVertex c) d' j) : d.entity = d'.entity :=
  interior_unique hc hd.entity hd'.entity h (adjusted_interior hc hd hi) (adjusted_interior hc hd' hi')

/-- The axes of an entity of a default reference, in integers. -/
def axisQ (c : Cell) (e : ℕ × ℕ) (k j : ℕ) : ℚ :=
  refVertex c ((entVerts c e.1 e.2).getD ((axisVertices (entityCell c e)).getD k 0) 0) j -
    refVertex c ((entVerts c e.1 e.2).getD 0 0) j

/-- Rows of length three. -/
def rows : List (List ℤ) :=
  [-1, 0, 1].flatMap fun a => [-1, 0, 1].flatMap fun b => [-1, 0, 1].map fun d => [a, b, d]

/-- The parameters of a point of an entity are determined by the point. -/
theorem axes_independent {c : Cell} (hc : Fixed c) {e : ℕ × ℕ} (he : Entity c e) {z z' : ℕ → ℝ}
    (h : ∀ j < c.tdim, ∑ k ∈ range (entityCell c e).tdim, axis (entityCell c e) (entityV c (refVertex c) e) k j * z k =
      ∑ k ∈ range (entityCell c e).tdim, axis (entityCell c e) (entityV c (refVertex c) e) k j * z' k) :
    ∀ k < (entityCell c e).tdim, z k = z' k := by
  have key : ∀ c ∈ cells, ∀ d < 4, ∀ n < count c d, ∀ k < (entType c d n).tdim, ∃ r ∈ rows, ∀ k' < (entType c d n).tdim,
      ((List.range c.tdim).map fun j => (r.getD j 0 : ℚ) * axisQ c (d, n) k' j).sum = if k' = k then 1 else 0 := by
    decide +kernel
  intro k hk
  obtain ⟨r, -, hr⟩ := key c (fixed_mem hc) e.1 (by have := he.1; omega) e.2 he.2 k hk
  have hr' : ∀ k' < (entityCell c e).tdim, ∑ j ∈ range c.tdim, (r.getD j 0 : ℝ) *
      axis (entityCell c e) (entityV c (refVertex c) e) k' j = if k' = k then 1 else 0 := by
    intro k' hk'
    have := congrArg (fun q : ℚ => (q : ℝ)) (hr k' hk')
    rw [cast_sum] at this
    rw [show ((if k' = k then 1 else 0 : ℝ)) = (((if k' = k then 1 else 0 : ℚ)) : ℝ) by split <;> simp, ← this]
    refine sum_congr rfl fun j _ => ?_
    push_cast
    congr 1
    show (refVertex c _ j - refVertex c _ j : ℝ) = _
    rw [refVertex_cast, refVertex_cast]
    unfold axisQ
    push_cast
    rfl
  have hz : ∀ z : ℕ → ℝ, ∑ j ∈ range c.tdim, (r.getD j 0 : ℝ) *
      ∑ k' ∈ range (entityCell c e).tdim, axis (entityCell c e) (entityV c (refVertex c) e) k' j * z k' = z k := by
    intro z
    simp only [mul_sum]
    rw [sum_comm]
    have : ∀ k' ∈ range (entityCell c e).tdim, ∑ j ∈ range c.tdim, (r.getD j 0 : ℝ) *
        (axis (entityCell c e) (entityV c (refVertex c) e) k' j * z k') = if k' = k then z k else 0 := by
      intro k' hk'
      simp only [← mul_assoc, ← sum_mul]
      rw [hr' k' (mem_range.1 hk')]
      split
      · next h => rw [h, one_mul]
      · rw [zero_mul]
    rw [sum_congr rfl this, sum_ite_eq', if_pos (mem_range.2 hk)]
  rw [← hz z, ← hz z']
  exact sum_congr rfl fun j hj => by rw [h j (mem_range.1 hj)]

/-- Two moments on a default reference are drawn at the same place only if they are on the same sub-entity, and the
functionals they are against have the same position on it. -/
theorem moments_separate {c : Cell} (hc : Fixed c) {d d' : Located} {e e' : ℕ × ℕ}
    (hd : Valid c c.tdim (refVertex c) (.moment d e)) (hd' : Valid c c.tdim (refVertex c) (.moment d' e'))
    (h : ∀ j < c.tdim, adjusted c (refVertex c) (.moment d e) j = adjusted c (refVertex c) (.moment d' e') j) :
    e = e' ∧ ∀ k < (entityCell c e).tdim, dofPoint (entityCell c e) (refVertex (entityCell c e)) d k =
      dofPoint (entityCell c e) (refVertex (entityCell c e)) d' k := by
  obtain rfl : e = e' := adjusted_separate hc hd hd' rfl rfl h
  refine ⟨rfl, axes_independent hc hd.1 fun j hj => ?_⟩
  have := (adjusted_eq_iff c (refVertex c) (d := .moment d e) (d' := .moment d' e) rfl rfl j).1 (h j hj)
  exact add_left_cancel this

/-! ### Lagrange elements -/

/-- The point of an equispaced Lagrange functional is in the relative interior of its sub-entity. -/
theorem lagrange_interior {c : Cell} (hc : Simplex c) (g : ℕ) (v : ℕ → ℕ → ℝ) {k : ℕ} (hk : 0 < k) {l : List PointDof}
    (hl : lagrangeDofs "equispaced" c v k = some l) {d : PointDof} (hd : d ∈ l) :
    Entity c d.entity ∧ Interior c g v d.entity d.point := by
  have he : Entity c d.entity := by
    obtain ⟨points, -, hl'⟩ := lagrangeDofs_equispaced hc.fixed v hk
    obtain rfl : allPoints c v points k (fun _ i => decide (i.sum < k)) = l := Option.some.inj (hl'.symm.trans hl)
    rcases List.mem_append.1 hd with hd | hd
    · obtain ⟨i, hi, rfl⟩ := List.mem_map.1 hd
      refine ⟨by show 0 ≤ 3; omega, ?_⟩
      have hi := List.mem_range.1 hi
      show i < count c 0
      rcases hc with rfl | rfl | rfl <;> exact hi
    · obtain ⟨edim, hedim, hd⟩ := List.mem_flatMap.1 hd
      obtain ⟨n, hn, hd⟩ := List.mem_flatMap.1 hd
      obtain ⟨i, hi, rfl⟩ := List.mem_map.1 hd
      rw [List.mem_range'_1] at hedim
      exact ⟨by show edim ≤ 3; omega, List.mem_range.1 hn⟩
  refine ⟨he, ?_⟩
  obtain ⟨β, hβ, hs, hp⟩ := lagrange_lattice_iff hc v hk hl hd
  have key : ∀ c ∈ [Cell.interval, .triangle, .tetrahedron], ∀ d < 4, ∀ n < count c d,
      (entVerts c d n).Nodup ∧ vertsOf c (d, n) = entVerts c d n ∧ ∀ i ∈ entVerts c d n, i < c.nverts := by decide +kernel
  obtain ⟨hnd, hvo, hlt⟩ := key c (by rcases hc with rfl | rfl | rfl <;> simp) d.entity.1 (by have := he.1; omega) d.entity.2 he.2
  have hext : ∀ f : ℕ → ℝ, (∀ x ∉ entVerts c d.entity.1 d.entity.2, f x = 0) → ∑ x ∈ range c.nverts, f x =
      ∑ m ∈ range (entVerts c d.entity.1 d.entity.2).length, f ((entVerts c d.entity.1 d.entity.2).getD m 0) := by
    intro f hf
    have h1 : ∑ x ∈ range c.nverts, f x = ∑ x ∈ (entVerts c d.entity.1 d.entity.2).toFinset, f x :=
      (sum_subset (fun x hx => mem_range.2 (hlt x (List.mem_toFinset.1 hx)))
        fun x _ hx => hf x fun h => hx (List.mem_toFinset.2 h)).symm
    rw [h1, List.sum_toFinset _ hnd]
    generalize entVerts c d.entity.1 d.entity.2 = L
    induction L with
    | nil => simp
    | cons a L ih => rw [List.map_cons, List.sum_cons, List.length_cons, sum_range_succ', ih]; simp [add_comm]
  have hk' : (k : ℝ) ≠ 0 := by exact_mod_cast hk.ne'
  have h0 : ∀ x ∉ entVerts c d.entity.1 d.entity.2, β x = 0 := fun x hx => by
    by_contra h
    exact hx (hvo ▸ (hs x).1 h)
  refine ⟨fun m => (β ((entVerts c d.entity.1 d.entity.2).getD m 0) : ℝ) / k, fun m hm => ?_, ?_, fun j _ => ?_⟩
  · have : β ((entVerts c d.entity.1 d.entity.2).getD m 0) ≠ 0 := (hs _).2 (by
      rw [show vertsOf c d.entity = _ from hvo, List.getD_eq_getElem _ _ hm]
      exact List.getElem_mem _)
    have : (0 : ℝ) < β ((entVerts c d.entity.1 d.entity.2).getD m 0) := by exact_mod_cast Nat.pos_of_ne_zero this
    have : (0 : ℝ) < k := by exact_mod_cast hk
    show 0 < _ / _
    positivity
  · rw [← hext (fun x => (β x : ℝ) / k) fun x hx => by simp [h0 x hx], ← sum_div]
    rw [← Nat.cast_sum, hβ]
    exact div_self hk'
  · rw [hp]
    exact hext (fun i => (β i : ℝ) / k * v i j) fun x hx => by simp [h0 x hx]

/-- A moment on a default reference against an equispaced Lagrange element on a sub-entity is drawn in the relative
interior of the sub-entity. -/
theorem lagrange_moment {c : Cell} (hc : Fixed c) {e : ℕ × ℕ} (he : Entity c e) (hs : Simplex (entityCell c e)) {k : ℕ}
    (hk : 0 < k) {l : List PointDof} (hl : lagrangeDofs "equispaced" (entityCell c e) (refVertex (entityCell c e)) k = some l)
    {d : PointDof} (hd : d ∈ l) : Valid c c.tdim (refVertex c) (.moment (.point d.point d.entity) e) ∧
      Interior c c.tdim (refVertex c) e (adjusted c (refVertex c) (.moment (.point d.point d.entity) e)) := by
  obtain ⟨h1, h2⟩ := lagrange_interior hs (entityCell c e).tdim _ hk hl hd
  have hv : Valid c c.tdim (refVertex c) (.moment (.point d.point d.entity) e) :=
    ⟨he, straight_default hc he, h1, h2.weaken⟩
  exact ⟨hv, adjusted_interior hc hv rfl⟩

/-! ### Quadrilaterals that are not parallelograms -/

/-- The position of the moment over the cell against the functional at the last vertex. -/
theorem quad_position (v : ℕ → ℕ → ℝ) (j : ℕ) :
    dofPoint .quadrilateral v (.moment (.point (refVertex .quadrilateral 3) (0, 3)) (2, 0)) j = v 1 j + v 2 j - v 0 j := by
  show v 0 j + ∑ k ∈ range 2, _ = _
  rw [sum_range_succ, sum_range_one]
  show v 0 j + ((v 1 j - v 0 j) * refVertex .quadrilateral 3 0 + (v 2 j - v 0 j) * refVertex .quadrilateral 3 1) = _
  simp only [refVertex, refVerts, coords]
  norm_num
  ring

/-- It is the last vertex of the cell exactly if the cell is a parallelogram. -/
theorem quad_position_iff (g : ℕ) (v : ℕ → ℕ → ℝ) :
    (∀ j < g, dofPoint .quadrilateral v (.moment (.point (refVertex .quadrilateral 3) (0, 3)) (2, 0)) j = v 3 j) ↔
      Straight .quadrilateral g v (2, 0) := by
  rw [straight_quad_iff]
  simp only [quad_position, eq_comm]

/-- The vertices (0, 0), (1, 0), (0, 1), (3/4, 3/4). -/
noncomputable def kite : ℕ → ℕ → ℝ := fun i => coords ([[0, 0], [1, 0], [0, 1], [3 / 4, 3 / 4]].getD i [])

/-- On this quadrilateral a moment has its position outside of the cell. -/
theorem position_outside : Valid .quadrilateral 2 (refVertex .quadrilateral) (.point (refVertex .quadrilateral 3) (0, 3)) ∧
    ¬ Inside .quadrilateral 2 kite (2, 0)
      (dofPoint .quadrilateral kite (.moment (.point (refVertex .quadrilateral 3) (0, 3)) (2, 0))) := by
  refine ⟨⟨⟨by decide, by decide⟩, fun _ => 1, fun _ _ => zero_le_one, by simp [entVerts, Cell.subEntities, Cell.nverts], fun j _ => ?_⟩, ?_⟩
  · show _ = ∑ i ∈ range 1, _
    rw [sum_range_one, one_mul]
    rfl
  · rintro ⟨w, h1, h2, h3⟩
    have hlen : (entVerts .quadrilateral 2 0).length = 4 := by decide
    have e0 : dofPoint .quadrilateral kite (.moment (.point (refVertex .quadrilateral 3) (0, 3)) (2, 0)) 0 = 1 := by
      rw [quad_position]
      simp [kite, coords]
    have e1 : dofPoint .quadrilateral kite (.moment (.point (refVertex .quadrilateral 3) (0, 3)) (2, 0)) 1 = 1 := by
      rw [quad_position]
      simp [kite, coords]
    have a0 := h3 0 (by norm_num)
    have a1 := h3 1 (by norm_num)
    rw [e0, hlen] at a0
    rw [e1, hlen] at a1
    rw [hlen] at h2
    simp only [sum_range_succ, sum_range_zero] at a0 a1 h2
    have hv : ∀ i < 4, ∀ j, entityV .quadrilateral kite (2, 0) i j = kite i j := by
      intro i hi j
      interval_cases i <;> rfl
    simp only [hv 0 (by norm_num), hv 1 (by norm_num), hv 2 (by norm_num), hv 3 (by norm_num)] at a0 a1
    simp [kite, coords] at a0 a1
    have := h1 0 (by rw [hlen]; norm_num)
    have := h1 1 (by rw [hlen]; norm_num)
    have := h1 2 (by rw [hlen]; norm_num)
    have := h1 3 (by rw [hlen]; norm_num)
    simp only at *
    linarith

/-- The functionals of the lowest order Raviart-Thomas element on a triangle: integrals against the functional of the
Lagrange element of order 0 on the edges, which is at the midpoint. -/
example : Valid .triangle 2 (refVertex .triangle) (.moment (.point (fun _ => 1 / 2) (1, 0)) (1, 0)) := by
  refine ⟨⟨by decide, by decide⟩, straight_default (by intro n h; cases h) ⟨by decide, by decide⟩, ⟨by decide, by decide⟩,
    fun _ => 1 / 2, fun _ _ => by norm_num, ?_, fun j hj => ?_⟩
  · show ∑ i ∈ range 2, (1 / 2 : ℝ) = 1
    norm_num
  · obtain rfl : j = 0 := by have : j < 1 := hj; omega
    show _ = ∑ i ∈ range 2, _
    rw [sum_range_succ, sum_range_one]
    show (1 / 2 : ℝ) = 1 / 2 * refVertex .interval 0 0 + 1 / 2 * refVertex .interval 1 0
    simp [refVertex, refVerts, coords]

end Verif.Positions
