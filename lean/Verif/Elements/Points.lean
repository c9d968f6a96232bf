import Verif.Elements.Lagrange
import Verif.Elements.Interp
import Verif.FiniteElement.PropsBasis
import Verif.Quadrature.Props
import Mathlib.Tactic.IntervalCases
/-!
# The lists of points in closed form
-/

namespace Verif.Elements
open Verif.References Verif.Quadrature Verif.Polysets

/-- Specification of the points of an entity: the first vertex plus multiples of the axes. -/
noncomputable def entityPoint (t : Cell) (w : ℕ → ℕ → ℝ) (cs : List ℝ) : ℕ → ℝ := fun j =>
  w 0 j + ∑ m ∈ Finset.range cs.length, axis t w m j * cs.getD m 0

theorem foldl_zipIdx (f : ℕ → ℝ) (cs : List ℝ) (s : ℕ) (a : ℝ) :
    (cs.zipIdx s).foldl (fun pt b => pt + f b.2 * b.1) a =
      a + ∑ m ∈ Finset.range cs.length, f (s + m) * cs.getD m 0 := by
  induction cs generalizing s a with
  | nil => simp
  | cons c cs ih =>
    rw [List.zipIdx_cons, List.foldl_cons, ih, List.length_cons, Finset.sum_range_succ']
    simp only [List.getD_cons_succ, List.getD_cons_zero, add_zero]
    have : ∀ m, s + 1 + m = s + (m + 1) := fun m => by omega
    simp only [this]
    ring

theorem getPoint_eq (t : Cell) (w : ℕ → ℕ → ℝ) (cs : List ℝ) (h : cs.length = (axisVertices t).length) :
    getPoint t w cs = some (entityPoint t w cs) := by
  unfold getPoint
  rw [if_pos h]
  congr 1
  funext j
  refine (foldl_zipIdx (fun m => axis t w m j) cs 0 (w 0 j)).trans ?_
  simp only [Nat.zero_add]
  rfl

theorem length_of_mem_product {l : List ℕ} {d : ℕ} {i : List ℕ} (h : i ∈ product l d) : i.length = d := by
  induction d generalizing i with
  | zero => simp [product] at h; simp [h]
  | succ d ih =>
    simp only [product, List.mem_flatMap, List.mem_map] at h
    obtain ⟨a, _, t, ht, rfl⟩ := h
    simp [ih ht]

theorem mem_product {l : List ℕ} {d : ℕ} {i : List ℕ} : i ∈ product l d ↔ i.length = d ∧ ∀ a ∈ i, a ∈ l := by
  induction d generalizing i with
  | zero => simp [product]; rintro rfl; simp
  | succ d ih =>
    simp only [product, List.mem_flatMap, List.mem_map]
    constructor
    · rintro ⟨a, ha, t, ht, rfl⟩
      obtain ⟨h1, h2⟩ := ih.1 ht
      exact ⟨by simp [h1], by simpa [ha] using h2⟩
    · rintro ⟨h1, h2⟩
      match i, h1 with
      | a :: t, h1 =>
        exact ⟨a, h2 a (by simp), t, ih.2 ⟨by simpa using h1, fun b hb => h2 b (by simp [hb])⟩, rfl⟩

theorem mem_innerRange {k a : ℕ} : a ∈ innerRange k ↔ 1 ≤ a ∧ a < k := by
  simp [innerRange, List.mem_range'_1]; omega

/-- The cells with a fixed number of vertices. -/
def Fixed (c : Cell) : Prop := ∀ n, c ≠ .dualPolygon n

/-- The type and the vertices of an entity. -/
def entType (c : Cell) (edim n : ℕ) : Cell := (c.subEntityType edim n).getD .point
def entVerts (c : Cell) (edim n : ℕ) : List ℕ := ((c.subEntities edim).bind (·[n]?)).getD []

theorem entity_table (c : Cell) (hc : Fixed c) (edim n : ℕ) (h1 : 1 ≤ edim) (h3 : edim ≤ 3) (cnt : ℕ)
    (hcnt : c.subEntityCount edim = some cnt) (hn : n < cnt) :
    c.subEntityType edim n = some (entType c edim n) ∧
    (c.subEntities edim).bind (·[n]?) = some (entVerts c edim n) ∧
    (axisVertices (entType c edim n)).length = edim ∧
    (entType c edim n).nverts = (entVerts c edim n).length := by
  cases c with
  | dualPolygon m => exact absurd rfl (hc m)
  | _ =>
    interval_cases edim <;> simp [Cell.subEntityCount, Cell.subEntities, Cell.edges, Cell.faces, Cell.volumes] at hcnt <;>
      subst hcnt <;> first | omega | (interval_cases n <;> exact ⟨rfl, rfl, rfl, rfl⟩)

/-- The evaluations on one entity, in closed form. -/
noncomputable def entityList (c : Cell) (v : ℕ → ℕ → ℝ) (points : List ℝ) (k : ℕ) (keep : Cell → List ℕ → Bool)
    (edim n : ℕ) : List PointDof :=
  ((product (innerRange k) edim).filter (keep (entType c edim n))).map fun i =>
    ⟨entityPoint (entType c edim n) (entityVerts v (entVerts c edim n)) (i.reverse.map fun j => points.getD j 0),
      (edim, n)⟩

theorem onEntity_eq {c : Cell} (hc : Fixed c) (v : ℕ → ℕ → ℝ) (points : List ℝ) (k : ℕ)
    (keep : Cell → List ℕ → Bool) {edim n cnt : ℕ} (h1 : 1 ≤ edim) (h3 : edim ≤ 3)
    (hcnt : c.subEntityCount edim = some cnt) (hn : n < cnt) :
    onEntity c v points k keep edim n = some (entityList c v points k keep edim n) := by
  obtain ⟨ht, he, hl, _⟩ := entity_table c hc edim n h1 h3 cnt hcnt hn
  unfold onEntity
  rw [ht, he]
  refine FiniteElement.mapM_some_of _ _ _ fun i hi => ?_
  rw [getPoint_eq]
  · rfl
  · rw [List.length_map, List.length_reverse, length_of_mem_product (List.mem_of_mem_filter hi), hl]

/-- The number of entities of a dimension. -/
def count (c : Cell) (edim : ℕ) : ℕ := (c.subEntityCount edim).getD 0

theorem count_eq (c : Cell) {edim : ℕ} (h3 : edim ≤ 3) : c.subEntityCount edim = some (count c edim) := by
  have : edim = 0 ∨ edim = 1 ∨ edim = 2 ∨ edim = 3 := by omega
  rcases this with rfl | rfl | rfl | rfl <;> rfl

theorem onEntities_eq {c : Cell} (hc : Fixed c) (v : ℕ → ℕ → ℝ) (points : List ℝ) (k : ℕ)
    (keep : Cell → List ℕ → Bool) {edim : ℕ} (h1 : 1 ≤ edim) (h3 : edim ≤ 3) :
    onEntities c v points k keep edim =
      some ((List.range (count c edim)).flatMap (entityList c v points k keep edim)) := by
  unfold onEntities
  rw [count_eq c h3]
  show Option.map _ _ = _
  rw [FiniteElement.mapM_some_of _ _ _ fun n hn => onEntity_eq hc v points k keep h1 h3 (count_eq c h3)
    (List.mem_range.1 hn)]
  rfl

/-- All evaluations of an element built from its entities, in closed form. -/
noncomputable def allPoints (c : Cell) (v : ℕ → ℕ → ℝ) (points : List ℝ) (k : ℕ) (keep : Cell → List ℕ → Bool) :
    List PointDof :=
  onVertices c v ++ (List.range' 1 3).flatMap fun edim =>
    (List.range (count c edim)).flatMap (entityList c v points k keep edim)

theorem joined_eq {c : Cell} (hc : Fixed c) (v : ℕ → ℕ → ℝ) (points : List ℝ) (k : ℕ)
    (keep : Cell → List ℕ → Bool) :
    joined (some (onVertices c v) :: (List.range' 1 3).map (onEntities c v points k keep)) =
      some (allPoints c v points k keep) := by
  have e := fun {d : ℕ} (h1 : 1 ≤ d) (h3 : d ≤ 3) => onEntities_eq hc v points k keep h1 h3
  simp only [show List.range' 1 3 = [1, 2, 3] from rfl, List.map_cons, List.map_nil]
  rw [e (d := 1) (by omega) (by omega), e (d := 2) (by omega) (by omega), e (d := 3) (by omega) (by omega)]
  simp [joined, allPoints, show List.range' 1 3 = [1, 2, 3] from rfl, List.mapM_cons]

/-- The points of a dof list with these nodes, membership. -/
theorem mem_allPoints {c : Cell} {v : ℕ → ℕ → ℝ} {points : List ℝ} {k : ℕ} {keep : Cell → List ℕ → Bool}
    {edim n : ℕ} (h1 : 1 ≤ edim) (h3 : edim ≤ 3) (hn : n < count c edim) {i : List ℕ} (hl : i.length = edim)
    (hi : ∀ a ∈ i, 1 ≤ a ∧ a < k) (hk : keep (entType c edim n) i = true) :
    (⟨entityPoint (entType c edim n) (entityVerts v (entVerts c edim n)) (i.reverse.map fun j => points.getD j 0),
      (edim, n)⟩ : PointDof) ∈ allPoints c v points k keep := by
  unfold allPoints
  refine List.mem_append_right _ (List.mem_flatMap.2 ⟨edim, ?_, List.mem_flatMap.2 ⟨n, List.mem_range.2 hn, ?_⟩⟩)
  · simp [List.mem_range'_1]; omega
  · exact List.mem_map.2 ⟨i, List.mem_filter.2 ⟨mem_product.2 ⟨hl, fun a ha => mem_innerRange.2 (hi a ha)⟩, hk⟩, rfl⟩

/-! ### The nodes of a rule -/

/-- The nodes on an interval: the ends and the inner points of the rule. -/
noncomputable def nodeOf (points : List ℝ) (k : ℕ) (i : ℕ) : ℝ :=
  if i = 0 then 0 else if i = k then 1 else points.getD i 0

theorem rulePoints_wf {variant : String} {k : ℕ} (hk : 0 < k) {points : List ℝ}
    (h : rulePoints variant k = some points) : ∃ w, WellFormed points w (k + 1) := by
  unfold rulePoints at h
  split at h
  · cases h
  split at h
  · rename_i r hr
    cases h
    obtain ⟨p, w⟩ := r
    refine ⟨w, ?_⟩
    unfold getQuadrature at hr
    split_ifs at hr
    · obtain ⟨p', w', h1, h2, -, -⟩ := equispaced_exact (k + 1) (by omega)
      rw [h1] at hr
      cases hr
      exact h2
    · exact (lobatto_exact _ _ _ hr).1
    · exact (lobatto_exact _ _ _ hr).1
    · exact (radau_exact _ _ _ hr).1
    · exact (legendre_exact _ _ _ hr).1
  · cases h

theorem node_strictMono {points w : List ℝ} {k : ℕ} (h : WellFormed points w (k + 1)) {a b : ℕ} (hab : a < b)
    (hb : b ≤ k) : nodeOf points k a < nodeOf points k b := by
  have hlt : ∀ {x y : ℕ} (hx : x < points.length) (hy : y < points.length), x < y → points[x] < points[y] :=
    fun hx hy hxy => List.pairwise_iff_getElem.1 h.increasing _ _ hx hy hxy
  have hin : ∀ {x : ℕ} (hx : x < points.length), 0 ≤ points[x] ∧ points[x] ≤ 1 := fun hx =>
    h.inside _ (List.getElem_mem hx)
  have hl := h.points_length
  have g : ∀ x (hx : x < points.length), points.getD x 0 = points[x] := fun x hx => by
    rw [List.getD_eq_getElem?_getD, List.getElem?_eq_getElem hx]; rfl
  unfold nodeOf
  have hb0 : b ≠ 0 := by omega
  have hak : a ≠ k := by omega
  rw [if_neg hb0]
  by_cases ha0 : a = 0
  · rw [if_pos ha0]
    by_cases hbk : b = k
    · rw [if_pos hbk]; norm_num
    · rw [if_neg hbk, g b (by omega)]
      exact lt_of_le_of_lt (hin (x := 0) (by omega)).1 (hlt _ _ (by omega))
  · rw [if_neg ha0, if_neg hak, g a (by omega)]
    by_cases hbk : b = k
    · rw [if_pos hbk]
      exact lt_of_lt_of_le (hlt (x := a) (y := k) _ (by omega) (by omega)) (hin (x := k) (by omega)).2
    · rw [if_neg hbk, g b (by omega)]
      exact hlt _ _ hab

theorem node_injOn {points w : List ℝ} {k : ℕ} (h : WellFormed points w (k + 1)) :
    Set.InjOn (nodeOf points k) (Set.Iic k) := by
  intro a ha b hb hab
  simp only [Set.mem_Iic] at ha hb
  rcases lt_trichotomy a b with h' | h' | h'
  · exact absurd hab (node_strictMono h h' hb).ne
  · exact h'
  · exact absurd hab (node_strictMono h h' ha).ne'

theorem rulePoints_equispaced {k : ℕ} (hk : 0 < k) :
    ∃ points, rulePoints "equispaced" k = some points ∧ ∀ i ≤ k, points.getD i 0 = (i : ℝ) / k := by
  obtain ⟨p, w, h1, h2, h3, -⟩ := equispaced_exact (k + 1) (by omega)
  refine ⟨p, by simp [rulePoints, getQuadrature, h1], fun i hi => ?_⟩
  rw [List.getD_eq_getElem?_getD, h3 i (by omega)]
  simp

end Verif.Elements
