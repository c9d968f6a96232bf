import Verif.Elements.PropsLagrange
import Verif.Elements.Table
import Verif.Functionals.PropsMoment
/-!
# The positions of the functionals

`dof_point` and `adjusted_dof_point` of the functionals (symfem/functionals.py), and the list `dof_plot_positions` of an
element defined by functionals (symfem/finite_element.py:637-643).  A functional is represented by the data that its
position depends on.
-/

namespace Verif.Positions
open Verif.References Verif.Elements Verif.Functionals Finset

/-- A functional, as far as its position is concerned.  `point`: the classes that return `self.point`
(symfem/functionals.py:278-294, 344-360, 416-432, 515-541, 642-658, 719-747, 808-835, 898-922).  `integral`: the integrals
that are not against the function of a functional (symfem/functionals.py:982-988, 1066-1072, 1149-1155).  `moment`: the
subclasses of `IntegralMoment`, with the functional `self.dof` of an element on the entity
(symfem/functionals.py:1220-1257). -/
inductive Located where
  | point (p : ℕ → ℝ) (e : ℕ × ℕ)
  | integral (e : ℕ × ℕ)
  | moment (dof : Located) (e : ℕ × ℕ)

/-- `self.entity`. -/
def Located.entity : Located → ℕ × ℕ
  | .point _ e => e
  | .integral e => e
  | .moment _ e => e

/-- Is it one of the classes that do not override `adjusted_dof_point`? -/
def Located.isIntegral : Located → Bool
  | .point _ _ => false
  | _ => true

/-- `reference.sub_entity(*entity)` of a cell with vertices `v` (symfem/references.py:569-598). -/
def entityCell (c : Cell) (e : ℕ × ℕ) : Cell := entType c e.1 e.2
/-- The vertices of the sub-entity. -/
def entityV (c : Cell) (v : ℕ → ℕ → ℝ) (e : ℕ × ℕ) : ℕ → ℕ → ℝ := entityVerts v (entVerts c e.1 e.2)

/-- `dof_point`.  In an `IntegralMoment`, `origin + sum(axes[j] * p_j)` (symfem/functionals.py:1309-1319), where the
functional `self.dof` belongs to an element on the default reference of the entity (symfem/moments.py:98-112). -/
noncomputable def dofPoint (c : Cell) (v : ℕ → ℕ → ℝ) : Located → ℕ → ℝ
  | .point p _ => p
  | .integral e => midpoint (entityCell c e) (entityV c v e)
  | .moment d e => fun i => entityV c v e 0 i + ∑ j ∈ range (entityCell c e).tdim,
      axis (entityCell c e) (entityV c v e) j i * dofPoint (entityCell c e) (refVertex (entityCell c e)) d j

/-- `adjusted_dof_point` (symfem/functionals.py:192-204, and the overrides of the point evaluations). -/
noncomputable def adjusted (c : Cell) (v : ℕ → ℕ → ℝ) (d : Located) : ℕ → ℝ :=
  if d.isIntegral = false then dofPoint c v d
  else if d.entity.1 = 0 then dofPoint c v d
  else fun i => midpoint (entityCell c d.entity) (entityV c v d.entity) i +
    7 / 10 * (dofPoint c v d i - midpoint (entityCell c d.entity) (entityV c v d.entity) i)

/-- `dof_plot_positions` of an element with these functionals (symfem/finite_element.py:637-643). -/
noncomputable def plotPositions (c : Cell) (v : ℕ → ℕ → ℝ) (ds : List Located) : List (ℕ → ℝ) := ds.map (adjusted c v)

/-! ### The specification -/

/-- The point is an average of the `n` vertices, with weights that satisfy `ok`. -/
def Average (ok : ℝ → Prop) (n g : ℕ) (v : ℕ → ℕ → ℝ) (p : ℕ → ℝ) : Prop :=
  ∃ w : ℕ → ℝ, (∀ i < n, ok (w i)) ∧ ∑ i ∈ range n, w i = 1 ∧ ∀ j < g, p j = ∑ i ∈ range n, w i * v i j

/-- The point is in the sub-entity, which is the convex hull of its vertices. -/
def Inside (c : Cell) (g : ℕ) (v : ℕ → ℕ → ℝ) (e : ℕ × ℕ) (p : ℕ → ℝ) : Prop :=
  Average (0 ≤ ·) (entVerts c e.1 e.2).length g (entityV c v e) p

/-- The point is in the relative interior of the sub-entity. -/
def Interior (c : Cell) (g : ℕ) (v : ℕ → ℕ → ℝ) (e : ℕ × ℕ) (p : ℕ → ℝ) : Prop :=
  Average (0 < ·) (entVerts c e.1 e.2).length g (entityV c v e) p

/-- A sub-entity of the cell. -/
def Entity (c : Cell) (e : ℕ × ℕ) : Prop := e.1 ≤ 3 ∧ e.2 < count c e.1

/-- The sub-entity is the image of its reference under the map with its axes: always so for points, intervals, triangles
and tetrahedra, and for quadrilaterals if they are parallelograms. -/
def Straight (c : Cell) (g : ℕ) (v : ℕ → ℕ → ℝ) (e : ℕ × ℕ) : Prop :=
  ∀ i < (entVerts c e.1 e.2).length, ∀ j < g, entityV c v e i j =
    (⟨entityCell c e, g, entityV c v e⟩ : Domain).param (refVertex (entityCell c e) i) j

/-- The functionals for which positions are claimed: point evaluations at a point of their sub-entity, integrals over a
sub-entity, and moments over a sub-entity against such a functional. -/
def Valid (c : Cell) (g : ℕ) (v : ℕ → ℕ → ℝ) : Located → Prop
  | .point p e => Entity c e ∧ Inside c g v e p
  | .integral e => Entity c e
  | .moment d e => Entity c e ∧ Straight c g v e ∧
      Valid (entityCell c e) (entityCell c e).tdim (refVertex (entityCell c e)) d

/-! ### Tables -/

/-- The cells with a fixed number of vertices. -/
def cells : List Cell := [.point, .interval, .triangle, .tetrahedron, .quadrilateral, .hexahedron, .prism, .pyramid]

theorem fixed_mem {c : Cell} (hc : Fixed c) : c ∈ cells := by
  cases c with
  | dualPolygon n => exact absurd rfl (hc n)
  | _ => decide

theorem entity_facts {c : Cell} (hc : Fixed c) {e : ℕ × ℕ} (he : Entity c e) :
    (entVerts c e.1 e.2).length = (entityCell c e).nverts ∧ 0 < (entityCell c e).nverts ∧
      (∀ i ∈ entVerts c e.1 e.2, i < c.nverts) ∧ (e.1 = 0 → (entVerts c e.1 e.2).length = 1) ∧ entityCell c e ∈ cells := by
  have key : ∀ c ∈ cells, ∀ d < 4, ∀ n < count c d, (entVerts c d n).length = (entType c d n).nverts ∧
      0 < (entType c d n).nverts ∧ (∀ i ∈ entVerts c d n, i < c.nverts) ∧ (d = 0 → (entVerts c d n).length = 1) ∧
      entType c d n ∈ cells := by decide +kernel
  exact key c (fixed_mem hc) e.1 (by have := he.1; omega) e.2 he.2

theorem mem_fixed {c : Cell} (h : c ∈ cells) : Fixed c := by
  rintro n rfl
  simp [cells] at h

/-! ### Averages -/

theorem Average.weaken {n g : ℕ} {v : ℕ → ℕ → ℝ} {p : ℕ → ℝ} (h : Average (0 < ·) n g v p) : Average (0 ≤ ·) n g v p := by
  obtain ⟨w, h1, h2, h3⟩ := h
  exact ⟨w, fun i hi => (h1 i hi).le, h2, h3⟩

/-- A sub-entity is a part of the cell. -/
theorem Inside.cell {c : Cell} (hc : Fixed c) {g : ℕ} {v : ℕ → ℕ → ℝ} {e : ℕ × ℕ} (he : Entity c e) {p : ℕ → ℝ}
    (h : Inside c g v e p) : Average (0 ≤ ·) c.nverts g v p := by
  obtain ⟨w, h1, h2, h3⟩ := h
  obtain ⟨-, -, hv, -⟩ := entity_facts hc he
  have hm : ∀ k ∈ range (entVerts c e.1 e.2).length, (entVerts c e.1 e.2).getD k 0 ∈ range c.nverts := by
    intro k hk
    rw [List.getD_eq_getElem _ _ (mem_range.1 hk)]
    exact mem_range.2 (hv _ (List.getElem_mem _))
  refine ⟨fun i => ∑ k ∈ range (entVerts c e.1 e.2).length with (entVerts c e.1 e.2).getD k 0 = i, w k,
    fun i _ => sum_nonneg fun k hk => h1 k (mem_range.1 (mem_filter.1 hk).1), ?_, fun j hj => ?_⟩
  · rw [sum_fiberwise_of_maps_to hm]
    exact h2
  · rw [h3 j hj, ← sum_fiberwise_of_maps_to hm]
    refine sum_congr rfl fun i _ => ?_
    rw [sum_mul]
    refine sum_congr rfl fun k hk => ?_
    rw [← (mem_filter.1 hk).2]
    rfl

theorem midpoint_interior {c : Cell} (hc : Fixed c) (g : ℕ) (v : ℕ → ℕ → ℝ) {e : ℕ × ℕ} (he : Entity c e) :
    Interior c g v e (midpoint (entityCell c e) (entityV c v e)) := by
  obtain ⟨hl, h0, -⟩ := entity_facts hc he
  have h0' : ((entityCell c e).nverts : ℝ) ≠ 0 := by exact_mod_cast h0.ne'
  refine ⟨fun _ => 1 / ((entityCell c e).nverts : ℝ), fun i _ => ?_, ?_, fun j _ => ?_⟩
  · exact one_div_pos.2 (by exact_mod_cast h0)
  · rw [sum_const, card_range, hl, nsmul_eq_mul]
    field_simp
  · rw [← mul_sum, hl]
    unfold References.midpoint
    ring

/-! ### The positions -/

/-- The position of a functional is in the sub-entity that the functional is associated with. -/
theorem position_inside {c : Cell} (hc : Fixed c) {g : ℕ} {v : ℕ → ℕ → ℝ} {d : Located} (hd : Valid c g v d) :
    Inside c g v d.entity (dofPoint c v d) := by
  induction d generalizing c g v with
  | point p e => exact hd.2
  | integral e => exact (midpoint_interior hc g v hd).weaken
  | moment d e ih =>
    obtain ⟨he, hs, hd⟩ := hd
    obtain ⟨hl, -, -, -, hm⟩ := entity_facts hc he
    have hf := mem_fixed hm
    have hent : Entity (entityCell c e) d.entity := by
      cases d with
      | point => exact hd.1
      | integral => exact hd
      | moment => exact hd.1
    obtain ⟨w, h1, h2, h3⟩ := (ih hf hd).cell hf hent
    refine ⟨w, fun i hi => h1 i (hl ▸ hi), by rw [show Located.entity (.moment d e) = e from rfl, hl]; exact h2, fun j hj => ?_⟩
    show entityV c v e 0 j + ∑ k ∈ range (entityCell c e).tdim, axis (entityCell c e) (entityV c v e) k j *
      dofPoint (entityCell c e) (refVertex (entityCell c e)) d k = ∑ i ∈ range (entVerts c e.1 e.2).length, w i * entityV c v e i j
    have hr : ∑ i ∈ range (entVerts c e.1 e.2).length, w i * entityV c v e i j =
        ∑ i ∈ range (entVerts c e.1 e.2).length, w i * (⟨entityCell c e, g, entityV c v e⟩ : Domain).param (refVertex (entityCell c e) i) j :=
      sum_congr rfl fun i hi => by rw [← hs i (mem_range.1 hi) j hj]
    rw [hr]
    simp only [Domain.param, mul_add, sum_add_distrib, ← sum_mul]
    rw [hl, h2, one_mul]
    congr 1
    simp only [mul_sum]
    rw [sum_comm]
    refine sum_congr rfl fun k hk => ?_
    rw [h3 k (mem_range.1 hk), mul_sum]
    refine sum_congr rfl fun i _ => ?_
    show (entityV c v e _ j - entityV c v e 0 j) * _ = _
    ring

theorem Valid.entity {c : Cell} {g : ℕ} {v : ℕ → ℕ → ℝ} {d : Located} (hd : Valid c g v d) : Entity c d.entity := by
  cases d with
  | point => exact hd.1
  | integral => exact hd
  | moment => exact hd.1

/-- The plotted position of an integral is in the relative interior of its sub-entity. -/
theorem adjusted_interior {c : Cell} (hc : Fixed c) {g : ℕ} {v : ℕ → ℕ → ℝ} {d : Located} (hd : Valid c g v d)
    (hi : d.isIntegral = true) : Interior c g v d.entity (adjusted c v d) := by
  have he := hd.entity
  obtain ⟨w, h1, h2, h3⟩ := position_inside hc hd
  unfold adjusted
  rw [if_neg (by simp [hi])]
  split
  · next h0 =>
    have hl := (entity_facts hc he).2.2.2.1 h0
    refine ⟨w, fun i hi' => ?_, h2, h3⟩
    rw [hl] at h2 hi'
    obtain rfl : i = 0 := by omega
    rw [sum_range_one] at h2
    show 0 < w 0
    rw [h2]
    exact one_pos
  · obtain ⟨m, k1, k2, k3⟩ := midpoint_interior hc g v he
    refine ⟨fun i => 3 / 10 * m i + 7 / 10 * w i, fun i hi' => ?_, ?_, fun j hj => ?_⟩
    · have := k1 i hi'
      have := h1 i hi'
      simp only at *
      positivity
    · rw [sum_add_distrib, ← mul_sum, ← mul_sum, k2, h2]
      norm_num
    · simp only [add_mul, sum_add_distrib, mul_assoc, ← mul_sum]
      rw [← k3 j hj, ← h3 j hj]
      ring

/-- `dof_plot_positions` has one point for every functional, in order: the point of a point evaluation, and a point in the
relative interior of the sub-entity of an integral. -/
theorem plot_positions {c : Cell} (hc : Fixed c) {g : ℕ} {v : ℕ → ℕ → ℝ} {ds : List Located} (hds : ∀ d ∈ ds, Valid c g v d) :
    (plotPositions c v ds).length = ds.length ∧ ∀ n (hn : n < ds.length), ∃ p, (plotPositions c v ds)[n]? = some p ∧
      Inside c g v ds[n].entity p ∧ (ds[n].isIntegral = true → Interior c g v ds[n].entity p) ∧
      ∀ q e, ds[n] = .point q e → p = q := by
  refine ⟨by simp [plotPositions], fun n hn => ⟨adjusted c v ds[n], by simp [plotPositions, hn], ?_, ?_, ?_⟩⟩
  · cases h : ds[n] with
    | point p e =>
      have := hds _ (List.getElem_mem hn)
      rw [h] at this
      exact this.2
    | integral e =>
      have := hds _ (List.getElem_mem hn)
      rw [h] at this
      exact (adjusted_interior hc this rfl).weaken
    | moment d e =>
      have := hds _ (List.getElem_mem hn)
      rw [h] at this
      exact (adjusted_interior hc this rfl).weaken
  · exact fun h => adjusted_interior hc (hds _ (List.getElem_mem hn)) h
  · intro q e h
    rw [h]
    rfl

/-- Point evaluations are drawn where they evaluate. -/
theorem adjusted_point (c : Cell) (v : ℕ → ℕ → ℝ) (p : ℕ → ℝ) (e : ℕ × ℕ) : adjusted c v (.point p e) = p := rfl

/-- Integrals on one sub-entity are drawn at one place only if they have one position. -/
theorem adjusted_eq_iff (c : Cell) (v : ℕ → ℕ → ℝ) {d d' : Located} (hi : d.isIntegral = d'.isIntegral)
    (he : d.entity = d'.entity) (j : ℕ) : adjusted c v d j = adjusted c v d' j ↔ dofPoint c v d j = dofPoint c v d' j := by
  unfold adjusted
  rw [← hi, ← he]
  split
  · rfl
  · split
    · rfl
    · constructor <;> intro h <;> linarith

end Verif.Positions
