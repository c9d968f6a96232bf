import Verif.Families.Sub
/-!
# The facets, edges and faces of the default simplices

The entities are given by their equations and directions, without the tables of the reference cells.
-/

namespace Verif.Families
open Verif.References Verif.Moments Verif.Functionals Verif.Elements Verif.FiniteElement Verif.Polysets Verif.Orthogonal
open MvPolynomial

/-- A vector that is normal to facet `i`, the facet opposite vertex `i`. -/
def facetNormal (i j : ℕ) : ℝ := if i = 0 then 1 else if j + 1 = i then 1 else 0

/-- The plane of facet `i`. -/
def OnFacet (d i : ℕ) (z : ℕ → ℝ) : Prop := if i = 0 then ∑ j : Fin d, z j.val = 1 else z (i - 1) = 0

/-- The Jacobian and normal of the facets. -/
structure FacetFacts (c : Cell) (i : ℕ) : Prop where
  cell : (entityDomain c (c.tdim - 1, i)).cell.tdim = c.tdim - 1
  solid : Solid (entityDomain c (c.tdim - 1, i)).cell
  facts : ∃ J n s, J ≠ 0 ∧ s ≠ 0 ∧
    jacobian (entityDomain c (c.tdim - 1, i)).cell c.tdim (entityDomain c (c.tdim - 1, i)).v = some J ∧
    normal (entityDomain c (c.tdim - 1, i)).cell c.tdim (entityDomain c (c.tdim - 1, i)).v = some n ∧
    ∀ j < c.tdim, n j = s * facetNormal i j
  perp : ∀ k < c.tdim - 1, ∑ j : Fin c.tdim, facetNormal i j.val *
    axis (entityDomain c (c.tdim - 1, i)).cell (entityDomain c (c.tdim - 1, i)).v k j.val = 0
  covers : ∀ z, OnFacet c.tdim i z → ∃ y, ∀ j < c.tdim, (entityDomain c (c.tdim - 1, i)).param y j = z j

theorem tri_facet {i : ℕ} (hi : i < 3) : FacetFacts .triangle i := by
  have hd : ∀ i, entityDomain .triangle (Cell.triangle.tdim - 1, i) = entityDomain .triangle (1, i) := fun _ => rfl
  have hc : ∀ i, (entityDomain .triangle (1, i)).cell = .interval := fun _ => rfl
  have hs : ∀ f : ℕ → ℝ, ∑ j : Fin Cell.triangle.tdim, f j.val = f 0 + f 1 := fun f => Fin.sum_univ_two _
  have hv : ∀ i j k, (entityDomain .triangle (1, i)).v j k = refVertex .triangle ((entVerts .triangle 1 i).getD j 0) k :=
    fun _ _ _ => rfl
  have e0 : entVerts .triangle 1 0 = [1, 2] := rfl
  have e1 : entVerts .triangle 1 1 = [0, 2] := rfl
  have e2 : entVerts .triangle 1 2 = [0, 1] := rfl
  constructor
  · rfl
  · rw [hd, hc]; simp [Solid]
  · rw [hd, hc]
    interval_cases i
    · refine ⟨√2, vnormalise 2 (coords [-1, -1]), -(1 / √2), by positivity, by simp, ?_, ?_, fun j hj => ?_⟩
      · simp only [jacobian, axisVertices, Cell.tdim, List.length_singleton, if_true]
        norm_num [Finset.sum_range_succ, axis, psub, hv, e0, axisVertices, refVertex, refVerts, coords, Cell.tdim]
      · simp only [normal, axisVertices, Cell.tdim]
        norm_num [axis, psub, hv, e0, axisVertices, refVertex, refVerts, coords]
      · simp only [Cell.tdim] at hj
        interval_cases j <;> norm_num [vnormalise, pdot, coords, facetNormal, Finset.sum_range_succ] <;> ring
    · refine ⟨1, vnormalise 2 (coords [-1, 0]), -1, by norm_num, by simp, ?_, ?_, fun j hj => ?_⟩
      · simp only [jacobian, axisVertices, Cell.tdim, List.length_singleton, if_true]
        norm_num [Finset.sum_range_succ, axis, psub, hv, e1, axisVertices, refVertex, refVerts, coords, Cell.tdim]
      · simp only [normal, axisVertices, Cell.tdim]
        norm_num [axis, psub, hv, e1, axisVertices, refVertex, refVerts, coords]
      · simp only [Cell.tdim] at hj
        interval_cases j <;> norm_num [vnormalise, pdot, coords, facetNormal, Finset.sum_range_succ]
    · refine ⟨1, vnormalise 2 (coords [0, 1]), 1, by norm_num, by simp, ?_, ?_, fun j hj => ?_⟩
      · simp only [jacobian, axisVertices, Cell.tdim, List.length_singleton, if_true]
        norm_num [Finset.sum_range_succ, axis, psub, hv, e2, axisVertices, refVertex, refVerts, coords, Cell.tdim]
      · simp only [normal, axisVertices, Cell.tdim]
        norm_num [axis, psub, hv, e2, axisVertices, refVertex, refVerts, coords]
      · simp only [Cell.tdim] at hj
        interval_cases j <;> norm_num [vnormalise, pdot, coords, facetNormal, Finset.sum_range_succ]
  · intro k hk
    simp only [Cell.tdim] at hk
    rw [hd, hc]
    refine (hs (fun j => facetNormal i j * axis Cell.interval (entityDomain Cell.triangle (1, i)).v k j)).trans ?_
    interval_cases k
    interval_cases i <;> norm_num [facetNormal, axis, psub, hv, e0, e1, e2, axisVertices, refVertex, refVerts, coords]
  · intro z hz
    unfold OnFacet at hz
    rw [hs] at hz
    interval_cases i
    · simp only [if_true] at hz
      refine ⟨fun _ => z 1, fun j hj => ?_⟩
      simp only [Cell.tdim] at hj
      interval_cases j <;> norm_num [Domain.param, hd, hc, hv, e0, Finset.sum_range_succ, axisVertices, refVertex, refVerts, coords,
        Cell.tdim]
      linarith
    · simp only [one_ne_zero, if_false] at hz
      refine ⟨fun _ => z 1, fun j hj => ?_⟩
      simp only [Cell.tdim] at hj
      interval_cases j <;> norm_num [Domain.param, hd, hc, hv, e1, Finset.sum_range_succ, axisVertices, refVertex, refVerts, coords,
        Cell.tdim]
      exact hz.symm
    · simp only [OfNat.ofNat_ne_zero, if_false] at hz
      refine ⟨fun _ => z 0, fun j hj => ?_⟩
      simp only [Cell.tdim] at hj
      interval_cases j <;> norm_num [Domain.param, hd, hc, hv, e2, Finset.sum_range_succ, axisVertices, refVertex, refVerts, coords,
        Cell.tdim]
      exact hz.symm

theorem tet_facet {i : ℕ} (hi : i < 4) : FacetFacts .tetrahedron i := by
  have hd : ∀ i, entityDomain .tetrahedron (Cell.tetrahedron.tdim - 1, i) = entityDomain .tetrahedron (2, i) := fun _ => rfl
  have hc : ∀ i, (entityDomain .tetrahedron (2, i)).cell = .triangle := fun _ => rfl
  have hs : ∀ f : ℕ → ℝ, ∑ j : Fin Cell.tetrahedron.tdim, f j.val = f 0 + f 1 + f 2 := fun f => Fin.sum_univ_three _
  have hv : ∀ i j k, (entityDomain .tetrahedron (2, i)).v j k =
      refVertex .tetrahedron ((entVerts .tetrahedron 2 i).getD j 0) k := fun _ _ _ => rfl
  have e0 : entVerts .tetrahedron 2 0 = [1, 2, 3] := rfl
  have e1 : entVerts .tetrahedron 2 1 = [0, 2, 3] := rfl
  have e2 : entVerts .tetrahedron 2 2 = [0, 1, 3] := rfl
  have e3 : entVerts .tetrahedron 2 3 = [0, 1, 2] := rfl
  constructor
  · rfl
  · rw [hd, hc]; simp [Solid]
  · rw [hd, hc]
    interval_cases i
    · refine ⟨√3, vnormalise 3 (pcross (coords [-1, 1, 0]) (coords [-1, 0, 1])), 1 / √3, by positivity, by simp, ?_, ?_, fun j hj => ?_⟩
      · simp only [jacobian, axisVertices, Cell.tdim]
        norm_num [axis, psub, hv, e0, axisVertices, refVertex, refVerts, coords, pcross]
      · simp only [normal, axisVertices, Cell.tdim]
        norm_num
        congr 2 <;> funext j <;> rcases j with _ | _ | _ | j <;>
          norm_num [axis, psub, hv, e0, axisVertices, refVertex, refVerts, coords]
      · simp only [Cell.tdim] at hj
        interval_cases j <;> norm_num [vnormalise, pdot, pcross, coords, facetNormal, Finset.sum_range_succ]
    · refine ⟨1, vnormalise 3 (pcross (coords [0, 1, 0]) (coords [0, 0, 1])), 1, by norm_num, by simp, ?_, ?_, fun j hj => ?_⟩
      · simp only [jacobian, axisVertices, Cell.tdim]
        norm_num [axis, psub, hv, e1, axisVertices, refVertex, refVerts, coords, pcross]
      · simp only [normal, axisVertices, Cell.tdim]
        norm_num
        congr 2 <;> funext j <;> rcases j with _ | _ | _ | j <;>
          norm_num [axis, psub, hv, e1, axisVertices, refVertex, refVerts, coords]
      · simp only [Cell.tdim] at hj
        interval_cases j <;> norm_num [vnormalise, pdot, pcross, coords, facetNormal, Finset.sum_range_succ]
    · refine ⟨1, vnormalise 3 (pcross (coords [1, 0, 0]) (coords [0, 0, 1])), -1, by norm_num, by simp, ?_, ?_, fun j hj => ?_⟩
      · simp only [jacobian, axisVertices, Cell.tdim]
        norm_num [axis, psub, hv, e2, axisVertices, refVertex, refVerts, coords, pcross]
      · simp only [normal, axisVertices, Cell.tdim]
        norm_num
        congr 2 <;> funext j <;> rcases j with _ | _ | _ | j <;>
          norm_num [axis, psub, hv, e2, axisVertices, refVertex, refVerts, coords]
      · simp only [Cell.tdim] at hj
        interval_cases j <;> norm_num [vnormalise, pdot, pcross, coords, facetNormal, Finset.sum_range_succ]
    · refine ⟨1, vnormalise 3 (pcross (coords [1, 0, 0]) (coords [0, 1, 0])), 1, by norm_num, by simp, ?_, ?_, fun j hj => ?_⟩
      · simp only [jacobian, axisVertices, Cell.tdim]
        norm_num [axis, psub, hv, e3, axisVertices, refVertex, refVerts, coords, pcross]
      · simp only [normal, axisVertices, Cell.tdim]
        norm_num
        congr 2 <;> funext j <;> rcases j with _ | _ | _ | j <;>
          norm_num [axis, psub, hv, e3, axisVertices, refVertex, refVerts, coords]
      · simp only [Cell.tdim] at hj
        interval_cases j <;> norm_num [vnormalise, pdot, pcross, coords, facetNormal, Finset.sum_range_succ]
  · intro k hk
    simp only [Cell.tdim] at hk
    rw [hd, hc]
    refine (hs (fun j => facetNormal i j * axis Cell.triangle (entityDomain Cell.tetrahedron (2, i)).v k j)).trans ?_
    interval_cases k <;>
    interval_cases i <;> norm_num [facetNormal, axis, psub, hv, e0, e1, e2, e3, axisVertices, refVertex, refVerts, coords]
  · intro z hz
    unfold OnFacet at hz
    rw [hs] at hz
    interval_cases i
    · simp only [if_true] at hz
      refine ⟨fun k => z (k + 1), fun j hj => ?_⟩
      simp only [Cell.tdim] at hj
      interval_cases j <;> norm_num [Domain.param, hd, hc, hv, e0, Finset.sum_range_succ, axisVertices, refVertex, refVerts, coords,
        Cell.tdim]
      linarith
    · simp only [one_ne_zero, if_false] at hz
      refine ⟨fun k => z (k + 1), fun j hj => ?_⟩
      simp only [Cell.tdim] at hj
      interval_cases j <;> norm_num [Domain.param, hd, hc, hv, e1, Finset.sum_range_succ, axisVertices, refVertex, refVerts, coords,
        Cell.tdim]
      exact hz.symm
    · simp only [OfNat.ofNat_ne_zero, if_false] at hz
      refine ⟨fun k => z (k * 2), fun j hj => ?_⟩
      simp only [Cell.tdim] at hj
      interval_cases j <;> norm_num [Domain.param, hd, hc, hv, e2, Finset.sum_range_succ, axisVertices, refVertex, refVerts, coords,
        Cell.tdim]
      exact hz.symm
    · simp only [OfNat.ofNat_ne_zero, if_false] at hz
      refine ⟨fun k => z k, fun j hj => ?_⟩
      simp only [Cell.tdim] at hj
      interval_cases j <;> norm_num [Domain.param, hd, hc, hv, e3, Finset.sum_range_succ, axisVertices, refVertex, refVerts, coords,
        Cell.tdim]
      exact hz.symm

theorem facet_facts {c : Cell} (hc : Simp c) {i : ℕ} (hi : i ≤ c.tdim) : FacetFacts c i := by
  rcases hc with rfl | rfl
  · exact tri_facet (Nat.lt_succ_of_le hi)
  · exact tet_facet (Nat.lt_succ_of_le hi)

end Verif.Families
