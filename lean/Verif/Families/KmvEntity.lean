import Verif.Families.Kmv
/-!
# The entities of the functionals of KMV elements

The point of each functional is inside the sub-entity that the functional is associated with.
-/

namespace Verif.Families
open Verif.References Verif.Quadrature Verif.Polysets Verif.Elements Verif.FiniteElement Verif.Orthogonal MvPolynomial

/-- `z` is a combination of the vertices of the sub-entity `e` of `c` with positive weights of sum 1. -/
def InteriorPoint (c : Cell) (e : ℕ × ℕ) (z : ℕ → ℝ) : Prop :=
  ∃ verts, ((c.subEntities e.1).getD [])[e.2]? = some verts ∧ ∃ w : List ℝ, w.length = verts.length ∧ (∀ t ∈ w, 0 < t) ∧
    w.sum = 1 ∧ ∀ j < c.tdim, z j = ((w.zip verts).map fun t => t.1 * refVertex c t.2 j).sum

theorem interior_vertices {c : Cell} (hc : c = .triangle ∨ c = .tetrahedron) (w : ℝ) :
    ∀ d ∈ kmvVertices c w, InteriorPoint c d.entity d.point := by
  intro d hd
  obtain ⟨n, hn, rfl⟩ := List.mem_map.1 hd
  have hn := List.mem_range.1 hn
  refine ⟨[n], ?_, [1], rfl, by simp, by simp, fun j _ => by simp⟩
  clear hd
  have key : ∀ n < c.nverts, ((c.subEntities 0).getD [])[n]? = some [n] := by rcases hc with rfl | rfl <;> decide
  exact key n hn

theorem interior_mid {c : Cell} (hc : c = .triangle ∨ c = .tetrahedron) (w : ℝ) :
    ∀ d ∈ kmvMid c w, InteriorPoint c d.entity d.point := by
  intro d hd
  obtain ⟨⟨e, i⟩, he, rfl⟩ := List.mem_map.1 hd
  have h1 := List.mem_zipIdx' he
  have h2 : ∀ e ∈ (c.subEntities 1).getD [], e.length = 2 := by rcases hc with rfl | rfl <;> decide
  obtain ⟨a, b, rfl⟩ := List.length_eq_two.1 (h2 e (h1.2 ▸ List.getElem_mem _))
  refine ⟨[a, b], (List.getElem?_eq_some_iff.2 ⟨h1.1, h1.2.symm⟩), [1 / 2, 1 / 2], rfl, ?_, by norm_num, fun j _ => ?_⟩
  · intro t ht
    simp at ht
    rw [ht]
    norm_num
  · simp
    ring

theorem interior_two {c : Cell} (hc : c = .triangle ∨ c = .tetrahedron) {t : ℝ} (h0 : 0 < t) (h1 : t < 1) (w : ℝ) :
    ∀ d ∈ kmvTwo c t w, InteriorPoint c d.entity d.point := by
  intro d hd
  obtain ⟨⟨e, i⟩, he, hd⟩ := List.mem_flatMap.1 hd
  have h3 := List.mem_zipIdx' he
  have h2 : ∀ e ∈ (c.subEntities 1).getD [], e.length = 2 := by rcases hc with rfl | rfl <;> decide
  obtain ⟨a, b, rfl⟩ := List.length_eq_two.1 (h2 e (h3.2 ▸ List.getElem_mem _))
  have hm := List.getElem?_eq_some_iff.2 ⟨h3.1, h3.2.symm⟩
  simp only [List.mem_cons, List.not_mem_nil, or_false] at hd
  rcases hd with rfl | rfl
  · refine ⟨[a, b], hm, [1 - t, t], rfl, ?_, by simp, fun j _ => ?_⟩
    · intro s hs
      simp at hs
      rcases hs with rfl | rfl <;> linarith
    · simp
      ring
  · refine ⟨[a, b], hm, [t, 1 - t], rfl, ?_, by simp, fun j _ => ?_⟩
    · intro s hs
      simp at hs
      rcases hs with rfl | rfl <;> linarith
    · simp
      ring

theorem interior_three {c : Cell} {f : List ℕ} {i : ℕ} (hf : ((c.subEntities 2).getD [])[i]? = some f) (h3 : f.length = 3)
    {t : ℝ} (h0 : 0 < t) (h1 : 2 * t < 1) (w : ℝ) :
    ∀ d ∈ kmvThree c f t w (2, i), InteriorPoint c d.entity d.point := by
  intro d hd
  obtain ⟨a, b, v, rfl⟩ := List.length_eq_three.1 h3
  simp only [kmvThree, List.map_cons, List.map_nil, List.mem_cons, List.not_mem_nil, or_false] at hd
  rcases hd with rfl | rfl | rfl
  · refine ⟨[a, b, v], hf, [1 - 2 * t, t, t], rfl, ?_, by simp; ring, fun j _ => by simp; ring⟩
    intro s hs
    simp at hs
    rcases hs with rfl | rfl <;> linarith
  · refine ⟨[a, b, v], hf, [t, 1 - 2 * t, t], rfl, ?_, by simp; ring, fun j _ => by simp; ring⟩
    intro s hs
    simp at hs
    rcases hs with rfl | rfl | rfl <;> linarith
  · refine ⟨[a, b, v], hf, [t, t, 1 - 2 * t], rfl, ?_, by simp; ring, fun j _ => by simp; ring⟩
    intro s hs
    simp at hs
    rcases hs with rfl | rfl | rfl <;> linarith

/-- **C62** Every functional on a triangle evaluates at a point inside the sub-entity it is associated with. -/
theorem kmv_triangle_entities {order : ℕ} {l poly} (h : kmvTriangle order = some (l, poly)) :
    ∀ d ∈ l, InteriorPoint .triangle d.entity d.point := by
  have hc : Cell.triangle = .triangle ∨ Cell.triangle = .tetrahedron := Or.inl rfl
  rw [kmvTriangle] at h
  split at h
  · obtain ⟨_, _, h⟩ := Option.map_eq_some_iff.1 h
    obtain rfl := (Prod.mk.inj h).1
    exact interior_vertices hc _
  split at h
  · obtain ⟨_, _, h⟩ := Option.map_eq_some_iff.1 h
    obtain rfl := (Prod.mk.inj h).1
    intro d hd
    rcases List.mem_append.1 hd with hd | hd
    · rcases List.mem_append.1 hd with hd | hd
      · exact interior_vertices hc _ d hd
      · exact interior_mid hc _ d hd
    · obtain rfl := List.mem_singleton.1 hd
      refine ⟨[0, 1, 2], by decide, [1 / 3, 1 / 3, 1 / 3], rfl, ?_, by norm_num, fun j hj => ?_⟩
      · intro t ht
        simp at ht
        rw [ht]
        norm_num
      · have hj : j < 2 := hj
        interval_cases j <;> simp [refVertex, refVerts, coords]
  split at h
  · obtain ⟨_, _, h⟩ := Option.map_eq_some_iff.1 h
    obtain rfl := (Prod.mk.inj h).1
    have h7 : √7 ^ 2 = 7 := Real.sq_sqrt (by norm_num)
    have l7 : 2.6 < √7 := by rw [Real.lt_sqrt (by norm_num)]; norm_num
    have u7 : √7 < 2.7 := by rw [Real.sqrt_lt' (by norm_num)]; norm_num
    have i7 : 1 / √7 < 1 / 2 := by
      rw [one_div_lt_one_div (by linarith) (by norm_num)]
      linarith
    have i0 : 0 < 1 / √7 := by positivity
    have l4 : 0 < √(411 - 84 * (7 - √7)) := Real.sqrt_pos.2 (by linarith)
    have u4 : √(411 - 84 * (7 - √7)) < 21 := by
      rw [Real.sqrt_lt' (by norm_num)]
      linarith
    intro d hd
    rcases List.mem_append.1 hd with hd | hd
    · rcases List.mem_append.1 hd with hd | hd
      · exact interior_vertices hc _ d hd
      · exact interior_two hc (by linarith) (by linarith) _ d hd
    · exact interior_three (by decide) rfl (by linarith) (by linarith) _ d hd
  · cases h

/-- **C62** The same on a tetrahedron. -/
theorem kmv_tetrahedron_entities {order : ℕ} {l poly} (h : kmvTetrahedron order = some (l, poly)) :
    ∀ d ∈ l, InteriorPoint .tetrahedron d.entity d.point := by
  have hc : Cell.tetrahedron = .triangle ∨ Cell.tetrahedron = .tetrahedron := Or.inr rfl
  rw [kmvTetrahedron] at h
  split at h
  · obtain ⟨_, _, h⟩ := Option.map_eq_some_iff.1 h
    obtain rfl := (Prod.mk.inj h).1
    exact interior_vertices hc _
  split at h
  · obtain ⟨_, _, h⟩ := Option.map_eq_some_iff.1 h
    obtain rfl := (Prod.mk.inj h).1
    have l13 : 3.6 < √13 := by rw [Real.lt_sqrt (by norm_num)]; norm_num
    have u13 : √13 < 3.7 := by rw [Real.sqrt_lt' (by norm_num)]; norm_num
    intro d hd
    rcases List.mem_append.1 hd with hd | hd
    · rcases List.mem_append.1 hd with hd | hd
      · rcases List.mem_append.1 hd with hd | hd
        · exact interior_vertices hc _ d hd
        · exact interior_mid hc _ d hd
      · obtain ⟨⟨f, i⟩, he, hd⟩ := List.mem_flatMap.1 hd
        have h3 := List.mem_zipIdx' he
        have h2 : ∀ e ∈ (Cell.tetrahedron.subEntities 2).getD [], e.length = 3 := by decide
        exact interior_three (List.getElem?_eq_some_iff.2 ⟨h3.1, h3.2.symm⟩) (h2 f (h3.2 ▸ List.getElem_mem _))
          (by linarith) (by linarith) _ d hd
    · obtain rfl := List.mem_singleton.1 hd
      refine ⟨[0, 1, 2, 3], by decide, [1 / 4, 1 / 4, 1 / 4, 1 / 4], rfl, ?_, by norm_num, fun j hj => ?_⟩
      · intro t ht
        simp at ht
        rw [ht]
        norm_num
      · have hj : j < 3 := hj
        interval_cases j <;> simp [refVertex, refVerts, coords]
  · cases h

/-- The hypotheses can be met, and the entities are the obvious ones. -/
example : ∃ l poly, kmvTriangle 2 = some (l, poly) ∧
    l.map WeightedDof.entity = [(0, 0), (0, 1), (0, 2), (1, 0), (1, 1), (1, 2), (2, 0)] := by
  obtain ⟨L, l1, -⟩ := polySet_spec 2 (by simp) ((2 : ℕ) : ℤ)
  refine ⟨_, _, by rw [kmvTriangle, if_neg (by decide), if_pos rfl, kmvTriPolyset, l1]; rfl, ?_⟩
  rfl

end Verif.Families
