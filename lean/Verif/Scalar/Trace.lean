import Verif.Scalar.Ser
/-!
# The entities of intervals, quadrilaterals and hexahedra
-/

namespace Verif.Scalar
open Verif.References Verif.Moments Verif.Functionals Verif.Elements Verif.FiniteElement Verif.Polysets Verif.Orthogonal
open Verif.Families
open MvPolynomial

/-- A function with values that are determined, on each entity, by the functionals of the entity and of the entities on
its boundary: if these vanish then the function vanishes on the entity. -/
def C0Trace (c : Cell) (S : MvPolynomial ℕ ℝ → Prop) (dofs : List (Dof ℝ (MvPolynomial ℕ ℝ))) : Prop :=
  ∀ dim ≤ c.tdim, ∀ i < entityCount c dim, ∀ f, S f →
    (∀ d ∈ dofs, entVerts c d.entity.1 d.entity.2 ⊆ entVerts c dim i → d.eval f = 0) →
    ∀ z, eval ((entityDomain c (dim, i)).param z) f = 0

/-- The entities of tensor product cells. -/
def cubeCell : ℕ → Cell
  | 0 => .point
  | 1 => .interval
  | 2 => .quadrilateral
  | _ => .hexahedron

theorem cubeCell_tensor {n : ℕ} (h : 1 ≤ n) : Tensor (cubeCell n) := by
  rcases n with _ | _ | _ | n
  · omega
  · exact Or.inl rfl
  · exact Or.inr (Or.inl rfl)
  · exact Or.inr (Or.inr rfl)

theorem cubeCell_tdim {n : ℕ} (h : n ≤ 3) : (cubeCell n).tdim = n := by
  interval_cases n <;> rfl

theorem entity_cell {c : Cell} (hc : Tensor c) {dim i : ℕ} (hd : dim ≤ c.tdim) : (entityDomain c (dim, i)).cell = cubeCell dim := by
  rcases hc with rfl | rfl | rfl <;> simp only [Cell.tdim] at hd <;> interval_cases dim <;> rfl

theorem cell_verts {c : Cell} (hc : Tensor c) : entityCount c c.tdim = 1 ∧ ∀ dim ≤ c.tdim, ∀ i < entityCount c dim,
    entVerts c dim i ⊆ entVerts c c.tdim 0 := by
  rcases hc with rfl | rfl | rfl <;> decide

theorem vertex_entity {c : Cell} (hc : Tensor c) : entityCount c 0 = (refVerts (K := ℝ) c).length ∧
    ∀ i < entityCount c 0, entVerts c 0 i = [i] := by
  rcases hc with rfl | rfl | rfl <;> exact ⟨rfl, by decide⟩

theorem interval_cell_v (n j : ℕ) : (entityDomain .interval (1, 0)).v n j = refVertex .interval ([0, 1].getD n 0) j := rfl

/-- The axes of the entities. -/
theorem entity_aligned {c : Cell} (hc : Tensor c) {dim i : ℕ} (h1 : 1 ≤ dim) (hd : dim ≤ c.tdim) (hi : i < entityCount c dim) :
    ∃ σ J, Aligned (entityDomain c (dim, i)) σ ∧ J ≠ 0 ∧
      jacobian (entityDomain c (dim, i)).cell c.tdim (entityDomain c (dim, i)).v = some J := by
  have edge : ∀ (c : Cell) (i : ℕ), (entityDomain c (1, i)).cell = .interval →
      (∃ a < c.tdim, (∀ j, axis .interval (entityDomain c (1, i)).v 0 j = if j = a then 1 else 0) ∧
        (entityDomain c (1, i)).v 0 a = 0) → ∃ σ J, Aligned (entityDomain c (1, i)) σ ∧ J ≠ 0 ∧
      jacobian (entityDomain c (1, i)).cell c.tdim (entityDomain c (1, i)).v = some J := by
    intro c i hcell ⟨a, ha, hax, h0⟩
    obtain ⟨J, t, s, hJ, -, hj, -⟩ := edge_facts c.tdim (entityDomain c (1, i)).v ⟨a, ha, fun hc => by
      have := hax a
      rw [if_pos rfl] at this
      have h0 : (entityDomain c (1, i)).v 1 a - (entityDomain c (1, i)).v 0 a = 1 := this
      rw [hc, sub_self] at h0
      exact zero_ne_one h0⟩
    refine ⟨fun _ => a, J, ⟨?_, ?_, ?_⟩, hJ, by rw [hcell]; exact hj⟩
    · intro k hk
      rw [hcell] at hk ⊢
      obtain rfl : k = 0 := Nat.lt_one_iff.1 hk
      exact hax
    · intro _ _; exact h0
    · intro k hk l hl _
      rw [hcell] at hk hl
      rw [Nat.lt_one_iff.1 hk, Nat.lt_one_iff.1 hl]
  have cell : ∀ c, Box c → ∃ σ J, Aligned (entityDomain c (c.tdim, 0)) σ ∧ J ≠ 0 ∧
      jacobian (entityDomain c (c.tdim, 0)).cell c.tdim (entityDomain c (c.tdim, 0)).v = some J := by
    intro c hb
    refine ⟨id, 1, ⟨?_, ?_, ?_⟩, one_ne_zero, box_jacobian hb⟩
    · rcases hb with rfl | rfl
      · have hv : ∀ j k, (entityDomain .quadrilateral (2, 0)).v j k =
          refVertex .quadrilateral ([0, 1, 2, 3].getD j 0) k := fun _ _ => rfl
        intro k hk j
        have hk' : k < 2 := hk
        show axis .quadrilateral (entityDomain .quadrilateral (2, 0)).v k j = _
        rcases j with _ | _ | j <;> interval_cases k <;>
          norm_num [axis, psub, hv, axisVertices, refVertex, refVerts, coords] <;> omega
      · have hv : ∀ j k, (entityDomain .hexahedron (3, 0)).v j k =
          refVertex .hexahedron ([0, 1, 2, 3, 4, 5, 6, 7].getD j 0) k := fun _ _ => rfl
        intro k hk j
        have hk' : k < 3 := hk
        show axis .hexahedron (entityDomain .hexahedron (3, 0)).v k j = _
        rcases j with _ | _ | _ | j <;> interval_cases k <;>
          norm_num [axis, psub, hv, axisVertices, refVertex, refVerts, coords] <;> omega
    · rcases hb with rfl | rfl
      · intro k hk
        have hk' : k < 2 := hk
        show refVertex .quadrilateral 0 k = 0
        interval_cases k <;> norm_num [refVertex, refVerts, coords]
      · intro k hk
        have hk' : k < 3 := hk
        show refVertex .hexahedron 0 k = 0
        interval_cases k <;> norm_num [refVertex, refVerts, coords]
    · intro k _ l _ h; exact h
  rcases hc with rfl | rfl | rfl
  · have hd' : dim ≤ 1 := hd
    obtain rfl : dim = 1 := by omega
    have hi' : i < 1 := hi
    obtain rfl : i = 0 := by omega
    refine edge .interval 0 rfl ⟨0, by decide, fun j => ?_, ?_⟩
    · rcases j with _ | j <;> norm_num [axis, psub, interval_cell_v, axisVertices, refVertex, refVerts, coords]
    · norm_num [interval_cell_v, refVertex, refVerts, coords]
  · have hd' : dim ≤ 2 := hd
    interval_cases dim
    · exact edge .quadrilateral i rfl (box_edge (Or.inl rfl) hi)
    · have hi' : i < 1 := hi
      obtain rfl : i = 0 := by omega
      exact cell .quadrilateral (Or.inl rfl)
  · have hd' : dim ≤ 3 := hd
    interval_cases dim
    · exact edge .hexahedron i rfl (box_edge (Or.inr rfl) hi)
    · obtain ⟨-, F, -, -, -, hj, -⟩ := box_facet (c := .hexahedron) (Or.inr rfl) hi
      exact ⟨_, 1, F.aligned, one_ne_zero, hj⟩
    · have hi' : i < 1 := hi
      obtain rfl : i = 0 := by omega
      exact cell .hexahedron (Or.inr rfl)

/-- The boundary of an entity. -/
def OnSub (c : Cell) (dim i : ℕ) (z : ℕ → ℝ) : Prop :=
  ∃ i' < entityCount c dim, entVerts c dim i' ⊆ entVerts c (dim + 1) i ∧ ∃ y, ∀ j < c.tdim,
    (entityDomain c (dim, i')).param y j = (entityDomain c (dim + 1, i)).param z j

theorem edge_boundary {c : Cell} {i a b : ℕ} (hcell : (entityDomain c (1, i)).cell = .interval)
    (hp : ∀ n, (entityDomain c (0, n)).cell = .point) (hab : entVerts c 1 i = [a, b])
    (ha : a < entityCount c 0) (hb : b < entityCount c 0) (hv : ∀ i < entityCount c 0, entVerts c 0 i = [i]) {z : ℕ → ℝ}
    (hz : z 0 = 0 ∨ z 0 = 1) : OnSub c 0 i z := by
  have h0 : ∀ n < entityCount c 0, ∀ y j, (entityDomain c (0, n)).param y j = refVertex c n j := by
    intro n hn y j
    have h1 : (entityDomain c (0, n)).v 0 j = refVertex c n j := by
      show refVertex c ((entVerts c 0 n).getD 0 0) j = _
      rw [hv n hn]; rfl
    rw [Domain.param, hp, h1]
    simp [Cell.tdim]
  have h1 : (entityDomain c (1, i)).param z = fun j => refVertex c a j + z 0 * (refVertex c b j - refVertex c a j) := by
    have e : entityDomain c (1, i) = ⟨.interval, c.tdim, (entityDomain c (1, i)).v⟩ := by
      rw [← hcell]; rfl
    rw [e, interval_param]
    have hV : ∀ n j, (entityDomain c (1, i)).v n j = refVertex c ([a, b].getD n 0) j := fun n j => by
      rw [← hab]; rfl
    funext j
    rw [hV, hV]
    rfl
  rcases hz with hz | hz
  · refine ⟨a, ha, by rw [hv a ha]; simp [hab], z, fun j _ => ?_⟩
    rw [h0 a ha, h1, hz]
    ring
  · refine ⟨b, hb, by rw [hv b hb]; simp [hab], z, fun j _ => ?_⟩
    rw [h0 b hb, h1, hz]
    ring

theorem cell_boundary {c : Cell} (hc : Box c) {j : ℕ} (hj : j < c.tdim) {z : ℕ → ℝ} (hz : z j = 0 ∨ z j = 1) :
    ∃ i' < 2 * c.tdim, ∃ y, ∀ l < c.tdim, (entityDomain c (c.tdim - 1, i')).param y l = z l := by
  have main : ∃ i < 2 * c.tdim, qAxis c.tdim i = j ∧ z j = qVal c.tdim i := by
    rcases hz with hz | hz
    · refine ⟨c.tdim - 1 - j, by omega, ?_, ?_⟩
      · rw [qAxis, if_pos (by omega)]; omega
      · rw [hz, qVal, if_pos (by omega)]
    · refine ⟨c.tdim + j, by omega, ?_, ?_⟩
      · rw [qAxis, if_neg (by omega)]; omega
      · rw [hz, qVal, if_neg (by omega)]
  obtain ⟨i, hi, rfl, hv⟩ := main
  obtain ⟨hcell, F, -⟩ := box_facet hc hi
  exact ⟨i, hi, F.covers hj (by rw [hcell, qFacetCell_tdim hc]; rfl) hv⟩

/-- Where a parameter is 0 or 1, the point is on the boundary of the entity. -/
theorem entity_boundary {c : Cell} (hc : Tensor c) {dim i : ℕ} (hd : dim + 1 ≤ c.tdim) (hi : i < entityCount c (dim + 1)) {j : ℕ}
    (hj : j < dim + 1) {z : ℕ → ℝ} (hz : z j = 0 ∨ z j = 1) : OnSub c dim i z := by
  have hv := (vertex_entity hc).2
  rcases hc with rfl | rfl | rfl
  · have hd' : dim + 1 ≤ 1 := hd
    obtain rfl : dim = 0 := by omega
    obtain rfl : j = 0 := by omega
    have hi' : i < 1 := hi
    obtain rfl : i = 0 := by omega
    exact edge_boundary (a := 0) (b := 1) rfl (fun _ => rfl) rfl (by decide) (by decide) hv hz
  · have hd' : dim + 1 ≤ 2 := hd
    have hd'' : dim ≤ 1 := by omega
    interval_cases dim
    · obtain rfl : j = 0 := by omega
      have key : ∀ i < entityCount .quadrilateral 1, ∃ a b, entVerts .quadrilateral 1 i = [a, b] ∧ a < 4 ∧ b < 4 := by
        intro i hi
        have hi' : i < 4 := hi
        interval_cases i
        exacts [⟨0, 1, rfl, by omega, by omega⟩, ⟨0, 2, rfl, by omega, by omega⟩, ⟨1, 3, rfl, by omega, by omega⟩,
          ⟨2, 3, rfl, by omega, by omega⟩]
      obtain ⟨a, b, h1, h2, h3⟩ := key i hi
      exact edge_boundary (a := a) (b := b) rfl (fun _ => rfl) h1 h2 h3 hv hz
    · have hi' : i < 1 := hi
      obtain rfl : i = 0 := by omega
      obtain ⟨i', hi', y, hy⟩ := cell_boundary (c := .quadrilateral) (Or.inl rfl) hj hz
      have key : ∀ i < 2 * 2, entVerts .quadrilateral 1 i ⊆ entVerts .quadrilateral 2 0 := by decide
      exact ⟨i', hi', key i' hi', y, fun l hl => (hy l hl).trans (box_param (c := .quadrilateral) (Or.inl rfl) z hl).symm⟩
  · have hd' : dim + 1 ≤ 3 := hd
    have hd'' : dim ≤ 2 := by omega
    interval_cases dim
    · obtain rfl : j = 0 := by omega
      have key : ∀ i < entityCount .hexahedron 1, ∃ a b, entVerts .hexahedron 1 i = [a, b] ∧ a < 8 ∧ b < 8 := by
        intro i hi
        have hi' : i < 12 := hi
        interval_cases i
        exacts [⟨0, 1, rfl, by omega, by omega⟩, ⟨0, 2, rfl, by omega, by omega⟩, ⟨0, 4, rfl, by omega, by omega⟩,
          ⟨1, 3, rfl, by omega, by omega⟩, ⟨1, 5, rfl, by omega, by omega⟩, ⟨2, 3, rfl, by omega, by omega⟩,
          ⟨2, 6, rfl, by omega, by omega⟩, ⟨3, 7, rfl, by omega, by omega⟩, ⟨4, 5, rfl, by omega, by omega⟩,
          ⟨4, 6, rfl, by omega, by omega⟩, ⟨5, 7, rfl, by omega, by omega⟩, ⟨6, 7, rfl, by omega, by omega⟩]
      obtain ⟨a, b, h1, h2, h3⟩ := key i hi
      exact edge_boundary (a := a) (b := b) rfl (fun _ => rfl) h1 h2 h3 hv hz
    · obtain ⟨a, b, c, d, habc, ⟨e1, l1, hab⟩, ⟨e2, l2, hac⟩, ⟨e3, l3, hbd⟩, ⟨e4, l4, hcd⟩, hpar⟩ := hex_face_edges hi
      have hV : ∀ n, (entityDomain .hexahedron (2, i)).v n = refVertex .hexahedron ([a, b, c, d].getD n 0) := fun n => by
        rw [← habc]; rfl
      have hF : ∀ l, (entityDomain .hexahedron (1 + 1, i)).param z l = refVertex .hexahedron a l +
          (refVertex .hexahedron b l - refVertex .hexahedron a l) * z 0 +
          (refVertex .hexahedron c l - refVertex .hexahedron a l) * z 1 := by
        intro l
        have := congrFun (quad_param 3 (entityDomain .hexahedron (2, i)).v z) l
        simp only [hV] at this
        exact this
      have hE : ∀ e p q, entVerts .hexahedron 1 e = [p, q] → ∀ y l, (entityDomain .hexahedron (1, e)).param y l =
          refVertex .hexahedron p l + y 0 * (refVertex .hexahedron q l - refVertex .hexahedron p l) := by
        intro e p q hpq y l
        have hW : ∀ n, (entityDomain .hexahedron (1, e)).v n = refVertex .hexahedron ([p, q].getD n 0) := fun n => by
          rw [← hpq]; rfl
        have := congrFun (interval_param 3 (entityDomain .hexahedron (1, e)).v y) l
        simp only [hW] at this
        exact this
      have hsub : ∀ e p q, entVerts .hexahedron 1 e = [p, q] → p ∈ [a, b, c, d] → q ∈ [a, b, c, d] →
          entVerts .hexahedron 1 e ⊆ entVerts .hexahedron (1 + 1) i := by
        intro e p q hpq hp hq
        show _ ⊆ entVerts .hexahedron 2 i
        rw [hpq, habc]
        intro x hx
        rcases List.mem_cons.1 hx with rfl | hx
        · exact hp
        · rw [List.mem_singleton.1 hx]; exact hq
      have hj' : j < 2 := hj
      interval_cases j
      · rcases hz with hz | hz
        · refine ⟨e2, l2, hsub e2 a c hac (by simp) (by simp), fun _ => z 1, fun l _ => ?_⟩
          rw [hE e2 a c hac, hF, hz]
          ring
        · refine ⟨e3, l3, hsub e3 b d hbd (by simp) (by simp), fun _ => z 1, fun l _ => ?_⟩
          rw [hE e3 b d hbd, hF, hz, hpar l]
          ring
      · rcases hz with hz | hz
        · refine ⟨e1, l1, hsub e1 a b hab (by simp) (by simp), fun _ => z 0, fun l _ => ?_⟩
          rw [hE e1 a b hab, hF, hz]
          ring
        · refine ⟨e4, l4, hsub e4 c d hcd (by simp) (by simp), fun _ => z 0, fun l _ => ?_⟩
          rw [hE e4 c d hcd, hF, hz, hpar l]
          ring
    · have hi' : i < 1 := hi
      obtain rfl : i = 0 := by omega
      obtain ⟨i', hi', y, hy⟩ := cell_boundary (c := .hexahedron) (Or.inr rfl) hj hz
      have key : ∀ i < 2 * 3, entVerts .hexahedron 2 i ⊆ entVerts .hexahedron 3 0 := by decide
      exact ⟨i', hi', key i' hi', y, fun l hl => (hy l hl).trans (box_param (c := .hexahedron) (Or.inr rfl) z hl).symm⟩

/-- The value of a moment. -/
theorem moment1Map_eq (D : Domain) (J : ℝ) (w p : MvPolynomial ℕ ℝ) : moment1Map D J w p = J * pairing1 D.cell (pull D p) w := by
  show moment1Value D J w p = J * cellInt D.cell fun z => eval z (pull D p * w)
  unfold moment1Value
  rw [← cellInt_const_mul]
  congr 1
  funext z
  rw [map_mul, eval_pull]
  ring

end Verif.Scalar
