import Verif.Families.Hcurl2
import Verif.Families.QSub
/-!
# The entities of the default quadrilateral and hexahedron, and the restrictions of functions to them
-/

namespace Verif.Families
open Verif.References Verif.Moments Verif.Functionals Verif.Elements Verif.FiniteElement Verif.Polysets Verif.Orthogonal
open MvPolynomial

/-! ### Domains with axes along the coordinate axes -/

/-- The axes of the domain are the coordinate axes `σ 0`, `σ 1`, ... and the domain starts at 0 along these. -/
structure Aligned (D : Domain) (σ : ℕ → ℕ) : Prop where
  axes : ∀ k < D.cell.tdim, ∀ j, axis D.cell D.v k j = if j = σ k then 1 else 0
  start : ∀ k < D.cell.tdim, D.v 0 (σ k) = 0
  inj : ∀ k < D.cell.tdim, ∀ l < D.cell.tdim, σ k = σ l → k = l

section
variable {D : Domain} {σ : ℕ → ℕ}

theorem Aligned.coord (h : Aligned D σ) {k : ℕ} (hk : k < D.cell.tdim) : coordPoly D (σ k) = X k := by
  rw [coordPoly, h.start k hk, C_0, zero_add, Finset.sum_eq_single ⟨k, hk⟩]
  · rw [h.axes k hk, if_pos rfl, C_1, one_mul]
  · intro l _ hl
    rw [h.axes l.val l.2, if_neg, C_0, zero_mul]
    exact fun hc => hl (Fin.ext (h.inj l.val l.2 k hk hc.symm))
  · intro hc; exact absurd (Finset.mem_univ _) hc

theorem Aligned.coord_const (h : Aligned D σ) {j : ℕ} (hj : ∀ k < D.cell.tdim, j ≠ σ k) : coordPoly D j = C (D.v 0 j) := by
  rw [coordPoly, add_eq_left]
  refine Finset.sum_eq_zero fun k _ => ?_
  rw [h.axes k.val k.2, if_neg (hj k.val k.2), C_0, zero_mul]

theorem Aligned.pull (h : Aligned D σ) {F G : ℕ → ℤ} (hG : ∀ m, 0 ≤ G m) (hF : ∀ k < D.cell.tdim, F (σ k) ≤ G k)
    {p : MvPolynomial ℕ ℝ} (hp : p ∈ B F) : pull D p ∈ B G := by
  have hc : ∀ j, (∃ r, coordPoly D j = C r) ∨ ∃ m < D.cell.tdim, j = σ m := by
    intro j
    by_cases hj : ∃ m < D.cell.tdim, j = σ m
    · exact Or.inr hj
    · push Not at hj
      exact Or.inl ⟨_, h.coord_const hj⟩
  have hx : ∀ j m, coordPoly D j = X m → m < D.cell.tdim ∧ j = σ m := by
    intro j m hjm
    rcases hc j with ⟨r, hr⟩ | ⟨l, hl, rfl⟩
    · rw [hr] at hjm
      have := congrArg (degreeOf m) hjm
      rw [degreeOf_C, degreeOf_X, if_pos rfl] at this
      omega
    · rw [h.coord hl, X_inj] at hjm
      subst hjm
      exact ⟨hl, rfl⟩
  refine B_subst hG (fun j => ?_) (fun j j' m h1 h2 => ?_) hp
  · rcases hc j with hr | ⟨m, hm, rfl⟩
    · exact Or.inl hr
    · exact Or.inr ⟨m, h.coord hm, hF m hm⟩
  · rw [(hx j m h1).2, (hx j' m h2).2]

/-- The component along a coordinate axis. -/
theorem comp_single {a : ℕ} (ha : a < D.g) {n : ℕ → ℝ} (hn : ∀ j, n j = if j = a then 1 else 0) (v : Field D.g) :
    comp D n v = Verif.Families.pull D (v ⟨a, ha⟩) := by
  rw [comp, Finset.sum_eq_single ⟨a, ha⟩]
  · rw [hn, if_pos rfl, C_1, one_mul]
  · intro j _ hj
    rw [hn, if_neg, C_0, zero_mul]
    exact fun hc => hj (Fin.ext hc)
  · intro hc; exact absurd (Finset.mem_univ _) hc

/-- The tangential components of a Nédélec function are a Nédélec function. -/
theorem Aligned.tang (h : Aligned D σ) (hσ : ∀ k < D.cell.tdim, σ k < D.g) {k : ℤ} (hk : 1 ≤ k) {v : Field D.g} (hv : NCQ D.g k v) :
    NCQ D.cell.tdim k (tang D v) := by
  intro m
  rw [Verif.Families.tang, comp_single (hσ m.val m.2) (h.axes m.val m.2)]
  refine h.pull (fun j => ?_) (fun l hl => ?_) (hv _)
  · unfold degs; split_ifs <;> omega
  · simp only [degs, if_pos (hσ l hl), if_pos hl]
    by_cases hlm : l = m.val
    · rw [hlm, if_pos rfl, if_pos rfl]
    · rw [if_neg hlm, if_neg fun hc => hlm (h.inj l hl m.val m.2 hc)]

/-- The component of a Raviart–Thomas function in the direction that is constant. -/
theorem Aligned.normal (h : Aligned D σ) (hσ : ∀ k < D.cell.tdim, σ k < D.g) {k : ℤ} (hk : 1 ≤ k) {v : Field D.g} (hv : RTQ D.g k v)
    {a : ℕ} (ha : a < D.g) (hne : ∀ k < D.cell.tdim, σ k ≠ a) {n : ℕ → ℝ} (hn : ∀ j, n j = if j = a then 1 else 0) :
    comp D n v ∈ QP D.cell.tdim (k - 1) := by
  rw [comp_single ha hn]
  refine h.pull (fun j => ?_) (fun l hl => ?_) (hv _)
  · split_ifs <;> omega
  · simp only [degs, if_pos (hσ l hl), if_pos hl, if_neg (hne l hl), le_refl]

end

/-- Moments in a direction, against any set that spans the component. -/
theorem trace_zero' (D : Domain) (hc : Solid D.cell) {J s : ℝ} (hJ : J ≠ 0) (hs : s ≠ 0) {n : ℕ → ℝ} {v : Field D.g} {k : ℤ}
    (hv : ∀ j, v j ∈ P D.g k) {xs : List (MvPolynomial ℕ ℝ)}
    (hxs : comp D n v ∈ lspan xs) (h : ∀ x ∈ xs, momentMap D J (fun j => C (s * n j.val) * x) v = 0) {y z : ℕ → ℝ}
    (hy : ∀ j < D.g, D.param y j = z j) : ∑ j, n j.val * eval z (v j) = 0 := by
  have h0 : comp D n v = 0 := by
    refine eq_zero_of_pairing hc (comp_mem D n hv) hxs fun p hp => ?_
    have := (momentMap_scale D J s n p v).trans (h p hp)
    rw [momentMap_eq, mul_eq_zero] at this
    refine Eq.trans ?_ (this.resolve_left (mul_ne_zero hJ hs))
    show cellInt D.cell (fun z => eval z (comp D n v * p)) = _
    congr 1
    funext z
    congr 1
    rw [comp, Finset.sum_mul]
    exact Finset.sum_congr rfl fun i _ => by ring
  have := eval_comp D n v y
  rw [h0, map_zero] at this
  rw [this]
  refine Finset.sum_congr rfl fun j _ => ?_
  rw [eval_congr_P (hv j) fun l hl => (hy l hl).symm]

/-! ### Facets -/

/-- The coordinate axis that is normal to facet `i` of a quadrilateral or hexahedron. -/
def qAxis (d i : ℕ) : ℕ := if i < d then d - 1 - i else i - d

/-- The value of the coordinate on facet `i`. -/
def qVal (d i : ℕ) : ℝ := if i < d then 0 else 1

/-- The coordinates other than `a`. -/
def skip (a k : ℕ) : ℕ := if k < a then k else k + 1

theorem skip_inj {a k l : ℕ} (h : skip a k = skip a l) : k = l := by
  unfold skip at h
  split_ifs at h <;> omega

theorem skip_ne (a k : ℕ) : skip a k ≠ a := by
  unfold skip
  split_ifs <;> omega

theorem skip_lt {a k d : ℕ} (ha : a < d) (hk : k < d - 1) : skip a k < d := by
  unfold skip
  split_ifs <;> omega

theorem skip_cover {a j d : ℕ} (ha : a < d) (hj : j < d) (h : j ≠ a) : ∃ k < d - 1, j = skip a k := by
  by_cases hja : j < a
  · exact ⟨j, by omega, by rw [skip, if_pos hja]⟩
  · exact ⟨j - 1, by omega, by rw [skip, if_neg (by omega)]; omega⟩

theorem qAxis_lt {d i : ℕ} (h : i < 2 * d) : qAxis d i < d := by
  unfold qAxis
  split_ifs <;> omega

/-- The vertices of the facets. -/
structure QFacet (D : Domain) (a : ℕ) (b : ℝ) : Prop where
  start : ∀ j, D.v 0 j = if j = a then b else 0
  axes : ∀ k < D.cell.tdim, ∀ j, axis D.cell D.v k j = if j = skip a k then 1 else 0

theorem QFacet.aligned {D : Domain} {a : ℕ} {b : ℝ} (h : QFacet D a b) : Aligned D (skip a) where
  axes := h.axes
  start k _ := by rw [h.start, if_neg (skip_ne a k)]
  inj _ _ _ _ := skip_inj

theorem QFacet.covers {D : Domain} {a : ℕ} {b : ℝ} (h : QFacet D a b) (ha : a < D.g) (hd : D.cell.tdim = D.g - 1) {z : ℕ → ℝ}
    (hz : z a = b) : ∃ y, ∀ j < D.g, D.param y j = z j := by
  refine ⟨fun k => z (skip a k), fun j hj => ?_⟩
  rw [← eval_coordPoly]
  by_cases hja : j = a
  · subst hja
    rw [h.aligned.coord_const fun k _ => (skip_ne j k).symm, eval_C, h.start, if_pos rfl, hz]
  · obtain ⟨k, hk, rfl⟩ := skip_cover ha hj hja
    rw [h.aligned.coord (by omega), eval_X]

theorem quad_facet {i : ℕ} (hi : i < 4) : QFacet (entityDomain .quadrilateral (1, i)) (qAxis 2 i) (qVal 2 i) := by
  have hc : ∀ i, (entityDomain .quadrilateral (1, i)).cell = .interval := fun _ => rfl
  have hv : ∀ i j k, (entityDomain .quadrilateral (1, i)).v j k =
      refVertex .quadrilateral ((entVerts .quadrilateral 1 i).getD j 0) k := fun _ _ _ => rfl
  have e0 : entVerts .quadrilateral 1 0 = [0, 1] := rfl
  have e1 : entVerts .quadrilateral 1 1 = [0, 2] := rfl
  have e2 : entVerts .quadrilateral 1 2 = [1, 3] := rfl
  have e3 : entVerts .quadrilateral 1 3 = [2, 3] := rfl
  constructor
  · intro j
    rcases j with _ | _ | j <;>
    interval_cases i <;> norm_num [hv, e0, e1, e2, e3, refVertex, refVerts, coords, qAxis, qVal]
  · intro k hk j
    rw [hc] at hk ⊢
    simp only [Cell.tdim] at hk
    interval_cases k
    rcases j with _ | _ | j <;>
    interval_cases i <;> norm_num [axis, psub, hv, e0, e1, e2, e3, axisVertices, refVertex, refVerts, coords, qAxis, skip]

theorem hex_facet {i : ℕ} (hi : i < 6) : QFacet (entityDomain .hexahedron (2, i)) (qAxis 3 i) (qVal 3 i) := by
  have hc : ∀ i, (entityDomain .hexahedron (2, i)).cell = .quadrilateral := fun _ => rfl
  have hv : ∀ i j k, (entityDomain .hexahedron (2, i)).v j k =
      refVertex .hexahedron ((entVerts .hexahedron 2 i).getD j 0) k := fun _ _ _ => rfl
  have e0 : entVerts .hexahedron 2 0 = [0, 1, 2, 3] := rfl
  have e1 : entVerts .hexahedron 2 1 = [0, 1, 4, 5] := rfl
  have e2 : entVerts .hexahedron 2 2 = [0, 2, 4, 6] := rfl
  have e3 : entVerts .hexahedron 2 3 = [1, 3, 5, 7] := rfl
  have e4 : entVerts .hexahedron 2 4 = [2, 3, 6, 7] := rfl
  have e5 : entVerts .hexahedron 2 5 = [4, 5, 6, 7] := rfl
  constructor
  · intro j
    rcases j with _ | _ | _ | j <;>
    interval_cases i <;> norm_num [hv, e0, e1, e2, e3, e4, e5, refVertex, refVerts, coords, qAxis, qVal] <;> omega
  · intro k hk j
    rw [hc] at hk ⊢
    simp only [Cell.tdim] at hk
    interval_cases k <;>
    rcases j with _ | _ | _ | j <;>
    interval_cases i <;> norm_num [axis, psub, hv, e0, e1, e2, e3, e4, e5, axisVertices, refVertex, refVerts, coords, qAxis, skip] <;> omega

/-- The Jacobian and the normal. -/
theorem facet_normal2 {V : ℕ → ℕ → ℝ} {a : ℕ} {b : ℝ} (ha : a < 2) (h : QFacet ⟨.interval, 2, V⟩ a b) :
    ∃ n s, s ≠ 0 ∧ jacobian .interval 2 V = some 1 ∧ normal .interval 2 V = some n ∧
      ∀ j < 2, n j = s * if j = a then 1 else 0 := by
  have hx : ∀ j, axis .interval V 0 j = if j = skip a 0 then 1 else 0 := h.axes 0 (show 0 < 1 by omega)
  refine ⟨_, if a = 0 then -1 else 1, by split_ifs <;> norm_num, ?_, rfl, fun j hj => ?_⟩
  · simp only [jacobian, axisVertices, Cell.tdim, List.length_singleton, if_true, hx]
    interval_cases a <;> simp [skip, Finset.sum_range_succ]
  · interval_cases a <;> interval_cases j <;> norm_num [vnormalise, pdot, coords, hx, skip, Finset.sum_range_succ]

theorem facet_normal3 {V : ℕ → ℕ → ℝ} {a : ℕ} {b : ℝ} (ha : a < 3) (h : QFacet ⟨.quadrilateral, 3, V⟩ a b) :
    ∃ n s, s ≠ 0 ∧ jacobian .quadrilateral 3 V = some 1 ∧ normal .quadrilateral 3 V = some n ∧
      ∀ j < 3, n j = s * if j = a then 1 else 0 := by
  have h0 : ∀ j, axis .quadrilateral V 0 j = if j = skip a 0 then 1 else 0 := h.axes 0 (show 0 < 2 by omega)
  have h1 : ∀ j, axis .quadrilateral V 1 j = if j = skip a 1 then 1 else 0 := h.axes 1 (show 1 < 2 by omega)
  refine ⟨_, if a = 1 then -1 else 1, by split_ifs <;> norm_num, ?_, rfl, fun j hj => ?_⟩
  · simp only [jacobian, axisVertices, Cell.tdim]
    interval_cases a <;> norm_num [skip, pcross, coords, h0, h1]
  · interval_cases a <;> interval_cases j <;> norm_num [vnormalise, pdot, pcross, coords, h0, h1, skip, Finset.sum_range_succ]

/-- The cell of the facets. -/
def qFacetCell : Cell → Cell
  | .quadrilateral => .interval
  | _ => .quadrilateral

theorem qFacetCell_tensor (c : Cell) : Tensor (qFacetCell c) := by
  cases c <;> simp [qFacetCell, Tensor]

theorem qFacetCell_solid (c : Cell) : Solid (qFacetCell c) := by
  cases c <;> simp [qFacetCell, Solid]

theorem qFacetCell_tdim {c : Cell} (hc : Box c) : (qFacetCell c).tdim = c.tdim - 1 := by
  rcases hc with rfl | rfl <;> rfl

/-- What is needed about the facets. -/
theorem box_facet {c : Cell} (hc : Box c) {i : ℕ} (hi : i < 2 * c.tdim) :
    (entityDomain c (c.tdim - 1, i)).cell = qFacetCell c ∧
    QFacet (entityDomain c (c.tdim - 1, i)) (qAxis c.tdim i) (qVal c.tdim i) ∧
    ∃ n s, s ≠ 0 ∧ jacobian (entityDomain c (c.tdim - 1, i)).cell c.tdim (entityDomain c (c.tdim - 1, i)).v = some 1 ∧
      normal (entityDomain c (c.tdim - 1, i)).cell c.tdim (entityDomain c (c.tdim - 1, i)).v = some n ∧
      ∀ j < c.tdim, n j = s * if j = qAxis c.tdim i then 1 else 0 := by
  rcases hc with rfl | rfl
  · exact ⟨rfl, quad_facet hi, facet_normal2 (qAxis_lt hi) (quad_facet hi)⟩
  · exact ⟨rfl, hex_facet hi, facet_normal3 (qAxis_lt hi) (hex_facet hi)⟩

/-! ### Edges -/

theorem box_edge {c : Cell} (hc : Box c) {i : ℕ} (hi : i < entityCount c 1) :
    ∃ a < c.tdim, (∀ j, axis .interval (entityDomain c (1, i)).v 0 j = if j = a then 1 else 0) ∧ (entityDomain c (1, i)).v 0 a = 0 := by
  rcases hc with rfl | rfl
  · have h := quad_facet hi
    refine ⟨skip (qAxis 2 i) 0, skip_lt (qAxis_lt (show i < 2 * 2 from hi)) (show 0 < 2 - 1 by omega), h.axes 0 (show 0 < 1 by omega), ?_⟩
    rw [h.start, if_neg (skip_ne _ _)]
  · have hv : ∀ i j k, (entityDomain .hexahedron (1, i)).v j k =
      refVertex .hexahedron ((entVerts .hexahedron 1 i).getD j 0) k := fun _ _ _ => rfl
    have hi' : i < 12 := hi
    have e0 : entVerts .hexahedron 1 0 = [0, 1] := rfl
    have e1 : entVerts .hexahedron 1 1 = [0, 2] := rfl
    have e2 : entVerts .hexahedron 1 2 = [0, 4] := rfl
    have e3 : entVerts .hexahedron 1 3 = [1, 3] := rfl
    have e4 : entVerts .hexahedron 1 4 = [1, 5] := rfl
    have e5 : entVerts .hexahedron 1 5 = [2, 3] := rfl
    have e6 : entVerts .hexahedron 1 6 = [2, 6] := rfl
    have e7 : entVerts .hexahedron 1 7 = [3, 7] := rfl
    have e8 : entVerts .hexahedron 1 8 = [4, 5] := rfl
    have e9 : entVerts .hexahedron 1 9 = [4, 6] := rfl
    have e10 : entVerts .hexahedron 1 10 = [5, 7] := rfl
    have e11 : entVerts .hexahedron 1 11 = [6, 7] := rfl
    refine ⟨[0, 1, 2, 1, 2, 0, 2, 2, 0, 1, 1, 0].getD i 0, ?_, fun j => ?_, ?_⟩
    · interval_cases i <;> decide
    · rcases j with _ | _ | _ | j <;> interval_cases i <;>
      norm_num [axis, psub, hv, e0, e1, e2, e3, e4, e5, e6, e7, e8, e9, e10, e11, axisVertices, refVertex, refVerts, coords] <;> omega
    · interval_cases i <;>
      norm_num [hv, e0, e1, e2, e3, e4, e5, e6, e7, e8, e9, e10, e11, refVertex, refVerts, coords]

end Verif.Families
