import Verif.Families.Facets
import Verif.References.PropsMaps
/-!
# Vector functions mapped to physical cells

`map_to_cell` of vector elements (symfem/finite_element.py:340-420) with the mappings `contravariant` and `covariant`, on
triangles, tetrahedra, parallelograms and parallelepipeds.
-/

namespace Verif.Families
open Verif.References Verif.Moments Verif.Functionals Verif.Elements Verif.FiniteElement Verif.Polysets Verif.Orthogonal
open MvPolynomial

/-! ### Model -/

/-- `contravariant` (symfem/mappings.py:116-140): the Jacobian divided by its determinant, times the function. -/
noncomputable def pushContra {d : ℕ} (M : Matrix (Fin d) (Fin d) ℝ) (f : Fin d → ℝ) (r : Fin d) : ℝ :=
  ∑ k, M r k / M.det * f k

/-- `covariant` (symfem/mappings.py:88-113): the transpose of the Jacobian of the inverse map, times the function. -/
noncomputable def pushCo {d : ℕ} (M : Matrix (Fin d) (Fin d) ℝ) (f : Fin d → ℝ) (r : Fin d) : ℝ :=
  ∑ k, M⁻¹ k r * f k

/-- The Jacobian of an affine map to the cell with the vertices `V`: the derivatives along the axes. -/
noncomputable def jacMat (c : Cell) (V : ℕ → ℕ → ℝ) : Matrix (Fin c.tdim) (Fin c.tdim) ℝ := fun r k => axis c V k.val r.val

/-- The function mapped to the cell with the vertices `V`: the inverse map is substituted.  `none` if there is no inverse
map. -/
noncomputable def mapped (push : ∀ {d : ℕ}, Matrix (Fin d) (Fin d) ℝ → (Fin d → ℝ) → Fin d → ℝ) (c : Cell) (V : ℕ → ℕ → ℝ)
    (f : Field c.tdim) : Option ((ℕ → ℝ) → Fin c.tdim → ℝ) :=
  (invMapTo c c.tdim V).map fun F x => push (jacMat c V) fun k => eval (coords (F x)) (f k)

/-! ### Spec -/

/-- A vector that is normal to the facet with the vertices `W`; it depends on the order of the vertices. -/
noncomputable def areaVec (d : ℕ) (W : ℕ → ℕ → ℝ) : ℕ → ℝ :=
  if d = 2 then coords [-(W 1 1 - W 0 1), W 1 0 - W 0 0]
  else pcross (fun j => W 1 j - W 0 j) fun j => W 2 j - W 0 j

/-! ### Geometry -/

/-- The cells. -/
def Affine4 (c : Cell) : Prop := c = .triangle ∨ c = .tetrahedron ∨ c = .quadrilateral ∨ c = .hexahedron

theorem Simp.affine4 {c : Cell} (h : Simp c) : Affine4 c := by rcases h with rfl | rfl <;> simp [Affine4]

/-- The maps to cells that have an inverse are affine. -/
theorem affine_cell {c : Cell} (hc : Affine4 c) {V : ℕ → ℕ → ℝ} {F : (ℕ → ℝ) → List ℝ} (hF : invMapTo c c.tdim V = some F) :
    (∀ p < c.nverts, ∀ j < c.tdim, V p j = V 0 j + ∑ l ∈ Finset.range c.tdim, axis c V l j * refVertex c p l) ∧
    (∀ x y : ℕ → ℝ, (∀ j < c.tdim, y j = V 0 j + ∑ l ∈ Finset.range c.tdim, axis c V l j * x l) → F y = firstCoords c.tdim x) ∧
    (jacMat c V).det ≠ 0 := by
  have s2 : ∀ {M : Matrix (Fin 2) (Fin 2) ℝ} {v0}, solve2 M v0 = some F → M.det ≠ 0 := fun h => by
    intro h0; rw [solve2, if_pos h0] at h; cases h
  have s3 : ∀ {n} {M : Matrix (Fin 3) (Fin 3) ℝ} {v0}, solve3 n M v0 = some F → M.det ≠ 0 := fun h => by
    intro h0; rw [solve3, if_pos h0] at h; cases h
  rcases hc with rfl | rfl | rfl | rfl
  · have hF' : solve2 (mat2 (psub (V 1) (V 0)) (psub (V 2) (V 0))) (V 0) = some F := hF
    refine ⟨fun p hp j hj => ?_, fun x y h => ?_, ?_⟩
    · have hp : p < 3 := hp
      interval_cases p <;>
        simp [Finset.sum_range_succ, show Cell.triangle.tdim = 2 from rfl, axis, psub, axisVertices, refVertex, refVerts, coords]
    · have h0 := h 0 (by decide)
      have h1 := h 1 (by decide)
      simp [show Cell.triangle.tdim = 2 from rfl, Finset.sum_range_succ, axis, psub, axisVertices] at h0 h1
      rw [solve2_unique hF' _ (x 0) (x 1)]
      · simp [firstCoords, Cell.tdim, List.range_succ]
      · simp [mat2, psub]; linarith
      · simp [mat2, psub]; linarith
    · have e : (jacMat .triangle V : Matrix (Fin 2) (Fin 2) ℝ) = mat2 (psub (V 1) (V 0)) (psub (V 2) (V 0)) := by
        ext i j
        fin_cases i <;> fin_cases j <;> rfl
      show (jacMat .triangle V : Matrix (Fin 2) (Fin 2) ℝ).det ≠ 0
      rw [e]
      exact s2 hF'
  · have hF' : solve3 3 (mat3 (psub (V 1) (V 0)) (psub (V 2) (V 0)) (psub (V 3) (V 0))) (V 0) = some F := hF
    refine ⟨fun p hp j hj => ?_, fun x y h => ?_, ?_⟩
    · have hp : p < 4 := hp
      interval_cases p <;>
        simp [Finset.sum_range_succ, show Cell.tetrahedron.tdim = 3 from rfl, axis, psub, axisVertices, refVertex, refVerts, coords]
    · have h0 := h 0 (by decide)
      have h1 := h 1 (by decide)
      have h2 := h 2 (by decide)
      simp [show Cell.tetrahedron.tdim = 3 from rfl, Finset.sum_range_succ, axis, psub, axisVertices] at h0 h1 h2
      rw [solve3_unique hF' _ (x 0) (x 1) (x 2)]
      · simp [firstCoords, Cell.tdim, List.range_succ]
      · simp [mat3, psub]; linarith
      · simp [mat3, psub]; linarith
      · simp [mat3, psub]; linarith
    · have e : (jacMat .tetrahedron V : Matrix (Fin 3) (Fin 3) ℝ) = mat3 (psub (V 1) (V 0)) (psub (V 2) (V 0)) (psub (V 3) (V 0)) := by
        ext i j
        fin_cases i <;> fin_cases j <;> rfl
      show (jacMat .tetrahedron V : Matrix (Fin 3) (Fin 3) ℝ).det ≠ 0
      rw [e]
      exact s3 hF'
  · simp only [invMapTo] at hF
    split at hF
    case isFalse => cases hF
    rename_i hq
    rw [parallelogram_iff] at hq
    refine ⟨fun p hp j hj => ?_, fun x y h => ?_, ?_⟩
    · have hp : p < 4 := hp
      have := hq j hj
      interval_cases p <;>
        simp [Finset.sum_range_succ, show Cell.quadrilateral.tdim = 2 from rfl, axis, psub, axisVertices, refVertex, refVerts, coords]
      linarith
    · have h0 := h 0 (by decide)
      have h1 := h 1 (by decide)
      simp [show Cell.quadrilateral.tdim = 2 from rfl, Finset.sum_range_succ, axis, psub, axisVertices] at h0 h1
      rw [solve2_unique hF _ (x 0) (x 1)]
      · simp [firstCoords, Cell.tdim, List.range_succ]
      · simp [mat2, psub]; linarith
      · simp [mat2, psub]; linarith
    · have e : (jacMat .quadrilateral V : Matrix (Fin 2) (Fin 2) ℝ) = mat2 (psub (V 1) (V 0)) (psub (V 2) (V 0)) := by
        ext i j
        fin_cases i <;> fin_cases j <;> rfl
      show (jacMat .quadrilateral V : Matrix (Fin 2) (Fin 2) ℝ).det ≠ 0
      rw [e]
      exact s2 hF
  · simp only [invMapTo] at hF
    split at hF
    case isFalse => cases hF
    rename_i hq
    obtain ⟨-, hq⟩ := hq
    simp only [Cell.faces, List.all_cons, List.all_nil, Bool.and_true, Bool.and_eq_true, parallelogram_iff] at hq
    obtain ⟨q0, q1, q2, q3, q4, q5⟩ := hq
    refine ⟨fun p hp j hj => ?_, fun x y h => ?_, ?_⟩
    · have hp : p < 8 := hp
      have e3 : V 3 j = V 1 j + V 2 j - V 0 j := by linear_combination q0 j hj
      have e5 : V 5 j = V 1 j + V 4 j - V 0 j := by linear_combination q1 j hj
      have e6 : V 6 j = V 2 j + V 4 j - V 0 j := by linear_combination q2 j hj
      have e7 : V 7 j = V 3 j + V 5 j - V 1 j := by linear_combination q3 j hj
      interval_cases p <;>
        simp [Finset.sum_range_succ, show Cell.hexahedron.tdim = 3 from rfl, axis, psub, axisVertices, refVertex, refVerts, coords] <;>
        linarith
    · have h0 := h 0 (by decide)
      have h1 := h 1 (by decide)
      have h2 := h 2 (by decide)
      simp [show Cell.hexahedron.tdim = 3 from rfl, Finset.sum_range_succ, axis, psub, axisVertices] at h0 h1 h2
      rw [solve3_unique hF _ (x 0) (x 1) (x 2)]
      · simp [firstCoords, Cell.tdim, List.range_succ]
      · simp [mat3, psub]; linarith
      · simp [mat3, psub]; linarith
      · simp [mat3, psub]; linarith
    · have e : (jacMat .hexahedron V : Matrix (Fin 3) (Fin 3) ℝ) = mat3 (psub (V 1) (V 0)) (psub (V 2) (V 0)) (psub (V 4) (V 0)) := by
        ext i j
        fin_cases i <;> fin_cases j <;> rfl
      show (jacMat .hexahedron V : Matrix (Fin 3) (Fin 3) ℝ).det ≠ 0
      rw [e]
      exact s3 hF

theorem entVerts_lt {c : Cell} (hc : Affine4 c) (dim i k : ℕ) : (entVerts c dim i).getD k 0 < c.nverts := by
  have h : ∀ p ∈ entVerts c dim i, p < c.nverts := by
    intro p hp
    unfold entVerts at hp
    have key : ∀ ents, c.subEntities dim = some ents → ∀ e ∈ ents, ∀ p ∈ e, p < c.nverts := by
      rcases hc with rfl | rfl | rfl | rfl <;> intro ents he <;>
        (rcases dim with _ | _ | _ | _ | dim <;> first | (cases he; decide) | (simp [Cell.subEntities] at he))
    cases hents : c.subEntities dim with
    | none => rw [hents] at hp; simp at hp
    | some ents =>
      rw [hents, Option.bind_some] at hp
      cases he : ents[i]? with
      | none => rw [he] at hp; simp at hp
      | some e =>
        rw [he, Option.getD_some] at hp
        exact key _ hents _ (List.mem_of_getElem? he) _ hp
  rw [List.getD_eq_getElem?_getD]
  cases hk : (entVerts c dim i)[k]? with
  | none => rcases hc with rfl | rfl | rfl | rfl <;> decide
  | some p => exact h p (List.mem_of_getElem? hk)

/-- The entity of the physical cell. -/
noncomputable def physDomain (c : Cell) (V : ℕ → ℕ → ℝ) (e : ℕ × ℕ) : Domain :=
  ⟨entType c e.1 e.2, c.tdim, entityVerts V (entVerts c e.1 e.2)⟩

/-- The axes of the entities of the physical cell. -/
theorem phys_axis {c : Cell} (hc : Affine4 c) {V : ℕ → ℕ → ℝ} {F : (ℕ → ℝ) → List ℝ} (hF : invMapTo c c.tdim V = some F)
    (e : ℕ × ℕ) (p q : ℕ) (r : Fin c.tdim) :
    (physDomain c V e).v p r.val - (physDomain c V e).v q r.val =
      ∑ l, jacMat c V r l * ((entityDomain c e).v p l.val - (entityDomain c e).v q l.val) := by
  obtain ⟨h, -, -⟩ := affine_cell hc hF
  show V ((entVerts c e.1 e.2).getD p 0) r.val - V ((entVerts c e.1 e.2).getD q 0) r.val = _
  rw [h _ (entVerts_lt hc e.1 e.2 p) r.val r.2, h _ (entVerts_lt hc e.1 e.2 q) r.val r.2]
  rw [← Fin.sum_univ_eq_sum_range (fun l => axis c V l r.val * _), ← Fin.sum_univ_eq_sum_range (fun l => axis c V l r.val * _)]
  simp only [mul_sub, Finset.sum_sub_distrib]
  show _ = ∑ l : Fin c.tdim, axis c V l.val r.val * refVertex c ((entVerts c e.1 e.2).getD p 0) l.val -
    ∑ l : Fin c.tdim, axis c V l.val r.val * refVertex c ((entVerts c e.1 e.2).getD q 0) l.val
  ring

/-- The mapped function on an entity. -/
theorem mapped_param {push : ∀ {d : ℕ}, Matrix (Fin d) (Fin d) ℝ → (Fin d → ℝ) → Fin d → ℝ} {c : Cell} (hc : Affine4 c)
    {V : ℕ → ℕ → ℝ} {f : Field c.tdim} {k : ℤ} (hf : ∀ j, f j ∈ P c.tdim k) {g : (ℕ → ℝ) → Fin c.tdim → ℝ}
    (hg : mapped push c V f = some g) (e : ℕ × ℕ) (t y : ℕ → ℝ) (hy : ∀ j < c.tdim, y j = (physDomain c V e).param t j) :
    g y = push (jacMat c V) fun k => eval ((entityDomain c e).param t) (f k) := by
  obtain ⟨F, hF, rfl⟩ := Option.map_eq_some_iff.1 hg
  obtain ⟨h1, h2, -⟩ := affine_cell hc hF
  have := h2 ((entityDomain c e).param t) y fun j hj => by
    have h0 := h1 _ (entVerts_lt hc e.1 e.2 0) j hj
    have hp := fun p => phys_axis hc hF e p 0 ⟨j, hj⟩
    rw [hy j hj, Domain.param]
    have : ∀ k ∈ Finset.range (physDomain c V e).cell.tdim, ((physDomain c V e).v ((axisVertices (physDomain c V e).cell).getD k 0) j -
        (physDomain c V e).v 0 j) * t k = ∑ l, jacMat c V ⟨j, hj⟩ l * (((entityDomain c e).v
          ((axisVertices (physDomain c V e).cell).getD k 0) l.val - (entityDomain c e).v 0 l.val) * t k) := by
      intro k _
      rw [hp, Finset.sum_mul]
      exact Finset.sum_congr rfl fun l _ => by ring
    rw [Finset.sum_congr rfl this, Finset.sum_comm]
    show V ((entVerts c e.1 e.2).getD 0 0) j + _ = _
    rw [h0, add_assoc, ← Fin.sum_univ_eq_sum_range (fun l => axis c V l j * _), ← Fin.sum_univ_eq_sum_range (fun l => axis c V l j * _),
      ← Finset.sum_add_distrib]
    congr 1
    refine Finset.sum_congr rfl fun l _ => ?_
    rw [Domain.param, mul_add, ← Finset.mul_sum]
    rfl
  show push (jacMat c V) _ = _
  congr 1
  funext j
  rw [this]
  refine eval_congr_P (hf j) fun i hi => ?_
  simp [coords, firstCoords, List.getD_eq_getElem?_getD, hi]

/-- The normal component of a function mapped by `contravariant`. -/
theorem area_contra {c : Cell} (hc : Affine4 c) {V : ℕ → ℕ → ℝ} {F : (ℕ → ℝ) → List ℝ} (hF : invMapTo c c.tdim V = some F)
    (e : ℕ × ℕ) (f : Fin c.tdim → ℝ) :
    ∑ r : Fin c.tdim, areaVec c.tdim (physDomain c V e).v r.val * pushContra (jacMat c V) f r =
      ∑ r : Fin c.tdim, areaVec c.tdim (entityDomain c e).v r.val * f r := by
  obtain ⟨-, -, hdet⟩ := affine_cell hc hF
  have hp := phys_axis hc hF e
  have hd : c.tdim = 2 ∨ c.tdim = 3 := by rcases hc with rfl | rfl | rfl | rfl <;> simp [Cell.tdim]
  generalize jacMat c V = M at *
  generalize (physDomain c V e).v = W at *
  generalize (entityDomain c e).v = U at *
  revert M f hdet hp
  generalize c.tdim = d at *
  intro f M hdet hp
  unfold pushContra
  simp_rw [div_mul_eq_mul_div, ← Finset.sum_div]
  rcases hd with rfl | rfl
  · have p0 := hp 1 0 0
    have p1 := hp 1 0 1
    simp only [Fin.sum_univ_two, areaVec, if_true, coords, Fin.val_zero, Fin.val_one, List.getD_cons_zero, List.getD_cons_succ] at *
    rw [p0, p1]
    field_simp
    rw [Matrix.det_fin_two]
    ring
  · have p := fun k r => hp k 0 r
    simp only [Fin.sum_univ_three, areaVec, if_false, pcross, coords, Fin.val_zero, Fin.val_one, Fin.val_two, List.getD_cons_zero,
      List.getD_cons_succ, Nat.reduceEqDiff] at *
    have a := fun k => p k 0
    have b := fun k => p k 1
    have c := fun k => p k 2
    simp only [Fin.val_zero, Fin.val_one, Fin.val_two] at a b c
    rw [a 1, b 1, c 1, a 2, b 2, c 2]
    field_simp
    rw [Matrix.det_fin_three]
    ring

/-- The component of a function mapped by `covariant` along the direction from one vertex of an entity to another. -/
theorem axis_co {c : Cell} (hc : Affine4 c) {V : ℕ → ℕ → ℝ} {F : (ℕ → ℝ) → List ℝ} (hF : invMapTo c c.tdim V = some F)
    (e : ℕ × ℕ) (p q : ℕ) (f : Fin c.tdim → ℝ) :
    ∑ r : Fin c.tdim, ((physDomain c V e).v p r.val - (physDomain c V e).v q r.val) * pushCo (jacMat c V) f r =
      ∑ r : Fin c.tdim, ((entityDomain c e).v p r.val - (entityDomain c e).v q r.val) * f r := by
  obtain ⟨-, -, hdet⟩ := affine_cell hc hF
  simp_rw [phys_axis hc hF e p q]
  unfold pushCo
  set w : Fin c.tdim → ℝ := fun l => (entityDomain c e).v p l.val - (entityDomain c e).v q l.val with hw
  have h1 : ∀ r, ∑ l, jacMat c V r l * ((entityDomain c e).v p l.val - (entityDomain c e).v q l.val) = (jacMat c V).mulVec w r :=
    fun r => rfl
  have h2 : ∀ r, ∑ k, (jacMat c V)⁻¹ k r * f k = ((jacMat c V)⁻¹.transpose).mulVec f r := fun r => rfl
  simp_rw [h1, h2]
  show (jacMat c V).mulVec w ⬝ᵥ ((jacMat c V)⁻¹.transpose).mulVec f = w ⬝ᵥ f
  rw [Matrix.mulVec_transpose, dotProduct_comm, ← Matrix.dotProduct_mulVec, Matrix.mulVec_mulVec,
    Matrix.nonsing_inv_mul _ (isUnit_iff_ne_zero.2 hdet), Matrix.one_mulVec, dotProduct_comm]

/-- The Jacobian times the normal. -/
theorem jac_normal2 {W : ℕ → ℕ → ℝ} {J : ℝ} {n : ℕ → ℝ} (hJ : jacobian .interval 2 W = some J)
    (hn : normal .interval 2 W = some n) (h0 : J ≠ 0) (j : ℕ) : J * n j = areaVec 2 W j := by
  simp only [jacobian, axisVertices, Cell.tdim, List.length_singleton, if_true, Option.some.injEq] at hJ
  simp only [normal, Cell.tdim, true_and, if_true, Option.some.injEq] at hn
  subst hn
  have e : pdot 2 (coords [-(axis .interval W 0 1), axis .interval W 0 0]) (coords [-(axis .interval W 0 1), axis .interval W 0 0]) =
      ∑ j ∈ Finset.range 2, axis .interval W 0 j ^ 2 := by
    simp [pdot, Finset.sum_range_succ, coords]
    ring
  rw [vnormalise, e, hJ, mul_div_cancel₀ _ h0]
  simp [areaVec, axis, psub, axisVertices]

theorem jac_normal3 {c : Cell} (hc : c = .triangle ∨ c = .quadrilateral) {W : ℕ → ℕ → ℝ} {J : ℝ} {n : ℕ → ℝ}
    (hJ : jacobian c 3 W = some J) (hn : normal c 3 W = some n) (h0 : J ≠ 0) (j : ℕ) : J * n j = areaVec 3 W j := by
  have e : ∀ w : ℕ → ℝ, pdot 3 w w = w 0 ^ 2 + w 1 ^ 2 + w 2 ^ 2 := fun w => by
    simp [pdot, Finset.sum_range_succ]
    ring
  rcases hc with rfl | rfl
  all_goals
    simp [jacobian, axisVertices, Cell.tdim] at hJ
    simp [normal, axisVertices, Cell.tdim] at hn
    subst hn
    rw [vnormalise, e, hJ, mul_div_cancel₀ _ h0]
    simp [areaVec, axis, axisVertices]
    rfl

/-! ### Functionals of an entity -/

/-- The functionals of an entity, in the order of `entity_dofs` (symfem/finite_element.py:234-247). -/
def entityFunctionals {V : Type} [AddCommGroup V] [Module ℝ V] (dofs : List (Dof ℝ V)) (e : ℕ × ℕ) : List (Dof ℝ V) :=
  dofs.filter fun d => d.entity = e

theorem mapM_filter {A B : Type} {f : A → Option B} {p : B → Bool} {q : A → Bool} {l : List A} {r : List B}
    (h : l.mapM f = some r) (hpq : ∀ a b, f a = some b → p b = q a) : (l.filter q).mapM f = some (r.filter p) := by
  have h2 := mapM_forall h
  clear h
  induction h2 with
  | nil => rfl
  | @cons a b l r hab _ ih =>
    rw [List.filter_cons, List.filter_cons, hpq a b hab]
    split
    · rw [List.mapM_cons, hab, ih]; rfl
    · exact ih

theorem momentDof_entity {c : Cell} {m : MomentDof Fun} {d : Dof ℝ (Field c.tdim)} (h : momentDof c m = some d) :
    d.entity = m.entity := by
  obtain ⟨w, -, h2⟩ := Option.bind_eq_some_iff.1 h
  obtain ⟨J, -, rfl⟩ := Option.map_eq_some_iff.1 h2
  rfl

theorem mapM_values {A B : Type} {f : A → Option B} {φ : A → ℝ} {ψ : B → ℝ} {l : List A} {r : List B} (h : l.mapM f = some r)
    (hv : ∀ a ∈ l, ∀ b, f a = some b → ψ b = φ a) : r.map ψ = l.map φ := by
  have h2 := mapM_forall h
  clear h
  induction h2 with
  | nil => rfl
  | @cons a b l r hab _ ih =>
    rw [List.map_cons, List.map_cons, hv a (by simp) b hab, ih fun a' ha' => hv a' (by simp [ha'])]

/-- The values of the functionals of an entity. -/
theorem entity_values {c : Cell} {ms : List (MomentDof Fun)} {dofs : List (Dof ℝ (Field c.tdim))}
    (hdofs : ms.mapM (momentDof c) = some dofs) {e : ℕ × ℕ} {A : Type} {xs : List A} {h : A → MomentDof Fun}
    (hms : (ms.filter fun m => m.entity = e) = xs.map h) {v : Field c.tdim} {φ : A → ℝ}
    (hv : ∀ x ∈ xs, ∀ d, momentDof c (h x) = some d → d.eval v = φ x) :
    (entityFunctionals dofs e).map (·.eval v) = xs.map φ := by
  have h1 : (ms.filter fun m => decide (m.entity = e)).mapM (momentDof c) = some (dofs.filter fun d => decide (d.entity = e)) :=
    mapM_filter hdofs fun a b hab => by rw [momentDof_entity hab]
  rw [hms, List.mapM_map] at h1
  exact mapM_values h1 fun x hx d hd => hv x hx d hd

/-- The functionals of one of several entities. -/
theorem filter_entities {dim n : ℕ} {A : Type} (xs : List A) (h : A → ℕ → MomentDof Fun) (he : ∀ x i, (h x i).entity = (dim, i))
    {i : ℕ} (hi : i < n) :
    (((List.range n).flatMap fun i => xs.map fun x => h x i).filter fun m => m.entity = (dim, i)) = xs.map fun x => h x i := by
  have e1 : ∀ j, ((xs.map fun x => h x j).filter fun m => decide (m.entity = (dim, i))) = if j = i then xs.map fun x => h x i else [] := by
    intro j
    split
    · next hj =>
      subst hj
      rw [List.filter_eq_self]
      intro m hm
      obtain ⟨x, -, rfl⟩ := List.mem_map.1 hm
      simp [he]
    · next hj =>
      rw [List.filter_eq_nil_iff]
      intro m hm
      obtain ⟨x, -, rfl⟩ := List.mem_map.1 hm
      simp [he, hj]
  rw [List.filter_flatMap]
  simp only [e1]
  induction n with
  | zero => omega
  | succ n ih =>
    rw [List.range_succ, List.flatMap_append]
    rcases Nat.lt_succ_iff_lt_or_eq.1 hi with h' | rfl
    · rw [ih h']
      simp [h'.ne']
    · rw [List.flatMap_eq_nil_iff.2]
      · simp
      · intro j hj
        rw [if_neg (List.mem_range.1 hj).ne]

end Verif.Families
