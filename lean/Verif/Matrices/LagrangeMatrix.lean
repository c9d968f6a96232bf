import Verif.Matrices.Hhj
import Verif.Families.Mtw
import Verif.Degrees.Further
/-!
# Matrix Lagrange elements

C151: `MatrixLagrange` and `SymmetricMatrixLagrange` (symfem/elements/lagrange.py:189-351).
-/

namespace Verif.Matrices
open Verif.References Verif.Elements Verif.FiniteElement Verif.Polysets Verif.Families Verif.Orthogonal Verif.Degrees
open MvPolynomial

/-! ### Model -/

/-- `IntegralAgainst.dof_point` for an integral over the cell: the mean of the vertices (symfem/functionals.py:984-990). -/
noncomputable def cellMiddle (c : Cell) (v : ℕ → ℕ → ℝ) : ℕ → ℝ := fun j => (∑ n ∈ Finset.range c.nverts, v n j) / c.nverts

/-- `p.dof_point()` and `p.entity` for the functionals `p` of `Lagrange(reference, order, "legendre")` and `Q(reference, order,
"legendre")` (symfem/elements/lagrange.py:41-44, q.py:47-50, lagrange_prism.py:43-46): the functionals are integrals over the cell, one
for each function of `orthonormal_basis`. -/
noncomputable def legendrePoints (c : Cell) (v : ℕ → ℕ → ℝ) (k : ℕ) : Option (List PointDof) :=
  (orthonormalBasis c k 0).map fun b => (rowOf b 0).map fun _ => ⟨cellMiddle c v, (c.tdim, 0)⟩

/-- `p.dof_point()` and `p.entity` for the functionals `p` of `Lagrange(reference, order, variant)`
(symfem/elements/lagrange.py:41-75).  The variant "lobatto" is not modelled. -/
noncomputable def dofPoints (variant : String) (c : Cell) (v : ℕ → ℕ → ℝ) (k : ℕ) : Option (List PointDof) :=
  if variant = "legendre" then legendrePoints c v k else lagrangeDofs variant c v k

/-- `MatrixLagrange(reference, order, variant)` (symfem/elements/lagrange.py:192-228) on triangles and tetrahedra.  The
functions are vectors with `tdim**2` entries. -/
noncomputable def matrixLagrange (variant : String) (c : Cell) (v : ℕ → ℕ → ℝ) (k : ℕ) : Option (Element ℝ (Families.Field (c.tdim ^ 2))) :=
  (dofPoints variant c v k).bind fun pts => (polySetVector c.tdim (c.tdim ^ 2) k).bind fun poly =>
    ciarlet (poly.map (denoteVec ℝ (c.tdim ^ 2)))
      (pts.flatMap fun p => (List.finRange (c.tdim ^ 2)).map fun i => dotDof p fun j => if i = j then 1 else 0)

/-- `DotPointEvaluation(reference, point, direction, entity)` with a matrix (symfem/functionals.py:773-808): the sum of the
products of the entries (symfem/functions.py:1691-1698). -/
noncomputable def matrixDot {d : ℕ} (p : PointDof) (m : Fin d → Fin d → ℝ) : Dof ℝ (MField d) :=
  ⟨6, p.entity, some "identity", ∑ i, ∑ j, m i j • (aeval p.point).toLinearMap ∘ₗ LinearMap.proj j ∘ₗ LinearMap.proj i⟩

/-- The directions (symfem/elements/lagrange.py:287-303): one entry 1, in the upper triangle. -/
def symDirections : (d : ℕ) → List (Fin d → Fin d → ℝ)
  | 2 => [![![1, 0], ![0, 0]], ![![0, 1], ![0, 0]], ![![0, 0], ![0, 1]]]
  | 3 => [![![1, 0, 0], ![0, 0, 0], ![0, 0, 0]], ![![0, 1, 0], ![0, 0, 0], ![0, 0, 0]], ![![0, 0, 1], ![0, 0, 0], ![0, 0, 0]],
      ![![0, 0, 0], ![0, 1, 0], ![0, 0, 0]], ![![0, 0, 0], ![0, 0, 1], ![0, 0, 0]], ![![0, 0, 0], ![0, 0, 0], ![0, 0, 1]]]
  | _ => []

/-- `((a[0], a[1], a[2]), (a[1], a[3], a[4]), (a[2], a[4], a[5]))` (symfem/elements/lagrange.py:292-295). -/
def lagIndex3 : Fin 3 → Fin 3 → Fin 6 := ![![0, 1, 2], ![1, 3, 4], ![2, 4, 5]]

/-- The polynomials of `SymmetricMatrixLagrange` (symfem/elements/lagrange.py:285-295). -/
noncomputable def symLagPoly : (d : ℕ) → ℕ → Option (List (MField d))
  | 2, k => (polySetVector 2 3 k).map fun l => l.map fun p => matrixOf index2 (denoteVec ℝ 3 p)
  | 3, k => (polySetVector 3 6 k).map fun l => l.map fun p => matrixOf lagIndex3 (denoteVec ℝ 6 p)
  | _, _ => none

/-- `SymmetricMatrixLagrange(reference, order, variant)` (symfem/elements/lagrange.py:258-320) on triangles and tetrahedra. -/
noncomputable def symmetricMatrixLagrange (variant : String) (c : Cell) (v : ℕ → ℕ → ℝ) (k : ℕ) : Option (Element ℝ (MField c.tdim)) :=
  (dofPoints variant c v k).bind fun pts => (symLagPoly c.tdim k).bind fun poly =>
    ciarlet poly (pts.flatMap fun p => (symDirections c.tdim).map (matrixDot p))

/-! ### Unisolvence -/

theorem dofPoints_equispaced (c : Cell) (v : ℕ → ℕ → ℝ) (k : ℕ) : dofPoints "equispaced" c v k = lagrangeDofs "equispaced" c v k := by
  unfold dofPoints
  exact if_neg (by decide)

/-- **C151** Matrix Lagrange elements: the functions are all vectors of `tdim ^ 2` polynomials. -/
theorem matrixLagrange_created {c : Cell} (hc : Simp c) (v : ℕ → ℕ → ℝ) (hv : NonDegenerate c v) (k : ℕ) :
    Created (matrixLagrange "equispaced" c v k) (fun u : Families.Field (c.tdim ^ 2) => ∀ i, u i ∈ P c.tdim k) ((k + c.tdim).choose c.tdim * c.tdim ^ 2) fun _ => True := by
  have hs : Simplex c := Or.inr hc
  obtain ⟨l, hl, hn⟩ := lagrange_count hs v k
  obtain ⟨poly, hp, hsp⟩ := polySetVector_lspan (simplex_dims hs) (c.tdim ^ 2) (k : ℤ)
  have hpl := polySetVector_length hp
  have hlen : (l.flatMap fun p => (List.finRange (c.tdim ^ 2)).map fun i =>
      (dotDof p fun j => if i = j then 1 else 0 : Dof ℝ (Families.Field (c.tdim ^ 2)))).length = (poly.map (denoteVec ℝ (c.tdim ^ 2))).length := by
    rw [List.length_map, hpl, List.length_flatMap]
    simp [hn]
  have hu : ∀ u : Families.Field (c.tdim ^ 2), (∀ i, u i ∈ P c.tdim k) → (∀ d ∈ (l.flatMap fun p => (List.finRange (c.tdim ^ 2)).map fun i =>
      (dotDof p fun j => if i = j then 1 else 0 : Dof ℝ (Families.Field (c.tdim ^ 2)))), d.eval u = 0) → u = 0 := fun u hu hz => by
    funext i
    refine lagrange_determined hs _ hv hl (hu i) fun d hd => ?_
    rw [← eval_dotDof]
    exact hz _ (List.mem_flatMap.2 ⟨d, hd, List.mem_map.2 ⟨i, List.mem_finRange i, rfl⟩⟩)
  obtain ⟨h1, fs, h2, h3, h4⟩ := ciarlet_basis hlen ((vector_sets_independent ℝ _).1 _ _ _ hp) fun u hu' hz => by
    rw [hsp, mem_PV] at hu'
    exact hu u hu' hz
  refine ⟨_, _, fs, ?_, h2, ?_, ?_, fun w => ?_, hu, trivial⟩
  · simp only [matrixLagrange, dofPoints_equispaced, hl, hp, Option.bind_some, h1]
  · rw [hlen, List.length_map, hpl]
  · rw [h4, List.length_map, hpl]
  · rw [h3, hsp, mem_PV]

theorem lagIndex3_sym : SymIndex lagIndex3 := ⟨by decide, by decide, by decide⟩

theorem symLag_poly {c : Cell} (hc : Simp c) (k : ℕ) : ∃ l, symLagPoly c.tdim k = some l ∧ l.length = symCount c.tdim k ∧
    Independent ℝ l ∧ ∀ u, u ∈ lspan l ↔ SymSpace c.tdim k u := by
  rcases hc with rfl | rfl
  · obtain ⟨pl, h1, h2, h3, h4⟩ := sym_poly (Or.inr (Or.inl rfl)) index2_sym k
    exact ⟨_, (congrArg (Option.map _) h1 : symLagPoly 2 k = _), (List.length_map _).trans h2, h3, h4⟩
  · obtain ⟨pl, h1, h2, h3, h4⟩ := sym_poly (Or.inr (Or.inr rfl)) lagIndex3_sym k
    exact ⟨_, (congrArg (Option.map _) h1 : symLagPoly 3 k = _), (List.length_map _).trans h2, h3, h4⟩

theorem matrixDot_eval {d : ℕ} (p : PointDof) (m : Fin d → Fin d → ℝ) (u : MField d) :
    (matrixDot p m).eval u = ∑ i, ∑ j, m i j * eval p.point (u i j) := by
  show (∑ i, ∑ j, m i j • (aeval p.point).toLinearMap ∘ₗ LinearMap.proj j ∘ₗ LinearMap.proj i : MField d →ₗ[ℝ] ℝ) u = _
  rw [LinearMap.sum_apply]
  refine Finset.sum_congr rfl fun i _ => ?_
  rw [LinearMap.sum_apply]
  refine Finset.sum_congr rfl fun j _ => ?_
  rw [LinearMap.smul_apply, smul_eq_mul, ← coe_aeval_eq_eval]
  rfl

theorem symDirections_entries2 (p : PointDof) {u : MField 2} (hu : ∀ i j, u i j = u j i)
    (h : ∀ m ∈ symDirections 2, (matrixDot p m).eval u = 0) (i j : Fin 2) : eval p.point (u i j) = 0 := by
  simp only [matrixDot_eval] at h
  have h10 := congrArg (eval p.point) (hu 1 0)
  simp [symDirections, Fin.sum_univ_two] at h
  fin_cases i <;> fin_cases j
  · exact h.1
  · exact h.2.1
  · exact h10.trans h.2.1
  · exact h.2.2

theorem symDirections_entries3 (p : PointDof) {u : MField 3} (hu : ∀ i j, u i j = u j i)
    (h : ∀ m ∈ symDirections 3, (matrixDot p m).eval u = 0) (i j : Fin 3) : eval p.point (u i j) = 0 := by
  simp only [matrixDot_eval] at h
  have h10 := congrArg (eval p.point) (hu 1 0)
  have h20 := congrArg (eval p.point) (hu 2 0)
  have h21 := congrArg (eval p.point) (hu 2 1)
  simp [symDirections, Fin.sum_univ_three] at h
  obtain ⟨a, b, e, f, g, k⟩ := h
  fin_cases i <;> fin_cases j
  · exact a
  · exact b
  · exact e
  · exact h10.trans b
  · exact f
  · exact g
  · exact h20.trans e
  · exact h21.trans g
  · exact k

/-- The directions give the entries of a symmetric matrix. -/
theorem symDirections_entries {c : Cell} (hc : Simp c) (p : PointDof) {u : MField c.tdim} (hu : ∀ i j, u i j = u j i)
    (h : ∀ m ∈ symDirections c.tdim, (matrixDot p m).eval u = 0) (i j : Fin c.tdim) : eval p.point (u i j) = 0 := by
  rcases hc with rfl | rfl
  · exact symDirections_entries2 p hu h i j
  · exact symDirections_entries3 p hu h i j

/-- **C151** Symmetric matrix Lagrange elements: the functions are all symmetric matrices of polynomials. -/
theorem symmetricMatrixLagrange_created {c : Cell} (hc : Simp c) (v : ℕ → ℕ → ℝ) (hv : NonDegenerate c v) (k : ℕ) :
    Created (symmetricMatrixLagrange "equispaced" c v k) (SymSpace c.tdim k) (symCount c.tdim k) fun _ => True := by
  have hs : Simplex c := Or.inr hc
  obtain ⟨l, hl, hn⟩ := lagrange_count hs v k
  obtain ⟨poly, hp, hpl, hi, hsp⟩ := symLag_poly hc k
  have hdir : (symDirections c.tdim).length = c.tdim * (c.tdim + 1) / 2 := by rcases hc with rfl | rfl <;> rfl
  have hlen : (l.flatMap fun p => (symDirections c.tdim).map (matrixDot p)).length = poly.length := by
    rw [hpl, List.length_flatMap, symCount, ← hdir]
    simp [hn]
  have hu : ∀ u, SymSpace c.tdim k u → (∀ d ∈ (l.flatMap fun p => (symDirections c.tdim).map (matrixDot p)), d.eval u = 0) → u = 0 :=
    fun u hu hz => by
    funext i j
    refine lagrange_determined hs _ hv hl (hu.2 i j) fun d hd => ?_
    exact symDirections_entries hc d hu.1 (fun m hm => hz _ (List.mem_flatMap.2 ⟨d, hd, List.mem_map.2 ⟨m, hm, rfl⟩⟩)) i j
  obtain ⟨h1, fs, h2, h3, h4⟩ := ciarlet_basis hlen hi fun u hu' hz => hu u ((hsp u).1 hu') hz
  refine ⟨_, _, fs, ?_, h2, ?_, ?_, fun w => ?_, hu, trivial⟩
  · simp only [symmetricMatrixLagrange, dofPoints_equispaced, hl, hp, Option.bind_some, h1]
  · rw [hlen, hpl]
  · rw [h4, hpl]
  · rw [h3, hsp]

example : Created (symmetricMatrixLagrange "equispaced" .tetrahedron (refVertex .tetrahedron) 2) (SymSpace 3 2) 60 fun _ => True :=
  symmetricMatrixLagrange_created (c := .tetrahedron) (Or.inr rfl) _ (nonDegenerate_ref (Or.inr (Or.inr rfl))) 2

example : Created (matrixLagrange "equispaced" .triangle (refVertex .triangle) 3) (fun u => ∀ i, u i ∈ P 2 3) 40 fun _ => True :=
  matrixLagrange_created (c := .triangle) (Or.inl rfl) _ (nonDegenerate_ref (Or.inr (Or.inl rfl))) 3

/-! ### The variant "legendre" -/

/-- An element with the same functional twice has no basis functions. -/
theorem no_basis {V : Type} [AddCommGroup V] [Module ℝ V] (basis : List V) (dofs : List (Dof ℝ V)) {i j : ℕ} (hi : i < dofs.length)
    (hj : j < dofs.length) (hij : i ≠ j) (h : dofs[i].eval = dofs[j].eval) : getBasis (.ciarlet basis dofs) = none := by
  rw [Option.eq_none_iff_forall_ne_some]
  intro fs hfs
  obtain ⟨h1, h2⟩ := getBasis_ciarlet_dual _ _ _ hfs
  have hf : fs[i]? = some (fs[i]'(by omega)) := List.getElem?_eq_getElem _
  have a := h2 i i _ _ hf (List.getElem?_eq_getElem hi)
  have b := h2 i j _ _ hf (List.getElem?_eq_getElem hj)
  rw [if_pos rfl] at a
  rw [if_neg hij, ← h, a] at b
  exact one_ne_zero b

/-- The cells with more than one dimension for which `Lagrange` or `Q` has the variant. -/
def HasLegendre (c : Cell) : Prop := c ∈ [Cell.triangle, .quadrilateral, .tetrahedron, .hexahedron, .prism]

theorem simp_hasLegendre {c : Cell} (hc : Simp c) : HasLegendre c := by rcases hc with rfl | rfl <;> simp [HasLegendre]

/-- The points of the variant "legendre" all coincide. -/
theorem legendrePoints_eq {c : Cell} (hc : HasLegendre c) (v : ℕ → ℕ → ℝ) (k : ℕ) :
    legendrePoints c v k = some (List.replicate (basisSize c k) ⟨cellMiddle c v, (c.tdim, 0)⟩) := by
  unfold legendrePoints
  have hc' : c = .triangle ∨ c = .quadrilateral ∨ c = .tetrahedron ∨ c = .hexahedron ∨ c = .prism := by simpa [HasLegendre] using hc
  obtain ⟨b, hb⟩ : ∃ b, orthogonalBasis c k 0 = some b := by rcases hc' with rfl | rfl | rfl | rfl | rfl <;> exact ⟨_, rfl⟩
  have hsh := orthogonalBasis_shape hb
  have hD : derivSize c 0 = 1 := by rcases hc' with rfl | rfl | rfl | rfl | rfl <;> rfl
  have hr := rowOf_length hsh (d := 0) (by omega)
  have h1 := hsh.1
  rw [hD] at h1
  obtain ⟨r, rfl⟩ := List.length_eq_one_iff.1 h1
  have hr' : r.length = basisSize c k := hr
  simp only [orthonormalBasis, hb, Option.map_some, Option.some.injEq]
  refine List.eq_replicate_iff.2 ⟨?_, fun p hp => ?_⟩
  · simp [rowOf, hr']
  · simp at hp
    obtain ⟨-, -, rfl⟩ := hp
    rfl

theorem dofPoints_legendre {c : Cell} (hc : Simp c) (v : ℕ → ℕ → ℝ) (k : ℕ) :
    dofPoints "legendre" c v k = some (List.replicate (basisSize c k) ⟨cellMiddle c v, (c.tdim, 0)⟩) := by
  unfold dofPoints
  rw [if_pos rfl, legendrePoints_eq (simp_hasLegendre hc)]

theorem basisSize_le {c : Cell} (hc : HasLegendre c) {k : ℕ} (hk : 1 ≤ k) : 2 ≤ basisSize c k := by
  have hc' : c = .triangle ∨ c = .quadrilateral ∨ c = .tetrahedron ∨ c = .hexahedron ∨ c = .prism := by simpa [HasLegendre] using hc
  rcases hc' with rfl | rfl | rfl | rfl | rfl
  · show 2 ≤ (k + 1) * (k + 2) / 2
    rw [Nat.le_div_iff_mul_le (by norm_num)]
    nlinarith
  · show 2 ≤ (k + 1) ^ 2
    nlinarith
  · show 2 ≤ (k + 1) * (k + 2) * (k + 3) / 6
    rw [Nat.le_div_iff_mul_le (by norm_num)]
    nlinarith [Nat.mul_le_mul (Nat.mul_le_mul (show 2 ≤ k + 1 by omega) (show 3 ≤ k + 2 by omega)) (show 4 ≤ k + 3 by omega)]
  · show 2 ≤ (k + 1) ^ 3
    exact le_trans (by norm_num) (Nat.pow_le_pow_left (show 2 ≤ k + 1 by omega) 3)
  · show 2 ≤ (k + 1) * (k + 1) * (k + 2) / 2
    rw [Nat.le_div_iff_mul_le (by norm_num)]
    nlinarith [Nat.mul_le_mul (Nat.mul_le_mul (show 2 ≤ k + 1 by omega) (show 2 ≤ k + 1 by omega)) (show 3 ≤ k + 2 by omega)]

/-- Functionals at the same point, repeated. -/
theorem repeated_none {V : Type} [AddCommGroup V] [Module ℝ V] {n : ℕ} (hn : 2 ≤ n) (p : PointDof) (f : PointDof → List (Dof ℝ V)) (hf : f p ≠ [])
    (basis : Option (List V)) : ((some (List.replicate n p)).bind fun pts => basis.bind fun poly => ciarlet poly (pts.flatMap f)).bind getBasis = none := by
  cases basis with
  | none => rfl
  | some poly =>
    simp only [Option.bind_some]
    unfold ciarlet
    split_ifs with h
    · obtain ⟨m, rfl⟩ : ∃ m, n = m + 2 := ⟨n - 2, by omega⟩
      obtain ⟨a, l, hl⟩ := List.exists_cons_of_ne_nil hf
      have e : (List.replicate (m + 2) p).flatMap f = (a :: l) ++ ((a :: l) ++ (List.replicate m p).flatMap f) := by
        rw [List.replicate_succ, List.replicate_succ, List.flatMap_cons, List.flatMap_cons, hl]
      rw [Option.bind_some, e]
      have h0 : 0 < ((a :: l) ++ ((a :: l) ++ (List.replicate m p).flatMap f)).length := by
        simp only [List.length_append, List.length_cons]
        omega
      have h1 : l.length + 1 < ((a :: l) ++ ((a :: l) ++ (List.replicate m p).flatMap f)).length := by
        simp only [List.length_append, List.length_cons]
        omega
      refine no_basis _ _ h0 h1 (by omega) ?_
      have e1 : ((a :: l) ++ ((a :: l) ++ (List.replicate m p).flatMap f))[l.length + 1] = a := by
        rw [List.getElem_append_right (by simp)]
        simp
      rw [e1]
      rfl
    · rfl

/-- **C152** With the variant "legendre", neither element has basis functions at any order above 0: all functionals are at the
middle of the cell. -/
theorem legendre_broken {c : Cell} (hc : Simp c) (v : ℕ → ℕ → ℝ) {k : ℕ} (hk : 1 ≤ k) :
    (matrixLagrange "legendre" c v k).bind getBasis = none ∧ (symmetricMatrixLagrange "legendre" c v k).bind getBasis = none := by
  constructor
  · rw [matrixLagrange, dofPoints_legendre hc]
    have h := repeated_none (basisSize_le (simp_hasLegendre hc) hk) ⟨cellMiddle c v, (c.tdim, 0)⟩
      (fun p => (List.finRange (c.tdim ^ 2)).map fun i => (dotDof p fun j => if i = j then 1 else 0 : Dof ℝ (Families.Field (c.tdim ^ 2))))
      (fun h => by
        have := congrArg List.length h
        rw [List.length_map, List.length_finRange] at this
        rcases hc with rfl | rfl <;> exact absurd this (by decide))
      ((polySetVector c.tdim (c.tdim ^ 2) k).map fun poly => poly.map (denoteVec ℝ (c.tdim ^ 2)))
    rw [← h]
    cases polySetVector c.tdim (c.tdim ^ 2) k <;> rfl
  · rw [symmetricMatrixLagrange, dofPoints_legendre hc]
    refine repeated_none (basisSize_le (simp_hasLegendre hc) hk) _ _ ?_ _
    rcases hc with rfl | rfl <;> exact List.cons_ne_nil _ _

/-- `VectorQ(reference, order, "legendre")` (symfem/elements/q.py:176-208), and `VectorLagrange(reference, order, "legendre")` on a prism
(symfem/elements/lagrange_prism.py:148-176): point evaluations at the points of the functionals of the scalar element. -/
noncomputable def vectorQLegendre (c : Cell) (k : ℕ) : Option (Element ℝ (Families.Field c.tdim)) :=
  (legendrePoints c (refVertex c) k).bind fun pts =>
    ciarlet ((quolySetVector c.tdim c.tdim k).map (denoteVec ℝ c.tdim))
      (pts.flatMap fun p => (List.finRange c.tdim).map fun i => dotDof p fun j => if i = j then 1 else 0)

@[inherit_doc vectorQLegendre]
noncomputable def vectorPrismLegendre (k : ℕ) : Option (Element ℝ (Families.Field 3)) :=
  (legendrePoints .prism (refVertex .prism) k).bind fun pts =>
    ciarlet ((prismSetVector 3 k).map (denoteVec ℝ 3))
      (pts.flatMap fun p => (List.finRange 3).map fun i => dotDof p fun j => if i = j then 1 else 0)

/-- **C152** With the variant "legendre", vector Q elements and vector Lagrange elements on prisms have no basis functions at any
order above 0. -/
theorem legendre_vector_broken {k : ℕ} (hk : 1 ≤ k) :
    (∀ c, Box c → (vectorQLegendre c k).bind getBasis = none) ∧ (vectorPrismLegendre k).bind getBasis = none := by
  constructor
  · intro c hc
    have hl : HasLegendre c := by rcases hc with rfl | rfl <;> simp [HasLegendre]
    rw [vectorQLegendre, legendrePoints_eq hl]
    refine repeated_none (basisSize_le hl hk) ⟨cellMiddle c (refVertex c), (c.tdim, 0)⟩
      (fun p => (List.finRange c.tdim).map fun i => (dotDof p fun j => if i = j then 1 else 0 : Dof ℝ (Families.Field c.tdim)))
      (fun h => by
        have := congrArg List.length h
        rw [List.length_map, List.length_finRange] at this
        rcases hc with rfl | rfl <;> exact absurd this (by decide))
      (some ((quolySetVector c.tdim c.tdim k).map (denoteVec ℝ c.tdim)))
  · have hl : HasLegendre .prism := by simp [HasLegendre]
    rw [vectorPrismLegendre, legendrePoints_eq hl]
    exact repeated_none (basisSize_le hl hk) ⟨cellMiddle .prism (refVertex .prism), (3, 0)⟩
      (fun p => (List.finRange 3).map fun i => (dotDof p fun j => if i = j then 1 else 0 : Dof ℝ (Families.Field 3)))
      (fun h => by
        have := congrArg List.length h
        rw [List.length_map, List.length_finRange] at this
        exact absurd this (by decide))
      (some ((prismSetVector 3 k).map (denoteVec ℝ 3)))

/-! ### Degrees -/

/-- `MatrixLagrange` and `SymmetricMatrixLagrange` declare the order as all four degrees (symfem/elements/lagrange.py:230-243, 330-343). -/
theorem matrixLagrange_degrees {c : Cell} (hc : Simp c) (v : ℕ → ℕ → ℝ) (hv : NonDegenerate c v) (k : ℕ) :
    ElementDegrees (vec (c.tdim ^ 2) (P c.tdim)) (vec (c.tdim ^ 2) (P c.tdim)) (matrixLagrange "equispaced" c v k) (declComplete k) ∧
    ElementDegrees (symP c.tdim) (symP c.tdim) (symmetricMatrixLagrange "equispaced" c v k) (declComplete k) := by
  have hd : 0 < c.tdim := hc.pos
  exact ⟨of_created (matrixLagrange_created hc v hv k) ((degrees_P hd k).vec (by positivity) (Submodule.zero_mem _)),
    of_created (symmetricMatrixLagrange_created hc v hv k) (degrees_sym hd k)⟩

end Verif.Matrices
