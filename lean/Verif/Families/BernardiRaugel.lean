import Verif.Scalar.Transition
import Verif.Families.HuangZhang
import Verif.Families.Kmv
import Verif.Families.Conform
/-!
# Bernardi–Raugel elements

`BernardiRaugel` on triangles and tetrahedra (symfem/elements/bernardi_raugel.py).
-/

namespace Verif.Families
open Verif.References Verif.Moments Verif.Functionals Verif.Elements Verif.FiniteElement Verif.Polysets Verif.Orthogonal
open Verif.Scalar
open MvPolynomial

/-! ### Model -/

/-- The product of the basis functions of the vertices of a facet (symfem/elements/bernardi_raugel.py:48-50). -/
noncomputable def brBubble (c : Cell) (basis : List (MvPolynomial ℕ ℝ)) (i : ℕ) : MvPolynomial ℕ ℝ :=
  (entVerts c (c.tdim - 1) i).foldl (fun b v => b * basis.getD v 0) 1

/-- The function of a facet (symfem/elements/bernardi_raugel.py:46-51). -/
noncomputable def brFacet (c : Cell) (basis : List (MvPolynomial ℕ ℝ)) (i : ℕ) : Option (Field c.tdim) :=
  (normal (entityDomain c (c.tdim - 1, i)).cell c.tdim (entityDomain c (c.tdim - 1, i)).v).map fun n j =>
    brBubble c basis i * C (n j.val)

/-- The functions of the cell, at order 2 (symfem/elements/bernardi_raugel.py:76-83). -/
noncomputable def brInner (c : Cell) (basis : List (MvPolynomial ℕ ℝ)) (i : ℕ) : Field c.tdim := fun j =>
  if j.val = i then basis.getD 0 0 * basis.getD 1 0 * basis.getD 2 0 * basis.getD 3 0 else 0

/-- `DotPointEvaluation(reference, point, direction, entity=entity, mapping="contravariant")`. -/
noncomputable def contraPoint {r : ℕ} (e : ℕ × ℕ) (pt : ℕ → ℝ) (dir : ℕ → ℝ) : Dof ℝ (Field r) :=
  { dotDof ⟨pt, e⟩ fun j : Fin r => dir j.val with mapping := some "contravariant" }

/-- Evaluation of the component along `facet.normal()` times `facet.jacobian()`
(symfem/elements/bernardi_raugel.py:56-66, 96-108). -/
noncomputable def normalPoints (c : Cell) (i : ℕ) (pts : List (ℕ → ℝ)) : Option (List (Dof ℝ (Field c.tdim))) :=
  (normal (entityDomain c (c.tdim - 1, i)).cell c.tdim (entityDomain c (c.tdim - 1, i)).v).bind fun n =>
    (jacobian (entityDomain c (c.tdim - 1, i)).cell c.tdim (entityDomain c (c.tdim - 1, i)).v).map fun J =>
      pts.map fun pt => contraPoint (c.tdim - 1, i) pt fun j => n j * J

/-- The middle of two points. -/
noncomputable def middle (p q : ℕ → ℝ) (j : ℕ) : ℝ := (p j + q j) / 2

/-- The midpoints of the edges of a facet (symfem/elements/bernardi_raugel.py:98-102). -/
noncomputable def facetMidpoints (c : Cell) (i : ℕ) : List (ℕ → ℝ) :=
  (List.range 3).map fun e : ℕ =>
    middle ((entityDomain c (c.tdim - 1, i)).v ((entVerts (entityDomain c (c.tdim - 1, i)).cell 1 e).getD 0 0))
      ((entityDomain c (c.tdim - 1, i)).v ((entVerts (entityDomain c (c.tdim - 1, i)).cell 1 e).getD 1 0))

/-- The functionals of the edges, at order 2 (symfem/elements/bernardi_raugel.py:85-94). -/
noncomputable def brEdges (c : Cell) : List (Dof ℝ (Field c.tdim)) :=
  (List.range (entityCount c 1)).map fun e : ℕ =>
    contraPoint (1, e) (middle (refVertex c ((entVerts c 1 e).getD 0 0)) (refVertex c ((entVerts c 1 e).getD 1 0)))
      (psub (refVertex c ((entVerts c 1 e).getD 1 0)) (refVertex c ((entVerts c 1 e).getD 0 0)))

/-- `DivergenceIntegralMoment(reference, x[i], p.dofs[0], entity=(3, 0), mapping="contravariant")`
(symfem/elements/bernardi_raugel.py:112-117, symfem/functionals.py:1456-1495). -/
noncomputable def brDivergence (c : Cell) (i : ℕ) : Option (Dof ℝ (Field c.tdim)) :=
  (jacobian (entityDomain c (c.tdim, 0)).cell c.tdim (entityDomain c (c.tdim, 0)).v).map fun J =>
    ⟨18, (c.tdim, 0), some "contravariant", divMap (entityDomain c (c.tdim, 0)) J (X i)⟩

/-- The functionals added at order 2 (symfem/elements/bernardi_raugel.py:85-117). -/
noncomputable def brSecond (c : Cell) : Option (List (Dof ℝ (Field c.tdim))) :=
  ((List.range (c.tdim + 1)).mapM fun i => normalPoints c i (facetMidpoints c i)).bind fun faces =>
    ((List.range 3).mapM (brDivergence c)).map fun cells => brEdges c ++ faces.flatten ++ cells

/-- `BernardiRaugel(reference, order)` (symfem/elements/bernardi_raugel.py:32-118). -/
noncomputable def bernardiRaugel (c : Cell) (k : ℕ) : Option (Element ℝ (Field c.tdim)) :=
  (polySetVector c.tdim c.tdim k).bind fun poly => (lagEl c 1).bind fun p => (getBasis p).bind fun basis =>
  ((List.range (c.tdim + 1)).mapM (brFacet c basis)).bind fun bubbles =>
  ((List.range (c.tdim + 1)).mapM fun i => normalPoints c i
    ((List.range (entVerts c (c.tdim - 1) i).length).map (entityDomain c (c.tdim - 1, i)).v)).bind fun vertices =>
  (makeIntegralMomentDofs lagrangeClasses c { facets := some (.single [.cls "NormalIntegralMoment", .cls "Lagrange", .int 0,
    .str "contravariant", .dict [("variant", "equispaced")]]) }).bind fun ms => (ms.mapM (momentDof c)).bind fun moments =>
  if 1 < k then
    if k = 2 ∧ c = .tetrahedron then (brSecond c).bind fun more =>
      ciarlet (poly.map (denoteVec ℝ c.tdim) ++ bubbles ++ (List.range c.tdim).map (brInner c basis)) (vertices.flatten ++ moments ++ more)
    else none
  else ciarlet (poly.map (denoteVec ℝ c.tdim) ++ bubbles) (vertices.flatten ++ moments)

/-! ### Values at vertices and midpoints -/

theorem sum_one {s : Finset ℕ} {β : ℕ → ℕ} (h : ∑ i ∈ s, β i = 1) : ∃ i ∈ s, β i = 1 ∧ ∀ j ∈ s, j ≠ i → β j = 0 := by
  obtain ⟨i, hi, h1⟩ := Finset.exists_ne_zero_of_sum_ne_zero (by rw [h]; exact one_ne_zero)
  have h2 := Finset.add_sum_erase s β hi
  have h3 : β i = 1 ∧ ∑ j ∈ s.erase i, β j = 0 := by omega
  exact ⟨i, hi, h3.1, fun j hj hne => Finset.sum_eq_zero_iff.1 h3.2 j (Finset.mem_erase.2 ⟨hne, hj⟩)⟩

theorem sum_two {s : Finset ℕ} {β : ℕ → ℕ} (h : ∑ i ∈ s, β i = 2) : ∃ i ∈ s, ∃ j ∈ s, ∀ f : ℕ → ℝ, ∑ l ∈ s, (β l : ℝ) / 2 * f l = (f i + f j) / 2 := by
  obtain ⟨i, hi, h1⟩ := Finset.exists_ne_zero_of_sum_ne_zero (by rw [h]; exact two_ne_zero)
  have h2 := Finset.add_sum_erase s β hi
  rcases (show β i = 1 ∨ β i = 2 by omega) with hb | hb
  · obtain ⟨j, hj, h3, h4⟩ := sum_one (s := s.erase i) (β := β) (by omega)
    refine ⟨i, hi, j, (Finset.mem_erase.1 hj).2, fun f => ?_⟩
    rw [← Finset.add_sum_erase s _ hi, ← Finset.add_sum_erase _ _ hj, Finset.sum_eq_zero, hb, h3]
    · push_cast; ring
    · intro l hl
      rw [h4 l (Finset.mem_erase.1 hl).2 (Finset.mem_erase.1 hl).1]
      simp
  · refine ⟨i, hi, i, hi, fun f => ?_⟩
    rw [← Finset.add_sum_erase s _ hi, Finset.sum_eq_zero, hb]
    · push_cast; ring
    · intro l hl
      rw [Finset.sum_eq_zero_iff.1 (show ∑ j ∈ s.erase i, β j = 0 by omega) l hl]
      simp

/-- The midpoint of an edge. -/
noncomputable def midEdge (t : Cell) (e : ℕ) : ℕ → ℝ :=
  middle (refVertex t ((entVerts t 1 e).getD 0 0)) (refVertex t ((entVerts t 1 e).getD 1 0))

theorem edge_exists {t : Cell} (ht : Simplex t) : ∀ i < t.nverts, ∀ j < t.nverts, i ≠ j → ∃ e < entityCount t 1,
    (entVerts t 1 e = [i, j] ∨ entVerts t 1 e = [j, i]) := by
  rcases ht with rfl | rfl | rfl <;> decide

/-- Polynomials of degree 1 are determined by the values at the vertices, and polynomials of degree 2 by those at the vertices and
at the midpoints of the edges. -/
theorem lattice_zero {t : Cell} (ht : Simplex t) {k : ℕ} (hk : k = 1 ∨ k = 2) {q : MvPolynomial ℕ ℝ} (hq : q ∈ P t.tdim k)
    (h1 : ∀ l < t.nverts, eval (refVertex t l) q = 0) (h2 : k = 2 → ∀ e < entityCount t 1, eval (midEdge t e) q = 0) : q = 0 := by
  obtain ⟨l, hl, -⟩ := lagrange_count ht (refVertex t) k
  refine lagrange_determined ht (refVertex t) (nonDegenerate_ref ht) hl hq fun d hd => ?_
  obtain ⟨β, hβ, -, hp⟩ := lagrange_lattice ht (refVertex t) (by omega) hl hd
  rcases hk with rfl | rfl
  · obtain ⟨i, hi, e1, e2⟩ := sum_one hβ
    rw [hp, ← h1 i (Finset.mem_range.1 hi)]
    congr 2
    funext j
    rw [Finset.sum_eq_single_of_mem i hi fun l hl hne => by rw [e2 l hl hne]; simp, e1]
    simp
  · obtain ⟨i, hi, j, hj, e⟩ := sum_two hβ
    have hpt : d.point = fun l => (refVertex t i l + refVertex t j l) / 2 := by
      rw [hp]
      funext l
      exact e fun i => refVertex t i l
    rw [hpt]
    by_cases hij : i = j
    · subst hij
      rw [← h1 i (Finset.mem_range.1 hi)]
      congr 2
      funext l
      ring
    · obtain ⟨e, he, h3⟩ := edge_exists ht i (Finset.mem_range.1 hi) j (Finset.mem_range.1 hj) hij
      rw [← h2 rfl e he]
      congr 2
      funext l
      rcases h3 with h3 | h3 <;> simp [midEdge, middle, h3, add_comm]

theorem fin_sum1 (f : ℕ → ℝ) : ∑ i : Fin Cell.interval.tdim, f i.val = f 0 := Fin.sum_univ_one _

theorem fin_sum2 (f : ℕ → ℝ) : ∑ i : Fin Cell.triangle.tdim, f i.val = f 0 + f 1 := Fin.sum_univ_two _

theorem fin_sum3 (f : ℕ → ℝ) : ∑ i : Fin Cell.tetrahedron.tdim, f i.val = f 0 + f 1 + f 2 := Fin.sum_univ_three _

/-- The bubble function has a positive integral. -/
theorem simpBub_integral {t : Cell} (ht : Simplex t) : cellInt t (fun z => eval z (simpBub t.tdim)) ≠ 0 := by
  intro h
  have hS : Solid t := by rcases ht with rfl | rfl | rfl <;> simp [Solid]
  have := squares_zero hS (fun _ : Fin 1 => simpBub t.tdim) (fun _ z hz => ?_) (fun _ z hz => ?_) (fun _ => 1) (k := 0)
    (fun _ => one_mem le_rfl) (by simpa using h) 0
  · exact one_ne_zero this
  · rw [eval_simpBub]
    rcases ht with rfl | rfl | rfl
    · have hz : 0 ≤ z 0 ∧ z 0 ≤ 1 := hz
      rw [fin_sum1, show Finset.range Cell.interval.tdim = Finset.range 1 from rfl, Finset.prod_range_one]
      exact mul_nonneg hz.1 (by linarith)
    · have h1 := closed_X (c := .triangle) (Or.inl rfl) hz
      have h2 := closed_opp (c := .triangle) (Or.inl rfl) hz
      rw [eval_opp] at h2
      exact mul_nonneg (Finset.prod_nonneg fun i hi => h1 ⟨i, Finset.mem_range.1 hi⟩) h2
    · have h1 := closed_X (c := .tetrahedron) (Or.inr rfl) hz
      have h2 := closed_opp (c := .tetrahedron) (Or.inr rfl) hz
      rw [eval_opp] at h2
      exact mul_nonneg (Finset.prod_nonneg fun i hi => h1 ⟨i, Finset.mem_range.1 hi⟩) h2
  · rw [eval_simpBub]
    refine mul_pos (Finset.prod_pos fun i hi => (hz i (Finset.mem_range.1 hi)).1) ?_
    have : ∑ i : Fin t.tdim, z i.val ≤ ∑ i : Fin t.tdim, (1 / 4 : ℝ) := Finset.sum_le_sum fun i _ => (hz i.val i.2).2.le
    have h3 : (t.tdim : ℝ) ≤ 3 := by rcases ht with rfl | rfl | rfl <;> norm_num [Cell.tdim]
    rw [Finset.sum_const, Finset.card_univ, Fintype.card_fin, nsmul_eq_mul] at this
    linarith

/-- The bubble function vanishes at the vertices, and in two or more dimensions at the midpoints of the edges. -/
theorem simpBub_vertex {t : Cell} (ht : Simplex t) {l : ℕ} (hl : l < t.nverts) : eval (refVertex t l) (simpBub t.tdim) = 0 := by
  rw [eval_simpBub]
  rcases ht with rfl | rfl | rfl <;> simp only [Cell.nverts] at hl <;>
    first | rw [fin_sum1] | rw [fin_sum2] | rw [fin_sum3]
  all_goals interval_cases l <;> simp [refVertex, refVerts, coords, Cell.tdim, Finset.prod_range_succ]

theorem simpBub_midEdge {t : Cell} (ht : Simp t) {e : ℕ} (he : e < entityCount t 1) : eval (midEdge t e) (simpBub t.tdim) = 0 := by
  rw [eval_simpBub]
  have e3 : entityCount .triangle 1 = 3 := rfl
  have e6 : entityCount .tetrahedron 1 = 6 := rfl
  rcases ht with rfl | rfl
  · rw [e3] at he
    rw [fin_sum2]
    interval_cases e <;> norm_num [midEdge, middle, entVerts, Cell.subEntities, Cell.edges, refVertex, refVerts, coords, Cell.tdim,
      Finset.prod_range_succ]
  · rw [e6] at he
    rw [fin_sum3]
    interval_cases e <;> norm_num [midEdge, middle, entVerts, Cell.subEntities, Cell.edges, refVertex, refVerts, coords, Cell.tdim,
      Finset.prod_range_succ]

/-! ### Conformity from other functionals -/

/-- What is needed for the conformity: the functionals of a facet determine the normal component, as a function of the parameters. -/
theorem normal_conform_of_trace {c : Cell} (hc : Affine4 c) {S : Field c.tdim → Prop} {dofs : List (Dof ℝ (Field c.tdim))} {k : ℤ}
    (hk : ∀ v, S v → ∀ j, v j ∈ P c.tdim k) {fc : Cell}
    (hfc : ∀ i < entityCount c (c.tdim - 1), (entityDomain c (c.tdim - 1, i)).cell = fc)
    (hz : ∀ v v', S v → S v' → ∀ i < entityCount c (c.tdim - 1), ∀ i' < entityCount c (c.tdim - 1),
      (entityFunctionals dofs (c.tdim - 1, i)).map (·.eval v) = (entityFunctionals dofs (c.tdim - 1, i')).map (·.eval v') →
      comp (entityDomain c (c.tdim - 1, i)) (areaVec c.tdim (entityDomain c (c.tdim - 1, i)).v) v =
        comp (entityDomain c (c.tdim - 1, i')) (areaVec c.tdim (entityDomain c (c.tdim - 1, i')).v) v') :
    NormalConform c S dofs := by
  intro i hi i' hi' v v' hSv hSv' heq V V' g g' hg hg' hV t y hy
  obtain ⟨F, hF, -⟩ := Option.map_eq_some_iff.1 hg
  obtain ⟨F', hF', -⟩ := Option.map_eq_some_iff.1 hg'
  have hcell : (physDomain c V (c.tdim - 1, i)).cell = fc := hfc i hi
  have hcell' : (physDomain c V' (c.tdim - 1, i')).cell = fc := hfc i' hi'
  have hlen : ∀ i < entityCount c (c.tdim - 1), (∀ k ∈ axisVertices (entityDomain c (c.tdim - 1, i)).cell,
      k < (entVerts c (c.tdim - 1) i).length) ∧ c.tdim ≤ (entVerts c (c.tdim - 1) i).length := by
    rcases hc with rfl | rfl | rfl | rfl <;> decide
  have hver : ∀ k, k = 0 ∨ k < c.tdim ∨ k ∈ axisVertices fc → (physDomain c V (c.tdim - 1, i)).v k = (physDomain c V' (c.tdim - 1, i')).v k := by
    intro k hk
    have h2 := hlen i hi
    rw [hfc i hi] at h2
    have : 0 < c.tdim := by rcases hc with rfl | rfl | rfl | rfl <;> decide
    refine hV k ?_
    rcases hk with rfl | h | h
    · omega
    · omega
    · exact h2.1 k h
  have hd : c.tdim = 2 ∨ c.tdim = 3 := by rcases hc with rfl | rfl | rfl | rfl <;> simp [Cell.tdim]
  have harea : areaVec c.tdim (physDomain c V (c.tdim - 1, i)).v = areaVec c.tdim (physDomain c V' (c.tdim - 1, i')).v := by
    unfold areaVec
    rw [hver 0 (by simp), hver 1 (by omega)]
    rcases hd with h | h
    · rw [if_pos h, if_pos h]
    · rw [hver 2 (by omega)]
  have hpar : y = (physDomain c V' (c.tdim - 1, i')).param t := by
    rw [hy]
    funext j
    rw [Domain.param, Domain.param, hcell, hcell', hver 0 (by simp)]
    congr 1
    refine Finset.sum_congr rfl fun k hk => ?_
    rw [hver]
    by_cases h : k < (axisVertices fc).length
    · rw [List.getD_eq_getElem _ _ h]
      exact Or.inr (Or.inr (List.getElem_mem h))
    · rw [List.getD_eq_default _ _ (by omega)]
      exact Or.inl rfl
  have hcomp := hz v v' hSv hSv' i hi i' hi' heq
  rw [mapped_param hc (hk v hSv) hg _ t y fun j _ => by rw [hy], area_contra hc hF, harea,
    mapped_param hc (hk v' hSv') hg' _ t y fun j _ => by rw [hpar], area_contra hc hF']
  exact (eval_comp (entityDomain c (c.tdim - 1, i)) _ v t).symm.trans ((congrArg (eval t) hcomp).trans
    (eval_comp (entityDomain c (c.tdim - 1, i')) _ v' t))

/-- What is needed for the conformity: the values of the functionals of a facet are those of functionals that determine the normal
component, as a function of the parameters. -/
theorem normal_conform_of {c : Cell} (hc : Affine4 c) {S : Field c.tdim → Prop} {dofs : List (Dof ℝ (Field c.tdim))} {k : ℤ}
    (hk : ∀ v, S v → ∀ j, v j ∈ P c.tdim k) {T : MvPolynomial ℕ ℝ → Prop} {fc : Cell}
    (hfc : ∀ i < entityCount c (c.tdim - 1), (entityDomain c (c.tdim - 1, i)).cell = fc)
    (hT : ∀ v, S v → ∀ i < entityCount c (c.tdim - 1),
      T (comp (entityDomain c (c.tdim - 1, i)) (areaVec c.tdim (entityDomain c (c.tdim - 1, i)).v) v))
    {fs : List (MvPolynomial ℕ ℝ →ₗ[ℝ] ℝ)} (hz : ∀ p q, T p → T q → (∀ f ∈ fs, f p = f q) → p = q)
    (hv : ∀ v, S v → ∀ i < entityCount c (c.tdim - 1), (entityFunctionals dofs (c.tdim - 1, i)).map (·.eval v) =
      fs.map fun f => f (comp (entityDomain c (c.tdim - 1, i)) (areaVec c.tdim (entityDomain c (c.tdim - 1, i)).v) v)) :
    NormalConform c S dofs := by
  refine normal_conform_of_trace hc hk hfc fun v v' hSv hSv' i hi i' hi' heq => hz _ _ (hT v hSv i hi) (hT v' hSv' i' hi') fun x hx => ?_
  rw [hv v hSv i hi, hv v' hSv' i' hi'] at heq
  exact List.map_inj_left.1 heq x hx

/-! ### The functionals of a facet -/

/-- The functionals of a facet, as functionals of the normal component as a function of the parameters: the values at the vertices,
the moments, and at order 2 the values at the midpoints of the edges. -/
noncomputable def brF (t : Cell) (k : ℕ) (xs : List (MvPolynomial ℕ ℝ)) : List (MvPolynomial ℕ ℝ →ₗ[ℝ] ℝ) :=
  ((List.range t.nverts).map fun l => (aeval (refVertex t l) : MvPolynomial ℕ ℝ →ₐ[ℝ] ℝ).toLinearMap) ++ xs.map (pairing1 t) ++
    if k = 2 then (List.range 3).map fun e => (aeval (midEdge t e) : MvPolynomial ℕ ℝ →ₐ[ℝ] ℝ).toLinearMap else []

theorem aeval_linear (z : ℕ → ℝ) (p : MvPolynomial ℕ ℝ) : (aeval z : MvPolynomial ℕ ℝ →ₐ[ℝ] ℝ).toLinearMap p = eval z p := by
  rw [AlgHom.toLinearMap_apply, aeval_def, Algebra.algebraMap_self, eval₂_id]

/-- They determine a polynomial of the order plus a multiple of the bubble function. -/
theorem brF_zero {t : Cell} (ht : Simplex t) {k : ℕ} (hk : k = 1 ∨ k = 2 ∧ t = .triangle) {xs : List (MvPolynomial ℕ ℝ)}
    (hxs : lspan xs = P t.tdim 0) {q : MvPolynomial ℕ ℝ} {a : ℝ} (hq : q ∈ P t.tdim k)
    (h : ∀ f ∈ brF t k xs, f (q + C a * simpBub t.tdim) = 0) : q = 0 ∧ a = 0 := by
  have h1 : ∀ l < t.nverts, eval (refVertex t l) q = 0 := by
    intro l hl
    have := h _ (List.mem_append_left _ (List.mem_append_left _ (List.mem_map.2 ⟨l, List.mem_range.2 hl, rfl⟩)))
    rw [aeval_linear, map_add, map_mul, simpBub_vertex ht hl, mul_zero, add_zero] at this
    exact this
  have h2 : k = 2 → ∀ e < entityCount t 1, eval (midEdge t e) q = 0 := by
    rintro rfl e he
    obtain ⟨-, rfl⟩ := hk.resolve_left (by omega)
    have := h _ (List.mem_append_right _ (by rw [if_pos rfl]; exact List.mem_map.2 ⟨e, List.mem_range.2 he, rfl⟩))
    rw [aeval_linear, map_add, map_mul, simpBub_midEdge (Or.inl rfl) he, mul_zero, add_zero] at this
    exact this
  have hq0 : q = 0 := lattice_zero ht (by omega) hq h1 h2
  refine ⟨hq0, ?_⟩
  have h3 : pairing1 t (C a * simpBub t.tdim) 1 = 0 := by
    refine pairing1_lspan (xs := xs) (fun x hx => ?_) (by rw [hxs]; exact Families.one_mem le_rfl)
    have := h _ (List.mem_append_left _ (List.mem_append_right _ (List.mem_map.2 ⟨x, hx, rfl⟩)))
    rw [hq0, zero_add] at this
    rw [pairing1_comm]
    exact this
  have h4 : pairing1 t (C a * simpBub t.tdim) 1 = a * cellInt t fun z => eval z (simpBub t.tdim) := by
    rw [← cellInt_const_mul]
    show cellInt t _ = _
    congr 1
    funext z
    rw [mul_one, map_mul, eval_C]
  rw [h4] at h3
  exact (mul_eq_zero.1 h3).resolve_right (simpBub_integral ht)

/-! ### The space -/

/-- A polynomial field plus multiples of the bubble functions of the facets, in the directions of the normals, and of the bubble
function of the cell. -/
noncomputable def brSum (c : Cell) (p : Field c.tdim) (a : ℕ → ℝ) (b : Fin c.tdim → ℝ) : Field c.tdim := fun j =>
  p j + ∑ i ∈ Finset.range (c.tdim + 1), C (a i * facetNormal i j.val) * entBub c (c.tdim - 1) i + C (b j) * entBub c c.tdim 0

/-- The space of the element: polynomials of degree `k`, one function for each facet, and at order 2 the bubble function of the cell in
each direction. -/
def BRSpace (c : Cell) (k : ℕ) (v : Field c.tdim) : Prop :=
  ∃ p a b, (∀ j, p j ∈ P c.tdim k) ∧ (k = 1 → b = 0) ∧ v = brSum c p a b

theorem br_count {c : Cell} (hc : Simp c) : entityCount c (c.tdim - 1) = c.tdim + 1 := by rcases hc with rfl | rfl <;> rfl

theorem br_subset {c : Cell} (hc : Simp c) : ∀ i ≤ c.tdim, (∀ i' ≤ c.tdim, i' ≠ i → ¬ entVerts c (c.tdim - 1) i' ⊆ entVerts c (c.tdim - 1) i) ∧
    ¬ entVerts c c.tdim 0 ⊆ entVerts c (c.tdim - 1) i := by
  simp only [List.subset_def]
  rcases hc with rfl | rfl <;> decide

/-- The scaling of the normal of a facet. -/
theorem br_area {c : Cell} (hc : Simp c) {i : ℕ} (hi : i ≤ c.tdim) : ∃ s : ℝ, s ≠ 0 ∧ ∀ j < c.tdim,
    areaVec c.tdim (entityDomain c (c.tdim - 1, i)).v j = s * facetNormal i j := by
  obtain ⟨J, n, s, hJ, hs, h1, h2, h3⟩ := (facet_facts hc hi).facts
  exact ⟨J * s, mul_ne_zero hJ hs, fun j hj => by rw [← facet_area hc h1 h2 hJ, h3 j hj, mul_assoc]⟩

theorem facetNormal_sq {c : Cell} (hc : Simp c) {i : ℕ} (hi : i ≤ c.tdim) :
    ∑ j : Fin c.tdim, facetNormal i j.val * facetNormal i j.val ≠ 0 := by
  have e : ∀ j : Fin c.tdim, 0 ≤ facetNormal i j.val * facetNormal i j.val := fun j => mul_self_nonneg _
  have hpos : 0 < c.tdim := by rcases hc with rfl | rfl <;> decide
  refine (Finset.sum_pos' (fun j _ => e j) ⟨⟨i - 1, by omega⟩, Finset.mem_univ _, ?_⟩).ne'
  unfold facetNormal
  by_cases h0 : i = 0
  · rw [if_pos h0]; norm_num
  · rw [if_neg h0, if_pos (show i - 1 + 1 = i by omega)]; norm_num

/-- The normal component on a facet, as a function of the parameters. -/
theorem br_trace {c : Cell} (hc : Simp c) {i : ℕ} (hi : i ≤ c.tdim) : ∃ κ : ℝ, κ ≠ 0 ∧ ∀ p a b,
    comp (entityDomain c (c.tdim - 1, i)) (areaVec c.tdim (entityDomain c (c.tdim - 1, i)).v) (brSum c p a b) =
      comp (entityDomain c (c.tdim - 1, i)) (areaVec c.tdim (entityDomain c (c.tdim - 1, i)).v) p + C (κ * a i) * simpBub (c.tdim - 1) := by
  obtain ⟨s, hs, hA⟩ := br_area hc hi
  have hs' : Simplex c := Or.inr hc
  obtain ⟨hsub, hsub'⟩ := br_subset hc i hi
  refine ⟨s * ∑ j : Fin c.tdim, facetNormal i j.val * facetNormal i j.val, mul_ne_zero hs (facetNormal_sq hc hi), fun p a b => ?_⟩
  refine MvPolynomial.funext fun z => ?_
  rw [map_add, map_mul, eval_C]
  refine (eval_comp _ _ _ z).trans ?_
  refine Eq.trans ?_ (congrArg (· + _) (eval_comp (entityDomain c (c.tdim - 1, i)) _ p z).symm)
  have hd : c.tdim - 1 ≤ c.tdim := Nat.sub_le _ _
  have hi' : i < entityCount c (c.tdim - 1) := by rw [br_count hc]; omega
  have h0 : 0 < entityCount c c.tdim := by rcases hc with rfl | rfl <;> decide
  have e : ∀ j : Fin c.tdim, eval ((entityDomain c (c.tdim - 1, i)).param z) (brSum c p a b j) =
      eval ((entityDomain c (c.tdim - 1, i)).param z) (p j) + a i * facetNormal i j.val * eval z (simpBub (c.tdim - 1)) := by
    intro j
    rw [brSum, map_add, map_add, map_sum, map_mul, entBub_param_zero hs' hd hi' z le_rfl h0 hsub', mul_zero, add_zero,
      Finset.sum_eq_single i]
    · rw [map_mul, eval_C, entBub_param hs' hd hi']
    · intro i' h1 h2
      have h3 : i' ≤ c.tdim := Nat.lt_succ_iff.1 (Finset.mem_range.1 h1)
      rw [map_mul, entBub_param_zero hs' hd hi' z hd (by rw [br_count hc]; omega) (hsub i' h3 h2), mul_zero]
    · intro h
      exact absurd (Finset.mem_range.2 (by omega)) h
  show ∑ j : Fin c.tdim, areaVec c.tdim (entityDomain c (c.tdim - 1, i)).v j.val *
      eval ((entityDomain c (c.tdim - 1, i)).param z) (brSum c p a b j) =
    ∑ j : Fin c.tdim, areaVec c.tdim (entityDomain c (c.tdim - 1, i)).v j.val * eval ((entityDomain c (c.tdim - 1, i)).param z) (p j) + _
  simp only [e, mul_add, Finset.sum_add_distrib]
  congr 1
  rw [Finset.mul_sum, Finset.sum_mul, Finset.sum_mul]
  refine Finset.sum_congr rfl fun j _ => ?_
  rw [hA j.val j.2]
  ring

/-! ### The functionals determine the functions -/

/-- The integrals of the products of the coordinates and the derivatives of the bubble function. -/
theorem bub_deriv {i j : ℕ} (hi : i < 3) (hj : j < 3) :
    pairing1 .tetrahedron 1 (X i * pderiv j (simpBub 3)) = if i = j then -(1 / 5040) else 0 := by
  have L0 : ∀ a b d : ℕ, pairing1 .tetrahedron 1 (denoteMono ℝ [a, b, d]) =
      (a.factorial : ℝ) * b.factorial * d.factorial / (a + b + d + 3).factorial := fun a b d => by
    rw [← cellInt_tet_mono]
    show cellInt _ _ = _
    simp only [one_mul]
  have L1 : ∀ (r : ℝ) (a b d : ℕ), pairing1 .tetrahedron 1 (C r * denoteMono ℝ [a, b, d]) =
      r * ((a.factorial : ℝ) * b.factorial * d.factorial / (a + b + d + 3).factorial) := fun r a b d => by
    rw [← smul_eq_C_mul, map_smul, L0, smul_eq_mul]
  have hb : simpBub 3 = (X 0 * X 1 * X 2 * (1 - X 0 - X 1 - X 2) : MvPolynomial ℕ ℝ) := by
    refine MvPolynomial.funext fun z => ?_
    rw [eval_simpBub]
    simp [Finset.prod_range_succ, Fin.sum_univ_succ]
    left; ring
  have c2 : (C (2 : ℝ) : MvPolynomial ℕ ℝ) = 2 := map_ofNat C 2
  interval_cases i <;> interval_cases j
  · have e : X 0 * pderiv 0 (simpBub 3) = C (1) * denoteMono ℝ [1, 1, 1] + C (-2) * denoteMono ℝ [2, 1, 1] + C (-1) * denoteMono ℝ [1, 2, 1] + C (-1) * denoteMono ℝ [1, 1, 2] := by
      rw [hb]
      simp [denoteMono, monoFrom, pderiv_X, c2]
      ring
    rw [e]
    simp only [map_add, L1, Nat.factorial]
    norm_num
  · have e : X 0 * pderiv 1 (simpBub 3) = C (1) * denoteMono ℝ [2, 0, 1] + C (-1) * denoteMono ℝ [3, 0, 1] + C (-2) * denoteMono ℝ [2, 1, 1] + C (-1) * denoteMono ℝ [2, 0, 2] := by
      rw [hb]
      simp [denoteMono, monoFrom, pderiv_X, c2]
      ring
    rw [e]
    simp only [map_add, L1, Nat.factorial]
    norm_num
  · have e : X 0 * pderiv 2 (simpBub 3) = C (1) * denoteMono ℝ [2, 1, 0] + C (-1) * denoteMono ℝ [3, 1, 0] + C (-1) * denoteMono ℝ [2, 2, 0] + C (-2) * denoteMono ℝ [2, 1, 1] := by
      rw [hb]
      simp [denoteMono, monoFrom, pderiv_X, c2]
      ring
    rw [e]
    simp only [map_add, L1, Nat.factorial]
    norm_num
  · have e : X 1 * pderiv 0 (simpBub 3) = C (1) * denoteMono ℝ [0, 2, 1] + C (-2) * denoteMono ℝ [1, 2, 1] + C (-1) * denoteMono ℝ [0, 3, 1] + C (-1) * denoteMono ℝ [0, 2, 2] := by
      rw [hb]
      simp [denoteMono, monoFrom, pderiv_X, c2]
      ring
    rw [e]
    simp only [map_add, L1, Nat.factorial]
    norm_num
  · have e : X 1 * pderiv 1 (simpBub 3) = C (1) * denoteMono ℝ [1, 1, 1] + C (-1) * denoteMono ℝ [2, 1, 1] + C (-2) * denoteMono ℝ [1, 2, 1] + C (-1) * denoteMono ℝ [1, 1, 2] := by
      rw [hb]
      simp [denoteMono, monoFrom, pderiv_X, c2]
      ring
    rw [e]
    simp only [map_add, L1, Nat.factorial]
    norm_num
  · have e : X 1 * pderiv 2 (simpBub 3) = C (1) * denoteMono ℝ [1, 2, 0] + C (-1) * denoteMono ℝ [2, 2, 0] + C (-1) * denoteMono ℝ [1, 3, 0] + C (-2) * denoteMono ℝ [1, 2, 1] := by
      rw [hb]
      simp [denoteMono, monoFrom, pderiv_X, c2]
      ring
    rw [e]
    simp only [map_add, L1, Nat.factorial]
    norm_num
  · have e : X 2 * pderiv 0 (simpBub 3) = C (1) * denoteMono ℝ [0, 1, 2] + C (-2) * denoteMono ℝ [1, 1, 2] + C (-1) * denoteMono ℝ [0, 2, 2] + C (-1) * denoteMono ℝ [0, 1, 3] := by
      rw [hb]
      simp [denoteMono, monoFrom, pderiv_X, c2]
      ring
    rw [e]
    simp only [map_add, L1, Nat.factorial]
    norm_num
  · have e : X 2 * pderiv 1 (simpBub 3) = C (1) * denoteMono ℝ [1, 0, 2] + C (-1) * denoteMono ℝ [2, 0, 2] + C (-2) * denoteMono ℝ [1, 1, 2] + C (-1) * denoteMono ℝ [1, 0, 3] := by
      rw [hb]
      simp [denoteMono, monoFrom, pderiv_X, c2]
      ring
    rw [e]
    simp only [map_add, L1, Nat.factorial]
    norm_num
  · have e : X 2 * pderiv 2 (simpBub 3) = C (1) * denoteMono ℝ [1, 1, 1] + C (-1) * denoteMono ℝ [2, 1, 1] + C (-1) * denoteMono ℝ [1, 2, 1] + C (-2) * denoteMono ℝ [1, 1, 2] := by
      rw [hb]
      simp [denoteMono, monoFrom, pderiv_X, c2]
      ring
    rw [e]
    simp only [map_add, L1, Nat.factorial]
    norm_num

theorem entBub_cell {c : Cell} (hc : Simp c) : entBub c c.tdim 0 = simpBub c.tdim := by
  refine MvPolynomial.funext fun z => ?_
  rw [eval_simpBub]
  rcases hc with rfl | rfl
  · rw [fin_sum2]
    simp [entBub, bary, eval_opp, entVerts, Cell.subEntities, Cell.tdim, Cell.faces, Finset.prod_range_succ, Fin.sum_univ_succ]
    ring
  · rw [fin_sum3]
    simp [entBub, bary, eval_opp, entVerts, Cell.subEntities, Cell.tdim, Cell.volumes, Finset.prod_range_succ, Fin.sum_univ_succ]
    ring

/-- A field whose normal components vanish on the facets vanishes at the vertices. -/
theorem normalZero_vertex {c : Cell} (hc : Simp c) {p : Field c.tdim} (h : NormalZero c.tdim p) {l : ℕ} (hl : l < c.nverts) (j : Fin c.tdim) :
    eval (refVertex c l) (p j) = 0 := by
  obtain ⟨h1, h2⟩ := h
  rcases hc with rfl | rfl
  · have hs : ∀ f : Fin Cell.triangle.tdim → ℝ, ∑ j, f j = f ⟨0, by decide⟩ + f ⟨1, by decide⟩ := fun f => Fin.sum_univ_two _
    have h2 := h2 (refVertex .triangle l)
    have a0 := h1 ⟨0, by decide⟩ (refVertex .triangle l)
    have a1 := h1 ⟨1, by decide⟩ (refVertex .triangle l)
    simp only [Cell.nverts] at hl
    rw [hs, hs] at h2
    obtain ⟨j, hj⟩ := j
    have hj' : j < 2 := hj
    interval_cases l <;> interval_cases j <;> simp [refVertex, refVerts, coords] at a0 a1 h2 ⊢ <;> simp_all [refVertex, refVerts]
  · have hs : ∀ f : Fin Cell.tetrahedron.tdim → ℝ, ∑ j, f j = f ⟨0, by decide⟩ + f ⟨1, by decide⟩ + f ⟨2, by decide⟩ :=
      fun f => Fin.sum_univ_three _
    have h2 := h2 (refVertex .tetrahedron l)
    have a0 := h1 ⟨0, by decide⟩ (refVertex .tetrahedron l)
    have a1 := h1 ⟨1, by decide⟩ (refVertex .tetrahedron l)
    have a2 := h1 ⟨2, by decide⟩ (refVertex .tetrahedron l)
    simp only [Cell.nverts] at hl
    rw [hs, hs] at h2
    obtain ⟨j, hj⟩ := j
    have hj' : j < 3 := hj
    interval_cases l <;> interval_cases j <;> simp [refVertex, refVerts, coords] at a0 a1 a2 h2 ⊢ <;> simp_all [refVertex, refVerts]

/-- If moreover the components along the edges vanish at the midpoints, the field vanishes there. -/
theorem normalZero_midEdge {p : Field Cell.tetrahedron.tdim} (h : NormalZero Cell.tetrahedron.tdim p) {e : ℕ} (he : e < 6)
    (ht : ∑ j : Fin Cell.tetrahedron.tdim, psub (refVertex .tetrahedron ((entVerts .tetrahedron 1 e).getD 1 0))
      (refVertex .tetrahedron ((entVerts .tetrahedron 1 e).getD 0 0)) j.val * eval (midEdge .tetrahedron e) (p j) = 0)
    (j : Fin Cell.tetrahedron.tdim) : eval (midEdge .tetrahedron e) (p j) = 0 := by
  obtain ⟨h1, h2⟩ := h
  have hs : ∀ f : Fin Cell.tetrahedron.tdim → ℝ, ∑ j, f j = f ⟨0, by decide⟩ + f ⟨1, by decide⟩ + f ⟨2, by decide⟩ :=
    fun f => Fin.sum_univ_three _
  have h2 := h2 (midEdge .tetrahedron e)
  have a0 := h1 ⟨0, by decide⟩ (midEdge .tetrahedron e)
  have a1 := h1 ⟨1, by decide⟩ (midEdge .tetrahedron e)
  have a2 := h1 ⟨2, by decide⟩ (midEdge .tetrahedron e)
  rw [hs, hs] at h2
  rw [hs] at ht
  generalize hq : (fun j => eval (midEdge .tetrahedron e) (p j)) = q at *
  have hq' : ∀ j, eval (midEdge .tetrahedron e) (p j) = q j := fun j => congrFun hq j
  simp only [hq'] at *
  clear hq hq' h1
  generalize e0 : q ⟨0, by decide⟩ = q0 at *
  generalize e1 : q ⟨1, by decide⟩ = q1 at *
  generalize e2 : q ⟨2, by decide⟩ = q2 at *
  have main : q0 = 0 ∧ q1 = 0 ∧ q2 = 0 := by
    interval_cases e <;> norm_num [midEdge, middle, psub, entVerts, Cell.subEntities, Cell.edges, refVertex, refVerts, coords] at a0 a1 a2 h2 ht <;>
      refine ⟨?_, ?_, ?_⟩ <;> linarith
  obtain ⟨j, hj⟩ := j
  have hj' : j < 3 := hj
  interval_cases j
  · exact e0.trans main.1
  · exact e1.trans main.2.1
  · exact e2.trans main.2.2

/-- The functionals determine the functions of the space. -/
theorem br_core {c : Cell} (hc : Simp c) {k : ℕ} (hk : k = 1 ∨ k = 2 ∧ c = .tetrahedron) {xs : List (MvPolynomial ℕ ℝ)}
    (hxs : lspan xs = P (facetCell c).tdim 0) {p : Field c.tdim} {a : ℕ → ℝ} {b : Fin c.tdim → ℝ} (hp : ∀ j, p j ∈ P c.tdim k)
    (hb : k = 1 → b = 0)
    (hf : ∀ i ≤ c.tdim, ∀ f ∈ brF (facetCell c) k xs,
      f (comp (entityDomain c (c.tdim - 1, i)) (areaVec c.tdim (entityDomain c (c.tdim - 1, i)).v) (brSum c p a b)) = 0)
    (he : k = 2 → ∀ e < entityCount c 1, ∑ j : Fin c.tdim, psub (refVertex c ((entVerts c 1 e).getD 1 0))
      (refVertex c ((entVerts c 1 e).getD 0 0)) j.val * eval (midEdge c e) (brSum c p a b j) = 0)
    (hd : k = 2 → ∀ i < 3, pairing1 c (X i) (divL c.tdim (brSum c p a b)) = 0) :
    p = 0 ∧ (∀ i ≤ c.tdim, a i = 0) ∧ b = 0 := by
  have hfc : ∀ i, (entityDomain c (c.tdim - 1, i)).cell = facetCell c := fun i => by rcases hc with rfl | rfl <;> rfl
  have hk' : k = 1 ∨ k = 2 ∧ facetCell c = .triangle := by
    rcases hk with h | ⟨h, rfl⟩
    · exact Or.inl h
    · exact Or.inr ⟨h, rfl⟩
  have hbub : simpBub (c.tdim - 1) = simpBub (facetCell c).tdim := by rw [facetCell_tdim hc]
  have h1 : ∀ i ≤ c.tdim, comp (entityDomain c (c.tdim - 1, i)) (areaVec c.tdim (entityDomain c (c.tdim - 1, i)).v) p = 0 ∧ a i = 0 := by
    intro i hi
    obtain ⟨κ, hκ, h⟩ := br_trace hc hi
    have hm : comp (entityDomain c (c.tdim - 1, i)) (areaVec c.tdim (entityDomain c (c.tdim - 1, i)).v) p ∈ P (facetCell c).tdim k := by
      rw [← hfc i]
      exact comp_mem (entityDomain c (c.tdim - 1, i)) (d := c.tdim) _ hp
    obtain ⟨e1, e2⟩ := brF_zero (facetCell_simplex c) (k := k) (a := κ * a i)
      hk' hxs hm (fun f hf' => by
        have h2 := hf i hi f hf'
        rw [h p a b, hbub] at h2
        exact h2)
    exact ⟨e1, (mul_eq_zero.1 e2).resolve_left hκ⟩
  have ha : ∀ i ≤ c.tdim, a i = 0 := fun i hi => (h1 i hi).2
  have hN : NormalZero c.tdim p := by
    refine normalZero_of fun i hi z hz => ?_
    obtain ⟨s, hs, hA⟩ := br_area hc hi
    obtain ⟨y, hy⟩ := (facet_facts hc hi).covers z hz
    have h2 := eval_comp (entityDomain c (c.tdim - 1, i)) (areaVec c.tdim (entityDomain c (c.tdim - 1, i)).v) p y
    rw [(h1 i hi).1, map_zero] at h2
    have h3 : ∑ j : Fin c.tdim, areaVec c.tdim (entityDomain c (c.tdim - 1, i)).v j.val *
        eval ((entityDomain c (c.tdim - 1, i)).param y) (p j) = 0 := h2.symm
    have h4 : s * ∑ j, facetNormal i j.val * eval z (p j) = 0 := by
      rw [← h3, Finset.mul_sum]
      refine Finset.sum_congr rfl fun j _ => ?_
      rw [hA j.val j.2, eval_congr_P (hp j) fun l hl => hy l hl]
      ring
    exact (mul_eq_zero.1 h4).resolve_left hs
  have hsum : ∀ j, brSum c p a b j = p j + C (b j) * simpBub c.tdim := by
    intro j
    rw [brSum, entBub_cell hc, Finset.sum_eq_zero, add_zero]
    intro i hi
    rw [ha i (Nat.lt_succ_iff.1 (Finset.mem_range.1 hi)), zero_mul, C_0, zero_mul]
  have hp0 : p = 0 := by
    funext j
    refine lattice_zero (t := c) (Or.inr hc) (by omega) (hp j) (fun l hl => normalZero_vertex hc hN hl j) fun h2 e hee => ?_
    obtain ⟨-, rfl⟩ := hk.resolve_left (by omega)
    refine normalZero_midEdge hN hee ?_ j
    rw [← he h2 e hee]
    refine Finset.sum_congr rfl fun j _ => ?_
    rw [hsum, map_add, map_mul, simpBub_midEdge (Or.inr rfl) hee, mul_zero, add_zero]
  refine ⟨hp0, ha, ?_⟩
  rcases hk with h | ⟨h, rfl⟩
  · exact hb h
  · funext i
    have h2 := hd h i.val i.2
    have h3 : divL Cell.tetrahedron.tdim (brSum .tetrahedron p a b) = ∑ j : Fin Cell.tetrahedron.tdim, b j • pderiv j.val (simpBub 3) := by
      rw [divL, LinearMap.sum_apply]
      refine Finset.sum_congr rfl fun j _ => ?_
      show pderiv j.val (brSum .tetrahedron p a b j) = _
      rw [hsum, hp0, Pi.zero_apply, zero_add, ← smul_eq_C_mul, Derivation.map_smul]
      rfl
    rw [h3, map_sum, Finset.sum_eq_single i] at h2
    · rw [map_smul] at h2
      have h4 : pairing1 .tetrahedron (X i.val) (pderiv i.val (simpBub 3)) = -(1 / 5040) := by
        have := bub_deriv (i := i.val) (j := i.val) i.2 i.2
        rw [if_pos rfl] at this
        rw [← this]
        show cellInt _ _ = cellInt _ _
        simp only [one_mul]
      rw [h4, smul_eq_mul] at h2
      show b i = 0
      linarith
    · intro j _ hj
      have h4 : pairing1 .tetrahedron (X i.val) (pderiv j.val (simpBub 3)) = 0 := by
        have := bub_deriv (i := i.val) (j := j.val) i.2 j.2
        rw [if_neg fun h => hj (Fin.ext h.symm)] at this
        rw [← this]
        show cellInt _ _ = cellInt _ _
        simp only [one_mul]
      rw [map_smul, h4, smul_zero]
    · intro h
      exact absurd (Finset.mem_univ _) h

/-! ### The functions -/

theorem mem_lspan_range {V : Type} [AddCommGroup V] [Module ℝ V] (f : ℕ → V) (n : ℕ) (v : V) :
    v ∈ lspan ((List.range n).map f) ↔ ∃ a : ℕ → ℝ, ∑ i ∈ Finset.range n, a i • f i = v := by
  have : lspan ((List.range n).map f) = Submodule.span ℝ (f '' (Finset.range n : Set ℕ)) := by
    unfold lspan
    congr 1
    ext w
    simp
  rw [this, Submodule.mem_span_image_finset_iff_exists_fun']

theorem independent_range {V : Type} [AddCommGroup V] [Module ℝ V] (f : ℕ → V) (n : ℕ)
    (h : ∀ a : ℕ → ℝ, ∑ i ∈ Finset.range n, a i • f i = 0 → ∀ i < n, a i = 0) : Independent ℝ ((List.range n).map f) := by
  have key : ∀ (l : List V), l.length = n → (∀ (i : ℕ) (hi : i < l.length), l[i] = f i) → Independent ℝ l := by
    rintro l rfl hl
    unfold Independent
    rw [Fintype.linearIndependent_iff]
    intro g hg i
    have h2 := h (fun i => if hi : i < l.length then g ⟨i, hi⟩ else 0) ?_ i.val i.2
    · simpa using h2
    · rw [← hg, Finset.sum_range]
      refine Finset.sum_congr rfl fun i _ => ?_
      rw [dif_pos i.2, ← hl i.val i.2]
      rfl
  exact key _ (by simp) fun i hi => by simp

/-- The function of a facet. -/
noncomputable def brBub (c : Cell) (i : ℕ) : Field c.tdim := fun j => C (facetNormal i j.val) * entBub c (c.tdim - 1) i

/-- The function of the cell in a direction. -/
noncomputable def brCell (c : Cell) (i : ℕ) : Field c.tdim := fun j => if j.val = i then entBub c c.tdim 0 else 0

theorem brBubble_eq {c : Cell} (hc : Simp c) {i : ℕ} (hi : i ≤ c.tdim) : brBubble c (hats c) i = entBub c (c.tdim - 1) i := by
  rcases hc with rfl | rfl
  · have hi' : i ≤ 2 := hi
    interval_cases i <;> simp [brBubble, entBub, hats, Cell.tdim, bary, opp_two, entVerts, Cell.subEntities, Cell.edges] <;> ring
  · have hi' : i ≤ 3 := hi
    interval_cases i <;> simp [brBubble, entBub, hats, Cell.tdim, bary, opp_three, entVerts, Cell.subEntities, Cell.faces] <;> ring

theorem brFacet_eq {c : Cell} (hc : Simp c) : ∃ s : ℕ → ℝ, (∀ i, s i ≠ 0) ∧ ∀ i ≤ c.tdim, brFacet c (hats c) i = some (s i • brBub c i) := by
  have : ∀ i, ∃ s : ℝ, s ≠ 0 ∧ (i ≤ c.tdim → brFacet c (hats c) i = some (s • brBub c i)) := by
    intro i
    by_cases hi : i ≤ c.tdim
    · obtain ⟨J, n, s, hJ, hs, h1, h2, h3⟩ := (facet_facts hc hi).facts
      refine ⟨s, hs, fun _ => ?_⟩
      unfold brFacet
      rw [h2, Option.map_some, brBubble_eq hc hi]
      congr 1
      funext j
      rw [h3 j.val j.2, Pi.smul_apply, brBub, smul_eq_C_mul, map_mul]
      ring
    · exact ⟨1, one_ne_zero, fun h => absurd h hi⟩
  choose s h1 h2 using this
  exact ⟨s, h1, h2⟩

theorem brInner_eq (i : ℕ) : brInner .tetrahedron (hats .tetrahedron) i = brCell .tetrahedron i := by
  funext j
  unfold brInner brCell
  congr 1
  simp [entBub, hats, Cell.tdim, bary, opp_three, entVerts, Cell.subEntities, Cell.volumes]
  ring

theorem brSum_eq {c : Cell} (p : Field c.tdim) (a b : ℕ → ℝ) :
    brSum c p a (fun j => b j.val) = p + ∑ i ∈ Finset.range (c.tdim + 1), a i • brBub c i + ∑ i ∈ Finset.range c.tdim, b i • brCell c i := by
  funext j
  simp only [brSum, Pi.add_apply, Finset.sum_apply, Pi.smul_apply]
  congr 1
  · congr 1
    refine Finset.sum_congr rfl fun i _ => ?_
    rw [brBub, smul_eq_C_mul, map_mul, mul_assoc]
  · rw [Finset.sum_eq_single_of_mem j.val (Finset.mem_range.2 j.2)]
    · rw [brCell, if_pos rfl, smul_eq_C_mul]
    · intro i _ hi
      rw [brCell, if_neg (fun h => hi h.symm), smul_zero]

theorem brSum_scaled {c : Cell} {s : ℕ → ℝ} (p : Field c.tdim) (a b : ℕ → ℝ) :
    p + ∑ i ∈ Finset.range (c.tdim + 1), a i • s i • brBub c i + ∑ i ∈ Finset.range c.tdim, b i • brCell c i =
      brSum c p (fun i => a i * s i) fun j => b j.val := by
  rw [brSum_eq]
  simp only [smul_smul]

/-- The functions of the space have unique components. -/
theorem brSum_zero {c : Cell} (hc : Simp c) {k : ℕ} (hk : k = 1 ∨ k = 2 ∧ c = .tetrahedron) {p : Field c.tdim} {a : ℕ → ℝ} {b : Fin c.tdim → ℝ}
    (hp : ∀ j, p j ∈ P c.tdim k) (hb : k = 1 → b = 0) (h : brSum c p a b = 0) : p = 0 ∧ (∀ i ≤ c.tdim, a i = 0) ∧ b = 0 := by
  obtain ⟨xs, -, hxs, -⟩ := sub_lagrange (facetCell_simplex c) (classes := lagrangeClasses) rfl "NormalIntegralMoment" 0 none
  refine br_core hc hk hxs hp hb (fun i hi f _ => ?_) (fun _ e _ => ?_) fun _ i _ => ?_
  · rw [h]
    have : comp (entityDomain c (c.tdim - 1, i)) (areaVec c.tdim (entityDomain c (c.tdim - 1, i)).v) 0 = 0 := by
      unfold comp
      refine Finset.sum_eq_zero fun j _ => ?_
      show _ * pull _ 0 = 0
      rw [pull, map_zero, mul_zero]
    exact (congrArg f this).trans (map_zero f)
  · rw [h]
    simp
  · rw [h, map_zero, map_zero]

/-- The functions at order 1. -/
theorem br_functions1 {c : Cell} (hc : Simp c) {s : ℕ → ℝ} (hs : ∀ i, s i ≠ 0) {l : List (Field c.tdim)} (hl : Independent ℝ l)
    (hsp : ∀ v, v ∈ lspan l ↔ FullSpace c.tdim 1 v) :
    Independent ℝ (l ++ (List.range (c.tdim + 1)).map fun i => s i • brBub c i) ∧
      ∀ v, v ∈ lspan (l ++ (List.range (c.tdim + 1)).map fun i => s i • brBub c i) ↔ BRSpace c 1 v := by
  have e : ∀ (p : Field c.tdim) (a : ℕ → ℝ), p + ∑ i ∈ Finset.range (c.tdim + 1), a i • s i • brBub c i =
      brSum c p (fun i => a i * s i) 0 := by
    intro p a
    have := brSum_scaled (s := s) p a fun _ => 0
    simp only [zero_smul, Finset.sum_const_zero, add_zero] at this
    exact this
  constructor
  · refine independent_append hl (independent_range _ _ fun a ha i hi => ?_) (Submodule.disjoint_def.2 fun v h1 h2 => ?_)
    · have h3 := e 0 a
      rw [ha, add_zero] at h3
      have := (brSum_zero hc (k := 1) (Or.inl rfl) (fun j => Submodule.zero_mem _) (fun _ => rfl) h3.symm).2.1 i (by omega)
      exact (mul_eq_zero.1 this).resolve_right (hs i)
    · obtain ⟨a, rfl⟩ := (mem_lspan_range _ _ _).1 h2
      have h4 := e (∑ i ∈ Finset.range (c.tdim + 1), a i • s i • brBub c i) fun i => -a i
      rw [show ∑ i ∈ Finset.range (c.tdim + 1), (-a i) • s i • brBub c i = -∑ i ∈ Finset.range (c.tdim + 1), a i • s i • brBub c i by
        simp only [neg_smul, Finset.sum_neg_distrib], add_neg_cancel] at h4
      exact (brSum_zero hc (k := 1) (Or.inl rfl) ((hsp _).1 h1) (fun _ => rfl) h4.symm).1
  · intro v
    rw [lspan_append, Submodule.mem_sup]
    constructor
    · rintro ⟨p, hp, w, hw, rfl⟩
      obtain ⟨a, rfl⟩ := (mem_lspan_range _ _ _).1 hw
      exact ⟨p, _, 0, (hsp p).1 hp, fun _ => rfl, e p a⟩
    · rintro ⟨p, a, b, hp, hb, rfl⟩
      refine ⟨p, (hsp p).2 hp, _, (mem_lspan_range _ _ _).2 ⟨fun i => a i / s i, rfl⟩, ?_⟩
      rw [e, hb rfl]
      congr 1
      funext i
      rw [div_mul_cancel₀ _ (hs i)]

/-- The functions at order 2. -/
theorem br_functions2 {c : Cell} (hc : c = .tetrahedron) {s : ℕ → ℝ} (hs : ∀ i, s i ≠ 0) {l : List (Field c.tdim)} (hl : Independent ℝ l)
    (hsp : ∀ v, v ∈ lspan l ↔ FullSpace c.tdim 2 v) :
    Independent ℝ (l ++ ((List.range (c.tdim + 1)).map fun i => s i • brBub c i) ++ (List.range c.tdim).map (brCell c)) ∧
      ∀ v, v ∈ lspan (l ++ ((List.range (c.tdim + 1)).map fun i => s i • brBub c i) ++ (List.range c.tdim).map (brCell c)) ↔ BRSpace c 2 v := by
  have hS : Simp c := Or.inr hc
  have hk : 2 = 1 ∨ 2 = 2 ∧ c = .tetrahedron := Or.inr ⟨rfl, hc⟩
  have hb : ∀ b : Fin c.tdim → ℝ, 2 = 1 → b = 0 := fun b h => absurd h (by omega)
  have e : ∀ (p : Field c.tdim) (a b : ℕ → ℝ), p + ∑ i ∈ Finset.range (c.tdim + 1), a i • s i • brBub c i +
      ∑ i ∈ Finset.range c.tdim, b i • brCell c i = brSum c p (fun i => a i * s i) fun j => b j.val := fun p a b => brSum_scaled p a b
  have hz : ∀ (p : Field c.tdim) (a b : ℕ → ℝ), (∀ j, p j ∈ P c.tdim 2) → p + ∑ i ∈ Finset.range (c.tdim + 1), a i • s i • brBub c i +
      ∑ i ∈ Finset.range c.tdim, b i • brCell c i = 0 → p = 0 ∧ (∀ i < c.tdim + 1, a i = 0) ∧ ∀ i < c.tdim, b i = 0 := by
    intro p a b hp h
    rw [e] at h
    obtain ⟨h1, h2, h3⟩ := brSum_zero hS hk hp (hb _) h
    exact ⟨h1, fun i hi => (mul_eq_zero.1 (h2 i (by omega))).resolve_right (hs i), fun i hi => congrFun h3 ⟨i, hi⟩⟩
  have neg : ∀ (n : ℕ) (a : ℕ → ℝ) (f : ℕ → Field c.tdim), ∑ i ∈ Finset.range n, (-a i) • f i = -∑ i ∈ Finset.range n, a i • f i := fun n a f => by
    simp only [neg_smul, Finset.sum_neg_distrib]
  constructor
  · refine independent_append (independent_append hl (independent_range _ _ fun a ha i hi => ?_) (Submodule.disjoint_def.2 fun v h1 h2 => ?_))
      (independent_range _ _ fun b hb i hi => ?_) (Submodule.disjoint_def.2 fun v h1 h2 => ?_)
    · exact (hz 0 a (fun _ => 0) (fun j => Submodule.zero_mem _) (by rw [ha]; simp)).2.1 i hi
    · obtain ⟨a, rfl⟩ := (mem_lspan_range _ _ _).1 h2
      exact (hz _ (fun i => -a i) (fun _ => 0) ((hsp _).1 h1) (by rw [neg, add_neg_cancel]; simp)).1
    · exact (hz 0 (fun _ => 0) b (fun j => Submodule.zero_mem _) (by rw [hb]; simp)).2.2 i hi
    · rw [lspan_append, Submodule.mem_sup] at h1
      obtain ⟨p, hp, w, hw, rfl⟩ := h1
      obtain ⟨a, rfl⟩ := (mem_lspan_range _ _ _).1 hw
      obtain ⟨b, hb'⟩ := (mem_lspan_range _ _ _).1 h2
      obtain ⟨h3, h4, -⟩ := hz p a (fun i => -b i) ((hsp _).1 hp) (by rw [neg, hb', add_neg_cancel])
      rw [h3, zero_add]
      exact Finset.sum_eq_zero fun i hi => by rw [h4 i (Finset.mem_range.1 hi), zero_smul]
  · intro v
    rw [lspan_append, lspan_append, Submodule.mem_sup]
    constructor
    · rintro ⟨q, hq, w, hw, rfl⟩
      obtain ⟨p, hp, u, hu, rfl⟩ := Submodule.mem_sup.1 hq
      obtain ⟨a, rfl⟩ := (mem_lspan_range _ _ _).1 hu
      obtain ⟨b, rfl⟩ := (mem_lspan_range _ _ _).1 hw
      exact ⟨p, _, _, (hsp p).1 hp, hb _, e p a b⟩
    · rintro ⟨p, a, b, hp, -, rfl⟩
      refine ⟨_, Submodule.mem_sup.2 ⟨p, (hsp p).2 hp, _, (mem_lspan_range _ _ _).2 ⟨fun i => a i / s i, rfl⟩, rfl⟩, _,
        (mem_lspan_range _ _ _).2 ⟨fun i => if h : i < c.tdim then b ⟨i, h⟩ else 0, rfl⟩, ?_⟩
      rw [e]
      congr 1
      · funext i
        rw [div_mul_cancel₀ _ (hs i)]
      · funext j
        rw [dif_pos j.2]

/-! ### The functionals -/

theorem contraPoint_eval {r : ℕ} (e : ℕ × ℕ) (pt dir : ℕ → ℝ) (v : Field r) :
    (contraPoint e pt dir).eval v = ∑ j : Fin r, dir j.val * eval pt (v j) := by
  show (∑ i : Fin r, dir i.val • (aeval pt).toLinearMap ∘ₗ LinearMap.proj i) v = _
  rw [LinearMap.sum_apply]
  refine Finset.sum_congr rfl fun j _ => ?_
  show dir j.val • (aeval pt : MvPolynomial ℕ ℝ →ₐ[ℝ] ℝ).toLinearMap (v j) = _
  rw [aeval_linear, smul_eq_mul]

/-- Evaluations of the normal component at points of the facets. -/
noncomputable def normalDofs (c : Cell) (pts : ℕ → List (ℕ → ℝ)) : List (Dof ℝ (Field c.tdim)) :=
  (List.range (c.tdim + 1)).flatMap fun i => (pts i).map fun pt =>
    contraPoint (c.tdim - 1, i) pt (areaVec c.tdim (entityDomain c (c.tdim - 1, i)).v)

theorem normalPoints_eq {c : Cell} (hc : Simp c) {i : ℕ} (hi : i ≤ c.tdim) (pts : List (ℕ → ℝ)) :
    normalPoints c i pts = some (pts.map fun pt => contraPoint (c.tdim - 1, i) pt (areaVec c.tdim (entityDomain c (c.tdim - 1, i)).v)) := by
  obtain ⟨J, n, s, hJ, hs, h1, h2, h3⟩ := (facet_facts hc hi).facts
  unfold normalPoints
  rw [h2, Option.bind_some, h1, Option.map_some]
  congr 2
  funext pt
  congr 1
  funext j
  rw [mul_comm, facet_area hc h1 h2 hJ]

theorem normalPoints_all {c : Cell} (hc : Simp c) (pts : ℕ → List (ℕ → ℝ)) :
    ∃ l, ((List.range (c.tdim + 1)).mapM fun i => normalPoints c i (pts i)) = some l ∧ l.flatten = normalDofs c pts := by
  refine ⟨_, mapM_some_of _ (fun i => (pts i).map fun pt => contraPoint (c.tdim - 1, i) pt
    (areaVec c.tdim (entityDomain c (c.tdim - 1, i)).v)) _ fun i hi =>
    normalPoints_eq hc (Nat.lt_succ_iff.1 (List.mem_range.1 hi)) (pts i), ?_⟩
  rw [normalDofs, List.flatMap_def]

theorem filter_range {A : Type} {n i dim : ℕ} (g : ℕ → List A) (ent : A → ℕ × ℕ) (h : ∀ i, ∀ a ∈ g i, ent a = (dim, i)) (hi : i < n) :
    (((List.range n).flatMap g).filter fun a => ent a = (dim, i)) = g i := by
  have e1 : ∀ j, (g j).filter (fun a => decide (ent a = (dim, i))) = if j = i then g i else [] := by
    intro j
    split
    · next hj =>
      subst hj
      rw [List.filter_eq_self]
      intro a ha
      simp [h j a ha]
    · next hj =>
      rw [List.filter_eq_nil_iff]
      intro a ha
      simp [h j a ha, hj]
  rw [List.filter_flatMap]
  simp only [e1]
  clear e1 h
  induction n with
  | zero => omega
  | succ n ih =>
    rw [List.range_succ, List.flatMap_append]
    by_cases hn : i < n
    · rw [ih hn]
      simp [show n ≠ i by omega]
    · obtain rfl : n = i := by omega
      have : ((List.range n).flatMap fun j => if j = n then g n else []) = [] := by
        rw [List.flatMap_eq_nil_iff]
        intro j hj
        rw [if_neg (by have := List.mem_range.1 hj; omega)]
      rw [this]
      simp

theorem normalDofs_entity {c : Cell} (pts : ℕ → List (ℕ → ℝ)) {i : ℕ} (hi : i ≤ c.tdim) {e : ℕ → List (ℕ → ℝ)}
    (he : ∀ i ≤ c.tdim, pts i = (e i).map (entityDomain c (c.tdim - 1, i)).param) (v : Field c.tdim) :
    (entityFunctionals (normalDofs c pts) (c.tdim - 1, i)).map (·.eval v) = (e i).map fun z =>
      (aeval z : MvPolynomial ℕ ℝ →ₐ[ℝ] ℝ).toLinearMap
        (comp (entityDomain c (c.tdim - 1, i)) (areaVec c.tdim (entityDomain c (c.tdim - 1, i)).v) v) := by
  unfold entityFunctionals normalDofs
  rw [filter_range (fun i => (pts i).map fun pt => contraPoint (c.tdim - 1, i) pt (areaVec c.tdim (entityDomain c (c.tdim - 1, i)).v))
    Dof.entity (dim := c.tdim - 1) (fun i a ha => by obtain ⟨pt, -, rfl⟩ := List.mem_map.1 ha; rfl) (Nat.lt_succ_iff.2 hi), he i hi,
    List.map_map, List.map_map]
  refine List.map_congr_left fun z _ => ?_
  rw [aeval_linear]
  show (contraPoint _ _ _).eval v = _
  rw [contraPoint_eval]
  exact (eval_comp (entityDomain c (c.tdim - 1, i)) _ v z).symm

theorem facet_vertex {c : Cell} (hc : Simp c) {i : ℕ} (hi : i ≤ c.tdim) {l : ℕ} (hl : l < c.tdim) :
    (entityDomain c (c.tdim - 1, i)).v l = (entityDomain c (c.tdim - 1, i)).param (refVertex (facetCell c) l) := by
  rw [entity_param (Or.inr hc) (Nat.sub_le _ _) (by rw [br_count hc]; omega)]
  funext j
  show refVertex c ((entVerts c (c.tdim - 1) i).getD l 0) j = _
  rcases hc with rfl | rfl
  · have hl' : l < 2 := hl
    show _ = _ + ∑ k ∈ Finset.range 1, _
    interval_cases l <;> simp [refVertex, refVerts, coords, facetCell]
  · have hl' : l < 3 := hl
    show _ = _ + ∑ k ∈ Finset.range 2, _
    interval_cases l <;> simp [refVertex, refVerts, coords, facetCell, Finset.sum_range_succ]

theorem param_middle (D : Domain) (y z : ℕ → ℝ) : middle (D.param y) (D.param z) = D.param (middle y z) := by
  funext j
  simp only [middle, Domain.param]
  have : ∀ (m : ℕ) (a : ℕ → ℝ), ∑ k ∈ Finset.range m, a k * ((y k + z k) / 2) =
      (∑ k ∈ Finset.range m, a k * y k + ∑ k ∈ Finset.range m, a k * z k) / 2 := by
    intro m a
    rw [← Finset.sum_add_distrib, Finset.sum_div]
    exact Finset.sum_congr rfl fun k _ => by ring
  rw [this]
  ring

theorem br_points1 {c : Cell} (hc : Simp c) : ∀ i ≤ c.tdim, ((List.range (entVerts c (c.tdim - 1) i).length).map (entityDomain c (c.tdim - 1, i)).v) =
    ((List.range (facetCell c).nverts).map (refVertex (facetCell c))).map (entityDomain c (c.tdim - 1, i)).param := by
  intro i hi
  have h1 : (entVerts c (c.tdim - 1) i).length = c.tdim := by
    have := (simplex_table (c := c) (Or.inr hc) (c.tdim - 1) (Nat.sub_le _ _) i (by rw [br_count hc]; omega)).1
    have hpos : 0 < c.tdim := by rcases hc with rfl | rfl <;> decide
    omega
  have h2 : (facetCell c).nverts = c.tdim := by rcases hc with rfl | rfl <;> rfl
  rw [h1, h2, List.map_map]
  exact List.map_congr_left fun l hl => facet_vertex hc hi (List.mem_range.1 hl)

theorem br_points2 {c : Cell} (hc : c = .tetrahedron) : ∀ i ≤ c.tdim, facetMidpoints c i =
    ((List.range 3).map (midEdge (facetCell c))).map (entityDomain c (c.tdim - 1, i)).param := by
  intro i hi
  unfold facetMidpoints
  rw [List.map_map]
  refine List.map_congr_left fun e he => ?_
  have hcell : (entityDomain c (c.tdim - 1, i)).cell = facetCell c := by rw [hc]; rfl
  have hlt : ∀ e < 3, (entVerts Cell.triangle 1 e).getD 0 0 < 3 ∧ (entVerts Cell.triangle 1 e).getD 1 0 < 3 := by decide
  have h3 := hlt e (List.mem_range.1 he)
  have hfc : facetCell c = .triangle := by rw [hc]; rfl
  have hd : c.tdim = 3 := by rw [hc]; rfl
  rw [hcell, facet_vertex (Or.inr hc) hi (by rw [hfc, hd]; exact h3.1), facet_vertex (Or.inr hc) hi (by rw [hfc, hd]; exact h3.2), param_middle]
  rfl

theorem facetOnly_moments {classes : String → ElementClass Fun} {c : Cell} (hc : Simp c) {A : List Item} {dA : Data}
    (hA : parse A = some dA) {xs : List (MvPolynomial ℕ ℝ)} (hx : subFuns classes dA (facetCell c) = some (xs.map .scalar)) :
    makeIntegralMomentDofs classes c { facets := some (.single A) } =
      some ((List.range (c.tdim + 1)).flatMap fun i => xs.map fun x => ⟨dA.moment, .scalar x, (c.tdim - 1, i), dA.mapping⟩) := by
  have e0 : ∀ dim : ℤ, slotDofs classes c dim none = some [] := fun _ => rfl
  have h1 : slotDofs classes c ((c.tdim : ℤ) - 1) (some (.single A)) = some ((List.range (c.tdim + 1)).flatMap fun i =>
      (xs.map Fun.scalar).map fun x => ⟨dA.moment, x, (c.tdim - 1, i), dA.mapping⟩) := by
    rcases hc with rfl | rfl
    · exact slot_uniform (dim := 1) (by omega) (by omega) (by decide) rfl hA hx
    · exact slot_uniform (dim := 2) (by omega) (by omega) (by decide) rfl hA hx
  unfold makeIntegralMomentDofs slots
  simp only [List.mapM_cons, List.mapM_nil, e0, h1, Option.bind_eq_bind, Option.bind_some, Option.pure_def, Option.map_some,
    List.flatten_cons, List.flatten_nil, List.nil_append, List.append_nil, List.map_map]
  rfl

/-- The moments on the facets. -/
theorem facetOnly_values {c : Cell} (hc : Simp c) (xs : List (MvPolynomial ℕ ℝ)) (mp : String) :
    ∃ dofs, ((List.range (c.tdim + 1)).flatMap fun i => xs.map fun x =>
        (⟨"NormalIntegralMoment", .scalar x, (c.tdim - 1, i), some mp⟩ : MomentDof Fun)).mapM (momentDof c) = some dofs ∧
      dofs.length = (c.tdim + 1) * xs.length ∧ (∀ d ∈ dofs, d.mapping = some mp) ∧ ∀ i ≤ c.tdim, ∀ v,
      (entityFunctionals dofs (c.tdim - 1, i)).map (·.eval v) = (xs.map (pairing1 (facetCell c))).map fun f =>
        f (comp (entityDomain c (c.tdim - 1, i)) (areaVec c.tdim (entityDomain c (c.tdim - 1, i)).v) v) := by
  have hfc : ∀ i, (entityDomain c (c.tdim - 1, i)).cell = facetCell c := fun i => by rcases hc with rfl | rfl <;> rfl
  obtain ⟨dofs, hdofs⟩ := mapM_exists (f := momentDof c) (l := (List.range (c.tdim + 1)).flatMap fun i => xs.map fun x =>
        (⟨"NormalIntegralMoment", .scalar x, (c.tdim - 1, i), some mp⟩ : MomentDof Fun)) (by
    intro mo hmo
    simp only [List.mem_flatMap, List.mem_range, List.mem_map] at hmo
    obtain ⟨i, hi, x, -, rfl⟩ := hmo
    obtain ⟨J, s, -, -, h⟩ := facet_moment hc (Nat.lt_succ_iff.1 hi) (some mp)
    obtain ⟨d, hd, -⟩ := h x
    exact ⟨d, hd⟩)
  refine ⟨dofs, hdofs, ?_, ?_, fun i hi v => ?_⟩
  · rw [← (mapM_forall hdofs).length_eq]
    simp [List.length_flatMap]
  · intro d hd
    obtain ⟨mo, hmo, h⟩ := forall₂_mem_left (mapM_forall hdofs) hd
    simp only [List.mem_flatMap, List.mem_range, List.mem_map] at hmo
    obtain ⟨i, hi, x, -, rfl⟩ := hmo
    obtain ⟨w, -, h2⟩ := Option.bind_eq_some_iff.1 h
    obtain ⟨J, -, rfl⟩ := Option.map_eq_some_iff.1 h2
    rfl
  · rw [List.map_map]
    refine entity_values hdofs (xs := xs) (h := fun x => ⟨"NormalIntegralMoment", .scalar x, (c.tdim - 1, i), some mp⟩) ?_ fun x hx d hd => ?_
    · exact filter_entities (dim := c.tdim - 1) xs (fun x i => ⟨"NormalIntegralMoment", .scalar x, (c.tdim - 1, i), some mp⟩)
          (fun _ _ => rfl) (Nat.lt_succ_iff.2 hi)
    · obtain ⟨J, n, s, hJ, hs, h1, h2, h3⟩ := (facet_facts hc hi).facts
      have hw : momentFn "NormalIntegralMoment" (entityDomain c (c.tdim - 1, i)) (.scalar x) = some fun j => C (n j.val) * x := by
        rw [momentFn_normal]
        show Option.map _ (normal (entityDomain c (c.tdim - 1, i)).cell c.tdim (entityDomain c (c.tdim - 1, i)).v) = _
        rw [h2, Option.map_some]
      obtain rfl := Option.some.inj ((momentDof_of (m := ⟨"NormalIntegralMoment", .scalar x, (c.tdim - 1, i), some mp⟩) hw h1).symm.trans hd)
      show _ = pairing1 (facetCell c) x _
      rw [pairing1_comm, ← hfc i]
      exact momentMap_pairing (entityDomain c (c.tdim - 1, i)) (fun j => facet_area hc h1 h2 hJ j) x v

theorem prod_bary_mem {d : ℕ} (l : List ℕ) (h : ∀ v ∈ l, v ≤ d) : (l.map (bary d)).prod ∈ P d (l.length : ℤ) := by
  induction l with
  | nil => exact Families.one_mem le_rfl
  | cons v l ih =>
    rw [List.map_cons, List.prod_cons, List.length_cons]
    have := P_mul (bary_mem (h v (by simp))) (ih fun w hw => h w (by simp [hw]))
    exact P_mono (by push_cast; omega) this

theorem br_degree {c : Cell} (hc : Simp c) {k : ℕ} {v : Field c.tdim} (h : BRSpace c k v) (j : Fin c.tdim) :
    v j ∈ P c.tdim ((k : ℤ) + c.tdim + 1) := by
  obtain ⟨p, a, b, hp, -, rfl⟩ := h
  have hm : ∀ m n, m ≤ c.tdim → n < entityCount c m → entBub c m n ∈ P c.tdim ((k : ℤ) + c.tdim + 1) := by
    intro m n h1 h2
    obtain ⟨t1, -, t3, -⟩ := simplex_table (c := c) (Or.inr hc) m h1 n h2
    have := prod_bary_mem (d := c.tdim) _ t3
    rw [t1] at this
    exact P_mono (by push_cast; omega) this
  refine Submodule.add_mem _ (Submodule.add_mem _ (P_mono (by omega) (hp j)) (Submodule.sum_mem _ fun i hi => C_mul_mem _ ?_)) (C_mul_mem _ ?_)
  · exact hm _ _ (Nat.sub_le _ _) (by rw [br_count hc]; exact Finset.mem_range.1 hi)
  · exact hm _ _ le_rfl (by rcases hc with rfl | rfl <;> decide)

/-- From the values of the functionals. -/
theorem br_finish {c : Cell} (hc : Simp c) {k : ℕ} (hk : k = 1 ∨ k = 2 ∧ c = .tetrahedron) {xs : List (MvPolynomial ℕ ℝ)}
    (hxs : lspan xs = P (facetCell c).tdim 0) {dofs : List (Dof ℝ (Field c.tdim))}
    (hval : ∀ i ≤ c.tdim, ∀ v, (entityFunctionals dofs (c.tdim - 1, i)).map (·.eval v) = (brF (facetCell c) k xs).map fun f =>
      f (comp (entityDomain c (c.tdim - 1, i)) (areaVec c.tdim (entityDomain c (c.tdim - 1, i)).v) v))
    (he : k = 2 → ∀ e < entityCount c 1, ∃ d ∈ dofs, ∀ v, d.eval v = ∑ j : Fin c.tdim, psub (refVertex c ((entVerts c 1 e).getD 1 0))
      (refVertex c ((entVerts c 1 e).getD 0 0)) j.val * eval (midEdge c e) (v j))
    (hd : k = 2 → ∀ i < 3, ∃ d ∈ dofs, ∀ v, BRSpace c k v → d.eval v = pairing1 c (X i) (divL c.tdim v)) :
    (∀ v, BRSpace c k v → (∀ d ∈ dofs, d.eval v = 0) → v = 0) ∧ NormalConform c (BRSpace c k) dofs := by
  have hfc : ∀ i, (entityDomain c (c.tdim - 1, i)).cell = facetCell c := fun i => by rcases hc with rfl | rfl <;> rfl
  have hk' : k = 1 ∨ k = 2 ∧ facetCell c = .triangle := by
    rcases hk with h | ⟨h, rfl⟩
    · exact Or.inl h
    · exact Or.inr ⟨h, rfl⟩
  have hbub : simpBub (c.tdim - 1) = simpBub (facetCell c).tdim := by rw [facetCell_tdim hc]
  constructor
  · rintro v hv hz
    have hv' := hv
    obtain ⟨p, a, b, hp, hb, rfl⟩ := hv
    have key := br_core hc hk hxs hp hb (a := a) ?_ ?_ ?_
    · obtain ⟨h1, h2, h3⟩ := key
      funext j
      show brSum c p a b j = 0
      rw [brSum, h1, h3, Pi.zero_apply, Pi.zero_apply, C_0, zero_mul, add_zero, zero_add]
      exact Finset.sum_eq_zero fun i hi => by rw [h2 i (Nat.lt_succ_iff.1 (Finset.mem_range.1 hi)), zero_mul, C_0, zero_mul]
    · intro i hi f hf
      have h4 : f (comp (entityDomain c (c.tdim - 1, i)) (areaVec c.tdim (entityDomain c (c.tdim - 1, i)).v) (brSum c p a b)) ∈
          (entityFunctionals dofs (c.tdim - 1, i)).map (·.eval (brSum c p a b)) := by
        rw [hval i hi]
        exact List.mem_map.2 ⟨f, hf, rfl⟩
      obtain ⟨d, h5, h6⟩ := List.mem_map.1 h4
      rw [← h6]
      exact hz d (List.mem_filter.1 h5).1
    · intro h e hee
      obtain ⟨d, h4, h5⟩ := he h e hee
      rw [← h5]
      exact hz d h4
    · intro h i hi
      obtain ⟨d, h4, h5⟩ := hd h i hi
      rw [← h5 _ hv']
      exact hz d h4
  · refine normal_conform_of hc.affine4 (fun v hv j => br_degree hc hv j) (fc := facetCell c)
      (T := fun r => ∃ q a, q ∈ P (facetCell c).tdim k ∧ r = q + C a * simpBub (facetCell c).tdim) (fun i _ => hfc i)
      (fun v hv i hi => ?_) (fs := brF (facetCell c) k xs) ?_ fun v _ i hi => ?_
    · obtain ⟨p, a, b, hp, hb, rfl⟩ := hv
      rw [br_count hc] at hi
      obtain ⟨κ, -, h⟩ := br_trace hc (Nat.lt_succ_iff.1 hi)
      refine ⟨_, κ * a i, ?_, by rw [h p a b, hbub]⟩
      rw [← hfc i]
      exact comp_mem (entityDomain c (c.tdim - 1, i)) (d := c.tdim) _ hp
    · rintro _ _ ⟨q, a, hq, rfl⟩ ⟨q', a', hq', rfl⟩ h
      obtain ⟨h1, h2⟩ := brF_zero (facetCell_simplex c) hk' hxs (q := q - q') (a := a - a') (Submodule.sub_mem _ hq hq') fun f hf => by
        rw [show q - q' + C (a - a') * simpBub (facetCell c).tdim = (q + C a * simpBub (facetCell c).tdim) -
          (q' + C a' * simpBub (facetCell c).tdim) by rw [C_sub]; ring, map_sub, h f hf, sub_self]
      rw [sub_eq_zero.1 h1, sub_eq_zero.1 h2]
    · rw [br_count hc] at hi
      exact hval i (Nat.lt_succ_iff.1 hi) v

theorem brDivergence_eq {c : Cell} (hc : Simp c) (i : ℕ) : ∃ d, brDivergence c i = some d ∧ d.entity = (c.tdim, 0) ∧
    d.mapping = some "contravariant" ∧ ∀ (v : Field c.tdim) (k : ℤ), (∀ j, v j ∈ P c.tdim k) → d.eval v = pairing1 c (X i) (divL c.tdim v) := by
  unfold brDivergence
  rw [cell_jacobian hc, Option.map_some]
  refine ⟨_, rfl, rfl, rfl, fun v k hv => ?_⟩
  have hcell : (entityDomain c (c.tdim, 0)).cell = c := by rcases hc with rfl | rfl <;> rfl
  have h1 : divL c.tdim v ∈ P c.tdim (k - 1) := divL_mem hv
  show (1 : ℝ) • pairing1 (entityDomain c (c.tdim, 0)).cell (X i) (pull (entityDomain c (c.tdim, 0)) (divL c.tdim v)) = _
  rw [one_smul, hcell]
  show cellInt c _ = cellInt c _
  congr 1
  funext z
  rw [map_mul, map_mul, eval_pull, eval_congr_P h1 fun l hl => cell_param hc z hl]

/-- What the theorems below say about the functionals: they determine the normal components on the facets, and are all mapped with the
contravariant mapping. -/
def BRFunctionals (c : Cell) (k : ℕ) (dofs : List (Dof ℝ (Field c.tdim))) : Prop :=
  NormalConform c (BRSpace c k) dofs ∧ ∀ d ∈ dofs, d.mapping = some "contravariant"

theorem normalDofs_mapping {c : Cell} (pts : ℕ → List (ℕ → ℝ)) : ∀ d ∈ normalDofs c pts, d.mapping = some "contravariant" := by
  intro d hd
  obtain ⟨i, -, h⟩ := List.mem_flatMap.1 hd
  obtain ⟨pt, -, rfl⟩ := List.mem_map.1 h
  rfl

theorem functionals_append {V : Type} [AddCommGroup V] [Module ℝ V] (a b : List (Dof ℝ V)) (e : ℕ × ℕ) :
    entityFunctionals (a ++ b) e = entityFunctionals a e ++ entityFunctionals b e := List.filter_append ..

theorem functionals_none {V : Type} [AddCommGroup V] [Module ℝ V] {a : List (Dof ℝ V)} {e : ℕ × ℕ} (h : ∀ d ∈ a, d.entity ≠ e) :
    entityFunctionals a e = [] := by
  rw [entityFunctionals, List.filter_eq_nil_iff]
  intro d hd
  simp [h d hd]

/-- **C137** Bernardi–Raugel elements of order 1. -/
theorem br_created1 {c : Cell} (hc : Simp c) :
    Created (bernardiRaugel c 1) (BRSpace c 1) ((c.tdim + 1) ^ 2) (BRFunctionals c 1) := by
  obtain ⟨pl, p1, p2, p3, p4⟩ := poly_vector (d := c.tdim) (by rcases hc with rfl | rfl <;> simp [Cell.tdim]) 1
  obtain ⟨el, l1, l2⟩ := lag_hats (c := c) (Or.inl (Or.inr hc))
  obtain ⟨s, s1, s2⟩ := brFacet_eq hc
  obtain ⟨vs, v1, v2⟩ := normalPoints_all hc fun i => (List.range (entVerts c (c.tdim - 1) i).length).map (entityDomain c (c.tdim - 1, i)).v
  obtain ⟨xs, hx, hxs, hxl⟩ := sub_lagrange (facetCell_simplex c) (classes := lagrangeClasses) rfl "NormalIntegralMoment" 0 (some "contravariant")
  obtain ⟨mo, m1, m2, m3, m4⟩ := facetOnly_values hc xs "contravariant"
  have hb := mapM_some_of (brFacet c (hats c)) (fun i => s i • brBub c i) (List.range (c.tdim + 1)) fun i hi =>
    s2 i (Nat.lt_succ_iff.1 (List.mem_range.1 hi))
  obtain ⟨hi, hsp⟩ := br_functions1 hc s1 p2 p3
  have key := br_finish hc (k := 1) (Or.inl rfl) hxs (dofs := normalDofs c (fun i => (List.range (entVerts c (c.tdim - 1) i).length).map
    (entityDomain c (c.tdim - 1, i)).v) ++ mo) ?_ (fun h => absurd h (by omega)) (fun h => absurd h (by omega))
  · obtain ⟨hu, hcon⟩ := key
    have hlen : (normalDofs c (fun i => (List.range (entVerts c (c.tdim - 1) i).length).map (entityDomain c (c.tdim - 1, i)).v) ++ mo).length =
        (c.tdim + 1) ^ 2 := by
      rw [List.length_append, m2, hxl]
      rcases hc with rfl | rfl <;> rfl
    have hlen' : (pl.map (denoteVec ℝ c.tdim) ++ (List.range (c.tdim + 1)).map fun i => s i • brBub c i).length = (c.tdim + 1) ^ 2 := by
      rw [List.length_append, List.length_map, p4, List.length_map, List.length_range]
      rcases hc with rfl | rfl <;> rfl
    obtain ⟨h1, fs, h2, h3, h4⟩ := ciarlet_basis (hlen.trans hlen'.symm) hi fun v hv => hu v ((hsp v).1 hv)
    refine ⟨_, _, fs, ?_, h2, hlen, h4.trans hlen', fun v => by rw [h3, hsp], hu, hcon, fun d hd => ?_⟩
    · unfold bernardiRaugel
      rw [p1, Option.bind_some, l1, Option.bind_some, l2, Option.bind_some, hb, Option.bind_some, v1, Option.bind_some,
        facetOnly_moments hc (dA := ⟨"NormalIntegralMoment", "Lagrange", 0, some "contravariant", [("variant", "equispaced")]⟩) rfl hx,
        Option.bind_some, m1, Option.bind_some, if_neg (by omega), v2]
      exact h1
    · rcases List.mem_append.1 hd with h | h
      · exact normalDofs_mapping _ d h
      · exact m3 d h
  · intro i hi v
    rw [functionals_append, List.map_append, m4 i hi, normalDofs_entity _ hi (br_points1 hc), brF, if_neg (by omega), List.append_nil,
      List.map_append, List.map_map, List.map_map, List.map_map]
    rfl

/-- **C137** Bernardi–Raugel elements of order 2. -/
theorem br_created2 : Created (bernardiRaugel .tetrahedron 2) (BRSpace .tetrahedron 2) 37 (BRFunctionals .tetrahedron 2) := by
  generalize hc0 : Cell.tetrahedron = c
  have hc : c = .tetrahedron := hc0.symm
  have hS : Simp c := Or.inr hc
  have hd3 : c.tdim = 3 := by rw [hc]; rfl
  obtain ⟨pl, p1, p2, p3, p4⟩ := poly_vector (d := c.tdim) (Or.inr hd3) 2
  obtain ⟨el, l1, l2⟩ := lag_hats (c := c) (Or.inl (Or.inr hS))
  obtain ⟨s, s1, s2⟩ := brFacet_eq hS
  obtain ⟨vs, v1, v2⟩ := normalPoints_all hS fun i => (List.range (entVerts c (c.tdim - 1) i).length).map (entityDomain c (c.tdim - 1, i)).v
  obtain ⟨us, u1, u2⟩ := normalPoints_all hS (facetMidpoints c)
  obtain ⟨xs, hx, hxs, hxl⟩ := sub_lagrange (facetCell_simplex c) (classes := lagrangeClasses) rfl "NormalIntegralMoment" 0 (some "contravariant")
  obtain ⟨mo, m1, m2, m3, m4⟩ := facetOnly_values hS xs "contravariant"
  have hb := mapM_some_of (brFacet c (hats c)) (fun i => s i • brBub c i) (List.range (c.tdim + 1)) fun i hi =>
    s2 i (Nat.lt_succ_iff.1 (List.mem_range.1 hi))
  have hdiv := fun i => brDivergence_eq hS i
  choose dv d1 d2 d3 d4 using hdiv
  have hcells := mapM_some_of (brDivergence c) dv (List.range 3) fun i _ => d1 i
  obtain ⟨hi, hsp⟩ := br_functions2 hc s1 p2 p3
  have hinner : (List.range c.tdim).map (brInner c (hats c)) = (List.range c.tdim).map (brCell c) := by
    subst hc
    exact List.map_congr_left fun i _ => brInner_eq i
  set V := normalDofs c (fun i => (List.range (entVerts c (c.tdim - 1) i).length).map (entityDomain c (c.tdim - 1, i)).v) with hV
  set U := normalDofs c (facetMidpoints c) with hU
  have key := br_finish hS (k := 2) (Or.inr ⟨rfl, hc⟩) hxs (dofs := V ++ mo ++ (brEdges c ++ U ++ (List.range 3).map dv))
    ?_ ?_ ?_
  · obtain ⟨hu, hcon⟩ := key
    have hlen : (V ++ mo ++ (brEdges c ++ U ++ (List.range 3).map dv)).length = 37 := by
      simp only [List.length_append, m2, hxl, List.length_map, List.length_range]
      subst hc
      rfl
    have hlen' : (pl.map (denoteVec ℝ c.tdim) ++ ((List.range (c.tdim + 1)).map fun i => s i • brBub c i) ++
        (List.range c.tdim).map (brCell c)).length = 37 := by
      simp only [List.length_append, List.length_map, p4, List.length_range]
      subst hc
      rfl
    obtain ⟨h1, fs, h2, h3, h4⟩ := ciarlet_basis (hlen.trans hlen'.symm) hi fun v hv => hu v ((hsp v).1 hv)
    refine ⟨_, _, fs, ?_, h2, hlen, h4.trans hlen', fun v => by rw [h3, hsp], hu, hcon, fun d hd => ?_⟩
    · unfold bernardiRaugel brSecond
      rw [p1, Option.bind_some, l1, Option.bind_some, l2, Option.bind_some, hb, Option.bind_some, v1, Option.bind_some,
        facetOnly_moments hS (dA := ⟨"NormalIntegralMoment", "Lagrange", 0, some "contravariant", [("variant", "equispaced")]⟩) rfl hx,
        Option.bind_some, m1, Option.bind_some, if_pos (by omega), if_pos ⟨rfl, hc⟩, u1, Option.bind_some, hcells, Option.map_some,
        Option.bind_some, v2, u2, hinner]
      exact h1
    · simp only [List.mem_append, List.mem_map] at hd
      rcases hd with (h | h) | (h | h) | ⟨i, -, rfl⟩
      · exact normalDofs_mapping _ d h
      · exact m3 d h
      · obtain ⟨e, -, rfl⟩ := List.mem_map.1 h
        rfl
      · exact normalDofs_mapping _ d h
      · exact d3 i
  · intro i hi v
    have e1 : entityFunctionals (brEdges c) (c.tdim - 1, i) = [] := by
      refine functionals_none fun d hd => ?_
      obtain ⟨e, -, rfl⟩ := List.mem_map.1 hd
      show (1, e) ≠ (c.tdim - 1, i)
      rw [hd3]
      simp
    have e2 : entityFunctionals ((List.range 3).map dv) (c.tdim - 1, i) = [] := by
      refine functionals_none fun d hd => ?_
      obtain ⟨e, -, rfl⟩ := List.mem_map.1 hd
      rw [d2, hd3]
      simp
    rw [functionals_append, functionals_append, functionals_append, functionals_append, e1, e2, List.nil_append, List.append_nil,
      List.map_append, List.map_append, m4 i hi, hV, hU, normalDofs_entity _ hi (br_points1 hS), normalDofs_entity _ hi (br_points2 hc),
      brF, if_pos rfl, List.map_append, List.map_append, List.map_map, List.map_map, List.map_map, List.map_map, List.map_map]
    rfl
  · intro _ e he
    refine ⟨_, List.mem_append_right _ (List.mem_append_left _ (List.mem_append_left _ (List.mem_map.2 ⟨e, List.mem_range.2 he, rfl⟩))),
      fun v => contraPoint_eval _ _ _ v⟩
  · intro _ i hi
    exact ⟨dv i, List.mem_append_right _ (List.mem_append_right _ (List.mem_map.2 ⟨i, List.mem_range.2 hi, rfl⟩)), fun v hv =>
      d4 i v _ fun j => br_degree hS hv j⟩

/-- **C137** No element of a higher order can be created. -/
theorem br_none {c : Cell} {k : ℕ} (hk : 1 < k) (h : ¬ (k = 2 ∧ c = .tetrahedron)) : bernardiRaugel c k = none := by
  unfold bernardiRaugel
  simp only [if_pos hk, if_neg h]
  simp

/-- **C137** The normal components of functions assembled from mapped basis functions are continuous. -/
theorem br_assembled {c : Cell} (hc : Simp c) {k : ℕ} (hk : k = 1 ∨ k = 2 ∧ c = .tetrahedron) : NormalAssembled c (bernardiRaugel c k) := by
  have main : ∀ n, Created (bernardiRaugel c k) (BRSpace c k) n (BRFunctionals c k) → NormalAssembled c (bernardiRaugel c k) := by
    intro n h
    refine normal_assembled h (fun _ h => h.1) fun b dofs hb => ?_
    obtain ⟨b', dofs', fs, h1, -, -, -, -, -, -, h2⟩ := h
    rw [hb] at h1
    obtain ⟨-, rfl⟩ := Element.ciarlet.inj (Option.some.inj h1)
    exact h2
  rcases hk with rfl | ⟨rfl, rfl⟩
  · exact main _ (br_created1 hc)
  · exact main _ br_created2

/-- Order 1 on a triangle: nine functions. -/
example : Created (bernardiRaugel .triangle 1) (BRSpace .triangle 1) 9 (BRFunctionals .triangle 1) := br_created1 (Or.inl rfl)

end Verif.Families
