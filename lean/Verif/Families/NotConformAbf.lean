import Verif.Families.Abf
import Verif.Families.NotConformBox
/-!
# Mapped Arnold–Boffi–Falk elements (C131)
-/

namespace Verif.Families
open Verif.References Verif.Moments Verif.Functionals Verif.Elements Verif.FiniteElement Verif.Polysets Verif.Orthogonal
open MvPolynomial

/-- The functionals of the moments: normal moments on the facets, and moments of the cell with the mapping `identity`. -/
theorem box_kinds {c : Cell} {xs : List (MvPolynomial ℕ ℝ)} {ys : List (Field c.tdim)} {dofs : List (Dof ℝ (Field c.tdim))}
    (hdofs : (boxMoments c none none xs ys).mapM (momentDof c) = some dofs) {w : Field c.tdim}
    (hz : ∀ i < 2 * c.tdim, ∀ n, normal (entityDomain c (c.tdim - 1, i)).cell c.tdim
      (entityDomain c (c.tdim - 1, i)).v = some n → comp (entityDomain c (c.tdim - 1, i)) n w = 0) :
    ∀ d ∈ dofs, d.entity.1 = c.tdim - 1 ∧ d.mapping = some "contravariant" ∧ d.eval w = 0 ∨
      d.entity.1 = c.tdim ∧ d.mapping = some "identity" := by
  intro d hd
  obtain ⟨m, hm, he⟩ := forall₂_mem_left (mapM_forall hdofs) hd
  simp only [boxMoments, List.mem_append, List.mem_flatMap, List.mem_range, List.mem_map] at hm
  rcases hm with ⟨i, hi, x, -, rfl⟩ | ⟨y, -, rfl⟩
  · refine Or.inl ⟨by rw [momentDof_entity he], by rw [momentDof_mapping he]; rfl, normal_moment_zero he rfl (hz i hi)⟩
  · exact Or.inr ⟨by rw [momentDof_entity he], by rw [momentDof_mapping he]; rfl⟩

/-- The curl of `x (1 - x) y (1 - y)`: it is tangential on all edges and has no divergence. -/
noncomputable def whirl : Field 2 :=
  ![(X 0 - X 0 * X 0) * (1 - C 2 * X 1), -((1 - C 2 * X 0) * (X 1 - X 1 * X 1))]

theorem whirl_div : divergence ℝ whirl = 0 := by
  simp [divergence, whirl, Fin.sum_univ_two, Derivation.leibniz, pderiv_X, Pi.single_apply]
  rw [show (C 2 : MvPolynomial ℕ ℝ) = 2 from map_ofNat C 2]
  ring

theorem X_B {F : ℕ → ℤ} {i : ℕ} (h0 : ∀ j, 0 ≤ F j) (h : 1 ≤ F i) : (X i : MvPolynomial ℕ ℝ) ∈ B F := by
  refine mem_B.2 fun t ht j => ?_
  rw [support_X, Finset.mem_singleton] at ht
  rw [ht, Finsupp.single_apply]
  split_ifs with hj
  · subst hj; exact_mod_cast h
  · exact_mod_cast h0 j

theorem mul_B {F G : ℕ → ℤ} {p q : MvPolynomial ℕ ℝ} (hp : p ∈ B F) (hq : q ∈ B G) : p * q ∈ B fun i => F i + G i := by
  classical
  refine mem_B.2 fun t ht j => ?_
  obtain ⟨a, ha, b, hb, rfl⟩ := Finset.mem_add.1 (support_mul p q ht)
  have h1 := mem_B.1 hp a ha j
  have h2 := mem_B.1 hq b hb j
  rw [Finsupp.add_apply]
  push_cast
  omega

theorem C_B {F : ℕ → ℤ} (h0 : ∀ j, 0 ≤ F j) (a : ℝ) : C a ∈ B F := by
  classical
  refine mem_B.2 fun t ht j => ?_
  rw [mem_support_iff, coeff_C] at ht
  have : t = 0 := by
    by_contra hc
    exact ht (if_neg fun h => hc h.symm)
  rw [this]
  exact h0 j

/-- Degrees in one variable. -/
def lone (i : ℕ) (a : ℤ) (j : ℕ) : ℤ := if j = i then a else 0

theorem bub_B (i : ℕ) : (X i - X i * X i : MvPolynomial ℕ ℝ) ∈ B (lone i 2) := by
  have h1 : (X i : MvPolynomial ℕ ℝ) ∈ B (lone i 1) := X_B (fun j => by unfold lone; split_ifs <;> omega) (by rw [lone, if_pos rfl])
  refine Submodule.sub_mem _ (B_mono (fun j => ?_) h1) (B_mono (fun j => ?_) (mul_B h1 h1))
  · unfold lone; split_ifs <;> omega
  · unfold lone; split_ifs <;> omega

theorem lin_B (i : ℕ) : (1 - C 2 * X i : MvPolynomial ℕ ℝ) ∈ B (lone i 1) := by
  have h0 : ∀ j, 0 ≤ lone i 1 j := fun j => by unfold lone; split_ifs <;> omega
  have h1 : (X i : MvPolynomial ℕ ℝ) ∈ B (lone i 1) := X_B h0 (by rw [lone, if_pos rfl])
  refine Submodule.sub_mem _ ?_ ?_
  · rw [← C_1]
    exact C_B h0 1
  · rw [← smul_eq_C_mul]
    exact Submodule.smul_mem _ _ h1

theorem whirl_mem {k : ℕ} (hk : 1 ≤ k) : ABF k whirl := by
  intro i
  fin_cases i
  · refine B_mono (fun j => ?_) (mul_B (bub_B 0) (lin_B 1))
    simp only [lone, degs]
    split_ifs <;> simp at * <;> omega
  · refine Submodule.neg_mem _ (B_mono (fun j => ?_) (mul_B (lin_B 0) (bub_B 1)))
    simp only [lone, degs]
    split_ifs <;> simp at * <;> omega

theorem whirl_comp {i : ℕ} (hi : i < 4) {n : ℕ → ℝ}
    (hn : normal (entityDomain .quadrilateral (1, i)).cell 2 (entityDomain .quadrilateral (1, i)).v = some n) :
    comp (entityDomain .quadrilateral (1, i)) n whirl = 0 := by
  have hc : Box .quadrilateral := Or.inl rfl
  obtain ⟨-, -, n', s, -, -, h2, h3⟩ := box_facet hc (i := i) hi
  obtain rfl := Option.some.inj (hn.symm.trans h2)
  have hp : ∀ z, (entityDomain .quadrilateral (1, i)).param z (qAxis 2 i) = qVal 2 i := facet_axis_param hc (i := i) hi
  have h3' : ∀ j < 2, n j = s * if j = qAxis 2 i then 1 else 0 := h3
  refine MvPolynomial.funext fun z => ?_
  refine (eval_comp (entityDomain .quadrilateral (1, i)) n whirl z).trans ?_
  rw [map_zero]
  show ∑ j : Fin 2, n j.val * eval ((entityDomain .quadrilateral (1, i)).param z) (whirl j) = 0
  have hq : qVal 2 i = 0 ∨ qVal 2 i = 1 := by unfold qVal; split <;> simp
  have ha : qAxis 2 i < 2 := qAxis_lt hi
  have hp' := hp z
  rw [Fin.sum_univ_two]
  show n 0 * _ + n 1 * _ = _
  rw [h3' 0 (by omega), h3' 1 (by omega)]
  generalize (entityDomain .quadrilateral (1, i)).param z = y at hp' ⊢
  interval_cases h : qAxis 2 i
  · rcases hq with hq | hq <;> rw [hq] at hp' <;> simp [whirl, hp']
  · rcases hq with hq | hq <;> rw [hq] at hp' <;> simp [whirl, hp']

theorem whirl_jump : ∑ r : Fin 2, areaVec 2 (physDomain .quadrilateral (sheared .quadrilateral) (1, 0)).v r.val *
    pushId (jacMat .quadrilateral (sheared .quadrilateral)) (fun k => eval ((entityDomain .quadrilateral (1, 0)).param fun _ => 1 / 2) (whirl k)) r ≠ 0 := by
  have hc : (entityDomain .quadrilateral (1, 0)).cell = .interval := rfl
  have hv : ∀ j k, (entityDomain .quadrilateral (1, 0)).v j k = refVertex .quadrilateral ((entVerts .quadrilateral 1 0).getD j 0) k :=
    fun _ _ => rfl
  have hp : ∀ j k, (physDomain .quadrilateral (sheared .quadrilateral) (1, 0)).v j k =
    sheared .quadrilateral ((entVerts .quadrilateral 1 0).getD j 0) k := fun _ _ => rfl
  have e0 : entVerts .quadrilateral 1 0 = [0, 1] := rfl
  show ∑ r : Fin 2, areaVec 2 (physDomain .quadrilateral (sheared .quadrilateral) (1, 0)).v r.val *
    eval ((entityDomain .quadrilateral (1, 0)).param fun _ => 1 / 2) (whirl r) ≠ 0
  rw [Fin.sum_univ_two]
  norm_num [whirl, Domain.param, hc, hv, hp, e0, axisVertices, refVertex, refVerts, coords, areaVec, sheared, Cell.tdim]

/-- The functionals of the element, applied to the function `whirl`. -/
theorem abf_kinds {k : ℕ} {b : List (Field 2)} {ds : List (Dof ℝ (Field 2))}
    (h : abf "equispaced" k = some (.ciarlet b ds)) :
    ∀ d ∈ ds, d.mapping = some "contravariant" ∧ d.eval whirl = 0 ∨ d.entity.1 = 2 ∧ d.mapping = some "identity" := by
  have hc : Box .quadrilateral := Or.inl rfl
  obtain ⟨xs, hx, -⟩ := sub_lagrange (t := .interval) (by simp [Simplex]) (classes := abfClasses (k + 1)) rfl
    "NormalIntegralMoment" (k : ℤ) none
  obtain ⟨ys, hy, -⟩ := sub_nedelec k
  have hms := quad_moments (classes := abfClasses (k + 1))
    (A := [.cls "NormalIntegralMoment", .cls "Lagrange", .int (k : ℤ), .dict [("variant", "equispaced")]])
    (B := [.cls "IntegralMoment", .cls "Nedelec", .int (k : ℤ), .dict [("variant", "equispaced")]]) rfl rfl hx hy rfl rfl
  obtain ⟨ms, dofs, ex, hms', hds, hex, rfl⟩ := momentElementWith_dofs (c := .quadrilateral) h
  obtain rfl := Option.some.inj (hms.symm.trans hms')
  intro d hd
  rcases List.mem_append.1 hd with hd | hd
  · rcases box_kinds (c := .quadrilateral) hds (w := whirl) (fun i hi n hn => whirl_comp hi hn) d hd with h1 | h1
    · exact Or.inl h1.2
    · exact Or.inr h1
  · obtain ⟨m, -, he⟩ := forall₂_mem_left (mapM_forall hex) hd
    obtain ⟨d', hd', -, h2⟩ := divAgainst_cell hc (denoteMono ℝ m) "contravariant"
    obtain rfl := Option.some.inj (hd'.symm.trans he)
    refine Or.inl ⟨?_, (h2 whirl _ (ABF.mem (whirl_mem le_rfl))).trans ?_⟩
    · obtain ⟨J, -, rfl⟩ := Option.map_eq_some_iff.1 he
      rfl
    · show pairing1 .quadrilateral (divergence ℝ whirl) _ = 0
      rw [whirl_div]
      rw [pairing1_comm, map_zero]

/-- **C131** is violated by `ArnoldBoffiFalk` at every order at least 1. -/
theorem abf_broken {k : ℕ} (hk : 1 ≤ k) : NormalBroken .quadrilateral (abf "equispaced" k) := by
  have hc : Box .quadrilateral := Or.inl rfl
  obtain ⟨F, hF⟩ := sheared_map hc
  refine normal_broken (c := .quadrilateral) (by simp [Affine4]) (abf_created k) (fun v hv => ABF.mem hv) pushId_linear
    (performMapping_id .quadrilateral) (whirl_mem hk) (i := 0) (by decide) (fun b dofs he d hd => ?_) hF (t := fun _ => 1 / 2)
    (show 0 ≤ (1 / 2 : ℝ) ∧ (1 / 2 : ℝ) ≤ 1 by norm_num) whirl_jump
  rcases abf_kinds he d hd with ⟨h1, h2⟩ | ⟨h1, h2⟩
  · exact ⟨Or.inr (Or.inl h1), Or.inl h2, fun _ => h2⟩
  · refine ⟨Or.inl h2, Or.inr h2, fun h => ?_⟩
    rw [h] at h1
    exact absurd h1 (by decide)

theorem abf_not_assembled {k : ℕ} (hk : 1 ≤ k) : ¬ NormalAssembled .quadrilateral (abf "equispaced" k) := (abf_broken hk).not_assembled

end Verif.Families
