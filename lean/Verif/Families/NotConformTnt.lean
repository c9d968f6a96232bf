import Verif.Families.NotConformBox
import Verif.Families.TntCurl
import Verif.Degrees.Basic
/-!
# Mapped basis functions of the tiniest tensor product elements in H(div) and H(curl) do not fit together (C131)
-/

namespace Verif.Families
open Verif.References Verif.Moments Verif.Functionals Verif.Elements Verif.FiniteElement Verif.Polysets Verif.Orthogonal
open MvPolynomial

theorem tntdiv_parts {k : ℕ} {b : List (Field 2)} {ds : List (Dof ℝ (Field Cell.quadrilateral.tdim))}
    (h : tntdiv "equispaced" k = some (.ciarlet b ds)) :
    ∃ ms dofs gs ws, makeIntegralMomentDofs (qClasses 0) .quadrilateral
        { facets := some (.single [.cls "NormalIntegralMoment", .cls "Q", .int (k : ℤ), .dict [("variant", "equispaced")]]) } = some ms ∧
      ms.mapM (momentDof .quadrilateral) = some dofs ∧
      (tntExps k).mapM (fun m => againstDof .quadrilateral (2, 0) "covariant" (gradList 2 m)) = some gs ∧
      (tntInds k).mapM (fun q => againstDof .quadrilateral (2, 0) "covariant" (tntWhirl q.1 q.2)) = some ws ∧ ds = dofs ++ (gs ++ ws) := by
  obtain ⟨ms, hms, h⟩ := Option.bind_eq_some_iff.1 h
  obtain ⟨dofs, hds, h⟩ := Option.bind_eq_some_iff.1 h
  obtain ⟨gs, hgs, h⟩ := Option.bind_eq_some_iff.1 h
  obtain ⟨ws, hws, h⟩ := Option.bind_eq_some_iff.1 h
  refine ⟨ms, dofs, gs, ws, hms, hds, hgs, hws, ?_⟩
  unfold ciarlet at h
  split at h
  · injection Option.some.inj h with h1 h2
    exact h2.symm
  · cases h

theorem tntcurl_parts {k : ℕ} {b : List (Field 2)} {ds : List (Dof ℝ (Field Cell.quadrilateral.tdim))}
    (h : tntcurl "equispaced" k = some (.ciarlet b ds)) :
    ∃ ms dofs gs ws, makeIntegralMomentDofs (qClasses 0) .quadrilateral
        { edges := some (.single [.cls "TangentIntegralMoment", .cls "Q", .int (k : ℤ), .dict [("variant", "equispaced")]]) } = some ms ∧
      ms.mapM (momentDof .quadrilateral) = some dofs ∧
      (tntExps k).mapM (fun m => againstDof .quadrilateral (2, 0) "contravariant" (turnedGrad m)) = some gs ∧
      (tntInds k).mapM (fun q => againstDof .quadrilateral (2, 0) "contravariant" (tntCurlWhirl q.1 q.2)) = some ws ∧ ds = dofs ++ (gs ++ ws) := by
  obtain ⟨ms, hms, h⟩ := Option.bind_eq_some_iff.1 h
  obtain ⟨dofs, hds, h⟩ := Option.bind_eq_some_iff.1 h
  obtain ⟨gs, hgs, h⟩ := Option.bind_eq_some_iff.1 h
  obtain ⟨ws, hws, h⟩ := Option.bind_eq_some_iff.1 h
  refine ⟨ms, dofs, gs, ws, hms, hds, hgs, hws, ?_⟩
  unfold ciarlet at h
  split at h
  · injection Option.some.inj h with h1 h2
    exact h2.symm
  · cases h

theorem tntdiv_mapping (k : ℕ) : CellMapping .quadrilateral (tntdiv "equispaced" k) (bump 2) "covariant" := by
  intro b ds he d hd
  obtain ⟨ms, dofs, gs, ws, hms, hds, hgs, hws, rfl⟩ := tntdiv_parts he
  rcases List.mem_append.1 hd with hd | hd
  · obtain ⟨m, hm, he⟩ := forall₂_mem_left (mapM_forall hds) hd
    obtain ⟨s, hs, input, hi, name, dd, hdd, h1, h2, h3, h4, -⟩ := mem_moments hms hm
    simp only [slots, List.mem_cons, List.not_mem_nil, or_false] at hs
    rcases hs with rfl | rfl | rfl | rfl | rfl | rfl | rfl | rfl <;> cases hi
    obtain rfl := Option.some.inj hdd
    have hent : m.entity = (1, m.entity.2) := Prod.ext (by
      have h3' : (m.entity.1 : ℤ) = 2 - 1 := h3
      show m.entity.1 = 1
      omega) rfl
    refine Or.inl ⟨by rw [momentDof_entity he, hent]; rfl, ?_, normal_moment_zero he h1 ?_⟩
    · rw [momentDof_mapping he, h2, h1]
      rfl
    · rw [hent] at h4 ⊢
      exact fun n hn => bump_comp (c := .quadrilateral) (Or.inl rfl) h4 hn
  · rcases List.mem_append.1 hd with hd | hd
    · obtain ⟨m, -, h⟩ := forall₂_mem_left (mapM_forall hgs) hd
      obtain ⟨h2, h3⟩ := againstDof_kind h
      exact Or.inr ⟨by rw [h2]; rfl, h3⟩
    · obtain ⟨m, -, h⟩ := forall₂_mem_left (mapM_forall hws) hd
      obtain ⟨h2, h3⟩ := againstDof_kind h
      exact Or.inr ⟨by rw [h2]; rfl, h3⟩

theorem tntcurl_dofs {k : ℕ} : ∀ b dofs, tntcurl "equispaced" k = some (.ciarlet b dofs) → ∀ d ∈ dofs,
    d.entity.1 = 1 ∧ d.mapping = some "covariant" ∧ d.eval lift = 0 ∨ d.entity.1 = 2 ∧ d.mapping = some "contravariant" := by
  intro b ds he d hd
  obtain ⟨ms, dofs, gs, ws, hms, hds, hgs, hws, rfl⟩ := tntcurl_parts he
  rcases List.mem_append.1 hd with hd | hd
  · obtain ⟨m, hm, he⟩ := forall₂_mem_left (mapM_forall hds) hd
    obtain ⟨s, hs, input, hi, name, dd, hdd, h1, h2, h3, h4, -⟩ := mem_moments hms hm
    simp only [slots, List.mem_cons, List.not_mem_nil, or_false] at hs
    rcases hs with rfl | rfl | rfl | rfl | rfl | rfl | rfl | rfl <;> cases hi
    obtain rfl := Option.some.inj hdd
    have hent : m.entity = (1, m.entity.2) := Prod.ext (by simpa using h3) rfl
    refine Or.inl ⟨by rw [momentDof_entity he, hent], ?_, tangent_moment_zero he h1 ?_⟩
    · rw [momentDof_mapping he, h2, h1]
      rfl
    · rw [hent] at h4 ⊢
      exact fun n hn => lift_comp h4 hn
  · rcases List.mem_append.1 hd with hd | hd
    · obtain ⟨m, -, h⟩ := forall₂_mem_left (mapM_forall hgs) hd
      obtain ⟨h2, h3⟩ := againstDof_kind h
      exact Or.inr ⟨by rw [h2], h3⟩
    · obtain ⟨m, -, h⟩ := forall₂_mem_left (mapM_forall hws) hd
      obtain ⟨h2, h3⟩ := againstDof_kind h
      exact Or.inr ⟨by rw [h2], h3⟩

theorem X_QP {k : ℕ} (hk : 1 ≤ k) {i : ℕ} (hi : i < 2) : (X i : MvPolynomial ℕ ℝ) ∈ QP 2 (k : ℤ) :=
  Degrees.P_le_QP _ _ (P_mono (by omega) (X_mem hi))

theorem XX_QP {k : ℕ} (hk : 2 ≤ k) {i : ℕ} (hi : i < 2) : (X i * X i : MvPolynomial ℕ ℝ) ∈ QP 2 (k : ℤ) :=
  Degrees.P_le_QP _ _ (P_mono (by omega) (X_mul_mem (k := 1) hi (X_mem hi)))

theorem bump_TntDiv {k : ℕ} (hk : 1 ≤ k) : bump 2 ∈ TntDiv k := by
  by_cases h : k = 1
  · subst h
    refine mem_TntDiv.2 ⟨![X 0, 0], fun i => ?_, -1, 0, 0, ?_, ?_⟩
    · fin_cases i
      · exact X_QP le_rfl (by omega)
      · exact Submodule.zero_mem _
    · simp [bump]; ring
    · simp [bump]
  · refine QP_TntDiv fun i => ?_
    unfold bump
    split
    · exact Submodule.sub_mem _ (X_QP hk (by omega)) (XX_QP (by omega) (by omega))
    · exact Submodule.zero_mem _

theorem lift_TntCurl {k : ℕ} (hk : 1 ≤ k) : lift ∈ TntCurl k := by
  rw [mem_TntCurl, show rot lift = -bump 2 by
    funext i
    fin_cases i
    · show -lift 1 = -bump 2 0
      simp [lift, bump]
    · show lift 0 = -bump 2 1
      simp [lift, bump]]
  exact Submodule.neg_mem _ (bump_TntDiv hk)

/-- **C131** is violated by `TNTdiv` on quadrilaterals at every order. -/
theorem tntdiv_broken {k : ℕ} (hk : 1 ≤ k) : NormalBroken .quadrilateral (tntdiv "equispaced" k) :=
  box_broken (c := .quadrilateral) (Or.inl rfl) (tntdiv_created hk) (k := 2 * (k : ℤ) + 1) (fun _ hv => TntDiv_P hv) (Or.inr rfl)
    (bump_TntDiv hk) (tntdiv_mapping k)

theorem lift_jump : ∑ r : Fin 2, ((physDomain .quadrilateral (sheared .quadrilateral) (1, 0)).v 1 r.val -
    (physDomain .quadrilateral (sheared .quadrilateral) (1, 0)).v 0 r.val) *
    pushContra (d := 2) (jacMat .quadrilateral (sheared .quadrilateral))
      (fun k => eval ((entityDomain .quadrilateral (1, 0)).param fun _ => 1 / 2) (lift k)) r ≠ 0 := by
  have hc : (entityDomain .quadrilateral (1, 0)).cell = .interval := rfl
  have hv : ∀ j k, (entityDomain .quadrilateral (1, 0)).v j k = refVertex .quadrilateral ((entVerts .quadrilateral 1 0).getD j 0) k :=
    fun _ _ => rfl
  have hp : ∀ j k, (physDomain .quadrilateral (sheared .quadrilateral) (1, 0)).v j k =
    sheared .quadrilateral ((entVerts .quadrilateral 1 0).getD j 0) k := fun _ _ => rfl
  have e0 : entVerts .quadrilateral 1 0 = [0, 1] := rfl
  rw [sheared_jac2, Fin.sum_univ_two]
  norm_num [pushContra, Fin.sum_univ_two, lift, Domain.param, hc, hv, hp, e0, axisVertices, refVertex, refVerts, coords, sheared,
    Cell.tdim, Matrix.det_fin_two]

/-- **C131** is violated by `TNTcurl` on quadrilaterals at every order. -/
theorem tntcurl_broken {k : ℕ} (hk : 1 ≤ k) : EdgeBroken .quadrilateral (tntcurl "equispaced" k) := by
  obtain ⟨F, hF⟩ := sheared_map (c := .quadrilateral) (Or.inl rfl)
  refine edge_broken (c := .quadrilateral) (Or.inr (Or.inr (Or.inl rfl))) (tntcurl_created hk) (k := 2 * (k : ℤ) + 1)
    (fun v hv => TntCurl_P hv) pushContra_linear (performMapping_contra .quadrilateral) (lift_TntCurl hk) (i := 0) (by decide)
    (fun b dofs he d hd => ?_) hF (t := fun _ => 1 / 2) (show 0 ≤ (1 / 2 : ℝ) ∧ (1 / 2 : ℝ) ≤ 1 by norm_num) lift_jump
  rcases tntcurl_dofs b dofs he d hd with ⟨h1, h2, h3⟩ | ⟨h1, h2⟩
  · exact ⟨Or.inr (Or.inr h2), Or.inl h3, fun _ => h3⟩
  · exact ⟨Or.inr (Or.inl h2), Or.inr h2, fun h => by rw [h] at h1; simp at h1⟩

/-- **C131** and so their mapped basis functions cannot be assembled to functions in H(div) and in H(curl). -/
theorem tnt_not_assembled {k : ℕ} (hk : 1 ≤ k) :
    ¬ NormalAssembled .quadrilateral (tntdiv "equispaced" k) ∧ ¬ EdgeAssembled .quadrilateral (tntcurl "equispaced" k) :=
  ⟨(tntdiv_broken hk).not_assembled, (tntcurl_broken hk).not_assembled⟩

end Verif.Families
