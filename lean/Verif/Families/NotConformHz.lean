import Verif.Families.HuangZhang
import Verif.Families.NotConformAbf
/-!
# Mapped Huang–Zhang elements (C131)
-/

namespace Verif.Families
open Verif.References Verif.Moments Verif.Functionals Verif.Elements Verif.FiniteElement Verif.Polysets Verif.Orthogonal
open MvPolynomial

/-- A parallelogram with the same first edge as the reference and a sheared second axis. -/
noncomputable def leaning (p j : ℕ) : ℝ := refVertex .quadrilateral p j + if j = 0 then refVertex .quadrilateral p 1 else 0

theorem leaning_map : ∃ F, invMapTo (K := ℝ) .quadrilateral 2 leaning = some F := by
  simp [invMapTo, solve2, mat2, psub, leaning, parallelogram, refVertex, refVerts, coords]
  intro j hj
  interval_cases j <;> norm_num

theorem upright_map : ∃ F, invMapTo (K := ℝ) .quadrilateral 2 (refVertex .quadrilateral) = some F := by
  simp [invMapTo, solve2, mat2, psub, parallelogram, refVertex, refVerts, coords]
  intro j hj
  interval_cases j <;> norm_num

theorem leaning_jac : jacMat .quadrilateral leaning = (!![1, 1; 0, 1] : Matrix (Fin 2) (Fin 2) ℝ) := by
  show (fun r k => axis .quadrilateral leaning k.val r.val : Matrix (Fin 2) (Fin 2) ℝ) = _
  ext i j
  fin_cases i <;> fin_cases j <;> norm_num [axis, psub, leaning, axisVertices, refVertex, refVerts, coords]

theorem upright_jac : jacMat .quadrilateral (refVertex .quadrilateral) = (1 : Matrix (Fin 2) (Fin 2) ℝ) := by
  show (fun r k => axis .quadrilateral (refVertex .quadrilateral) k.val r.val : Matrix (Fin 2) (Fin 2) ℝ) = _
  ext i j
  fin_cases i <;> fin_cases j <;> norm_num [axis, psub, axisVertices, refVertex, refVerts, coords]

theorem pushCo_leaning (f : Fin 2 → ℝ) : pushCo (!![1, 1; 0, 1] : Matrix (Fin 2) (Fin 2) ℝ) f 1 = f 1 - f 0 := by
  have hi : (!![1, 1; 0, 1] : Matrix (Fin 2) (Fin 2) ℝ)⁻¹ = !![1, -1; 0, 1] := by
    refine Matrix.inv_eq_right_inv ?_
    ext i j
    fin_cases i <;> fin_cases j <;> simp
  rw [pushCo, hi, Fin.sum_univ_two]
  simp
  ring

theorem pushCo_one (f : Fin 2 → ℝ) : pushCo (1 : Matrix (Fin 2) (Fin 2) ℝ) f 1 = f 1 := by
  rw [pushCo, inv_one, Fin.sum_univ_two]
  simp

/-- The normal components of a function on the two cells. -/
theorem leaning_zero {w : Field 2} {t : ℕ → ℝ}
    (key' : ∑ r : Fin 2, areaVec 2 (physDomain .quadrilateral (refVertex .quadrilateral) (1, 0)).v r.val *
      pushCo (d := 2) (jacMat .quadrilateral (refVertex .quadrilateral)) (fun k : Fin 2 => eval ((entityDomain .quadrilateral (1, 0)).param t) (w k)) r =
      ∑ r : Fin 2, areaVec 2 (physDomain .quadrilateral (refVertex .quadrilateral) (1, 0)).v r.val *
      pushCo (d := 2) (jacMat .quadrilateral leaning) (fun k : Fin 2 => eval ((entityDomain .quadrilateral (1, 0)).param t) (w k)) r) :
    eval ((entityDomain .quadrilateral (1, 0)).param t) (w 0) = 0 := by
  have hp : ∀ j k, (physDomain .quadrilateral (refVertex .quadrilateral) (1, 0)).v j k = refVertex .quadrilateral ([0, 1].getD j 0) k :=
    fun _ _ => rfl
  rw [Fin.sum_univ_two, Fin.sum_univ_two] at key'
  have a0 : areaVec 2 (physDomain .quadrilateral (refVertex .quadrilateral) (1, 0)).v 0 = 0 := by
    norm_num [areaVec, hp, refVertex, refVerts, coords]
  have a1 : areaVec 2 (physDomain .quadrilateral (refVertex .quadrilateral) (1, 0)).v 1 = 1 := by
    norm_num [areaVec, hp, refVertex, refVerts, coords]
  rw [leaning_jac, upright_jac, pushCo_leaning, pushCo_one] at key'
  simp only [Fin.val_zero, Fin.val_one, a0, a1, zero_mul, zero_add, one_mul] at key'
  linarith

/-- The functionals of the element. -/
theorem hz_kinds {k : ℕ} (hk : 2 ≤ k) {b : List (Field 2)} {ds : List (Dof ℝ (Field 2))}
    (h : huangZhang "equispaced" k = some (.ciarlet b ds)) :
    ∃ nor tan inn, ds = nor ++ (tan ++ inn) ∧ QNormalTrace .quadrilateral (RTQ 2 k) nor ∧ (∀ d ∈ nor, d.mapping = some "contravariant") ∧
      (∀ d ∈ tan, d.mapping = some "covariant") ∧ (∀ d ∈ inn, d.mapping = some "identity") ∧
      ∃ d ∈ tan, ∃ x, ∀ v : Field 2, d.eval v = pairing1 .interval (pull (entityDomain .quadrilateral (1, 0)) (v 0)) x := by
  have hc : Box .quadrilateral := Or.inl rfl
  obtain ⟨xs, hx, hxs, hxl⟩ := sub_lagrange (t := .interval) (by simp [Simplex]) (classes := lagrangeClasses) rfl
    "NormalIntegralMoment" ((k : ℤ) - 1) none
  obtain ⟨ts, ht, hts, htl⟩ := sub_lagrange (t := .interval) (by simp [Simplex]) (classes := lagrangeClasses) rfl
    "TangentIntegralMoment" ((k : ℤ) - 2) none
  have hms : makeIntegralMomentDofs lagrangeClasses .quadrilateral
      { facets := some (.single [.cls "NormalIntegralMoment", .cls "Lagrange", .int ((k : ℤ) - 1), .dict [("variant", "equispaced")]]) } =
      some (boxMoments .quadrilateral none none xs []) := by
    rw [facet_moments (A := [.cls "NormalIntegralMoment", .cls "Lagrange", .int ((k : ℤ) - 1), .dict [("variant", "equispaced")]]) rfl hx]
    simp only [boxMoments, List.map_nil, List.append_nil]
    rfl
  have hmt := facet_moments (classes := lagrangeClasses)
    (A := [.cls "TangentIntegralMoment", .cls "Lagrange", .int ((k : ℤ) - 2), .dict [("variant", "equispaced")]]) rfl ht
  obtain ⟨ms, nor, ex, hms', hds, hex, rfl⟩ := momentElementWith_dofs (c := .quadrilateral) h
  obtain rfl := Option.some.inj (hms.symm.trans hms')
  rw [hmt, Option.bind_some] at hex
  obtain ⟨tan, htan, hex⟩ := Option.bind_eq_some_iff.1 hex
  obtain ⟨inn, hinn, rfl⟩ := Option.map_eq_some_iff.1 hex
  refine ⟨nor, tan, inn, rfl, ?_, fun d hd => ?_, fun d hd => ?_, fun d hd => ?_, ?_⟩
  · have := box_trace (S := RTQ 2 k) (k := (2 : ℕ) * (k : ℤ)) hc hds [] (fun v hv => rtq_mem_P (by omega) hv) fun v hv i hi => by
      have hi' : i < 4 := hi
      have h1 : pull (entityDomain .quadrilateral (1, i)) (v ⟨qAxis 2 i, qAxis_lt hi⟩) ∈ P 1 ((k : ℤ) - 1) :=
        pull_mem_normal (m := (k : ℤ)) hi' (by omega) (hv ⟨qAxis 2 i, qAxis_lt hi⟩)
      rw [hxs]
      exact h1
    rwa [List.append_nil] at this
  · obtain ⟨m, hm, he⟩ := forall₂_mem_left (mapM_forall hds) hd
    simp only [boxMoments, List.mem_append, List.mem_flatMap, List.mem_range, List.mem_map] at hm
    rcases hm with ⟨i, hi, x, -, rfl⟩ | ⟨y, hy, -⟩
    · rw [momentDof_mapping he]; rfl
    · cases hy
  · obtain ⟨m, hm, he⟩ := forall₂_mem_left (mapM_forall htan) hd
    simp only [List.mem_flatMap, List.mem_map] at hm
    obtain ⟨i, hi, x, -, rfl⟩ := hm
    rw [momentDof_mapping he]; rfl
  · obtain ⟨f, hf, he⟩ := forall₂_mem_left (mapM_forall hinn) hd
    exact (againstDof_kind he).2
  · have hne : ts ≠ [] := by
      intro h0
      rw [h0, if_neg (by omega)] at htl
      exact absurd htl.symm (Nat.choose_pos (by simp [Cell.tdim])).ne'
    obtain ⟨x, hx⟩ := List.exists_mem_of_ne_nil _ hne
    obtain ⟨d, hd1, he⟩ := forall₂_mem_right (mapM_forall htan) (a := ⟨"TangentIntegralMoment", .scalar x, (1, 0), none⟩)
      (List.mem_flatMap.2 ⟨0, List.mem_range.2 (by omega), List.mem_map.2 ⟨x, hx, rfl⟩⟩)
    obtain ⟨d', hd', h2⟩ := quad_tangent (i := 0) (by omega) none x
    obtain rfl := Option.some.inj (hd'.symm.trans he)
    exact ⟨d', hd1, x, h2⟩

/-- The basis function of a functional. -/
theorem dual_function {V : Type} [AddCommGroup V] [Module ℝ V] {basis fs : List V} {dofs A B D : List (Dof ℝ V)}
    (h : getBasis (.ciarlet basis dofs) = some fs) (hd : dofs = A ++ (B ++ D)) {d0 : Dof ℝ V} (hd0 : d0 ∈ B) :
    ∃ w ∈ fs, d0.eval w = 1 ∧ ∀ d, d ∈ A ∨ d ∈ D → d.eval w = 0 := by
  obtain ⟨hl, hdual⟩ := getBasis_ciarlet_dual _ _ _ h
  obtain ⟨l1, hl1, hg⟩ := List.getElem_of_mem hd0
  have hpos : dofs[A.length + l1]? = some d0 := by
    rw [hd, List.getElem?_append_right (by omega), Nat.add_sub_cancel_left, List.getElem?_append_left hl1, List.getElem?_eq_getElem hl1, hg]
  obtain ⟨w, hw⟩ : ∃ w, fs[A.length + l1]? = some w := by
    have : A.length + l1 < fs.length := by
      rw [hl]
      exact (List.getElem?_eq_some_iff.1 hpos).1
    exact ⟨_, List.getElem?_eq_getElem this⟩
  have hval := hdual _ _ _ _ hw hpos
  rw [if_pos rfl] at hval
  refine ⟨w, List.mem_of_getElem? hw, hval, ?_⟩
  rintro d (h | h)
  · obtain ⟨l, hl, hg⟩ := List.getElem_of_mem h
    rw [hdual (A.length + l1) l w d hw (by rw [hd, List.getElem?_append_left hl, List.getElem?_eq_getElem hl, hg]), if_neg (by omega)]
  · obtain ⟨l, hl, hg⟩ := List.getElem_of_mem h
    rw [hdual (A.length + l1) (A.length + (B.length + l)) w d hw (by
      rw [hd, List.getElem?_append_right (by omega), Nat.add_sub_cancel_left, List.getElem?_append_right (by omega),
        Nat.add_sub_cancel_left, List.getElem?_eq_getElem hl, hg]), if_neg (by omega)]

/-- **C131** is violated by `HuangZhang` at all orders. -/
theorem hz_not_assembled {k : ℕ} (hk : 2 ≤ k) : ¬ NormalAssembled .quadrilateral (huangZhang "equispaced" k) := by
  rintro ⟨basis, dofs, fs, h1, h2, hA⟩
  obtain ⟨nor, tan, inn, hds, htr, hnm, htm, him, d0, hd0, x, hx⟩ := hz_kinds hk h1
  obtain ⟨basis', dofs', fs', h1', h2', h3, h4, h5, -⟩ := hz_created k hk
  obtain ⟨rfl, rfl⟩ : basis = basis' ∧ dofs = dofs' := by
    have := Option.some.inj (h1.symm.trans h1')
    injection this with h3 h4
    exact ⟨h3, h4⟩
  obtain rfl := Option.some.inj (h2.symm.trans h2')
  obtain ⟨w, hw, hval, hother⟩ := dual_function h2 hds hd0
  have hS : RTQ 2 k w := (h5 w).1 (Submodule.subset_span hw)
  obtain ⟨t, ht⟩ : ∃ t, eval t (pull (entityDomain .quadrilateral (1, 0)) (w (0 : Fin 2))) ≠ 0 := by
    by_contra hcon
    push Not at hcon
    have h0 : pull (entityDomain .quadrilateral (1, 0)) (w (0 : Fin 2)) = 0 := MvPolynomial.funext fun t => by rw [hcon t, map_zero]
    have := (hx w).symm.trans hval
    rw [show pull (entityDomain .quadrilateral (1, 0)) (w (0 : Fin 2)) = 0 from h0, pairing1_comm, map_zero] at this
    exact zero_ne_one this
  rw [eval_pull] at ht
  obtain ⟨b', ds', fs', a, g1, g2, -, gex, gval⟩ := assembled_witness (c := .quadrilateral) (by simp [Affine4]) (hz_created k hk)
    (fun v hv => rtq_mem_P (by omega) hv) pushCo_linear (performMapping_co .quadrilateral) hS fun b ds hb d hd => by
      obtain ⟨-, rfl⟩ : basis = b ∧ dofs = ds := by
        have := Option.some.inj (h1.symm.trans hb)
        injection this with h3 h4
        exact ⟨h3, h4⟩
      rw [hds] at hd
      rcases List.mem_append.1 hd with hd | hd
      · exact ⟨Or.inr (Or.inl (hnm d hd)), Or.inl (hother d (Or.inl hd))⟩
      · rcases List.mem_append.1 hd with hd | hd
        · exact ⟨Or.inr (Or.inr (htm d hd)), Or.inr (htm d hd)⟩
        · exact ⟨Or.inl (him d hd), Or.inl (hother d (Or.inr hd))⟩
  obtain ⟨rfl, rfl⟩ : basis = b' ∧ dofs = ds' := by
    have := Option.some.inj (h1.symm.trans g1)
    injection this with h3 h4
    exact ⟨h3, h4⟩
  obtain rfl := Option.some.inj (h2.symm.trans g2)
  obtain ⟨F, hF⟩ := upright_map
  obtain ⟨F', hF'⟩ := leaning_map
  obtain ⟨gs, hgs⟩ := gex _ F hF
  obtain ⟨gs', hgs'⟩ := gex _ F' hF'
  have hp : ∀ j k, (physDomain .quadrilateral (refVertex .quadrilateral) (1, 0)).v j k = refVertex .quadrilateral ([0, 1].getD j 0) k :=
    fun _ _ => rfl
  have hp' : ∀ j k, (physDomain .quadrilateral leaning (1, 0)).v j k = leaning ([0, 1].getD j 0) k := fun _ _ => rfl
  have hVV : ∀ k < 2, refVertex .quadrilateral ([0, 1].getD k 0) = leaning ([0, 1].getD k 0) := by
    intro k hk
    funext j
    interval_cases k <;> simp [leaning, refVertex, refVerts, coords]
  have hy : (physDomain .quadrilateral (refVertex .quadrilateral) (1, 0)).param t = (physDomain .quadrilateral leaning (1, 0)).param t := by
    funext j
    have hc1 : (physDomain .quadrilateral (refVertex .quadrilateral) (1, 0)).cell = .interval := rfl
    have hc2 : (physDomain .quadrilateral leaning (1, 0)).cell = .interval := rfl
    have h0 := congrFun (hVV 0 (by omega)) j
    have h1 := congrFun (hVV 1 (by omega)) j
    simp only [Domain.param, hc1, hc2, axisVertices]
    rw [hp, hp', h0]
    simp only [Cell.tdim, Finset.sum_range_one, List.getD_cons_zero]
    rw [hp, hp', h1]
  have key := hA 0 (by decide) 0 (by decide) a a rfl _ _ gs gs' hgs hgs' hVV t _ rfl
  have k1 := gval _ gs hgs (1, 0) t _ rfl
  have k2 := gval _ gs' hgs' (1, 0) t _ hy
  exact ht (leaning_zero (w := w) (t := t)
    ((Finset.sum_congr rfl fun r _ => congrArg _ (k1 r).symm).trans (key.trans (Finset.sum_congr rfl fun r _ => congrArg _ (k2 r)))))

end Verif.Families
