import Verif.Families.NotConformDiv
import Verif.Families.TrimmedCurl
import Verif.Families.Bdfm
import Verif.Smooth.Chain
/-!
# Elements on quadrilaterals and hexahedra whose mapped basis functions do not fit together (C131)
-/

namespace Verif.Families
open Verif.References Verif.Moments Verif.Functionals Verif.Elements Verif.FiniteElement Verif.Polysets Verif.Orthogonal
open MvPolynomial

/-- The function `x (1 - x) e_0`, which is tangential on all facets. -/
noncomputable def bump (d : ℕ) : Field d := fun j => if j.val = 0 then X 0 - X 0 * X 0 else 0

theorem bump_mem {d : ℕ} (hd : 1 ≤ d) {k : ℤ} (hk : 2 ≤ k) (j : Fin d) : bump d j ∈ P d k := by
  unfold bump
  split
  · exact Submodule.sub_mem _ (P_mono (by omega) (X_mem (by omega)))
      (P_mono (by omega) (X_mul_mem (k := 1) (by omega) (X_mem (by omega))))
  · exact Submodule.zero_mem _

theorem facet_axis_param {c : Cell} (hc : Box c) {i : ℕ} (hi : i < 2 * c.tdim) (z : ℕ → ℝ) :
    (entityDomain c (c.tdim - 1, i)).param z (qAxis c.tdim i) = qVal c.tdim i := by
  obtain ⟨-, h, -⟩ := box_facet hc hi
  rw [← eval_coordPoly, h.aligned.coord_const fun k _ => (skip_ne _ k).symm, eval_C, h.start, if_pos rfl]

theorem box_facet_count {c : Cell} (hc : Box c) : entityCount c (c.tdim - 1) = 2 * c.tdim := by
  rcases hc with rfl | rfl <;> rfl

theorem bump_comp {c : Cell} (hc : Box c) {i : ℕ} (hi : i < entityCount c (c.tdim - 1)) {n : ℕ → ℝ}
    (hn : normal (entityDomain c (c.tdim - 1, i)).cell c.tdim (entityDomain c (c.tdim - 1, i)).v = some n) :
    comp (entityDomain c (c.tdim - 1, i)) n (bump c.tdim) = 0 := by
  rw [box_facet_count hc] at hi
  obtain ⟨-, -, n', s, -, -, h2, h3⟩ := box_facet hc hi
  obtain rfl := Option.some.inj (hn.symm.trans h2)
  refine MvPolynomial.funext fun z => ?_
  refine (eval_comp (entityDomain c (c.tdim - 1, i)) n (bump c.tdim) z).trans ?_
  rw [map_zero]
  show ∑ j : Fin c.tdim, n j.val * eval ((entityDomain c (c.tdim - 1, i)).param z) (bump c.tdim j) = 0
  refine Finset.sum_eq_zero fun j _ => ?_
  rw [h3 j.val j.2]
  by_cases h : j.val = qAxis c.tdim i
  · by_cases h0 : j.val = 0
    · have hp := facet_axis_param hc hi z
      rw [← h, h0] at hp
      rw [bump, if_pos h0, map_sub, map_mul, eval_X, hp]
      have hq : qVal c.tdim i = 0 ∨ qVal c.tdim i = 1 := by unfold qVal; split <;> simp
      rcases hq with hq | hq <;> rw [hq] <;> ring
    · rw [bump, if_neg h0, map_zero, mul_zero]
  · rw [if_neg h, mul_zero, zero_mul]

/-- A sheared parallelogram or parallelepiped: the first axis is `e_0 + e_{d-1}`. -/
noncomputable def sheared (c : Cell) (p j : ℕ) : ℝ := refVertex c p j + if j = c.tdim - 1 then refVertex c p 0 else 0

theorem sheared_map {c : Cell} (hc : Box c) : ∃ F, invMapTo c c.tdim (sheared c) = some F := by
  rcases hc with rfl | rfl
  · simp [invMapTo, solve2, mat2, psub, sheared, parallelogram, refVertex, refVerts, coords, Cell.tdim]
    intro j hj
    interval_cases j <;> norm_num
  · simp [invMapTo, solve3, mat3, psub, sheared, parallelogram, refVertex, refVerts, coords, Cell.tdim, Matrix.det_fin_three,
      Cell.faces]
    refine ⟨?_, ?_, ?_, ?_, ?_, ?_⟩ <;> intro j hj <;> interval_cases j <;> norm_num

/-- The functionals of the element: normal moments on the facets, and functionals of the cell with the mapping `m`. -/
def CellMapping (c : Cell) (e : Option (Element ℝ (Field c.tdim))) (w : Field c.tdim) (m : String) : Prop :=
  ∀ b dofs, e = some (.ciarlet b dofs) → ∀ d ∈ dofs,
    d.entity.1 = c.tdim - 1 ∧ d.mapping = some "contravariant" ∧ d.eval w = 0 ∨ d.entity.1 = c.tdim ∧ d.mapping = some m

theorem bump_jump_id {c : Cell} (hc : Box c) : ∑ r : Fin c.tdim, areaVec c.tdim (physDomain c (sheared c) (c.tdim - 1, 0)).v r.val *
    pushId (jacMat c (sheared c)) (fun k => eval ((entityDomain c (c.tdim - 1, 0)).param fun _ => 1 / 2) (bump c.tdim k)) r ≠ 0 := by
  rcases hc with rfl | rfl
  · have hc : (entityDomain .quadrilateral (1, 0)).cell = .interval := rfl
    have hv : ∀ j k, (entityDomain .quadrilateral (1, 0)).v j k = refVertex .quadrilateral ((entVerts .quadrilateral 1 0).getD j 0) k :=
      fun _ _ => rfl
    have hp : ∀ j k, (physDomain .quadrilateral (sheared .quadrilateral) (1, 0)).v j k =
      sheared .quadrilateral ((entVerts .quadrilateral 1 0).getD j 0) k := fun _ _ => rfl
    have e0 : entVerts .quadrilateral 1 0 = [0, 1] := rfl
    show ∑ r : Fin 2, areaVec 2 (physDomain .quadrilateral (sheared .quadrilateral) (1, 0)).v r.val *
      eval ((entityDomain .quadrilateral (1, 0)).param fun _ => 1 / 2) (bump 2 r) ≠ 0
    rw [Fin.sum_univ_two]
    norm_num [bump, Domain.param, hc, hv, hp, e0, axisVertices, refVertex, refVerts, coords, areaVec, sheared, Cell.tdim]
  · have hc : (entityDomain .hexahedron (2, 0)).cell = .quadrilateral := rfl
    have hv : ∀ j k, (entityDomain .hexahedron (2, 0)).v j k = refVertex .hexahedron ((entVerts .hexahedron 2 0).getD j 0) k :=
      fun _ _ => rfl
    have hp : ∀ j k, (physDomain .hexahedron (sheared .hexahedron) (2, 0)).v j k =
      sheared .hexahedron ((entVerts .hexahedron 2 0).getD j 0) k := fun _ _ => rfl
    have e0 : entVerts .hexahedron 2 0 = [0, 1, 2, 3] := rfl
    show ∑ r : Fin 3, areaVec 3 (physDomain .hexahedron (sheared .hexahedron) (2, 0)).v r.val *
      eval ((entityDomain .hexahedron (2, 0)).param fun _ => 1 / 2) (bump 3 r) ≠ 0
    rw [Fin.sum_univ_three]
    norm_num [bump, Domain.param, hc, hv, hp, e0, axisVertices, refVertex, refVerts, coords, areaVec, sheared, Cell.tdim, pcross,
      Finset.sum_range_succ]

theorem sheared_jac2 : jacMat .quadrilateral (sheared .quadrilateral) = (!![1, 0; 1, 1] : Matrix (Fin 2) (Fin 2) ℝ) := by
  show (fun r k => axis .quadrilateral (sheared .quadrilateral) k.val r.val : Matrix (Fin 2) (Fin 2) ℝ) = _
  ext i j
  fin_cases i <;> fin_cases j <;> norm_num [axis, psub, sheared, axisVertices, refVertex, refVerts, coords, Cell.tdim]

theorem sheared_jac3 : jacMat .hexahedron (sheared .hexahedron) = (!![1, 0, 0; 0, 1, 0; 1, 0, 1] : Matrix (Fin 3) (Fin 3) ℝ) := by
  show (fun r k => axis .hexahedron (sheared .hexahedron) k.val r.val : Matrix (Fin 3) (Fin 3) ℝ) = _
  ext i j
  fin_cases i <;> fin_cases j <;> norm_num [axis, psub, sheared, axisVertices, refVertex, refVerts, coords, Cell.tdim]

theorem pushCo_shear2 {f : Fin 2 → ℝ} (h : f 1 = 0) (r : Fin 2) : pushCo !![1, 0; 1, 1] f r = f r := by
  have hi : (!![1, 0; 1, 1] : Matrix (Fin 2) (Fin 2) ℝ)⁻¹ = !![1, 0; -1, 1] := by
    refine Matrix.inv_eq_right_inv ?_
    ext i j
    fin_cases i <;> fin_cases j <;> simp
  rw [pushCo, hi, Fin.sum_univ_two, h]
  fin_cases r <;> simp [h]

theorem pushCo_shear3 {f : Fin 3 → ℝ} (h : f 1 = 0) (h' : f 2 = 0) (r : Fin 3) : pushCo !![1, 0, 0; 0, 1, 0; 1, 0, 1] f r = f r := by
  have hi : (!![1, 0, 0; 0, 1, 0; 1, 0, 1] : Matrix (Fin 3) (Fin 3) ℝ)⁻¹ = !![1, 0, 0; 0, 1, 0; -1, 0, 1] := by
    refine Matrix.inv_eq_right_inv ?_
    ext i j
    fin_cases i <;> fin_cases j <;> simp [Matrix.mul_apply, Fin.sum_univ_three]
  rw [pushCo, hi, Fin.sum_univ_three, h, h']
  fin_cases r <;> simp [h, h']

theorem bump_jump_co {c : Cell} (hc : Box c) : ∑ r : Fin c.tdim, areaVec c.tdim (physDomain c (sheared c) (c.tdim - 1, 0)).v r.val *
    pushCo (jacMat c (sheared c)) (fun k => eval ((entityDomain c (c.tdim - 1, 0)).param fun _ => 1 / 2) (bump c.tdim k)) r ≠ 0 := by
  have := bump_jump_id hc
  rcases hc with rfl | rfl
  · convert this using 5
    rename_i r _
    show pushCo (d := 2) (jacMat .quadrilateral (sheared .quadrilateral)) _ r = pushId (d := 2) _ _ r
    rw [sheared_jac2]
    exact pushCo_shear2 (map_zero _) r
  · convert this using 5
    rename_i r _
    show pushCo (d := 3) (jacMat .hexahedron (sheared .hexahedron)) _ r = pushId (d := 3) _ _ r
    rw [sheared_jac3]
    exact pushCo_shear3 (map_zero _) (map_zero _) r

/-- Elements with the function `x (1 - x) e_0` and functionals of the cell with the mapping `identity` or `covariant`. -/
theorem box_broken {c : Cell} (hc : Box c) {e : Option (Element ℝ (Field c.tdim))} {S : Field c.tdim → Prop} {n : ℕ}
    {T : List (Dof ℝ (Field c.tdim)) → Prop} (h : Created e S n T) {k : ℤ} (hk : ∀ v, S v → ∀ j, v j ∈ P c.tdim k) {m : String}
    (hm : m = "identity" ∨ m = "covariant") (hw : S (bump c.tdim)) (hd : CellMapping c e (bump c.tdim) m) : NormalBroken c e := by
  have hA : Affine4 c := by rcases hc with rfl | rfl <;> simp [Affine4]
  have h1 : 1 ≤ c.tdim := by rcases hc with rfl | rfl <;> decide
  obtain ⟨F, hF⟩ := sheared_map hc
  have hi : 0 < entityCount c (c.tdim - 1) := by rcases hc with rfl | rfl <;> decide
  have ht : Closed (entType c (c.tdim - 1) 0) fun _ => 1 / 2 := by
    rcases hc with rfl | rfl
    · exact (show 0 ≤ (1 / 2 : ℝ) ∧ (1 / 2 : ℝ) ≤ 1 by norm_num)
    · exact (show 0 ≤ (1 / 2 : ℝ) ∧ (1 / 2 : ℝ) ≤ 1 ∧ 0 ≤ (1 / 2 : ℝ) ∧ (1 / 2 : ℝ) ≤ 1 by norm_num)
  have hd' : ∀ b dofs, e = some (.ciarlet b dofs) → ∀ d ∈ dofs, Known d.mapping ∧ (d.eval (bump c.tdim) = 0 ∨ d.mapping = some m) ∧
      (d.entity = (c.tdim - 1, 0) → d.eval (bump c.tdim) = 0) := by
    intro b dofs he d hd'
    rcases hd b dofs he d hd' with ⟨h1, h2, h3⟩ | ⟨h1, h2⟩
    · exact ⟨Or.inr (Or.inl h2), Or.inl h3, fun _ => h3⟩
    · refine ⟨?_, Or.inr h2, fun h => by rw [h] at h1; simp only at h1; omega⟩
      rcases hm with rfl | rfl
      · exact Or.inl h2
      · exact Or.inr (Or.inr h2)
  rcases hm with rfl | rfl
  · exact normal_broken hA h hk pushId_linear (performMapping_id c) hw hi hd' hF ht (bump_jump_id hc)
  · exact normal_broken hA h hk pushCo_linear (performMapping_co c) hw hi hd' hF ht (bump_jump_co hc)

/-- **C131** is violated by `BrezziDouglasFortinMarini` on quadrilaterals and hexahedra at every order at least 2. -/
theorem bdfmBox_broken {c : Cell} (hc : Box c) {k : ℕ} (hk : 2 ≤ k) : NormalBroken c (bdfmBox "equispaced" c k) := by
  have h1 : 1 ≤ c.tdim := by rcases hc with rfl | rfl <;> decide
  refine box_broken hc (bdfmBox_created hc (by omega)) (fun v hv => hv.mem) (Or.inl rfl) (fun j => ?_) fun b dofs he => ?_
  · by_cases h : j.val = 0
    · refine ⟨X 0, P_mono (by omega) (X_mem (by omega)), -X 0, Submodule.neg_mem _ (P_mono (by omega) (X_mem (by omega))), ?_⟩
      rw [bump, if_pos h, h]
      ring
    · refine ⟨0, Submodule.zero_mem _, 0, Submodule.zero_mem _, ?_⟩
      rw [bump, if_neg h]
      simp
  · obtain ⟨ms, hms, hds⟩ := momentElement_dofs he
    exact hdiv_dofs rfl rfl rfl rfl hms hds h1 fun i hi n hn => bump_comp hc hi hn

theorem enriched_degree {d k : ℕ} {κ : Type} {keys : List κ} {f : κ → VecPoly} {l : κ → List (ℤ × ℕ × Mono)} (D : Dual d k keys f l) {v : Field d}
    (hv : Enriched d k {w | w ∈ (keys.map f).map (denoteVec ℝ d)} v) (j : Fin d) : v j ∈ P d ((k : ℤ) + 1) := by
  obtain ⟨p, hp, w, hw, rfl⟩ := hv
  exact Submodule.add_mem _ (P_mono (by omega) (hp j)) (XP_le j.2 (D.XP hw j))

/-- **C131** is violated by `BrezziDouglasDuranFortin` at every order at least 2. -/
theorem bddf_broken {k : ℕ} (hk : 2 ≤ k) : NormalBroken .hexahedron (bddf "equispaced" k) := by
  have hc : Box .hexahedron := Or.inr rfl
  refine box_broken (c := .hexahedron) hc (bddf_created (by omega)) (k := (k : ℤ) + 1)
    (fun v hv => enriched_degree (bddf_dual (show 1 ≤ k by omega)) ((congrFun (enriched_congr (bddf_ext k)) v).symm ▸ hv)) (Or.inl rfl) ?_
    fun b dofs he => ?_
  · exact ⟨bump 3, fun j => bump_mem (by omega) (by exact_mod_cast hk) j, 0, Submodule.zero_mem _, (add_zero _).symm⟩
  · obtain ⟨ms, hms, hds⟩ := momentElement_dofs he
    exact hdiv_dofs (c := .hexahedron) rfl rfl rfl rfl hms hds (by decide) fun i hi n hn => bump_comp hc hi hn

/-! ### Trimmed serendipity elements -/

theorem momentElementWith_dofs {classes : String → ElementClass Fun} {c : Cell} {poly : Option (List VecPoly)} {args : Args}
    {extra : Option (List (Dof ℝ (Field c.tdim)))} {b : List (Field c.tdim)} {ds : List (Dof ℝ (Field c.tdim))}
    (h : momentElementWith classes c poly args extra = some (.ciarlet b ds)) :
    ∃ ms dofs ex, makeIntegralMomentDofs classes c args = some ms ∧ ms.mapM (momentDof c) = some dofs ∧ extra = some ex ∧
      ds = dofs ++ ex := by
  obtain ⟨po, -, h⟩ := Option.bind_eq_some_iff.1 h
  obtain ⟨ms, hms, h⟩ := Option.bind_eq_some_iff.1 h
  obtain ⟨dofs, hds, h⟩ := Option.bind_eq_some_iff.1 h
  obtain ⟨ex, hex, h⟩ := Option.bind_eq_some_iff.1 h
  refine ⟨ms, dofs, ex, hms, hds, hex, ?_⟩
  unfold ciarlet at h
  split at h
  · injection Option.some.inj h with h1 h2
    exact h2.symm
  · cases h

theorem againstDof_kind {c : Cell} {e : ℕ × ℕ} {m : String} {f : List (MvPolynomial ℕ ℝ)} {d : Dof ℝ (Field c.tdim)}
    (h : againstDof c e m f = some d) : d.entity = e ∧ d.mapping = some m := by
  unfold againstDof at h
  simp only at h
  split at h
  · obtain ⟨J0, -, h⟩ := Option.bind_eq_some_iff.1 h
    obtain ⟨J, -, rfl⟩ := Option.map_eq_some_iff.1 h
    exact ⟨rfl, rfl⟩
  · cases h

theorem tsdiv_degree {d n : ℕ} {κ : Type} {keys : List κ} {f : κ → VecPoly} {l : κ → List (ℤ × ℕ × Mono)} (D : Dual d n keys f l) {v : Field d}
    (hv : TSdiv d (n + 1) {w | w ∈ (keys.map f).map (denoteVec ℝ d)} v) (j : Fin d) : v j ∈ P d ((n : ℤ) + 1) := by
  obtain ⟨p, hp, w, hw, rfl⟩ := hv
  exact Submodule.add_mem _ (P_mono (by push_cast; omega) (hp.mem j)) (XP_le j.2 (D.XP hw j))

theorem tsdiv_mapping {c : Cell} (hc : Box c) {k : ℕ} : CellMapping c (tsdiv "equispaced" c k) (bump c.tdim) "covariant" := by
  have h1 : 1 ≤ c.tdim := by rcases hc with rfl | rfl <;> decide
  intro b ds he d hd
  obtain ⟨ms, dofs, ex, hms, hds, hex, rfl⟩ := momentElementWith_dofs he
  rcases List.mem_append.1 hd with hd | hd
  · exact hdiv_dofs rfl rfl rfl rfl hms hds h1 (fun i hi n hn => bump_comp hc hi hn) d hd
  · split at hex
    · obtain ⟨m, -, h⟩ := forall₂_mem_left (mapM_forall hex) hd
      obtain ⟨h2, h3⟩ := againstDof_kind h
      exact Or.inr ⟨by rw [h2], h3⟩
    · obtain rfl := Option.some.inj hex
      cases hd

theorem bump_ts {d k : ℕ} (hd : 1 ≤ d) (hk : 3 ≤ k) (A : Set (Field d)) : TSdiv d k A (bump d) :=
  ⟨bump d, ⟨0, Submodule.zero_mem _, fun i => by rw [mul_zero, sub_zero]; exact bump_mem hd (by omega) i⟩, 0,
    Submodule.zero_mem _, (add_zero _).symm⟩

theorem third : (C (1 / 3) : MvPolynomial ℕ ℝ) * 3 = 1 := by
  rw [← map_ofNat C 3, ← C_mul]
  norm_num

theorem fourth : (C (1 / 4) : MvPolynomial ℕ ℝ) * 4 = 1 := by
  rw [← map_ofNat C 4, ← C_mul]
  norm_num

theorem bump_ts2 : TSdiv 2 2 (tsdivExt2 2) (bump 2) := by
  refine ⟨fun j => (if j.val = 0 then X 0 else 0) + X j.val * (C (1 / 3) * (-2 * X 0)), ⟨C (1 / 3) * (-2 * X 0), ?_, fun i => ?_⟩,
    (-(1 / 3) : ℝ) • ![pderiv 1 (X 0 ^ 2 * X 1), -pderiv 0 (X 0 ^ 2 * X 1)],
    Submodule.smul_mem _ _ (Submodule.subset_span (Or.inr rfl)), ?_⟩
  · rw [show (C (1 / 3) * (-2 * X 0) : MvPolynomial ℕ ℝ) = C (1 / 3) * (C (-2) * X 0) by
      rw [map_neg, map_ofNat C 2]]
    exact C_mul_mem _ (C_mul_mem _ (by exact X_mem (by omega)))
  · rw [add_sub_cancel_right]
    split
    · exact X_mem (by omega)
    · exact Submodule.zero_mem _
  · funext i
    have h := third
    fin_cases i
    · simp [bump, smul_eq_C_mul, Derivation.leibniz, pderiv_X, Pi.single_apply] at h ⊢
      linear_combination X 0 * X 0 * h
    · simp [bump, smul_eq_C_mul, Derivation.leibniz, Derivation.leibniz_pow, pderiv_X, Pi.single_apply]
      ring

theorem bump_ts3 : TSdiv 3 2 (sdivExt3 1) (bump 3) := by
  have m1 : curlF ![X 0 ^ 1 * X 2 ^ (1 - 1) * (X 1 * X 2), 0, -(X 0 ^ 1 * X 2 ^ (1 - 1) * (X 0 * X 1))] ∈ Submodule.span ℝ (sdivExt3 1) :=
    Submodule.subset_span ⟨1, le_rfl, Or.inr (Or.inl rfl)⟩
  have m2 : curlF ![X 0 ^ 1 * X 1 ^ (1 - 1) * (X 1 * X 2), -(X 0 ^ 1 * X 1 ^ (1 - 1) * (X 0 * X 2)), 0] ∈ Submodule.span ℝ (sdivExt3 1) :=
    Submodule.subset_span ⟨1, le_rfl, Or.inr (Or.inr rfl)⟩
  refine ⟨fun j => (if j.val = 0 then X 0 else 0) + X j.val * (C (1 / 4) * (-2 * X 0)), ⟨C (1 / 4) * (-2 * X 0), ?_, fun i => ?_⟩,
    _, Submodule.smul_mem _ (-(1 / 4) : ℝ) (Submodule.sub_mem _ m2 m1), ?_⟩
  · rw [show (C (1 / 4) * (-2 * X 0) : MvPolynomial ℕ ℝ) = C (1 / 4) * (C (-2) * X 0) by
      rw [map_neg, map_ofNat C 2]]
    exact C_mul_mem _ (C_mul_mem _ (by exact X_mem (by omega)))
  · rw [add_sub_cancel_right]
    split
    · exact X_mem (by omega)
    · exact Submodule.zero_mem _
  · funext i
    have h := fourth
    fin_cases i
    · simp [bump, smul_eq_C_mul, curlF, Derivation.leibniz, pderiv_X, Pi.single_apply] at h ⊢
      linear_combination X 0 * X 0 * h
    · simp [bump, smul_eq_C_mul, curlF, Derivation.leibniz, pderiv_X, Pi.single_apply]
      ring
    · simp [bump, smul_eq_C_mul, curlF, Derivation.leibniz, pderiv_X, Pi.single_apply]
      ring

/-- **C131** is violated by `TrimmedSerendipityHdiv` at every order at least 2. -/
theorem tsdiv_broken {c : Cell} (hc : Box c) {k : ℕ} (hk : 2 ≤ k) : NormalBroken c (tsdiv "equispaced" c k) := by
  obtain ⟨n, rfl⟩ := Nat.exists_eq_add_of_le' (show 1 ≤ k by omega)
  rcases id hc with rfl | rfl
  · exact box_broken (c := .quadrilateral) hc (tsdiv_created_quadrilateral (by omega)) (k := (n : ℤ) + 1)
      (fun v hv => tsdiv_degree (ts2_dual n) ((congrFun (TSdiv_congr (ts2_ext n)) v).symm ▸ hv)) (Or.inr rfl)
      (by
        by_cases h : n = 1
        · subst h; exact bump_ts2
        · exact bump_ts (d := 2) (by omega) (by omega) _) (tsdiv_mapping hc)
  · exact box_broken (c := .hexahedron) hc (tsdiv_created_hexahedron (by omega)) (k := (n : ℤ) + 1)
      (fun v hv => tsdiv_degree (ts3_dual n) ((congrFun (TSdiv_congr (ts3_ext n)) v).symm ▸ hv)) (Or.inr rfl)
      (by
        by_cases h : n = 1
        · subst h; exact bump_ts3
        · exact bump_ts (d := 3) (by omega) (by omega) _) (tsdiv_mapping hc)

/-- **C131** and so their mapped basis functions cannot be assembled to functions in H(div). -/
theorem box_not_assembled {c : Cell} (hc : Box c) :
    (∀ k, 2 ≤ k → ¬ NormalAssembled c (bdfmBox "equispaced" c k)) ∧ (∀ k, 2 ≤ k → ¬ NormalAssembled c (tsdiv "equispaced" c k)) ∧
    ∀ k, 2 ≤ k → ¬ NormalAssembled .hexahedron (bddf "equispaced" k) :=
  ⟨fun _ hk => (bdfmBox_broken hc hk).not_assembled, fun _ hk => (tsdiv_broken hc hk).not_assembled,
    fun _ hk => (bddf_broken hk).not_assembled⟩

/-! ### The trimmed serendipity element in H(curl) on quadrilaterals -/

/-- The tangential moments of a function without tangential component. -/
theorem tangent_moment_zero {c : Cell} {m : MomentDof Fun} {d : Dof ℝ (Field c.tdim)} (h : momentDof c m = some d)
    (hm : m.moment = "TangentIntegralMoment") {v : Field c.tdim}
    (hz : ∀ n, tangent (entityDomain c m.entity).cell c.tdim (entityDomain c m.entity).v = some n →
      comp (entityDomain c m.entity) n v = 0) : d.eval v = 0 := by
  obtain ⟨w, hw, h2⟩ := Option.bind_eq_some_iff.1 h
  obtain ⟨J, -, rfl⟩ := Option.map_eq_some_iff.1 h2
  rw [hm] at hw
  cases hs : m.sub with
  | scalar p =>
    rw [hs, momentFn_tangent] at hw
    obtain ⟨n, hn, rfl⟩ := Option.map_eq_some_iff.1 hw
    exact momentMap_comp_zero (entityDomain c m.entity) J p (hz n hn)
  | vector r f =>
    rw [hs, momentFn, if_neg (by simp)] at hw
    cases hw

/-- The function `x (1 - x) e_1`, which is normal on all edges. -/
noncomputable def lift : Field 2 := fun j => if j.val = 1 then X 0 - X 0 * X 0 else 0

theorem lift_comp {i : ℕ} (hi : i < 4) {n : ℕ → ℝ}
    (hn : tangent (entityDomain .quadrilateral (1, i)).cell 2 (entityDomain .quadrilateral (1, i)).v = some n) :
    comp (entityDomain .quadrilateral (1, i)) n lift = 0 := by
  have hc : ∀ i, (entityDomain .quadrilateral (1, i)).cell = .interval := fun _ => rfl
  have hv : ∀ i j k, (entityDomain .quadrilateral (1, i)).v j k = refVertex .quadrilateral ((entVerts .quadrilateral 1 i).getD j 0) k :=
    fun _ _ _ => rfl
  have e0 : entVerts .quadrilateral 1 0 = [0, 1] := rfl
  have e1 : entVerts .quadrilateral 1 1 = [0, 2] := rfl
  have e2 : entVerts .quadrilateral 1 2 = [1, 3] := rfl
  have e3 : entVerts .quadrilateral 1 3 = [2, 3] := rfl
  rw [tangent, hc, if_pos (show Cell.interval.tdim = 1 from rfl)] at hn
  obtain rfl := Option.some.inj hn
  refine MvPolynomial.funext fun z => ?_
  refine (eval_comp (entityDomain .quadrilateral (1, i)) _ lift z).trans ?_
  rw [map_zero]
  show ∑ j : Fin 2, _ * eval ((entityDomain .quadrilateral (1, i)).param z) (lift j) = 0
  rw [Fin.sum_univ_two]
  interval_cases i <;>
    simp [lift, vnormalise, axis, psub, Domain.param, hc, hv, e0, e1, e2, e3, axisVertices, refVertex, refVerts, coords, Cell.tdim]

theorem tscurl_dofs {k : ℕ} : ∀ b dofs, tscurl "equispaced" .quadrilateral k = some (.ciarlet b dofs) → ∀ d ∈ dofs,
    d.entity.1 = 1 ∧ d.mapping = some "covariant" ∧ d.eval lift = 0 ∨ d.entity.1 = 2 ∧ d.mapping = some "contravariant" := by
  intro b ds he d hd
  obtain ⟨ms, dofs, ex, hms, hds, hex, rfl⟩ := momentElementWith_dofs he
  rcases List.mem_append.1 hd with hd | hd
  · obtain ⟨m, hm, he⟩ := forall₂_mem_left (mapM_forall hds) hd
    obtain ⟨s, hs, input, hi, name, dd, hdd, h1, h2, h3, h4, -⟩ := mem_moments hms hm
    simp only [slots, List.mem_cons, List.not_mem_nil, or_false] at hs
    rcases hs with rfl | rfl | rfl | rfl | rfl | rfl | rfl | rfl <;> cases hi
    · obtain rfl := Option.some.inj hdd
      have hent : m.entity = (1, m.entity.2) := Prod.ext (by simpa using h3) rfl
      refine Or.inl ⟨by rw [momentDof_entity he, hent], ?_, tangent_moment_zero he h1 ?_⟩
      · rw [momentDof_mapping he, h2, h1]
        rfl
      · rw [hent] at h4 ⊢
        exact fun n hn => lift_comp h4 hn
    · obtain rfl := Option.some.inj hdd
      refine Or.inr ⟨by rw [momentDof_entity he]; have h3' : (m.entity.1 : ℤ) = 2 := h3; omega, ?_⟩
      rw [momentDof_mapping he, h2, h1]
      rfl
    · have hent : m.entity.1 = 3 := by have h3' : (m.entity.1 : ℤ) = 3 := h3; omega
      rw [hent] at h4
      exact absurd h4 (Nat.not_lt_zero _)
  · unfold tscurlExtra at hex
    split at hex
    · obtain ⟨m, -, h⟩ := forall₂_mem_left (mapM_forall hex) hd
      obtain ⟨h2, h3⟩ := againstDof_kind h
      exact Or.inr ⟨by rw [h2], h3⟩
    · obtain rfl := Option.some.inj hex
      cases hd

theorem tscurl_degree {k : ℕ} (hk : 1 ≤ k) {v : Field 2} (hv : TScurl2 k v) (j : Fin 2) : v j ∈ P 2 (k : ℤ) := by
  obtain ⟨p, hp, w, hw, rfl⟩ := hv
  refine Submodule.add_mem _ (hp.1 j) ?_
  have hpow : ∀ (i : Fin 2) (a : ℕ), (X i.val ^ a : MvPolynomial ℕ ℝ) ∈ P 2 (a : ℤ) := fun i a => by
    induction a with
    | zero => rw [pow_zero]; exact one_mem (by simp)
    | succ a ih => rw [pow_succ']; push_cast; exact X_mul_mem i.2 ih
  have h1 : ∀ i l : Fin 2, (X l.val * X i.val ^ k : MvPolynomial ℕ ℝ) ∈ P 2 ((k : ℤ) + 1) := fun i l => X_mul_mem l.2 (hpow i k)
  have h2 : ∀ p ∈ P 2 ((k : ℤ) + 1), pderiv j.val p ∈ P 2 (k : ℤ) := fun p hp => by
    have := Verif.Smooth.pderiv_mem hp j.val
    rwa [add_sub_cancel_right] at this
  induction hw using Submodule.span_induction with
  | mem v hv =>
    rcases hv with rfl | rfl
    · exact h2 _ (h1 1 0)
    · have := h2 _ (h1 0 1)
      rwa [mul_comm] at this
  | zero => exact Submodule.zero_mem _
  | add x y _ _ hx hy => exact Submodule.add_mem _ hx hy
  | smul a x _ hx => exact Submodule.smul_mem _ _ hx

theorem lift_ts2 : TScurl2 2 lift := by
  have hX : ∀ i : Fin 2, (X i.val : MvPolynomial ℕ ℝ) ∈ P 2 1 := fun i => X_mem i.2
  have hXX : ∀ i j : Fin 2, (X i.val * X j.val : MvPolynomial ℕ ℝ) ∈ P 2 2 := fun i j => X_mul_mem (k := 1) i.2 (hX j)
  refine ⟨![C (2 / 3) * (X 0 * X 1), X 0 - C (2 / 3) * (X 0 * X 0)], ⟨fun j => ?_, ?_⟩,
    _, Submodule.smul_mem _ (-(1 / 3) : ℝ) (Submodule.subset_span (Or.inr rfl)), ?_⟩
  · fin_cases j
    · exact C_mul_mem _ (hXX 0 1)
    · exact Submodule.sub_mem _ (P_mono (by norm_num) (hX 0)) (C_mul_mem _ (hXX 0 0))
  · rw [Fin.sum_univ_two]
    refine (congrArg (· ∈ P 2 ((2 : ℕ) : ℤ)) ?_).mpr (hXX 1 0)
    simp
    ring
  · have h := third
    have h' : (C (2 / 3) : MvPolynomial ℕ ℝ) = 2 * C (1 / 3) := by
      rw [← map_ofNat C 2, ← C_mul]
      norm_num
    funext i
    fin_cases i
    · simp [lift, smul_eq_C_mul, gradient, Derivation.leibniz, Derivation.leibniz_pow, pderiv_X, Pi.single_apply]
      simp at h'
      linear_combination X 0 * X 1 * (-h')
    · simp [lift, smul_eq_C_mul, gradient, Derivation.leibniz, Derivation.leibniz_pow, pderiv_X, Pi.single_apply]
      simp at h h'
      linear_combination X 0 * X 0 * (h' + h)

/-- **C131** is violated by `TrimmedSerendipityHcurl` on quadrilaterals at every order at least 2. -/
theorem tscurl_broken {k : ℕ} (hk : 2 ≤ k) : EdgeBroken .quadrilateral (tscurl "equispaced" .quadrilateral k) := by
  obtain ⟨F, hF⟩ := sheared_map (c := .quadrilateral) (Or.inl rfl)
  have hw : TScurl2 k lift := by
    by_cases h2 : k = 2
    · subst h2
      exact lift_ts2
    · have hmem : ∀ j, lift j ∈ P 2 ((k : ℤ) - 1) := fun j => by
        unfold lift
        split
        · exact Submodule.sub_mem _ (P_mono (by omega) (X_mem (by omega)))
            (P_mono (by omega) (X_mul_mem (k := 1) (by omega) (X_mem (by omega))))
        · exact Submodule.zero_mem _
      refine ⟨lift, ⟨fun j => P_mono (by omega) (hmem j), Submodule.sum_mem _ fun i _ => ?_⟩, 0, Submodule.zero_mem _, (add_zero _).symm⟩
      have := X_mul_mem i.2 (hmem i)
      rwa [sub_add_cancel] at this
  refine edge_broken (c := .quadrilateral) (Or.inr (Or.inr (Or.inl rfl))) (tscurl_created_quadrilateral (by omega)) (k := (k : ℤ))
    (fun v hv => tscurl_degree (by omega) hv) pushContra_linear (performMapping_contra .quadrilateral) hw (i := 0) (by decide)
    (fun b dofs he d hd => ?_) hF (t := fun _ => 1 / 2) (show 0 ≤ (1 / 2 : ℝ) ∧ (1 / 2 : ℝ) ≤ 1 by norm_num) ?_
  · rcases tscurl_dofs b dofs he d hd with ⟨h1, h2, h3⟩ | ⟨h1, h2⟩
    · exact ⟨Or.inr (Or.inr h2), Or.inl h3, fun _ => h3⟩
    · exact ⟨Or.inr (Or.inl h2), Or.inr h2, fun h => by rw [h] at h1; simp at h1⟩
  · have hc : (entityDomain .quadrilateral (1, 0)).cell = .interval := rfl
    have hv : ∀ j k, (entityDomain .quadrilateral (1, 0)).v j k = refVertex .quadrilateral ((entVerts .quadrilateral 1 0).getD j 0) k :=
      fun _ _ => rfl
    have hp : ∀ j k, (physDomain .quadrilateral (sheared .quadrilateral) (1, 0)).v j k =
      sheared .quadrilateral ((entVerts .quadrilateral 1 0).getD j 0) k := fun _ _ => rfl
    have e0 : entVerts .quadrilateral 1 0 = [0, 1] := rfl
    show ∑ r : Fin 2, ((physDomain .quadrilateral (sheared .quadrilateral) (1, 0)).v 1 r.val -
      (physDomain .quadrilateral (sheared .quadrilateral) (1, 0)).v 0 r.val) *
      pushContra (d := 2) (jacMat .quadrilateral (sheared .quadrilateral))
        (fun k => eval ((entityDomain .quadrilateral (1, 0)).param fun _ => 1 / 2) (lift k)) r ≠ 0
    rw [sheared_jac2, Fin.sum_univ_two]
    norm_num [pushContra, Fin.sum_univ_two, lift, Domain.param, hc, hv, hp, e0, axisVertices, refVertex, refVerts, coords, sheared,
      Cell.tdim, Matrix.det_fin_two]

/-- **C131** and so its mapped basis functions cannot be assembled to functions in H(curl). -/
theorem tscurl_not_assembled {k : ℕ} (hk : 2 ≤ k) : ¬ EdgeAssembled .quadrilateral (tscurl "equispaced" .quadrilateral k) :=
  (tscurl_broken hk).not_assembled

end Verif.Families
