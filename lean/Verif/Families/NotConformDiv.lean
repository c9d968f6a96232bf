import Verif.Families.NotConform
import Verif.Families.TrimmedDiv
/-!
# Elements in H(div) whose interior functions are not mapped by the contravariant Piola map (C97, C131)
-/

namespace Verif.Families
open Verif.References Verif.Moments Verif.Functionals Verif.Elements Verif.FiniteElement Verif.Polysets Verif.Orthogonal
open MvPolynomial

theorem momentMap_comp_zero (D : Domain) (J : ℝ) {n : ℕ → ℝ} (p : MvPolynomial ℕ ℝ) {v : Field D.g} (h : comp D n v = 0) :
    momentMap D J (fun i => C (n i.val) * p) v = 0 := by
  have e : ∑ i, Verif.Families.pull D (v i) * (C (n i.val) * p) = 0 := by
    rw [comp] at h
    calc _ = (∑ i, C (n i.val) * Verif.Families.pull D (v i)) * p := by
          rw [Finset.sum_mul]; exact Finset.sum_congr rfl fun i _ => by ring
      _ = 0 := by rw [h, zero_mul]
  rw [momentMap_eq, e]
  have := cellInt_const_mul (c := D.cell) (k := 0) (f := fun _ => (0 : ℝ))
  simp only [zero_mul] at this
  simp [this]

/-- The normal moments of a function without normal component. -/
theorem normal_moment_zero {c : Cell} {m : MomentDof Fun} {d : Dof ℝ (Field c.tdim)} (h : momentDof c m = some d)
    (hm : m.moment = "NormalIntegralMoment") {v : Field c.tdim}
    (hz : ∀ n, normal (entityDomain c m.entity).cell c.tdim (entityDomain c m.entity).v = some n →
      comp (entityDomain c m.entity) n v = 0) : d.eval v = 0 := by
  obtain ⟨w, hw, h2⟩ := Option.bind_eq_some_iff.1 h
  obtain ⟨J, -, rfl⟩ := Option.map_eq_some_iff.1 h2
  rw [hm] at hw
  cases hs : m.sub with
  | scalar p =>
    rw [hs, momentFn_normal] at hw
    obtain ⟨n, hn, rfl⟩ := Option.map_eq_some_iff.1 hw
    exact momentMap_comp_zero (entityDomain c m.entity) J p (hz n hn)
  | vector r f =>
    rw [hs, momentFn, if_neg (by simp)] at hw
    cases hw

/-- The functionals of an element with normal moments on the facets and moments in the cell. -/
theorem hdiv_dofs {classes : String → ElementClass Fun} {c : Cell} {A B : List Item} {dA dB : Data}
    (hA : parse A = some dA) (hB : parse B = some dB) (hAm : dA.moment = "NormalIntegralMoment") (hAs : dA.mapping = none)
    {ms : List (MomentDof Fun)} {dofs : List (Dof ℝ (Field c.tdim))}
    (hms : makeIntegralMomentDofs classes c { facets := some (.single A), cells := some (.single B) } = some ms)
    (hds : ms.mapM (momentDof c) = some dofs) (hc : 1 ≤ c.tdim) {w : Field c.tdim}
    (hz : ∀ i < entityCount c (c.tdim - 1), ∀ n, normal (entityDomain c (c.tdim - 1, i)).cell c.tdim
      (entityDomain c (c.tdim - 1, i)).v = some n → comp (entityDomain c (c.tdim - 1, i)) n w = 0) :
    ∀ d ∈ dofs, d.entity.1 = c.tdim - 1 ∧ d.mapping = some "contravariant" ∧ d.eval w = 0 ∨
      d.entity.1 = c.tdim ∧ d.mapping = some (Data.mapName dB) := by
  intro d hd
  obtain ⟨m, hm, he⟩ := forall₂_mem_left (mapM_forall hds) hd
  obtain ⟨s, hs, input, hi, name, dd, hdd, h1, h2, h3, h4, -⟩ := mem_moments hms hm
  simp only [slots, List.mem_cons, List.not_mem_nil, or_false] at hs
  rcases hs with rfl | rfl | rfl | rfl | rfl | rfl | rfl | rfl <;> cases hi
  · obtain rfl : dA = dd := Option.some.inj (hA.symm.trans hdd)
    have hent : m.entity = (c.tdim - 1, m.entity.2) := Prod.ext (by simp at h3; omega) rfl
    refine Or.inl ⟨by rw [momentDof_entity he, hent], ?_, normal_moment_zero he (h1.trans hAm) ?_⟩
    · rw [momentDof_mapping he, h2, hAs, h1, hAm]
      rfl
    · rw [hent] at h4 ⊢
      exact hz _ h4
  · obtain rfl : dB = dd := Option.some.inj (hB.symm.trans hdd)
    refine Or.inr ⟨by rw [momentDof_entity he]; simpa using h3, ?_⟩
    rw [momentDof_mapping he, h2, h1]
    rfl

/-- Interior functions that do not stay tangential to the facets. -/
theorem hdiv_broken {classes : String → ElementClass Fun} {c : Cell} (hc : Affine4 c) {poly : Option (List VecPoly)} {A B : List Item}
    {dA dB : Data} (hA : parse A = some dA) (hB : parse B = some dB) (hAm : dA.moment = "NormalIntegralMoment")
    (hAs : dA.mapping = none) {S : Field c.tdim → Prop} {n : ℕ} {T : List (Dof ℝ (Field c.tdim)) → Prop}
    (h : Created (momentElement classes c poly { facets := some (.single A), cells := some (.single B) }) S n T) {k : ℤ}
    (hk : ∀ v, S v → ∀ j, v j ∈ P c.tdim k) (hm : Data.mapName dB = "identity") {w : Field c.tdim} (hw : S w)
    (hz : ∀ i < entityCount c (c.tdim - 1), ∀ n, normal (entityDomain c (c.tdim - 1, i)).cell c.tdim
      (entityDomain c (c.tdim - 1, i)).v = some n → comp (entityDomain c (c.tdim - 1, i)) n w = 0)
    {i : ℕ} (hi : i < entityCount c (c.tdim - 1)) {V : ℕ → ℕ → ℝ} {F : (ℕ → ℝ) → List ℝ} (hF : invMapTo c c.tdim V = some F)
    {t : ℕ → ℝ} (ht : Closed (entType c (c.tdim - 1) i) t)
    (hne : ∑ r : Fin c.tdim, areaVec c.tdim (physDomain c V (c.tdim - 1, i)).v r.val *
      eval ((entityDomain c (c.tdim - 1, i)).param t) (w r) ≠ 0) :
    NormalBroken c (momentElement classes c poly { facets := some (.single A), cells := some (.single B) }) := by
  have hd : 1 ≤ c.tdim := by rcases hc with rfl | rfl | rfl | rfl <;> decide
  refine normal_broken hc h hk pushId_linear (performMapping_id c) hw hi (fun b dofs he d hd' => ?_) hF ht hne
  obtain ⟨ms, hms, hds⟩ := momentElement_dofs he
  rcases hdiv_dofs hA hB hAm hAs hms hds hd hz d hd' with ⟨h1, h2, h3⟩ | ⟨h1, h2⟩
  · exact ⟨Or.inr (Or.inl h2), Or.inl h3, fun _ => h3⟩
  · rw [hm] at h2
    exact ⟨Or.inl h2, Or.inr h2, fun h => by rw [h] at h1; simp only at h1; omega⟩

/-! ### Triangles and tetrahedra -/

/-- The function `x y (e_1 - e_0)`, which is tangential on all facets. -/
noncomputable def swirl (d : ℕ) : Field d := fun j => if j.val = 0 then -(X 0 * X 1) else if j.val = 1 then X 0 * X 1 else 0

theorem swirl_mem {d : ℕ} (hd : 2 ≤ d) {k : ℤ} (hk : 2 ≤ k) (j : Fin d) : swirl d j ∈ P d k := by
  have h : (X 0 * X 1 : MvPolynomial ℕ ℝ) ∈ P d k := by
    exact P_mono (by omega) (X_mul_mem (k := 1) (by omega) (X_mem (by omega)))
  unfold swirl
  split
  · exact Submodule.neg_mem _ h
  · split
    · exact h
    · exact Submodule.zero_mem _

theorem swirl_normal2 {i : ℕ} (hi : i < 3) (z : ℕ → ℝ) :
    ∑ j : Fin 2, facetNormal i j.val * eval ((entityDomain .triangle (1, i)).param z) (swirl 2 j) = 0 := by
  have hc : ∀ i, (entityDomain .triangle (1, i)).cell = .interval := fun _ => rfl
  have hv : ∀ i j k, (entityDomain .triangle (1, i)).v j k = refVertex .triangle ((entVerts .triangle 1 i).getD j 0) k :=
    fun _ _ _ => rfl
  have e0 : entVerts .triangle 1 0 = [1, 2] := rfl
  have e1 : entVerts .triangle 1 1 = [0, 2] := rfl
  have e2 : entVerts .triangle 1 2 = [0, 1] := rfl
  rw [Fin.sum_univ_two]
  interval_cases i <;> simp [swirl, facetNormal, Domain.param, hc, hv, e0, e1, e2, axisVertices, refVertex, refVerts, coords,
    show Cell.interval.tdim = 1 from rfl]

theorem swirl_normal3 {i : ℕ} (hi : i < 4) (z : ℕ → ℝ) :
    ∑ j : Fin 3, facetNormal i j.val * eval ((entityDomain .tetrahedron (2, i)).param z) (swirl 3 j) = 0 := by
  have hc : ∀ i, (entityDomain .tetrahedron (2, i)).cell = .triangle := fun _ => rfl
  have hv : ∀ i j k, (entityDomain .tetrahedron (2, i)).v j k = refVertex .tetrahedron ((entVerts .tetrahedron 2 i).getD j 0) k :=
    fun _ _ _ => rfl
  have e0 : entVerts .tetrahedron 2 0 = [1, 2, 3] := rfl
  have e1 : entVerts .tetrahedron 2 1 = [0, 2, 3] := rfl
  have e2 : entVerts .tetrahedron 2 2 = [0, 1, 3] := rfl
  have e3 : entVerts .tetrahedron 2 3 = [0, 1, 2] := rfl
  rw [Fin.sum_univ_three]
  interval_cases i <;> simp [swirl, facetNormal, Domain.param, hc, hv, e0, e1, e2, e3, axisVertices, refVertex, refVerts, coords,
    show Cell.triangle.tdim = 2 from rfl, Finset.sum_range_succ]

theorem swirl_comp {c : Cell} (hc : Simp c) {i : ℕ} (hi : i < entityCount c (c.tdim - 1)) {n : ℕ → ℝ}
    (hn : normal (entityDomain c (c.tdim - 1, i)).cell c.tdim (entityDomain c (c.tdim - 1, i)).v = some n) :
    comp (entityDomain c (c.tdim - 1, i)) n (swirl c.tdim) = 0 := by
  have hi' : i ≤ c.tdim := by
    rcases hc with rfl | rfl
    · exact Nat.le_of_lt_succ hi
    · exact Nat.le_of_lt_succ hi
  obtain ⟨J, n', s, -, -, -, h2, h3⟩ := (facet_facts hc hi').facts
  obtain rfl := Option.some.inj (hn.symm.trans h2)
  refine MvPolynomial.funext fun z => ?_
  refine (eval_comp (entityDomain c (c.tdim - 1, i)) n (swirl c.tdim) z).trans ?_
  rw [map_zero]
  have e : ∑ j : Fin c.tdim, facetNormal i j.val * eval ((entityDomain c (c.tdim - 1, i)).param z) (swirl c.tdim j) = 0 := by
    rcases hc with rfl | rfl
    · exact swirl_normal2 hi z
    · exact swirl_normal3 hi z
  calc _ = ∑ j : Fin c.tdim, n j.val * eval ((entityDomain c (c.tdim - 1, i)).param z) (swirl c.tdim j) := rfl
    _ = s * ∑ j : Fin c.tdim, facetNormal i j.val * eval ((entityDomain c (c.tdim - 1, i)).param z) (swirl c.tdim j) := by
      rw [Finset.mul_sum]
      exact Finset.sum_congr rfl fun j _ => by rw [h3 j.val j.2, mul_assoc]
    _ = 0 := by rw [e, mul_zero]

/-- A triangle or tetrahedron whose sides do not have the same length. -/
noncomputable def longSimplex (p j : ℕ) : ℝ := if p = j + 1 then (if p = 2 then 2 else 1) else 0

theorem longSimplex_map2 : ∃ F, invMapTo .triangle 2 longSimplex = some F := by
  simp [invMapTo, solve2, mat2, psub, longSimplex]

theorem longSimplex_map3 : ∃ F, invMapTo .tetrahedron 3 longSimplex = some F := by
  simp [invMapTo, solve3, mat3, psub, longSimplex, Matrix.det_fin_three]

theorem swirl_jump2 : ∑ r : Fin 2, areaVec 2 (physDomain .triangle longSimplex (1, 0)).v r.val *
    eval ((entityDomain .triangle (1, 0)).param fun _ => 1 / 2) (swirl 2 r) ≠ 0 := by
  have hc : ∀ i, (entityDomain .triangle (1, i)).cell = .interval := fun _ => rfl
  have hv : ∀ i j k, (entityDomain .triangle (1, i)).v j k = refVertex .triangle ((entVerts .triangle 1 i).getD j 0) k :=
    fun _ _ _ => rfl
  have hp : ∀ i j k, (physDomain .triangle longSimplex (1, i)).v j k = longSimplex ((entVerts .triangle 1 i).getD j 0) k :=
    fun _ _ _ => rfl
  have e0 : entVerts .triangle 1 0 = [1, 2] := rfl
  rw [Fin.sum_univ_two]
  norm_num [swirl, Domain.param, hc, hv, hp, e0, axisVertices, refVertex, refVerts, coords, areaVec, longSimplex,
    show Cell.interval.tdim = 1 from rfl]

theorem swirl_jump3 : ∑ r : Fin 3, areaVec 3 (physDomain .tetrahedron longSimplex (2, 0)).v r.val *
    eval ((entityDomain .tetrahedron (2, 0)).param fun _ => 1 / 3) (swirl 3 r) ≠ 0 := by
  have hc : ∀ i, (entityDomain .tetrahedron (2, i)).cell = .triangle := fun _ => rfl
  have hv : ∀ i j k, (entityDomain .tetrahedron (2, i)).v j k = refVertex .tetrahedron ((entVerts .tetrahedron 2 i).getD j 0) k :=
    fun _ _ _ => rfl
  have hp : ∀ i j k, (physDomain .tetrahedron longSimplex (2, i)).v j k = longSimplex ((entVerts .tetrahedron 2 i).getD j 0) k :=
    fun _ _ _ => rfl
  have e0 : entVerts .tetrahedron 2 0 = [1, 2, 3] := rfl
  rw [Fin.sum_univ_three]
  norm_num [swirl, Domain.param, hc, hv, hp, e0, axisVertices, refVertex, refVerts, coords, areaVec, longSimplex, pcross,
    show Cell.triangle.tdim = 2 from rfl, Finset.sum_range_succ]

/-- Elements on simplices with the function `x y (e_1 - e_0)` and interior moments with the mapping `identity`. -/
theorem simplex_broken {classes : String → ElementClass Fun} {c : Cell} (hc : Simp c) {poly : Option (List VecPoly)} {A B : List Item}
    {dA dB : Data} (hA : parse A = some dA) (hB : parse B = some dB) (hAm : dA.moment = "NormalIntegralMoment")
    (hAs : dA.mapping = none) {S : Field c.tdim → Prop} {n : ℕ} {T : List (Dof ℝ (Field c.tdim)) → Prop}
    (h : Created (momentElement classes c poly { facets := some (.single A), cells := some (.single B) }) S n T) {k : ℤ}
    (hk : ∀ v, S v → ∀ j, v j ∈ P c.tdim k) (hm : Data.mapName dB = "identity") (hw : S (swirl c.tdim)) :
    NormalBroken c (momentElement classes c poly { facets := some (.single A), cells := some (.single B) }) := by
  rcases hc with rfl | rfl
  · obtain ⟨F, hF⟩ := longSimplex_map2
    exact hdiv_broken (c := .triangle) (Or.inl rfl) hA hB hAm hAs h hk hm hw (fun i hi n hn => swirl_comp (Or.inl rfl) hi hn)
      (i := 0) (by decide) hF (t := fun _ => 1 / 2) (show 0 ≤ (1 / 2 : ℝ) ∧ (1 / 2 : ℝ) ≤ 1 by norm_num) swirl_jump2
  · obtain ⟨F, hF⟩ := longSimplex_map3
    exact hdiv_broken (c := .tetrahedron) (Or.inr (Or.inl rfl)) hA hB hAm hAs h hk hm hw (fun i hi n hn => swirl_comp (Or.inr rfl) hi hn)
      (i := 0) (by decide) hF (t := fun _ => 1 / 3)
      (show 0 ≤ (1 / 3 : ℝ) ∧ 0 ≤ (1 / 3 : ℝ) ∧ (1 / 3 : ℝ) + 1 / 3 ≤ 1 by norm_num) swirl_jump3

/-- **C97** is violated by `BrezziDouglasMarini` at every order at least 2: the interior moments are made without a mapping, so
that the interior functions are mapped by `identity`. -/
theorem bdm_broken {c : Cell} (hc : Simp c) {k : ℕ} (hk : 2 ≤ k) : NormalBroken c (bdmElement "equispaced" c k) :=
  simplex_broken hc rfl rfl rfl rfl (bdm_created hc (by omega)) (fun v hv => hv) rfl
    fun j => swirl_mem (by rcases hc with rfl | rfl <;> decide) (by exact_mod_cast hk) j

theorem bdm_not_assembled {c : Cell} (hc : Simp c) {k : ℕ} (hk : 2 ≤ k) : ¬ NormalAssembled c (bdmElement "equispaced" c k) :=
  (bdm_broken hc hk).not_assembled

/-- **C97** is violated by `BrezziDouglasFortinMarini` on triangles at every order at least 2. -/
theorem bdfmTri_broken {k : ℕ} (hk : 2 ≤ k) : NormalBroken .triangle (bdfmSimp "equispaced" .triangle k) := by
  refine simplex_broken (c := .triangle) (Or.inl rfl) rfl rfl rfl rfl (bdfmTri_created (by omega)) (fun v hv => hv.1) rfl ?_
  refine ⟨fun j => swirl_mem (by decide) (by exact_mod_cast hk) j, fun i hi => ⟨0, Submodule.zero_mem _, fun z hz => ?_⟩⟩
  show ∑ j : Fin 2, facetNormal i j.val * eval z (swirl 2 j) = _
  rw [Fin.sum_univ_two, map_zero]
  interval_cases i <;> simp [OnFacet, swirl, facetNormal] at hz ⊢
  · exact Or.inl hz
  · exact Or.inr hz

theorem bdfmTri_not_assembled {k : ℕ} (hk : 2 ≤ k) : ¬ NormalAssembled .triangle (bdfmSimp "equispaced" .triangle k) :=
  (bdfmTri_broken hk).not_assembled

/-! ### The lowest order has no interior functionals -/

theorem bdm_mappings_one (variant : String) (c : Cell) :
    ∀ b dofs, bdmElement variant c 1 = some (.ciarlet b dofs) → ∀ d ∈ dofs, d.mapping = some "contravariant" := by
  refine mappings_eq fun p hp input hi name d hd hmin => ?_
  simp only [slots, List.mem_cons, List.not_mem_nil, or_false] at hp
  rcases hp with rfl | rfl | rfl | rfl | rfl | rfl | rfl | rfl <;> cases hi <;> cases hd
  · rfl
  · exact absurd (by simp [classes2, classes1]) hmin

/-- **C97** `BrezziDouglasMarini` elements of order 1. -/
theorem bdm_one_assembled {c : Cell} (hc : Simp c) : NormalAssembled c (bdmElement "equispaced" c 1) :=
  normal_assembled (bdm_created hc le_rfl) (fun _ h => h.2) (bdm_mappings_one _ _)

theorem bdfmTri_mappings_one (variant : String) :
    ∀ b dofs, bdfmSimp variant .triangle 1 = some (.ciarlet b dofs) → ∀ d ∈ dofs, d.mapping = some "contravariant" := by
  refine mappings_eq fun p hp input hi name d hd hmin => ?_
  simp only [slots, List.mem_cons, List.not_mem_nil, or_false] at hp
  rcases hp with rfl | rfl | rfl | rfl | rfl | rfl | rfl | rfl <;> cases hi <;> cases hd
  · rfl
  · exact absurd (by simp [classes2, classes1]) hmin

/-- **C97** `BrezziDouglasFortinMarini` elements of order 1 on triangles. -/
theorem bdfmTri_one_assembled : NormalAssembled .triangle (bdfmSimp "equispaced" .triangle 1) :=
  normal_assembled (c := .triangle) (bdfmTri_created le_rfl) (fun _ h => h.2) (bdfmTri_mappings_one _)

end Verif.Families
