import Verif.Matrices.HhjModel
import Verif.Matrices.Regge
/-!
# Hellan–Herrmann–Johnson elements

C129: unisolvence.  C130: continuity of the normal-normal component between cells.
-/

namespace Verif.Matrices
open Verif.References Verif.Moments Verif.Functionals Verif.Elements Verif.FiniteElement Verif.Polysets Verif.Orthogonal Verif.Families
open MvPolynomial

theorem hhjIndex3_sym : SymIndex hhjIndex3 := ⟨by decide, by decide, by decide⟩

theorem hhj_poly {c : Cell} (hc : Simp c) (k : ℕ) : ∃ l, hhjPoly c.tdim k = some l ∧ l.length = symCount c.tdim k ∧
    Independent ℝ l ∧ ∀ u, u ∈ lspan l ↔ SymSpace c.tdim k u := by
  rcases hc with rfl | rfl
  · obtain ⟨pl, h1, h2, h3, h4⟩ := sym_poly (Or.inr (Or.inl rfl)) index2_sym k
    exact ⟨_, (congrArg (Option.map _) h1 : hhjPoly 2 k = _), (List.length_map _).trans h2, h3, h4⟩
  · obtain ⟨pl, h1, h2, h3, h4⟩ := sym_poly (Or.inr (Or.inr rfl)) hhjIndex3_sym k
    exact ⟨_, (congrArg (Option.map _) h1 : hhjPoly 3 k = _), (List.length_map _).trans h2, h3, h4⟩

theorem contract_apply {d : ℕ} (n : ℕ → ℝ) (u : MField d) (i : Fin d) : contract n u i = ∑ j : Fin d, C (n j.val) * u i j := by
  show (∑ j : Fin d, n j.val • (LinearMap.proj j : Field d →ₗ[ℝ] MvPolynomial ℕ ℝ) ∘ₗ (LinearMap.proj i : MField d →ₗ[ℝ] Field d)) u = _
  rw [LinearMap.sum_apply]
  refine Finset.sum_congr rfl fun j _ => ?_
  rw [← smul_eq_C_mul]
  rfl

/-- The normal-normal component on a domain. -/
noncomputable def nn (D : Domain) (a : ℕ → ℝ) (u : MField D.g) : MvPolynomial ℕ ℝ := comp D a (contract a u)

theorem eval_nn (D : Domain) (a : ℕ → ℝ) (u : MField D.g) (z : ℕ → ℝ) : eval z (nn D a u) = formAt u (D.param z) a a := by
  rw [nn, eval_comp]
  refine Finset.sum_congr rfl fun i _ => ?_
  rw [contract_apply, map_sum, Finset.mul_sum]
  refine Finset.sum_congr rfl fun j _ => ?_
  rw [map_mul, eval_C]
  ring

theorem nn_mem (D : Domain) {d : ℕ} (a : ℕ → ℝ) {u : MField D.g} {k : ℤ} (hu : ∀ i j, u i j ∈ P d k) : nn D a u ∈ P D.cell.tdim k :=
  comp_mem D a fun i => by
    rw [contract_apply]
    exact Submodule.sum_mem _ fun j _ => C_mul_mem _ (hu i j)

/-! ### Functionals on facets -/

theorem nn_pairing (D : Domain) {J : ℝ} {n a : ℕ → ℝ} (ha : ∀ j, J * n j = a j) (x : MvPolynomial ℕ ℝ) (u : MField D.g) :
    momentMap D J (fun j => C (n j.val) * (x * C J)) (contract n u) = pairing1 D.cell (nn D a u) x := by
  rw [momentMap_pairing D ha]
  have e : comp D a (contract n u) * (x * C J) = nn D a u * x := by
    have : comp D a (contract n u) * C J = nn D a u := by
      refine MvPolynomial.funext fun z => ?_
      rw [map_mul, eval_C, eval_comp, eval_nn, Finset.sum_mul]
      refine Finset.sum_congr rfl fun i _ => ?_
      rw [contract_apply, map_sum, Finset.mul_sum, Finset.sum_mul]
      refine Finset.sum_congr rfl fun b _ => ?_
      rw [map_mul, eval_C, ← ha b.val]
      ring
    rw [← this]
    ring
  show cellInt D.cell (fun z => eval z (comp D a (contract n u) * (x * C J))) = cellInt D.cell fun z => eval z (nn D a u * x)
  rw [e]

/-- The value of a functional of a facet. -/
theorem nn_moment {c : Cell} (hc : Simp c) {i : ℕ} (hi : i ≤ c.tdim) (mp : Option String) (x : MvPolynomial ℕ ℝ) :
    ∃ d, nnDof c ⟨"NormalInnerProductIntegralMoment", .scalar x, (c.tdim - 1, i), mp⟩ = some d ∧ d.entity = (c.tdim - 1, i) ∧
      ∀ u, d.eval u = pairing1 (facetCell c) (nn (entityDomain c (c.tdim - 1, i))
        (areaVec c.tdim (entityDomain c (c.tdim - 1, i)).v) u) x := by
  obtain ⟨J, n, s, hJ, hs, h1, h2, h3⟩ := (facet_facts hc hi).facts
  have hfc : (entityDomain c (c.tdim - 1, i)).cell = facetCell c := by rcases hc with rfl | rfl <;> rfl
  refine ⟨⟨17, (c.tdim - 1, i), some (mp.getD "double_contravariant"), momentMap (entityDomain c (c.tdim - 1, i)) J
    (fun j => C (n j.val) * (x * C J)) ∘ₗ contract n⟩, ?_, rfl, fun u => ?_⟩
  · rw [nnDof, if_pos rfl]
    show (normal (entityDomain c (c.tdim - 1, i)).cell c.tdim (entityDomain c (c.tdim - 1, i)).v).bind _ = _
    rw [h2, Option.bind_some]
    show (jacobian (entityDomain c (c.tdim - 1, i)).cell c.tdim (entityDomain c (c.tdim - 1, i)).v).map _ = _
    rw [h1, Option.map_some]
  · show momentMap (entityDomain c (c.tdim - 1, i)) J (fun j => C (n j.val) * (x * C J)) (contract n u) = _
    have ha : ∀ j, J * n j = areaVec c.tdim (entityDomain c (c.tdim - 1, i)).v j := fun j => facet_area hc h1 h2 hJ j
    exact (nn_pairing (entityDomain c (c.tdim - 1, i)) ha x u).trans (by rw [hfc])

/-- The moments on the facets. -/
def facetMoments (c : Cell) (k : ℕ) (mp : Option String) (xs : List (MvPolynomial ℕ ℝ)) : List (MomentDof Fun) :=
  (List.range (c.tdim + 1)).flatMap fun i => xs.map fun x =>
    ⟨"NormalInnerProductIntegralMoment", .scalar x, (c.tdim - 1, i), mp⟩

theorem facet_moments {c : Cell} (hc : Simp c) (k : ℕ) : ∃ xs : List (MvPolynomial ℕ ℝ), lspan xs = P (c.tdim - 1) k ∧
    xs.length = (k + (c.tdim - 1)).choose (c.tdim - 1) ∧
    makeIntegralMomentDofs classes1 c { facets := some (.single [.cls "NormalInnerProductIntegralMoment", .cls "Lagrange", .int k,
        .dict [("variant", "equispaced")]]) } = some (facetMoments c k none xs) := by
  obtain ⟨xs, h1, h2, h3⟩ := sub_lagrange (facetCell_simplex c) (classes := classes1) rfl "NormalInnerProductIntegralMoment" (k : ℤ) none
  have hk : ¬ ((k : ℤ) < 0) := by omega
  rw [if_neg hk, Int.toNat_natCast, facetCell_tdim hc] at h3
  rw [facetCell_tdim hc] at h2
  refine ⟨xs, h2, h3, ?_⟩
  have e0 : ∀ dim : ℤ, slotDofs classes1 c dim none = some [] := fun _ => rfl
  have hs : slotDofs classes1 c ((c.tdim : ℤ) - 1) (some (.single [.cls "NormalInnerProductIntegralMoment", .cls "Lagrange", .int k,
        .dict [("variant", "equispaced")]])) = some ((List.range (c.tdim + 1)).flatMap fun i =>
      (xs.map Fun.scalar).map fun x => ⟨"NormalInnerProductIntegralMoment", x, (c.tdim - 1, i), none⟩) := by
    rcases hc with rfl | rfl
    · exact slot_uniform (dim := 1) (by omega) (by omega) (by decide) rfl rfl h1
    · exact slot_uniform (dim := 2) (by omega) (by omega) (by decide) rfl rfl h1
  unfold makeIntegralMomentDofs slots
  simp only [List.mapM_cons, List.mapM_nil, e0, hs, Option.bind_eq_bind, Option.bind_some, Option.pure_def, Option.map_some,
    List.flatten_cons, List.flatten_nil, List.nil_append, List.append_nil, facetMoments, List.map_map]
  rfl

theorem nnDof_entity {c : Cell} {m : MomentDof Fun} {d : Dof ℝ (MField c.tdim)} (h : nnDof c m = some d) : d.entity = m.entity := by
  unfold nnDof at h
  split at h
  · obtain ⟨mo, sub, e, mp⟩ := m
    cases sub with
    | scalar f =>
      obtain ⟨n, -, h⟩ := Option.bind_eq_some_iff.1 h
      obtain ⟨J, -, rfl⟩ := Option.map_eq_some_iff.1 h
      rfl
    | vector _ _ => exact absurd h (by simp)
  · exact absurd h (by simp)

/-- The functionals of a facet. -/
theorem nn_values {c : Cell} (hc : Simp c) (k : ℕ) {xs : List (MvPolynomial ℕ ℝ)} {dofs : List (Dof ℝ (MField c.tdim))}
    (h : (facetMoments c k none xs).mapM (nnDof c) = some dofs) {i : ℕ} (hi : i < c.tdim + 1) (u : MField c.tdim) :
    (entityFunctionals dofs (c.tdim - 1, i)).map (·.eval u) = xs.map fun x => pairing1 (facetCell c)
      (nn (entityDomain c (c.tdim - 1, i)) (areaVec c.tdim (entityDomain c (c.tdim - 1, i)).v) u) x := by
  have h1 : ((facetMoments c k none xs).filter fun m => decide (m.entity = (c.tdim - 1, i))).mapM (nnDof c) =
      some (dofs.filter fun d => decide (d.entity = (c.tdim - 1, i))) :=
    mapM_filter h fun a b hab => by rw [nnDof_entity hab]
  rw [facetMoments, filter_entities xs (fun x i => ⟨"NormalInnerProductIntegralMoment", .scalar x, (c.tdim - 1, i), none⟩)
    (fun _ _ => rfl) hi, List.mapM_map] at h1
  refine mapM_values h1 fun x _ d hd => ?_
  obtain ⟨d', hd', -, he⟩ := nn_moment hc (Nat.lt_succ_iff.1 hi) none x
  obtain rfl := Option.some.inj (hd.symm.trans hd')
  exact he u

theorem nn_exists {c : Cell} (hc : Simp c) (k : ℕ) (xs : List (MvPolynomial ℕ ℝ)) :
    ∃ dofs, (facetMoments c k none xs).mapM (nnDof c) = some dofs := by
  refine mapM_exists fun mo hmo => ?_
  simp only [facetMoments, List.mem_flatMap, List.mem_range, List.mem_map] at hmo
  obtain ⟨i, hi, x, -, rfl⟩ := hmo
  obtain ⟨d, hd, -⟩ := nn_moment hc (Nat.lt_succ_iff.1 hi) none x
  exact ⟨d, hd⟩

/-! ### Functionals in the cell -/

/-- The product with a constant matrix. -/
noncomputable def against {d : ℕ} (M : Fin d → Fin d → ℝ) (u : MField d) : MvPolynomial ℕ ℝ := ∑ i, ∑ j, C (M i j) * u i j

theorem matrix_moment {c : Cell} (hc : Simp c) (p : MvPolynomial ℕ ℝ) (M : Fin c.tdim → Fin c.tdim → ℝ) :
    ∃ d, matrixDof c p M = some d ∧ d.entity = (c.tdim, 0) ∧
      ∀ (u : MField c.tdim) (k : ℤ), (∀ i j, u i j ∈ P c.tdim k) → d.eval u = pairing1 c (against M u) p := by
  refine ⟨⟨11, (c.tdim, 0), some "double_contravariant", ∑ i : Fin c.tdim, momentMap (entityDomain c (c.tdim, 0)) 1
    (fun j : Fin c.tdim => C (M i j) * p) ∘ₗ LinearMap.proj i⟩, ?_, rfl, fun u k hu => ?_⟩
  · show Option.map _ (jacobian (entityDomain c (c.tdim, 0)).cell c.tdim (entityDomain c (c.tdim, 0)).v) = _
    rw [cell_jacobian hc, Option.map_some]
  · refine (LinearMap.sum_apply (M := MField c.tdim) (M₂ := ℝ) Finset.univ (fun i : Fin c.tdim =>
      momentMap (entityDomain c (c.tdim, 0)) 1 (fun j : Fin c.tdim => C (M i j) * p) ∘ₗ LinearMap.proj i) u).trans ?_
    have hcell : (entityDomain c (c.tdim, 0)).cell = c := by rcases hc with rfl | rfl <;> rfl
    have h1 : ∀ i : Fin c.tdim, momentMap (entityDomain c (c.tdim, 0)) 1 (fun j : Fin c.tdim => C (M i j) * p) (u i) =
        cellInt c fun z => eval z ((∑ j, C (M i j) * u i j) * p) := by
      intro i
      have := moment_pairing (entityDomain c (c.tdim, 0)) (hu i) (fun j : Fin c.tdim => C (M i j) * p) fun z j hj => cell_param hc z hj
      refine this.trans ?_
      show pairing (entityDomain c (c.tdim, 0)).cell (d := c.tdim) (u i) _ = _
      rw [hcell, pairing_apply]
      congr 1
      funext z
      congr 1
      rw [Finset.sum_mul]
      exact Finset.sum_congr rfl fun j _ => by ring
    refine (Finset.sum_congr rfl fun i _ => h1 i).trans ?_
    rw [← cellInt_poly_sum]
    show _ = cellInt c fun z => eval z (against M u * p)
    rw [against, Finset.sum_mul]

theorem lagrange_functions {c : Cell} (hc : Simplex c) (k : ℕ) :
    ∃ fs, (lagrangeElement "equispaced" c (refVertex c) k).bind getBasis = some fs ∧ lspan fs = P c.tdim k ∧
      fs.length = (k + c.tdim).choose c.tdim := by
  obtain ⟨fs, h1, h2, h3⟩ := lagrange_sub hc k
  obtain ⟨gs, h4, h5⟩ := Option.map_eq_some_iff.1 h1
  obtain rfl : gs = fs := List.map_injective_iff.2 (fun a b h => by injection h) h5
  exact ⟨gs, h4, h2, h3⟩

/-- The functionals in the cell. -/
theorem hhj_cell {c : Cell} (hc : Simp c) (k : ℕ) (dirs : List (Fin c.tdim → Fin c.tdim → ℝ)) :
    ∃ dofs, hhjCell "equispaced" c k dirs = some dofs ∧ dofs.length = (k + c.tdim).choose c.tdim * dirs.length ∧
      (∀ d ∈ dofs, d.entity = (c.tdim, 0)) ∧
      ∀ (u : MField c.tdim) (n : ℤ), (∀ i j, u i j ∈ P c.tdim n) → (∀ d ∈ dofs, d.eval u = 0) → ∀ M ∈ dirs,
        ∀ q ∈ P c.tdim k, pairing1 c (against M u) q = 0 := by
  obtain ⟨fs, h1, h2, h3⟩ := lagrange_functions (c := c) (by rcases hc with rfl | rfl <;> simp [Simplex]) k
  obtain ⟨dofs, hd⟩ := mapM_exists (f := fun pd : MvPolynomial ℕ ℝ × (Fin c.tdim → Fin c.tdim → ℝ) => matrixDof c pd.1 pd.2)
    (l := fs.flatMap fun p => dirs.map fun d => (p, d)) (fun pd _ => by
      obtain ⟨d, hd, -⟩ := matrix_moment hc pd.1 pd.2
      exact ⟨d, hd⟩)
  refine ⟨dofs, by rw [hhjCell, h1, Option.bind_some, hd], ?_, fun d hd' => ?_, fun u n hu hz M hM q hq => ?_⟩
  · rw [← (mapM_forall hd).length_eq, ← h3, List.length_flatMap]
    simp
  · obtain ⟨pd, -, h⟩ := forall₂_mem_left (mapM_forall hd) hd'
    obtain ⟨d', hd1, hd2, -⟩ := matrix_moment hc pd.1 pd.2
    obtain rfl := Option.some.inj (h.symm.trans hd1)
    exact hd2
  · rw [← h2] at hq
    refine (Submodule.span_le (p := LinearMap.ker (pairing1 c (against M u)))).2 (fun f hf => ?_) hq
    obtain ⟨d, hd1, h⟩ := forall₂_mem_right (mapM_forall hd) (a := (f, M)) (List.mem_flatMap.2 ⟨f, hf, List.mem_map.2 ⟨M, hM, rfl⟩⟩)
    obtain ⟨d', hd2, -, hd3⟩ := matrix_moment hc f M
    obtain rfl := Option.some.inj (h.symm.trans hd2)
    exact (hd3 u n hu).symm.trans (hz d hd1)

/-! ### Unisolvence -/

/-- A polynomial of degree `k` that vanishes on a facet and is orthogonal to the polynomials of degree `k - 1`. -/
theorem vanish_orth {c : Cell} (hc : Simp c) {i : ℕ} (hi : i ≤ c.tdim) {k : ℤ} {p : MvPolynomial ℕ ℝ} (hp : p ∈ P c.tdim k)
    (hz : ∀ z, OnFacet c.tdim i z → eval z p = 0) (ho : ∀ q ∈ P c.tdim (k - 1), pairing1 c p q = 0) : p = 0 := by
  have hd : 0 < c.tdim := hc.pos
  obtain ⟨w, q, rfl, hq, hw, hw'⟩ : ∃ w q, p = w * q ∧ q ∈ P c.tdim (k - 1) ∧ (∀ z, Closed c z → 0 ≤ eval z w) ∧
      ∀ z : ℕ → ℝ, (∀ i < c.tdim, 0 < z i ∧ z i < 1 / 4) → 0 < eval z w := by
    rcases Nat.eq_zero_or_pos i with rfl | h
    · obtain ⟨q, rfl⟩ := opp_dvd hd (p := p) fun z h => hz z (by simpa [OnFacet] using h)
      exact ⟨_, q, rfl, P_cancel (degree_opp hd) hp, fun z h => closed_opp hc h, fun z h => inner_opp hc h⟩
    · obtain ⟨q, rfl⟩ := X_dvd (p := p) (i - 1) fun z h => hz z (by rw [OnFacet, if_neg (by omega)]; exact h)
      refine ⟨_, q, rfl, X_cancel hp, fun z h => ?_, fun z h => ?_⟩
      · rw [eval_X]; exact closed_X hc h ⟨i - 1, by omega⟩
      · rw [eval_X]; exact (h (i - 1) (by omega)).1
  have := squares_zero hc.solid (ι := Unit) (fun _ => w) (fun _ => hw) (fun _ => hw') (fun _ => q) (fun _ => hq) (by
    rw [← ho q hq]
    show _ = cellInt c fun z => eval z (w * q * q)
    congr 1
    funext z
    simp only [Finset.univ_unique, Finset.sum_singleton]
    rw [pow_two, mul_assoc]) ()
  rw [this, mul_zero]

/-- The normal-normal component for the normals of the facets of the default cell. -/
noncomputable def nnRef {d : ℕ} (i : ℕ) (u : MField d) : MvPolynomial ℕ ℝ :=
  ∑ a, ∑ b, C (facetNormal i a.val * facetNormal i b.val) * u a b

theorem eval_nnRef {d : ℕ} (i : ℕ) (u : MField d) (z : ℕ → ℝ) : eval z (nnRef i u) = formAt u z (facetNormal i) (facetNormal i) := by
  rw [nnRef, map_sum]
  refine Finset.sum_congr rfl fun a _ => ?_
  rw [map_sum]
  refine Finset.sum_congr rfl fun b _ => ?_
  rw [map_mul, eval_C]
  ring

theorem nnRef_mem {d : ℕ} (i : ℕ) {u : MField d} {k : ℤ} (hu : ∀ i j, u i j ∈ P d k) : nnRef i u ∈ P d k :=
  Submodule.sum_mem _ fun a _ => Submodule.sum_mem _ fun b _ => C_mul_mem _ (hu a b)

theorem against_mem {d : ℕ} (M : Fin d → Fin d → ℝ) {u : MField d} {k : ℤ} (hu : ∀ i j, u i j ∈ P d k) : against M u ∈ P d k :=
  Submodule.sum_mem _ fun a _ => Submodule.sum_mem _ fun b _ => C_mul_mem _ (hu a b)

/-- The polynomials that are orthogonal to the polynomials of degree `k`. -/
noncomputable def orth (c : Cell) (k : ℤ) : Submodule ℝ (MvPolynomial ℕ ℝ) := ⨅ q : P c.tdim k, LinearMap.ker (pairing1 c q.1)

theorem mem_orth {c : Cell} {k : ℤ} {p : MvPolynomial ℕ ℝ} : p ∈ orth c k ↔ ∀ q ∈ P c.tdim k, pairing1 c p q = 0 := by
  simp only [orth, Submodule.mem_iInf, LinearMap.mem_ker, Subtype.forall]
  exact forall₂_congr fun q _ => by rw [pairing1_comm]

theorem eval_against {d : ℕ} (M : Fin d → Fin d → ℝ) (u : MField d) (z : ℕ → ℝ) :
    eval z (against M u) = ∑ i, ∑ j, M i j * eval z (u i j) := by
  rw [against, map_sum]
  refine Finset.sum_congr rfl fun a _ => ?_
  rw [map_sum]
  exact Finset.sum_congr rfl fun b _ => by rw [map_mul, eval_C]

/-- The directions give the normal-normal components. -/
theorem nnRef_orth2 {u : MField 2} (hs : ∀ i j, u i j = u j i) (S : Submodule ℝ (MvPolynomial ℕ ℝ))
    (h : ∀ M ∈ directions 2, against M u ∈ S) {i : ℕ} (hi : i ≤ 2) : nnRef i u ∈ S := by
  have e := hs 1 0
  have a := h ![![0, 1], ![1, 0]] (by simp [directions])
  have b := h ![![-2, 1], ![1, 0]] (by simp [directions])
  have d := h ![![0, -1], ![-1, 2]] (by simp [directions])
  have key : ∃ r s t : ℝ, nnRef i u = r • against ![![0, 1], ![1, 0]] u + s • against ![![-2, 1], ![1, 0]] u +
      t • against ![![0, -1], ![-1, 2]] u := by
    interval_cases i
    · refine ⟨2, -1 / 2, 1 / 2, MvPolynomial.funext fun z => ?_⟩
      simp only [eval_nnRef, formAt, map_add, smul_eval, eval_against, Fin.sum_univ_two, facetNormal, e]
      simp
      ring
    · refine ⟨1 / 2, -1 / 2, 0, MvPolynomial.funext fun z => ?_⟩
      simp only [eval_nnRef, formAt, map_add, smul_eval, eval_against, Fin.sum_univ_two, facetNormal, e]
      simp
      ring
    · refine ⟨1 / 2, 0, 1 / 2, MvPolynomial.funext fun z => ?_⟩
      simp only [eval_nnRef, formAt, map_add, smul_eval, eval_against, Fin.sum_univ_two, facetNormal, e]
      simp
      ring
  obtain ⟨r, s, t, hk⟩ := key
  rw [hk]
  exact S.add_mem (S.add_mem (S.smul_mem _ a) (S.smul_mem _ b)) (S.smul_mem _ d)

theorem nnRef_orth3 {u : MField 3} (hs : ∀ i j, u i j = u j i) (S : Submodule ℝ (MvPolynomial ℕ ℝ))
    (h : ∀ M ∈ directions 3, against M u ∈ S) {i : ℕ} (hi : i ≤ 3) : nnRef i u ∈ S := by
  have e1 := hs 1 0
  have e2 := hs 2 0
  have e3 := hs 2 1
  have a := h ![![0, 1, 1], ![1, 0, 1], ![1, 1, 0]] (by simp [directions])
  have b := h ![![-6, 1, 1], ![1, 0, 1], ![1, 1, 0]] (by simp [directions])
  have d := h ![![0, 1, 1], ![1, -6, 1], ![1, 1, 0]] (by simp [directions])
  have f := h ![![0, 1, 1], ![1, 0, 1], ![1, 1, -6]] (by simp [directions])
  have key : ∃ r s t w : ℝ, nnRef i u = r • against ![![0, 1, 1], ![1, 0, 1], ![1, 1, 0]] u +
      s • against ![![-6, 1, 1], ![1, 0, 1], ![1, 1, 0]] u + t • against ![![0, 1, 1], ![1, -6, 1], ![1, 1, 0]] u +
      w • against ![![0, 1, 1], ![1, 0, 1], ![1, 1, -6]] u := by
    interval_cases i
    · refine ⟨3 / 2, -1 / 6, -1 / 6, -1 / 6, MvPolynomial.funext fun z => ?_⟩
      simp only [eval_nnRef, formAt, map_add, smul_eval, eval_against, Fin.sum_univ_three, facetNormal, e1, e2, e3]
      simp
      ring
    · refine ⟨1 / 6, -1 / 6, 0, 0, MvPolynomial.funext fun z => ?_⟩
      simp only [eval_nnRef, formAt, map_add, smul_eval, eval_against, Fin.sum_univ_three, facetNormal, e1, e2, e3]
      simp
      ring
    · refine ⟨1 / 6, 0, -1 / 6, 0, MvPolynomial.funext fun z => ?_⟩
      simp only [eval_nnRef, formAt, map_add, smul_eval, eval_against, Fin.sum_univ_three, facetNormal, e1, e2, e3]
      simp
      ring
    · refine ⟨1 / 6, 0, 0, -1 / 6, MvPolynomial.funext fun z => ?_⟩
      simp only [eval_nnRef, formAt, map_add, smul_eval, eval_against, Fin.sum_univ_three, facetNormal, e1, e2, e3]
      simp
      ring
  obtain ⟨r, s, t, w, hk⟩ := key
  rw [hk]
  exact S.add_mem (S.add_mem (S.add_mem (S.smul_mem _ a) (S.smul_mem _ b)) (S.smul_mem _ d)) (S.smul_mem _ f)

theorem nnRef_orth {c : Cell} (hc : Simp c) {u : MField c.tdim} (hs : ∀ i j, u i j = u j i) (S : Submodule ℝ (MvPolynomial ℕ ℝ))
    (h : ∀ M ∈ directions c.tdim, against M u ∈ S) {i : ℕ} (hi : i ≤ c.tdim) : nnRef i u ∈ S := by
  rcases hc with rfl | rfl
  · exact nnRef_orth2 hs S h hi
  · exact nnRef_orth3 hs S h hi

/-- The normal-normal components and the extra directions determine a symmetric matrix. -/
theorem sym_zero2 {u : MField 2} (hs : ∀ i j, u i j = u j i) (h : ∀ i ≤ 2, nnRef i u = 0) : u = 0 := by
  have e := hs 1 0
  have key : ∀ z i j, eval z (u i j) = 0 := by
    intro z
    have h0 := congrArg (eval z) (h 0 (by omega))
    have h1 := congrArg (eval z) (h 1 (by omega))
    have h2 := congrArg (eval z) (h 2 (by omega))
    simp only [eval_nnRef, formAt, Fin.sum_univ_two, facetNormal, e] at h0 h1 h2
    simp at h0 h1 h2
    intro i j
    fin_cases i <;> fin_cases j <;> simp [e] <;> linarith
  funext i j
  exact MvPolynomial.funext fun z => by rw [key]; simp

theorem sym_zero3 {u : MField 3} (hs : ∀ i j, u i j = u j i) (h : ∀ i ≤ 3, nnRef i u = 0)
    (hx : ∀ M ∈ directionsExtra 3, against M u = 0) : u = 0 := by
  have e1 := hs 1 0
  have e2 := hs 2 0
  have e3 := hs 2 1
  have key : ∀ z i j, eval z (u i j) = 0 := by
    intro z
    have h0 := congrArg (eval z) (h 0 (by omega))
    have h1 := congrArg (eval z) (h 1 (by omega))
    have h2 := congrArg (eval z) (h 2 (by omega))
    have h3 := congrArg (eval z) (h 3 (by omega))
    have h4 := congrArg (eval z) (hx ![![0, 0, -1], ![0, 0, 1], ![-1, 1, 0]] (by simp [directionsExtra]))
    have h5 := congrArg (eval z) (hx ![![0, -1, 0], ![-1, 0, 1], ![0, 1, 0]] (by simp [directionsExtra]))
    simp only [eval_nnRef, eval_against, formAt, Fin.sum_univ_three, facetNormal, e1, e2, e3] at h0 h1 h2 h3 h4 h5
    simp at h0 h1 h2 h3 h4 h5
    intro i j
    fin_cases i <;> fin_cases j <;> simp [e1, e2, e3] <;> linarith
  funext i j
  exact MvPolynomial.funext fun z => by rw [key]; simp

theorem sym_zero {c : Cell} (hc : Simp c) {u : MField c.tdim} (hs : ∀ i j, u i j = u j i) (h : ∀ i ≤ c.tdim, nnRef i u = 0)
    (hx : ∀ M ∈ directionsExtra c.tdim, against M u = 0) : u = 0 := by
  rcases hc with rfl | rfl
  · exact sym_zero2 hs h
  · exact sym_zero3 hs h hx

/-! ### Spec -/

/-- The normal-normal component on facet `i` vanishes whenever the functionals of facet `i` vanish. -/
def NormalNormalTrace (c : Cell) (V : MField c.tdim → Prop) (dofs : List (Dof ℝ (MField c.tdim))) : Prop :=
  ∀ i ≤ c.tdim, ∀ u, V u → (∀ d ∈ dofs, d.entity = (c.tdim - 1, i) → d.eval u = 0) →
    ∀ z, OnFacet c.tdim i z → formAt u z (facetNormal i) (facetNormal i) = 0

/-- Two cells, with vertices `V` and `V'`, share a facet: its vertices are the same, in the same order, in both.  If two
functions of the space have the same values of the functionals of that facet, then the normal-normal components of the
functions mapped to the cells are equal on the facet. -/
def NormalNormalConform (c : Cell) (S : MField c.tdim → Prop) (dofs : List (Dof ℝ (MField c.tdim))) : Prop :=
  ∀ i ≤ c.tdim, ∀ i' ≤ c.tdim, ∀ u u', S u → S u' →
    (entityFunctionals dofs (c.tdim - 1, i)).map (·.eval u) = (entityFunctionals dofs (c.tdim - 1, i')).map (·.eval u') →
    ∀ V V' g g', mappedMatrix c V u = some g → mappedMatrix c V' u' = some g' →
    (∀ k < c.tdim, V ((entVerts c (c.tdim - 1) i).getD k 0) = V' ((entVerts c (c.tdim - 1) i').getD k 0)) →
    ∀ t y, y = (physDomain c V (c.tdim - 1, i)).param t →
      ∑ r : Fin c.tdim, ∑ s : Fin c.tdim, areaVec c.tdim (physDomain c V (c.tdim - 1, i)).v r.val * g y r s *
        areaVec c.tdim (physDomain c V (c.tdim - 1, i)).v s.val =
      ∑ r : Fin c.tdim, ∑ s : Fin c.tdim, areaVec c.tdim (physDomain c V (c.tdim - 1, i)).v r.val * g' y r s *
        areaVec c.tdim (physDomain c V (c.tdim - 1, i)).v s.val

/-! ### The element -/

/-- If the functionals of a facet agree, so do the normal-normal components. -/
theorem nn_eq {c : Cell} (hc : Simp c) (k : ℕ) {xs : List (MvPolynomial ℕ ℝ)} (hxs : lspan xs = P (c.tdim - 1) k)
    {p q : MvPolynomial ℕ ℝ} (hp : p ∈ P (facetCell c).tdim k) (hq : q ∈ P (facetCell c).tdim k)
    (h : (xs.map fun x => pairing1 (facetCell c) p x) = xs.map fun x => pairing1 (facetCell c) q x) : p = q := by
  have hS : Solid (facetCell c) := by rcases hc with rfl | rfl <;> simp [facetCell, Solid]
  rw [← sub_eq_zero]
  refine eq_zero_of_pairing hS (Submodule.sub_mem _ hp hq) (fs := xs) ?_ fun x hx => ?_
  · rw [hxs, ← facetCell_tdim hc]; exact Submodule.sub_mem _ hp hq
  · have := List.map_inj_left.1 h x hx
    rw [pairing1_comm, pairing1_comm q] at this
    rw [pairing1_comm, map_sub, this, sub_self]

/-- The mapped function on a facet. -/
theorem mapped_nn {c : Cell} (hc : Simp c) {V : ℕ → ℕ → ℝ} {u : MField c.tdim} {k : ℤ} (hu : ∀ i j, u i j ∈ P c.tdim k)
    {g : (ℕ → ℝ) → Fin c.tdim → Fin c.tdim → ℝ} (hg : mappedMatrix c V u = some g) (e : ℕ × ℕ) (t y : ℕ → ℝ)
    (hy : ∀ j < c.tdim, y j = (physDomain c V e).param t j) :
    ∑ r : Fin c.tdim, ∑ s : Fin c.tdim, areaVec c.tdim (physDomain c V e).v r.val * g y r s * areaVec c.tdim (physDomain c V e).v s.val =
      eval t (nn (entityDomain c e) (areaVec c.tdim (entityDomain c e).v) u) := by
  obtain ⟨F, hF, rfl⟩ := Option.map_eq_some_iff.1 hg
  have hval : ∀ a b, eval (coords (F y)) (u a b) = eval ((entityDomain c e).param t) (u a b) := fun a b => by
    have h1 : mapped (fun {_} _ f => f) c V (u a) = some fun x l => eval (coords (F x)) (u a l) := by
      rw [mapped, hF, Option.map_some]
    exact congrFun (mapped_param hc.affine4 (hu a) h1 e t y hy) b
  have hpush : ∀ r s, pushDoubleContra (jacMat c V) (fun a b => eval (coords (F y)) (u a b)) r s =
      pushContra (jacMat c V) (fun l => pushContra (jacMat c V) (fun a => eval ((entityDomain c e).param t) (u a l)) r) s := by
    intro r s
    unfold pushDoubleContra pushContra
    refine Finset.sum_congr rfl fun l _ => ?_
    rw [mul_comm]
    simp only [hval]
  have h1 : ∀ r : Fin c.tdim, ∑ s : Fin c.tdim, areaVec c.tdim (physDomain c V e).v r.val *
      pushDoubleContra (jacMat c V) (fun a b => eval (coords (F y)) (u a b)) r s * areaVec c.tdim (physDomain c V e).v s.val =
      areaVec c.tdim (physDomain c V e).v r.val * ∑ l : Fin c.tdim, areaVec c.tdim (entityDomain c e).v l.val *
        pushContra (jacMat c V) (fun a => eval ((entityDomain c e).param t) (u a l)) r := by
    intro r
    rw [← area_contra hc.affine4 hF, Finset.mul_sum]
    refine Finset.sum_congr rfl fun s _ => ?_
    rw [hpush]
    ring
  refine (Finset.sum_congr rfl fun r _ => h1 r).trans ?_
  refine Eq.trans ?_ (eval_nn (entityDomain c e) _ u t).symm
  simp only [Finset.mul_sum]
  rw [Finset.sum_comm]
  unfold formAt
  refine Eq.trans ?_ (Finset.sum_comm (s := Finset.univ) (t := Finset.univ) (f := fun j i : Fin c.tdim =>
    areaVec c.tdim (entityDomain c e).v i.val * eval ((entityDomain c e).param t) (u i j) * areaVec c.tdim (entityDomain c e).v j.val))
  refine Finset.sum_congr rfl fun l _ => ?_
  have h2 := area_contra hc.affine4 hF e fun a => eval ((entityDomain c e).param t) (u a l)
  have h3 := congrArg (· * areaVec c.tdim (entityDomain c e).v l.val) h2
  simp only [Finset.sum_mul] at h3
  rw [← h3]
  exact Finset.sum_congr rfl fun r _ => by ring

theorem hhj_conform {c : Cell} (hc : Simp c) (k : ℕ) {xs : List (MvPolynomial ℕ ℝ)} (hxs : lspan xs = P (c.tdim - 1) k)
    {dofs rest : List (Dof ℝ (MField c.tdim))} (h : (facetMoments c k none xs).mapM (nnDof c) = some dofs)
    (hr : ∀ d ∈ rest, d.entity = (c.tdim, 0)) : NormalNormalConform c (SymSpace c.tdim k) (dofs ++ rest) := by
  intro i hi i' hi' u u' hu hu' heq V V' g g' hg hg' hV t y hy
  have hfc : ∀ i, (entityDomain c (c.tdim - 1, i)).cell = facetCell c := fun i => by rcases hc with rfl | rfl <;> rfl
  have hrest : ∀ i, entityFunctionals (dofs ++ rest) (c.tdim - 1, i) = entityFunctionals dofs (c.tdim - 1, i) := by
    intro i
    rw [entityFunctionals, List.filter_append, (List.filter_eq_nil_iff (l := rest)).2, List.append_nil]
    · rfl
    · intro d hd
      have : c.tdim ≠ c.tdim - 1 := by rcases hc with rfl | rfl <;> decide
      simp [hr d hd, this]
  rw [hrest, hrest, nn_values hc k h (Nat.lt_succ_of_le hi), nn_values hc k h (Nat.lt_succ_of_le hi')] at heq
  have hm : ∀ (i : ℕ) (a : ℕ → ℝ) (u : MField c.tdim), SymSpace c.tdim k u →
      nn (entityDomain c (c.tdim - 1, i)) a u ∈ P (facetCell c).tdim k := by
    intro i a u hu
    rw [← hfc i]
    exact nn_mem (entityDomain c (c.tdim - 1, i)) a hu.2
  have hnn := nn_eq hc k hxs (hm i _ u hu) (hm i' _ u' hu') heq
  have hax : ∀ k ∈ axisVertices (facetCell c), k < c.tdim := by rcases hc with rfl | rfl <;> decide
  have hpos := hc.pos
  have hver : ∀ k < c.tdim, (physDomain c V (c.tdim - 1, i)).v k = (physDomain c V' (c.tdim - 1, i')).v k := fun k hk => hV k hk
  have hd : c.tdim = 2 ∨ c.tdim = 3 := by rcases hc with rfl | rfl <;> simp [Cell.tdim]
  have harea : areaVec c.tdim (physDomain c V (c.tdim - 1, i)).v = areaVec c.tdim (physDomain c V' (c.tdim - 1, i')).v := by
    unfold areaVec
    rw [hver 0 (by omega), hver 1 (by omega)]
    rcases hd with h | h
    · rw [if_pos h, if_pos h]
    · rw [hver 2 (by omega)]
  have hpar : y = (physDomain c V' (c.tdim - 1, i')).param t := by
    rw [hy]
    funext j
    have hcell : (physDomain c V (c.tdim - 1, i)).cell = facetCell c := hfc i
    have hcell' : (physDomain c V' (c.tdim - 1, i')).cell = facetCell c := hfc i'
    rw [Domain.param, Domain.param, hcell, hcell', hver 0 (by omega)]
    congr 1
    refine Finset.sum_congr rfl fun k hk => ?_
    rw [hver]
    by_cases h : k < (axisVertices (facetCell c)).length
    · rw [List.getD_eq_getElem _ _ h]
      exact hax _ (List.getElem_mem h)
    · rw [List.getD_eq_default _ _ (by omega)]
      omega
  refine (mapped_nn hc hu.2 hg (c.tdim - 1, i) t y fun j _ => by rw [hy]).trans ?_
  rw [harea]
  refine Eq.trans ?_ (mapped_nn hc hu'.2 hg' (c.tdim - 1, i') t y fun j _ => by rw [hpar]).symm
  exact congrArg (eval t) hnn

theorem hhj_trace {c : Cell} (hc : Simp c) (k : ℕ) {xs : List (MvPolynomial ℕ ℝ)} (hxs : lspan xs = P (c.tdim - 1) k)
    {dofs rest : List (Dof ℝ (MField c.tdim))} (h : (facetMoments c k none xs).mapM (nnDof c) = some dofs) :
    NormalNormalTrace c (SymSpace c.tdim k) (dofs ++ rest) := by
  intro i hi u hu hz z hzf
  have F := facet_facts hc hi
  obtain ⟨J, n, s, hJ, hs, h1, h2, h3⟩ := F.facts
  have hfc : (entityDomain c (c.tdim - 1, i)).cell = facetCell c := by rcases hc with rfl | rfl <;> rfl
  have hnn : nn (entityDomain c (c.tdim - 1, i)) (areaVec c.tdim (entityDomain c (c.tdim - 1, i)).v) u = 0 := by
    refine nn_eq hc k hxs ?_ (Submodule.zero_mem _) ?_
    · rw [← hfc]; exact nn_mem (entityDomain c (c.tdim - 1, i)) _ hu.2
    · rw [← nn_values hc k h (Nat.lt_succ_of_le hi)]
      have e : ∀ x : MvPolynomial ℕ ℝ, pairing1 (facetCell c) 0 x = 0 := fun x => by rw [pairing1_comm, map_zero]
      simp only [e]
      have hl : (entityFunctionals dofs (c.tdim - 1, i)).length = xs.length := by
        have := congrArg List.length (nn_values hc k h (Nat.lt_succ_of_le hi) u)
        simpa using this
      rw [List.map_const', ← hl, List.eq_replicate_iff]
      refine ⟨by simp, fun b hb => ?_⟩
      obtain ⟨d, hd, rfl⟩ := List.mem_map.1 hb
      rw [entityFunctionals, List.mem_filter] at hd
      exact hz d (List.mem_append_left _ hd.1) (by simpa using hd.2)
  obtain ⟨y, hy⟩ := F.covers z hzf
  have := eval_nn (entityDomain c (c.tdim - 1, i)) (areaVec c.tdim (entityDomain c (c.tdim - 1, i)).v) u y
  rw [hnn, map_zero] at this
  have hJs : (J * s) * (J * s) ≠ 0 := mul_ne_zero (mul_ne_zero hJ hs) (mul_ne_zero hJ hs)
  refine (mul_eq_zero.1 (Eq.trans ?_ this.symm)).resolve_left hJs
  unfold formAt
  rw [Finset.mul_sum]
  refine Finset.sum_congr rfl fun a _ => ?_
  rw [Finset.mul_sum]
  refine Finset.sum_congr rfl fun b _ => ?_
  have ha : ∀ j : Fin c.tdim, areaVec c.tdim (entityDomain c (c.tdim - 1, i)).v j.val = J * s * facetNormal i j.val := fun j => by
    rw [← facet_area hc h1 h2 hJ, h3 j.val j.2, mul_assoc]
  have hev : eval ((entityDomain c (c.tdim - 1, i)).param y) (u a b) = eval z (u a b) := eval_congr_P (hu.2 a b) fun l hl => hy l hl
  show _ = areaVec c.tdim (entityDomain c (c.tdim - 1, i)).v a.val * eval ((entityDomain c (c.tdim - 1, i)).param y) (u a b) *
    areaVec c.tdim (entityDomain c (c.tdim - 1, i)).v b.val
  rw [ha a, ha b, hev]
  ring

theorem hhj_count {c : Cell} (hc : Simp c) (k : ℕ) : (c.tdim + 1) * (k + (c.tdim - 1)).choose (c.tdim - 1) +
    (if k > 0 then (k - 1 + c.tdim).choose c.tdim * (directions c.tdim).length else 0) +
    (k + c.tdim).choose c.tdim * (directionsExtra c.tdim).length = symCount c.tdim k := by
  rcases hc with rfl | rfl
  · show 3 * (k + 1).choose 1 + (if k > 0 then (k - 1 + 2).choose 2 * 3 else 0) + (k + 2).choose 2 * 0 = (k + 2).choose 2 * 3
    rcases k with _ | k
    · simp [Nat.choose]
    · rw [if_pos (by omega), Nat.add_sub_cancel]
      have := Nat.choose_succ_succ (k + 2) 1
      have e : k + 1 + 2 = k + 2 + 1 := by omega
      rw [e, this]
      have e2 : k + 1 + 1 = k + 2 := by omega
      rw [e2]
      ring
  · show 4 * (k + 2).choose 2 + (if k > 0 then (k - 1 + 3).choose 3 * 4 else 0) + (k + 3).choose 3 * 2 = (k + 3).choose 3 * 6
    rcases k with _ | k
    · simp [Nat.choose]
    · rw [if_pos (by omega), Nat.add_sub_cancel]
      have := Nat.choose_succ_succ (k + 3) 2
      have e : k + 1 + 3 = k + 3 + 1 := by omega
      rw [e, this]
      have e2 : k + 1 + 2 = k + 3 := by omega
      rw [e2]
      ring

theorem nn_length {c : Cell} {k : ℕ} {xs : List (MvPolynomial ℕ ℝ)} {dofs : List (Dof ℝ (MField c.tdim))}
    (h : (facetMoments c k none xs).mapM (nnDof c) = some dofs) : dofs.length = (c.tdim + 1) * xs.length := by
  rw [← (mapM_forall h).length_eq, facetMoments, List.length_flatMap]
  simp

/-- **C129, C130.** Hellan–Herrmann–Johnson elements of every order on both cells: the element is created, its functions are
the symmetric matrices of polynomials of degree at most `k`, the functionals determine the functions, those of a facet
determine the normal-normal component on it, and functions mapped to two cells that share a facet have the same
normal-normal component there if the values of the functionals of the facet are the same. -/
theorem hhj_created {c : Cell} (hc : Simp c) (k : ℕ) :
    Created (hhjElement "equispaced" c k) (SymSpace c.tdim k) (symCount c.tdim k)
      (fun dofs => NormalNormalTrace c (SymSpace c.tdim k) dofs ∧ NormalNormalConform c (SymSpace c.tdim k) dofs) := by
  obtain ⟨l, h1, h2, h3, h4⟩ := hhj_poly hc k
  obtain ⟨xs, hx1, hx2, hx3⟩ := facet_moments hc k
  obtain ⟨facets, hf⟩ := nn_exists hc k xs
  obtain ⟨cells, hc1, hc2, hc3, hc4⟩ : ∃ cells, (if k > 0 then hhjCell "equispaced" c (k - 1) (directions c.tdim) else some []) =
      some cells ∧ cells.length = (if k > 0 then (k - 1 + c.tdim).choose c.tdim * (directions c.tdim).length else 0) ∧
      (∀ d ∈ cells, d.entity = (c.tdim, 0)) ∧ ∀ u, SymSpace c.tdim k u → (∀ d ∈ cells, d.eval u = 0) →
        ∀ M ∈ directions c.tdim, against M u ∈ orth c (k - 1 : ℤ) := by
    by_cases hk : k > 0
    · obtain ⟨dofs, g1, g2, g3, g4⟩ := hhj_cell hc (k - 1) (directions c.tdim)
      refine ⟨dofs, by rw [if_pos hk, g1], by rw [if_pos hk, g2], g3, fun u hu hz M hM => mem_orth.2 fun q hq => ?_⟩
      refine g4 u k hu.2 hz M hM q ?_
      rwa [Nat.cast_sub hk, Nat.cast_one]
    · refine ⟨[], by rw [if_neg hk], by rw [if_neg hk]; rfl, by simp, fun u hu hz M hM => mem_orth.2 fun q hq => ?_⟩
      rw [P_neg (by omega) hq, map_zero]
  obtain ⟨extra, g1, g2, g3, g4⟩ := hhj_cell hc k (directionsExtra c.tdim)
  have hrest : ∀ d ∈ cells ++ extra, d.entity = (c.tdim, 0) := fun d hd => (List.mem_append.1 hd).elim (hc3 d) (g3 d)
  have htr := hhj_trace hc k hx1 hf (rest := cells ++ extra)
  have hcon := hhj_conform hc k hx1 hf hrest
  have hlen : (facets ++ cells ++ extra).length = symCount c.tdim k := by
    rw [List.length_append, List.length_append, nn_length hf, hx2, hc2, g2, hhj_count hc]
  have hzero : ∀ u, SymSpace c.tdim k u → (∀ d ∈ facets ++ cells ++ extra, d.eval u = 0) → u = 0 := by
    intro u hu hz
    refine sym_zero hc hu.1 (fun i hi => ?_) fun M hM => ?_
    · refine vanish_orth hc hi (nnRef_mem i hu.2) (fun z h => ?_) (mem_orth.1 (nnRef_orth hc hu.1 _
        (hc4 u hu fun d hd => hz d (by simp [hd])) hi))
      rw [eval_nnRef]
      exact htr i hi u hu (fun d hd _ => hz d (by rw [List.append_assoc]; exact hd)) z h
    · refine eq_zero_of_pairing hc.solid (against_mem M hu.2) (fs := [against M u]) (Submodule.subset_span (by simp)) fun q hq => ?_
      rw [List.mem_singleton.1 hq]
      exact g4 u k hu.2 (fun d hd => hz d (by simp [hd])) M hM _ (against_mem M hu.2)
  obtain ⟨h5, fs, h6, h7, h8⟩ := ciarlet_basis (basis := l) (dofs := facets ++ cells ++ extra) (by rw [hlen, h2]) h3
    fun u hu hz => hzero u ((h4 u).1 hu) hz
  refine ⟨l, facets ++ cells ++ extra, fs, ?_, h6, hlen, by rw [h8, h2], fun u => by rw [h7, h4], hzero, ?_, ?_⟩
  · rw [hhjElement, h1, Option.bind_some, hx3, Option.bind_some, hf, Option.bind_some, hc1, Option.bind_some, g1, Option.bind_some]
    exact h5
  · rw [List.append_assoc]; exact htr
  · rw [List.append_assoc]; exact hcon

/-- Order 1 on the tetrahedron: 24 functionals. -/
example : Created (hhjElement "equispaced" .tetrahedron 1) (SymSpace 3 1) 24
    (fun dofs => NormalNormalTrace .tetrahedron (SymSpace 3 1) dofs ∧ NormalNormalConform .tetrahedron (SymSpace 3 1) dofs) :=
  hhj_created (Or.inr rfl) 1

end Verif.Matrices
