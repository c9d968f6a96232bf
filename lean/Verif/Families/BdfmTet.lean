import Verif.Families.BdfmSimp
import Mathlib.LinearAlgebra.Dual.Lemmas
/-!
# `BDFM` on tetrahedra

The functions `(p (x + y), 0, y p)` added by `bdfm_polyset` on a tetrahedron have normal components of full degree on the
facet `z = 0`, so the elements of order 2 and above are not in H(div).
-/

namespace Verif.Families
open Verif.References Verif.Moments Verif.Functionals Verif.Elements Verif.FiniteElement Verif.Polysets Verif.Orthogonal
open MvPolynomial

theorem length_bdfmTetFns {k : ℕ} (hk : 1 ≤ k) : (bdfmTetFns k).length = 3 * k.choose 2 + 2 * k - 1 := by
  have : ∀ k : ℕ, ((List.range (k - 1)).map fun i : ℕ => (k - i - 1) * 3).sum = 3 * k.choose 2 := by
    intro k
    rw [sum_map_range, ← Finset.sum_mul, mul_comm]
    congr 1
    rcases k with _ | n
    · rfl
    · rw [show (n + 1).choose 2 = ∑ i ∈ Finset.range (n + 1), i from by rw [Finset.sum_range_id, Nat.choose_two_right],
        Finset.sum_range_succ', ← Finset.sum_range_reflect, add_zero]
      refine Finset.sum_congr rfl fun i hi => ?_
      have := Finset.mem_range.1 hi
      omega
  simp only [bdfmTetFns, List.length_append, List.length_flatMap, List.length_map, List.length_range, List.length_range', List.length_cons,
    List.length_nil, List.map_const', List.sum_replicate, smul_eq_mul]
  rw [this k]
  omega

theorem momentMap_single (D : Domain) (J s : ℝ) {n : ℕ → ℝ} (x : MvPolynomial ℕ ℝ) (v : Field D.g) {a : ℕ} (ha : a < D.g)
    (hn : ∀ j, n j = if j = a then 1 else 0) :
    momentMap D J (fun i => C (s * n i.val) * x) v = J * s * pairing1 D.cell (pull D (v ⟨a, ha⟩)) x := by
  rw [← momentMap_scale, momentMap_eq]
  congr 1
  show _ = cellInt D.cell fun z => eval z (pull D (v ⟨a, ha⟩) * x)
  congr 1
  funext z
  congr 1
  rw [Finset.sum_eq_single ⟨a, ha⟩]
  · rw [hn, if_pos rfl, C_1, one_mul]
  · intro j _ hj
    rw [hn, if_neg fun hc => hj (Fin.ext hc), C_0, zero_mul, mul_zero]
  · intro hc; exact absurd (Finset.mem_univ _) hc

/-- The functionals of a `BDFM` element on a tetrahedron. -/
theorem bdfmTet_dofs {k : ℕ} (hk : 1 ≤ k) : ∃ ps dofs, polySet 3 ((k : ℤ) - 1) = some ps ∧
    bdfmSimp "equispaced" .tetrahedron k =
      some (.ciarlet ((vectorSet 3 ps ++ bdfmTetFns k).map (denoteVec ℝ 3)) dofs) ∧
    ∀ v : Field 3, (∀ x ∈ P 2 ((k : ℤ) - 1), pairing1 .triangle (pull (entityDomain .tetrahedron (2, 3)) (v 2)) x = 0) →
      ∀ d ∈ dofs, d.entity = (2, 3) → d.eval v = 0 := by
  obtain ⟨ps, hps, -, -⟩ := polySet_spec 3 (by omega) ((k : ℤ) - 1)
  have hc : Simp .tetrahedron := Or.inr rfl
  obtain ⟨xs, hx, hxs, hxl⟩ := sub_lagrange (facetCell_simplex .tetrahedron) (classes := classes2) (by simp [classes2, classes1])
    "NormalIntegralMoment" ((k : ℤ) - 1) none
  obtain ⟨ys, hy, -, hyl⟩ := sub_n1 hc "IntegralMoment" ((k : ℤ) - 1) none
  have hms := hdiv_moments hc (A := [.cls "NormalIntegralMoment", .cls "Lagrange", .int ((k : ℤ) - 1), .dict [("variant", "equispaced")]])
    (B := [.cls "IntegralMoment", .cls "NedelecFirstKind", .int ((k : ℤ) - 1), .dict [("variant", "equispaced")]]) rfl rfl hx hy
  obtain ⟨dofs, hdofs⟩ := mapM_exists (f := momentDof .tetrahedron) (l := hdivMoments .tetrahedron
      ⟨"NormalIntegralMoment", "Lagrange", (k : ℤ) - 1, none, [("variant", "equispaced")]⟩
      ⟨"IntegralMoment", "NedelecFirstKind", (k : ℤ) - 1, none, [("variant", "equispaced")]⟩ (xs.map .scalar) (ys.map (.vector Cell.tetrahedron.tdim))) (by
    intro mo hmo
    simp only [hdivMoments, List.mem_append, List.mem_flatMap, List.mem_range, List.mem_map] at hmo
    rcases hmo with ⟨i, hi, _, ⟨x, -, rfl⟩, rfl⟩ | ⟨_, ⟨y, -, rfl⟩, rfl⟩
    · obtain ⟨J, s, -, -, h⟩ := facet_moment hc (Nat.lt_succ_iff.1 hi) none
      obtain ⟨d, hd, -⟩ := h x
      exact ⟨d, hd⟩
    · obtain ⟨d, hd, -⟩ := cell_moment hc y none
      exact ⟨d, hd⟩)
  have hl : (vectorSet 3 ps ++ bdfmTetFns k).length = dofs.length := by
    rw [← (mapM_forall hdofs).length_eq, hdivMoments_length, List.length_map, List.length_map, hxl, hyl]
    obtain ⟨n, rfl⟩ := Nat.exists_eq_add_of_le' hk
    rw [show ((n + 1 : ℕ) : ℤ) - 1 = (n : ℕ) by push_cast; ring] at hps
    have h1 := polySet_length _ _ _ hps
    rw [if_neg (by omega), show (((n + 1 : ℕ) : ℤ) - 1).toNat = n by omega, List.length_append, length_bdfmTetFns (by omega),
      vectorSet_eq_vkeys, List.length_map]
    simp only [vkeys, List.length_flatMap, List.length_map, List.length_range, List.map_const', List.sum_replicate, smul_eq_mul, h1,
      facetCell, Cell.tdim]
    have h2 := choose_two n
    have h3 := choose_three n
    have h4 := n1_half n
    have h5 : 2 * (n + 1).choose 2 = (n + 1) * n := by
      rcases n with _ | m
      · rfl
      · exact choose_two m
    rw [show 3 * (n + 1).choose 2 + 2 * (n + 1) - 1 = 3 * (n + 1).choose 2 + 2 * n + 1 by omega]
    nlinarith
  refine ⟨ps, dofs, hps, ?_, fun v hv d hd he => ?_⟩
  · have hpoly : bdfmSimpSet Cell.tetrahedron.tdim k = some (vectorSet 3 ps ++ bdfmTetFns k) := by
      show (polySetVector 3 3 ((k : ℤ) - 1)).map _ = _
      rw [polySetVector, hps, Option.map_some, Option.map_some]
      rfl
    have : ciarlet ((vectorSet 3 ps ++ bdfmTetFns k).map (denoteVec ℝ Cell.tetrahedron.tdim)) dofs =
        some (.ciarlet ((vectorSet 3 ps ++ bdfmTetFns k).map (denoteVec ℝ Cell.tetrahedron.tdim)) dofs) :=
      if_pos (by rw [List.length_map]; exact hl.symm)
    simp only [bdfmSimp, momentElement, hpoly, hms, Option.bind_some]
    exact (congrArg (Option.bind · _) hdofs).trans this
  · obtain ⟨mo, hmo, hd'⟩ := forall₂_mem_left (mapM_forall hdofs) hd
    simp only [hdivMoments, List.mem_append, List.mem_flatMap, List.mem_range, List.mem_map] at hmo
    rcases hmo with ⟨i, hi, _, ⟨x, hx', rfl⟩, rfl⟩ | ⟨_, ⟨y, -, rfl⟩, rfl⟩
    · obtain ⟨J, s, -, -, h⟩ := facet_moment hc (Nat.lt_succ_iff.1 hi) none
      obtain ⟨d', hd1, hd2, hd3⟩ := h x
      obtain rfl := Option.some.inj (hd'.symm.trans hd1)
      obtain rfl : i = 3 := by
        have := hd2.symm.trans he
        exact (Prod.mk.inj this).2
      have hx2 : x ∈ P 2 ((k : ℤ) - 1) := by
        have : lspan xs = P 2 ((k : ℤ) - 1) := hxs
        rw [← this]
        exact mem_lspan hx'
      have h0 := hv x hx2
      refine (hd3 v).trans ((momentMap_single (entityDomain .tetrahedron (2, 3)) J s x v (a := 2) (by decide) fun j => ?_).trans
        (mul_eq_zero_of_right _ h0))
      simp [facetNormal]
    · obtain ⟨d', hd1, hd2, -⟩ := cell_moment hc y none
      obtain rfl := Option.some.inj (hd'.symm.trans hd1)
      have := congrArg Prod.fst (hd2.symm.trans he)
      simp [Cell.tdim] at this

/-- Orthogonal projection onto polynomials. -/
theorem exists_proj {c : Cell} (hc : Solid c) {k : ℤ} {xs : List (MvPolynomial ℕ ℝ)} (hxs : lspan xs = P c.tdim k) (p : MvPolynomial ℕ ℝ) :
    ∃ q ∈ P c.tdim k, ∀ r ∈ P c.tdim k, pairing1 c (p - q) r = 0 := by
  have hsymm : ∀ u w, pairing1 c u w = pairing1 c w u := fun u w => by
    show cellInt c (fun z => eval z (u * w)) = cellInt c (fun z => eval z (w * u))
    rw [mul_comm]
  have : FiniteDimensional ℝ (P c.tdim k) := by
    rw [← hxs]
    exact FiniteDimensional.span_of_finite ℝ (List.finite_toSet xs)
  let T : P c.tdim k →ₗ[ℝ] Module.Dual ℝ (P c.tdim k) :=
    { toFun := fun q => (pairing1 c q.1).comp (P c.tdim k).subtype
      map_add' := fun a b => LinearMap.ext fun r => by
        show pairing1 c (a.1 + b.1) r.1 = pairing1 c a.1 r.1 + pairing1 c b.1 r.1
        rw [hsymm, map_add, hsymm, hsymm r.1 b.1]
      map_smul' := fun s a => LinearMap.ext fun r => by
        show pairing1 c (s • a.1) r.1 = s • pairing1 c a.1 r.1
        rw [hsymm, map_smul, hsymm] }
  have hinj : Function.Injective T := by
    rw [← LinearMap.ker_eq_bot, LinearMap.ker_eq_bot']
    intro q hq
    refine Subtype.ext (eq_zero_of_pairing hc q.2 (fs := xs) (by rw [hxs]; exact q.2) fun f hf => ?_)
    have hf' : f ∈ P c.tdim k := by rw [← hxs]; exact mem_lspan hf
    exact congrArg (fun L => L ⟨f, hf'⟩) hq
  obtain ⟨q, hq⟩ := (LinearMap.injective_iff_surjective_of_finrank_eq_finrank (Subspace.dual_finrank_eq (K := ℝ)).symm).1 hinj
    ((pairing1 c p).comp (P c.tdim k).subtype)
  refine ⟨q.1, q.2, fun r hr => ?_⟩
  have := congrArg (fun L => L ⟨r, hr⟩) hq
  rw [hsymm, map_sub, hsymm, hsymm r q.1, sub_eq_zero]
  exact this.symm

/-- If functions with non-zero values of a linear functional are not seen by the functionals of an entity, there is a basis
function of another entity with this property. -/
theorem exists_basis_function {V : Type} [AddCommGroup V] [Module ℝ V] {basis fs : List V} {dofs : List (Dof ℝ V)}
    (h : getBasis (.ciarlet basis dofs) = some fs) {v : V} (hv : v ∈ lspan basis) {L : V →ₗ[ℝ] ℝ} (hL : L v ≠ 0) {e : ℕ × ℕ}
    (he : ∀ d ∈ dofs, d.entity = e → d.eval v = 0) :
    ∃ (i : ℕ) (f : V) (d : Dof ℝ V), fs[i]? = some f ∧ dofs[i]? = some d ∧ d.entity ≠ e ∧ L f ≠ 0 := by
  obtain ⟨h1, h2⟩ := getBasis_ciarlet_dual _ _ _ h
  have hv : v ∈ lspan fs := by rw [show lspan fs = lspan basis from getBasis_ciarlet_span _ _ _ h]; exact hv
  let T : V →ₗ[ℝ] V := ∑ i : Fin fs.length, ((dofs[i.val]'(by have := i.2; omega)).eval).smulRight (fs[i.val]'i.2)
  have hTd : ∀ w, T w = ∑ i : Fin fs.length, ((dofs[i.val]'(by have := i.2; omega)).eval).smulRight (fs[i.val]'i.2) w :=
    fun w => LinearMap.sum_apply _ _ _
  have hT : ∀ w ∈ lspan fs, T w = w := by
    intro w hw
    refine LinearMap.eqOn_span (f := T) (g := LinearMap.id) (fun f hf => ?_) hw
    obtain ⟨j, hj, rfl⟩ := List.getElem_of_mem hf
    show T _ = _
    rw [hTd, Finset.sum_eq_single ⟨j, hj⟩]
    · rw [LinearMap.smulRight_apply, h2 j j _ _ (List.getElem?_eq_getElem _) (List.getElem?_eq_getElem _), if_pos rfl, one_smul]
      rfl
    · intro i _ hi
      rw [LinearMap.smulRight_apply, h2 j i.val _ _ (List.getElem?_eq_getElem _) (List.getElem?_eq_getElem _),
        if_neg fun hh => hi (Fin.ext hh.symm), zero_smul]
    · intro hh; exact absurd (Finset.mem_univ _) hh
  by_contra hc
  push Not at hc
  apply hL
  rw [← hT v hv]
  rw [hTd, map_sum]
  refine Finset.sum_eq_zero fun i _ => ?_
  rw [LinearMap.smulRight_apply, map_smul]
  by_cases hd : (dofs[i.val]'(by have := i.2; omega)).entity = e
  · rw [he _ (List.getElem_mem _) hd, zero_smul]
  · rw [hc i.val _ _ (List.getElem?_eq_getElem i.2) (List.getElem?_eq_getElem _) hd, smul_zero]

theorem tet_param (y : ℕ → ℝ) {j : ℕ} (hj : j < 2) : (entityDomain .tetrahedron (2, 3)).param y j = y j := by
  have hc : ∀ i, (entityDomain .tetrahedron (2, i)).cell = .triangle := fun _ => rfl
  have hv : ∀ i j k, (entityDomain .tetrahedron (2, i)).v j k =
    refVertex .tetrahedron ((entVerts .tetrahedron 2 i).getD j 0) k := fun _ _ _ => rfl
  have e3 : entVerts .tetrahedron 2 3 = [0, 1, 2] := rfl
  interval_cases j <;> norm_num [Domain.param, hc, hv, e3, Finset.sum_range_succ, axisVertices, refVertex, refVerts, coords, Cell.tdim]

theorem tet_pull {p : MvPolynomial ℕ ℝ} {k : ℤ} (hp : p ∈ P 2 k) : pull (entityDomain .tetrahedron (2, 3)) p = p := by
  refine MvPolynomial.funext fun y => ?_
  rw [eval_pull]
  exact eval_congr_P hp fun i hi => tet_param y hi

/-- **C94.** `BDFM` elements of order 2 and above on a tetrahedron are not in H(div): among the basis functions there is one
that is not associated with the facet `z = 0`, but has a non-zero normal component there. -/
theorem bdfmTet_nonconforming {k : ℕ} (hk : 2 ≤ k) : ∃ basis dofs,
    bdfmSimp "equispaced" .tetrahedron k = some (.ciarlet basis dofs) ∧
    ∀ fs, getBasis (.ciarlet basis dofs) = some fs →
      ∃ (i : ℕ) (f : Field 3) (d : Dof ℝ (Field 3)) (z : ℕ → ℝ), fs[i]? = some f ∧ dofs[i]? = some d ∧ d.entity ≠ (2, 3) ∧
        OnFacet 3 3 z ∧ ∑ j : Fin 3, facetNormal 3 j.val * eval z (f j) ≠ 0 := by
  obtain ⟨ps, dofs, hps, h1, h2⟩ := bdfmTet_dofs (k := k) (by omega)
  refine ⟨_, dofs, h1, fun fs hfs => ?_⟩
  obtain ⟨xs, -, hxs, -⟩ := sub_lagrange (t := .triangle) (by simp [Simplex]) (classes := classes2) (by simp [classes2, classes1])
    "NormalIntegralMoment" ((k : ℤ) - 1) none
  obtain ⟨q, hq, hq'⟩ := exists_proj (c := .triangle) (by simp [Solid]) hxs (denoteMono ℝ [1, k - 1 - 1 + 1])
  have hq2 : q ∈ P 2 ((k : ℤ) - 1) := hq
  have hm : denoteMono ℝ [1, k - 1 - 1 + 1] ∈ P 2 (k : ℤ) := denoteMono_mem rfl (by simp; omega)
  let E : VecPoly := [[(1, [1 + 1, k - 1 - 1, 0]), (1, [1, k - 1 - 1 + 1, 0])], [], [(1, [1, k - 1 - 1 + 1, 0])]]
  let v : Field 3 := denoteVec ℝ 3 E - Pi.single 2 q
  have hv2 : v 2 = denoteMono ℝ [1, k - 1 - 1 + 1] - q := by
    show denoteVec ℝ 3 E 2 - (Pi.single 2 q : Field 3) 2 = _
    rw [Pi.single_eq_same]
    congr 1
    simp [denoteVec, E, denotePoly, den2, den3]
  have hv2P : v 2 ∈ P 2 (k : ℤ) := by
    rw [hv2]
    exact Submodule.sub_mem _ hm (P_mono (by omega) hq2)
  have hvs : v ∈ lspan ((vectorSet 3 ps ++ bdfmTetFns k).map (denoteVec ℝ 3)) := by
    rw [List.map_append, lspan_append]
    refine Submodule.sub_mem _ (Submodule.mem_sup_right (mem_lspan (List.mem_map_of_mem ?_))) (Submodule.mem_sup_left ?_)
    · refine List.mem_append_right _ (List.mem_map.2 ⟨1, ?_, rfl⟩)
      rw [List.mem_range'_1]
      omega
    · obtain ⟨l, hl, hls⟩ := polySetVector_lspan (d := 3) (by omega) 3 ((k : ℤ) - 1)
      rw [polySetVector, hps, Option.map_some] at hl
      obtain rfl := Option.some.inj hl
      rw [hls]
      refine mem_PV.2 fun i => ?_
      by_cases hi : i = 2
      · subst hi
        rw [Pi.single_eq_same]
        exact mem_P.2 fun t ht => ⟨(mem_P.1 hq2 t ht).1, fun i hi => lt_trans ((mem_P.1 hq2 t ht).2 i hi) (by omega)⟩
      · rw [Pi.single_eq_of_ne hi]
        exact Submodule.zero_mem _
  have hne : v 2 ≠ 0 := by
    intro h0
    rw [hv2, sub_eq_zero] at h0
    rw [← h0] at hq2
    rw [denoteMono, monoFrom_eq] at hq2
    have := (monomial_mem_restrictSupport ℝ).1 hq2
    rcases this with ⟨h, -⟩ | h
    · rw [expo_sum] at h
      simp at h
      omega
    · exact one_ne_zero h
  obtain ⟨z, hz⟩ : ∃ z, eval z (v 2) ≠ 0 := by
    by_contra hc
    push Not at hc
    exact hne (MvPolynomial.funext fun z => by rw [hc z, map_zero])
  let z' : ℕ → ℝ := fun i => if i < 2 then z i else 0
  have hz' : eval z' (v 2) ≠ 0 := by
    rw [eval_congr_P hv2P (z := z) fun i hi => if_pos hi]
    exact hz
  have hsum : ∀ f : Field 3, ∑ j : Fin 3, facetNormal 3 j.val * eval z' (f j) = eval z' (f 2) := by
    intro f
    rw [Fin.sum_univ_three]
    simp [facetNormal]
  let L : Field 3 →ₗ[ℝ] ℝ := (aeval (R := ℝ) z').toLinearMap ∘ₗ LinearMap.proj 2
  have hL : ∀ f : Field 3, L f = eval z' (f 2) := fun f => by
    show aeval z' (f 2) = _
    simp [aeval_eq_eval]
  obtain ⟨i, f, d, g1, g2, g3, g4⟩ := exists_basis_function hfs hvs (L := L) (fun hh => hz' ((hL v).symm.trans hh)) (e := (2, 3))
    (h2 v fun x hx => by
      rw [tet_pull hv2P, hv2]
      exact hq' x hx)
  refine ⟨i, f, d, z', g1, g2, g3, ?_, ?_⟩
  · simp [OnFacet, z']
  · exact fun hh => g4 ((hL f).trans ((hsum f).symm.trans hh))

/-- **C94.** The `BDFM` element of order 1 on a tetrahedron. -/
theorem bdfmTet_created_one :
    Created (bdfmSimp "equispaced" .tetrahedron 1) (· ∈ BDFMS 3 1) 4
      (fun dofs => NormalTrace .tetrahedron (· ∈ BDFMS 3 1) dofs ∧ NormalConform .tetrahedron (· ∈ BDFMS 3 1) dofs) := by
  have hps : polySet 3 0 = some [[0, 0, 0]] := rfl
  have hpoly : bdfmSimpSet Cell.tetrahedron.tdim 1 = some (vectorSet 3 [[0, 0, 0]] ++ [()].map fun _ =>
      [[(1, [1, 0, 0])], [(1, [0, 1, 0])], [(1, [0, 0, 1])]]) := rfl
  have hc : Simp .tetrahedron := Or.inr rfl
  obtain ⟨xs, hx, hxs, hxl⟩ := sub_lagrange (facetCell_simplex .tetrahedron) (classes := classes2) (by simp [classes2, classes1])
    "NormalIntegralMoment" 0 none
  obtain ⟨ys, hy, hys, hyl⟩ := sub_n1 hc "IntegralMoment" 0 none
  rw [facetCell_tdim hc] at hxs
  have hind : Independent ℝ ((vectorSet 3 [[0, 0, 0]] ++ [()].map fun _ => [[(1, [1, 0, 0])], [(1, [0, 1, 0])], [(1, [0, 0, 1])]]).map
      (denoteVec ℝ 3)) := by
    refine independent_vec_append 3 3 (by simp) (M := 0) (by simp) _ _ (fun _ => 0) (fun _ => [1, 0, 0]) (fun _ => 0) (by simp) ?_ ?_ ?_ ?_ ?_
    · intro a _ p hp t ht
      simp only [List.mem_cons, List.not_mem_nil, or_false] at hp
      rcases hp with rfl | rfl | rfl <;> simp only [List.mem_cons, List.not_mem_nil, or_false] at ht <;> subst ht <;> simp
    · simp
    · simp
    · simp [vcoeff, termCoeff]
    · rintro ⟨⟩ _ ⟨⟩ _ h
      exact absurd rfl h
  have hle : lspan ((vectorSet 3 [[0, 0, 0]] ++ [()].map fun _ => [[(1, [1, 0, 0])], [(1, [0, 1, 0])], [(1, [0, 0, 1])]]).map
      (denoteVec ℝ 3)) ≤ BDFMS 3 1 := by
    rw [List.map_append, lspan_append]
    refine sup_le ?_ ?_
    · obtain ⟨l, hl, hls⟩ := polySetVector_lspan (d := 3) (by omega) 3 0
      rw [polySetVector, hps, Option.map_some] at hl
      obtain rfl := Option.some.inj hl
      rw [hls]
      exact PV_le_BDFMS (k := 1)
    · rw [Submodule.span_le]
      intro q hq
      simp only [List.map_cons, List.map_nil, List.mem_cons, List.not_mem_nil, or_false, Set.mem_ofPred_eq] at hq
      subst hq
      have e : denoteVec ℝ 3 [[(1, [1, 0, 0])], [(1, [0, 1, 0])], [(1, [0, 0, 1])]] = fun i : Fin 3 => X i.val := by
        funext i
        fin_cases i <;> simp [denoteVec, denotePoly, den3]
      rw [e]
      refine ⟨fun i => X_mem i.2, fun i hi => ?_⟩
      have hC : (C (if i = 0 then 1 else 0) : MvPolynomial ℕ ℝ) ∈ P 3 (1 - 1) := C_mem _ (by norm_num)
      refine ⟨_, hC, fun z hz => ?_⟩
      simp only [Fin.sum_univ_three, eval_X, eval_C]
      simp only [OnFacet, Fin.sum_univ_three] at hz
      interval_cases i <;> simp [facetNormal] at hz ⊢ <;> linarith
  have h4 : (vectorSet 3 [[0, 0, 0]] ++ [()].map fun _ => ([[(1, [1, 0, 0])], [(1, [0, 1, 0])], [(1, [0, 0, 1])]] : VecPoly)).length = 4 := rfl
  rw [← h4]
  refine hdiv_created_full hc hpoly hind (W := BDFMS 3 1) hle (fun v hv => hv.1)
    (fun v hv i hi => BDFMS.comp hc hv hi) rfl rfl hx hy rfl rfl hxs
    (fun v hv hn hp => bdm_zero hc hv.1 hn fun q hq => pairing_lspan hp ((hys q).2 hq)) ?_
  rw [hxl, hyl]
  rfl

end Verif.Families
