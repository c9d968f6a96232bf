import Verif.Families.TntDiv
import Verif.Families.TrimmedCurl
/-!
# Tiniest tensor product H(curl) elements on quadrilaterals

`TNTcurl` (symfem/elements/tnt.py:157-332) on a quadrilateral.  C154.
-/

namespace Verif.Families
open Verif.References Verif.Moments Verif.Functionals Verif.Elements Verif.FiniteElement Verif.Polysets Verif.Orthogonal
open Verif.Scalar (tntP tntB legQ bQ degree_bQ)
open MvPolynomial

/-! ### Model -/

/-- The field made of `p` and `b` (symfem/elements/tnt.py:174-184). -/
noncomputable def tntCurlPair (k : ℕ) (q : ℕ × ℕ) : Field 2 :=
  ![tntP k (C (q.1 : ℝ) * X 0) * tntB (k + 1) (C (q.2 : ℝ) * X 1), -tntB (k + 1) (C (q.1 : ℝ) * X 0) * tntP k (C (q.2 : ℝ) * X 1)]

/-- `poly` on a quadrilateral (symfem/elements/tnt.py:171-184). -/
noncomputable def tntCurlPoly (k : ℕ) : List (Field 2) := (quolySetVector 2 2 k).map (denoteVec ℝ 2) ++ tntPairs.map (tntCurlPair k)

/-- The functions of symfem/elements/tnt.py:231-240; `i` and `j` of the code are `i + 2` and `j + 2` here. -/
noncomputable def tntCurlWhirl (i j : ℕ) : List (MvPolynomial ℕ ℝ) :=
  [X 1 ^ (j + 1) * (1 - X 1) * X 0 ^ i * (C ((i : ℝ) + 2) * X 0 - C ((i : ℝ) + 2) + 1),
   -(X 0 ^ (i + 1)) * (1 - X 0) * X 1 ^ j * (C ((j : ℝ) + 2) - 1 - C ((j : ℝ) + 2) * X 1)]

/-- `TNTcurl(reference, order, variant)` on a quadrilateral (symfem/elements/tnt.py:160-184, 216-243, 300). -/
noncomputable def tntcurl (variant : String) (k : ℕ) : Option (Element ℝ (Field Cell.quadrilateral.tdim)) :=
  (makeIntegralMomentDofs (qClasses 0) .quadrilateral
    { edges := some (.single [.cls "TangentIntegralMoment", .cls "Q", .int (k : ℤ), .dict [("variant", variant)]]) }).bind fun ms =>
  (ms.mapM (momentDof .quadrilateral)).bind fun dofs =>
  ((tntExps k).mapM fun m => againstDof .quadrilateral (2, 0) "contravariant" (turnedGrad m)).bind fun gs =>
  ((tntInds k).mapM fun q => againstDof .quadrilateral (2, 0) "contravariant" (tntCurlWhirl q.1 q.2)).bind fun ws =>
    ciarlet (tntCurlPoly k) (dofs ++ (gs ++ ws))

/-! ### The space -/

/-- Fields whose components have degree at most `k` in each variable, with three more fields. -/
noncomputable def TntCurl (k : ℕ) : Submodule ℝ (Field 2) :=
  (Submodule.pi Set.univ fun _ : Fin 2 => QP 2 (k : ℤ)) ⊔
    Submodule.span ℝ {![0, X 0 ^ (k + 1)], ![X 1 ^ (k + 1), 0], ![legX k 0 * X 1 ^ (k + 1), -(X 0 ^ (k + 1) * legX k 1)]}

/-- The fields are those of the H(div) element, turned. -/
theorem mem_TntCurl {k : ℕ} {v : Field 2} : v ∈ TntCurl k ↔ rot v ∈ TntDiv k := by
  rw [mem_TntDiv, TntCurl, Submodule.mem_sup]
  simp only [Submodule.mem_pi, Set.mem_univ, forall_true_left, Submodule.mem_span_triple]
  have hq' : ∀ {q : Field 2}, (∀ i, q i ∈ QP 2 (k : ℤ)) → ∀ i, rot q i ∈ QP 2 (k : ℤ) := fun {q} hq i => by
    fin_cases i
    · exact Submodule.neg_mem _ (hq 1)
    · exact hq 0
  constructor
  · rintro ⟨q, hq, _, ⟨a, b, c, rfl⟩, rfl⟩
    refine ⟨rot q, hq' hq, -a, b, c, ?_, ?_⟩
    · rw [rot_zero, rot_zero]
      simp [smul_eq_C_mul]; ring
    · rw [rot_one, rot_one]
      simp [smul_eq_C_mul]; ring
  · rintro ⟨q, hq, a, b, c, h0, h1⟩
    rw [rot_zero] at h0
    rw [rot_one] at h1
    refine ⟨-rot q, fun i => Submodule.neg_mem _ (hq' hq i), _, ⟨-a, b, c, rfl⟩, ?_⟩
    funext i
    fin_cases i
    · refine Eq.trans ?_ h1.symm
      show -rot q 0 + _ = _
      rw [rot_zero]
      simp [smul_eq_C_mul]; ring
    · refine Eq.trans ?_ ((neg_eq_iff_eq_neg.1 h0).symm)
      show -rot q 1 + _ = _
      rw [rot_one]
      simp [smul_eq_C_mul]; ring

theorem TntCurl_P {k : ℕ} {v : Field 2} (hv : v ∈ TntCurl k) (j : Fin 2) : v j ∈ P 2 (2 * (k : ℤ) + 1) := by
  have h1 : rot v ∈ PV 2 2 (2 * (k : ℤ) + 1) := mem_PV.2 (TntDiv_P (mem_TntCurl.1 hv))
  have h2 := rot_mem h1
  rw [rot_rot] at h2
  have h3 := Submodule.neg_mem _ h2
  rw [neg_neg] at h3
  exact mem_PV.1 h3 j

theorem rot_pair (k : ℕ) (q : ℕ × ℕ) : rot (tntCurlPair k q) = tntPair k q := by
  funext i
  fin_cases i
  · show -(-_ * _) = _
    rw [neg_mul, neg_neg]
    rfl
  · rfl

theorem QP_TntCurl {k : ℕ} {v : Field 2} (h : ∀ i, v i ∈ QP 2 (k : ℤ)) : v ∈ TntCurl k :=
  mem_TntCurl.2 (QP_TntDiv fun i => by
    fin_cases i
    · exact Submodule.neg_mem _ (h 1)
    · exact h 0)

theorem tntCurlPoly_mem {k : ℕ} (hk : 1 ≤ k) {v : Field 2} (hv : v ∈ tntCurlPoly k) : v ∈ TntCurl k := by
  rcases List.mem_append.1 hv with h | h
  · exact QP_TntCurl ((quolyVector_lspan 2 k v).1 (Submodule.subset_span h))
  · obtain ⟨q, hq, rfl⟩ := List.mem_map.1 h
    rw [mem_TntCurl, rot_pair]
    exact tntPair_mem hk hq

theorem tntCurlPoly_length (k : ℕ) : (tntCurlPoly k).length = 2 * (k + 1) ^ 2 + 3 := by
  rw [← tntDivPoly_length, tntCurlPoly, tntDivPoly]
  simp

theorem tntCurlPoly_independent {k : ℕ} (hk : 1 ≤ k) : Independent ℝ (tntCurlPoly k) := by
  have hi := tntDivPoly_independent hk
  rw [tntDivPoly, show tntPairs.map (tntPair k) = (tntPairs.map (tntCurlPair k)).map rot by
    rw [List.map_map]; exact List.map_congr_left fun q _ => (rot_pair k q).symm] at hi
  refine independent_append ((vector_sets_independent ℝ 2).2.1 _ _) (independent_of_map rot (independent_right hi)) ?_
  rw [Submodule.disjoint_def]
  intro w hw hw'
  refine rot_injective ?_
  refine Submodule.disjoint_def.1 (disjoint_of_independent hi) _ ((quolyVector_lspan 2 k _).2 fun i => ?_) ?_
  · have h := (quolyVector_lspan 2 k w).1 hw
    fin_cases i
    · exact Submodule.neg_mem _ (h 1)
    · exact h 0
  · rw [lspan_map]
    exact Submodule.mem_map_of_mem hw'

/-! ### Creation -/

/-- The moments when there is a sub-element on the edges only. -/
theorem edge_moments {classes : String → ElementClass Fun} {A : List Item} {dA : Data} (hA : parse A = some dA)
    {xs : List (MvPolynomial ℕ ℝ)} (hx : subFuns classes dA .interval = some (xs.map .scalar)) :
    makeIntegralMomentDofs classes .quadrilateral { edges := some (.single A) } =
      some ((List.range 4).flatMap fun i => xs.map fun x => ⟨dA.moment, .scalar x, (1, i), dA.mapping⟩) := by
  have e0 : ∀ dim : ℤ, slotDofs classes .quadrilateral dim none = some [] := fun _ => rfl
  have h1 : slotDofs classes .quadrilateral 1 (some (.single A)) = some ((List.range 4).flatMap fun i =>
      (xs.map Fun.scalar).map fun x => ⟨dA.moment, x, (1, i), dA.mapping⟩) :=
    slot_uniform (c := .quadrilateral) (t := .interval) (dim := 1) (by omega) (by omega) (by decide) rfl hA hx
  unfold makeIntegralMomentDofs slots
  simp only [List.mapM_cons, List.mapM_nil, e0, h1, Option.bind_eq_bind, Option.bind_some, Option.pure_def, Option.map_some,
    List.flatten_cons, List.flatten_nil, List.nil_append, List.append_nil, List.map_map, Function.comp_def]

/-- The component along an edge. -/
theorem rot_edge_QP {k : ℕ} {v : Field 2} (hv : RTQ 2 ((k : ℤ) + 1) (rot v)) {i : ℕ} (hi : i < 4) {a : ℕ} (ha : a < 2)
    (hax : ∀ j, axis .interval (entityDomain .quadrilateral (1, i)).v 0 j = if j = a then 1 else 0) :
    pull ⟨.interval, 2, (entityDomain .quadrilateral (1, i)).v⟩ (v ⟨a, ha⟩) ∈ QP 1 (k : ℤ) := by
  have hax' := (quad_facet hi).axes 0 (show 0 < 1 by omega)
  have e : a = skip (qAxis 2 i) 0 := by
    by_contra hne
    have h1 := hax a
    have h2 := hax' a
    rw [if_pos rfl] at h1
    rw [if_neg hne] at h2
    exact one_ne_zero (h1.symm.trans h2)
  have hq : qAxis 2 i < 2 := qAxis_lt hi
  have hne : a ≠ qAxis 2 i := by rw [e]; exact skip_ne _ _
  have h1 := hv ⟨qAxis 2 i, hq⟩
  rw [add_sub_cancel_right] at h1
  have h2 : v ⟨a, ha⟩ ∈ B (degs 2 (qAxis 2 i) ((k : ℤ) + 1) k) := by
    have key : ∀ b : Fin 2, b.val = qAxis 2 i → rot v b ∈ B (degs 2 (qAxis 2 i) ((k : ℤ) + 1) k) → v ⟨a, ha⟩ ∈ B (degs 2 (qAxis 2 i) ((k : ℤ) + 1) k) := by
      intro b hb h
      fin_cases b
      · obtain rfl : a = 1 := by simp at hb; omega
        have := Submodule.neg_mem _ h
        rwa [show ((⟨0, by omega⟩ : Fin 2)) = 0 from rfl, rot_zero, neg_neg] at this
      · obtain rfl : a = 0 := by simp at hb; omega
        exact h
    exact key ⟨qAxis 2 i, hq⟩ rfl h1
  exact pull_mem_QP hi h2

/-- **C154.** TNT H(curl) elements on a quadrilateral: at every order the element can be created, its basis functions span the space
of fields, the functionals determine the fields, and the functionals of an edge determine the tangential component on it. -/
theorem tntcurl_created {k : ℕ} (hk : 1 ≤ k) :
    Created (tntcurl "equispaced" k) (· ∈ TntCurl k) (2 * (k + 1) ^ 2 + 3) (EdgeTrace .quadrilateral (· ∈ TntCurl k)) := by
  have hc : Box .quadrilateral := Or.inl rfl
  obtain ⟨xs, hx, hxs, hxl⟩ := sub_q (t := .interval) (Or.inl rfl) 0 "TangentIntegralMoment" (points_equispaced k) none
  have hms := edge_moments (A := [.cls "TangentIntegralMoment", .cls "Q", .int (k : ℤ), .dict [("variant", "equispaced")]]) rfl hx
  have hmem : ∀ v ∈ TntCurl k, ∀ j, v j ∈ P 2 (2 * (k : ℤ) + 1) := fun v hv => TntCurl_P hv
  obtain ⟨dofs, hdofs⟩ : ∃ dofs : List (Dof ℝ (Field Cell.quadrilateral.tdim)), ((List.range 4).flatMap fun i => xs.map fun x =>
      (⟨"TangentIntegralMoment", .scalar x, (1, i), none⟩ : MomentDof Fun)).mapM (momentDof .quadrilateral) = some dofs := mapM_exists (by
    intro mo hmo
    simp only [List.mem_flatMap, List.mem_range, List.mem_map] at hmo
    obtain ⟨i, hi, x, -, rfl⟩ := hmo
    obtain ⟨J, s, -, -, h⟩ := box_edge_moment hc hi none
    obtain ⟨d, hd, -⟩ := h x
    exact ⟨d, hd⟩)
  obtain ⟨gs, hgs⟩ := mapM_exists (f := fun m => againstDof .quadrilateral (2, 0) "contravariant" (turnedGrad m)) (l := tntExps k) fun m _ => by
    obtain ⟨d, hd, -⟩ := against_turned m "contravariant"
    exact ⟨d, hd⟩
  obtain ⟨ws, hws⟩ := mapM_exists (f := fun q : ℕ × ℕ => againstDof .quadrilateral (2, 0) "contravariant" (tntCurlWhirl q.1 q.2)) (l := tntInds k) fun q _ => by
    obtain ⟨d, hd, -⟩ := against_vector hc (f := tntCurlWhirl q.1 q.2) rfl "contravariant"
    exact ⟨d, hd⟩
  have htr : EdgeTrace .quadrilateral (· ∈ TntCurl k) (dofs ++ (gs ++ ws)) := by
    refine edge_trace_of hc hmem (xs := xs) (mp := none) (fun v hv i hi a ha hax => ?_) fun i hi x hx => ?_
    · rw [hxs]
      exact rot_edge_QP (TntDiv_RTQ (mem_TntCurl.1 hv)) hi ha hax
    · obtain ⟨d, hd, h⟩ := momentDof_mem hdofs (m := ⟨"TangentIntegralMoment", .scalar x, (1, i), none⟩) (by
        simp only [List.mem_flatMap, List.mem_range, List.mem_map]
        exact ⟨i, hi, x, hx, rfl⟩)
      exact ⟨d, List.mem_append_left _ hd, h⟩
  have hu : ∀ v ∈ TntCurl k, (∀ d ∈ dofs ++ (gs ++ ws), d.eval v = 0) → v = 0 := by
    intro v hv h
    have hE : ∀ i < 4, ∀ p q, entVerts .quadrilateral 1 i = [p, q] →
        EdgeZero (refVertex .quadrilateral p) (refVertex .quadrilateral q) v :=
      fun i hi p q hpq => htr i hi p q hpq v hv fun d hd _ => h d hd
    have hsq := squareZero_ref (hmem v hv) (hE 0 (by omega) 0 1 rfl) (hE 1 (by omega) 0 2 rfl) (hE 2 (by omega) 1 3 rfl)
      (hE 3 (by omega) 2 3 rfl)
    refine rot_injective (tntdiv_zero hk (mem_TntCurl.1 hv) (fun i z hz => ?_) (fun q hq => ?_) fun q hq => ?_)
    · fin_cases i
      · show eval z (rot v 0) = 0
        rw [rot_zero, map_neg, hsq.2 z hz, neg_zero]
      · show eval z (rot v 1) = 0
        rw [rot_one, hsq.1 z hz]
    · refine QP_zero hq (pairing .quadrilateral (d := 2) (rot v) ∘ₗ LinearMap.pi fun i : Fin 2 => (pderiv i.val).toLinearMap) fun i j hi hj => ?_
      show pairing .quadrilateral (d := 2) (rot v) (gradient ℝ 2 (denoteMono ℝ [i, j])) = 0
      by_cases h0 : i + j = 0
      · obtain ⟨rfl, rfl⟩ : i = 0 ∧ j = 0 := by omega
        rw [show gradient ℝ 2 (denoteMono ℝ [0, 0]) = 0 by
          funext i
          simp [gradient, denoteMono, monoFrom], map_zero]
      · obtain ⟨d, hd, he⟩ := forall₂_mem_right (mapM_forall hgs) (mem_tntExps.2 ⟨i, j, by omega, by omega, by omega, rfl⟩)
        obtain ⟨d', hd', h2⟩ := against_turned [i, j] "contravariant"
        obtain rfl := Option.some.inj (hd'.symm.trans he)
        exact (h2 v _ (hmem v hv)).symm.trans (h d' (List.mem_append_right _ (List.mem_append_left _ hd)))
    · refine QP_zero hq (pairing .quadrilateral (d := 2) (rot v) ∘ₗ curl2 ∘ₗ LinearMap.mulLeft ℝ (bub 0 * bub 1)) fun i j hi hj => ?_
      show pairing .quadrilateral (d := 2) (rot v) (curl2 (bub 0 * bub 1 * denoteMono ℝ [i, j])) = 0
      obtain ⟨d, hd, he⟩ := forall₂_mem_right (mapM_forall hws) (mem_tntInds.2 (show (i, j).1 + 2 ≤ k ∧ (i, j).2 + 2 ≤ k from
        ⟨by show i + 2 ≤ k; omega, by show j + 2 ≤ k; omega⟩))
      obtain ⟨d', hd', -, h2⟩ := against_vector hc (f := tntCurlWhirl i j) rfl "contravariant"
      obtain rfl := Option.some.inj (hd'.symm.trans he)
      have e : rot (fun l : Fin 2 => (tntCurlWhirl i j).getD l.val 0) = curl2 (bub 0 * bub 1 * denoteMono ℝ [i, j]) := by
        rw [← tntWhirl_eq]
        funext l
        fin_cases l
        · show -(-(X 0 ^ (i + 1)) * (1 - X 0) * X 1 ^ j * (C ((j : ℝ) + 2) - 1 - C ((j : ℝ) + 2) * X 1)) =
            X 0 ^ (i + 1) * (1 - X 0) * X 1 ^ j * (C ((j : ℝ) + 2) - 1 - C ((j : ℝ) + 2) * X 1)
          ring
        · rfl
      rw [← e, pairing_rot]
      exact (h2 v _ (hmem v hv)).symm.trans (h d' (List.mem_append_right _ (List.mem_append_right _ hd)))
  have hll : (dofs ++ (gs ++ ws)).length = (tntCurlPoly k).length := by
    rw [List.length_append, List.length_append, ← (mapM_forall hdofs).length_eq, ← (mapM_forall hgs).length_eq, ← (mapM_forall hws).length_eq,
      tntCurlPoly_length, tntExps_length, tntInds_length, List.length_flatMap]
    simp only [List.length_map, hxl, List.map_const', List.sum_replicate, List.length_range, smul_eq_mul]
    show 4 * (k + 1) ^ 1 + ((k + 1) ^ 2 - 1 + (k - 1) ^ 2) = _
    obtain ⟨n, rfl⟩ := Nat.exists_eq_add_of_le' hk
    have : (n + 1 + 1) ^ 2 - 1 = (n + 1) * (n + 3) := by
      rw [show (n + 1 + 1) ^ 2 = (n + 1) * (n + 3) + 1 by ring]; rfl
    rw [this, Nat.add_sub_cancel]
    ring
  obtain ⟨b, ds, fs, h1, h2, h3, h4, h5, h6, h7⟩ := created_of_unisolvent hll (tntCurlPoly_independent hk) (fun b hb => tntCurlPoly_mem hk hb) hu
  refine ⟨b, ds, fs, ?_, h2, h3.trans (tntCurlPoly_length k), h4.trans (tntCurlPoly_length k), h5, h6, by rw [h7]; exact htr⟩
  unfold tntcurl
  rw [hms, Option.bind_some]
  rw [show (((List.range 4).flatMap fun i => xs.map fun x =>
      (⟨"TangentIntegralMoment", .scalar x, (1, i), none⟩ : MomentDof Fun)).mapM (momentDof .quadrilateral)) = some dofs from hdofs, Option.bind_some]
  rw [show ((tntExps k).mapM fun m => againstDof .quadrilateral (2, 0) "contravariant" (turnedGrad m)) = some gs from hgs, Option.bind_some]
  rw [show ((tntInds k).mapM fun q : ℕ × ℕ => againstDof .quadrilateral (2, 0) "contravariant" (tntCurlWhirl q.1 q.2)) = some ws from hws, Option.bind_some]
  exact h1

example : ∃ b dofs, tntcurl "equispaced" 3 = some (.ciarlet b dofs) ∧ dofs.length = 35 := by
  obtain ⟨b, dofs, fs, h1, -, h2, -⟩ := tntcurl_created (k := 3) (by omega)
  exact ⟨b, dofs, h1, h2⟩

end Verif.Families
