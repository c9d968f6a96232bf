import Verif.Families.TntDivSpace
import Verif.Families.QDiv
/-!
# Tiniest tensor product H(div) elements on quadrilaterals

`TNTdiv` (symfem/elements/tnt.py:335-503) on a quadrilateral.  C154.
-/

namespace Verif.Families
open Verif.References Verif.Moments Verif.Functionals Verif.Elements Verif.FiniteElement Verif.Polysets Verif.Orthogonal
open Verif.Scalar (tntP tntB legQ bQ degree_bQ)
open MvPolynomial

/-! ### Model -/

/-- The powers whose gradients are used (symfem/elements/tnt.py:386-389). -/
def tntExps (k : ℕ) : List Mono :=
  ((List.range (k + 1)).flatMap fun i : ℕ => (List.range (k + 1)).map fun j : ℕ => [i, j]).filter fun m => decide (0 < m.sum)

/-- The functions with no divergence (symfem/elements/tnt.py:400-405); `i` and `j` of the code are `i + 2` and `j + 2` here. -/
noncomputable def tntWhirl (i j : ℕ) : List (MvPolynomial ℕ ℝ) :=
  [X 0 ^ (i + 1) * (1 - X 0) * X 1 ^ j * (C ((j : ℝ) + 2) - 1 - C ((j : ℝ) + 2) * X 1),
   X 1 ^ (j + 1) * (1 - X 1) * X 0 ^ i * (C ((i : ℝ) + 2) * X 0 - C ((i : ℝ) + 2) + 1)]

/-- `product(range(2, order + 1), repeat=2)` (symfem/elements/tnt.py:400-401), from 0. -/
def tntInds (k : ℕ) : List (ℕ × ℕ) := (List.range (k - 1)).flatMap fun i => (List.range (k - 1)).map fun j => (i, j)

/-- `TNTdiv(reference, order, variant)` on a quadrilateral (symfem/elements/tnt.py:338-362, 380-410, 471). -/
noncomputable def tntdiv (variant : String) (k : ℕ) : Option (Element ℝ (Field Cell.quadrilateral.tdim)) :=
  (makeIntegralMomentDofs (qClasses 0) .quadrilateral
    { facets := some (.single [.cls "NormalIntegralMoment", .cls "Q", .int (k : ℤ), .dict [("variant", variant)]]) }).bind fun ms =>
  (ms.mapM (momentDof .quadrilateral)).bind fun dofs =>
  ((tntExps k).mapM fun m => againstDof .quadrilateral (2, 0) "covariant" (gradList 2 m)).bind fun gs =>
  ((tntInds k).mapM fun q => againstDof .quadrilateral (2, 0) "covariant" (tntWhirl q.1 q.2)).bind fun ws =>
    ciarlet (tntDivPoly k) (dofs ++ (gs ++ ws))

/-! ### Unisolvence -/

theorem TntDiv_RTQ {k : ℕ} {v : Field 2} (hv : v ∈ TntDiv k) : RTQ 2 ((k : ℤ) + 1) v := by
  obtain ⟨q, hq, a, b, c, h0, h1⟩ := mem_TntDiv.1 hv
  have hB : ∀ (i : ℕ) {f g : Polynomial ℚ} {F : ℕ → ℤ}, (∀ i, 0 ≤ F i) → (f.natDegree : ℤ) ≤ F 0 → (g.natDegree : ℤ) ≤ F 1 →
      Polynomial.aeval (X 0 : MvPolynomial ℕ ℝ) f * Polynomial.aeval (X 1 : MvPolynomial ℕ ℝ) g ∈ B F := by
    intro _ f g F hF hf hg
    rw [Polynomial.aeval_eq_sum_range, Polynomial.aeval_eq_sum_range, Finset.sum_mul_sum]
    refine Submodule.sum_mem _ fun n hn => Submodule.sum_mem _ fun m hm => ?_
    rw [Finset.mem_range] at hn hm
    have e : (f.coeff n • X 0 ^ n * g.coeff m • X 1 ^ m : MvPolynomial ℕ ℝ) = ((f.coeff n * g.coeff m : ℚ) : ℝ) • monomial (e2 n m) (1 : ℝ) := by
      rw [smul_mul_smul_comm, X_pow_eq_monomial, X_pow_eq_monomial, monomial_mul, mul_one, Rat.cast_smul_eq_qsmul]
      rfl
    rw [e]
    refine Submodule.smul_mem _ _ (mem_B.2 fun t ht i => ?_)
    rw [support_monomial, if_neg one_ne_zero, Finset.mem_singleton] at ht
    rw [ht]
    rcases i with _ | _ | i
    · rw [e2_zero]; show (n : ℤ) ≤ F 0; omega
    · rw [e2_one]; show (m : ℤ) ≤ F 1; omega
    · have := hF (i + 1 + 1)
      simpa [e2] using this
  have hl := natDegree_legQ k
  have hx : ∀ {F : ℕ → ℤ}, (∀ i, 0 ≤ F i) → (k : ℤ) + 1 ≤ F 0 → (k : ℤ) ≤ F 1 → (X 0 ^ (k + 1) : MvPolynomial ℕ ℝ) ∈ B F ∧
      (X 0 ^ (k + 1) * legX k 1 : MvPolynomial ℕ ℝ) ∈ B F := by
    intro F hF h0 h1
    have g1 := hB 0 (f := Polynomial.X ^ (k + 1)) (g := 1) hF (by rw [Polynomial.natDegree_X_pow]; push_cast; exact h0) (by simpa using hF 1)
    have g2 := hB 0 (f := Polynomial.X ^ (k + 1)) (g := legQ k) hF (by rw [Polynomial.natDegree_X_pow]; push_cast; exact h0) (by rw [hl]; exact h1)
    simp only [map_pow, Polynomial.aeval_X, map_one, mul_one] at g1 g2
    exact ⟨g1, g2⟩
  have hy : ∀ {F : ℕ → ℤ}, (∀ i, 0 ≤ F i) → (k : ℤ) ≤ F 0 → (k : ℤ) + 1 ≤ F 1 → (X 1 ^ (k + 1) : MvPolynomial ℕ ℝ) ∈ B F ∧
      (legX k 0 * X 1 ^ (k + 1) : MvPolynomial ℕ ℝ) ∈ B F := by
    intro F hF h0 h1
    have g1 := hB 0 (g := Polynomial.X ^ (k + 1)) (f := 1) hF (by simpa using hF 0) (by rw [Polynomial.natDegree_X_pow]; push_cast; exact h1)
    have g2 := hB 0 (g := Polynomial.X ^ (k + 1)) (f := legQ k) hF (by rw [hl]; exact h0) (by rw [Polynomial.natDegree_X_pow]; push_cast; exact h1)
    simp only [map_pow, Polynomial.aeval_X, map_one, one_mul] at g1 g2
    exact ⟨g1, g2⟩
  have hF : ∀ i : ℕ, ∀ j, 0 ≤ degs 2 i ((k : ℤ) + 1) ((k : ℤ) + 1 - 1) j := fun i j => by unfold degs; split_ifs <;> omega
  have hq' : ∀ i : Fin 2, q i ∈ B (degs 2 i ((k : ℤ) + 1) ((k : ℤ) + 1 - 1)) := fun i =>
    B_mono (fun j => by unfold degs; split_ifs <;> omega) (hq i)
  have hC : ∀ {F : ℕ → ℤ} (r : ℝ) {p : MvPolynomial ℕ ℝ}, p ∈ B F → C r * p ∈ B F := fun r p hp => by
    rw [← smul_eq_C_mul]
    exact Submodule.smul_mem _ _ hp
  intro i
  fin_cases i
  · obtain ⟨g1, g2⟩ := hx (hF 0) (by simp [degs]) (by simp [degs])
    show v 0 ∈ _
    rw [h0]
    exact Submodule.add_mem _ (Submodule.add_mem _ (hq' 0) (hC a g1)) (hC c g2)
  · obtain ⟨g1, g2⟩ := hy (hF 1) (by simp [degs]) (by simp [degs])
    show v 1 ∈ _
    rw [h1]
    exact Submodule.add_mem _ (Submodule.add_mem _ (hq' 1) (hC b g1)) (hC c g2)

theorem RTQ_div {k : ℤ} {v : Field 2} (hv : RTQ 2 k v) : divergence ℝ v ∈ QP 2 (k - 1) := by
  refine Submodule.sum_mem _ fun i _ => mem_B.2 fun t ht j => ?_
  have h1 : coeff (t + Finsupp.single i.val 1) (v i) ≠ 0 := by
    have := mem_support_iff.1 ht
    rw [coeff_pderiv] at this
    exact left_ne_zero_of_mul this
  have h2 := mem_B.1 (hv i) _ (mem_support_iff.2 h1) j
  rw [Finsupp.add_apply, Finsupp.single_apply, degs] at h2
  have hi := i.2
  split_ifs at h2 ⊢ <;> push_cast at h2 <;> omega

/-- A field with no normal components and no moments is zero. -/
theorem tntdiv_zero {k : ℕ} (hk : 1 ≤ k) {v : Field 2} (hv : v ∈ TntDiv k)
    (hn : ∀ (i : Fin 2) (z : ℕ → ℝ), z i.val = 0 ∨ z i.val = 1 → eval z (v i) = 0)
    (hg : ∀ q ∈ QP 2 (k : ℤ), pairing .quadrilateral v (gradient ℝ 2 q) = 0)
    (hc : ∀ q ∈ QP 2 ((k : ℤ) - 2), pairing .quadrilateral v (curl2 (bub 0 * bub 1 * q)) = 0) : v = 0 := by
  have hb : Box .quadrilateral := Or.inl rfl
  have hP := TntDiv_P hv
  have hD : divergence ℝ v ∈ QP 2 (k : ℤ) := by
    have := RTQ_div (TntDiv_RTQ hv)
    rwa [add_sub_cancel_right] at this
  have hDP : divergence ℝ v ∈ P 2 (2 * (k : ℤ) + 1 - 1) := by
    rw [← divL_apply]
    exact divL_mem hP
  have h0 : divergence ℝ v = 0 := by
    have h1 := (box_parts (c := .quadrilateral) hb hP hn hDP).symm.trans (hg _ hD)
    rw [neg_eq_zero] at h1
    have h2 : cellInt .quadrilateral (fun z => eval z (∑ i : Fin 1, 1 * divergence ℝ v ^ 2)) = 0 := by
      refine Eq.trans ?_ h1
      rw [Fin.sum_univ_one, one_mul, pow_two]
      rfl
    exact squares_zero hb.solid (fun _ : Fin 1 => 1) (fun _ z _ => by simp) (fun _ z _ => by simp) (fun _ => divergence ℝ v) (fun _ => hDP) h2 0
  obtain ⟨p, hp, e⟩ := stream_QP (tntdiv_low hk hv hP h0 hn) h0 hn
  have h1 := hc p hp
  rw [← e] at h1
  have h2 := squares_zero (c := .quadrilateral) hb.solid (fun _ : Fin 2 => 1) (fun _ z _ => by simp) (fun _ z _ => by simp) v
    hP (Eq.trans ?_ h1)
  · exact funext h2
  · refine Eq.trans ?_ (pairing_apply (c := .quadrilateral) (d := 2) v v).symm
    congr 1
    funext z
    congr 1
    refine Finset.sum_congr rfl fun i _ => ?_
    ring

theorem tntWhirl_eq (i j : ℕ) : (fun l : Fin 2 => (tntWhirl i j).getD l.val 0) = curl2 (bub 0 * bub 1 * denoteMono ℝ [i, j]) := by
  have e : ∀ n : ℕ, (C ((n : ℝ) + 2) : MvPolynomial ℕ ℝ) = (n : MvPolynomial ℕ ℝ) + 2 := fun n => by rw [C_add, map_natCast, map_ofNat]
  have e' : ∀ n : ℕ, (C ((n : ℝ) + 1) : MvPolynomial ℕ ℝ) = (n : MvPolynomial ℕ ℝ) + 1 := fun n => by simp
  rw [← whirl_eq]
  funext l
  fin_cases l
  · show X 0 ^ (i + 1) * (1 - X 0) * X 1 ^ j * (C ((j : ℝ) + 2) - 1 - C ((j : ℝ) + 2) * X 1) =
      X 0 ^ (i + 1) * (1 - X 0) * X 1 ^ j * (C ((j : ℝ) + 1) * (1 - X 1) - X 1)
    rw [e, e']
    ring
  · show X 1 ^ (j + 1) * (1 - X 1) * X 0 ^ i * (C ((i : ℝ) + 2) * X 0 - C ((i : ℝ) + 2) + 1) =
      -(X 0 ^ i) * (C ((i : ℝ) + 1) * (1 - X 0) - X 0) * X 1 ^ (j + 1) * (1 - X 1)
    rw [e, e']
    ring

/-! ### Creation -/

theorem mem_tntExps {k : ℕ} {m : Mono} : m ∈ tntExps k ↔ ∃ i j : ℕ, i ≤ k ∧ j ≤ k ∧ 0 < i + j ∧ m = [i, j] := by
  simp only [tntExps, List.mem_filter, List.mem_flatMap, List.mem_map, List.mem_range, decide_eq_true_eq]
  constructor
  · rintro ⟨⟨i, hi, j, hj, rfl⟩, h⟩
    exact ⟨i, j, by omega, by omega, by simpa using h, rfl⟩
  · rintro ⟨i, j, hi, hj, h, rfl⟩
    exact ⟨⟨i, by omega, j, by omega, rfl⟩, by simpa using h⟩

theorem tntExps_length (k : ℕ) : (tntExps k).length = (k + 1) ^ 2 - 1 := by
  have h1 : ((List.range (k + 1)).flatMap fun i : ℕ => (List.range (k + 1)).map fun j : ℕ => ([i, j] : Mono)) =
      [0, 0] :: (((List.range (k + 1)).flatMap fun i : ℕ => (List.range (k + 1)).map fun j : ℕ => ([i, j] : Mono)).drop 1) := by
    rw [List.range_succ_eq_map]
    simp
  have h2 : ∀ m ∈ (((List.range (k + 1)).flatMap fun i : ℕ => (List.range (k + 1)).map fun j : ℕ => ([i, j] : Mono)).drop 1), 0 < m.sum := by
    intro m hm
    rw [List.range_succ_eq_map] at hm
    simp at hm
    rcases hm with ⟨j, hj, rfl⟩ | ⟨i, hi, h⟩
    · simp
    · rcases h with rfl | ⟨j, hj, rfl⟩ <;> simp
  rw [tntExps, h1, List.filter_cons_of_neg (by simp), List.filter_eq_self.2 (fun m hm => by simpa using h2 m hm), List.length_drop,
    List.length_flatMap]
  simp
  ring_nf

theorem mem_tntInds {k : ℕ} {q : ℕ × ℕ} : q ∈ tntInds k ↔ q.1 + 2 ≤ k ∧ q.2 + 2 ≤ k := by
  simp only [tntInds, List.mem_flatMap, List.mem_map, List.mem_range]
  constructor
  · rintro ⟨i, hi, j, hj, rfl⟩
    exact ⟨by show i + 2 ≤ k; omega, by show j + 2 ≤ k; omega⟩
  · rintro ⟨h1, h2⟩
    exact ⟨q.1, by omega, q.2, by omega, rfl⟩

theorem tntInds_length (k : ℕ) : (tntInds k).length = (k - 1) ^ 2 := by
  simp [tntInds, List.length_flatMap, pow_two]

theorem pull_mem_QP {i : ℕ} (hi : i < 4) {m : ℤ} {n : ℕ} {q : MvPolynomial ℕ ℝ} (hq : q ∈ B (degs 2 (qAxis 2 i) m n)) :
    pull (entityDomain .quadrilateral (1, i)) q ∈ QP 1 (n : ℤ) := by
  obtain ⟨F1, F2, -⟩ := box_facet (c := .quadrilateral) (Or.inl rfl) (i := i) hi
  have hd : (entityDomain .quadrilateral (1, i)).cell.tdim = 1 := (congrArg Cell.tdim F1).trans rfl
  refine F2.aligned.pull (G := fun j => if j < 1 then (n : ℤ) else 0) (fun j => by split_ifs <;> omega) (fun l hl => ?_) hq
  have hl1 : l < 1 := hl.trans_eq hd
  have := skip_ne (qAxis 2 i) l
  have h2 : skip (qAxis 2 i) l < 2 := skip_lt (qAxis_lt hi) (by omega)
  show degs 2 (qAxis 2 i) m n (skip (qAxis 2 i) l) ≤ if l < 1 then (n : ℤ) else 0
  rw [if_pos hl1, degs, if_pos h2, if_neg this]

/-- A linear map that is zero at the products of powers is zero at the polynomials of degree at most `k` in each variable. -/
theorem QP_zero {k : ℤ} {q : MvPolynomial ℕ ℝ} (hq : q ∈ QP 2 k) (L : MvPolynomial ℕ ℝ →ₗ[ℝ] ℝ)
    (h : ∀ i j : ℕ, (i : ℤ) ≤ k → (j : ℤ) ≤ k → L (denoteMono ℝ [i, j]) = 0) : L q = 0 := by
  have := Verif.Scalar.QP_span (n := 2) (by omega) (b := 1) hq L fun t ht => by
    rw [one_mul, Finset.prod_range_succ, Finset.prod_range_one]
    have := h (t 0) (t 1) (ht 0) (ht 1)
    simpa [denoteMono, monoFrom] using this
  rwa [one_mul] at this

/-- **C154.** TNT H(div) elements on a quadrilateral: at every order the element can be created, its basis functions span the space
of fields, the functionals determine the fields, and the functionals of an edge determine the normal component on it. -/
theorem tntdiv_created {k : ℕ} (hk : 1 ≤ k) :
    Created (tntdiv "equispaced" k) (· ∈ TntDiv k) (2 * (k + 1) ^ 2 + 3) (QNormalTrace .quadrilateral (· ∈ TntDiv k)) := by
  have hc : Box .quadrilateral := Or.inl rfl
  obtain ⟨xs, hx, hxs, hxl⟩ := sub_q (t := .interval) (Or.inl rfl) 0 "NormalIntegralMoment" (points_equispaced k) none
  have hms : makeIntegralMomentDofs (qClasses 0) .quadrilateral
      { facets := some (.single [.cls "NormalIntegralMoment", .cls "Q", .int (k : ℤ), .dict [("variant", "equispaced")]]) } =
      some (boxMoments .quadrilateral none none xs []) := by
    rw [facet_moments (A := [.cls "NormalIntegralMoment", .cls "Q", .int (k : ℤ), .dict [("variant", "equispaced")]]) rfl hx]
    simp only [boxMoments, List.map_nil, List.append_nil]
    rfl
  obtain ⟨dofs, hdofs⟩ := box_dofs hc none none xs []
  obtain ⟨gs, hgs⟩ := mapM_exists (f := fun m => againstDof .quadrilateral (2, 0) "covariant" (gradList 2 m)) (l := tntExps k) fun m _ => by
    obtain ⟨d, hd, -⟩ := against_cell hc m "covariant"
    exact ⟨d, hd⟩
  obtain ⟨ws, hws⟩ := mapM_exists (f := fun q : ℕ × ℕ => againstDof .quadrilateral (2, 0) "covariant" (tntWhirl q.1 q.2)) (l := tntInds k) fun q _ => by
    obtain ⟨d, hd, -⟩ := against_vector hc (f := tntWhirl q.1 q.2) rfl "covariant"
    exact ⟨d, hd⟩
  have htr : QNormalTrace .quadrilateral (· ∈ TntDiv k) (dofs ++ (gs ++ ws)) := by
    refine box_trace hc hdofs _ (fun v hv => TntDiv_P hv) fun v hv i hi => ?_
    rw [hxs]
    have h1 := TntDiv_RTQ hv ⟨qAxis 2 i, qAxis_lt hi⟩
    rw [add_sub_cancel_right] at h1
    exact pull_mem_QP hi h1
  have hu : ∀ v ∈ TntDiv k, (∀ d ∈ dofs ++ (gs ++ ws), d.eval v = 0) → v = 0 := by
    intro v hv h
    refine tntdiv_zero hk hv (box_normalZero fun i hi => htr i hi v hv fun d hd _ => h d hd) (fun q hq => ?_) fun q hq => ?_
    · refine QP_zero hq (pairing .quadrilateral (d := 2) v ∘ₗ LinearMap.pi fun i : Fin 2 => (pderiv i.val).toLinearMap) fun i j hi hj => ?_
      show pairing .quadrilateral (d := 2) v (gradient ℝ 2 (denoteMono ℝ [i, j])) = 0
      by_cases h0 : i + j = 0
      · obtain ⟨rfl, rfl⟩ : i = 0 ∧ j = 0 := by omega
        rw [show gradient ℝ 2 (denoteMono ℝ [0, 0]) = 0 by
          funext i
          simp [gradient, denoteMono, monoFrom], map_zero]
      · obtain ⟨d, hd, he⟩ := forall₂_mem_right (mapM_forall hgs) (mem_tntExps.2 ⟨i, j, by omega, by omega, by omega, rfl⟩)
        obtain ⟨d', hd', -, h2⟩ := against_cell hc [i, j] "covariant"
        obtain rfl := Option.some.inj (hd'.symm.trans he)
        exact (h2 v _ (TntDiv_P hv)).symm.trans (h d' (by simp [hd]))
    · refine QP_zero hq (pairing .quadrilateral (d := 2) v ∘ₗ curl2 ∘ₗ LinearMap.mulLeft ℝ (bub 0 * bub 1)) fun i j hi hj => ?_
      show pairing .quadrilateral (d := 2) v (curl2 (bub 0 * bub 1 * denoteMono ℝ [i, j])) = 0
      obtain ⟨d, hd, he⟩ := forall₂_mem_right (mapM_forall hws) (mem_tntInds.2 (show (i, j).1 + 2 ≤ k ∧ (i, j).2 + 2 ≤ k from
        ⟨by show i + 2 ≤ k; omega, by show j + 2 ≤ k; omega⟩))
      obtain ⟨d', hd', -, h2⟩ := against_vector hc (f := tntWhirl i j) rfl "covariant"
      obtain rfl := Option.some.inj (hd'.symm.trans he)
      rw [← tntWhirl_eq]
      exact (h2 v _ (TntDiv_P hv)).symm.trans (h d' (by simp [hd]))
  have hll : (dofs ++ (gs ++ ws)).length = (tntDivPoly k).length := by
    rw [List.length_append, List.length_append, ← (mapM_forall hdofs).length_eq, ← (mapM_forall hgs).length_eq, ← (mapM_forall hws).length_eq,
      boxMoments_length, tntDivPoly_length, tntExps_length, tntInds_length, hxl]
    show 2 * 2 * (k + 1) ^ 1 + 0 + ((k + 1) ^ 2 - 1 + (k - 1) ^ 2) = _
    obtain ⟨n, rfl⟩ := Nat.exists_eq_add_of_le' hk
    have : (n + 1 + 1) ^ 2 - 1 = (n + 1) * (n + 3) := by
      rw [show (n + 1 + 1) ^ 2 = (n + 1) * (n + 3) + 1 by ring]; rfl
    rw [this, Nat.add_sub_cancel]
    ring
  obtain ⟨b, ds, fs, h1, h2, h3, h4, h5, h6, h7⟩ := created_of_unisolvent hll (tntDivPoly_independent hk) (fun b hb => tntDivPoly_mem hk hb) hu
  refine ⟨b, ds, fs, ?_, h2, h3.trans (tntDivPoly_length k), h4.trans (tntDivPoly_length k), h5, h6, by rw [h7]; exact htr⟩
  unfold tntdiv
  rw [hms, Option.bind_some, hdofs, Option.bind_some]
  rw [show ((tntExps k).mapM fun m => againstDof .quadrilateral (2, 0) "covariant" (gradList 2 m)) = some gs from hgs, Option.bind_some]
  rw [show ((tntInds k).mapM fun q : ℕ × ℕ => againstDof .quadrilateral (2, 0) "covariant" (tntWhirl q.1 q.2)) = some ws from hws, Option.bind_some]
  exact h1

example : ∃ b dofs, tntdiv "equispaced" 3 = some (.ciarlet b dofs) ∧ dofs.length = 35 := by
  obtain ⟨b, dofs, fs, h1, -, h2, -⟩ := tntdiv_created (k := 3) (by omega)
  exact ⟨b, dofs, h1, h2⟩

end Verif.Families
