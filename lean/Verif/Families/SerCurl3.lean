import Verif.Families.SerCurlSpan
/-!
# `SerendipityCurl` on hexahedra
-/

namespace Verif.Families
open Verif.References Verif.Moments Verif.Functionals Verif.Elements Verif.FiniteElement Verif.Polysets Verif.Orthogonal
open Verif.Scalar Verif.Smooth
open MvPolynomial

/-! ### Fields without tangential components -/

/-- Two factors. -/
theorem P_bub2 {k : ℤ} {a b : ℕ} (hab : a ≠ b) {p : MvPolynomial ℕ ℝ} (hp : p ∈ P 3 k)
    (ha : ∀ z : ℕ → ℝ, z a = 0 ∨ z a = 1 → eval z p = 0) (hb : ∀ z : ℕ → ℝ, z b = 0 ∨ z b = 1 → eval z p = 0) :
    ∃ w ∈ P 3 (k - 4), p = bub a * bub b * w := by
  obtain ⟨w, hw, rfl⟩ := P_bub a hp ha
  obtain ⟨q, hq, rfl⟩ := P_bub b hw fun z hz => by
    rcases hz with hz | hz
    · exact bub_cancel hab (fun z hz => hb z (Or.inl hz)) z hz
    · exact bub_cancel hab (fun z hz => hb z (Or.inr hz)) z hz
  exact ⟨q, P_mono (by omega) hq, by ring⟩

theorem cube_zero {k : ℤ} {v : Field 3} (hv : ∀ j, v j ∈ P 3 k)
    (ht : ∀ (i : Fin 3), ∀ j < 3, j ≠ i.val → ∀ z : ℕ → ℝ, z j = 0 ∨ z j = 1 → eval z (v i) = 0)
    (h : ∀ q ∈ PV 3 3 (k - 4), pairing .hexahedron v q = 0) : v = 0 := by
  have hc : Box .hexahedron := Or.inr rfl
  have key : ∀ i : Fin 3, ∃ a b, a < 3 ∧ b < 3 ∧ ∃ w ∈ P 3 (k - 4), v i = bub a * bub b * w := by
    intro i
    fin_cases i
    · exact ⟨1, 2, by omega, by omega, P_bub2 (by omega) (hv _) (ht 0 1 (by omega) (by decide)) (ht 0 2 (by omega) (by decide))⟩
    · exact ⟨0, 2, by omega, by omega, P_bub2 (by omega) (hv _) (ht 1 0 (by omega) (by decide)) (ht 1 2 (by omega) (by decide))⟩
    · exact ⟨0, 1, by omega, by omega, P_bub2 (by omega) (hv _) (ht 2 0 (by omega) (by decide)) (ht 2 1 (by omega) (by decide))⟩
  choose a b ha hb w hw e using key
  have h0 : cellInt .hexahedron (fun z => eval z (∑ i : Fin 3, v i * w i)) = 0 :=
    (pairing_apply .hexahedron v w).symm.trans (h w (mem_PV.2 hw))
  rw [show ∑ i, v i * w i = ∑ i : Fin 3, bub (a i) * bub (b i) * w i ^ 2 from Finset.sum_congr rfl fun i _ => by
    rw [e i]; ring] at h0
  funext i
  rw [e i, squares_zero hc.solid (fun i : Fin 3 => bub (a i) * bub (b i))
    (fun i z hz => by rw [map_mul]; exact mul_nonneg (closed_bub hc hz (ha i)) (closed_bub hc hz (hb i)))
    (fun i z hz => by rw [map_mul]; exact mul_pos (inner_bub (hz _ (ha i))) (inner_bub (hz _ (hb i)))) w hw h0 i, mul_zero, Pi.zero_apply]

theorem sc3_mem {k : ℕ} (hk : 1 ≤ k) {v : Field 3} (hv : SC3 k v) (j : Fin 3) : v j ∈ P 3 ((k : ℤ) + 2) := by
  obtain ⟨p, hp, w, hw, s, hs, rfl⟩ := hv
  have := Ser_deg (n := k + 1) (by omega) hs
  refine Submodule.add_mem _ (Submodule.add_mem _ (P_mono (by omega) (hp j)) (P_mono (by omega) (Cross_P (scurlExt3_Cross hw) j)))
    (gradient_P (n := (k : ℤ) + 2) (P_mono (by push_cast; omega) this) j)

theorem sc3_zero {k : ℕ} (hk : 1 ≤ k) {v : Field 3} (hv : SC3 k v)
    (ht : ∀ (i : Fin 3), ∀ j < 3, j ≠ i.val → ∀ z : ℕ → ℝ, z j = 0 ∨ z j = 1 → eval z (v i) = 0)
    (h : ∀ q ∈ PV 3 3 ((k : ℤ) - 4), pairing .hexahedron v q = 0) : v = 0 := by
  obtain ⟨p, hp, w, hw, s, hs, e⟩ := hv
  obtain ⟨h1, h2⟩ := cross_key hk hp (scurlExt3_Cross hw) hs e ht
  refine cube_zero (k := k) (fun j => ?_) ht h
  rw [e, h2, add_zero]
  exact Submodule.add_mem _ (hp j) (gradient_P h1 j)

/-! ### Restrictions to faces and edges -/

section
variable {D : Domain} {σ : ℕ → ℕ}

theorem cross_pull (h : Aligned D σ) {k : ℕ} {w : Field 3} (hw : w ∈ Cross k) (j : Fin 3) {b : ℕ} (hb : b < 3) (hbj : b ≠ j.val)
    (hσ : ∀ m < D.cell.tdim, b ≠ σ m) : pull D (w j) ∈ P D.cell.tdim (k : ℤ) := by
  have hd : X b ∣ w j := by
    refine X_dvd b fun z hz => ?_
    rw [(w j).as_sum, map_sum]
    refine Finset.sum_eq_zero fun t ht => ?_
    obtain ⟨-, -, h3, -⟩ := hw.1 j t ht
    have hb0 : t b ≠ 0 := by have := h3 b hb hbj; omega
    rw [eval_monomial, Finsupp.prod, Finset.prod_eq_zero (Finsupp.mem_support_iff.2 hb0) (by rw [hz, zero_pow hb0]), mul_zero]
  obtain ⟨q, hq⟩ := hd
  have hP := Cross_P hw j
  rw [hq] at hP ⊢
  have hq' := X_cancel hP
  rw [add_sub_cancel_right] at hq'
  rw [pull_mul, pull_X, h.coord_const hσ]
  exact C_mul_mem _ (pull_mem D hq')

/-- The derivatives of the restriction. -/
theorem grad_pull (h : Aligned D σ) {n : ℤ} {s : MvPolynomial ℕ ℝ} (hs : s ∈ P 3 n) {m : ℕ} (hm : m < D.cell.tdim) (hσ : σ m < 3) :
    pull D (pderiv (σ m) s) = pderiv m (pull D s) := by
  rw [pderiv_pull hs D hm, Finset.sum_eq_single (σ m)]
  · rw [h.axes m hm, if_pos rfl, C_1, one_mul]
  · intro i _ hi
    rw [h.axes m hm, if_neg hi, C_0, zero_mul]
  · intro hc
    exact absurd (Finset.mem_range.2 hσ) hc

end

theorem Ser_one {n : ℕ} (hn : 1 ≤ n) {s : MvPolynomial ℕ ℝ} (hs : s ∈ Ser 1 n) : s ∈ P 1 (n : ℤ) := by
  refine mem_P.2 fun t ht => ?_
  obtain ⟨h1, h2⟩ := mem_Ser.1 hs t ht
  refine ⟨?_, h2⟩
  rw [slDegree_range h2] at h1
  rw [Finsupp.degree_apply, Finset.sum_subset (s₂ := Finset.range 1) (fun i hi => Finset.mem_range.2 (h2 i hi))
    (fun i _ hi => Finsupp.notMem_support_iff.1 hi)]
  simp only [Finset.sum_range_one] at h1 ⊢
  split_ifs at h1 <;> omega

/-- The component along an edge. -/
theorem sc3_edge {k : ℕ} (hk : 1 ≤ k) {v : Field 3} (hv : SC3 k v) {i : ℕ} (hi : i < 12) {a : ℕ} (ha : a < 3)
    (hax : ∀ j, axis .interval (entityDomain .hexahedron (1, i)).v 0 j = if j = a then 1 else 0) :
    pull ⟨.interval, 3, (entityDomain .hexahedron (1, i)).v⟩ (v ⟨a, ha⟩) ∈ P 1 (k : ℤ) := by
  obtain ⟨a', ha', hax', h0⟩ := box_edge (c := .hexahedron) (Or.inr rfl) hi
  obtain rfl : a = a' := by
    by_contra hne
    have h1 := hax a
    have h2 := hax' a
    rw [if_pos rfl] at h1
    rw [if_neg hne] at h2
    exact one_ne_zero (h1.symm.trans h2)
  have hA : Aligned ⟨.interval, 3, (entityDomain .hexahedron (1, i)).v⟩ (fun _ => a) :=
    { axes := fun m hm j => by
        obtain rfl : m = 0 := Nat.lt_one_iff.1 hm
        exact hax j
      start := fun _ _ => h0
      inj := fun m hm l hl _ => by
        have h1 : m < 1 := hm
        have h2 : l < 1 := hl
        omega }
  obtain ⟨p, hp, w, hw, s, hs, rfl⟩ := hv
  have hb : ∃ b < 3, b ≠ a := by
    rcases Nat.eq_zero_or_pos a with rfl | h
    · exact ⟨1, by omega, by omega⟩
    · exact ⟨0, by omega, by omega⟩
  obtain ⟨b, hb, hba⟩ := hb
  show pull _ (p ⟨a, ha⟩ + w ⟨a, ha⟩ + pderiv a s) ∈ _
  rw [pull_add, pull_add]
  refine Submodule.add_mem _ (Submodule.add_mem _ (pull_mem ⟨.interval, 3, (entityDomain .hexahedron (1, i)).v⟩ (hp _))
    (cross_pull hA (scurlExt3_Cross hw) ⟨a, ha⟩ hb hba fun _ _ => hba)) ?_
  rw [grad_pull (m := 0) hA (Ser_P hs) (show 0 < 1 by omega) ha]
  have h1 := pderiv_mem (Ser_one (by omega) (Ser_pull hA hs)) 0
  push_cast at h1
  rwa [add_sub_cancel_right] at h1

/-- The gradients of serendipity functions of two variables, after a quarter of a turn. -/
theorem ser2_enriched {k : ℕ} (hk : 1 ≤ k) {s : MvPolynomial ℕ ℝ} (hs : s ∈ Ser 2 (k + 1)) :
    Enriched 2 k {w | w ∈ (([0, 1] : List ℕ).map (scTurned (-1) k)).map (denoteVec ℝ 2)} (rot fun j => pderiv j.val s) := by
  have key : s ∈ P 2 ((k : ℤ) + 1) ⊔ Submodule.span ℝ {X 0 ^ (k + 1) * X 1, X 0 * X 1 ^ (k + 1)} := by
    rw [s.as_sum]
    refine Submodule.sum_mem _ fun t ht => ?_
    obtain ⟨h1, h2⟩ := mem_Ser.1 hs t ht
    have hd : t.degree = t 0 + t 1 := by
      rw [Finsupp.degree_apply, Finset.sum_subset (s₂ := Finset.range 2) (fun i hi => Finset.mem_range.2 (h2 i hi))
        (fun i _ hi => Finsupp.notMem_support_iff.1 hi)]
      simp [Finset.sum_range_succ]
    rw [slDegree_range h2] at h1
    simp only [Finset.sum_range_succ, Finset.sum_range_zero, zero_add] at h1
    have hm : ∀ a b, t 0 = a → t 1 = b → monomial t (coeff t s) = coeff t s • (X 0 ^ a * X 1 ^ b) := by
      intro a b h3 h4
      obtain ⟨m, hl, -, he⟩ := mono_of h2
      have e0 : expo 0 m 0 = m.getD 0 0 := expo_getD m 0 0
      have e1 : expo 0 m 1 = m.getD 1 0 := expo_getD m 0 1
      rw [he] at e0 e1
      match m, hl with
      | [x, y], _ =>
        simp at e0 e1
        have hx : monomial t (1 : ℝ) = X 0 ^ a * X 1 ^ b := by
          rw [← h3, ← h4, e0, e1, ← he, ← monoFrom_eq]
          simp [monoFrom]
        rw [← hx, smul_monomial, smul_eq_mul, mul_one]
    by_cases h3 : t.degree ≤ k + 1
    · refine Submodule.mem_sup_left (mem_P.2 fun u hu => ?_)
      rw [Finset.mem_singleton.1 (support_monomial_subset hu)]
      exact ⟨by exact_mod_cast h3, h2⟩
    · refine Submodule.mem_sup_right ?_
      have h4 : (t 0 = 1 ∧ t 1 = k + 1) ∨ (t 0 = k + 1 ∧ t 1 = 1) := by
        split_ifs at h1 <;> omega
      rcases h4 with ⟨h4, h5⟩ | ⟨h4, h5⟩
      · rw [hm _ _ h4 h5, pow_one]
        exact Submodule.smul_mem _ _ (Submodule.subset_span (by simp))
      · rw [hm _ _ h4 h5, pow_one]
        exact Submodule.smul_mem _ _ (Submodule.subset_span (by simp))
  obtain ⟨q, hq, r, hr, rfl⟩ := Submodule.mem_sup.1 key
  obtain ⟨a, b, rfl⟩ := Submodule.mem_span_pair.1 hr
  have e0 : denoteVec ℝ 2 (scTurned (-1) k 0) = ![-X 0 ^ (k + 1), ((k : ℝ) + 1) • (X 0 ^ k * X 1)] := by
    funext j
    fin_cases j <;> simp [denoteVec, scTurned, denotePoly, denoteMono, monoFrom, smul_eq_C_mul]
  have e1 : denoteVec ℝ 2 (scTurned (-1) k 1) = ![-(((k : ℝ) + 1) • (X 0 * X 1 ^ k)), X 1 ^ (k + 1)] := by
    funext j
    fin_cases j <;> simp [denoteVec, scTurned, denotePoly, denoteMono, monoFrom, smul_eq_C_mul] <;> ring
  refine ⟨rot fun j => pderiv j.val q, fun j => mem_PV.1 (rot_mem (mem_PV.2 fun j => ?_)) j,
    a • denoteVec ℝ 2 (scTurned (-1) k 0) + b • denoteVec ℝ 2 (scTurned (-1) k 1),
    Submodule.add_mem _ (Submodule.smul_mem _ _ (Submodule.subset_span (by simp)))
      (Submodule.smul_mem _ _ (Submodule.subset_span (by simp))), ?_⟩
  · have := pderiv_mem hq j
    rwa [add_sub_cancel_right] at this
  · rw [e0, e1]
    funext j
    fin_cases j
    · show rot _ 0 = rot _ 0 + _
      rw [rot_zero, rot_zero]
      simp [pderiv_X_of_ne, Derivation.leibniz_pow, smul_eq_C_mul]
      ring
    · show rot _ 1 = rot _ 1 + _
      rw [rot_one, rot_one]
      simp only [map_add, Derivation.leibniz, Derivation.leibniz_pow, smul_eq_C_mul, pderiv_X_self, Fin.val_zero, pderiv_C,
        pderiv_X_of_ne (show (1 : ℕ) ≠ 0 by decide), Pi.add_apply, Pi.smul_apply, Matrix.cons_val_one, Matrix.cons_val_zero,
        Matrix.cons_val_fin_one, smul_eq_mul, nsmul_eq_mul, Nat.add_one_sub_one, C_1]
      push_cast
      simp only [C_1, map_natCast]
      ring

/-- The tangential components on a face. -/
theorem sc3_face {k : ℕ} (hk : 1 ≤ k) {v : Field 3} (hv : SC3 k v) {i : ℕ} (hi : i < 6) :
    Enriched 2 k {w | w ∈ (([0, 1] : List ℕ).map (scTurned (-1) k)).map (denoteVec ℝ 2)}
      (rot (tang ⟨.quadrilateral, 3, (entityDomain .hexahedron (2, i)).v⟩ v)) := by
  have F : QFacet ⟨.quadrilateral, 3, (entityDomain .hexahedron (2, i)).v⟩ (qAxis 3 i) (qVal 3 i) := hex_facet hi
  have ha : qAxis 3 i < 3 := qAxis_lt hi
  have ht : ∀ (u : Field 3) (m : Fin 2), tang ⟨.quadrilateral, 3, (entityDomain .hexahedron (2, i)).v⟩ u m =
      pull ⟨.quadrilateral, 3, (entityDomain .hexahedron (2, i)).v⟩ (u ⟨skip (qAxis 3 i) m.val, skip_lt ha m.2⟩) := fun u m =>
    comp_single (D := ⟨.quadrilateral, 3, (entityDomain .hexahedron (2, i)).v⟩) (skip_lt ha m.2) (F.axes m.val m.2) u
  obtain ⟨p, hp, w, hw, s, hs, rfl⟩ := hv
  obtain ⟨p', hp', w', hw', e⟩ := ser2_enriched hk (Ser_pull F.aligned hs)
  have e2 : tang ⟨.quadrilateral, 3, (entityDomain .hexahedron (2, i)).v⟩ (p + w + gradient ℝ 3 s) =
      (fun m : Fin 2 => pull ⟨.quadrilateral, 3, (entityDomain .hexahedron (2, i)).v⟩ (p ⟨skip (qAxis 3 i) m.val, skip_lt ha m.2⟩) +
        pull ⟨.quadrilateral, 3, (entityDomain .hexahedron (2, i)).v⟩ (w ⟨skip (qAxis 3 i) m.val, skip_lt ha m.2⟩)) +
      fun m : Fin 2 => pderiv m.val (pull ⟨.quadrilateral, 3, (entityDomain .hexahedron (2, i)).v⟩ s) := by
    funext m
    refine (ht _ m).trans ?_
    show pull _ (p _ + w _ + pderiv _ s) = _
    rw [pull_add, pull_add]
    exact congrArg _ (grad_pull F.aligned (Ser_P hs) m.2 (skip_lt ha m.2))
  refine ⟨rot (fun m : Fin 2 => pull ⟨.quadrilateral, 3, (entityDomain .hexahedron (2, i)).v⟩ (p ⟨skip (qAxis 3 i) m.val, skip_lt ha m.2⟩) +
        pull ⟨.quadrilateral, 3, (entityDomain .hexahedron (2, i)).v⟩ (w ⟨skip (qAxis 3 i) m.val, skip_lt ha m.2⟩)) + p', fun j => ?_,
    w', hw', ?_⟩
  · refine Submodule.add_mem _ (mem_PV.1 (rot_mem (mem_PV.2 fun m => ?_)) j) (hp' j)
    exact Submodule.add_mem _ (pull_mem ⟨.quadrilateral, 3, (entityDomain .hexahedron (2, i)).v⟩ (hp _))
      (cross_pull F.aligned (scurlExt3_Cross hw) _ ha (skip_ne _ _).symm fun m _ => (skip_ne _ m).symm)
  · refine ((congrArg rot e2).trans (map_add rot _ _)).trans ?_
    rw [add_assoc]
    exact congrArg _ e

/-! ### Elements -/

/-- An element with tangential moments on edges, moments against full polynomials on faces and in the cell. -/
theorem curl_created3 {S : Field 3 → Prop} {n : ℕ} {m m' K : ℤ} {mp mp' : Option String} {poly : Option (List VecPoly)} {pl : List VecPoly}
    (hpoly : poly = some pl) (hi : Independent ℝ (pl.map (denoteVec ℝ 3)))
    (hS : ∀ v, v ∈ lspan (pl.map (denoteVec ℝ 3)) ↔ S v) (hmem : ∀ v, S v → ∀ j, v j ∈ P 3 K)
    (hedge : ∀ v, S v → ∀ i < 12, ∀ a (ha : a < 3), (∀ j, axis .interval (entityDomain .hexahedron (1, i)).v 0 j = if j = a then 1 else 0) →
      pull ⟨.interval, 3, (entityDomain .hexahedron (1, i)).v⟩ (v ⟨a, ha⟩) ∈ P 1 (n : ℤ))
    (hface : ∀ v, S v → ∀ i < 6, SquareZero (tang ⟨.quadrilateral, 3, (entityDomain .hexahedron (2, i)).v⟩ v) →
      (∀ q ∈ PV 2 2 m, pairing .quadrilateral (tang ⟨.quadrilateral, 3, (entityDomain .hexahedron (2, i)).v⟩ v) q = 0) →
      tang ⟨.quadrilateral, 3, (entityDomain .hexahedron (2, i)).v⟩ v = 0)
    (hcell : ∀ v, S v → (∀ (i : Fin 3), ∀ j < 3, j ≠ i.val → ∀ z : ℕ → ℝ, z j = 0 ∨ z j = 1 → eval z (v i) = 0) →
      (∀ q ∈ PV 3 3 m', pairing .hexahedron v q = 0) → v = 0)
    {A B C' : List Item} (hA : parse A = some ⟨"TangentIntegralMoment", "DPC", n, none, [("variant", "equispaced")]⟩)
    (hB : parse B = some ⟨"IntegralMoment", "VectorDPC", m, mp, [("variant", "equispaced")]⟩)
    (hC : parse C' = some ⟨"IntegralMoment", "VectorDPC", m', mp', [("variant", "equispaced")]⟩)
    (hcount : 12 * (n + 1) + 6 * (if m < 0 then 0 else (m.toNat + 2).choose 2 * 2) +
      (if m' < 0 then 0 else (m'.toNat + 3).choose 3 * 3) = pl.length) :
    Created (momentElement dpcClasses .hexahedron poly
      { edges := some (.single A), faces := some (.single B), volumes := some (.single C') }) S pl.length
      (fun dofs => EdgeTrace .hexahedron S dofs ∧ QFaceTrace S dofs) := by
  have hc : Box .hexahedron := Or.inr rfl
  obtain ⟨xs, hx, hxs, hxl⟩ := sub_dpc (t := .interval) (Or.inl rfl) (classes := dpcClasses) rfl "TangentIntegralMoment" (n : ℤ) none
  obtain ⟨ys, hy, hys, hyl⟩ : ∃ ys : List (Field 2), subFuns dpcClasses ⟨"IntegralMoment", "VectorDPC", m, mp, [("variant", "equispaced")]⟩
      .quadrilateral = some (ys.map (.vector 2)) ∧ lspan ys = PV 2 2 m ∧ ys.length = if m < 0 then 0 else (m.toNat + 2).choose 2 * 2 :=
    sub_vectorDpc (Or.inl rfl) (classes := dpcClasses) rfl "IntegralMoment" m mp [("variant", "equispaced")]
  obtain ⟨zs, hz, hzs, hzl⟩ : ∃ ys : List (Field 3), subFuns dpcClasses ⟨"IntegralMoment", "VectorDPC", m', mp', [("variant", "equispaced")]⟩
      .hexahedron = some (ys.map (.vector 3)) ∧ lspan ys = PV 3 3 m' ∧ ys.length = if m' < 0 then 0 else (m'.toNat + 3).choose 3 * 3 :=
    sub_vectorDpc hc (classes := dpcClasses) rfl "IntegralMoment" m' mp' [("variant", "equispaced")]
  have hms := qcurl_moments3 hA hB hC hx hy hz
  obtain ⟨dofs, hdofs⟩ := mapM_exists (f := momentDof .hexahedron) (l := qcurlMoments3
    ⟨"TangentIntegralMoment", "DPC", n, none, [("variant", "equispaced")]⟩
    ⟨"IntegralMoment", "VectorDPC", m, mp, [("variant", "equispaced")]⟩
    ⟨"IntegralMoment", "VectorDPC", m', mp', [("variant", "equispaced")]⟩
    (xs.map .scalar) (ys.map (.vector 2)) (zs.map (.vector 3))) (by
    intro mo hmo
    simp only [qcurlMoments3, List.mem_append, List.mem_flatMap, List.mem_range, List.mem_map] at hmo
    rcases hmo with ⟨i, hi, _, ⟨x, -, rfl⟩, rfl⟩ | ⟨i, hi, _, ⟨y, -, rfl⟩, rfl⟩ | ⟨_, ⟨y, -, rfl⟩, rfl⟩
    · obtain ⟨J, s, -, -, h⟩ := box_edge_moment hc hi none
      obtain ⟨d, hd, -⟩ := h x
      exact ⟨d, hd⟩
    · obtain ⟨d, hd, -⟩ := hex_face_moment hi y mp
      exact ⟨d, hd⟩
    · obtain ⟨d, hd, -⟩ := box_moment hc y mp'
      exact ⟨d, hd⟩)
  have htr : EdgeTrace .hexahedron S dofs := by
    refine edge_trace_of hc hmem (xs := xs) (mp := none) (fun v hv i hi a ha hax => ?_) fun i hi x hx => ?_
    · rw [hxs]
      exact hedge v hv i hi a ha hax
    · exact momentDof_mem hdofs (m := ⟨"TangentIntegralMoment", .scalar x, (1, i), none⟩) (by
        simp only [qcurlMoments3, List.mem_append, List.mem_flatMap, List.mem_range, List.mem_map]
        exact Or.inl ⟨i, hi, _, ⟨x, hx, rfl⟩, rfl⟩)
  have hft : QFaceTrace S dofs := by
    intro i hi v hv h he
    obtain ⟨a, b, c, d, habc, ⟨e1, l1, hab⟩, ⟨e2, l2, hac⟩, ⟨e3, l3, hbd⟩, ⟨e4, l4, hcd⟩, hpar⟩ := hex_face_edges hi
    have hV : ∀ n, (entityDomain .hexahedron (2, i)).v n = refVertex .hexahedron ([a, b, c, d].getD n 0) := fun n => by
      rw [← habc]; rfl
    have hSq : SquareZero (tang ⟨.quadrilateral, 3, (entityDomain .hexahedron (2, i)).v⟩ v) := by
      refine squareZero_of 3 _ (fun j => ?_) ?_ ?_ ?_ ?_
      · rw [hV, hV, hV, hV]
        exact hpar j
      · rw [hV, hV]
        exact htr e1 l1 a b hab v hv (he e1 l1 (by rw [hab, habc]; simp))
      · rw [hV, hV]
        exact htr e2 l2 a c hac v hv (he e2 l2 (by rw [hac, habc]; simp))
      · rw [hV, hV]
        exact htr e3 l3 b d hbd v hv (he e3 l3 (by rw [hbd, habc]; simp))
      · rw [hV, hV]
        exact htr e4 l4 c d hcd v hv (he e4 l4 (by rw [hcd, habc]; simp))
    refine qfaceZero_of hi (hmem v hv) (hface v hv i hi hSq fun q hq => ?_)
    refine pairing_lspan (c := .quadrilateral) (u := tang ⟨.quadrilateral, 3, (entityDomain .hexahedron (2, i)).v⟩ v) (fun y hy => ?_) (hys ▸ hq)
    obtain ⟨d', hd', h1⟩ := momentDof_mem hdofs (m := ⟨"IntegralMoment", .vector 2 y, (2, i), mp⟩) (by
      simp only [qcurlMoments3, List.mem_append, List.mem_flatMap, List.mem_range, List.mem_map]
      exact Or.inr (Or.inl ⟨i, hi, _, ⟨y, hy, rfl⟩, rfl⟩))
    obtain ⟨d, hd, hd1, hd2⟩ := hex_face_moment hi y mp
    obtain rfl := Option.some.inj (hd.symm.trans h1)
    exact Eq.trans (hd2 v).symm (h d hd' hd1)
  have hu : ∀ v, S v → (∀ d ∈ dofs, d.eval v = 0) → v = 0 := by
    intro v hv h
    refine hcell v hv (hex_tangent fun i hi => hft i hi v hv (fun d hd _ => h d hd) fun _ _ _ d hd _ => h d hd) fun q hq => ?_
    refine (pairing_lspan (c := .hexahedron) (u := v) (fun y hy => ?_) (hzs ▸ hq))
    obtain ⟨d', hd', h1⟩ := momentDof_mem hdofs (m := ⟨"IntegralMoment", .vector 3 y, (3, 0), mp'⟩) (by
      simp only [qcurlMoments3, List.mem_append, List.mem_flatMap, List.mem_range, List.mem_map]
      exact Or.inr (Or.inr ⟨_, ⟨y, hy, rfl⟩, rfl⟩))
    obtain ⟨d, hd, -, hd2⟩ := box_moment hc y mp'
    obtain rfl := Option.some.inj (hd.symm.trans h1)
    refine Eq.trans (hd2 v _ (hmem v hv)).symm (h d hd')
  have hml : (qcurlMoments3 ⟨"TangentIntegralMoment", "DPC", n, none, [("variant", "equispaced")]⟩
    ⟨"IntegralMoment", "VectorDPC", m, mp, [("variant", "equispaced")]⟩
    ⟨"IntegralMoment", "VectorDPC", m', mp', [("variant", "equispaced")]⟩
    (xs.map .scalar) (ys.map (.vector 2)) (zs.map (.vector 3))).length = pl.length := by
    rw [← hcount]
    simp only [qcurlMoments3, List.length_append, List.length_flatMap, List.length_map, hxl, hyl, hzl]
    simp only [List.map_const', List.sum_replicate, List.length_range, smul_eq_mul, Cell.tdim]
    rw [if_neg (by omega : ¬ (n : ℤ) < 0), Int.toNat_natCast, Nat.choose_one_right, add_assoc]
  obtain ⟨fs, h1, h2, h3, h4⟩ := momentElement_basis (c := .hexahedron) hpoly hms hdofs hml hi fun v hv => hu v ((hS v).1 hv)
  exact ⟨_, dofs, fs, h1, h2, by rw [← (mapM_forall hdofs).length_eq, hml], h4, fun v => (by rw [h3]; exact hS v), hu, htr, hft⟩

theorem face_zero {k : ℕ} (hk : 1 ≤ k) {u : Field 2}
    (hu : Enriched 2 k {w | w ∈ (([0, 1] : List ℕ).map (scTurned (-1) k)).map (denoteVec ℝ 2)} (rot u)) (hsq : SquareZero u)
    (hp : ∀ q ∈ PV 2 2 ((k : ℤ) - 2), pairing .quadrilateral u q = 0) : u = 0 := by
  refine rot_injective (enriched_zero (c := .quadrilateral) (Or.inl rfl) (scTurned_dual (-1) hk) hu (fun j z hz => ?_) fun q hq => ?_)
  · change Fin 2 at j
    fin_cases j
    · show eval z (rot u 0) = 0
      rw [rot_zero, map_neg, hsq.2 z hz, neg_zero]
    · show eval z (rot u 1) = 0
      rw [rot_one, hsq.1 z hz]
  · have key : ∀ q : Field 2, q ∈ PV 2 2 ((k : ℤ) - 2) → pairing .quadrilateral (rot u) q = 0 := fun q hq => by
      have h5 := pairing_rot u (rot q)
      rw [hp (rot q) (rot_mem hq), rot_rot, map_neg, neg_eq_zero] at h5
      exact h5
    exact key q hq

/-- **C126** The serendipity H(curl) element on a hexahedron. -/
theorem scurl_created_hexahedron {k : ℕ} (hk : 1 ≤ k) :
    Created (scurl "equispaced" .hexahedron k) (SC3 k) (12 * (k + 1) + 12 * k.choose 2 + 3 * (k - 1).choose 3)
      (fun dofs => EdgeTrace .hexahedron (SC3 k) dofs ∧ QFaceTrace (SC3 k) dofs) := by
  obtain ⟨pl, h1, h2, h3, h4⟩ := scurl3_spec hk
  have h := curl_created3 (S := SC3 k) (n := k) (m := (k : ℤ) - 2) (m' := (k : ℤ) - 4) (mp := some "covariant") (mp' := some "covariant")
    (poly := (polySetVector Cell.hexahedron.tdim Cell.hexahedron.tdim k).bind fun a => (hcurlSerSet Cell.hexahedron.tdim k).map fun b => a ++ b)
    h1 h2 h3 (fun v hv => sc3_mem hk hv)
    (fun v hv i hi a ha hax => sc3_edge hk hv hi ha hax)
    (fun v hv i hi hsq hp => face_zero hk (sc3_face hk hv hi) hsq hp)
    (fun v hv ht hp => sc3_zero hk hv ht hp)
    (A := [.cls "TangentIntegralMoment", .cls "DPC", .int (k : ℤ), .dict [("variant", "equispaced")]])
    (B := [.cls "IntegralMoment", .cls "VectorDPC", .int ((k : ℤ) - 2), .str "covariant", .dict [("variant", "equispaced")]])
    (C' := [.cls "IntegralMoment", .cls "VectorDPC", .int ((k : ℤ) - 4), .str "covariant", .dict [("variant", "equispaced")]])
    rfl rfl rfl ?_
  · rw [h4] at h
    exact h
  · rw [h4, scCount3]
    have e1 : (if (k : ℤ) - 2 < 0 then 0 else (((k : ℤ) - 2).toNat + 2).choose 2 * 2) = k.choose 2 * 2 := by
      split_ifs with h0
      · obtain rfl : k = 1 := by omega
        rfl
      · rw [show ((k : ℤ) - 2).toNat + 2 = k by omega]
    have e2 : (if (k : ℤ) - 4 < 0 then 0 else (((k : ℤ) - 4).toNat + 3).choose 3 * 3) = (k - 1).choose 3 * 3 := by
      split_ifs with h0
      · rw [Nat.choose_eq_zero_of_lt (by omega)]
      · rw [show ((k : ℤ) - 4).toNat + 3 = k - 1 by omega]
    rw [e1, e2]
    ring

/-- The element of order 1 has 24 functions, the element of order 4 has 135. -/
example : (∃ basis dofs fs, scurl "equispaced" .hexahedron 1 = some (.ciarlet basis dofs) ∧
    getBasis (.ciarlet basis dofs) = some fs ∧ fs.length = 24) ∧
    ∃ basis dofs fs, scurl "equispaced" .hexahedron 4 = some (.ciarlet basis dofs) ∧
      getBasis (.ciarlet basis dofs) = some fs ∧ fs.length = 135 := by
  constructor
  · obtain ⟨b, d, fs, h1, h2, -, h3, -⟩ := scurl_created_hexahedron (k := 1) (by omega)
    exact ⟨b, d, fs, h1, h2, h3⟩
  · obtain ⟨b, d, fs, h1, h2, -, h3, -⟩ := scurl_created_hexahedron (k := 4) (by omega)
    exact ⟨b, d, fs, h1, h2, h3⟩

/-- The gradient of `x y z` belongs to the space of order 1, but not to the polynomials of degree 1. -/
example : SC3 1 (gradient ℝ 3 (X 0 * X 1 * X 2)) := by
  refine ⟨0, fun j => Submodule.zero_mem _, 0, Submodule.zero_mem _, X 0 * X 1 * X 2, ?_, by simp⟩
  have e : X 0 * X 1 * X 2 = (monomial (expo 0 [1, 1, 1]) 1 : MvPolynomial ℕ ℝ) := by
    rw [← monoFrom_eq]
    simp [monoFrom]
    ring
  rw [e]
  show _ ∈ restrictSupport _ _
  rw [monomial_mem_restrictSupport]
  left
  have e0 : expo 0 [1, 1, 1] 0 = 1 := expo_getD [1, 1, 1] 0 0
  have e1 : expo 0 [1, 1, 1] 1 = 1 := expo_getD [1, 1, 1] 0 1
  have e2 : expo 0 [1, 1, 1] 2 = 1 := expo_getD [1, 1, 1] 0 2
  refine ⟨?_, expo_lt _⟩
  rw [slDegree_three (expo_lt _), e0, e1, e2]
  simp

end Verif.Families
