import Verif.Degrees.Trimmed
import Verif.Scalar.NonConforming
import Verif.Scalar.EnrichedGalerkin
import Verif.Families.Abf
import Verif.Families.CR
import Verif.Matrices.Hhj
/-!
# Degrees of further elements
-/

namespace Verif.Degrees
open Verif.References Verif.Elements Verif.FiniteElement Verif.Polysets Verif.Moments
open Verif.Families Verif.Scalar Verif.Matrices
open MvPolynomial

/-! ### What the classes declare -/

/-- `ArnoldBoffiFalk` (symfem/elements/abf.py:81-94). -/
def declABF (k : ℕ) : Declared := ⟨k, (k : ℤ) + 2, k, (k : ℤ) * 2 + 2⟩

/-- `HuangZhang` (symfem/elements/huang_zhang.py:80-93). -/
def declHZ (k : ℕ) : Declared := ⟨(k : ℤ) - 1, k, (k : ℤ) - 1, (k : ℤ) * 2 - 1⟩

/-- `BernardiRaugel` (symfem/elements/bernardi_raugel.py:121-134). -/
def declBR (c : Cell) (k : ℕ) : Declared := ⟨k, (k : ℤ) + c.tdim - 1, k, (k : ℤ) + c.tdim - 1⟩

/-- `RannacherTurek` (symfem/elements/rannacher_turek.py:54-67). -/
def declRannacher : Declared := ⟨0, 2, 1, 2⟩

/-- `EnrichedGalerkin` and `VectorEnrichedGalerkin` (symfem/elements/enriched_galerkin.py:33-48,
symfem/elements/vector_enriched_galerkin.py:83-98). -/
def declEG (c : Cell) (k : ℕ) : Declared := ⟨k, k, k, if c ∈ [Cell.quadrilateral, .hexahedron] then (k : ℤ) * c.tdim else k⟩

/-! ### Spaces -/

theorem degrees_ABF (k : ℕ) : HasDegrees (vec 2 (QP 2)) (vec 2 (P 2)) (ABF k) (declABF k) := by
  have hp := vec_monotone 2 (P_monotone 2)
  have hq := vec_monotone 2 (QP_monotone 2)
  have hin : ∀ v, v ∈ vec 2 (QP 2) k → ABF k v := fun v hv i => B_mono (fun j => by
    unfold degs
    split_ifs <;> omega) (mem_vec.1 hv i)
  have hout : ¬ ABF k (at' 0 (X 1 ^ (k + 1))) := fun h => by
    have := h 0
    rw [at_same, X_pow_mem_B (degs_nonneg (by omega) (by omega)), degs, if_pos (by omega), if_neg (by simp)] at this
    omega
  have hin0 : ∀ p : MvPolynomial ℕ ℝ, p ∈ B (degs 2 0 ((k : ℤ) + 2) k) → ABF k (at' 0 p) := by
    intro p hp i
    by_cases hi : i = 0
    · subst hi
      rw [at_same]
      exact hp
    · rw [at_ne hi]
      exact Submodule.zero_mem _
  refine .mk (greatest_of hq hin _ (at_mem.2 (P_le_QP _ _ (X_pow_mem (by omega) (by push_cast; omega)))) hout)
    (least_of hq (fun v hv => mem_vec.2 fun i => B_mono (fun j => by unfold degs; split_ifs <;> omega) (hv i)) (at' 0 (X 0 ^ (k + 2)))
      (hin0 _ ?_) fun h => ?_)
    (greatest_of hp (fun v hv => hin v (mem_vec.2 fun i => P_le_QP _ _ (mem_vec.1 hv i))) _ (at_mem.2 (X_pow_mem (by omega) (by push_cast; omega))) hout)
    (least_of hp (fun v hv => mem_vec.2 fun i => P_mono ?_ (degs_le_P i.2 (hv i))) (at' 0 (monomial (corner 2 (k + 2) k) 1))
      (hin0 _ ?_) fun h => ?_)
  · rw [X_pow_mem_B (degs_nonneg (by omega) (by omega)), degs, if_pos (by omega), if_pos rfl]
    push_cast
    rfl
  · rw [at_mem, QP, X_pow_mem_B (fun i => by split_ifs <;> omega), if_pos (by omega)] at h
    push_cast at h
    omega
  · push_cast
    omega
  · rw [mono_mem_B]
    intro j
    rw [corner_apply, degs]
    split_ifs <;> simp_all
  · exact corner_notMem (by push_cast; omega) (at_mem.1 h)

theorem degrees_RTQuad {d : ℕ} (hd : 2 ≤ d) : HasDegrees (QP d) (P d) (· ∈ RTQuad d) declRannacher := by
  have hsup : RTQuad d ≤ P d 2 := by
    refine sup_le (P_mono (by norm_num)) (Submodule.span_le.2 ?_)
    rintro p ⟨i, hi, j, hj, rfl⟩
    exact Submodule.sub_mem _ (X_pow_mem hi (by norm_num)) (X_pow_mem hj (by norm_num))
  have hc : ∀ s : ℕ →₀ ℕ, s.degree = 2 → s 0 = 1 → RTQuad d ≤ LinearMap.ker (lcoeff ℝ s) := by
    intro s hs h0
    refine sup_le (fun (p : MvPolynomial ℕ ℝ) (hp : p ∈ P d 1) => (coeff_high hp (by rw [hs]; norm_num) : coeff s p = 0)) (Submodule.span_le.2 ?_)
    rintro p ⟨i, hi, j, hj, rfl⟩
    show coeff s (X i ^ 2 - X j ^ 2 : MvPolynomial ℕ ℝ) = 0
    have key : ∀ i : ℕ, coeff s (X i ^ 2 : MvPolynomial ℕ ℝ) = 0 := by
      intro i
      rw [X_pow_eq_monomial, coeff_monomial, if_neg]
      rintro rfl
      rw [Finsupp.single_apply] at h0
      split_ifs at h0
      omega
    rw [coeff_sub, key, key, sub_zero]
  have hw : (X 0 ^ 2 - X 1 ^ 2 : MvPolynomial ℕ ℝ) ∈ RTQuad d := Submodule.mem_sup_right (Submodule.subset_span ⟨0, by omega, 1, by omega, rfl⟩)
  have hwc : coeff (Finsupp.single 0 2) (X 0 ^ 2 - X 1 ^ 2 : MvPolynomial ℕ ℝ) = 1 := by
    rw [coeff_sub, X_pow_eq_monomial, X_pow_eq_monomial, coeff_monomial, coeff_monomial, if_pos rfl, if_neg, sub_zero]
    intro h
    have := DFunLike.congr_fun h 0
    simp at this
  have hxy : ((monomial (Finsupp.single 0 1 + Finsupp.single 1 1) 1 : MvPolynomial ℕ ℝ)) ∉ RTQuad d := fun h => by
    have := hc (Finsupp.single 0 1 + Finsupp.single 1 1) (by simp) (by simp) h
    rw [LinearMap.mem_ker, lcoeff_apply, coeff_monomial, if_pos rfl] at this
    exact one_ne_zero this
  have hw1 : (X 0 ^ 2 - X 1 ^ 2 : MvPolynomial ℕ ℝ) ∉ QP d 1 := fun h => by
    have := mem_B.1 h (Finsupp.single 0 2) (mem_support_iff.2 (by rw [hwc]; exact one_ne_zero)) 0
    rw [if_pos (by omega)] at this
    simp at this
  refine .mk (greatest_of (QP_monotone d) (fun v hv => Submodule.mem_sup_left (P_mono (by simp) (QP_le_P _ _ hv))) _ ?_ hxy)
    (least_of (QP_monotone d) (fun v hv => P_le_QP _ _ (hsup hv)) _ hw hw1)
    (greatest_of (P_monotone d) (fun v hv => Submodule.mem_sup_left hv) _ ?_ hxy)
    (least_of (P_monotone d) (fun v hv => hsup hv) _ hw fun h => hw1 (P_le_QP _ _ h))
  · rw [QP, mono_mem_B]
    intro i
    rw [Finsupp.add_apply, Finsupp.single_apply, Finsupp.single_apply]
    split_ifs <;> (try subst_vars) <;> (try push_cast) <;> omega
  · rw [mono_mem_P]
    refine ⟨by simp, fun i hi => ?_⟩
    rw [Finsupp.mem_support_iff, Finsupp.add_apply, Finsupp.single_apply, Finsupp.single_apply] at hi
    split_ifs at hi <;> omega

/-! ### Bernardi–Raugel -/

theorem coeff_dvd {s : ℕ →₀ ℕ} {i : ℕ} (hs : s i = 0) {p : MvPolynomial ℕ ℝ} (h : X i ∣ p) : coeff s p = 0 := by
  obtain ⟨q, rfl⟩ := h
  rw [coeff_X_mul', if_neg]
  rw [Finsupp.mem_support_iff, hs]
  exact fun h => h rfl

theorem dvd_entBub {c : Cell} {m n v : ℕ} (hv : v + 1 ∈ entVerts c m n) : (X v : MvPolynomial ℕ ℝ) ∣ entBub c m n := by
  refine List.dvd_prod (List.mem_map.2 ⟨v + 1, hv, ?_⟩)
  rw [bary, if_neg (by omega), Nat.add_sub_cancel]

theorem br_pure {c : Cell} (hc : Simp c) {k : ℕ} {v : Field c.tdim} (hv : BRSpace c k v) (j : Fin c.tdim) (hj : j.val = 0) :
    coeff (Finsupp.single 0 (k + 1)) (v j) = 0 := by
  obtain ⟨p, a, b, hp, -, rfl⟩ := hv
  show coeff _ (p j + ∑ i ∈ Finset.range (c.tdim + 1), C (a i * facetNormal i j.val) * entBub c (c.tdim - 1) i + C (b j) * entBub c c.tdim 0) = 0
  rw [coeff_add, coeff_add, coeff_high (hp j) (by rw [Finsupp.degree_single]; push_cast; omega), zero_add, coeff_C_mul]
  have h1 : coeff (Finsupp.single 0 (k + 1)) (entBub c c.tdim 0) = 0 := by
    refine coeff_dvd (i := 1) (by simp) (dvd_entBub ?_)
    rcases hc with rfl | rfl <;> decide
  rw [h1, mul_zero, add_zero, coeff_sum]
  refine Finset.sum_eq_zero fun i hi => ?_
  rw [coeff_C_mul]
  have hi' := Finset.mem_range.1 hi
  have key : ∀ i < c.tdim + 1, 2 ∈ entVerts c (c.tdim - 1) i ∨ 3 ∈ entVerts c (c.tdim - 1) i ∨ i = 2 := by
    rcases hc with rfl | rfl <;> decide
  rcases key i hi' with h | h | h
  · rw [coeff_dvd (i := 1) (by simp) (dvd_entBub h), mul_zero]
  · rw [coeff_dvd (i := 2) (by simp) (dvd_entBub h), mul_zero]
  · rw [h, hj, facetNormal, if_neg (by omega), if_neg (by omega), mul_zero, zero_mul]

theorem entBub_degree {c : Cell} (hc : Simp c) : (∀ i < c.tdim + 1, entBub c (c.tdim - 1) i ∈ P c.tdim c.tdim) ∧
    entBub c c.tdim 0 ∈ P c.tdim ((c.tdim : ℤ) + 1) := by
  have key : (∀ i < c.tdim + 1, (∀ v ∈ entVerts c (c.tdim - 1) i, v ≤ c.tdim) ∧ (entVerts c (c.tdim - 1) i).length = c.tdim) ∧
      (∀ v ∈ entVerts c c.tdim 0, v ≤ c.tdim) ∧ (entVerts c c.tdim 0).length = c.tdim + 1 := by
    rcases hc with rfl | rfl <;> decide
  refine ⟨fun i hi => ?_, ?_⟩
  · have := prod_bary_mem (d := c.tdim) (entVerts c (c.tdim - 1) i) (key.1 i hi).1
    rwa [(key.1 i hi).2] at this
  · have := prod_bary_mem (d := c.tdim) (entVerts c c.tdim 0) key.2.1
    rw [key.2.2] at this
    push_cast at this
    exact this

theorem degrees_BR {c : Cell} (hc : Simp c) {k : ℕ} (hk : k = 1 ∨ k = 2) :
    HasDegrees (vec c.tdim (P c.tdim)) (vec c.tdim (P c.tdim)) (BRSpace c k) (declBR c k) := by
  have hd : 2 ≤ c.tdim := by rcases hc with rfl | rfl <;> decide
  have hp := vec_monotone c.tdim (P_monotone c.tdim)
  obtain ⟨b1, b2⟩ := entBub_degree hc
  have hin : ∀ v ∈ vec c.tdim (P c.tdim) k, BRSpace c k v := fun v hv => ⟨v, 0, 0, mem_vec.1 hv, fun _ => rfl, by
    funext j
    simp [brSum]⟩
  have hsup : ∀ v, BRSpace c k v → v ∈ vec c.tdim (P c.tdim) ((k : ℤ) + c.tdim - 1) := by
    rintro v ⟨p, a, b, hp, hb, rfl⟩
    refine mem_vec.2 fun j => Submodule.add_mem _ (Submodule.add_mem _ (P_mono (by omega) (hp j)) (Submodule.sum_mem _ fun i hi => ?_)) ?_
    · rw [← smul_eq_C_mul]
      exact Submodule.smul_mem _ _ (P_mono (by omega) (b1 i (Finset.mem_range.1 hi)))
    · rw [← smul_eq_C_mul]
      rcases hk with rfl | rfl
      · rw [hb rfl]
        simp
      · exact Submodule.smul_mem _ _ (P_mono (by push_cast; omega) b2)
  have h1 : IsGreatest {n | ∀ v ∈ vec c.tdim (P c.tdim) n, BRSpace c k v} (k : ℤ) := by
    refine greatest_of hp hin (at' ⟨0, by omega⟩ (X 0 ^ (k + 1))) (at_mem.2 (X_pow_mem (by omega) (by push_cast; omega))) fun h => ?_
    have := br_pure hc h ⟨0, by omega⟩ rfl
    rw [at_same, X_pow_eq_monomial, coeff_monomial, if_pos rfl] at this
    exact one_ne_zero this
  have h2 : IsLeast {n | ∀ v, BRSpace c k v → v ∈ vec c.tdim (P c.tdim) n} ((k : ℤ) + c.tdim - 1) := by
    rcases hk with rfl | rfl
    · refine least_of hp hsup (brSum c 0 (fun i => if i = 0 then 1 else 0) 0) ⟨_, _, _, fun j => Submodule.zero_mem _, fun _ => rfl, rfl⟩ fun h => ?_
      have h3 := mem_vec.1 h ⟨0, by omega⟩
      have e : brSum c 0 (fun i => if i = 0 then 1 else 0) 0 ⟨0, by omega⟩ = monomial (box c.tdim 1) 1 := by
        have : brSum c 0 (fun i => if i = 0 then 1 else 0) 0 ⟨0, by omega⟩ = entBub c (c.tdim - 1) 0 := by
          show (0 : MvPolynomial ℕ ℝ) + ∑ i ∈ Finset.range (c.tdim + 1), C ((if i = 0 then 1 else 0) * facetNormal i 0) * entBub c (c.tdim - 1) i + C 0 * entBub c c.tdim 0 = _
          rw [Finset.sum_eq_single 0]
          · simp [facetNormal]
          · intro i _ hi
            simp [hi]
          · simp
        rw [this]
        rcases hc with rfl | rfl
        · show ([1, 2].map (bary 2)).prod = monomial (box 2 1) 1
          simp [bary, box, Finset.sum_range_succ, X, monomial_mul]
        · show ([1, 2, 3].map (bary 3)).prod = monomial (box 3 1) 1
          simp [bary, box, Finset.sum_range_succ, X, monomial_mul, add_assoc]
      rw [e, box_mem_P] at h3
      push_cast at h3
      omega
    · refine least_of hp hsup (brSum c 0 0 1) ⟨_, _, _, fun j => Submodule.zero_mem _, fun h => absurd h (by norm_num), rfl⟩ fun h => ?_
      have h3 := mem_vec.1 h ⟨0, by omega⟩
      have e : brSum c 0 0 1 ⟨0, by omega⟩ = simpBub c.tdim * 1 := by
        rw [mul_one, ← entBub_cell hc]
        simp [brSum]
      rw [e] at h3
      have h4 := simpBub_cancel (by omega) h3
      have h5 := (mem_P.1 h4 0 (by rw [mem_support_iff, coeff_zero_one]; exact one_ne_zero)).1
      rw [map_zero] at h5
      push_cast at h5
      omega
  exact ⟨h1, h2, h1, h2⟩

/-! ### Symmetric matrices -/

/-- Symmetric matrices of polynomials. -/
def symP (d : ℕ) (n : ℤ) : Submodule ℝ (MField d) where
  carrier := {u | SymSpace d n u}
  zero_mem' := ⟨fun _ _ => rfl, fun _ _ => Submodule.zero_mem _⟩
  add_mem' := fun h h' => ⟨fun i j => congrArg₂ (· + ·) (h.1 i j) (h'.1 i j), fun i j => Submodule.add_mem _ (h.2 i j) (h'.2 i j)⟩
  smul_mem' := fun a _ h => ⟨fun i j => congrArg (a • ·) (h.1 i j), fun i j => Submodule.smul_mem _ _ (h.2 i j)⟩

theorem degrees_sym {d : ℕ} (hd : 0 < d) (k : ℕ) : HasDegrees (symP d) (symP d) (SymSpace d k) (declComplete k) := by
  have hm : Monotone (symP d) := fun a b h u hu => ⟨hu.1, fun i j => P_mono h (hu.2 i j)⟩
  have hw : ∀ n : ℕ, SymSpace d n fun i j => if i.val = 0 ∧ j.val = 0 then X 0 ^ n else 0 := by
    intro n
    refine ⟨fun i j => by simp only [and_comm], fun i j => ?_⟩
    dsimp only
    split_ifs
    · exact X_pow_mem hd le_rfl
    · exact Submodule.zero_mem _
  have h1 : IsGreatest {n | ∀ v ∈ symP d n, SymSpace d k v} (k : ℤ) := by
    refine greatest_of hm (fun v hv => hv) _ (hw (k + 1)) fun h => ?_
    have := h.2 ⟨0, hd⟩ ⟨0, hd⟩
    simp only [and_self, if_true] at this
    exact X_pow_notMem (by push_cast; omega) this
  have h2 : IsLeast {n | ∀ v, SymSpace d k v → v ∈ symP d n} (k : ℤ) := by
    refine least_of hm (fun v hv => hv) _ (hw k) fun h => ?_
    have := h.2 ⟨0, hd⟩ ⟨0, hd⟩
    simp only [and_self, if_true] at this
    exact X_pow_notMem (by omega) this
  exact ⟨h1, h2, h1, h2⟩

/-! ### Elements -/

/-- **C139** Arnold–Boffi–Falk and Huang–Zhang elements. -/
theorem abf_hz_degrees {k : ℕ} : ElementDegrees (vec 2 (QP 2)) (vec 2 (P 2)) (abf "equispaced" k) (declABF k) ∧
    (2 ≤ k → ElementDegrees (vec 2 (QP 2)) (vec 2 (P 2)) (huangZhang "equispaced" k) (declHZ k)) := by
  refine ⟨of_created (abf_created k) (degrees_ABF k), fun hk => ?_⟩
  have e : declHZ k = ⟨(k : ℤ) - 1, k, (k : ℤ) - 1, ((k : ℤ) - 1) * (2 : ℕ) + 1⟩ := by
    simp only [declHZ, Declared.mk.injEq]
    push_cast
    refine ⟨trivial, trivial, trivial, by ring⟩
  rw [e]
  exact of_created (hz_created k hk) (degrees_RTQ (d := 2) le_rfl (by omega))

/-- **C139** Bernardi–Raugel elements. -/
theorem br_degrees : (∀ c, Simp c → ElementDegrees (vec c.tdim (P c.tdim)) (vec c.tdim (P c.tdim)) (bernardiRaugel c 1) (declBR c 1)) ∧
    ElementDegrees (vec 3 (P 3)) (vec 3 (P 3)) (bernardiRaugel .tetrahedron 2) (declBR .tetrahedron 2) :=
  ⟨fun _ hc => of_created (br_created1 hc) (degrees_BR hc (Or.inl rfl)), of_created br_created2 (degrees_BR (Or.inr rfl) (Or.inr rfl))⟩

/-- **C139** Rannacher–Turek and Fortin–Soulie elements. -/
theorem nonconforming_degrees : (∀ c, Box c → ElementDegrees (W c) (P c.tdim) (rannacherTurek c 1) declRannacher) ∧
    ElementDegrees (W .triangle) (P 2) (fortinSoulie .triangle 2) (declComplete 2) := by
  refine ⟨fun c hc => ?_, ?_⟩
  · rw [W_eq_box hc]
    exact of_created (rannacherTurek_created hc) (degrees_RTQuad (by rcases hc with rfl | rfl <;> decide))
  · rw [simp_W (Or.inl rfl)]
    exact of_created fortinSoulie_created (degrees_P (by decide) 2)

/-- **C139** Regge (with point evaluations) and Hellan–Herrmann–Johnson elements. -/
theorem matrix_degrees {c : Cell} (hc : Simp c) (k : ℕ) :
    (∀ v, NonDegenerate c v → ElementDegrees (symP c.tdim) (symP c.tdim) (reggeElement c v k) (declComplete k)) ∧
    ElementDegrees (symP c.tdim) (symP c.tdim) (hhjElement "equispaced" c k) (declComplete k) := by
  have hd : 0 < c.tdim := by rcases hc with rfl | rfl <;> decide
  exact ⟨fun v hv => of_created (regge_created hc v hv k) (degrees_sym hd k), of_created (hhj_created hc k) (degrees_sym hd k)⟩

theorem declEG_simplex {c : Cell} (hc : Simplex c) (k : ℕ) : declEG c k = declComplete k := by
  rw [declEG, if_neg, declComplete]
  rcases hc with rfl | rfl | rfl <;> simp

theorem declEG_box {c : Cell} (hc : Box c) (k : ℕ) : declEG c k = declQ c k := by
  rw [declEG, if_pos, declQ]
  rcases hc with rfl | rfl <;> simp

/-- **C139** Enriched Galerkin elements. (The extra function 1 is already in the Lagrange space.) -/
theorem eg_degrees {c : Cell} (hc : LagCell c) (k : ℕ) : ElementDegrees (W c) (P c.tdim) (egElement c k) (declEG c k) := by
  have hd : 0 < c.tdim := by rcases hc with (rfl | rfl | rfl) | (rfl | rfl) <;> decide
  obtain ⟨e, fs, h1, h2, -, h3, -⟩ := eg_basis hc k
  refine ⟨e, _, h1, h2, ?_⟩
  rw [h3]
  rcases hc with hc | hc
  · rw [W_eq_simplex hc, declEG_simplex hc]
    exact degrees_P hd k
  · rw [W_eq_box hc, declEG_box hc]
    exact degrees_QP hd k

/-- **C139** Locking-free enriched Galerkin elements. -/
theorem lfeg_degrees {c : Cell} (hc : LfegCell c) {k : ℕ} (hk : 1 ≤ k) :
    ElementDegrees (vec c.tdim (W c)) (vec c.tdim (P c.tdim)) (lfegElement c k) (declEG c k) := by
  have hd : 0 < c.tdim := by rcases hc with (rfl | rfl) | (rfl | rfl) <;> decide
  obtain ⟨e, fs, h1, h2, -, h3, -⟩ := lfeg_basis hc hk
  refine ⟨e, _, h1, h2, ?_⟩
  have hm : fromMidpoint c ∈ lspan fs := by
    refine (h3 _).2 fun i => ?_
    have := P_mono (show (1 : ℤ) ≤ k by exact_mod_cast hk) (fromMidpoint_mem c i)
    rcases hc with hc | hc
    · rw [simp_W hc]
      exact this
    · rw [W_eq_box hc]
      exact P_le_QP _ _ this
  have e : (fun v => v ∈ lspan (fs ++ [fromMidpoint c])) = fun v => ∀ i, v i ∈ W c k := by
    funext v
    rw [← propext (h3 v), propext_iff]
    have : lspan (fs ++ [fromMidpoint c]) = lspan fs := le_antisymm (Submodule.span_le.2 fun w hw => by
      rcases List.mem_append.1 hw with h | h
      · exact mem_lspan h
      · rw [List.mem_singleton.1 h]
        exact hm) (Submodule.span_mono fun w hw => List.mem_append_left _ hw)
    rw [this]
  rw [e]
  rcases hc with hc | hc
  · rw [simp_W hc, declEG_simplex (Or.inr hc)]
    exact (degrees_P hd k).vec hd (Submodule.zero_mem _)
  · rw [W_eq_box hc, declEG_box hc]
    exact (degrees_QP hd k).vec hd (Submodule.zero_mem _)

/-- **C139** Crouzeix–Raviart elements of odd order. -/
theorem cr_degrees {v : ℕ → ℕ → ℝ} (hv : NonDegenerate .triangle v) {k : ℕ} (ho : Odd k) :
    ElementDegrees (W .triangle) (P 2) (crElement "equispaced" .triangle v k) (declComplete k) := by
  obtain ⟨b, ds, fs, h1, h2, h3, -⟩ := cr_created_odd_partial v hv ho
  refine ⟨_, fs, h1, h2, ?_⟩
  rw [h3, simp_W (Or.inl rfl)]
  exact degrees_P (by decide) k

example : ElementDegrees (vec 3 (P 3)) (vec 3 (P 3)) (bernardiRaugel .tetrahedron 2) ⟨2, 4, 2, 4⟩ := br_degrees.2

end Verif.Degrees
