import Verif.Degrees.Vector
import Verif.Families.TrimmedDiv
import Verif.Families.TrimmedCurl
import Verif.Families.SerCurl3
import Verif.Families.Ac
/-!
# Degrees of trimmed serendipity, serendipity H(curl) and Arbogast–Correa elements
-/

namespace Verif.Degrees
open Verif.References Verif.Elements Verif.FiniteElement Verif.Polysets Verif.Moments
open Verif.Families Verif.Scalar
open MvPolynomial

/-! ### Coefficients -/

/-- The coefficient `s` of component `i`. -/
noncomputable def coef {d : ℕ} (i : Fin d) (s : ℕ →₀ ℕ) : Field d →ₗ[ℝ] ℝ := (lcoeff ℝ s) ∘ₗ LinearMap.proj i

theorem coef_apply {d : ℕ} (i : Fin d) (s : ℕ →₀ ℕ) (v : Field d) : coef i s v = coeff s (v i) := rfl

theorem coeff_high {d : ℕ} {n : ℤ} {p : MvPolynomial ℕ ℝ} (hp : p ∈ P d n) {s : ℕ →₀ ℕ} (hs : n < s.degree) : coeff s p = 0 := by
  by_contra h
  have := (mem_P.1 hp s (mem_support_iff.2 h)).1
  omega

theorem TSdiv_zero {d n : ℕ} {ext : Set (Field d)} {v : Field d} (hv : TSdiv d (n + 1) ext v) (Λ : Field d →ₗ[ℝ] ℝ)
    (h1 : ∀ p : Field d, (∀ i, p i ∈ P d n) → Λ p = 0) (h2 : ∀ r, Λ (radial d r) = 0) (h3 : ∀ w ∈ ext, Λ w = 0) : Λ v = 0 := by
  obtain ⟨p, ⟨r, -, hr⟩, w, hw, rfl⟩ := hv
  have hw0 : Λ w = 0 := by
    have : Submodule.span ℝ ext ≤ LinearMap.ker Λ := Submodule.span_le.2 h3
    exact this hw
  have hp : p = (p - radial d r) + radial d r := (sub_add_cancel _ _).symm
  rw [map_add, hw0, add_zero, hp, map_add, h2, add_zero]
  refine h1 _ fun i => ?_
  have := hr i
  push_cast at this
  rw [add_sub_cancel_right] at this
  exact this

/-- The degrees of a trimmed space. -/
theorem degrees_TSdiv {d n : ℕ} (hd : 2 ≤ d) {ext : Set (Field d)} (hext : ∀ w ∈ ext, ∀ i, w i ∈ P d ((n : ℤ) + 1)) {s : ℕ}
    (hs : ∀ v ∈ vec d (QP d) s, TSdiv d (n + 1) ext v) (hn : n < d * (s + 1))
    (hx : ∀ w ∈ ext, coeff (Finsupp.single 0 (n + 1)) (w ⟨1, by omega⟩) = 0)
    (hout : d * (s + 1) = n + 1 → ∀ w ∈ ext, coeff (Finsupp.single 0 1 + corner d s (s + 1)) (w ⟨0, by omega⟩) = 0 ∧
      coeff (Finsupp.single 1 1 + corner d s (s + 1)) (w ⟨1, by omega⟩) = 0) :
    HasDegrees (vec d (QP d)) (vec d (P d)) (TSdiv d (n + 1) ext) ⟨s, (n : ℤ) + 1, n, (n : ℤ) + 1⟩ := by
  have hp := vec_monotone d (P_monotone d)
  have hq := vec_monotone d (QP_monotone d)
  have hin : ∀ v ∈ vec d (P d) n, TSdiv d (n + 1) ext v := fun v hv => ⟨v, ⟨0, Submodule.zero_mem _, fun i => by
    have := mem_vec.1 hv i
    push_cast
    rw [add_sub_cancel_right]
    simpa using this⟩, 0, Submodule.zero_mem _, (add_zero v).symm⟩
  have hsup : ∀ v, TSdiv d (n + 1) ext v → v ∈ vec d (P d) ((n : ℤ) + 1) := by
    rintro v ⟨p, hp, w, hw, rfl⟩
    refine Submodule.add_mem _ (mem_vec.2 fun i => ?_) ?_
    · obtain ⟨r, hr, h⟩ := hp
      push_cast at hr h
      rw [add_sub_cancel_right] at hr h
      have := Submodule.add_mem _ (P_mono (by omega) (h i)) (Families.X_mul_mem i.2 hr)
      rwa [sub_add_cancel] at this
    · have : Submodule.span ℝ ext ≤ vec d (P d) ((n : ℤ) + 1) := Submodule.span_le.2 fun w hw => mem_vec.2 (hext w hw)
      exact this hw
  have hwm : TSdiv d (n + 1) ext (radial d (X 0 ^ n)) := ⟨_, ⟨X 0 ^ n, by push_cast; rw [add_sub_cancel_right]; exact X_pow_mem (by omega) le_rfl, fun i => by
    rw [show radial d (X 0 ^ n) i = X i.val * X 0 ^ n from rfl, sub_self]; exact Submodule.zero_mem _⟩, 0, Submodule.zero_mem _, (add_zero _).symm⟩
  have hw0 : radial d (X 0 ^ n) ⟨0, by omega⟩ = X 0 ^ (n + 1) := (pow_succ' _ _).symm
  have hc0 : corner d s (s + 1) 0 = s := by rw [corner_apply, if_pos rfl]
  have hdeg : (Finsupp.single 0 1 + corner d s (s + 1)).degree = d * (s + 1) := by
    rw [map_add, Finsupp.degree_single, corner_degree]
    obtain ⟨e, rfl⟩ := Nat.exists_eq_add_of_le' hd
    rw [show e + 2 - 1 = e + 1 from rfl]
    ring
  refine .mk (greatest_of hq hs (at' ⟨0, by omega⟩ (monomial (Finsupp.single 0 1 + corner d s (s + 1)) 1)) (at_mem.2 ?_) fun h => ?_)
    (least_of hq (fun v hv => mem_vec.2 fun i => P_le_QP _ _ (mem_vec.1 (hsup v hv) i)) _ hwm fun h => ?_)
    (greatest_of hp hin (at' ⟨1, by omega⟩ (X 0 ^ (n + 1))) (at_mem.2 (X_pow_mem (by omega) (by push_cast; rfl))) fun h => ?_)
    (least_of hp hsup _ hwm fun h => ?_)
  · rw [QP, mono_mem_B]
    intro i
    rw [Finsupp.add_apply, corner_apply, Finsupp.single_apply]
    split_ifs <;> (try subst_vars) <;> (try push_cast) <;> omega
  · by_cases h1 : d * (s + 1) = n + 1
    · have h2 := TSdiv_zero h (coef ⟨0, by omega⟩ (Finsupp.single 0 1 + corner d s (s + 1)) - coef ⟨1, by omega⟩ (Finsupp.single 1 1 + corner d s (s + 1)))
        (fun p hp => ?_) (fun r => ?_) fun w hw => ?_
      · rw [LinearMap.sub_apply, coef_apply, coef_apply, at_same, at_ne (by simp), coeff_monomial, if_pos rfl, coeff_zero, sub_zero] at h2
        exact one_ne_zero h2
      · have e1 : (Finsupp.single 1 1 + corner d s (s + 1)).degree = n + 1 := by
          rw [← h1, ← hdeg, map_add, map_add, Finsupp.degree_single, Finsupp.degree_single]
        rw [LinearMap.sub_apply, coef_apply, coef_apply, coeff_high (hp _) (by rw [hdeg, h1]; push_cast; omega),
          coeff_high (hp _) (by rw [e1]; push_cast; omega), sub_self]
      · show coeff _ (X 0 * r) - coeff _ (X 1 * r) = 0
        rw [coeff_X_mul, coeff_X_mul, sub_self]
      · rw [LinearMap.sub_apply, coef_apply, coef_apply, (hout h1 w hw).1, (hout h1 w hw).2, sub_self]
    · have := (mono_mem_P.1 (at_mem.1 (hsup _ h))).1
      rw [hdeg] at this
      have h3 : d * (s + 1) ≤ n + 1 := by exact_mod_cast this
      omega
  · have := mem_vec.1 h ⟨0, by omega⟩
    rw [hw0, add_sub_cancel_right] at this
    exact X_pow_notMem_QP (by omega) this
  · have h2 := TSdiv_zero h (coef ⟨1, by omega⟩ (Finsupp.single 0 (n + 1))) (fun p hp => ?_) (fun r => ?_) hx
    · rw [coef_apply, at_same, X_pow_eq_monomial, coeff_monomial, if_pos rfl] at h2
      exact one_ne_zero h2
    · exact coeff_high (hp _) (by rw [Finsupp.degree_single]; push_cast; omega)
    · show coeff _ (X 1 * r) = 0
      rw [coeff_X_mul', if_neg]
      simp
  · have := mem_vec.1 h ⟨0, by omega⟩
    rw [hw0, add_sub_cancel_right] at this
    exact X_pow_notMem (by push_cast; omega) this

/-! ### Quadrilaterals -/

/-- The highest degree of a Lagrange space inside the trimmed serendipity space of order `k` on a quadrilateral. -/
def tsSub2 (k : ℕ) : ℕ := if k = 2 then 1 else (k - 1) / 2

/-- The added functions. -/
def tsExp (n : ℕ) : Set (Field 2) :=
  {![((n : ℝ) + 1) • (X 0 * X 1 ^ n), -X 1 ^ (n + 1)], ![X 0 ^ (n + 1), -(((n : ℝ) + 1) • (X 0 ^ n * X 1))]}

theorem tsdivExt2_eq (n : ℕ) : tsdivExt2 (n + 1) = tsExp n := by
  have e1 : pderiv 1 (X 0 * X 1 ^ (n + 1) : MvPolynomial ℕ ℝ) = ((n : ℝ) + 1) • (X 0 * X 1 ^ n) := by
    simp [Derivation.leibniz, Derivation.leibniz_pow, smul_eq_C_mul, pderiv_X]
    ring
  have e2 : pderiv 0 (X 0 * X 1 ^ (n + 1) : MvPolynomial ℕ ℝ) = X 1 ^ (n + 1) := by
    simp [Derivation.leibniz, Derivation.leibniz_pow, pderiv_X]
  have e3 : pderiv 1 (X 0 ^ (n + 1) * X 1 : MvPolynomial ℕ ℝ) = X 0 ^ (n + 1) := by
    simp [Derivation.leibniz, Derivation.leibniz_pow, pderiv_X]
  have e4 : pderiv 0 (X 0 ^ (n + 1) * X 1 : MvPolynomial ℕ ℝ) = ((n : ℝ) + 1) • (X 0 ^ n * X 1) := by
    simp [Derivation.leibniz, Derivation.leibniz_pow, smul_eq_C_mul, pderiv_X]
    ring
  rw [tsdivExt2, e1, e2, e3, e4, tsExp]

theorem mono2 (a b : ℕ) : (X 0 ^ a * X 1 ^ b : MvPolynomial ℕ ℝ) = monomial (Finsupp.single 0 a + Finsupp.single 1 b) 1 := by
  rw [X_pow_eq_monomial, X_pow_eq_monomial, monomial_mul, one_mul]

theorem coeff_mono2 {a b : ℕ} {s : ℕ →₀ ℕ} (h : s 0 ≠ a ∨ s 1 ≠ b) : coeff s (X 0 ^ a * X 1 ^ b : MvPolynomial ℕ ℝ) = 0 := by
  rw [mono2, coeff_monomial, if_neg]
  rintro rfl
  rcases h with h | h <;> simp at h

theorem mono2_mem {a b : ℕ} {k : ℤ} (h : (a : ℤ) + b ≤ k) : (X 0 ^ a * X 1 ^ b : MvPolynomial ℕ ℝ) ∈ P 2 k :=
  P_mono h (P_mul (X_pow_mem (n := a) (by norm_num) le_rfl) (X_pow_mem (n := b) (by norm_num) le_rfl))

theorem vec_components {d : ℕ} {L : Submodule ℝ (MvPolynomial ℕ ℝ)} {T : Submodule ℝ (Field d)} (h : ∀ i, ∀ p ∈ L, at' i p ∈ T) {v : Field d}
    (hv : ∀ i, v i ∈ L) : v ∈ T := by
  have : v = ∑ i, at' i (v i) := by
    funext j
    rw [Finset.sum_apply, Finset.sum_eq_single j (fun i _ hi => at_ne hi.symm _) (fun h => absurd (Finset.mem_univ j) h), at_same]
  rw [this]
  exact Submodule.sum_mem _ fun i _ => h i _ (hv i)

/-- The space as a submodule. -/
def tsSub (d n : ℕ) (ext : Set (Field d)) : Submodule ℝ (Field d) where
  carrier := {v | TSdiv d (n + 1) ext v}
  zero_mem' := ⟨0, ⟨0, Submodule.zero_mem _, fun i => by simp⟩, 0, Submodule.zero_mem _, (add_zero _).symm⟩
  add_mem' := by
    rintro _ _ ⟨p, ⟨r, hr, h⟩, w, hw, rfl⟩ ⟨p', ⟨r', hr', h'⟩, w', hw', rfl⟩
    refine ⟨p + p', ⟨r + r', Submodule.add_mem _ hr hr', fun i => ?_⟩, w + w', Submodule.add_mem _ hw hw', by abel⟩
    have := Submodule.add_mem _ (h i) (h' i)
    rwa [show p i - X i.val * r + (p' i - X i.val * r') = (p + p') i - X i.val * (r + r') by rw [Pi.add_apply]; ring] at this
  smul_mem' := by
    rintro a _ ⟨p, ⟨r, hr, h⟩, w, hw, rfl⟩
    refine ⟨a • p, ⟨a • r, Submodule.smul_mem _ _ hr, fun i => ?_⟩, a • w, Submodule.smul_mem _ _ hw, smul_add _ _ _⟩
    have := Submodule.smul_mem _ a (h i)
    rwa [show a • (p i - X i.val * r) = (a • p) i - X i.val * (a • r) by rw [Pi.smul_apply, smul_sub, mul_smul_comm]] at this

theorem QP_one {d : ℕ} {p : MvPolynomial ℕ ℝ} (hp : p ∈ QP d 1) : ∃ q ∈ P d ((d : ℤ) - 1), ∃ a : ℝ, p = q + a • monomial (box d 1) 1 := by
  refine ⟨p - coeff (box d 1) p • monomial (box d 1) 1, mem_P.2 fun t ht => ?_, _, (sub_add_cancel _ _).symm⟩
  rw [mem_support_iff, coeff_sub, coeff_smul, coeff_monomial, smul_eq_mul] at ht
  have hne : ¬ box d 1 = t := by
    rintro rfl
    rw [if_pos rfl, mul_one, sub_self] at ht
    exact ht rfl
  rw [if_neg hne, mul_zero, sub_zero] at ht
  have hb := mem_B.1 hp t (mem_support_iff.2 ht)
  have hb1 : ∀ i < d, t i ≤ 1 := by
    intro i hi
    have := hb i
    rw [if_pos hi] at this
    omega
  have hb0 : ∀ i, ¬ i < d → t i = 0 := by
    intro i hi
    have := hb i
    rw [if_neg hi] at this
    omega
  have hsup : ∀ i ∈ t.support, i < d := by
    intro i hi
    by_contra h
    exact Finsupp.mem_support_iff.1 hi (hb0 i h)
  refine ⟨?_, hsup⟩
  obtain ⟨i, hi, hi0⟩ : ∃ i < d, t i < 1 := by
    by_contra h
    push Not at h
    refine hne (Finsupp.ext fun i => ?_)
    rw [box_apply]
    split_ifs with hi
    · exact le_antisymm (h i hi) (hb1 i hi)
    · exact (hb0 i hi).symm
  have := Finset.sum_lt_sum (f := fun i => t i) (g := fun _ => 1) (s := Finset.range d) (fun i hi => hb1 i (Finset.mem_range.1 hi))
    ⟨i, Finset.mem_range.2 hi, hi0⟩
  rw [← degree_range hsup, Finset.sum_const, Finset.card_range, smul_eq_mul, mul_one] at this
  omega

theorem at_smul_add {d : ℕ} (i : Fin d) (q r : MvPolynomial ℕ ℝ) (a : ℝ) : (at' i (q + a • r) : Field d) = at' i q + a • at' i r := by
  rw [at', at', at', Pi.single_add, Pi.single_smul]

theorem at_comp {d : ℕ} (i j : Fin d) {L : Submodule ℝ (MvPolynomial ℕ ℝ)} {q : MvPolynomial ℕ ℝ} (hq : q ∈ L) : at' i q j ∈ L := by
  by_cases h : j = i
  · rw [h, at_same]
    exact hq
  · rw [at_ne h]
    exact Submodule.zero_mem _

theorem tsSub_P {d n : ℕ} {ext : Set (Field d)} {v : Field d} (hv : ∀ i, v i ∈ P d n) : v ∈ tsSub d n ext :=
  ⟨v, ⟨0, Submodule.zero_mem _, fun i => by
    have := hv i
    push_cast
    rw [add_sub_cancel_right]
    simpa using this⟩, 0, Submodule.zero_mem _, (add_zero v).symm⟩

theorem tsSub_radial {d n : ℕ} {ext : Set (Field d)} {q : MvPolynomial ℕ ℝ} (hq : q ∈ P d n) : radial d q ∈ tsSub d n ext :=
  ⟨_, ⟨q, by push_cast; rw [add_sub_cancel_right]; exact hq, fun i => by rw [radial_apply, sub_self]; exact Submodule.zero_mem _⟩, 0,
    Submodule.zero_mem _, (add_zero _).symm⟩

theorem tsSub_ext {d n : ℕ} {ext : Set (Field d)} {w : Field d} (hw : w ∈ ext) : w ∈ tsSub d n ext :=
  ⟨0, ⟨0, Submodule.zero_mem _, fun i => by simp⟩, w, Submodule.subset_span hw, (zero_add w).symm⟩

/-- Multilinear fields, when only the last monomial has to be checked. -/
theorem multilinear_mem {d : ℕ} {T : Submodule ℝ (Field d)} (hT : ∀ v : Field d, (∀ i, v i ∈ P d ((d : ℤ) - 1)) → v ∈ T)
    (h : ∀ i, at' i (monomial (box d 1) 1) ∈ T) {v : Field d} (hv : ∀ i, v i ∈ QP d 1) : v ∈ T := by
  refine vec_components (L := QP d 1) (fun i p hp => ?_) hv
  obtain ⟨q, hq, a, rfl⟩ := QP_one hp
  rw [at_smul_add]
  exact Submodule.add_mem _ (hT _ fun j => at_comp i j hq) (Submodule.smul_mem _ _ (h i))

theorem tsSub_multilinear {d n : ℕ} {ext : Set (Field d)} (hn : (d : ℤ) - 1 ≤ n) (h : ∀ i, at' i (monomial (box d 1) 1) ∈ tsSub d n ext)
    {v : Field d} (hv : ∀ i, v i ∈ QP d 1) : v ∈ tsSub d n ext :=
  multilinear_mem (fun _ hv => tsSub_P fun i => P_mono hn (hv i)) h hv

theorem degrees_TSdiv2 (n : ℕ) :
    HasDegrees (vec 2 (QP 2)) (vec 2 (P 2)) (TSdiv 2 (n + 1) (tsdivExt2 (n + 1))) ⟨tsSub2 (n + 1), (n : ℤ) + 1, n, (n : ℤ) + 1⟩ := by
  rw [tsdivExt2_eq]
  have hn : n < 2 * (tsSub2 (n + 1) + 1) := by
    unfold tsSub2
    split_ifs <;> omega
  refine degrees_TSdiv (d := 2) le_rfl ?_ ?_ hn ?_ ?_
  · rintro w (rfl | rfl) i
    · fin_cases i
      · exact Submodule.smul_mem _ _ (by simpa using mono2_mem (a := 1) (b := n) (k := (n : ℤ) + 1) (by push_cast; omega))
      · exact Submodule.neg_mem _ (X_pow_mem (by norm_num) (by push_cast; omega))
    · fin_cases i
      · exact X_pow_mem (by norm_num) (by push_cast; omega)
      · exact Submodule.neg_mem _ (Submodule.smul_mem _ _ (by simpa using mono2_mem (a := n) (b := 1) (k := (n : ℤ) + 1) (by push_cast; omega)))
  · intro v hv
    by_cases h1 : n = 1
    · subst h1
      have e : (monomial (box 2 1) 1 : MvPolynomial ℕ ℝ) = X 0 * X 1 := by
        rw [← pow_one (X 0 : MvPolynomial ℕ ℝ), ← pow_one (X 1 : MvPolynomial ℕ ℝ), mono2, box, Finset.sum_range_succ, Finset.sum_range_one]
      have c2 : (C (2 : ℝ) : MvPolynomial ℕ ℝ) = 2 := map_ofNat C 2
      have c3 : (C (1 / 3 : ℝ) : MvPolynomial ℕ ℝ) * 3 = 1 := by
        rw [show (3 : MvPolynomial ℕ ℝ) = C 3 from (map_ofNat C 3).symm, ← C_mul]
        norm_num
      refine tsSub_multilinear (d := 2) (n := 1) (by norm_num) (fun i => ?_) fun i => mem_vec.1 hv i
      rw [e]
      fin_cases i
      · have h := Submodule.smul_mem (tsSub 2 1 (tsExp 1)) (1 / 3 : ℝ) (Submodule.add_mem _ (tsSub_radial (X_mem (i := 1) (by norm_num)))
          (tsSub_ext (w := ![(((1 : ℕ) : ℝ) + 1) • (X 0 * X 1 ^ 1), -X 1 ^ (1 + 1)]) (Or.inl rfl)))
        refine (congrArg (· ∈ tsSub 2 1 (tsExp 1)) (funext fun j => ?_)).mp h
        fin_cases j
        · show (1 / 3 : ℝ) • ((X 0 * X 1 : MvPolynomial ℕ ℝ) + (((1 : ℕ) : ℝ) + 1) • (X 0 * X 1 ^ 1)) = X 0 * X 1
          rw [smul_eq_C_mul, smul_eq_C_mul, show (((1 : ℕ) : ℝ) + 1) = 2 by norm_num, c2]
          linear_combination (X 0 * X 1) * c3
        · show (1 / 3 : ℝ) • ((X 1 * X 1 : MvPolynomial ℕ ℝ) + -X 1 ^ (1 + 1)) = 0
          rw [pow_succ, pow_one, add_neg_cancel, smul_zero]
      · have h := Submodule.smul_mem (tsSub 2 1 (tsExp 1)) (1 / 3 : ℝ) (Submodule.sub_mem _ (tsSub_radial (X_mem (i := 0) (by norm_num)))
          (tsSub_ext (w := ![X 0 ^ (1 + 1), -((((1 : ℕ) : ℝ) + 1) • (X 0 ^ 1 * X 1))]) (Or.inr rfl)))
        refine (congrArg (· ∈ tsSub 2 1 (tsExp 1)) (funext fun j => ?_)).mp h
        fin_cases j
        · show (1 / 3 : ℝ) • ((X 0 * X 0 : MvPolynomial ℕ ℝ) - X 0 ^ (1 + 1)) = 0
          rw [pow_succ, pow_one, sub_self, smul_zero]
        · show (1 / 3 : ℝ) • ((X 1 * X 0 : MvPolynomial ℕ ℝ) - -((((1 : ℕ) : ℝ) + 1) • (X 0 ^ 1 * X 1))) = X 0 * X 1
          rw [smul_eq_C_mul, smul_eq_C_mul, show (((1 : ℕ) : ℝ) + 1) = 2 by norm_num, c2]
          linear_combination (X 0 * X 1) * c3
    · refine tsSub_P (v := v) fun i => P_mono ?_ (QP_le_P _ _ (mem_vec.1 hv i))
      unfold tsSub2
      rw [if_neg (by omega)]
      push_cast
      omega
  · rintro w (rfl | rfl)
    · show coeff _ (-X 1 ^ (n + 1)) = 0
      rw [coeff_neg, ← one_mul (X 1 ^ (n + 1)), ← pow_zero (X 0), coeff_mono2 (by simp), neg_zero]
    · show coeff _ (-(((n : ℝ) + 1) • (X 0 ^ n * X 1))) = 0
      rw [coeff_neg, coeff_smul, ← pow_one (X 1), coeff_mono2 (by simp), smul_zero, neg_zero]
  · intro h1 w hw
    have hs : 1 ≤ tsSub2 (n + 1) := by
      unfold tsSub2 at h1 ⊢
      split_ifs at h1 ⊢ <;> omega
    have hsn : n + 1 ≠ tsSub2 (n + 1) + 1 := by omega
    generalize tsSub2 (n + 1) = s at *
    have c0 : corner 2 s (s + 1) 0 = s := by rw [corner_apply, if_pos rfl]
    have c1 : corner 2 s (s + 1) 1 = s + 1 := by rw [corner_apply, if_neg (by norm_num), if_pos (by norm_num)]
    rcases hw with rfl | rfl
    · constructor
      · show coeff _ (((n : ℝ) + 1) • (X 0 * X 1 ^ n)) = 0
        rw [coeff_smul, ← pow_one (X 0), coeff_mono2 (Or.inl (by rw [Finsupp.add_apply, c0]; simp; omega)), smul_zero]
      · show coeff _ (-X 1 ^ (n + 1)) = 0
        rw [coeff_neg, ← one_mul (X 1 ^ (n + 1)), ← pow_zero (X 0), coeff_mono2 (Or.inl (by rw [Finsupp.add_apply, c0]; simp; omega)), neg_zero]
    · constructor
      · show coeff _ (X 0 ^ (n + 1)) = 0
        rw [← mul_one (X 0 ^ (n + 1)), ← pow_zero (X 1), coeff_mono2 (Or.inr (by rw [Finsupp.add_apply, c1]; simp))]
      · show coeff _ (-(((n : ℝ) + 1) • (X 0 ^ n * X 1))) = 0
        rw [coeff_neg, coeff_smul, ← pow_one (X 1), coeff_mono2 (Or.inr (by rw [Finsupp.add_apply, c1]; simp)), smul_zero, neg_zero]

/-! ### Hexahedra -/

/-- The same on a hexahedron, for H(div). -/
def tsSub3 (k : ℕ) : ℕ := if k = 3 then 1 else (k - 1) / 3

theorem mono3 (a b c : ℕ) :
    (X 0 ^ a * X 1 ^ b * X 2 ^ c : MvPolynomial ℕ ℝ) = monomial (Finsupp.single 0 a + Finsupp.single 1 b + Finsupp.single 2 c) 1 := by
  rw [X_pow_eq_monomial, X_pow_eq_monomial, X_pow_eq_monomial, monomial_mul, monomial_mul, one_mul, one_mul]

theorem coeff_mono3 {a b c : ℕ} {p : MvPolynomial ℕ ℝ} (e : p = X 0 ^ a * X 1 ^ b * X 2 ^ c) {s : ℕ →₀ ℕ} (h : s 0 ≠ a ∨ s 1 ≠ b ∨ s 2 ≠ c) :
    coeff s p = 0 := by
  rw [e, mono3, coeff_monomial, if_neg]
  rintro rfl
  rcases h with h | h | h <;> simp at h

theorem coeff_curl0 (u : Field 3) (s : ℕ →₀ ℕ) (h1 : coeff (s + Finsupp.single 1 1) (u 2) = 0) (h2 : coeff (s + Finsupp.single 2 1) (u 1) = 0) :
    coeff s (curlF u 0) = 0 := by
  show coeff s (pderiv 1 (u 2) - pderiv 2 (u 1)) = 0
  rw [coeff_sub, coeff_pderiv, coeff_pderiv, h1, h2, zero_mul, zero_mul, sub_zero]

theorem coeff_curl1 (u : Field 3) (s : ℕ →₀ ℕ) (h1 : coeff (s + Finsupp.single 2 1) (u 0) = 0) (h2 : coeff (s + Finsupp.single 0 1) (u 2) = 0) :
    coeff s (curlF u 1) = 0 := by
  show coeff s (pderiv 2 (u 0) - pderiv 0 (u 2)) = 0
  rw [coeff_sub, coeff_pderiv, coeff_pderiv, h1, h2, zero_mul, zero_mul, sub_zero]

theorem coeff_neg_zero {s : ℕ →₀ ℕ} {p : MvPolynomial ℕ ℝ} (h : coeff s p = 0) : coeff s (-p) = 0 := by rw [coeff_neg, h, neg_zero]

theorem degrees_TSdiv3 (n : ℕ) :
    HasDegrees (vec 3 (QP 3)) (vec 3 (P 3)) (TSdiv 3 (n + 1) (sdivExt3 n)) ⟨tsSub3 (n + 1), (n : ℤ) + 1, n, (n : ℤ) + 1⟩ := by
  have hn : n < 3 * (tsSub3 (n + 1) + 1) := by
    unfold tsSub3
    split_ifs <;> omega
  refine degrees_TSdiv (d := 3) (by norm_num) ?_ ?_ hn ?_ ?_
  · intro w hw i
    obtain ⟨u, hu, rfl⟩ := sdivExt3_curl hw
    exact curl_mem hu i
  · intro v hv
    by_cases h1 : n = 2
    · subst h1
      have e : (monomial (box 3 1) 1 : MvPolynomial ℕ ℝ) = X 0 * X 1 * X 2 := by
        rw [← pow_one (X 0 : MvPolynomial ℕ ℝ), ← pow_one (X 1 : MvPolynomial ℕ ℝ), ← pow_one (X 2 : MvPolynomial ℕ ℝ), mono3, box, Finset.sum_range_succ,
          Finset.sum_range_succ, Finset.sum_range_one]
      have c5 : (C (1 / 5 : ℝ) : MvPolynomial ℕ ℝ) * 5 = 1 := by
        rw [show (5 : MvPolynomial ℕ ℝ) = C 5 from (map_ofNat C 5).symm, ← C_mul]
        norm_num
      have hq : ∀ i j : ℕ, i < 3 → j < 3 → (X i * X j : MvPolynomial ℕ ℝ) ∈ P 3 ((2 : ℕ) : ℤ) := fun i j hi hj =>
        P_mono (by norm_num) (P_mul (X_mem hi) (X_mem hj))
      have e0 : curlF ![0, X 1 ^ 1 * X 2 ^ (2 - 1) * (X 0 * X 2), -(X 1 ^ 1 * X 2 ^ (2 - 1) * (X 0 * X 1))] = ![-4 * (X 0 * X 1 * X 2), X 1 * (X 1 * X 2), X 2 * (X 1 * X 2)] := by
        funext j
        fin_cases j <;> simp [curlF, Derivation.leibniz, pderiv_X, Pi.single_apply] <;> ring
      have e1 : curlF ![X 0 ^ 1 * X 2 ^ (2 - 1) * (X 1 * X 2), 0, -(X 0 ^ 1 * X 2 ^ (2 - 1) * (X 0 * X 1))] = ![-(X 0 * (X 0 * X 2)), 4 * (X 0 * X 1 * X 2), -(X 2 * (X 0 * X 2))] := by
        funext j
        fin_cases j <;> simp [curlF, Derivation.leibniz, pderiv_X, Pi.single_apply] <;> ring
      have e2 : curlF ![X 0 ^ 1 * X 1 ^ (2 - 1) * (X 1 * X 2), -(X 0 ^ 1 * X 1 ^ (2 - 1) * (X 0 * X 2)), 0] = ![X 0 * (X 0 * X 1), X 1 * (X 0 * X 1), -4 * (X 0 * X 1 * X 2)] := by
        funext j
        fin_cases j <;> simp [curlF, Derivation.leibniz, pderiv_X, Pi.single_apply] <;> ring
      refine tsSub_multilinear (d := 3) (n := 2) (by norm_num) (fun i => ?_) fun i => mem_vec.1 hv i
      rw [e]
      fin_cases i
      · have hm : ![-4 * (X 0 * X 1 * X 2), X 1 * (X 1 * X 2), X 2 * (X 1 * X 2)] ∈ tsSub 3 2 (sdivExt3 2) := e0 ▸ tsSub_ext ⟨1, by norm_num, Or.inl rfl⟩
        have h := Submodule.smul_mem _ (1 / 5 : ℝ) (Submodule.sub_mem _ (tsSub_radial (hq 1 2 (by norm_num) (by norm_num))) hm)
        refine (congrArg (· ∈ tsSub 3 2 (sdivExt3 2)) (funext fun j => ?_)).mp h
        fin_cases j
        · show (1 / 5 : ℝ) • ((X 0 * (X 1 * X 2) : MvPolynomial ℕ ℝ) - (-4 * (X 0 * X 1 * X 2))) = X 0 * X 1 * X 2
          rw [smul_eq_C_mul]
          linear_combination (X 0 * X 1 * X 2) * c5
        · show (1 / 5 : ℝ) • ((X 1 * (X 1 * X 2) : MvPolynomial ℕ ℝ) - X 1 * (X 1 * X 2)) = 0
          rw [smul_eq_C_mul]
          linear_combination 0
        · show (1 / 5 : ℝ) • ((X 2 * (X 1 * X 2) : MvPolynomial ℕ ℝ) - X 2 * (X 1 * X 2)) = 0
          rw [smul_eq_C_mul]
          linear_combination 0
      · have hm : ![-(X 0 * (X 0 * X 2)), 4 * (X 0 * X 1 * X 2), -(X 2 * (X 0 * X 2))] ∈ tsSub 3 2 (sdivExt3 2) := e1 ▸ tsSub_ext ⟨1, by norm_num, Or.inr (Or.inl rfl)⟩
        have h := Submodule.smul_mem _ (1 / 5 : ℝ) (Submodule.add_mem _ (tsSub_radial (hq 0 2 (by norm_num) (by norm_num))) hm)
        refine (congrArg (· ∈ tsSub 3 2 (sdivExt3 2)) (funext fun j => ?_)).mp h
        fin_cases j
        · show (1 / 5 : ℝ) • ((X 0 * (X 0 * X 2) : MvPolynomial ℕ ℝ) + (-(X 0 * (X 0 * X 2)))) = 0
          rw [smul_eq_C_mul]
          linear_combination 0
        · show (1 / 5 : ℝ) • ((X 1 * (X 0 * X 2) : MvPolynomial ℕ ℝ) + 4 * (X 0 * X 1 * X 2)) = X 0 * X 1 * X 2
          rw [smul_eq_C_mul]
          linear_combination (X 0 * X 1 * X 2) * c5
        · show (1 / 5 : ℝ) • ((X 2 * (X 0 * X 2) : MvPolynomial ℕ ℝ) + (-(X 2 * (X 0 * X 2)))) = 0
          rw [smul_eq_C_mul]
          linear_combination 0
      · have hm : ![X 0 * (X 0 * X 1), X 1 * (X 0 * X 1), -4 * (X 0 * X 1 * X 2)] ∈ tsSub 3 2 (sdivExt3 2) := e2 ▸ tsSub_ext ⟨1, by norm_num, Or.inr (Or.inr rfl)⟩
        have h := Submodule.smul_mem _ (1 / 5 : ℝ) (Submodule.sub_mem _ (tsSub_radial (hq 0 1 (by norm_num) (by norm_num))) hm)
        refine (congrArg (· ∈ tsSub 3 2 (sdivExt3 2)) (funext fun j => ?_)).mp h
        fin_cases j
        · show (1 / 5 : ℝ) • ((X 0 * (X 0 * X 1) : MvPolynomial ℕ ℝ) - X 0 * (X 0 * X 1)) = 0
          rw [smul_eq_C_mul]
          linear_combination 0
        · show (1 / 5 : ℝ) • ((X 1 * (X 0 * X 1) : MvPolynomial ℕ ℝ) - X 1 * (X 0 * X 1)) = 0
          rw [smul_eq_C_mul]
          linear_combination 0
        · show (1 / 5 : ℝ) • ((X 2 * (X 0 * X 1) : MvPolynomial ℕ ℝ) - (-4 * (X 0 * X 1 * X 2))) = X 0 * X 1 * X 2
          rw [smul_eq_C_mul]
          linear_combination (X 0 * X 1 * X 2) * c5
    · refine tsSub_P (v := v) fun i => P_mono ?_ (QP_le_P _ _ (mem_vec.1 hv i))
      unfold tsSub3
      rw [if_neg (by omega)]
      push_cast
      omega
  · rintro w ⟨i, hi, rfl | rfl | rfl⟩
    · exact coeff_curl1 _ _ (coeff_zero _) (coeff_neg_zero (coeff_mono3 (a := 1) (b := i + 1) (c := n - i) (by ring) (by simp)))
    · exact coeff_curl1 _ _ (coeff_mono3 (a := i) (b := 1) (c := n - i + 1) (by show _ * _ * _ = _; ring) (by simp))
        (coeff_neg_zero (coeff_mono3 (a := i + 1) (b := 1) (c := n - i) (by ring) (by simp)))
    · exact coeff_curl1 _ _ (coeff_mono3 (a := i) (b := n - i + 1) (c := 1) (by show _ * _ * _ = _; ring) (by simp)) (coeff_zero _)
  · intro h1 w hw
    have hs : 1 ≤ tsSub3 (n + 1) := by
      unfold tsSub3 at h1 ⊢
      split_ifs at h1 ⊢ <;> omega
    generalize tsSub3 (n + 1) = s at *
    have c0 : corner 3 s (s + 1) 0 = s := by rw [corner_apply, if_pos rfl]
    have c1 : corner 3 s (s + 1) 1 = s + 1 := by rw [corner_apply, if_neg (by norm_num), if_pos (by norm_num)]
    have c2 : corner 3 s (s + 1) 2 = s + 1 := by rw [corner_apply, if_neg (by norm_num), if_pos (by norm_num)]
    obtain ⟨i, hi, rfl | rfl | rfl⟩ := hw
    · refine ⟨coeff_curl0 _ _ (coeff_neg_zero (coeff_mono3 (a := 1) (b := i + 1) (c := n - i) (by ring) ?_))
        (coeff_mono3 (a := 1) (b := i) (c := n - i + 1) (by show _ * _ * _ = _; ring) ?_),
        coeff_curl1 _ _ (coeff_zero _) (coeff_neg_zero (coeff_mono3 (a := 1) (b := i + 1) (c := n - i) (by ring) ?_))⟩ <;> left <;> simp [c0] <;> omega
    · refine ⟨coeff_curl0 _ _ (coeff_neg_zero (coeff_mono3 (a := i + 1) (b := 1) (c := n - i) (by ring) ?_)) (coeff_zero _),
        coeff_curl1 _ _ (coeff_mono3 (a := i) (b := 1) (c := n - i + 1) (by show _ * _ * _ = _; ring) ?_)
          (coeff_neg_zero (coeff_mono3 (a := i + 1) (b := 1) (c := n - i) (by ring) ?_))⟩ <;> right <;> left <;> simp [c1]
    · refine ⟨coeff_curl0 _ _ (coeff_zero _) (coeff_neg_zero (coeff_mono3 (a := i + 1) (b := n - i) (c := 1) (by ring) ?_)),
        coeff_curl1 _ _ (coeff_mono3 (a := i) (b := n - i + 1) (c := 1) (by show _ * _ * _ = _; ring) ?_) (coeff_zero _)⟩ <;> right <;> right <;> simp [c2]

/-! ### H(curl) on quadrilaterals -/

theorem rot_vec {L : ℤ → Submodule ℝ (MvPolynomial ℕ ℝ)} {n : ℤ} {v : Field 2} : rot v ∈ vec 2 L n ↔ v ∈ vec 2 L n := by
  rw [mem_vec, mem_vec, Fin.forall_fin_two, Fin.forall_fin_two, rot_zero, rot_one, Submodule.neg_mem_iff]
  exact and_comm

theorem rot_surj (v : Field 2) : ∃ u, rot u = v := ⟨-rot v, by rw [map_neg, rot_rot, neg_neg]⟩

/-- A quarter of a turn does not change degrees. -/
theorem degrees_rot {L P : ℤ → Submodule ℝ (MvPolynomial ℕ ℝ)} {S : Field 2 → Prop} {D : Declared} (h : HasDegrees (vec 2 L) (vec 2 P) S D) :
    HasDegrees (vec 2 L) (vec 2 P) (fun v => S (Families.rot v)) D := by
  have e1 : ∀ (M : ℤ → Submodule ℝ (MvPolynomial ℕ ℝ)), {n | ∀ v ∈ vec 2 M n, S (Families.rot v)} = {n | ∀ v ∈ vec 2 M n, S v} := by
    intro M
    ext n
    constructor
    · intro h v hv
      obtain ⟨u, rfl⟩ := rot_surj v
      exact h u (rot_vec.1 hv)
    · exact fun h v hv => h _ (rot_vec.2 hv)
  have e2 : ∀ (M : ℤ → Submodule ℝ (MvPolynomial ℕ ℝ)), {n | ∀ v, S (Families.rot v) → v ∈ vec 2 M n} = {n | ∀ v, S v → v ∈ vec 2 M n} := by
    intro M
    ext n
    constructor
    · intro h v hv
      obtain ⟨u, rfl⟩ := rot_surj v
      exact rot_vec.2 (h u hv)
    · exact fun h v hv => rot_vec.1 (h _ hv)
  unfold HasDegrees
  rw [e1, e1, e2, e2]
  exact h

theorem tscurl2_rot {n : ℕ} (v : Field 2) : TScurl2 (n + 1) v ↔ TSdiv 2 (n + 1) (tsdivExt2 (n + 1)) (rot v) := by
  have g : ∀ p : MvPolynomial ℕ ℝ, rot (gradient ℝ 2 p) = -![pderiv 1 p, -pderiv 0 p] := by
    intro p
    funext i
    fin_cases i
    · rfl
    · exact (neg_neg _).symm
  have hspan : (Submodule.span ℝ (tscurlExt2 (n + 1))).map rot = Submodule.span ℝ (tsdivExt2 (n + 1)) := by
    rw [Submodule.map_span, tscurlExt2, Set.image_pair, g, g, tsdivExt2, ← Set.image_pair (fun v : Field 2 => -v)]
    rw [Set.image_neg_eq_neg, Submodule.span_neg]
  constructor
  · rintro ⟨p, hp, w, hw, rfl⟩
    refine ⟨rot p, ?_, rot w, hspan ▸ Submodule.mem_map_of_mem hw, map_add _ _ _⟩
    push_cast at hp ⊢
    exact n1_iff_rt.1 hp
  · rintro ⟨p, hp, w, hw, e⟩
    rw [← hspan] at hw
    obtain ⟨w, hw, rfl⟩ := hw
    obtain ⟨p, rfl⟩ := rot_surj p
    refine ⟨p, ?_, w, hw, ?_⟩
    · push_cast at hp ⊢
      exact n1_iff_rt.2 hp
    · rw [← map_add] at e
      exact sub_eq_zero.1 (rot_injective (by rw [map_sub, e, sub_self]))

theorem degrees_TScurl2 (n : ℕ) :
    HasDegrees (vec 2 (QP 2)) (vec 2 (P 2)) (TScurl2 (n + 1)) ⟨tsSub2 (n + 1), (n : ℤ) + 1, n, (n : ℤ) + 1⟩ := by
  rw [show TScurl2 (n + 1) = fun v => TSdiv 2 (n + 1) (tsdivExt2 (n + 1)) (rot v) from funext fun v => propext (tscurl2_rot v)]
  exact degrees_rot (degrees_TSdiv2 n)

theorem degrees_scurl2 {k : ℕ} (hk : 1 ≤ k) :
    HasDegrees (vec 2 (QP 2)) (vec 2 (P 2)) (Families.Enriched 2 k (scurlExt2 k)) ⟨(k : ℤ) / 2, (k : ℤ) + 1, k, (k : ℤ) + 1⟩ := by
  refine degrees_added (d := 2) (by norm_num) (fun w hw i => ?_) (w := ![((k : ℝ) + 1) • (X 0 ^ k * X 1), -X 0 ^ (k + 1)])
    (Or.inl rfl) (i := 1) ?_ fun t ht _ _ => ?_
  · rcases hw with rfl | rfl
    · fin_cases i
      · exact Submodule.smul_mem _ _ (by simpa using mono2_mem (a := k) (b := 1) (k := (k : ℤ) + 1) (by push_cast; omega))
      · exact Submodule.neg_mem _ (X_pow_mem (by norm_num) (by push_cast; omega))
    · fin_cases i
      · exact X_pow_mem (by norm_num) (by push_cast; omega)
      · exact Submodule.smul_mem _ _ (by simpa using mono2_mem (a := 1) (b := k) (k := (k : ℤ) + 1) (by push_cast; omega))
  · show -X 0 ^ (k + 1) ∉ QP 2 k
    rw [Submodule.neg_mem_iff]
    exact X_pow_notMem_QP (by norm_num)
  · rintro ⟨p, hp, w, hw, e⟩
    obtain ⟨α, β, rfl⟩ := Submodule.mem_span_pair.1 hw
    have e1 : (0 : MvPolynomial ℕ ℝ) = p 1 + (α • (-X 0 ^ (k + 1)) + β • (((k : ℝ) + 1) • (X 0 * X 1 ^ k))) := by
      have := congrFun e 1
      rwa [at_ne (by decide)] at this
    have e0 : (monomial t 1 : MvPolynomial ℕ ℝ) = p 0 + (α • (((k : ℝ) + 1) • (X 0 ^ k * X 1)) + β • X 1 ^ (k + 1)) := by
      have := congrFun e 0
      rwa [show (at' ⟨0, by norm_num⟩ (monomial t 1) : Field 2) 0 = monomial t 1 from at_same _ _] at this
    have m1 : (X 0 * X 1 ^ k : MvPolynomial ℕ ℝ) = X 0 ^ 1 * X 1 ^ k := by rw [pow_one]
    have m2 : (X 0 ^ (k + 1) : MvPolynomial ℕ ℝ) = X 0 ^ (k + 1) * X 1 ^ 0 := by rw [pow_zero, mul_one]
    rw [m1, m2] at e1
    have hα : α = 0 := by
      have c := congrArg (coeff (Finsupp.single 0 (k + 1) + Finsupp.single 1 0)) e1
      rw [coeff_zero, coeff_add, coeff_high (hp 1) (by simp), coeff_add, coeff_smul, coeff_smul, coeff_smul, coeff_neg,
        coeff_mono2 (a := 1) (b := k) (Or.inl (by simp; omega)), mono2, coeff_monomial, if_pos rfl] at c
      simpa using c
    have hβ : β = 0 := by
      have c := congrArg (coeff (Finsupp.single 0 1 + Finsupp.single 1 k)) e1
      rw [coeff_zero, coeff_add, coeff_high (hp 1) (by simp), coeff_add, coeff_smul, coeff_smul, coeff_smul, coeff_neg,
        coeff_mono2 (a := k + 1) (b := 0) (Or.inl (by simp; omega)), mono2, coeff_monomial, if_pos rfl] at c
      have hk' : ((k : ℝ) + 1) ≠ 0 := by positivity
      simpa [hk'] using c
    rw [hα, hβ, zero_smul, zero_smul, add_zero, add_zero] at e0
    have c0 := congrArg (coeff t) e0
    rw [coeff_monomial, if_pos rfl, coeff_high (hp 0) (by rw [ht]; push_cast; omega)] at c0
    exact one_ne_zero c0

/-! ### H(curl) on hexahedra -/

/-- The space as a submodule. -/
def scSub (k : ℕ) : Submodule ℝ (Field 3) where
  carrier := {v | SC3 k v}
  zero_mem' := ⟨0, fun _ => Submodule.zero_mem _, 0, Submodule.zero_mem _, 0, Submodule.zero_mem _, by funext i; simp [gradient]⟩
  add_mem' := by
    rintro _ _ ⟨p, hp, w, hw, s, hs, rfl⟩ ⟨p', hp', w', hw', s', hs', rfl⟩
    refine ⟨p + p', fun j => Submodule.add_mem _ (hp j) (hp' j), w + w', Submodule.add_mem _ hw hw', s + s', Submodule.add_mem _ hs hs', ?_⟩
    funext i
    simp [gradient]
    ring
  smul_mem' := by
    rintro a _ ⟨p, hp, w, hw, s, hs, rfl⟩
    refine ⟨a • p, fun j => Submodule.smul_mem _ _ (hp j), a • w, Submodule.smul_mem _ _ hw, a • s, Submodule.smul_mem _ _ hs, ?_⟩
    funext i
    simp [gradient]

theorem scSub_P {k : ℕ} {v : Field 3} (hv : ∀ i, v i ∈ P 3 k) : v ∈ scSub k :=
  ⟨v, hv, 0, Submodule.zero_mem _, 0, Submodule.zero_mem _, by funext i; simp [gradient]⟩

theorem scSub_ext {k : ℕ} {w : Field 3} (hw : w ∈ scurlExt3 k) : w ∈ scSub k :=
  ⟨0, fun _ => Submodule.zero_mem _, w, Submodule.subset_span hw, 0, Submodule.zero_mem _, by funext i; simp [gradient]⟩

theorem scSub_grad {k : ℕ} {s : MvPolynomial ℕ ℝ} (hs : s ∈ Ser 3 (k + 1)) : gradient ℝ 3 s ∈ scSub k :=
  ⟨0, fun _ => Submodule.zero_mem _, 0, Submodule.zero_mem _, s, hs, by rw [add_zero, zero_add]⟩

theorem SC3_zero {k : ℕ} {v : Field 3} (hv : SC3 k v) (Λ : Field 3 →ₗ[ℝ] ℝ) (h1 : ∀ p : Field 3, (∀ i, p i ∈ P 3 k) → Λ p = 0)
    (h2 : ∀ w ∈ scurlExt3 k, Λ w = 0) (h3 : ∀ s ∈ Ser 3 (k + 1), Λ (gradient ℝ 3 s) = 0) : Λ v = 0 := by
  obtain ⟨p, hp, w, hw, s, hs, rfl⟩ := hv
  have hw0 : Λ w = 0 := by
    have : Submodule.span ℝ (scurlExt3 k) ≤ LinearMap.ker Λ := Submodule.span_le.2 h2
    exact this hw
  rw [map_add, map_add, h1 p hp, hw0, h3 s hs, add_zero, add_zero]

theorem coeff_Ser {k : ℕ} {s : MvPolynomial ℕ ℝ} (hs : s ∈ Ser 3 k) {t : ℕ →₀ ℕ} (ht : k < slDegree t) : coeff t s = 0 := by
  by_contra h
  have := (mem_Ser.1 hs t (mem_support_iff.2 h)).1
  omega

theorem slDegree_three {t : ℕ →₀ ℕ} (h : ∀ i ∈ t.support, i < 3) : slDegree t = ∑ i ∈ Finset.range 3, if t i = 1 then 0 else t i := by
  refine Finset.sum_subset (fun i hi => Finset.mem_range.2 (h i hi)) fun i _ hi => ?_
  rw [Finsupp.notMem_support_iff.1 hi]
  rfl

theorem xyz_mem {a b c k : ℕ} (h : (if a = 1 then 0 else a) + (if b = 1 then 0 else b) + (if c = 1 then 0 else c) ≤ k) :
    (X 0 ^ a * X 1 ^ b * X 2 ^ c : MvPolynomial ℕ ℝ) ∈ Ser 3 k := by
  rw [mono3, mono_mem_Ser]
  have hs : ∀ i ∈ (Finsupp.single 0 a + Finsupp.single 1 b + Finsupp.single 2 c).support, i < 3 := by
    intro i hi
    by_contra h
    apply Finsupp.mem_support_iff.1 hi
    rw [Finsupp.add_apply, Finsupp.add_apply, Finsupp.single_apply, Finsupp.single_apply, Finsupp.single_apply, if_neg (by omega), if_neg (by omega),
      if_neg (by omega)]
    rfl
  refine ⟨?_, hs⟩
  rw [slDegree_three hs, Finset.sum_range_succ, Finset.sum_range_succ, Finset.sum_range_one]
  simpa using h

/-- The highest degree of a Lagrange space inside the serendipity H(curl) space of order `k` on a hexahedron. -/
def scSub3 (k : ℕ) : ℕ := if k = 2 then 1 else k / 3

theorem scurlExt3_coeff0 {k : ℕ} {w : Field 3} (hw : w ∈ scurlExt3 k) {t : ℕ →₀ ℕ} (h1 : t 1 ≠ 1) (h2 : t 2 ≠ 1) : coeff t (w 0) = 0 := by
  obtain ⟨i, j, -, rfl | rfl | rfl⟩ := hw
  · exact coeff_zero _
  · exact coeff_mono3 (a := i) (b := 1) (c := j + 1) (by show _ * _ * _ = _; ring) (Or.inr (Or.inl h1))
  · exact coeff_mono3 (a := i) (b := j + 1) (c := 1) (by show _ * _ * _ = _; ring) (Or.inr (Or.inr h2))

theorem scurlExt3_mem {k : ℕ} {w : Field 3} (hw : w ∈ scurlExt3 k) (l : Fin 3) : w l ∈ P 3 ((k : ℤ) + 1) := by
  obtain ⟨i, j, hij, rfl | rfl | rfl⟩ := hw
  · fin_cases l
    · exact Submodule.zero_mem _
    · exact mem_of_eq3 (a := 1) (b := i) (c := j + 1) (by push_cast; omega) (by show _ * _ * _ = _; ring)
    · exact Submodule.neg_mem _ (mem_of_eq3 (a := 1) (b := i + 1) (c := j) (by push_cast; omega) (by ring))
  · fin_cases l
    · exact mem_of_eq3 (a := i) (b := 1) (c := j + 1) (by push_cast; omega) (by show _ * _ * _ = _; ring)
    · exact Submodule.zero_mem _
    · exact Submodule.neg_mem _ (mem_of_eq3 (a := i + 1) (b := 1) (c := j) (by push_cast; omega) (by ring))
  · fin_cases l
    · exact mem_of_eq3 (a := i) (b := j + 1) (c := 1) (by push_cast; omega) (by show _ * _ * _ = _; ring)
    · exact Submodule.neg_mem _ (mem_of_eq3 (a := i + 1) (b := j) (c := 1) (by push_cast; omega) (by ring))
    · exact Submodule.zero_mem _

theorem degrees_scurl3 {k : ℕ} (hk : 1 ≤ k) :
    HasDegrees (vec 3 (QP 3)) (vec 3 (P 3)) (SC3 k) ⟨scSub3 k, (k : ℤ) + 1, k, (k : ℤ) + 2⟩ := by
  have hp := vec_monotone 3 (P_monotone 3)
  have hq := vec_monotone 3 (QP_monotone 3)
  have hin : ∀ v ∈ vec 3 (P 3) k, SC3 k v := fun v hv => scSub_P (mem_vec.1 hv)
  have hgP : ∀ s ∈ Ser 3 (k + 1), ∀ i : Fin 3, gradient ℝ 3 s i ∈ P 3 ((k : ℤ) + 2) := by
    intro s hs i
    refine gradient_P (mem_P.2 fun t ht => ?_) i
    obtain ⟨h1, h2⟩ := mem_Ser.1 hs t ht
    have := degree_le_sl h2 (by omega) h1
    exact ⟨by omega, h2⟩
  have hgQ : ∀ s ∈ Ser 3 (k + 1), ∀ i : Fin 3, gradient ℝ 3 s i ∈ QP 3 ((k : ℤ) + 1) := by
    intro s hs i
    rw [QP, mem_B]
    intro (t : ℕ →₀ ℕ) ht j
    rw [mem_support_iff, gradient, coeff_pderiv] at ht
    obtain ⟨h1, h2⟩ := mem_Ser.1 hs _ (mem_support_iff.2 (left_ne_zero_of_mul ht))
    have h3 : (t + Finsupp.single i.val 1 : ℕ →₀ ℕ) j ≤ k + 1 := by
      by_cases h : (t + Finsupp.single i.val 1 : ℕ →₀ ℕ) j = 1
      · omega
      · exact (le_slDegree h).trans h1
    have h4 : t j ≤ (t + Finsupp.single i.val 1 : ℕ →₀ ℕ) j := by rw [Finsupp.add_apply]; omega
    split_ifs with hj
    · omega
    · by_contra h5
      exact hj (h2 j (Finsupp.mem_support_iff.2 (by omega)))
  have hsupP : ∀ v, SC3 k v → v ∈ vec 3 (P 3) ((k : ℤ) + 2) := by
    rintro v ⟨p, hp, w, hw, s, hs, rfl⟩
    refine Submodule.add_mem _ (Submodule.add_mem _ (mem_vec.2 fun i => P_mono (by omega) (hp i)) ?_) (mem_vec.2 (hgP s hs))
    have : Submodule.span ℝ (scurlExt3 k) ≤ vec 3 (P 3) ((k : ℤ) + 2) :=
      Submodule.span_le.2 fun w hw => mem_vec.2 fun i => P_mono (by omega) (scurlExt3_mem hw i)
    exact this hw
  have hsupQ : ∀ v, SC3 k v → v ∈ vec 3 (QP 3) ((k : ℤ) + 1) := by
    rintro v ⟨p, hp, w, hw, s, hs, rfl⟩
    refine Submodule.add_mem _ (Submodule.add_mem _ (mem_vec.2 fun i => P_le_QP _ _ (P_mono (by omega) (hp i))) ?_) (mem_vec.2 (hgQ s hs))
    have : Submodule.span ℝ (scurlExt3 k) ≤ vec 3 (QP 3) ((k : ℤ) + 1) :=
      Submodule.span_le.2 fun w hw => mem_vec.2 fun i => P_le_QP _ _ (scurlExt3_mem hw i)
    exact this hw
  have hwm : SC3 k (gradient ℝ 3 (X 0 ^ (k + 1) * X 1 ^ 1 * X 2 ^ 1)) := scSub_grad (xyz_mem (by simp; split_ifs <;> omega))
  have hw1 : gradient ℝ 3 (X 0 ^ (k + 1) * X 1 ^ 1 * X 2 ^ 1) 1 = monomial (Finsupp.single 0 (k + 1) + Finsupp.single 2 1) 1 := by
    have : gradient ℝ 3 (X 0 ^ (k + 1) * X 1 ^ 1 * X 2 ^ 1) 1 = (X 0 ^ (k + 1) * X 2 ^ 1 : MvPolynomial ℕ ℝ) := by
      simp [gradient, Derivation.leibniz, Derivation.leibniz_pow, pderiv_X, Pi.single_apply]
      ring
    rw [this, X_pow_eq_monomial, X_pow_eq_monomial, monomial_mul, one_mul]
  have hk3 : k < 3 * (scSub3 k + 1) := by
    unfold scSub3
    split_ifs <;> omega
  refine .mk (greatest_of hq ?_ (at' 0 (monomial (box 3 (scSub3 k + 1)) 1)) (at_mem.2 ((box_mem_QP (by norm_num)).2 (by push_cast; rfl))) fun h => ?_)
    (least_of hq hsupQ _ hwm fun h => ?_)
    (greatest_of hp hin (at' 0 (X 0 ^ (k + 1))) (at_mem.2 (X_pow_mem (by omega) (by push_cast; rfl))) fun h => ?_)
    (least_of hp hsupP _ hwm fun h => ?_)
  · intro v hv
    by_cases h2 : k = 2
    · subst h2
      have e : (monomial (box 3 1) 1 : MvPolynomial ℕ ℝ) = X 0 * X 1 * X 2 := by
        rw [← pow_one (X 0 : MvPolynomial ℕ ℝ), ← pow_one (X 1 : MvPolynomial ℕ ℝ), ← pow_one (X 2 : MvPolynomial ℕ ℝ), mono3, box, Finset.sum_range_succ,
          Finset.sum_range_succ, Finset.sum_range_one]
      have c4 : (C (1 / 4 : ℝ) : MvPolynomial ℕ ℝ) * 4 = 1 := by
        rw [show (4 : MvPolynomial ℕ ℝ) = C 4 from (map_ofNat C 4).symm, ← C_mul]
        norm_num
      have g0 : gradient ℝ 3 (X 0 ^ 2 * X 1 ^ 1 * X 2 ^ 1) = ![2 * (X 0 * X 1 * X 2), X 0 ^ 2 * X 2, X 0 ^ 2 * X 1] := by
        funext j
        fin_cases j <;> simp [gradient, Derivation.leibniz, pderiv_X, Pi.single_apply] <;> ring
      have g1 : gradient ℝ 3 (X 0 ^ 1 * X 1 ^ 2 * X 2 ^ 1) = ![X 1 ^ 2 * X 2, 2 * (X 0 * X 1 * X 2), X 0 * X 1 ^ 2] := by
        funext j
        fin_cases j <;> simp [gradient, Derivation.leibniz, pderiv_X, Pi.single_apply] <;> ring
      have g2 : gradient ℝ 3 (X 0 ^ 1 * X 1 ^ 1 * X 2 ^ 2) = ![X 1 * X 2 ^ 2, X 0 * X 2 ^ 2, 2 * (X 0 * X 1 * X 2)] := by
        funext j
        fin_cases j <;> simp [gradient, Derivation.leibniz, pderiv_X, Pi.single_apply] <;> ring
      have m0 := g0 ▸ scSub_grad (k := 2) (xyz_mem (a := 2) (b := 1) (c := 1) (by decide))
      have m1 := g1 ▸ scSub_grad (k := 2) (xyz_mem (a := 1) (b := 2) (c := 1) (by decide))
      have m2 := g2 ▸ scSub_grad (k := 2) (xyz_mem (a := 1) (b := 1) (c := 2) (by decide))
      refine multilinear_mem (T := scSub 2) (fun v hv => scSub_P hv) (fun i => ?_) fun i => mem_vec.1 hv i
      rw [e]
      fin_cases i
      · have h := Submodule.smul_mem _ (1 / 4 : ℝ) (Submodule.add_mem _ (Submodule.add_mem _ m0
          (scSub_ext (w := ![X 0 ^ 1 * X 1 * X 2 ^ (0 + 1), 0, -(X 0 ^ (1 + 1) * X 1 * X 2 ^ 0)]) ⟨1, 0, rfl, Or.inr (Or.inl rfl)⟩))
          (scSub_ext (w := ![X 0 ^ 1 * X 1 ^ (0 + 1) * X 2, -(X 0 ^ (1 + 1) * X 1 ^ 0 * X 2), 0]) ⟨1, 0, rfl, Or.inr (Or.inr rfl)⟩))
        refine (congrArg (· ∈ scSub 2) (funext fun j => ?_)).mp h
        fin_cases j
        · show (1 / 4 : ℝ) • ((2 * (X 0 * X 1 * X 2) : MvPolynomial ℕ ℝ) + X 0 ^ 1 * X 1 * X 2 ^ (0 + 1) + X 0 ^ 1 * X 1 ^ (0 + 1) * X 2) = X 0 * X 1 * X 2
          rw [smul_eq_C_mul]
          linear_combination (X 0 * X 1 * X 2) * c4
        · show (1 / 4 : ℝ) • ((X 0 ^ 2 * X 2 : MvPolynomial ℕ ℝ) + 0 + -(X 0 ^ (1 + 1) * X 1 ^ 0 * X 2)) = 0
          rw [smul_eq_C_mul]
          ring
        · show (1 / 4 : ℝ) • ((X 0 ^ 2 * X 1 : MvPolynomial ℕ ℝ) + -(X 0 ^ (1 + 1) * X 1 * X 2 ^ 0) + 0) = 0
          rw [smul_eq_C_mul]
          ring
      · have h := Submodule.smul_mem _ (1 / 4 : ℝ) (Submodule.sub_mem _ (Submodule.add_mem _ m1
          (scSub_ext (w := ![0, X 0 * X 1 ^ 1 * X 2 ^ (0 + 1), -(X 0 * X 1 ^ (1 + 1) * X 2 ^ 0)]) ⟨1, 0, rfl, Or.inl rfl⟩))
          (scSub_ext (w := ![X 0 ^ 0 * X 1 ^ (1 + 1) * X 2, -(X 0 ^ (0 + 1) * X 1 ^ 1 * X 2), 0]) ⟨0, 1, rfl, Or.inr (Or.inr rfl)⟩))
        refine (congrArg (· ∈ scSub 2) (funext fun j => ?_)).mp h
        fin_cases j
        · show (1 / 4 : ℝ) • ((X 1 ^ 2 * X 2 : MvPolynomial ℕ ℝ) + 0 - X 0 ^ 0 * X 1 ^ (1 + 1) * X 2) = 0
          rw [smul_eq_C_mul]
          ring
        · show (1 / 4 : ℝ) • ((2 * (X 0 * X 1 * X 2) : MvPolynomial ℕ ℝ) + X 0 * X 1 ^ 1 * X 2 ^ (0 + 1) - -(X 0 ^ (0 + 1) * X 1 ^ 1 * X 2)) = X 0 * X 1 * X 2
          rw [smul_eq_C_mul]
          linear_combination (X 0 * X 1 * X 2) * c4
        · show (1 / 4 : ℝ) • ((X 0 * X 1 ^ 2 : MvPolynomial ℕ ℝ) + -(X 0 * X 1 ^ (1 + 1) * X 2 ^ 0) - 0) = 0
          rw [smul_eq_C_mul]
          ring
      · have h := Submodule.smul_mem _ (1 / 4 : ℝ) (Submodule.sub_mem _ (Submodule.sub_mem _ m2
          (scSub_ext (w := ![0, X 0 * X 1 ^ 0 * X 2 ^ (1 + 1), -(X 0 * X 1 ^ (0 + 1) * X 2 ^ 1)]) ⟨0, 1, rfl, Or.inl rfl⟩))
          (scSub_ext (w := ![X 0 ^ 0 * X 1 * X 2 ^ (1 + 1), 0, -(X 0 ^ (0 + 1) * X 1 * X 2 ^ 1)]) ⟨0, 1, rfl, Or.inr (Or.inl rfl)⟩))
        refine (congrArg (· ∈ scSub 2) (funext fun j => ?_)).mp h
        fin_cases j
        · show (1 / 4 : ℝ) • ((X 1 * X 2 ^ 2 : MvPolynomial ℕ ℝ) - 0 - X 0 ^ 0 * X 1 * X 2 ^ (1 + 1)) = 0
          rw [smul_eq_C_mul]
          ring
        · show (1 / 4 : ℝ) • ((X 0 * X 2 ^ 2 : MvPolynomial ℕ ℝ) - X 0 * X 1 ^ 0 * X 2 ^ (1 + 1) - 0) = 0
          rw [smul_eq_C_mul]
          ring
        · show (1 / 4 : ℝ) • ((2 * (X 0 * X 1 * X 2) : MvPolynomial ℕ ℝ) - -(X 0 * X 1 ^ (0 + 1) * X 2 ^ 1) - -(X 0 ^ (0 + 1) * X 1 * X 2 ^ 1)) = X 0 * X 1 * X 2
          rw [smul_eq_C_mul]
          linear_combination (X 0 * X 1 * X 2) * c4
    · refine hin v (mem_vec.2 fun i => P_mono ?_ (QP_le_P _ _ (mem_vec.1 hv i)))
      unfold scSub3
      rw [if_neg h2]
      push_cast
      omega
  · have hb : ∀ i < 3, box 3 (scSub3 k + 1) i = scSub3 k + 1 := fun i hi => by rw [box_apply, if_pos hi]
    have hPk : ∀ p : Field 3, (∀ i, p i ∈ P 3 k) → coeff (box 3 (scSub3 k + 1)) (p 0) = 0 := fun p hp =>
      coeff_high (hp 0) (by rw [box_degree]; push_cast; omega)
    by_cases h1 : k = 1
    · subst h1
      have h2 := SC3_zero h (coef 0 (box 3 1) - (2 : ℝ) • coef 1 (Finsupp.single 0 2 + Finsupp.single 2 1)) (fun p hp => ?_) (fun w hw => ?_) fun s hs => ?_
      · rw [LinearMap.sub_apply, LinearMap.smul_apply, coef_apply, coef_apply, at_same, at_ne (by decide), coeff_zero, smul_zero, sub_zero] at h2
        have e : box 3 (scSub3 1 + 1) = box 3 1 := rfl
        rw [e, coeff_monomial, if_pos rfl] at h2
        exact one_ne_zero h2
      · rw [LinearMap.sub_apply, LinearMap.smul_apply, coef_apply, coef_apply, coeff_high (hp 0) (by rw [box_degree]; norm_num),
          coeff_high (hp 1) (by rw [map_add, Finsupp.degree_single, Finsupp.degree_single]; norm_num), smul_zero, sub_zero]
      · rw [LinearMap.sub_apply, LinearMap.smul_apply, coef_apply, coef_apply, coeff_high (scurlExt3_mem hw 0) (by rw [box_degree]; norm_num),
          coeff_high (scurlExt3_mem hw 1) (by rw [map_add, Finsupp.degree_single, Finsupp.degree_single]; norm_num), smul_zero, sub_zero]
      · show coeff _ (pderiv 0 s) - (2 : ℝ) • coeff _ (pderiv 1 s) = 0
        rw [coeff_pderiv, coeff_pderiv]
        have e : box 3 1 + Finsupp.single 0 1 = Finsupp.single 0 2 + Finsupp.single 2 1 + Finsupp.single 1 1 := by
          rw [box, Finset.sum_range_succ, Finset.sum_range_succ, Finset.sum_range_one, show (2 : ℕ) = 1 + 1 from rfl, Finsupp.single_add]
          abel
        rw [e, box_apply]
        simp
        ring
    · have hs2 : 1 ≤ scSub3 k := by
        unfold scSub3
        split_ifs <;> omega
      have h2 := SC3_zero h (coef 0 (box 3 (scSub3 k + 1))) hPk (fun w hw => ?_) fun s hs => ?_
      · rw [coef_apply, at_same, coeff_monomial, if_pos rfl] at h2
        exact one_ne_zero h2
      · exact scurlExt3_coeff0 hw (by rw [hb 1 (by norm_num)]; omega) (by rw [hb 2 (by norm_num)]; omega)
      · show coeff _ (pderiv 0 s) = 0
        rw [coeff_pderiv, coeff_Ser hs, zero_mul]
        rw [slDegree_three, Finset.sum_range_succ, Finset.sum_range_succ, Finset.sum_range_one, Finsupp.add_apply, Finsupp.add_apply, Finsupp.add_apply,
          hb 0 (by norm_num), hb 1 (by norm_num), hb 2 (by norm_num)]
        · simp
          split_ifs <;> omega
        · intro i hi
          by_contra h3
          apply Finsupp.mem_support_iff.1 hi
          rw [Finsupp.add_apply, box_apply, if_neg h3, Finsupp.single_apply, if_neg (by omega)]
          rfl
  · have := mem_vec.1 h 1
    rw [hw1, QP, mono_mem_B] at this
    have := this 0
    simp at this
  · have h2 := SC3_zero h (coef 0 (Finsupp.single 0 (k + 1))) (fun p hp => ?_) (fun w hw => ?_) fun s hs => ?_
    · rw [coef_apply, at_same, X_pow_eq_monomial, coeff_monomial, if_pos rfl] at h2
      exact one_ne_zero h2
    · exact coeff_high (hp _) (by rw [Finsupp.degree_single]; push_cast; omega)
    · exact scurlExt3_coeff0 hw (by simp) (by simp)
    · show coeff _ (pderiv 0 s) = 0
      rw [coeff_pderiv, coeff_Ser hs, zero_mul]
      rw [← Finsupp.single_add]
      refine lt_of_lt_of_le ?_ (le_slDegree (i := 0) (by simp))
      simp
  · have := mem_vec.1 h 1
    rw [hw1, mono_mem_P] at this
    have := this.1
    rw [map_add, Finsupp.degree_single, Finsupp.degree_single] at this
    push_cast at this
    omega

/-! ### What the classes declare -/

/-- `AC` (symfem/elements/ac.py:79-95). -/
def declAC (k : ℕ) : Declared := ⟨if k < 2 then k else (k : ℤ) / 2, (k : ℤ) + 1, k, (k : ℤ) + 1⟩

/-- `TrimmedSerendipityHdiv` (symfem/elements/trimmed_serendipity.py:225-238). -/
def declTSdiv (c : Cell) (k : ℕ) : Declared := ⟨((k : ℤ) + 1) / (c.tdim + 1), k, (k : ℤ) - 1, k⟩

/-- `TrimmedSerendipityHcurl` (symfem/elements/trimmed_serendipity.py:124-137). -/
def declTScurl (c : Cell) (k : ℕ) : Declared := ⟨((k : ℤ) + c.tdim - 1) / (c.tdim + 1), k, (k : ℤ) - 1, (k : ℤ) + c.tdim - 2⟩

/-- `SerendipityCurl` (symfem/elements/serendipity.py:132-147). -/
def declScurl (c : Cell) (k : ℕ) : Declared :=
  ⟨if k = 2 ∧ c.tdim = 3 then 1 else (k : ℤ) / c.tdim, (k : ℤ) + 1, k, (k : ℤ) + c.tdim - 1⟩

/-! ### Elements -/

theorem HasDegrees.unique {V : Type} [AddCommGroup V] [Module ℝ V] {L P : ℤ → Submodule ℝ V} {S : V → Prop} {D D' : Declared}
    (h : HasDegrees L P S D) (h' : HasDegrees L P S D') : D = D' := by
  obtain ⟨a, b, c, e⟩ := D
  obtain ⟨a', b', c', e'⟩ := D'
  obtain ⟨h1, h2, h3, h4⟩ := h
  obtain ⟨h1', h2', h3', h4'⟩ := h'
  have e1 := h1.unique h1'
  have e2 := h2.unique h2'
  have e3 := h3.unique h3'
  have e4 := h4.unique h4'
  dsimp only at e1 e2 e3 e4
  rw [e1, e2, e3, e4]

theorem ElementDegrees.unique {V : Type} [AddCommGroup V] [Module ℝ V] {L P : ℤ → Submodule ℝ V} {e : Option (Element ℝ V)} {D D' : Declared}
    (h : ElementDegrees L P e D) (h' : ElementDegrees L P e D') : D = D' := by
  obtain ⟨el, fs, h1, h2, h3⟩ := h
  obtain ⟨el', fs', h1', h2', h3'⟩ := h'
  obtain rfl := Option.some.inj (h1.symm.trans h1')
  obtain rfl := Option.some.inj (h2.symm.trans h2')
  exact h3.unique h3'

/-- **C139** Arbogast–Correa: the degrees are right. -/
theorem ac_degrees (k : ℕ) : ElementDegrees (vec 2 (QP 2)) (vec 2 (P 2)) (ac "equispaced" k) (declAC k) := by
  have h := of_created (ac_created k) (degrees_TSdiv2 k)
  have e : declAC k = ⟨tsSub2 (k + 1), (k : ℤ) + 1, k, (k : ℤ) + 1⟩ := by
    unfold declAC tsSub2
    congr 1
    split_ifs <;> push_cast <;> omega
  rw [e]
  exact h

theorem tsdiv_quad {k : ℕ} (hk : 1 ≤ k) :
    ElementDegrees (vec 2 (QP 2)) (vec 2 (P 2)) (tsdiv "equispaced" .quadrilateral k) ⟨tsSub2 k, k, (k : ℤ) - 1, k⟩ := by
  obtain ⟨n, rfl⟩ := Nat.exists_eq_add_of_le' hk
  have := of_created (tsdiv_created_quadrilateral hk) (degrees_TSdiv2 n)
  push_cast
  rwa [add_sub_cancel_right]

theorem tscurl_quad {k : ℕ} (hk : 1 ≤ k) :
    ElementDegrees (vec 2 (QP 2)) (vec 2 (P 2)) (tscurl "equispaced" .quadrilateral k) ⟨tsSub2 k, k, (k : ℤ) - 1, k⟩ := by
  obtain ⟨n, rfl⟩ := Nat.exists_eq_add_of_le' hk
  have := of_created (tscurl_created_quadrilateral hk) (degrees_TScurl2 n)
  push_cast
  rwa [add_sub_cancel_right]

theorem tsdiv_hex {k : ℕ} (hk : 1 ≤ k) :
    ElementDegrees (vec 3 (QP 3)) (vec 3 (P 3)) (tsdiv "equispaced" .hexahedron k) ⟨tsSub3 k, k, (k : ℤ) - 1, k⟩ := by
  obtain ⟨n, rfl⟩ := Nat.exists_eq_add_of_le' hk
  have := of_created (tsdiv_created_hexahedron hk) (degrees_TSdiv3 n)
  push_cast
  rwa [add_sub_cancel_right]

/-- **C139** Trimmed serendipity elements on quadrilaterals: the declared degrees are right for the orders 1 to 6 and 8, and for no other order. -/
theorem trimmed_degrees_quadrilateral {k : ℕ} (hk : 1 ≤ k) :
    (ElementDegrees (vec 2 (QP 2)) (vec 2 (P 2)) (tsdiv "equispaced" .quadrilateral k) (declTSdiv .quadrilateral k) ↔ k ≤ 6 ∨ k = 8) ∧
    (ElementDegrees (vec 2 (QP 2)) (vec 2 (P 2)) (tscurl "equispaced" .quadrilateral k) (declTScurl .quadrilateral k) ↔ k ≤ 6 ∨ k = 8) := by
  have e1 : declTSdiv .quadrilateral k = ⟨((k : ℤ) + 1) / 3, k, (k : ℤ) - 1, k⟩ := rfl
  have e2 : declTScurl .quadrilateral k = ⟨((k : ℤ) + 1) / 3, k, (k : ℤ) - 1, k⟩ := by
    show Declared.mk (((k : ℤ) + (2 : ℕ) - 1) / ((2 : ℕ) + 1)) k (k - 1) ((k : ℤ) + (2 : ℕ) - 2) = _
    congr 1 <;> push_cast <;> omega
  have key : (⟨((k : ℤ) + 1) / 3, k, (k : ℤ) - 1, k⟩ : Declared) = ⟨tsSub2 k, k, (k : ℤ) - 1, k⟩ ↔ k ≤ 6 ∨ k = 8 := by
    unfold tsSub2
    rw [Declared.mk.injEq]
    split_ifs <;> push_cast <;> omega
  rw [e1, e2]
  exact ⟨⟨fun h => key.1 (h.unique (tsdiv_quad hk)), fun h => key.2 h ▸ tsdiv_quad hk⟩,
    ⟨fun h => key.1 (h.unique (tscurl_quad hk)), fun h => key.2 h ▸ tscurl_quad hk⟩⟩

/-- **C139** Trimmed serendipity H(div) elements on hexahedra: the declared degrees are right for the orders 1 to 9, 11, 12 and 15, and for no other
order. -/
theorem trimmed_degrees_hexahedron {k : ℕ} (hk : 1 ≤ k) :
    ElementDegrees (vec 3 (QP 3)) (vec 3 (P 3)) (tsdiv "equispaced" .hexahedron k) (declTSdiv .hexahedron k) ↔
      k ≤ 9 ∨ k = 11 ∨ k = 12 ∨ k = 15 := by
  have e1 : declTSdiv .hexahedron k = ⟨((k : ℤ) + 1) / 4, k, (k : ℤ) - 1, k⟩ := rfl
  have key : (⟨((k : ℤ) + 1) / 4, k, (k : ℤ) - 1, k⟩ : Declared) = ⟨tsSub3 k, k, (k : ℤ) - 1, k⟩ ↔ k ≤ 9 ∨ k = 11 ∨ k = 12 ∨ k = 15 := by
    unfold tsSub3
    rw [Declared.mk.injEq]
    split_ifs <;> push_cast <;> omega
  rw [e1]
  exact ⟨fun h => key.1 (h.unique (tsdiv_hex hk)), fun h => key.2 h ▸ tsdiv_hex hk⟩

/-- **C139** Serendipity H(curl) elements: the degrees are right. -/
theorem scurl_degrees {k : ℕ} (hk : 1 ≤ k) :
    ElementDegrees (vec 2 (QP 2)) (vec 2 (P 2)) (scurl "equispaced" .quadrilateral k) (declScurl .quadrilateral k) ∧
    ElementDegrees (vec 3 (QP 3)) (vec 3 (P 3)) (scurl "equispaced" .hexahedron k) (declScurl .hexahedron k) := by
  have e1 : declScurl .quadrilateral k = ⟨(k : ℤ) / 2, (k : ℤ) + 1, k, (k : ℤ) + 1⟩ := by
    have t2 : Cell.quadrilateral.tdim = 2 := rfl
    simp only [declScurl, t2, Declared.mk.injEq]
    push_cast
    refine ⟨?_, trivial, trivial, by omega⟩
    split_ifs <;> omega
  have e2 : declScurl .hexahedron k = ⟨scSub3 k, (k : ℤ) + 1, k, (k : ℤ) + 2⟩ := by
    have t3 : Cell.hexahedron.tdim = 3 := rfl
    simp only [declScurl, t3, scSub3, Declared.mk.injEq]
    push_cast
    refine ⟨?_, trivial, trivial, by omega⟩
    by_cases h : k = 2
    · simp [h]
    · simp [h]
  rw [e1, e2]
  exact ⟨of_created (scurl_created_quadrilateral hk) (degrees_scurl2 hk), of_created (scurl_created_hexahedron hk) (degrees_scurl3 hk)⟩

/-- A case: at order 7 the element contains all products of polynomials of degree 3, while the class declares degree 2. -/
example : (declTSdiv .quadrilateral 7).lagSub = 2 ∧ ElementDegrees (vec 2 (QP 2)) (vec 2 (P 2)) (tsdiv "equispaced" .quadrilateral 7) ⟨3, 7, 6, 7⟩ :=
  ⟨rfl, tsdiv_quad (by norm_num)⟩

end Verif.Degrees
