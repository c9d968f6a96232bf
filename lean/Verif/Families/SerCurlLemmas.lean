import Verif.Families.SerCurl
import Verif.Scalar.Serendipity
import Verif.Smooth.Chain
/-!
# Serendipity H(curl) spaces on hexahedra
-/

namespace Verif.Families
open Verif.References Verif.Moments Verif.Functionals Verif.Elements Verif.FiniteElement Verif.Polysets Verif.Orthogonal
open Verif.Scalar Verif.Smooth
open MvPolynomial

/-- A polynomial of degree `n` that vanishes where `x_j` is 0 and where it is 1 has no terms of degree `n` that are
of degree at most one in `x_j`. -/
theorem coeff_bub {d : ℕ} {n : ℤ} {p : MvPolynomial ℕ ℝ} (hp : p ∈ P d n) {j : ℕ}
    (h : ∀ z : ℕ → ℝ, z j = 0 ∨ z j = 1 → eval z p = 0) {t : ℕ →₀ ℕ} (h2 : (t.degree : ℤ) = n) (h3 : t j ≤ 1) : coeff t p = 0 := by
  classical
  obtain ⟨w, hw, rfl⟩ := P_bub j hp h
  have e : bub j * w = X j * w - X j * (X j * w) := by rw [bub]; ring
  rw [e, coeff_sub, coeff_X_mul', coeff_X_mul']
  split_ifs with hs
  · have hs' : t j = 1 := by
      rw [Finsupp.mem_support_iff] at hs
      omega
    have hle : Finsupp.single j 1 ≤ t := Finsupp.single_le_iff.2 (by omega)
    have hd : (t - Finsupp.single j 1).degree + 1 = t.degree := by
      have := congrArg Finsupp.degree (tsub_add_cancel_of_le hle)
      rw [map_add, Finsupp.degree_single] at this
      exact this
    have h0 : coeff (t - Finsupp.single j 1) w = 0 := coeff_eq_zero_of_degree hw (by omega)
    rw [h0, coeff_X_mul', if_neg, sub_zero]
    rw [Finsupp.notMem_support_iff, Finsupp.tsub_apply, Finsupp.single_eq_same]
    omega
  · rw [sub_zero]

/-- The terms of component `j` of the functions that are neither polynomials of degree `k` nor gradients. -/
def CrossTerm (k j : ℕ) (t : ℕ →₀ ℕ) : Prop :=
  t.degree = k + 1 ∧ (∀ i ∈ t.support, i < 3) ∧ (∀ a < 3, a ≠ j → 1 ≤ t a) ∧ ∃ l < 3, l ≠ j ∧ t l = 1

/-- Fields with these terms only and without a component along `x`. -/
noncomputable def Cross (k : ℕ) : Submodule ℝ (Field 3) where
  carrier := {w | (∀ (j : Fin 3), ∀ t ∈ (w j).support, CrossTerm k j t) ∧ ∑ j : Fin 3, X j.val * w j = 0}
  zero_mem' := ⟨fun j t ht => by simp at ht, by simp⟩
  add_mem' := fun {v w} hv hw => ⟨fun j t ht => by
    classical
    rcases Finset.mem_union.1 (support_add ht) with h | h
    · exact hv.1 j t h
    · exact hw.1 j t h, by
    simp only [Pi.add_apply, mul_add, Finset.sum_add_distrib, hv.2, hw.2, add_zero]⟩
  smul_mem' := fun c v hv => ⟨fun j t ht => hv.1 j t (support_smul ht), by
    simp only [Pi.smul_apply, mul_smul_comm, ← Finset.smul_sum, hv.2, smul_zero]⟩

theorem mem_Cross {k : ℕ} {w : Field 3} :
    w ∈ Cross k ↔ (∀ (j : Fin 3), ∀ t ∈ (w j).support, CrossTerm k j t) ∧ ∑ j : Fin 3, X j.val * w j = 0 := Iff.rfl

theorem Cross_P {k : ℕ} {w : Field 3} (hw : w ∈ Cross k) (j : Fin 3) : w j ∈ P 3 ((k : ℤ) + 1) := by
  refine mem_P.2 fun t ht => ?_
  obtain ⟨h1, h2, -⟩ := hw.1 j t ht
  exact ⟨by rw [h1]; push_cast; rfl, h2⟩

theorem coeff_pull_one (j : ℕ) (t : ℕ →₀ ℕ) (p : MvPolynomial ℕ ℝ) (h : t j ≠ 0) :
    coeff (t - Finsupp.single j 1) (pderiv j p) = t j * coeff t p := by
  have hle : Finsupp.single j 1 ≤ t := Finsupp.single_le_iff.2 (by omega)
  have e : (t - Finsupp.single j 1 : ℕ →₀ ℕ) j + 1 = t j := by
    rw [Finsupp.tsub_apply, Finsupp.single_eq_same]
    omega
  rw [coeff_pderiv, tsub_add_cancel_of_le hle, mul_comm]
  congr 1
  exact_mod_cast e

theorem sub_degree {t : ℕ →₀ ℕ} {j : ℕ} (h : t j ≠ 0) : (t - Finsupp.single j 1).degree + 1 = t.degree := by
  have hle : Finsupp.single j 1 ≤ t := Finsupp.single_le_iff.2 (by omega)
  have := congrArg Finsupp.degree (tsub_add_cancel_of_le hle)
  rw [map_add, Finsupp.degree_single] at this
  exact this

theorem degree_three {t : ℕ →₀ ℕ} (h : ∀ i ∈ t.support, i < 3) : t.degree = t 0 + t 1 + t 2 := by
  rw [Finsupp.degree_apply, Finset.sum_subset (s₂ := Finset.range 3) (fun i hi => Finset.mem_range.2 (h i hi))
    (fun i _ hi => Finsupp.notMem_support_iff.1 hi)]
  simp [Finset.sum_range_succ]

theorem slDegree_three {t : ℕ →₀ ℕ} (h : ∀ i ∈ t.support, i < 3) :
    slDegree t = (if t 0 = 1 then 0 else t 0) + (if t 1 = 1 then 0 else t 1) + (if t 2 = 1 then 0 else t 2) := by
  rw [slDegree_range h]
  simp [Finset.sum_range_succ]

theorem Ser_deg {n : ℕ} (hn : 2 ≤ n) {s : MvPolynomial ℕ ℝ} (hs : s ∈ Ser 3 n) : s ∈ P 3 ((n : ℤ) + 2) := by
  refine mem_P.2 fun t ht => ?_
  obtain ⟨h1, h2⟩ := mem_Ser.1 hs t ht
  rw [slDegree_three h2] at h1
  refine ⟨?_, h2⟩
  rw [degree_three h2]
  split_ifs at h1 <;> push_cast <;> omega

/-- Lowering the degree. -/
theorem P_drop {d : ℕ} {n : ℤ} {p : MvPolynomial ℕ ℝ} (hp : p ∈ P d (n + 1)) (h : ∀ t : ℕ →₀ ℕ, (t.degree : ℤ) = n + 1 → coeff t p = 0) :
    p ∈ P d n := by
  refine mem_P.2 fun t ht => ?_
  obtain ⟨h1, h2⟩ := mem_P.1 hp t ht
  refine ⟨?_, h2⟩
  by_contra hc
  exact mem_support_iff.1 ht (h t (by omega))

/-- If the tangential components vanish on the boundary of the cube, then the field is a polynomial of degree `k`. -/
theorem cross_key {k : ℕ} (hk : 1 ≤ k) {p w v : Field 3} {s : MvPolynomial ℕ ℝ} (hp : ∀ j, p j ∈ P 3 (k : ℤ)) (hw : w ∈ Cross k)
    (hs : s ∈ Ser 3 (k + 1)) (hv : v = p + w + gradient ℝ 3 s)
    (ht : ∀ (i : Fin 3), ∀ j < 3, j ≠ i.val → ∀ z : ℕ → ℝ, z j = 0 ∨ z j = 1 → eval z (v i) = 0) :
    s ∈ P 3 ((k : ℤ) + 1) ∧ w = 0 := by
  have hvj : ∀ j : Fin 3, v j = p j + w j + pderiv j.val s := fun j => by rw [hv]; rfl
  have hP : ∀ {n : ℕ}, k + 2 ≤ n → s ∈ P 3 (n : ℤ) → ∀ j, v j ∈ P 3 ((n : ℤ) - 1) := by
    intro n hn hsn j
    rw [hvj]
    exact Submodule.add_mem _ (Submodule.add_mem _ (P_mono (by omega) (hp j)) (P_mono (by omega) (Cross_P hw j)))
      (pderiv_mem hsn j)
  have hco : ∀ (j : Fin 3) (t : ℕ →₀ ℕ), t j ≠ 0 → k + 2 ≤ t.degree →
      coeff (t - Finsupp.single j.val 1) (v j) = coeff (t - Finsupp.single j.val 1) (w j) + t j * coeff t s := by
    intro j t h0 h1
    have := sub_degree h0
    rw [hvj, coeff_add, coeff_add, coeff_pull_one _ _ _ h0, coeff_eq_zero_of_degree (hp j) (by omega), zero_add]
  have hsup : ∀ t, coeff t s ≠ 0 → slDegree t ≤ k + 1 ∧ ∀ i ∈ t.support, i < 3 := fun t h => mem_Ser.1 hs t (mem_support_iff.2 h)
  have hzero : ∀ {n : ℕ}, k + 2 ≤ n → s ∈ P 3 (n : ℤ) → ∀ (t : ℕ →₀ ℕ) (i : Fin 3) (j : ℕ), t.degree = n → t i ≠ 0 → j < 3 → j ≠ i.val →
      t j ≤ 1 → coeff (t - Finsupp.single i.val 1) (v i) = 0 := by
    intro n hn hsn t i j h1 h2 h3 h4 h5
    have := sub_degree h2
    refine coeff_bub (hP hn hsn i) (ht i j h3 h4) (by omega) ?_
    rw [Finsupp.tsub_apply]
    omega
  have s3 : s ∈ P 3 ((k + 3 : ℕ) : ℤ) := by
    have := Ser_deg (n := k + 1) (by omega) hs
    refine P_mono (by push_cast; omega) this
  have s2 : s ∈ P 3 ((k + 2 : ℕ) : ℤ) := by
    refine P_drop (P_mono (by push_cast; omega) s3) fun t hd => ?_
    by_contra hc
    obtain ⟨h1, h2⟩ := hsup t hc
    have hd' : t.degree = k + 3 := by push_cast at hd; omega
    rw [slDegree_three h2] at h1
    have h3 := degree_three h2
    have hab : ∃ a b : Fin 3, a ≠ b ∧ t a = 1 ∧ t b = 1 := by
      by_cases e0 : t 0 = 1
      · by_cases e1 : t 1 = 1
        · exact ⟨0, 1, by decide, e0, e1⟩
        · by_cases e2 : t 2 = 1
          · exact ⟨0, 2, by decide, e0, e2⟩
          · simp [e0, e1, e2] at h1; omega
      · by_cases e1 : t 1 = 1
        · by_cases e2 : t 2 = 1
          · exact ⟨1, 2, by decide, e1, e2⟩
          · simp [e0, e1, e2] at h1; omega
        · split_ifs at h1 <;> omega
    obtain ⟨a, b, hne, ha, hb⟩ := hab
    have h4 := hco a t (by omega) (by omega)
    rw [hzero (n := k + 3) (by omega) s3 t a b.val hd' (by omega) b.2 (fun h => hne (Fin.ext h.symm)) (by omega), ha,
      coeff_eq_zero_of_degree (Cross_P hw a) (by have := sub_degree (t := t) (j := a.val) (by omega); omega)] at h4
    simp at h4
    exact hc h4.symm
  have s1 : s ∈ P 3 ((k : ℤ) + 1) := by
    refine P_drop (P_mono (by push_cast; omega) s2) fun t hd => ?_
    by_contra hc
    obtain ⟨h1, h2⟩ := hsup t hc
    have hd' : t.degree = k + 2 := by omega
    rw [slDegree_three h2] at h1
    have h3 := degree_three h2
    have hsum : ∑ j : Fin 3, (if t j.val = 0 then 0 else coeff (t - Finsupp.single j.val 1) (v j)) = ((k : ℝ) + 2) * coeff t s := by
      have h4 := congrArg (coeff t) hw.2
      rw [coeff_sum, coeff_zero] at h4
      have e : ∀ j : Fin 3, (if t j.val = 0 then 0 else coeff (t - Finsupp.single j.val 1) (v j)) =
          coeff t (X j.val * w j) + t j * coeff t s := by
        intro j
        split_ifs with h0
        · rw [coeff_X_mul', if_neg (Finsupp.notMem_support_iff.2 h0), h0]
          simp
        · rw [coeff_X_mul', if_pos (Finsupp.mem_support_iff.2 h0), hco j t h0 (by omega)]
      rw [Finset.sum_congr rfl fun j _ => e j, Finset.sum_add_distrib, h4, zero_add, ← Finset.sum_mul, Fin.sum_univ_three]
      congr 1
      have : ((t 0 + t 1 + t 2 : ℕ) : ℝ) = ((k + 2 : ℕ) : ℝ) := by rw [← h3, hd']
      push_cast at this
      exact this
    have ha : ∃ a : Fin 3, t a = 1 := by
      by_cases e0 : t 0 = 1
      · exact ⟨0, e0⟩
      · by_cases e1 : t 1 = 1
        · exact ⟨1, e1⟩
        · by_cases e2 : t 2 = 1
          · exact ⟨2, e2⟩
          · rw [if_neg e0, if_neg e1, if_neg e2] at h1; omega
    obtain ⟨a, ha⟩ := ha
    rw [Finset.sum_eq_single a (fun j _ hj => by
      split_ifs with h0
      · rfl
      · exact hzero (n := k + 2) (by omega) s2 t j a.val hd' h0 a.2 (fun h => hj (Fin.ext h.symm)) (by omega))
      (fun h => absurd (Finset.mem_univ _) h), if_neg (by omega)] at hsum
    by_cases hb : ∃ b : Fin 3, b ≠ a ∧ t b ≤ 1
    · obtain ⟨b, hne, hb⟩ := hb
      rw [hzero (n := k + 2) (by omega) s2 t a b.val hd' (by omega) b.2 (fun h => hne (Fin.ext h)) hb] at hsum
      rcases mul_eq_zero.1 hsum.symm with h | h
      · have : (0 : ℝ) < (k : ℝ) + 2 := by positivity
        exact this.ne' h
      · exact hc h
    · push Not at hb
      have hw0 : coeff (t - Finsupp.single a.val 1) (w a) = 0 := by
        by_contra hne
        obtain ⟨-, -, -, l, hl, hla, hl1⟩ := hw.1 a _ (mem_support_iff.2 hne)
        have := hb ⟨l, hl⟩ (fun h => hla (congrArg Fin.val h))
        rw [Finsupp.tsub_apply, Finsupp.single_apply, if_neg (fun h => hla h.symm)] at hl1
        simp only at this
        omega
      rw [hco a t (by omega) (by omega), hw0, ha] at hsum
      have h5 : ((k : ℝ) + 1) * coeff t s = 0 := by push_cast at hsum; linarith
      rcases mul_eq_zero.1 h5 with h | h
      · have : (0 : ℝ) < (k : ℝ) + 1 := by positivity
        exact this.ne' h
      · exact hc h
  refine ⟨s1, ?_⟩
  funext j
  ext t
  by_contra hne
  rw [Pi.zero_apply, coeff_zero] at hne
  obtain ⟨h1, h2, -, l, hl, hlj, hl1⟩ := hw.1 j t (mem_support_iff.2 hne)
  have h3 : v j ∈ P 3 ((k : ℤ) + 1) := by
    rw [hvj]
    exact Submodule.add_mem _ (Submodule.add_mem _ (P_mono (by omega) (hp j)) (Cross_P hw j)) (P_mono (by omega) (pderiv_mem s1 j))
  have h4 := coeff_bub h3 (ht j l hl hlj) (t := t) (by rw [h1]; push_cast; rfl) (by omega)
  rw [hvj, coeff_add, coeff_add, coeff_eq_zero_of_degree (hp j) (by rw [h1]; push_cast; omega),
    coeff_eq_zero_of_degree (pderiv_mem s1 j) (by rw [h1]; push_cast; omega)] at h4
  exact hne (by simpa using h4)

end Verif.Families
