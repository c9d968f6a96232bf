import Verif.Families.SerDiv
/-!
# Integration by parts on the square and the cube
-/

namespace Verif.Families
open Verif.References Verif.Moments Verif.Functionals Verif.Elements Verif.FiniteElement Verif.Polysets Verif.Orthogonal
open MvPolynomial

theorem integral_pow_unit (a : ℕ) : ∫ x in (0 : ℝ)..1, x ^ a = 1 / ((a : ℝ) + 1) := by
  rw [integral_pow]
  simp

theorem eval_monomial_fin {d : ℕ} {m : ℕ →₀ ℕ} (hm : ∀ i ∈ m.support, i < d) (z : ℕ → ℝ) (a : ℝ) :
    eval z (monomial m a) = a * ∏ i ∈ Finset.range d, z i ^ m i := by
  rw [eval_monomial, Finsupp.prod]
  congr 1
  refine Finset.prod_subset (fun i hi => Finset.mem_range.2 (hm i hi)) fun i _ hi => ?_
  rw [Finsupp.notMem_support_iff.1 hi, pow_zero]

/-- The integral of a monomial. -/
theorem box_mono {c : Cell} (hc : Box c) {m : ℕ →₀ ℕ} (hm : ∀ i ∈ m.support, i < c.tdim) (a : ℝ) :
    cellInt c (fun z => eval z (monomial m a)) = a * ∏ i ∈ Finset.range c.tdim, 1 / ((m i : ℝ) + 1) := by
  simp only [eval_monomial_fin hm]
  rw [cellInt_const_mul]
  congr 1
  rcases hc with rfl | rfl
  · simp only [Cell.tdim, Finset.prod_range_succ, Finset.prod_range_zero, one_mul]
    rw [cellInt_quadrilateral fun x y => x ^ m 0 * y ^ m 1]
    simp only [intervalIntegral.integral_const_mul, intervalIntegral.integral_mul_const, integral_pow_unit]
  · simp only [Cell.tdim, Finset.prod_range_succ, Finset.prod_range_zero, one_mul]
    rw [cellInt_hexahedron fun x y z => x ^ m 0 * y ^ m 1 * z ^ m 2]
    simp only [intervalIntegral.integral_const_mul, intervalIntegral.integral_mul_const, integral_pow_unit]

theorem support_add_single {d : ℕ} {m : ℕ →₀ ℕ} (hm : ∀ i ∈ m.support, i < d) {j : ℕ} (hj : j < d) :
    ∀ i ∈ (m + Finsupp.single j 1).support, i < d := by
  intro i hi
  rw [Finsupp.mem_support_iff, Finsupp.add_apply] at hi
  by_cases h : i = j
  · rwa [h]
  · rw [Finsupp.single_apply, if_neg (Ne.symm h), add_zero] at hi
    exact hm i (Finsupp.mem_support_iff.2 hi)

theorem box_mono_pderiv {c : Cell} (hc : Box c) {m : ℕ →₀ ℕ} (hm : ∀ i ∈ m.support, i < c.tdim) {j : ℕ} (hj : j < c.tdim) (a : ℝ) :
    cellInt c (fun z => eval z (pderiv j (monomial (m + Finsupp.single j 1) a))) =
      a * ∏ i ∈ (Finset.range c.tdim).erase j, 1 / ((m i : ℝ) + 1) := by
  rw [pderiv_monomial, add_tsub_cancel_right, box_mono hc hm, ← Finset.mul_prod_erase _ _ (Finset.mem_range.2 hj), Finsupp.add_apply,
    Finsupp.single_eq_same]
  have : ((m j : ℝ) + 1) ≠ 0 := by positivity
  push_cast
  field_simp

/-- The integral of the derivative of a function in a direction in which it vanishes at both ends. -/
theorem box_pderiv {c : Cell} (hc : Box c) {j : ℕ} (hj : j < c.tdim) {k : ℤ} {p : MvPolynomial ℕ ℝ} (hp : p ∈ P c.tdim k)
    (h : ∀ z : ℕ → ℝ, z j = 0 ∨ z j = 1 → eval z p = 0) : cellInt c (fun z => eval z (pderiv j p)) = 0 := by
  obtain ⟨w, hw, rfl⟩ := P_bub j hp h
  have e : bub j * w = ∑ m ∈ w.support, (monomial (m + Finsupp.single j 1) (coeff m w) -
      monomial (m + Finsupp.single j 1 + Finsupp.single j 1) (coeff m w)) := by
    conv_lhs => rw [w.as_sum, Finset.mul_sum]
    refine Finset.sum_congr rfl fun m _ => ?_
    have hX : ∀ t : ℕ →₀ ℕ, monomial (t + Finsupp.single j 1) (coeff m w) = X j * monomial t (coeff m w) := fun t => by
      rw [X, monomial_mul, one_mul, add_comm]
    rw [hX, hX, hX, bub]
    ring
  rw [e, map_sum, cellInt_poly_sum]
  refine Finset.sum_eq_zero fun m hm => ?_
  have hs : ∀ i ∈ m.support, i < c.tdim := fun i hi => (mem_P.1 hw m hm).2 i hi
  have : (fun z : ℕ → ℝ => eval z (pderiv j (monomial (m + Finsupp.single j 1) (coeff m w) -
      monomial (m + Finsupp.single j 1 + Finsupp.single j 1) (coeff m w)))) =
      fun z => eval z (pderiv j (monomial (m + Finsupp.single j 1) (coeff m w))) +
        (-1) * eval z (pderiv j (monomial (m + Finsupp.single j 1 + Finsupp.single j 1) (coeff m w))) := by
    funext z
    rw [map_sub, map_sub]
    ring
  rw [this, cellInt_add (g := fun z => (-1) * eval z (pderiv j (monomial (m + Finsupp.single j 1 + Finsupp.single j 1) (coeff m w))))
    _ (continuous_eval _) (continuous_const.mul (continuous_eval _)), cellInt_const_mul, box_mono_pderiv hc hs hj,
    box_mono_pderiv hc (support_add_single hs hj) hj]
  have hpr : ∏ i ∈ (Finset.range c.tdim).erase j, 1 / ((((m + Finsupp.single j 1 : ℕ →₀ ℕ) i : ℕ) : ℝ) + 1) =
      ∏ i ∈ (Finset.range c.tdim).erase j, 1 / ((m i : ℝ) + 1) := by
    refine Finset.prod_congr rfl fun i hi => ?_
    rw [Finsupp.add_apply, Finsupp.single_apply, if_neg (Finset.ne_of_mem_erase hi).symm, add_zero]
  rw [hpr]
  ring

/-- Integration by parts for fields with no normal components on the boundary. -/
theorem box_parts {c : Cell} (hc : Box c) {k l : ℤ} {v : Field c.tdim} (hv : ∀ i, v i ∈ P c.tdim k)
    (hn : ∀ (i : Fin c.tdim) (z : ℕ → ℝ), z i.val = 0 ∨ z i.val = 1 → eval z (v i) = 0) {q : MvPolynomial ℕ ℝ}
    (hq : q ∈ P c.tdim l) : pairing c v (gradient ℝ c.tdim q) = - pairing1 c (divergence ℝ v) q := by
  have h0 : cellInt c (fun z => eval z (∑ i : Fin c.tdim, pderiv i.val (v i * q))) = 0 := by
    rw [cellInt_poly_sum]
    refine Finset.sum_eq_zero fun i _ => box_pderiv hc i.2 (P_mul (hv i) hq) fun z hz => ?_
    rw [map_mul, hn i z hz, zero_mul]
  have e : (∑ i : Fin c.tdim, pderiv i.val (v i * q)) = divergence ℝ v * q + ∑ i, v i * gradient ℝ c.tdim q i := by
    rw [divergence, Finset.sum_mul, ← Finset.sum_add_distrib]
    refine Finset.sum_congr rfl fun i _ => ?_
    rw [Derivation.leibniz, smul_eq_mul, smul_eq_mul, gradient]
    ring
  rw [e] at h0
  simp only [map_add] at h0
  rw [cellInt_add _ (continuous_eval _) (continuous_eval _)] at h0
  rw [eq_neg_iff_add_eq_zero, add_comm]
  exact h0

/-- A polynomial with no moments against polynomials of its degree is zero. -/
theorem pairing1_zero {c : Cell} (hc : Box c) {k : ℤ} {p : MvPolynomial ℕ ℝ} (hp : p ∈ P c.tdim k)
    (h : ∀ q ∈ P c.tdim k, pairing1 c p q = 0) : p = 0 := by
  have := h p hp
  have h1 : cellInt c (fun z => eval z (∑ i : Fin 1, 1 * p ^ 2)) = 0 := by
    refine Eq.trans ?_ this
    rw [Fin.sum_univ_one, one_mul, pow_two]
    rfl
  exact squares_zero hc.solid (fun _ : Fin 1 => 1) (fun _ z _ => by simp) (fun _ z _ => by simp) (fun _ => p) (fun _ => hp) h1 0

/-- The divergence is zero if there are no moments against gradients. -/
theorem box_div_zero {c : Cell} (hc : Box c) {k l : ℤ} {v : Field c.tdim} (hv : ∀ i, v i ∈ P c.tdim l)
    (hd : divergence ℝ v ∈ P c.tdim k)
    (hn : ∀ (i : Fin c.tdim) (z : ℕ → ℝ), z i.val = 0 ∨ z i.val = 1 → eval z (v i) = 0)
    (h : ∀ q ∈ P c.tdim k, pairing c v (gradient ℝ c.tdim q) = 0) : divergence ℝ v = 0 := by
  refine pairing1_zero hc hd fun q hq => ?_
  have := h q hq
  rw [box_parts hc hv hn hq] at this
  exact neg_eq_zero.1 this

/-! ### Fields in the direction of the position -/

/-- Euler's identity for the divergence of the field `x q`, up to polynomials of lower degree. -/
theorem div_radial {d : ℕ} {k : ℤ} {q : MvPolynomial ℕ ℝ} (hq : q ∈ P d k) :
    divergence ℝ (fun i : Fin d => X i.val * q) - ((d : ℝ) + k) • q ∈ P d (k - 1) := by
  let T : MvPolynomial ℕ ℝ →ₗ[ℝ] MvPolynomial ℕ ℝ :=
    (∑ i : Fin d, (pderiv i.val).toLinearMap ∘ₗ LinearMap.mulLeft ℝ (X i.val)) - ((d : ℝ) + k) • LinearMap.id
  have hT : ∀ p, T p = divergence ℝ (fun i : Fin d => X i.val * p) - ((d : ℝ) + k) • p := fun p => by
    simp [T, divergence, LinearMap.sum_apply]
  rw [← hT]
  refine P_le T _ (fun m hl hs => ?_) hq
  have h1 : divergence ℝ (fun i : Fin d => X i.val * denoteMono ℝ m) = ((d : ℝ) + (m.sum : ℕ)) • denoteMono ℝ m := by
    have h2 : ∀ i : Fin d, pderiv i.val (X i.val * denoteMono ℝ m) = ((m.getD i.val 0 : ℝ) + 1) • denoteMono ℝ m := by
      intro i
      have h3 : expo 0 m i.val = m.getD i.val 0 := by
        have := expo_getD m 0 i.val
        rwa [zero_add] at this
      rw [denoteMono, monoFrom_eq, X, monomial_mul, one_mul, add_comm, pderiv_monomial, add_tsub_cancel_right, Finsupp.add_apply,
        Finsupp.single_eq_same, h3, smul_monomial]
      push_cast
      simp
    rw [divergence, Finset.sum_congr rfl fun i _ => h2 i, ← Finset.sum_smul]
    congr 1
    rw [Finset.sum_add_distrib, Finset.sum_const, Finset.card_univ, Fintype.card_fin, nsmul_eq_mul, mul_one, add_comm]
    congr 1
    subst hl
    have : m.sum = ∑ i : Fin m.length, m.getD i.val 0 := by
      rw [← List.sum_ofFn]
      congr 1
      refine List.ext_getElem (by simp) fun i h1 h2 => ?_
      simp at h1 h2
      simp [h1]
    rw [this]
    push_cast
    rfl
  rw [hT, h1, ← sub_smul]
  by_cases he : (m.sum : ℤ) = k
  · have hr : (((m.sum : ℕ) : ℝ)) = (k : ℝ) := by rw [← he, Int.cast_natCast]
    rw [hr, sub_self, zero_smul]
    exact Submodule.zero_mem _
  · exact Submodule.smul_mem _ _ (denoteMono_mem hl (by omega))

theorem radial_low {d : ℕ} {k : ℤ} (hdk : 0 < (d : ℤ) + k) {q : MvPolynomial ℕ ℝ} (hq : q ∈ P d k)
    (h : divergence ℝ (fun i : Fin d => X i.val * q) ∈ P d (k - 1)) : q ∈ P d (k - 1) := by
  have h1 := Submodule.sub_mem _ h (div_radial hq)
  rw [sub_sub_cancel] at h1
  have h0 : ((d : ℝ) + k) ≠ 0 := by
    have : (0 : ℝ) < ((d : ℤ) + k : ℤ) := by exact_mod_cast hdk
    push_cast at this
    exact this.ne'
  have := Submodule.smul_mem _ ((d : ℝ) + k)⁻¹ h1
  rwa [smul_smul, inv_mul_cancel₀ h0, one_smul] at this

end Verif.Families
