import Verif.Mappings.Model
import Verif.Mappings.Spec

/-!
# Lemmas about affine maps and substitution
-/

set_option linter.unusedSectionVars false

namespace Verif.Mappings

open MvPolynomial Matrix

variable {n : ℕ} {K : Type*} [Field K]

theorem pderiv_affine (A : Matrix (Fin n) (Fin n) K) (b : Fin n → K) (i j : Fin n) :
    pderiv j (affine A b i) = C (A i j) := by
  unfold affine
  rw [map_add, map_sum, pderiv_C, add_zero, Finset.sum_eq_single j]
  · rw [pderiv_C_mul, pderiv_X_self, mul_one]
  · intro k _ hk
    rw [pderiv_C_mul, pderiv_X_of_ne hk, mul_zero]
  · intro h; exact absurd (Finset.mem_univ j) h

theorem bind_affine (A B : Matrix (Fin n) (Fin n) K) (b c : Fin n → K) (i : Fin n) :
    bind₁ (affine B c) (affine A b i) = affine (A * B) (fun i => (A *ᵥ c) i + b i) i := by
  unfold affine
  simp only [map_add, map_sum, map_mul, bind₁_C_right, bind₁_X_right, Matrix.mul_apply,
    Matrix.mulVec, dotProduct, mul_add, Finset.sum_add_distrib, Finset.mul_sum, Finset.sum_mul,
    mul_assoc]
  rw [Finset.sum_comm]
  ring

theorem affine_one (i : Fin n) : affine (1 : Matrix (Fin n) (Fin n) K) (fun _ => 0) i = X i := by
  unfold affine
  rw [Finset.sum_eq_single i]
  · simp
  · intro k _ hk; rw [Matrix.one_apply_ne hk.symm]; simp
  · intro h; exact absurd (Finset.mem_univ i) h

theorem constantCoeff_affine (A : Matrix (Fin n) (Fin n) K) (b : Fin n → K) (i : Fin n) :
    constantCoeff (affine A b i) = b i := by
  simp [affine]

/-- What mutual inverse means for the coefficients. -/
theorem AffinePair.coeffs {map inv : Fin n → MvPolynomial (Fin n) K}
    {A : Matrix (Fin n) (Fin n) K} {b : Fin n → K} (h : AffinePair map inv A b) :
    ∃ B c, inv = affine B c ∧ A * B = 1 ∧ B * A = 1 ∧ (∀ i, (A *ᵥ c) i + b i = 0) ∧
      ∀ i, (B *ᵥ b) i + c i = 0 := by
  obtain ⟨B, c, hB⟩ := h.inv_affine
  have hAB : A * B = 1 := by
    ext i j
    have h1 := congrArg (fun q => constantCoeff (pderiv j q)) (h.right_inv i)
    simp only [hB, h.map_eq, bind_affine, pderiv_affine, constantCoeff_C] at h1
    rw [h1]
    by_cases hij : i = j
    · subst hij; simp
    · rw [pderiv_X_of_ne hij, Matrix.one_apply_ne hij]; simp
  have hBA : B * A = 1 := mul_eq_one_comm.1 hAB
  have hc : ∀ i, (A *ᵥ c) i + b i = 0 := by
    intro i
    have h1 := congrArg constantCoeff (h.right_inv i)
    simpa only [hB, h.map_eq, bind_affine, constantCoeff_affine, constantCoeff_X] using h1
  refine ⟨B, c, hB, hAB, hBA, hc, ?_⟩
  intro i
  have hc' : A *ᵥ c = -b := by
    funext k; have := hc k; simp only [Pi.neg_apply]; exact eq_neg_of_add_eq_zero_left this
  have : B *ᵥ (A *ᵥ c) = c := by rw [Matrix.mulVec_mulVec, hBA, Matrix.one_mulVec]
  rw [hc', Matrix.mulVec_neg] at this
  rw [← this]; simp

/-- The other composition is the identity too. -/
theorem AffinePair.symm {map inv : Fin n → MvPolynomial (Fin n) K}
    {A : Matrix (Fin n) (Fin n) K} {b : Fin n → K} (h : AffinePair map inv A b) :
    ∃ B c, AffinePair inv map B c ∧ A * B = 1 ∧ B * A = 1 := by
  obtain ⟨B, c, hB, hAB, hBA, -, hb⟩ := h.coeffs
  refine ⟨B, c, ⟨hB, ⟨A, b, h.map_eq⟩, ?_⟩, hAB, hBA⟩
  intro i
  rw [hB, h.map_eq, bind_affine, hBA]
  rw [show (fun i => (B *ᵥ b) i + c i) = fun _ => 0 from funext hb, affine_one]

theorem AffinePair.bind_bind {map inv : Fin n → MvPolynomial (Fin n) K}
    {A : Matrix (Fin n) (Fin n) K} {b : Fin n → K} (h : AffinePair map inv A b)
    (f : MvPolynomial (Fin n) K) : bind₁ map (bind₁ inv f) = f := by
  obtain ⟨B, c, h', -, -⟩ := h.symm
  rw [bind₁_bind₁]
  have : (fun i => bind₁ map (inv i)) = X := funext h'.right_inv
  rw [this]
  simp

/-- A function at the image of a reference point. -/
theorem AffinePair.eval_bind {map inv : Fin n → MvPolynomial (Fin n) K}
    {A : Matrix (Fin n) (Fin n) K} {b : Fin n → K} (h : AffinePair map inv A b)
    (f : MvPolynomial (Fin n) K) (p : Fin n → K) :
    eval (A *ᵥ p + b) (bind₁ inv f) = eval p f := by
  obtain ⟨B, c, hB, hAB, hBA, -, hb⟩ := h.coeffs
  rw [← aeval_eq_eval, ← aeval_eq_eval]
  have : (aeval (A *ᵥ p + b) : MvPolynomial (Fin n) K →ₐ[K] K) (bind₁ inv f) =
      aeval (fun i => aeval (A *ᵥ p + b) (inv i)) f := by
    rw [aeval_bind₁]
  rw [this]
  congr 2
  funext i
  rw [hB]
  simp only [affine, map_add, map_sum, map_mul, aeval_X, aeval_C, Algebra.algebraMap_self,
    RingHom.id_apply]
  have h1 : (B *ᵥ (A *ᵥ p + b)) i = ∑ j, B i j * (A *ᵥ p + b) j := rfl
  rw [← h1, Matrix.mulVec_add, Matrix.mulVec_mulVec, hBA, Matrix.one_mulVec]
  have := hb i
  simp only [Pi.add_apply]
  rw [add_assoc, this, add_zero]

theorem jacobian_affine [LinearOrder K] [IsStrictOrderedRing K] (A : Matrix (Fin n) (Fin n) K)
    (b : Fin n → K) : jacobian (affine A b) = A.map C := by
  ext1 i j; simp [jacobian, pderiv_affine]

theorem jInv_affine [LinearOrder K] [IsStrictOrderedRing K] (B : Matrix (Fin n) (Fin n) K)
    (c : Fin n → K) : jInv (affine B c) = Bᵀ.map C := by
  ext1 i j; simp [jInv, pderiv_affine]

theorem detValue_map [LinearOrder K] [IsStrictOrderedRing K] (A : Matrix (Fin n) (Fin n) K) :
    detValue (A.map (C : K →+* MvPolynomial (Fin n) K)) = A.det := by
  unfold detValue
  rw [← RingHom.mapMatrix_apply, ← RingHom.map_det, constantCoeff_C]

theorem divDet_map [LinearOrder K] [IsStrictOrderedRing K] (A : Matrix (Fin n) (Fin n) K) :
    divDet (A.map (C : K →+* MvPolynomial (Fin n) K)) = (A.det⁻¹ • A).map C := by
  ext1 i j
  simp [divDet, detValue_map]

/-- The chain rule for substitution. -/
theorem pderiv_bind (s : Fin n → MvPolynomial (Fin n) K) (f : MvPolynomial (Fin n) K)
    (j : Fin n) :
    pderiv j (bind₁ s f) = ∑ i, bind₁ s (pderiv i f) * pderiv j (s i) := by
  induction f using MvPolynomial.induction_on with
  | C a => simp
  | add p q hp hq =>
    simp only [map_add, hp, hq, add_mul, Finset.sum_add_distrib]
  | mul_X p k hp =>
    simp only [map_mul, bind₁_X_right, Derivation.leibniz, smul_eq_mul, map_add, add_mul,
      Finset.sum_add_distrib, hp]
    congr 1
    · rw [Finset.sum_eq_single k]
      · simp
      · intro i _ hi; rw [pderiv_X_of_ne hi.symm]; simp
      · intro h; exact absurd (Finset.mem_univ k) h
    · rw [Finset.mul_sum]
      apply Finset.sum_congr rfl
      intro i _; ring

end Verif.Mappings

namespace Verif.Mappings

open MvPolynomial Matrix

variable {n : ℕ} {K : Type*} [Field K] [LinearOrder K] [IsStrictOrderedRing K]

theorem subV_mulVec (s : VFun n K) (M : Matrix (Fin n) (Fin n) K) (v : VFun n K) :
    subV true s ((M.map C) *ᵥ v) = (M.map C) *ᵥ subV true s v := by
  funext i
  simp [subV, sub, Matrix.mulVec, dotProduct]

theorem subM_mul (s : VFun n K) (M N : Matrix (Fin n) (Fin n) K) (v : MFun n K) :
    subM true s ((M.map C) * v * (N.map C)) = (M.map C) * subM true s v * (N.map C) := by
  ext1 i j
  simp [subM, sub, Matrix.mul_apply]

theorem map_C_mul (M N : Matrix (Fin n) (Fin n) K) :
    (M.map C : MFun n K) * N.map C = (M * N).map C := by
  rw [Matrix.map_mul]

theorem map_C_one : ((1 : Matrix (Fin n) (Fin n) K).map C : MFun n K) = 1 := by
  rw [Matrix.map_one _ C_0 C_1]

theorem contra_mul {A B : Matrix (Fin n) (Fin n) K} (h : B * A = 1) :
    (B.det⁻¹ • B) * (A.det⁻¹ • A) = 1 := by
  have hd : B.det * A.det = 1 := by rw [← Matrix.det_mul, h, Matrix.det_one]
  rw [Matrix.smul_mul, Matrix.mul_smul, h, smul_smul, ← mul_inv, hd]
  simp

theorem eval_map_mulVec (p : Fin n → K) (M : Matrix (Fin n) (Fin n) K) (v : VFun n K) :
    (fun i => eval p (((M.map C) *ᵥ v) i)) = M *ᵥ fun i => eval p (v i) := by
  funext i
  simp [Matrix.mulVec, dotProduct]

theorem eval_map_mul (p : Fin n → K) (M N : Matrix (Fin n) (Fin n) K) (v : MFun n K) :
    ((M.map C) * v * (N.map C)).map (eval p) = M * v.map (eval p) * N := by
  ext1 i j
  simp [Matrix.mul_apply]

end Verif.Mappings
