import Verif.Mappings.Lemmas

/-!
# Properties of the mappings (C16-C20)

`AffinePair map inv A b` says that `map` is `x ↦ A x + b`, `inv` is affine and `map ∘ inv` is the
identity.  A reference point `p` has the physical point `A p + b`.
-/

set_option linter.unusedSectionVars false

namespace Verif.Mappings

open MvPolynomial Matrix

variable {n : ℕ} {K : Type*} [Field K] [LinearOrder K] [IsStrictOrderedRing K]
variable {map inv : VFun n K} {A : Matrix (Fin n) (Fin n) K} {b : Fin n → K}

/-! ### C16: the inverse mappings undo the mappings -/

theorem identity_undone (h : AffinePair map inv A b) (f : SFun n K) :
    identityInverse (identity f map inv) map inv = f ∧
      identity (identityInverse f map inv) map inv = f := by
  obtain ⟨B, c, h', -, -⟩ := h.symm
  exact ⟨by simp [identityInverse, identity, sub, h.bind_bind],
    by simp [identityInverse, identity, sub, h'.bind_bind]⟩

theorem l2_undone_aux {B : Matrix (Fin n) (Fin n) K} {c : Fin n → K}
    (h : AffinePair map inv A b) (hinv : inv = affine B c) (hAB : A * B = 1) (f : SFun n K) :
    l2 (l2 f map inv) inv map = f := by
  have hd : A.det * B.det = 1 := by rw [← Matrix.det_mul, hAB, Matrix.det_one]
  simp only [l2, sub, if_true, map_mul, bind₁_C_right, h.bind_bind]
  rw [← mul_assoc, ← C_mul, hinv, h.map_eq, jacobian_affine, jacobian_affine, detValue_map,
    detValue_map, ← mul_inv, ← abs_mul, mul_comm B.det, hd]
  simp

theorem l2_undone (h : AffinePair map inv A b) (f : SFun n K) :
    l2Inverse (l2 f map inv) map inv = f ∧ l2 (l2Inverse f map inv) map inv = f := by
  obtain ⟨B, c, h', hAB, hBA⟩ := h.symm
  exact ⟨l2_undone_aux h h'.map_eq hAB f, l2_undone_aux h' h.map_eq hBA f⟩

theorem subV_subV (h : AffinePair map inv A b) (f : VFun n K) :
    subV true map (subV true inv f) = f := by
  funext i; simp [subV, sub, h.bind_bind]

theorem subM_subM (h : AffinePair map inv A b) (f : MFun n K) :
    subM true map (subM true inv f) = f := by
  ext1 i j; simp [subM, sub, h.bind_bind]

theorem covariant_undone_aux {B : Matrix (Fin n) (Fin n) K} {c : Fin n → K}
    (h : AffinePair map inv A b) (hinv : inv = affine B c) (hBA : B * A = 1) (f : VFun n K) :
    covariant (covariant f map inv) inv map = f := by
  have e1 : jInv map = Aᵀ.map C := by rw [h.map_eq, jInv_affine]
  have e2 : jInv inv = Bᵀ.map C := by rw [hinv, jInv_affine]
  unfold covariant
  rw [e1, e2, subV_mulVec, subV_subV h, Matrix.mulVec_mulVec, map_C_mul, ← Matrix.transpose_mul,
    hBA, Matrix.transpose_one, map_C_one, Matrix.one_mulVec]

theorem covariant_undone (h : AffinePair map inv A b) (f : VFun n K) :
    covariantInverse (covariant f map inv) map inv = f ∧
      covariant (covariantInverse f map inv) map inv = f := by
  obtain ⟨B, c, h', hAB, hBA⟩ := h.symm
  exact ⟨covariant_undone_aux h h'.map_eq hBA f, covariant_undone_aux h' h.map_eq hAB f⟩

theorem contravariant_undone_aux {B : Matrix (Fin n) (Fin n) K} {c : Fin n → K}
    (h : AffinePair map inv A b) (hinv : inv = affine B c) (hBA : B * A = 1) (f : VFun n K) :
    contravariant (contravariant f map inv) inv map = f := by
  have e1 : divDet (jacobian map) = (A.det⁻¹ • A).map C := by
    rw [h.map_eq, jacobian_affine, divDet_map]
  have e2 : divDet (jacobian inv) = (B.det⁻¹ • B).map C := by
    rw [hinv, jacobian_affine, divDet_map]
  unfold contravariant
  rw [e1, e2, subV_mulVec, subV_subV h, Matrix.mulVec_mulVec, map_C_mul, contra_mul hBA,
    map_C_one, Matrix.one_mulVec]

theorem contravariant_undone (h : AffinePair map inv A b) (f : VFun n K) :
    contravariantInverse (contravariant f map inv) map inv = f ∧
      contravariant (contravariantInverse f map inv) map inv = f := by
  obtain ⟨B, c, h', hAB, hBA⟩ := h.symm
  exact ⟨contravariant_undone_aux h h'.map_eq hBA f, contravariant_undone_aux h' h.map_eq hAB f⟩

theorem trC (M : Matrix (Fin n) (Fin n) K) : (M.map C : MFun n K)ᵀ = Mᵀ.map C := rfl

theorem sandwich {M N : Matrix (Fin n) (Fin n) K} (h : M * N = 1) (f : MFun n K) :
    (M.map C : MFun n K) * ((N.map C) * f * (N.map C)ᵀ) * (M.map C)ᵀ = f := by
  have e : (M.map C : MFun n K) * N.map C = 1 := by rw [map_C_mul, h, map_C_one]
  calc (M.map C : MFun n K) * ((N.map C) * f * (N.map C)ᵀ) * (M.map C)ᵀ
      = ((M.map C : MFun n K) * N.map C) * f * ((M.map C : MFun n K) * N.map C)ᵀ := by
        rw [Matrix.transpose_mul]; simp only [Matrix.mul_assoc]
    _ = f := by rw [e]; simp

theorem doubleCovariant_undone_aux {B : Matrix (Fin n) (Fin n) K} {c : Fin n → K}
    (h : AffinePair map inv A b) (hinv : inv = affine B c) (hBA : B * A = 1) (f : MFun n K) :
    doubleCovariant (doubleCovariant f map inv) inv map = f := by
  have e1 : jInv map = Aᵀ.map C := by rw [h.map_eq, jInv_affine]
  have e2 : jInv inv = Bᵀ.map C := by rw [hinv, jInv_affine]
  have e : Aᵀ * Bᵀ = 1 := by rw [← Matrix.transpose_mul, hBA, Matrix.transpose_one]
  unfold doubleCovariant
  rw [e1, e2, trC, trC, subM_mul, subM_subM h]
  have := sandwich e f
  rwa [trC, trC] at this

theorem doubleCovariant_undone (h : AffinePair map inv A b) (f : MFun n K) :
    doubleCovariantInverse (doubleCovariant f map inv) map inv = f ∧
      doubleCovariant (doubleCovariantInverse f map inv) map inv = f := by
  obtain ⟨B, c, h', hAB, hBA⟩ := h.symm
  exact ⟨doubleCovariant_undone_aux h h'.map_eq hBA f,
    doubleCovariant_undone_aux h' h.map_eq hAB f⟩

theorem doubleContravariant_undone_aux {B : Matrix (Fin n) (Fin n) K} {c : Fin n → K}
    (h : AffinePair map inv A b) (hinv : inv = affine B c) (hBA : B * A = 1) (f : MFun n K) :
    doubleContravariant (doubleContravariant f map inv) inv map = f := by
  have e1 : divDet (jacobian map) = (A.det⁻¹ • A).map C := by
    rw [h.map_eq, jacobian_affine, divDet_map]
  have e2 : divDet (jacobian inv) = (B.det⁻¹ • B).map C := by
    rw [hinv, jacobian_affine, divDet_map]
  unfold doubleContravariant
  rw [e1, e2, trC, trC, subM_mul, subM_subM h]
  have := sandwich (contra_mul hBA) f
  rwa [trC, trC] at this

theorem doubleContravariant_undone (h : AffinePair map inv A b) (f : MFun n K) :
    doubleContravariantInverse (doubleContravariant f map inv) map inv = f ∧
      doubleContravariant (doubleContravariantInverse f map inv) map inv = f := by
  obtain ⟨B, c, h', hAB, hBA⟩ := h.symm
  exact ⟨doubleContravariant_undone_aux h h'.map_eq hBA f,
    doubleContravariant_undone_aux h' h.map_eq hAB f⟩

/-- A reflected, sheared and translated cell: the hypotheses can be met. -/
example : AffinePair (K := ℚ) (n := 2) (affine !![0, 2; 1, 3] ![5, 7])
    (affine !![-3/2, 1; 1/2, 0] ![1/2, -5/2]) !![0, 2; 1, 3] ![5, 7] where
  map_eq := rfl
  inv_affine := ⟨_, _, rfl⟩
  right_inv := by
    have e : (!![0, 2; 1, 3] : Matrix (Fin 2) (Fin 2) ℚ) * !![-3/2, 1; 1/2, 0] = 1 := by
      ext i j; fin_cases i <;> fin_cases j <;> norm_num [Matrix.mul_apply, Fin.sum_univ_two]
    have e2 : (fun i => ((!![0, 2; 1, 3] : Matrix (Fin 2) (Fin 2) ℚ) *ᵥ ![1/2, -5/2]) i +
        (![5, 7] : Fin 2 → ℚ) i) = fun _ => 0 := by
      funext i; fin_cases i <;> norm_num [Matrix.mulVec, dotProduct, Fin.sum_univ_two]
    intro i
    rw [bind_affine, e, e2, affine_one]

/-! ### Values of the mapped functions at physical points -/

theorem eval_subV (h : AffinePair map inv A b) (f : VFun n K) (p : Fin n → K) :
    (fun i => eval (A *ᵥ p + b) (subV true inv f i)) = fun i => eval p (f i) := by
  funext i; simp [subV, sub, h.eval_bind]

theorem eval_covariant (h : AffinePair map inv A b) {B : Matrix (Fin n) (Fin n) K}
    {c : Fin n → K} (hinv : inv = affine B c) (f : VFun n K) (p : Fin n → K) :
    (fun i => eval (A *ᵥ p + b) ((covariant f map inv) i)) = Bᵀ *ᵥ fun i => eval p (f i) := by
  unfold covariant
  rw [hinv, jInv_affine, eval_map_mulVec, ← hinv, eval_subV h]

theorem eval_contravariant (h : AffinePair map inv A b) (f : VFun n K) (p : Fin n → K) :
    (fun i => eval (A *ᵥ p + b) ((contravariant f map inv) i)) =
      (A.det⁻¹ • A) *ᵥ fun i => eval p (f i) := by
  unfold contravariant
  rw [h.map_eq, jacobian_affine, divDet_map, eval_map_mulVec, eval_subV h]

/-! ### C17: the inverse-transpose mappings preserve the pairing -/

theorem identity_pairing (h : AffinePair map inv A b) (f g : SFun n K) (p : Fin n → K) :
    eval (A *ᵥ p + b) (identity f map inv) *
      eval (A *ᵥ p + b) (identityInverseTranspose g map inv) = eval p f * eval p g := by
  simp [identity, identityInverseTranspose, sub, h.eval_bind]

theorem l2_pairing (h : AffinePair map inv A b) (f g : SFun n K) (p : Fin n → K) :
    eval (A *ᵥ p + b) (l2 f map inv) * eval (A *ᵥ p + b) (l2InverseTranspose g map inv) =
      eval p f * eval p g := by
  obtain ⟨B, c, -, hAB, -⟩ := h.coeffs
  have hd : A.det ≠ 0 := by
    intro h0
    have : A.det * B.det = 1 := by rw [← Matrix.det_mul, hAB, Matrix.det_one]
    rw [h0, zero_mul] at this; exact zero_ne_one this
  have hd' : |A.det| ≠ 0 := abs_ne_zero.2 hd
  have e : detValue (jacobian map) = A.det := by rw [h.map_eq, jacobian_affine, detValue_map]
  simp only [l2, l2InverseTranspose, sub, if_true, map_mul, eval_C, h.eval_bind, e]
  field_simp

theorem covariant_pairing (h : AffinePair map inv A b) (f g : VFun n K) (p : Fin n → K) :
    ∑ i, eval (A *ᵥ p + b) ((covariant f map inv) i) *
      eval (A *ᵥ p + b) ((covariantInverseTranspose g map inv) i) =
      ∑ i, eval p (f i) * eval p (g i) := by
  obtain ⟨B, c, hB, hAB, hBA, -, -⟩ := h.coeffs
  have e2 : (fun i => eval (A *ᵥ p + b) ((covariantInverseTranspose g map inv) i)) =
      A *ᵥ fun i => eval p (g i) := by
    unfold covariantInverseTranspose
    rw [h.map_eq, jacobian_affine, eval_map_mulVec, eval_subV h]
  change (fun i => eval (A *ᵥ p + b) ((covariant f map inv) i)) ⬝ᵥ
    (fun i => eval (A *ᵥ p + b) ((covariantInverseTranspose g map inv) i)) =
      (fun i => eval p (f i)) ⬝ᵥ fun i => eval p (g i)
  rw [e2, eval_covariant h hB, Matrix.mulVec_transpose, Matrix.dotProduct_mulVec,
    Matrix.vecMul_vecMul, hBA, Matrix.vecMul_one]

theorem contravariant_pairing (h : AffinePair map inv A b) (f g : VFun n K) (p : Fin n → K) :
    ∑ i, eval (A *ᵥ p + b) ((contravariant f map inv) i) *
      eval (A *ᵥ p + b) ((contravariantInverseTranspose g map inv) i) =
      ∑ i, eval p (f i) * eval p (g i) := by
  obtain ⟨B, c, hB, hAB, hBA, -, -⟩ := h.coeffs
  have hd : B.det * A.det = 1 := by rw [← Matrix.det_mul, hBA, Matrix.det_one]
  have e2 : (fun i => eval (A *ᵥ p + b) ((contravariantInverseTranspose g map inv) i)) =
      (Bᵀ.det⁻¹ • Bᵀ) *ᵥ fun i => eval p (g i) := by
    unfold contravariantInverseTranspose
    rw [hB, jInv_affine, divDet_map, eval_map_mulVec, ← hB, eval_subV h]
  change (fun i => eval (A *ᵥ p + b) ((contravariant f map inv) i)) ⬝ᵥ
    (fun i => eval (A *ᵥ p + b) ((contravariantInverseTranspose g map inv) i)) =
      (fun i => eval p (f i)) ⬝ᵥ fun i => eval p (g i)
  rw [e2, eval_contravariant h, dotProduct_comm, ← Matrix.transpose_smul, Matrix.mulVec_transpose,
    Matrix.dotProduct_mulVec, Matrix.vecMul_vecMul, Matrix.det_transpose, contra_mul hBA,
    Matrix.vecMul_one, dotProduct_comm]

/-! ### C18: what the mappings preserve -/

/-- The component along a mapped edge vector. -/
theorem covariant_tangential (h : AffinePair map inv A b) (f : VFun n K) (p t : Fin n → K) :
    ∑ i, eval (A *ᵥ p + b) ((covariant f map inv) i) * (A *ᵥ t) i = ∑ i, eval p (f i) * t i := by
  obtain ⟨B, c, hB, hAB, hBA, -, -⟩ := h.coeffs
  change (fun i => eval (A *ᵥ p + b) ((covariant f map inv) i)) ⬝ᵥ (A *ᵥ t) =
      (fun i => eval p (f i)) ⬝ᵥ t
  rw [eval_covariant h hB, Matrix.mulVec_transpose, Matrix.dotProduct_mulVec,
    Matrix.vecMul_vecMul, hBA, Matrix.vecMul_one]

/-- The flux through a mapped facet.  `T` has the facet's tangents in all columns but column `k`;
the determinant with the vector in column `k` is the vector dotted with the facet's (unnormalised)
normal. -/
theorem contravariant_flux (h : AffinePair map inv A b) (f : VFun n K) (p : Fin n → K)
    (T : Matrix (Fin n) (Fin n) K) (k : Fin n) :
    ((A * T).updateCol k fun i => eval (A *ᵥ p + b) ((contravariant f map inv) i)).det =
      (T.updateCol k fun i => eval p (f i)).det := by
  obtain ⟨B, c, -, hAB, -⟩ := h.coeffs
  have hd : A.det ≠ 0 := by
    intro h0
    have : A.det * B.det = 1 := by rw [← Matrix.det_mul, hAB, Matrix.det_one]
    rw [h0, zero_mul] at this; exact zero_ne_one this
  rw [eval_contravariant h, Matrix.smul_mulVec, Matrix.det_updateCol_smul]
  have : (A * T).updateCol k (A *ᵥ fun i => eval p (f i)) =
      A * T.updateCol k fun i => eval p (f i) := by
    ext i j
    by_cases hj : j = k
    · subst hj
      simp [Matrix.mul_apply, Matrix.mulVec, dotProduct]
    · simp [Matrix.mul_apply, Matrix.updateCol_ne hj]
  rw [this, Matrix.det_mul, ← mul_assoc, inv_mul_cancel₀ hd, one_mul]

/-- The tangent-tangent components of a double covariant mapping. -/
theorem doubleCovariant_tangential (h : AffinePair map inv A b) (f : MFun n K)
    (p s t : Fin n → K) :
    ∑ i, ∑ j, (A *ᵥ s) i * eval (A *ᵥ p + b) ((doubleCovariant f map inv) i j) * (A *ᵥ t) j =
      ∑ i, ∑ j, s i * eval p (f i j) * t j := by
  obtain ⟨B, c, hB, hAB, hBA, -, -⟩ := h.coeffs
  have e : (doubleCovariant f map inv).map (eval (A *ᵥ p + b)) = Bᵀ * f.map (eval p) * B := by
    unfold doubleCovariant
    rw [hB, jInv_affine, trC, Matrix.transpose_transpose, eval_map_mul, ← hB]
    congr 2
    ext i j; simp [subM, sub, h.eval_bind]
  have key : ∀ (u v : Fin n → K) (M : Matrix (Fin n) (Fin n) K),
      ∑ i, ∑ j, u i * M i j * v j = u ⬝ᵥ (M *ᵥ v) := by
    intro u v M
    simp [dotProduct, Matrix.mulVec, Finset.mul_sum, mul_assoc]
  have k1 := key (A *ᵥ s) (A *ᵥ t) ((doubleCovariant f map inv).map (eval (A *ᵥ p + b)))
  have k2 := key s t (f.map (eval p))
  simp only [Matrix.map_apply] at k1 k2
  rw [k1, k2, e, Matrix.mulVec_mulVec, Matrix.mul_assoc, hBA, Matrix.mul_one,
    ← Matrix.mulVec_mulVec, Matrix.dotProduct_mulVec, Matrix.vecMul_transpose,
    Matrix.mulVec_mulVec, hBA, Matrix.one_mulVec]

/-- The normal-normal components of a double contravariant mapping: `ν` is a covector on the
physical cell and `A^T ν / det A` the corresponding one on the reference cell (Nanson's formula,
reference to physical normals). -/
theorem doubleContravariant_normal (h : AffinePair map inv A b) (f : MFun n K)
    (p μ ν : Fin n → K) :
    ∑ i, ∑ j, μ i * eval (A *ᵥ p + b) ((doubleContravariant f map inv) i j) * ν j =
      ∑ i, ∑ j, ((A.det)⁻¹ * (Aᵀ *ᵥ μ) i) * eval p (f i j) * ((A.det)⁻¹ * (Aᵀ *ᵥ ν) j) := by
  have e : (doubleContravariant f map inv).map (eval (A *ᵥ p + b)) =
      (A.det⁻¹ • A) * f.map (eval p) * (A.det⁻¹ • A)ᵀ := by
    unfold doubleContravariant
    rw [h.map_eq, jacobian_affine, divDet_map, trC, eval_map_mul]
    congr 2
    ext i j; simp [subM, sub, h.eval_bind]
  have key : ∀ (u v : Fin n → K) (M : Matrix (Fin n) (Fin n) K),
      ∑ i, ∑ j, u i * M i j * v j = u ⬝ᵥ (M *ᵥ v) := by
    intro u v M
    simp [dotProduct, Matrix.mulVec, Finset.mul_sum, mul_assoc]
  have k1 := key μ ν ((doubleContravariant f map inv).map (eval (A *ᵥ p + b)))
  have k2 := key (A.det⁻¹ • (Aᵀ *ᵥ μ)) (A.det⁻¹ • (Aᵀ *ᵥ ν)) (f.map (eval p))
  simp only [Matrix.map_apply, Pi.smul_apply, smul_eq_mul] at k1 k2
  rw [k1, k2, e, Matrix.transpose_smul, Matrix.mul_assoc, ← Matrix.mulVec_mulVec,
    ← Matrix.mulVec_mulVec, Matrix.dotProduct_mulVec, ← Matrix.mulVec_transpose,
    Matrix.transpose_smul, Matrix.smul_mulVec, Matrix.smul_mulVec]

/-! ### C19: commuting with the differential operators -/

/-- The gradient of the mapped function is the covariant mapping of the gradient.  This holds for
*every* substitution, not only affine ones. -/
theorem grad_identity (map inv : VFun n K) (f : SFun n K) :
    gradS (identity f map inv) = covariant (gradS f) map inv := by
  funext j
  simp [gradS, identity, covariant, sub, subV, jInv, Matrix.mulVec, dotProduct, pderiv_bind,
    mul_comm]

/-- The divergence of a contravariantly mapped field. -/
theorem div_contravariant (h : AffinePair map inv A b) (v : VFun n K) :
    divS (contravariant v map inv) = C (A.det)⁻¹ * identity (divS v) map inv := by
  obtain ⟨B, c, hB, hAB, hBA, -, -⟩ := h.coeffs
  have e1 : divDet (jacobian map) = (A.det⁻¹ • A).map C := by
    rw [h.map_eq, jacobian_affine, divDet_map]
  unfold contravariant divS identity
  rw [e1]
  simp only [Matrix.mulVec, dotProduct, subV, sub, if_true, Matrix.map_apply, Matrix.smul_apply,
    smul_eq_mul, map_sum, pderiv_C_mul, pderiv_bind]
  simp only [C_mul]
  have hp : ∀ i j : Fin n, pderiv j (inv i) = C (B i j) := by
    intro i j; rw [hB, pderiv_affine]
  simp only [hp]
  rw [Finset.mul_sum, Finset.sum_comm]
  apply Finset.sum_congr rfl
  intro i _
  -- `∑ j, d⁻¹ A j i * ∑ k, (∂_k v_i)∘inv * B k j`
  have : ∀ k, ∑ j, (C (B k j) * C (A j i) : MvPolynomial (Fin n) K) =
      C ((1 : Matrix (Fin n) (Fin n) K) k i) := by
    intro k
    rw [← hBA, Matrix.mul_apply, map_sum]; simp
  calc ∑ j, C A.det⁻¹ * C (A j i) * ∑ k, bind₁ inv (pderiv k (v i)) * C (B k j)
      = C A.det⁻¹ * ∑ k, bind₁ inv (pderiv k (v i)) * ∑ j, C (B k j) * C (A j i) := by
        simp only [Finset.mul_sum]
        rw [Finset.sum_comm]
        apply Finset.sum_congr rfl; intro k _
        apply Finset.sum_congr rfl; intro j _
        ring
    _ = C A.det⁻¹ * bind₁ inv (pderiv i (v i)) := by
        congr 1
        simp only [this]
        rw [Finset.sum_eq_single i]
        · simp
        · intro k _ hk; rw [Matrix.one_apply_ne hk]; simp
        · intro h; exact absurd (Finset.mem_univ i) h

/-- For positively oriented maps the divergence of the contravariant mapping is the L2 mapping of
the divergence. -/
theorem div_contravariant_l2 (h : AffinePair map inv A b) (hpos : 0 < A.det) (v : VFun n K) :
    divS (contravariant v map inv) = l2 (divS v) map inv := by
  rw [div_contravariant h, l2, h.map_eq, jacobian_affine, detValue_map, abs_of_pos hpos]
  rfl

/-- In three dimensions the curl of a covariantly mapped field is the contravariant mapping of the
curl. -/
theorem curl_covariant {map inv : VFun 3 K} {A : Matrix (Fin 3) (Fin 3) K} {b : Fin 3 → K}
    (h : AffinePair map inv A b) (v : VFun 3 K) :
    curlS (covariant v map inv) = contravariant (curlS v) map inv := by
  obtain ⟨B, c, hB, hAB, hBA, -, -⟩ := h.coeffs
  have hd : A.det ≠ 0 := by
    intro h0
    have : A.det * B.det = 1 := by rw [← Matrix.det_mul, hAB, Matrix.det_one]
    rw [h0, zero_mul] at this; exact zero_ne_one this
  have hdB : A.det⁻¹ = B.det := by
    have : A.det * B.det = 1 := by rw [← Matrix.det_mul, hAB, Matrix.det_one]
    field_simp; linarith
  -- the scaled Jacobian is the adjugate of the inverse's Jacobian
  have hadj : A.det⁻¹ • A = B.adjugate := by
    rw [hdB]
    calc B.det • A = B.det • (1 * A) := by rw [Matrix.one_mul]
      _ = (B.adjugate * B) * A := by rw [Matrix.adjugate_mul, Matrix.smul_mul]
      _ = B.adjugate := by rw [Matrix.mul_assoc, hBA, Matrix.mul_one]
  have e1 : divDet (jacobian map) = B.adjugate.map C := by
    rw [h.map_eq, jacobian_affine, divDet_map, hadj]
  have e2 : jInv inv = Bᵀ.map C := by rw [hB, jInv_affine]
  have hp : ∀ i j : Fin 3, pderiv j (inv i) = C (B i j) := by
    intro i j; rw [hB, pderiv_affine]
  unfold contravariant covariant
  rw [e1, e2, Matrix.adjugate_fin_three]
  funext i
  fin_cases i <;>
  · simp only [curlS, Matrix.mulVec, dotProduct, Fin.sum_univ_three, subV, sub, if_true]
    simp [pderiv_bind, hp, Fin.sum_univ_three]
    ring

/-- Applying the map without substituting and substituting afterwards is the same. -/
theorem contravariant_substitute (h : AffinePair map inv A b) (f : VFun n K) :
    contravariant f map inv = fun i => bind₁ inv ((contravariant f map inv false) i) := by
  have e1 : divDet (jacobian map) = (A.det⁻¹ • A).map C := by
    rw [h.map_eq, jacobian_affine, divDet_map]
  unfold contravariant
  rw [e1]
  funext i
  simp [subV, sub, Matrix.mulVec, dotProduct]

/-! ### C20: `get_mapping` -/

/-- The documented mappings: base names, and which variants exist. -/
def documented (base : String) (inverse transpose : Bool) : Bool :=
  match inverse, transpose with
  | false, false | true, false =>
    base ∈ ["identity", "l2", "covariant", "contravariant", "double_covariant",
      "double_contravariant"]
  | true, true => base ∈ ["identity", "l2", "covariant", "contravariant"]
  | false, true => false

/-- The name under which a mapping is documented. -/
def docName (base : String) (inverse transpose : Bool) : String :=
  base ++ (if inverse then "_inverse" else "") ++ (if transpose then "_transpose" else "")

/-- Every documented mapping is found, and it is the right one. -/
theorem getMapping_documented (base : String) (inverse transpose : Bool)
    (h : documented base inverse transpose = true) :
    getMapping base inverse transpose = some (.mapping base inverse transpose) := by
  cases inverse <;> cases transpose <;> simp [documented] at h
  · rcases h with h | h | h | h | h | h <;> subst h <;> decide
  · rcases h with h | h | h | h | h | h <;> subst h <;> decide
  · rcases h with h | h | h | h <;> subst h <;> decide

example : documented "covariant" true true = true := by decide

theorem lookup_mem {α β : Type} [BEq α] [LawfulBEq α] (l : List (α × β)) (a : α) (b : β)
    (h : l.lookup a = some b) : (a, b) ∈ l := by
  induction l with
  | nil => simp at h
  | cons p t ih =>
    obtain ⟨k, w⟩ := p
    rw [List.lookup_cons] at h
    by_cases hk : a == k
    · rw [hk] at h; simp only [Option.some.injEq] at h
      rw [eq_of_beq hk, h]; exact List.mem_cons_self
    · simp only [Bool.not_eq_true] at hk
      rw [hk] at h; exact List.mem_cons_of_mem _ (ih h)

/-- If `get_mapping` returns a mapping, for any strings and flags, then it is a documented one, and
the name asked for (with the suffixes of the flags) is its documented name. -/
theorem getMapping_returns (name : String) (inverse transpose : Bool) (b : String)
    (i t : Bool) (h : getMapping name inverse transpose = some (.mapping b i t)) :
    documented b i t = true ∧ docName name inverse transpose = docName b i t := by
  have hn : (if transpose then (if inverse then name ++ "_inverse" else name) ++ "_transpose"
      else (if inverse then name ++ "_inverse" else name)) = docName name inverse transpose := by
    cases inverse <;> cases transpose <;> simp [docName]
  have h1 := lookup_mem _ _ _ h
  rw [hn] at h1
  generalize docName name inverse transpose = s at h1
  simp only [globalsTable, List.mem_append, List.mem_cons, Prod.mk.injEq, Global.mapping.injEq,
    List.not_mem_nil, or_false, List.mem_map, reduceCtorEq, and_false, exists_false] at h1
  rcases h1 with h | h | h | h | h | h | h | h | h | h | h | h | h | h | h | h <;>
  · obtain ⟨rfl, rfl, rfl, rfl⟩ := h
    decide

/-- `get_mapping` raises exactly when the module has no such name.  The property asks for more: it
should raise whenever there is no such *mapping*; see `getMapping_not_a_mapping`. -/
theorem getMapping_dispatch_partial (name : String) (inverse transpose : Bool) :
    (∃ b i t, getMapping name inverse transpose = some (.mapping b i t)) ∨
    (∃ s, getMapping name inverse transpose = some (.other s) ∧
      s = docName name inverse transpose) ∨
    getMapping name inverse transpose = none := by
  have hn : (if transpose then (if inverse then name ++ "_inverse" else name) ++ "_transpose"
      else (if inverse then name ++ "_inverse" else name)) = docName name inverse transpose := by
    cases inverse <;> cases transpose <;> simp [docName]
  rcases hg : getMapping name inverse transpose with _ | g
  · exact Or.inr (Or.inr rfl)
  · rcases g with ⟨b, i, t⟩ | s
    · exact Or.inl ⟨b, i, t, rfl⟩
    · refine Or.inr (Or.inl ⟨s, rfl, ?_⟩)
      have h1 := lookup_mem _ _ _ hg
      rw [hn] at h1
      simp only [globalsTable, List.mem_append, List.mem_map, Prod.mk.injEq] at h1
      rcases h1 with h1 | ⟨s', -, h1, h2⟩
      · simp at h1
      · rw [← h1]; exact (Global.other.inj h2).symm

/-- The plain transpose of a mapping does not exist: asking for it raises. -/
theorem getMapping_transpose_raises (base : String)
    (h : documented base false false = true) : getMapping base false true = none := by
  simp [documented] at h
  rcases h with h | h | h | h | h | h <;> subst h <;> decide

/-- The full property is false: there is no mapping called `x`, and `get_mapping("x")` does not
raise, it returns the tuple of coordinate symbols. -/
theorem getMapping_not_a_mapping : getMapping "x" false false = some (.other "x") := by decide

end Verif.Mappings
