import Verif.Matrices.AwFour
import Verif.Degrees.Further
import Verif.Matrices.AwLabel
/-!
# Degrees of the Arnold–Winther elements
-/

namespace Verif.Degrees
open Verif.References Verif.Elements Verif.FiniteElement Verif.Polysets Verif.Moments
open Verif.Families Verif.Scalar Verif.Matrices
open MvPolynomial

/-- `ArnoldWinther` and `NonConformingArnoldWinther` (symfem/elements/aw.py:135-149, 236-250). -/
def declAW (k : ℕ) : Declared := ⟨(k : ℤ) - 1, k, (k : ℤ) - 1, k⟩

theorem symP_mono : Monotone (symP 2) := fun _ _ h _ hu => ⟨hu.1, fun i j => P_mono h (hu.2 i j)⟩

/-- Every order. -/
theorem degrees_AW {k : ℕ} (hk : 1 ≤ k) : HasDegrees (symP 2) (symP 2) (AwSpace k) (declAW k) := by
  have hz : ∀ n : ℤ, (0 : MvPolynomial ℕ ℝ) ∈ P 2 n := fun n => Submodule.zero_mem _
  have hp : (X 0 ^ k : MvPolynomial ℕ ℝ) ∈ P 2 k := X_pow_mem (by omega) le_rfl
  have h1 : IsGreatest {n | ∀ v ∈ symP 2 n, AwSpace k v} ((k : ℤ) - 1) := by
    refine greatest_of symP_mono (fun v hv => low_mem hk ?_) (symMat (X 0 ^ k) 0 0) ?_ fun h => ?_
    · rw [show ((k : ℤ) - 1) = ((k - 1 : ℕ) : ℤ) by omega] at hv
      exact hv
    · rw [sub_add_cancel]
      exact ⟨symMat_sym _ _ _, symMat_mem hp (hz _) (hz _)⟩
    · have h0 := h.2 0
      have e : rowDiv (symMat (X 0 ^ k) 0 0) 0 = (k : ℝ) • X 0 ^ (k - 1) := by
        rw [smul_eq_C_mul]
        simp [rowDiv, symMat]
      rw [e, Submodule.smul_mem_iff _ (by positivity)] at h0
      exact X_pow_notMem (by omega) h0
  have h2 : IsLeast {n | ∀ v, AwSpace k v → v ∈ symP 2 n} (k : ℤ) := by
    refine least_of symP_mono (fun v hv => hv.1) (symMat 0 0 (X 0 ^ k)) ⟨⟨symMat_sym _ _ _, symMat_mem (hz _) (hz _) hp⟩, fun i => ?_⟩ fun h => ?_
    · have : rowDiv (symMat 0 0 (X 0 ^ k)) i = 0 := by
        fin_cases i
        · simp [rowDiv, symMat]
        · simp [rowDiv, symMat, pderiv_X, Pi.single_apply]
      rw [this]
      exact hz _
    · exact X_pow_notMem (by omega) (h.2 1 1)
  exact ⟨h1, h2, h1, h2⟩

theorem degrees_NcAW : HasDegrees (symP 2) (symP 2) NcSpace (declAW 2) := by
  have hz : ∀ n : ℤ, (0 : MvPolynomial ℕ ℝ) ∈ P 2 n := fun n => Submodule.zero_mem _
  have h1 : IsGreatest {n | ∀ v ∈ symP 2 n, NcSpace v} (((2 : ℕ) : ℤ) - 1) := by
    refine greatest_of symP_mono (fun v hv => nc_low hv) (symMat (X 1 ^ 2) 0 0) ?_ fun h => ?_
    · exact ⟨symMat_sym _ _ _, symMat_mem (X_pow_mem (by omega) le_rfl) (hz _) (hz _)⟩
    · obtain ⟨a, b, hab⟩ := h.2 1 (by omega)
      have g0 := hab 0
      have g1 := hab 1
      have g2 := hab 2
      norm_num [edgeNormal, symMat, Fin.sum_univ_two, facetNormal, edgePoint, coords] at g0 g1 g2
      linarith
  have h2 : IsLeast {n | ∀ v, NcSpace v → v ∈ symP 2 n} ((2 : ℕ) : ℤ) := by
    refine least_of symP_mono (fun v hv => hv.1) (symMat (X 0 ^ 2) 0 (X 0 * X 1)) (ncTop_mem _ (by simp [ncTop])) fun h => ?_
    exact X_pow_notMem (by omega) (h.2 0 0)
  exact ⟨h1, h2, h1, h2⟩

/-- **C148**, **C149** The degrees of the Arnold–Winther element of order 3 and of the nonconforming element. -/
theorem aw_degrees : ElementDegrees (symP 2) (symP 2) (awElement "equispaced" 3) (declAW 3) ∧
    ElementDegrees (symP 2) (symP 2) (ncAwElement "equispaced") (declAW 2) :=
  ⟨of_created aw_created (degrees_AW (by omega)), of_created nc_aw_created degrees_NcAW⟩

/-- **C148** The degrees of the Arnold–Winther element of order 4. -/
theorem aw_degrees_four : ElementDegrees (symP 2) (symP 2) (awElement "equispaced" 4) (declAW 4) :=
  of_created aw_created_four (degrees_AW (by omega))

end Verif.Degrees
