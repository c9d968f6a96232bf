import Verif.Degrees.Further
import Verif.Families.Mtw
/-!
# Degrees of Mardal–Tai–Winther elements on triangles
-/

namespace Verif.Degrees
open Verif.References Verif.Elements Verif.FiniteElement Verif.Polysets Verif.Families Verif.Scalar
open MvPolynomial

/-- Mardal–Tai–Winther elements on triangles (symfem/elements/mtw.py:103-117). -/
def declMTW (k : ℕ) : Declared := ⟨1, (k : ℤ) + 2 - 2, 1, (k : ℤ) + 2 - 2⟩

/-- Affine fields are in the space. -/
theorem mtw_affine {v : Field 2} (hv : ∀ j, v j ∈ P 2 1) : MTW2 v := by
  refine ⟨fun j => P_mono (by norm_num) (hv j), ?_, fun i hi => ⟨∑ j, C (facetNormal i j.val) * v j, ?_, fun z _ => ?_⟩⟩
  · obtain ⟨a0, a1, a2, h0⟩ := P_one (hv 0)
    obtain ⟨b0, b1, b2, h1⟩ := P_one (hv 1)
    refine ⟨a1 + b2, ?_⟩
    rw [divL_apply, divergence, Fin.sum_univ_two, h0, h1]
    simp
  · refine Submodule.sum_mem _ fun j _ => ?_
    rw [← smul_eq_C_mul]
    exact Submodule.smul_mem _ _ (hv j)
  · simp

/-- **C140** The declared degrees. -/
theorem mtw_degrees : ElementDegrees (vec 2 (P 2)) (vec 2 (P 2)) (mtwTriangle "equispaced" 3) (declMTW 3) := by
  refine of_created mtw_created ?_
  have hp := vec_monotone 2 (P_monotone 2)
  have h1 : IsGreatest {n | ∀ v ∈ vec 2 (P 2) n, MTW2 v} (1 : ℤ) := by
    refine greatest_of hp (fun v hv => mtw_affine (mem_vec.1 hv)) (at' 0 (X 0 ^ 2)) (at_mem.2 (X_pow_mem (by omega) (by norm_num))) fun h => ?_
    obtain ⟨-, ⟨a, ha⟩, -⟩ := h
    have e0 := congrArg (eval (coords [0, 0])) ha
    have e1 := congrArg (eval (coords [1, 0])) ha
    rw [divL_apply, divergence, Fin.sum_univ_two] at e0 e1
    simp [at', coords, Derivation.leibniz_pow] at e0 e1
    linarith
  have h2 : IsLeast {n | ∀ v, MTW2 v → v ∈ vec 2 (P 2) n} (3 : ℤ) := by
    refine least_of hp (fun v hv => mem_vec.2 hv.1) (denoteVec ℝ 2 (mtwPolys.getD 7 [])) (mtw_mem _ (List.mem_map_of_mem (by simp [mtwPolys]))) fun h => ?_
    have h3 := mem_vec.1 h 0
    have h4 : denoteVec ℝ 2 (mtwPolys.getD 7 []) 0 = -X 0 ^ 3 + 2 * X 0 ^ 2 + 3 * X 0 * X 1 ^ 2 := by
      simp [mtwPolys, denoteVec, denotePoly, denoteMono, monoFrom]
      ring
    rw [h4] at h3
    obtain ⟨a, ha⟩ := P_two_two h3
    have e := fun x => congrArg (eval (coords [x, 0])) ha
    have e0 := e 0
    have e1 := e 1
    have e2 := e 2
    have e3 := e 3
    simp [coords] at e0 e1 e2 e3
    linarith
  exact ⟨h1, h2, h1, h2⟩

end Verif.Degrees
