import Verif.Degrees.Vector
import Verif.Families.TntCurl
/-!
# Declared degrees of the tiniest tensor product elements in H(div) and H(curl)

C154.
-/

namespace Verif.Degrees
open Verif.References Verif.Elements Verif.FiniteElement Verif.Polysets
open Verif.Families Verif.Scalar
open MvPolynomial

/-- `TNTcurl` and `TNTdiv` (symfem/elements/tnt.py:311-325, 482-496). -/
def declTntVector (c : Cell) (k : ℕ) : Declared := ⟨k, k + 1, k, k * c.tdim + 1⟩

theorem rot_vec {L : ℤ → Submodule ℝ (MvPolynomial ℕ ℝ)} {n : ℤ} {v : Families.Field 2} : rot v ∈ vec 2 L n ↔ v ∈ vec 2 L n := by
  rw [mem_vec, mem_vec, Fin.forall_fin_two, Fin.forall_fin_two, rot_zero, rot_one, Submodule.neg_mem_iff, and_comm]

/-- Turning fields does not change the degrees. -/
theorem degrees_turned {L P : ℤ → Submodule ℝ (MvPolynomial ℕ ℝ)} {S : Families.Field 2 → Prop} {D : Declared} (h : HasDegrees (vec 2 L) (vec 2 P) S D)
    (hS : ∀ v, S (-v) ↔ S v) : HasDegrees (vec 2 L) (vec 2 P) (fun v => S (Families.rot v)) D := by
  have h1 : ∀ (L : ℤ → Submodule ℝ (MvPolynomial ℕ ℝ)) n, (∀ v ∈ vec 2 L n, S (Families.rot v)) ↔ ∀ v ∈ vec 2 L n, S v := fun L n =>
    ⟨fun h v hv => by
      have := h (Families.rot v) (rot_vec.2 hv)
      rwa [rot_rot, hS] at this, fun h v hv => h _ (rot_vec.2 hv)⟩
  have h2 : ∀ (L : ℤ → Submodule ℝ (MvPolynomial ℕ ℝ)) n, (∀ v, S (Families.rot v) → v ∈ vec 2 L n) ↔ ∀ v, S v → v ∈ vec 2 L n := fun L n =>
    ⟨fun h v hv => rot_vec.1 (h (Families.rot v) (by rw [rot_rot, hS]; exact hv)), fun h v hv => rot_vec.1 (h _ hv)⟩
  simp only [HasDegrees, h1, h2]
  exact h

theorem degrees_TntDiv {k : ℕ} (hk : 1 ≤ k) : HasDegrees (vec 2 (QP 2)) (vec 2 (P 2)) (· ∈ TntDiv k) ⟨k, k + 1, k, k * 2 + 1⟩ := by
  have hp := vec_monotone 2 (P_monotone 2)
  have hq := vec_monotone 2 (QP_monotone 2)
  have hin : ∀ v, v ∈ vec 2 (QP 2) (k : ℤ) → v ∈ TntDiv k := fun v hv => QP_TntDiv (mem_vec.1 hv)
  have hout : at' (0 : Fin 2) (X 1 ^ (k + 1)) ∉ TntDiv k := fun h => by
    obtain ⟨q, hq, a, b, c, h0, -⟩ := mem_TntDiv.1 h
    rw [at_same] at h0
    have := congrArg (coeff (e2 0 (k + 1))) h0
    rw [coeff_add, coeff_add, coeff_C_mul, coeff_C_mul, (coeff_pow k _ _).1, (coeff_pow k _ _).2, (coeff_top k _ _).1,
      coeff_QP (hq 0) (Or.inr (by omega)), if_pos ⟨rfl, rfl⟩, if_neg (by omega), if_neg (by omega)] at this
    norm_num at this
  refine .mk (greatest_of hq hin _ (at_mem.2 (P_le_QP _ _ (X_pow_mem (by omega) (by push_cast; omega)))) hout)
    (least_of hq (fun v hv => mem_vec.2 fun i => B_mono (fun j => by unfold degs; split_ifs <;> omega) (TntDiv_RTQ hv i))
      (at' (0 : Fin 2) (X 0 ^ (k + 1))) ?_ fun h => ?_)
    (greatest_of hp (fun v hv => hin v (mem_vec.2 fun i => P_le_QP _ _ (mem_vec.1 hv i))) _ (at_mem.2 (X_pow_mem (by omega) (by push_cast; omega))) hout)
    (least_of hp (fun v hv => mem_vec.2 fun i => P_mono (by omega) (TntDiv_P hv i))
      ![X 0 ^ (k + 1) * legX k 1, legX k 0 * X 1 ^ (k + 1)] ?_ fun h => ?_)
  · refine mem_TntDiv.2 ⟨0, fun i => Submodule.zero_mem _, 1, 0, 0, ?_, ?_⟩
    · rw [at_same]; simp
    · rw [at_ne (by decide)]; simp
  · rw [at_mem, QP, X_pow_mem_B (fun i => by split_ifs <;> omega), if_pos (by omega)] at h
    push_cast at h
    omega
  · exact mem_TntDiv.2 ⟨0, fun i => Submodule.zero_mem _, 0, 0, 1, by simp, by simp⟩
  · have h0 := mem_vec.1 h 0
    have h1 : coeff (e2 (k + 1) k) (X 0 ^ (k + 1) * legX k 1 : MvPolynomial ℕ ℝ) ≠ 0 := by
      rw [(coeff_top k _ _).1, if_pos rfl]
      exact_mod_cast lead_legQ k
    have h2 := (mem_P.1 h0 _ (mem_support_iff.2 h1)).1
    rw [e2, map_add, Finsupp.degree_single, Finsupp.degree_single] at h2
    push_cast at h2
    omega

theorem degrees_TntCurl {k : ℕ} (hk : 1 ≤ k) : HasDegrees (vec 2 (QP 2)) (vec 2 (P 2)) (· ∈ TntCurl k) ⟨k, k + 1, k, k * 2 + 1⟩ := by
  have := degrees_turned (degrees_TntDiv hk) fun v => Submodule.neg_mem_iff _
  simp only [mem_TntCurl]
  exact this

/-- **C154.** The declared degrees of `TNTdiv` and `TNTcurl` are those of the spaces. -/
theorem tntVector_degrees {k : ℕ} (hk : 1 ≤ k) :
    ElementDegrees (vec 2 (W .quadrilateral)) (vec 2 (P 2)) (tntdiv "equispaced" k) (declTntVector .quadrilateral k) ∧
    ElementDegrees (vec 2 (W .quadrilateral)) (vec 2 (P 2)) (tntcurl "equispaced" k) (declTntVector .quadrilateral k) := by
  rw [W_eq_box (Or.inl rfl)]
  exact ⟨of_created (tntdiv_created hk) (degrees_TntDiv hk), of_created (tntcurl_created hk) (degrees_TntCurl hk)⟩

example : (declTntVector .quadrilateral 3).polySuper = 7 := by decide

end Verif.Degrees
