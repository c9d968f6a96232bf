import Verif.Degrees.Basic
import Verif.Scalar.Tnt
/-!
# Declared degrees of the tiniest tensor product elements

C153.
-/

namespace Verif.Degrees
open Verif.References Verif.Elements Verif.FiniteElement Verif.Polysets
open Verif.Families Verif.Scalar
open MvPolynomial

/-- `TNT` (symfem/elements/tnt.py:133-147). -/
def declTnt (c : Cell) (k : ℕ) : Declared := ⟨k, k + 1, k + 1, max (k * c.tdim) (k + c.tdim)⟩

theorem mono_mem_Tnt {d k : ℕ} {t : ℕ →₀ ℕ} : monomial t (1 : ℝ) ∈ Tnt d k ↔ t ∈ tntExps d k := by
  rw [mem_Tnt]
  simp [support_monomial]

/-- The exponents `k + 1` of the first variable and 1 of the others. -/
noncomputable def spike (d k : ℕ) : ℕ →₀ ℕ := box d 1 + Finsupp.single 0 k

theorem spike_apply {d : ℕ} (k i : ℕ) : spike d k i = (if i < d then 1 else 0) + if i = 0 then k else 0 := by
  simp [spike, box_apply, Finsupp.single_apply, eq_comm]

theorem degrees_Tnt {d : ℕ} (hd : 2 ≤ d) {k : ℕ} (hk : 1 ≤ k) :
    HasDegrees (QP d) (P d) (· ∈ Tnt d k) ⟨k, k + 1, k + 1, max (k * d) (k + d)⟩ := by
  have hpos : 0 < d := by omega
  have hs : monomial (spike d k) (1 : ℝ) ∈ Tnt d k := by
    refine mono_mem_Tnt.2 ⟨fun i hi => ?_, Or.inr ⟨0, ?_, fun j hj => ?_⟩⟩
    · by_contra hn
      exact Finsupp.mem_support_iff.1 hi (by rw [spike_apply, if_neg hn, if_neg (by omega), add_zero])
    · rw [spike_apply, if_pos hpos, if_pos rfl, add_comm]
    · rw [spike_apply, if_neg hj]
      split_ifs <;> omega
  have hdeg : (spike d k).degree = d + k := by
    rw [spike, map_add, box_degree, Finsupp.degree_single, mul_one]
  refine HasDegrees.mk ?_ ?_ ?_ ?_
  · refine greatest_of (QP_monotone d) (fun v hv => QP_Tnt d k hv) (monomial (box d (k + 1)) 1) ((box_mem_QP hpos).2 (by push_cast; rfl)) fun h => ?_
    rcases (mono_mem_Tnt.1 h).2 with h | ⟨i, h1, h2⟩
    · have := h 0
      rw [box_apply, if_pos hpos] at this
      omega
    · obtain ⟨j, hj, hji⟩ : ∃ j < d, j ≠ i := by
        by_cases h0 : i = 0
        · exact ⟨1, by omega, by omega⟩
        · exact ⟨0, by omega, by omega⟩
      have := h2 j hji
      rw [box_apply, if_pos hj] at this
      omega
  · refine least_of (QP_monotone d) (fun v hv => Tnt_QP hv) _ hs fun h => ?_
    have := mono_mem_B.1 h 0
    rw [spike_apply, if_pos hpos, if_pos rfl, if_pos hpos] at this
    push_cast at this
    omega
  · refine greatest_of (P_monotone d) (fun v hv => mem_Tnt.2 fun t ht => ?_) (monomial (Finsupp.single 0 (k + 2)) 1)
      ((single_mem_P hpos (Or.inl (by omega))).2 (by push_cast; omega)) fun h => ?_
    · obtain ⟨h1, h2⟩ := mem_P.1 hv t ht
      refine ⟨h2, ?_⟩
      by_cases ha : ∀ i, t i ≤ k
      · exact Or.inl ha
      · right
        push Not at ha
        obtain ⟨i, hi⟩ := ha
        have hle : t i ≤ t.degree := Finsupp.le_degree i t
        have hti : t i = k + 1 := by omega
        refine ⟨i, hti, fun j hj => ?_⟩
        have h3 : t i + t j ≤ t.degree := by
          have h4 : t = Finsupp.single i (t i) + t.erase i := (Finsupp.single_add_erase i t).symm
          have h5 : (t.erase i) j ≤ (t.erase i).degree := Finsupp.le_degree j _
          rw [Finsupp.erase_ne hj] at h5
          have h6 : t.degree = t i + (t.erase i).degree := by
            conv_lhs => rw [h4]
            rw [map_add, Finsupp.degree_single]
          omega
        omega
    · rcases (mono_mem_Tnt.1 h).2 with h | ⟨i, h1, h2⟩
      · have := h 0
        simp at this
      · rw [Finsupp.single_apply] at h1
        split_ifs at h1 <;> omega
  · have hle : ∀ v ∈ Tnt d k, v ∈ P d (max (k * d) (k + d)) := by
      intro v hv
      refine mem_P.2 fun t ht => ?_
      obtain ⟨h1, h2⟩ := mem_Tnt.1 hv t ht
      refine ⟨?_, h1⟩
      have hsum : t.degree = ∑ i ∈ Finset.range d, t i := by
        rw [Finsupp.degree_apply]
        exact Finset.sum_subset (fun i hi => Finset.mem_range.2 (h1 i hi)) fun i _ hi => Finsupp.notMem_support_iff.1 hi
      rcases h2 with h2 | ⟨i, h3, h4⟩
      · refine le_max_of_le_left ?_
        have := Finset.sum_le_card_nsmul (Finset.range d) (fun i => t i) k fun i _ => h2 i
        rw [Finset.card_range, smul_eq_mul, ← hsum] at this
        calc (t.degree : ℤ) ≤ ((d * k : ℕ) : ℤ) := by exact_mod_cast this
          _ = k * d := by push_cast; ring
      · refine le_max_of_le_right ?_
        have hi : i < d := h1 i (Finsupp.mem_support_iff.2 (by omega))
        rw [hsum, ← Finset.add_sum_erase _ _ (Finset.mem_range.2 hi), h3]
        have := Finset.sum_le_card_nsmul ((Finset.range d).erase i) (fun i => t i) 1 fun j hj => h4 j (Finset.ne_of_mem_erase hj)
        rw [Finset.card_erase_of_mem (Finset.mem_range.2 hi), Finset.card_range, smul_eq_mul] at this
        push_cast
        have h5 : ((∑ x ∈ (Finset.range d).erase i, t x : ℕ) : ℤ) ≤ (((d - 1) * 1 : ℕ) : ℤ) := by exact_mod_cast this
        push_cast [Nat.cast_sub (show 1 ≤ d by omega)] at h5
        linarith
    rcases le_total ((k : ℤ) * d) (k + d) with h | h
    · refine least_of (P_monotone d) hle _ hs fun hn => ?_
      have := (mono_mem_P.1 hn).1
      rw [hdeg, max_eq_right h] at this
      push_cast at this
      omega
    · refine least_of (P_monotone d) hle (monomial (box d k) 1) (QP_Tnt d k ((box_mem_QP hpos).2 le_rfl)) fun hn => ?_
      have := box_mem_P.1 hn
      rw [max_eq_left h, mul_comm] at this
      omega

/-- **C153.** The declared degrees are those of the space. -/
theorem tnt_degrees {c : Cell} (hc : Box c) {k : ℕ} (hk : 1 ≤ k) : ElementDegrees (W c) (P c.tdim) (tntElement c k) (declTnt c k) := by
  have hW : W c = QP c.tdim := by rcases hc with rfl | rfl <;> rfl
  rw [hW]
  exact of_created (tnt_created hc hk) (degrees_Tnt (by rcases hc with rfl | rfl <;> decide) hk)

/-- The highest degree is that of a product of all variables for order 1 on a hexahedron, and that of `(x y z) ^ 2` for order 2. -/
example : (declTnt .hexahedron 1).polySuper = 4 ∧ (declTnt .hexahedron 2).polySuper = 6 := by
  decide

end Verif.Degrees
