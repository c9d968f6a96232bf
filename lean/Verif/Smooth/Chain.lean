import Verif.Smooth.Jet
import Mathlib.Algebra.MvPolynomial.Supported
/-!
# The chain rule
-/

namespace Verif.Smooth
open Verif.References Verif.Moments Verif.Functionals Verif.Elements Verif.FiniteElement Verif.Polysets Verif.Orthogonal
open Verif.Families Verif.Scalar
open MvPolynomial

theorem pderiv_aeval {d : ℕ} {k : ℤ} {f : MvPolynomial ℕ ℝ} (hf : f ∈ P d k) (g : ℕ → MvPolynomial ℕ ℝ) (j : ℕ) :
    pderiv j (aeval g f) = ∑ i ∈ Finset.range d, aeval g (pderiv i f) * pderiv j (g i) := by
  have hs : f ∈ Algebra.adjoin ℝ (X '' {i : ℕ | i < d} : Set (MvPolynomial ℕ ℝ)) := by
    have : f ∈ supported ℝ {i : ℕ | i < d} := by
      rw [mem_supported]
      intro i hi
      exact (mem_P_iff.1 hf).2 i hi
    exact this
  clear hf
  induction hs using Algebra.adjoin_induction with
  | mem x hx =>
    obtain ⟨i, hi, rfl⟩ := hx
    have hi' : i < d := hi
    rw [aeval_X, Finset.sum_eq_single i]
    · rw [pderiv_X_self, map_one, one_mul]
    · intro l _ hl
      rw [pderiv_X_of_ne (Ne.symm hl), map_zero, zero_mul]
    · intro h
      exact absurd (Finset.mem_range.2 hi') h
  | algebraMap r => simp
  | add x y _ _ hx hy =>
    simp only [map_add, hx, hy, add_mul, Finset.sum_add_distrib]
  | mul x y _ _ hx hy =>
    rw [map_mul, Derivation.leibniz, hx, hy, smul_eq_mul, smul_eq_mul, Finset.mul_sum, Finset.mul_sum, ← Finset.sum_add_distrib]
    refine Finset.sum_congr rfl fun i _ => ?_
    rw [Derivation.leibniz, smul_eq_mul, smul_eq_mul, map_add, map_mul, map_mul]
    ring

theorem pderiv_mem {d : ℕ} {k : ℤ} {f : MvPolynomial ℕ ℝ} (hf : f ∈ P d k) (j : ℕ) : pderiv j f ∈ P d (k - 1) := by
  rw [mem_P] at hf ⊢
  intro s hs
  have h : coeff (s + Finsupp.single j 1) f ≠ 0 := by
    intro h
    rw [mem_support_iff, coeff_pderiv, h, zero_mul] at hs
    exact hs rfl
  obtain ⟨h1, h2⟩ := hf _ (mem_support_iff.2 h)
  constructor
  · rw [map_add, Finsupp.degree_single] at h1
    push_cast at h1
    omega
  · intro i hi
    refine h2 i (Finsupp.mem_support_iff.2 ?_)
    rw [Finsupp.add_apply]
    have := Finsupp.mem_support_iff.1 hi
    omega

theorem pderiv_coordPoly (D : Domain) (i j : ℕ) (hj : j < D.cell.tdim) : pderiv j (coordPoly D i) = C (axis D.cell D.v j i) := by
  rw [coordPoly, map_add, pderiv_C, zero_add, map_sum, Finset.sum_eq_single ⟨j, hj⟩]
  · rw [Derivation.leibniz, pderiv_C, smul_zero, add_zero]
    simp
  · intro k _ hk
    have : k.val ≠ j := fun h => hk (Fin.ext h)
    rw [Derivation.leibniz, pderiv_C, pderiv_X_of_ne this]
    simp
  · intro h
    exact absurd (Finset.mem_univ _) h

/-- The derivatives of the restriction to a domain. -/
theorem pderiv_pull {d : ℕ} {k : ℤ} {f : MvPolynomial ℕ ℝ} (hf : f ∈ P d k) (D : Domain) {j : ℕ} (hj : j < D.cell.tdim) :
    pderiv j (pull D f) = ∑ i ∈ Finset.range d, C (axis D.cell D.v j i) * pull D (pderiv i f) := by
  rw [pull, pderiv_aeval hf]
  exact Finset.sum_congr rfl fun i _ => by rw [pderiv_coordPoly D i j hj, mul_comm]; rfl

end Verif.Smooth
