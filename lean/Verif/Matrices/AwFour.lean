import Verif.Matrices.AwLabel
/-!
# The Arnold–Winther element of order 4

The functionals of the element determine its functions.  C148.
-/

namespace Verif.Matrices
open Verif.References Verif.Moments Verif.Functionals Verif.Elements Verif.FiniteElement Verif.Polysets Verif.Orthogonal
open Verif.Families Verif.Scalar
open MvPolynomial

/-- Third differences of polynomials of degree two. -/
theorem third_differences {p : MvPolynomial ℕ ℝ} (hp : p ∈ P 2 2) :
    eval (coords [3, 0]) p - 3 * eval (coords [2, 0]) p + 3 * eval (coords [1, 0]) p - eval (coords [0, 0]) p = 0 ∧
    eval (coords [2, 1]) p - 2 * eval (coords [1, 1]) p + eval (coords [0, 1]) p - eval (coords [2, 0]) p + 2 * eval (coords [1, 0]) p - eval (coords [0, 0]) p = 0 ∧
    eval (coords [1, 2]) p - 2 * eval (coords [1, 1]) p + eval (coords [1, 0]) p - eval (coords [0, 2]) p + 2 * eval (coords [0, 1]) p - eval (coords [0, 0]) p = 0 ∧
    eval (coords [0, 3]) p - 3 * eval (coords [0, 2]) p + 3 * eval (coords [0, 1]) p - eval (coords [0, 0]) p = 0 := by
  obtain ⟨a, rfl⟩ := P_two_two hp
  simp only [map_add, map_mul, map_pow, eval_C, eval_X]
  norm_num [coords]
  refine ⟨by ring, by ring, by ring, by ring⟩

theorem integral_mul {p q r : MvPolynomial ℕ ℝ} (h : pairing1 .triangle p q = 0) (e : p * q = r) : pairing1 .triangle 1 r = 0 := by
  rw [← e]
  show cellInt .triangle (fun z => eval z (1 * (p * q))) = 0
  rw [one_mul]
  exact h

theorem airy_one : awAiry 1 0 0 = 2 * (X 0 ^ 2 * X 1 ^ 0) - 12 * (X 0 ^ 2 * X 1 ^ 1) + 12 * (X 0 ^ 2 * X 1 ^ 2) - 4 * (X 0 ^ 3 * X 1 ^ 0) + 12 * (X 0 ^ 3 * X 1 ^ 1) + 2 * (X 0 ^ 4 * X 1 ^ 0) ∧
    awAiry 1 0 1 = -4 * (X 0 ^ 1 * X 1 ^ 1) + 12 * (X 0 ^ 1 * X 1 ^ 2) - 8 * (X 0 ^ 1 * X 1 ^ 3) + 12 * (X 0 ^ 2 * X 1 ^ 1) - 18 * (X 0 ^ 2 * X 1 ^ 2) - 8 * (X 0 ^ 3 * X 1 ^ 1) ∧
    awAiry 1 1 0 = -4 * (X 0 ^ 1 * X 1 ^ 1) + 12 * (X 0 ^ 1 * X 1 ^ 2) - 8 * (X 0 ^ 1 * X 1 ^ 3) + 12 * (X 0 ^ 2 * X 1 ^ 1) - 18 * (X 0 ^ 2 * X 1 ^ 2) - 8 * (X 0 ^ 3 * X 1 ^ 1) ∧
    awAiry 1 1 1 = 2 * (X 0 ^ 0 * X 1 ^ 2) - 4 * (X 0 ^ 0 * X 1 ^ 3) + 2 * (X 0 ^ 0 * X 1 ^ 4) - 12 * (X 0 ^ 1 * X 1 ^ 2) + 12 * (X 0 ^ 1 * X 1 ^ 3) + 12 * (X 0 ^ 2 * X 1 ^ 2) := by
  refine ⟨?_, ?_, ?_, ?_⟩ <;>
  · have h2 : ∀ i, pderiv i (2 : MvPolynomial ℕ ℝ) = 0 := fun i => by rw [← map_ofNat C 2, pderiv_C]
    simp [h2, awAiry, Derivation.leibniz, Derivation.leibniz_pow, pderiv_X, Pi.single_apply]
    ring

theorem aw4_i00a (l f : ℕ → ℝ) : pairing1 .triangle 1 (X 0 * ((1 - (X 0 + X 1)) * (C (f 0) + C (f 1) * X 0 + C (f 2) * X 0 ^ 2 + C (f 3) * X 1 + C (f 4) * (X 0 * X 1) + C (f 5) * X 1 ^ 2) - X 1 * (C (l 0) + C (l 1) * X 0 + C (l 2) * X 0 ^ 2 + C (l 3) * X 1 + C (l 4) * (X 0 * X 1) + C (l 5) * X 1 ^ 2)) * 1) =
    -1/24 * l 0 - 1/60 * l 1 - 1/120 * l 2 - 1/60 * l 3 - 1/180 * l 4 - 1/120 * l 5 + 1/24 * f 0 + 1/60 * f 1 + 1/120 * f 2 + 1/120 * f 3 + 1/360 * f 4 + 1/360 * f 5 := by
  rw [show (X 0 * ((1 - (X 0 + X 1)) * (C (f 0) + C (f 1) * X 0 + C (f 2) * X 0 ^ 2 + C (f 3) * X 1 + C (f 4) * (X 0 * X 1) + C (f 5) * X 1 ^ 2) - X 1 * (C (l 0) + C (l 1) * X 0 + C (l 2) * X 0 ^ 2 + C (l 3) * X 1 + C (l 4) * (X 0 * X 1) + C (l 5) * X 1 ^ 2)) * 1 : MvPolynomial ℕ ℝ) =
    C (f 0) * (X 0 ^ 1 * X 1 ^ 0) + C (-f 0) * (X 0 ^ 1 * X 1 ^ 1) + C (f 3) * (X 0 ^ 1 * X 1 ^ 1) + C (-l 0) * (X 0 ^ 1 * X 1 ^ 1) + C (-f 3) * (X 0 ^ 1 * X 1 ^ 2) + C (f 5) * (X 0 ^ 1 * X 1 ^ 2) + C (-l 3) * (X 0 ^ 1 * X 1 ^ 2) + C (-f 5) * (X 0 ^ 1 * X 1 ^ 3) + C (-l 5) * (X 0 ^ 1 * X 1 ^ 3) + C (-f 0) * (X 0 ^ 2 * X 1 ^ 0) + C (f 1) * (X 0 ^ 2 * X 1 ^ 0) + C (-f 1) * (X 0 ^ 2 * X 1 ^ 1) + C (-f 3) * (X 0 ^ 2 * X 1 ^ 1) + C (f 4) * (X 0 ^ 2 * X 1 ^ 1) + C (-l 1) * (X 0 ^ 2 * X 1 ^ 1) + C (-f 4) * (X 0 ^ 2 * X 1 ^ 2) + C (-f 5) * (X 0 ^ 2 * X 1 ^ 2) + C (-l 4) * (X 0 ^ 2 * X 1 ^ 2) + C (-f 1) * (X 0 ^ 3 * X 1 ^ 0) + C (f 2) * (X 0 ^ 3 * X 1 ^ 0) + C (-f 2) * (X 0 ^ 3 * X 1 ^ 1) + C (-f 4) * (X 0 ^ 3 * X 1 ^ 1) + C (-l 2) * (X 0 ^ 3 * X 1 ^ 1) + C (-f 2) * (X 0 ^ 4 * X 1 ^ 0) by
      (try simp only [C_neg]); ring]
  simp only [map_add, integral_term]
  norm_num [Nat.factorial]
  ring

theorem aw4_i00b (l f : ℕ → ℝ) : pairing1 .triangle 1 (X 0 * ((1 - (X 0 + X 1)) * (C (f 0) + C (f 1) * X 0 + C (f 2) * X 0 ^ 2 + C (f 3) * X 1 + C (f 4) * (X 0 * X 1) + C (f 5) * X 1 ^ 2) - X 1 * (C (l 0) + C (l 1) * X 0 + C (l 2) * X 0 ^ 2 + C (l 3) * X 1 + C (l 4) * (X 0 * X 1) + C (l 5) * X 1 ^ 2)) * X 0) =
    -1/60 * l 0 - 1/120 * l 1 - 1/210 * l 2 - 1/180 * l 3 - 1/420 * l 4 - 1/420 * l 5 + 1/60 * f 0 + 1/120 * f 1 + 1/210 * f 2 + 1/360 * f 3 + 1/840 * f 4 + 1/1260 * f 5 := by
  rw [show (X 0 * ((1 - (X 0 + X 1)) * (C (f 0) + C (f 1) * X 0 + C (f 2) * X 0 ^ 2 + C (f 3) * X 1 + C (f 4) * (X 0 * X 1) + C (f 5) * X 1 ^ 2) - X 1 * (C (l 0) + C (l 1) * X 0 + C (l 2) * X 0 ^ 2 + C (l 3) * X 1 + C (l 4) * (X 0 * X 1) + C (l 5) * X 1 ^ 2)) * X 0 : MvPolynomial ℕ ℝ) =
    C (f 0) * (X 0 ^ 2 * X 1 ^ 0) + C (-f 0) * (X 0 ^ 2 * X 1 ^ 1) + C (f 3) * (X 0 ^ 2 * X 1 ^ 1) + C (-l 0) * (X 0 ^ 2 * X 1 ^ 1) + C (-f 3) * (X 0 ^ 2 * X 1 ^ 2) + C (f 5) * (X 0 ^ 2 * X 1 ^ 2) + C (-l 3) * (X 0 ^ 2 * X 1 ^ 2) + C (-f 5) * (X 0 ^ 2 * X 1 ^ 3) + C (-l 5) * (X 0 ^ 2 * X 1 ^ 3) + C (-f 0) * (X 0 ^ 3 * X 1 ^ 0) + C (f 1) * (X 0 ^ 3 * X 1 ^ 0) + C (-f 1) * (X 0 ^ 3 * X 1 ^ 1) + C (-f 3) * (X 0 ^ 3 * X 1 ^ 1) + C (f 4) * (X 0 ^ 3 * X 1 ^ 1) + C (-l 1) * (X 0 ^ 3 * X 1 ^ 1) + C (-f 4) * (X 0 ^ 3 * X 1 ^ 2) + C (-f 5) * (X 0 ^ 3 * X 1 ^ 2) + C (-l 4) * (X 0 ^ 3 * X 1 ^ 2) + C (-f 1) * (X 0 ^ 4 * X 1 ^ 0) + C (f 2) * (X 0 ^ 4 * X 1 ^ 0) + C (-f 2) * (X 0 ^ 4 * X 1 ^ 1) + C (-f 4) * (X 0 ^ 4 * X 1 ^ 1) + C (-l 2) * (X 0 ^ 4 * X 1 ^ 1) + C (-f 2) * (X 0 ^ 5 * X 1 ^ 0) by
      (try simp only [C_neg]); ring]
  simp only [map_add, integral_term]
  norm_num [Nat.factorial]
  ring

theorem aw4_i00c (l f : ℕ → ℝ) : pairing1 .triangle 1 (X 0 * ((1 - (X 0 + X 1)) * (C (f 0) + C (f 1) * X 0 + C (f 2) * X 0 ^ 2 + C (f 3) * X 1 + C (f 4) * (X 0 * X 1) + C (f 5) * X 1 ^ 2) - X 1 * (C (l 0) + C (l 1) * X 0 + C (l 2) * X 0 ^ 2 + C (l 3) * X 1 + C (l 4) * (X 0 * X 1) + C (l 5) * X 1 ^ 2)) * X 1) =
    -1/60 * l 0 - 1/180 * l 1 - 1/420 * l 2 - 1/120 * l 3 - 1/420 * l 4 - 1/210 * l 5 + 1/120 * f 0 + 1/360 * f 1 + 1/840 * f 2 + 1/360 * f 3 + 1/1260 * f 4 + 1/840 * f 5 := by
  rw [show (X 0 * ((1 - (X 0 + X 1)) * (C (f 0) + C (f 1) * X 0 + C (f 2) * X 0 ^ 2 + C (f 3) * X 1 + C (f 4) * (X 0 * X 1) + C (f 5) * X 1 ^ 2) - X 1 * (C (l 0) + C (l 1) * X 0 + C (l 2) * X 0 ^ 2 + C (l 3) * X 1 + C (l 4) * (X 0 * X 1) + C (l 5) * X 1 ^ 2)) * X 1 : MvPolynomial ℕ ℝ) =
    C (f 0) * (X 0 ^ 1 * X 1 ^ 1) + C (-f 0) * (X 0 ^ 1 * X 1 ^ 2) + C (f 3) * (X 0 ^ 1 * X 1 ^ 2) + C (-l 0) * (X 0 ^ 1 * X 1 ^ 2) + C (-f 3) * (X 0 ^ 1 * X 1 ^ 3) + C (f 5) * (X 0 ^ 1 * X 1 ^ 3) + C (-l 3) * (X 0 ^ 1 * X 1 ^ 3) + C (-f 5) * (X 0 ^ 1 * X 1 ^ 4) + C (-l 5) * (X 0 ^ 1 * X 1 ^ 4) + C (-f 0) * (X 0 ^ 2 * X 1 ^ 1) + C (f 1) * (X 0 ^ 2 * X 1 ^ 1) + C (-f 1) * (X 0 ^ 2 * X 1 ^ 2) + C (-f 3) * (X 0 ^ 2 * X 1 ^ 2) + C (f 4) * (X 0 ^ 2 * X 1 ^ 2) + C (-l 1) * (X 0 ^ 2 * X 1 ^ 2) + C (-f 4) * (X 0 ^ 2 * X 1 ^ 3) + C (-f 5) * (X 0 ^ 2 * X 1 ^ 3) + C (-l 4) * (X 0 ^ 2 * X 1 ^ 3) + C (-f 1) * (X 0 ^ 3 * X 1 ^ 1) + C (f 2) * (X 0 ^ 3 * X 1 ^ 1) + C (-f 2) * (X 0 ^ 3 * X 1 ^ 2) + C (-f 4) * (X 0 ^ 3 * X 1 ^ 2) + C (-l 2) * (X 0 ^ 3 * X 1 ^ 2) + C (-f 2) * (X 0 ^ 4 * X 1 ^ 1) by
      (try simp only [C_neg]); ring]
  simp only [map_add, integral_term]
  norm_num [Nat.factorial]
  ring

theorem aw4_i01a (l : ℕ → ℝ) : pairing1 .triangle 1 (X 0 * (X 1 * (C (l 0) + C (l 1) * X 0 + C (l 2) * X 0 ^ 2 + C (l 3) * X 1 + C (l 4) * (X 0 * X 1) + C (l 5) * X 1 ^ 2)) * 1) =
    1/24 * l 0 + 1/60 * l 1 + 1/120 * l 2 + 1/60 * l 3 + 1/180 * l 4 + 1/120 * l 5 := by
  rw [show (X 0 * (X 1 * (C (l 0) + C (l 1) * X 0 + C (l 2) * X 0 ^ 2 + C (l 3) * X 1 + C (l 4) * (X 0 * X 1) + C (l 5) * X 1 ^ 2)) * 1 : MvPolynomial ℕ ℝ) =
    C (l 0) * (X 0 ^ 1 * X 1 ^ 1) + C (l 3) * (X 0 ^ 1 * X 1 ^ 2) + C (l 5) * (X 0 ^ 1 * X 1 ^ 3) + C (l 1) * (X 0 ^ 2 * X 1 ^ 1) + C (l 4) * (X 0 ^ 2 * X 1 ^ 2) + C (l 2) * (X 0 ^ 3 * X 1 ^ 1) by
      (try simp only [C_neg]); ring]
  simp only [map_add, integral_term]
  norm_num [Nat.factorial]
  ring

theorem aw4_i01b (l : ℕ → ℝ) : pairing1 .triangle 1 (X 0 * (X 1 * (C (l 0) + C (l 1) * X 0 + C (l 2) * X 0 ^ 2 + C (l 3) * X 1 + C (l 4) * (X 0 * X 1) + C (l 5) * X 1 ^ 2)) * X 0) =
    1/60 * l 0 + 1/120 * l 1 + 1/210 * l 2 + 1/180 * l 3 + 1/420 * l 4 + 1/420 * l 5 := by
  rw [show (X 0 * (X 1 * (C (l 0) + C (l 1) * X 0 + C (l 2) * X 0 ^ 2 + C (l 3) * X 1 + C (l 4) * (X 0 * X 1) + C (l 5) * X 1 ^ 2)) * X 0 : MvPolynomial ℕ ℝ) =
    C (l 0) * (X 0 ^ 2 * X 1 ^ 1) + C (l 3) * (X 0 ^ 2 * X 1 ^ 2) + C (l 5) * (X 0 ^ 2 * X 1 ^ 3) + C (l 1) * (X 0 ^ 3 * X 1 ^ 1) + C (l 4) * (X 0 ^ 3 * X 1 ^ 2) + C (l 2) * (X 0 ^ 4 * X 1 ^ 1) by
      (try simp only [C_neg]); ring]
  simp only [map_add, integral_term]
  norm_num [Nat.factorial]
  ring

theorem aw4_i01c (l : ℕ → ℝ) : pairing1 .triangle 1 (X 0 * (X 1 * (C (l 0) + C (l 1) * X 0 + C (l 2) * X 0 ^ 2 + C (l 3) * X 1 + C (l 4) * (X 0 * X 1) + C (l 5) * X 1 ^ 2)) * X 1) =
    1/60 * l 0 + 1/180 * l 1 + 1/420 * l 2 + 1/120 * l 3 + 1/420 * l 4 + 1/210 * l 5 := by
  rw [show (X 0 * (X 1 * (C (l 0) + C (l 1) * X 0 + C (l 2) * X 0 ^ 2 + C (l 3) * X 1 + C (l 4) * (X 0 * X 1) + C (l 5) * X 1 ^ 2)) * X 1 : MvPolynomial ℕ ℝ) =
    C (l 0) * (X 0 ^ 1 * X 1 ^ 2) + C (l 3) * (X 0 ^ 1 * X 1 ^ 3) + C (l 5) * (X 0 ^ 1 * X 1 ^ 4) + C (l 1) * (X 0 ^ 2 * X 1 ^ 2) + C (l 4) * (X 0 ^ 2 * X 1 ^ 3) + C (l 2) * (X 0 ^ 3 * X 1 ^ 2) by
      (try simp only [C_neg]); ring]
  simp only [map_add, integral_term]
  norm_num [Nat.factorial]
  ring

theorem aw4_i11a (l g : ℕ → ℝ) : pairing1 .triangle 1 (X 1 * ((1 - (X 0 + X 1)) * (C (g 0) + C (g 1) * X 0 + C (g 2) * X 0 ^ 2 + C (g 3) * X 1 + C (g 4) * (X 0 * X 1) + C (g 5) * X 1 ^ 2) - X 0 * (C (l 0) + C (l 1) * X 0 + C (l 2) * X 0 ^ 2 + C (l 3) * X 1 + C (l 4) * (X 0 * X 1) + C (l 5) * X 1 ^ 2)) * 1) =
    -1/24 * l 0 - 1/60 * l 1 - 1/120 * l 2 - 1/60 * l 3 - 1/180 * l 4 - 1/120 * l 5 + 1/24 * g 0 + 1/120 * g 1 + 1/360 * g 2 + 1/60 * g 3 + 1/360 * g 4 + 1/120 * g 5 := by
  rw [show (X 1 * ((1 - (X 0 + X 1)) * (C (g 0) + C (g 1) * X 0 + C (g 2) * X 0 ^ 2 + C (g 3) * X 1 + C (g 4) * (X 0 * X 1) + C (g 5) * X 1 ^ 2) - X 0 * (C (l 0) + C (l 1) * X 0 + C (l 2) * X 0 ^ 2 + C (l 3) * X 1 + C (l 4) * (X 0 * X 1) + C (l 5) * X 1 ^ 2)) * 1 : MvPolynomial ℕ ℝ) =
    C (g 0) * (X 0 ^ 0 * X 1 ^ 1) + C (-g 0) * (X 0 ^ 0 * X 1 ^ 2) + C (g 3) * (X 0 ^ 0 * X 1 ^ 2) + C (-g 3) * (X 0 ^ 0 * X 1 ^ 3) + C (g 5) * (X 0 ^ 0 * X 1 ^ 3) + C (-g 5) * (X 0 ^ 0 * X 1 ^ 4) + C (-g 0) * (X 0 ^ 1 * X 1 ^ 1) + C (g 1) * (X 0 ^ 1 * X 1 ^ 1) + C (-l 0) * (X 0 ^ 1 * X 1 ^ 1) + C (-g 1) * (X 0 ^ 1 * X 1 ^ 2) + C (-g 3) * (X 0 ^ 1 * X 1 ^ 2) + C (g 4) * (X 0 ^ 1 * X 1 ^ 2) + C (-l 3) * (X 0 ^ 1 * X 1 ^ 2) + C (-g 4) * (X 0 ^ 1 * X 1 ^ 3) + C (-g 5) * (X 0 ^ 1 * X 1 ^ 3) + C (-l 5) * (X 0 ^ 1 * X 1 ^ 3) + C (-g 1) * (X 0 ^ 2 * X 1 ^ 1) + C (g 2) * (X 0 ^ 2 * X 1 ^ 1) + C (-l 1) * (X 0 ^ 2 * X 1 ^ 1) + C (-g 2) * (X 0 ^ 2 * X 1 ^ 2) + C (-g 4) * (X 0 ^ 2 * X 1 ^ 2) + C (-l 4) * (X 0 ^ 2 * X 1 ^ 2) + C (-g 2) * (X 0 ^ 3 * X 1 ^ 1) + C (-l 2) * (X 0 ^ 3 * X 1 ^ 1) by
      (try simp only [C_neg]); ring]
  simp only [map_add, integral_term]
  norm_num [Nat.factorial]
  ring

theorem aw4_i11b (l g : ℕ → ℝ) : pairing1 .triangle 1 (X 1 * ((1 - (X 0 + X 1)) * (C (g 0) + C (g 1) * X 0 + C (g 2) * X 0 ^ 2 + C (g 3) * X 1 + C (g 4) * (X 0 * X 1) + C (g 5) * X 1 ^ 2) - X 0 * (C (l 0) + C (l 1) * X 0 + C (l 2) * X 0 ^ 2 + C (l 3) * X 1 + C (l 4) * (X 0 * X 1) + C (l 5) * X 1 ^ 2)) * X 0) =
    -1/60 * l 0 - 1/120 * l 1 - 1/210 * l 2 - 1/180 * l 3 - 1/420 * l 4 - 1/420 * l 5 + 1/120 * g 0 + 1/360 * g 1 + 1/840 * g 2 + 1/360 * g 3 + 1/1260 * g 4 + 1/840 * g 5 := by
  rw [show (X 1 * ((1 - (X 0 + X 1)) * (C (g 0) + C (g 1) * X 0 + C (g 2) * X 0 ^ 2 + C (g 3) * X 1 + C (g 4) * (X 0 * X 1) + C (g 5) * X 1 ^ 2) - X 0 * (C (l 0) + C (l 1) * X 0 + C (l 2) * X 0 ^ 2 + C (l 3) * X 1 + C (l 4) * (X 0 * X 1) + C (l 5) * X 1 ^ 2)) * X 0 : MvPolynomial ℕ ℝ) =
    C (g 0) * (X 0 ^ 1 * X 1 ^ 1) + C (-g 0) * (X 0 ^ 1 * X 1 ^ 2) + C (g 3) * (X 0 ^ 1 * X 1 ^ 2) + C (-g 3) * (X 0 ^ 1 * X 1 ^ 3) + C (g 5) * (X 0 ^ 1 * X 1 ^ 3) + C (-g 5) * (X 0 ^ 1 * X 1 ^ 4) + C (-g 0) * (X 0 ^ 2 * X 1 ^ 1) + C (g 1) * (X 0 ^ 2 * X 1 ^ 1) + C (-l 0) * (X 0 ^ 2 * X 1 ^ 1) + C (-g 1) * (X 0 ^ 2 * X 1 ^ 2) + C (-g 3) * (X 0 ^ 2 * X 1 ^ 2) + C (g 4) * (X 0 ^ 2 * X 1 ^ 2) + C (-l 3) * (X 0 ^ 2 * X 1 ^ 2) + C (-g 4) * (X 0 ^ 2 * X 1 ^ 3) + C (-g 5) * (X 0 ^ 2 * X 1 ^ 3) + C (-l 5) * (X 0 ^ 2 * X 1 ^ 3) + C (-g 1) * (X 0 ^ 3 * X 1 ^ 1) + C (g 2) * (X 0 ^ 3 * X 1 ^ 1) + C (-l 1) * (X 0 ^ 3 * X 1 ^ 1) + C (-g 2) * (X 0 ^ 3 * X 1 ^ 2) + C (-g 4) * (X 0 ^ 3 * X 1 ^ 2) + C (-l 4) * (X 0 ^ 3 * X 1 ^ 2) + C (-g 2) * (X 0 ^ 4 * X 1 ^ 1) + C (-l 2) * (X 0 ^ 4 * X 1 ^ 1) by
      (try simp only [C_neg]); ring]
  simp only [map_add, integral_term]
  norm_num [Nat.factorial]
  ring

theorem aw4_i11c (l g : ℕ → ℝ) : pairing1 .triangle 1 (X 1 * ((1 - (X 0 + X 1)) * (C (g 0) + C (g 1) * X 0 + C (g 2) * X 0 ^ 2 + C (g 3) * X 1 + C (g 4) * (X 0 * X 1) + C (g 5) * X 1 ^ 2) - X 0 * (C (l 0) + C (l 1) * X 0 + C (l 2) * X 0 ^ 2 + C (l 3) * X 1 + C (l 4) * (X 0 * X 1) + C (l 5) * X 1 ^ 2)) * X 1) =
    -1/60 * l 0 - 1/180 * l 1 - 1/420 * l 2 - 1/120 * l 3 - 1/420 * l 4 - 1/210 * l 5 + 1/60 * g 0 + 1/360 * g 1 + 1/1260 * g 2 + 1/120 * g 3 + 1/840 * g 4 + 1/210 * g 5 := by
  rw [show (X 1 * ((1 - (X 0 + X 1)) * (C (g 0) + C (g 1) * X 0 + C (g 2) * X 0 ^ 2 + C (g 3) * X 1 + C (g 4) * (X 0 * X 1) + C (g 5) * X 1 ^ 2) - X 0 * (C (l 0) + C (l 1) * X 0 + C (l 2) * X 0 ^ 2 + C (l 3) * X 1 + C (l 4) * (X 0 * X 1) + C (l 5) * X 1 ^ 2)) * X 1 : MvPolynomial ℕ ℝ) =
    C (g 0) * (X 0 ^ 0 * X 1 ^ 2) + C (-g 0) * (X 0 ^ 0 * X 1 ^ 3) + C (g 3) * (X 0 ^ 0 * X 1 ^ 3) + C (-g 3) * (X 0 ^ 0 * X 1 ^ 4) + C (g 5) * (X 0 ^ 0 * X 1 ^ 4) + C (-g 5) * (X 0 ^ 0 * X 1 ^ 5) + C (-g 0) * (X 0 ^ 1 * X 1 ^ 2) + C (g 1) * (X 0 ^ 1 * X 1 ^ 2) + C (-l 0) * (X 0 ^ 1 * X 1 ^ 2) + C (-g 1) * (X 0 ^ 1 * X 1 ^ 3) + C (-g 3) * (X 0 ^ 1 * X 1 ^ 3) + C (g 4) * (X 0 ^ 1 * X 1 ^ 3) + C (-l 3) * (X 0 ^ 1 * X 1 ^ 3) + C (-g 4) * (X 0 ^ 1 * X 1 ^ 4) + C (-g 5) * (X 0 ^ 1 * X 1 ^ 4) + C (-l 5) * (X 0 ^ 1 * X 1 ^ 4) + C (-g 1) * (X 0 ^ 2 * X 1 ^ 2) + C (g 2) * (X 0 ^ 2 * X 1 ^ 2) + C (-l 1) * (X 0 ^ 2 * X 1 ^ 2) + C (-g 2) * (X 0 ^ 2 * X 1 ^ 3) + C (-g 4) * (X 0 ^ 2 * X 1 ^ 3) + C (-l 4) * (X 0 ^ 2 * X 1 ^ 3) + C (-g 2) * (X 0 ^ 3 * X 1 ^ 2) + C (-l 2) * (X 0 ^ 3 * X 1 ^ 2) by
      (try simp only [C_neg]); ring]
  simp only [map_add, integral_term]
  norm_num [Nat.factorial]
  ring

/-- Functions with vanishing products with the normals and vanishing moments are multiples of one function. -/
theorem bubble_four {u : MField 2} (hu : AwSpace 4 u)
    (h : ∀ e < 3, ∀ z, OnFacet 2 e z → ∀ i : Fin 2, ∑ j : Fin 2, facetNormal e j.val * eval z (u i j) = 0)
    (hq : ∀ q ∈ P 2 1, pairing1 .triangle (u 0 0) q = 0 ∧ pairing1 .triangle (u 0 1) q = 0 ∧ pairing1 .triangle (u 1 1) q = 0) :
    ∃ a : ℝ, u = fun i j => C a * awAiry 1 i j := by
  obtain ⟨L, F, G, hL, hF, hG, e01, e00, e11⟩ := bubble_form hu.1 h
  obtain ⟨l, rfl⟩ := P_two_two (show L ∈ P 2 2 from hL)
  obtain ⟨f, rfl⟩ := P_two_two (show F ∈ P 2 2 from hF)
  obtain ⟨g, rfl⟩ := P_two_two (show G ∈ P 2 2 from hG)
  have e10 := (hu.1.1 1 0).trans e01
  have d0 := third_differences (show rowDiv u 0 ∈ P 2 2 from hu.2 0)
  have d1 := third_differences (show rowDiv u 1 ∈ P 2 2 from hu.2 1)
  rw [opp2] at e00 e11
  simp only [rowDiv, e00, e01, e10, e11] at d0 d1
  simp only [map_add, map_sub, map_mul, map_pow, Derivation.leibniz, Derivation.leibniz_pow, pderiv_C, pderiv_X, smul_eq_mul, eval_C, eval_X, map_one, Pi.single_apply,
    Derivation.map_one_eq_zero, map_zero, nsmul_eq_mul, map_natCast] at d0 d1
  norm_num [coords] at d0 d1
  obtain ⟨d0a, d0b, d0c, d0d⟩ := d0
  obtain ⟨d1a, d1b, d1c, d1d⟩ := d1
  replace d0a : l 2 - 4 * f 2 = 0 := by linarith
  replace d0b : -3 * l 2 + 2 * l 4 - 3 * f 2 - 3 * f 4 = 0 := by linarith
  replace d0c : -2 * l 4 + 3 * l 5 - 2 * f 4 - 2 * f 5 = 0 := by linarith
  replace d0d : -l 5 - f 5 = 0 := by linarith
  replace d1a : -l 2 - g 2 = 0 := by linarith
  replace d1b : 3 * l 2 - 2 * l 4 - 2 * g 2 - 2 * g 4 = 0 := by linarith
  replace d1c : 2 * l 4 - 3 * l 5 - 3 * g 4 - 3 * g 5 = 0 := by linarith
  replace d1d : l 5 - 4 * g 5 = 0 := by linarith
  have i00a := integral_mul (hq (1) (one_mem (by omega))).1 ((congrArg (· * 1) e00).trans rfl)
  rw [aw4_i00a] at i00a
  have i00b := integral_mul (hq (X 0) (X_mem (by omega))).1 ((congrArg (· * X 0) e00).trans rfl)
  rw [aw4_i00b] at i00b
  have i00c := integral_mul (hq (X 1) (X_mem (by omega))).1 ((congrArg (· * X 1) e00).trans rfl)
  rw [aw4_i00c] at i00c
  have i01a := integral_mul (hq (1) (one_mem (by omega))).2.1 ((congrArg (· * 1) e01).trans rfl)
  rw [aw4_i01a] at i01a
  have i01b := integral_mul (hq (X 0) (X_mem (by omega))).2.1 ((congrArg (· * X 0) e01).trans rfl)
  rw [aw4_i01b] at i01b
  have i01c := integral_mul (hq (X 1) (X_mem (by omega))).2.1 ((congrArg (· * X 1) e01).trans rfl)
  rw [aw4_i01c] at i01c
  have i11a := integral_mul (hq (1) (one_mem (by omega))).2.2 ((congrArg (· * 1) e11).trans rfl)
  rw [aw4_i11a] at i11a
  have i11b := integral_mul (hq (X 0) (X_mem (by omega))).2.2 ((congrArg (· * X 0) e11).trans rfl)
  rw [aw4_i11b] at i11b
  have i11c := integral_mul (hq (X 1) (X_mem (by omega))).2.2 ((congrArg (· * X 1) e11).trans rfl)
  rw [aw4_i11c] at i11c
  obtain ⟨a, ha⟩ : ∃ a : ℝ, l 0 = -4 * a := ⟨-(l 0) / 4, by ring⟩
  have z_l1 : l 1 = 12 * a := by linear_combination (3/35) * d0a + (-4/35) * d0b + (6/35) * d0c + (-12/35) * d0d + (12/35) * d1a + (-6/35) * d1b + (4/35) * d1c + (-3/35) * d1d + (1080) * i01a + (-1080) * i01b + (-1440) * i01c + (-3) * ha
  have z_l2 : l 2 = -8 * a := by linear_combination (-3/35) * d0a + (4/35) * d0b + (-6/35) * d0c + (12/35) * d0d + (-16/35) * d1a + (8/35) * d1b + (-16/105) * d1c + (4/35) * d1d + (-1200) * i01a + (1440) * i01b + (1440) * i01c + (2) * ha
  have z_l3 : l 3 = 12 * a := by linear_combination (-3/35) * d0a + (4/35) * d0b + (-6/35) * d0c + (12/35) * d0d + (-12/35) * d1a + (6/35) * d1b + (-4/35) * d1c + (3/35) * d1d + (1080) * i01a + (-1440) * i01b + (-1080) * i01c + (-3) * ha
  have z_l4 : l 4 = -18 * a := by linear_combination (-3/70) * d0a + (2/35) * d0b + (-3/35) * d0c + (6/35) * d0d + (6/35) * d1a + (-3/35) * d1b + (2/35) * d1c + (-3/70) * d1d + (-2700) * i01a + (3240) * i01b + (3240) * i01c + (9/2) * ha
  have z_l5 : l 5 = -8 * a := by linear_combination (4/35) * d0a + (-16/105) * d0b + (8/35) * d0c + (-16/35) * d0d + (12/35) * d1a + (-6/35) * d1b + (4/35) * d1c + (-3/35) * d1d + (-1200) * i01a + (1440) * i01b + (1440) * i01c + (2) * ha
  have z_f0 : f 0 = 0 * a := by linear_combination (-1/35) * d0a + (-1/105) * d0b + (-1/105) * d0c + (-1/35) * d0d + (240) * i00a + (-360) * i00b + (-360) * i00c + (240) * i01a + (-360) * i01b + (-360) * i01c + (0) * ha
  have z_f1 : f 1 = 2 * a := by linear_combination (13/70) * d0a + (4/105) * d0b + (1/70) * d0c + (-1/35) * d0d + (-360) * i00a + (720) * i00b + (360) * i00c + (-60) * i01a + (360) * i01b + (-1/2) * ha
  have z_f2 : f 2 = -2 * a := by linear_combination (-19/70) * d0a + (1/35) * d0b + (-3/70) * d0c + (3/35) * d0d + (-4/35) * d1a + (2/35) * d1b + (-4/105) * d1c + (1/35) * d1d + (-300) * i01a + (360) * i01b + (360) * i01c + (1/2) * ha
  have z_f3 : f 3 = -4 * a := by linear_combination (-1/35) * d0a + (4/105) * d0b + (3/35) * d0c + (2/5) * d0d + (-360) * i00a + (360) * i00b + (1080) * i00c + (-960) * i01a + (1080) * i01b + (1800) * i01c + (1) * ha
  have z_f4 : f 4 = -2 * a := by linear_combination (23/70) * d0a + (-46/105) * d0b + (11/70) * d0c + (-11/35) * d0d + (24/35) * d1a + (-12/35) * d1b + (8/35) * d1c + (-6/35) * d1d + (-300) * i01a + (360) * i01b + (360) * i01c + (1/2) * ha
  have z_f5 : f 5 = 8 * a := by linear_combination (-4/35) * d0a + (16/105) * d0b + (-8/35) * d0c + (-19/35) * d0d + (-12/35) * d1a + (6/35) * d1b + (-4/35) * d1c + (3/35) * d1d + (1200) * i01a + (-1440) * i01b + (-1440) * i01c + (-2) * ha
  have z_g0 : g 0 = 0 * a := by linear_combination (-1/35) * d1a + (-1/105) * d1b + (-1/105) * d1c + (-1/35) * d1d + (240) * i01a + (-360) * i01b + (-360) * i01c + (240) * i11a + (-360) * i11b + (-360) * i11c + (0) * ha
  have z_g1 : g 1 = -4 * a := by linear_combination (2/5) * d1a + (3/35) * d1b + (4/105) * d1c + (-1/35) * d1d + (-960) * i01a + (1800) * i01b + (1080) * i01c + (-360) * i11a + (1080) * i11b + (360) * i11c + (1) * ha
  have z_g2 : g 2 = 8 * a := by linear_combination (3/35) * d0a + (-4/35) * d0b + (6/35) * d0c + (-12/35) * d0d + (-19/35) * d1a + (-8/35) * d1b + (16/105) * d1c + (-4/35) * d1d + (1200) * i01a + (-1440) * i01b + (-1440) * i01c + (-2) * ha
  have z_g3 : g 3 = 2 * a := by linear_combination (-1/35) * d1a + (1/70) * d1b + (4/105) * d1c + (13/70) * d1d + (-60) * i01a + (360) * i01c + (-360) * i11a + (360) * i11b + (720) * i11c + (-1/2) * ha
  have z_g4 : g 4 = -2 * a := by linear_combination (-6/35) * d0a + (8/35) * d0b + (-12/35) * d0c + (24/35) * d0d + (-11/35) * d1a + (11/70) * d1b + (-46/105) * d1c + (23/70) * d1d + (-300) * i01a + (360) * i01b + (360) * i01c + (1/2) * ha
  have z_g5 : g 5 = -2 * a := by linear_combination (1/35) * d0a + (-4/105) * d0b + (2/35) * d0c + (-4/35) * d0d + (3/35) * d1a + (-3/70) * d1b + (1/35) * d1c + (-19/70) * d1d + (-300) * i01a + (360) * i01b + (360) * i01c + (1/2) * ha
  refine ⟨a, ?_⟩
  rw [ha, z_l1, z_l2, z_l3, z_l4, z_l5] at e01 e10 e00 e11
  rw [z_f0, z_f1, z_f2, z_f3, z_f4, z_f5] at e00
  rw [z_g0, z_g1, z_g2, z_g3, z_g4, z_g5] at e11
  simp only [C_mul, C_neg, map_ofNat, C_0, zero_mul, map_one, one_mul, neg_mul] at e00 e01 e10 e11
  obtain ⟨a00, a01, a10, a11⟩ := airy_one
  funext i j
  fin_cases i <;> fin_cases j
  · exact e00.trans (by show _ = C a * awAiry 1 0 0; rw [a00]; ring)
  · exact e01.trans (by show _ = C a * awAiry 1 0 1; rw [a01]; ring)
  · exact e10.trans (by show _ = C a * awAiry 1 1 0; rw [a10]; ring)
  · exact e11.trans (by show _ = C a * awAiry 1 1 1; rw [a11]; ring)

theorem airy_square00 : pairing1 .triangle 1 (awAiry 1 0 0 * awAiry 1 0 0) = 1/1575 := by
  have e : ((2 * (X 0 ^ 2 * X 1 ^ 0) - 12 * (X 0 ^ 2 * X 1 ^ 1) + 12 * (X 0 ^ 2 * X 1 ^ 2) - 4 * (X 0 ^ 3 * X 1 ^ 0) + 12 * (X 0 ^ 3 * X 1 ^ 1) + 2 * (X 0 ^ 4 * X 1 ^ 0)) * (2 * (X 0 ^ 2 * X 1 ^ 0) - 12 * (X 0 ^ 2 * X 1 ^ 1) + 12 * (X 0 ^ 2 * X 1 ^ 2) - 4 * (X 0 ^ 3 * X 1 ^ 0) + 12 * (X 0 ^ 3 * X 1 ^ 1) + 2 * (X 0 ^ 4 * X 1 ^ 0)) : MvPolynomial ℕ ℝ) =
    C (4) * (X 0 ^ 4 * X 1 ^ 0) + C (-48) * (X 0 ^ 4 * X 1 ^ 1) + C (192) * (X 0 ^ 4 * X 1 ^ 2) + C (-288) * (X 0 ^ 4 * X 1 ^ 3) + C (144) * (X 0 ^ 4 * X 1 ^ 4) + C (-16) * (X 0 ^ 5 * X 1 ^ 0) + C (144) * (X 0 ^ 5 * X 1 ^ 1) + C (-384) * (X 0 ^ 5 * X 1 ^ 2) + C (288) * (X 0 ^ 5 * X 1 ^ 3) + C (24) * (X 0 ^ 6 * X 1 ^ 0) + C (-144) * (X 0 ^ 6 * X 1 ^ 1) + C (192) * (X 0 ^ 6 * X 1 ^ 2) + C (-16) * (X 0 ^ 7 * X 1 ^ 0) + C (48) * (X 0 ^ 7 * X 1 ^ 1) + C (4) * (X 0 ^ 8 * X 1 ^ 0) := by
      simp only [map_ofNat, C_neg]; ring
  rw [airy_one.1, e]
  simp only [map_add, integral_term]
  norm_num [Nat.factorial]

theorem airy_square01 : pairing1 .triangle 1 (awAiry 1 0 1 * awAiry 1 0 1) = 1/3150 := by
  have e : ((-4 * (X 0 ^ 1 * X 1 ^ 1) + 12 * (X 0 ^ 1 * X 1 ^ 2) - 8 * (X 0 ^ 1 * X 1 ^ 3) + 12 * (X 0 ^ 2 * X 1 ^ 1) - 18 * (X 0 ^ 2 * X 1 ^ 2) - 8 * (X 0 ^ 3 * X 1 ^ 1)) * (-4 * (X 0 ^ 1 * X 1 ^ 1) + 12 * (X 0 ^ 1 * X 1 ^ 2) - 8 * (X 0 ^ 1 * X 1 ^ 3) + 12 * (X 0 ^ 2 * X 1 ^ 1) - 18 * (X 0 ^ 2 * X 1 ^ 2) - 8 * (X 0 ^ 3 * X 1 ^ 1)) : MvPolynomial ℕ ℝ) =
    C (16) * (X 0 ^ 2 * X 1 ^ 2) + C (-96) * (X 0 ^ 2 * X 1 ^ 3) + C (208) * (X 0 ^ 2 * X 1 ^ 4) + C (-192) * (X 0 ^ 2 * X 1 ^ 5) + C (64) * (X 0 ^ 2 * X 1 ^ 6) + C (-96) * (X 0 ^ 3 * X 1 ^ 2) + C (432) * (X 0 ^ 3 * X 1 ^ 3) + C (-624) * (X 0 ^ 3 * X 1 ^ 4) + C (288) * (X 0 ^ 3 * X 1 ^ 5) + C (208) * (X 0 ^ 4 * X 1 ^ 2) + C (-624) * (X 0 ^ 4 * X 1 ^ 3) + C (452) * (X 0 ^ 4 * X 1 ^ 4) + C (-192) * (X 0 ^ 5 * X 1 ^ 2) + C (288) * (X 0 ^ 5 * X 1 ^ 3) + C (64) * (X 0 ^ 6 * X 1 ^ 2) := by
      simp only [map_ofNat, C_neg]; ring
  rw [airy_one.2.1, e]
  simp only [map_add, integral_term]
  norm_num [Nat.factorial]

theorem airy_square10 : pairing1 .triangle 1 (awAiry 1 1 0 * awAiry 1 1 0) = 1/3150 := by
  have e : ((-4 * (X 0 ^ 1 * X 1 ^ 1) + 12 * (X 0 ^ 1 * X 1 ^ 2) - 8 * (X 0 ^ 1 * X 1 ^ 3) + 12 * (X 0 ^ 2 * X 1 ^ 1) - 18 * (X 0 ^ 2 * X 1 ^ 2) - 8 * (X 0 ^ 3 * X 1 ^ 1)) * (-4 * (X 0 ^ 1 * X 1 ^ 1) + 12 * (X 0 ^ 1 * X 1 ^ 2) - 8 * (X 0 ^ 1 * X 1 ^ 3) + 12 * (X 0 ^ 2 * X 1 ^ 1) - 18 * (X 0 ^ 2 * X 1 ^ 2) - 8 * (X 0 ^ 3 * X 1 ^ 1)) : MvPolynomial ℕ ℝ) =
    C (16) * (X 0 ^ 2 * X 1 ^ 2) + C (-96) * (X 0 ^ 2 * X 1 ^ 3) + C (208) * (X 0 ^ 2 * X 1 ^ 4) + C (-192) * (X 0 ^ 2 * X 1 ^ 5) + C (64) * (X 0 ^ 2 * X 1 ^ 6) + C (-96) * (X 0 ^ 3 * X 1 ^ 2) + C (432) * (X 0 ^ 3 * X 1 ^ 3) + C (-624) * (X 0 ^ 3 * X 1 ^ 4) + C (288) * (X 0 ^ 3 * X 1 ^ 5) + C (208) * (X 0 ^ 4 * X 1 ^ 2) + C (-624) * (X 0 ^ 4 * X 1 ^ 3) + C (452) * (X 0 ^ 4 * X 1 ^ 4) + C (-192) * (X 0 ^ 5 * X 1 ^ 2) + C (288) * (X 0 ^ 5 * X 1 ^ 3) + C (64) * (X 0 ^ 6 * X 1 ^ 2) := by
      simp only [map_ofNat, C_neg]; ring
  rw [airy_one.2.2.1, e]
  simp only [map_add, integral_term]
  norm_num [Nat.factorial]

theorem airy_square11 : pairing1 .triangle 1 (awAiry 1 1 1 * awAiry 1 1 1) = 1/1575 := by
  have e : ((2 * (X 0 ^ 0 * X 1 ^ 2) - 4 * (X 0 ^ 0 * X 1 ^ 3) + 2 * (X 0 ^ 0 * X 1 ^ 4) - 12 * (X 0 ^ 1 * X 1 ^ 2) + 12 * (X 0 ^ 1 * X 1 ^ 3) + 12 * (X 0 ^ 2 * X 1 ^ 2)) * (2 * (X 0 ^ 0 * X 1 ^ 2) - 4 * (X 0 ^ 0 * X 1 ^ 3) + 2 * (X 0 ^ 0 * X 1 ^ 4) - 12 * (X 0 ^ 1 * X 1 ^ 2) + 12 * (X 0 ^ 1 * X 1 ^ 3) + 12 * (X 0 ^ 2 * X 1 ^ 2)) : MvPolynomial ℕ ℝ) =
    C (4) * (X 0 ^ 0 * X 1 ^ 4) + C (-16) * (X 0 ^ 0 * X 1 ^ 5) + C (24) * (X 0 ^ 0 * X 1 ^ 6) + C (-16) * (X 0 ^ 0 * X 1 ^ 7) + C (4) * (X 0 ^ 0 * X 1 ^ 8) + C (-48) * (X 0 ^ 1 * X 1 ^ 4) + C (144) * (X 0 ^ 1 * X 1 ^ 5) + C (-144) * (X 0 ^ 1 * X 1 ^ 6) + C (48) * (X 0 ^ 1 * X 1 ^ 7) + C (192) * (X 0 ^ 2 * X 1 ^ 4) + C (-384) * (X 0 ^ 2 * X 1 ^ 5) + C (192) * (X 0 ^ 2 * X 1 ^ 6) + C (-288) * (X 0 ^ 3 * X 1 ^ 4) + C (288) * (X 0 ^ 3 * X 1 ^ 5) + C (144) * (X 0 ^ 4 * X 1 ^ 4) := by
      simp only [map_ofNat, C_neg]; ring
  rw [airy_one.2.2.2, e]
  simp only [map_add, integral_term]
  norm_num [Nat.factorial]

/-- The moment of a multiple of the function with itself. -/
theorem airy_energy (a c : ℝ) : cellInt .triangle (fun z => eval z (∑ i, ∑ j, (C a * awAiry 1 i j) * awAiry (C c) i j)) = a * c * (1/525) := by
  have hc : ∀ i j, awAiry (C c) i j = C c * awAiry 1 i j := fun i j => by
    have h2 : ∀ i, pderiv i (2 : MvPolynomial ℕ ℝ) = 0 := fun i => by rw [← map_ofNat C 2, pderiv_C]
    fin_cases i <;> fin_cases j <;> simp [h2, awAiry, mul_assoc, Derivation.leibniz, smul_eq_mul] <;> ring
  have e : (∑ i, ∑ j, (C a * awAiry 1 i j) * awAiry (C c) i j : MvPolynomial ℕ ℝ) =
      1 * ((a * c) • (awAiry 1 0 0 * awAiry 1 0 0 + awAiry 1 0 1 * awAiry 1 0 1 + awAiry 1 1 0 * awAiry 1 1 0 + awAiry 1 1 1 * awAiry 1 1 1)) := by
    simp only [Fin.sum_univ_two, hc, C_mul, smul_eq_C_mul]
    ring
  rw [e]
  show pairing1 .triangle 1 _ = _
  rw [map_smul, map_add, map_add, map_add, airy_square00, airy_square01, airy_square10, airy_square11, smul_eq_mul]
  norm_num

/-- **C148** (order 4).  The Arnold–Winther element of order 4 is created, has 37 functionals and basis functions, its basis functions span
the symmetric matrices of quartics with quadratic divergences, its functionals determine them, and the products with the normal on an edge
are determined by the functionals of the edge and its ends. -/
theorem aw_created_four : Created (awElement "equispaced" 4) (AwSpace 4) 37 (NormalTrace (AwSpace 4)) := by
  obtain ⟨l, h1, h2, h3, h4⟩ := aw_poly (k := 4) (by omega)
  obtain ⟨fs, f1, f2, f3⟩ := lagrange_functions (c := .triangle) (by simp [Simplex]) 0
  obtain ⟨p, rfl⟩ := List.length_eq_one_iff.1 (f3.trans (by decide))
  obtain ⟨c, rfl⟩ : ∃ c : ℝ, p = C c := by
    have : p ∈ P 2 ((0 : ℕ) : ℤ) := by
      rw [show P 2 ((0 : ℕ) : ℤ) = lspan [p] from f2.symm]
      exact Submodule.subset_span (by simp)
    refine ⟨coeff 0 p, ?_⟩
    ext t
    rw [coeff_C]
    split_ifs with h0
    · rw [h0]
    · by_contra hn
      have h5 := (mem_P.1 this t (mem_support_iff.2 hn)).1
      exact h0 ((Finsupp.degree_eq_zero_iff t).1 (by simpa using h5)).symm
  have hc : c ≠ 0 := by
    rintro rfl
    have h1 : (1 : MvPolynomial ℕ ℝ) ∈ lspan [(C 0 : MvPolynomial ℕ ℝ)] := by
      rw [f2]
      exact one_mem (by simp)
    rw [C_0] at h1
    have h2 : lspan [(0 : MvPolynomial ℕ ℝ)] = ⊥ := by
      rw [lspan, Submodule.span_eq_bot]
      simp
    rw [h2, Submodule.mem_bot] at h1
    exact one_ne_zero h1
  obtain ⟨x, x1, x2, x3, x4⟩ := aw_moment "double_contravariant" (awAiry (C c))
  have hx : awExtra "equispaced" 4 = some [x] := by
    rw [awExtra, if_pos (by omega), show 4 - 4 = 0 from rfl, f1, Option.bind_some]
    simp [x1]
  obtain ⟨edges, interior, xs, b1, b2, b3, b4, -, -, b5, b6⟩ := aw_dofs (k := 4) hx
  have htr : NormalTrace (AwSpace 4) (awVertices ++ edges ++ (interior ++ [x])) :=
    aw_trace (k := 4) (by omega) (fun u hu => hu.1) b4 b5
  rw [← List.append_assoc] at htr
  have hlen : (awVertices ++ edges ++ interior ++ [x]).length = 37 := by
    simp only [List.length_append, b2, b3, List.length_cons, List.length_nil]
    rfl
  have hzero : ∀ u, AwSpace 4 u → (∀ d ∈ awVertices ++ edges ++ interior ++ [x], d.eval u = 0) → u = 0 := by
    intro u hu hz
    obtain ⟨a, rfl⟩ := bubble_four hu (fun e he z hzf i => htr e he u hu (fun d hd _ => hz d hd) z hzf i)
      (b6 u 4 hu.1.2 (fun d hd => hz d (by simp [hd])))
    have h0 := (x4 _ 4 hu.1.2).symm.trans (hz x (by simp))
    rw [airy_energy] at h0
    have ha : a = 0 := by
      have h5 : a * c = 0 := by linarith
      exact (mul_eq_zero.1 h5).resolve_right hc
    funext i j
    rw [ha, C_0, zero_mul]
    rfl
  have hl2 : l.length = 37 := h2.trans (by decide)
  obtain ⟨c1, fs, c2, c3, c4⟩ := ciarlet_basis (basis := l) (hlen.trans hl2.symm) h3 fun u hu hz => hzero u ((h4 u).1 hu) hz
  refine ⟨l, _, fs, ?_, c2, hlen, c4.trans hl2, fun v => ?_, hzero, htr⟩
  · rw [awElement, h1, Option.bind_some, b1, Option.bind_some, c1]
  · rw [c3]
    exact h4 v

end Verif.Matrices