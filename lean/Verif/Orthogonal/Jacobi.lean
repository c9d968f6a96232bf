import Verif.Orthogonal.Closed
import Mathlib.Algebra.Polynomial.Derivative
import Mathlib.Analysis.SpecialFunctions.Integrals.Basic
import Mathlib.MeasureTheory.Integral.IntervalIntegral.FundThmCalculus
import Mathlib.Analysis.Calculus.Deriv.Polynomial
import Mathlib.Tactic.LinearCombination
import Mathlib.Tactic.Positivity
import Mathlib.Topology.Algebra.Polynomial

/-!
# Jacobi polynomials are orthogonal (used for C28 and C31)
-/

set_option linter.unusedSectionVars false
set_option linter.unusedSimpArgs false

namespace Verif.Orthogonal

open Polynomial

/-! ### Evaluation and scaling -/

theorem map_hjac {A B : Type*} [CommRing A] [Algebra ℚ A] [CommRing B] [Algebra ℚ B]
    (φ : A →ₐ[ℚ] B) (a : ℚ) (l h : A) (n : ℕ) : φ (hjac a l h n) = hjac a (φ l) (φ h) n := by
  induction n using Nat.strong_induction_on with
  | _ n ih =>
    by_cases h0 : n = 0
    · subst h0; simp [hjac]
    rw [hjac_rec a l h n h0, hjac_rec a _ _ n h0, map_sub, map_smul, map_mul, map_mul, map_add,
      map_smul, map_smul, ih (n - 1) (by omega), ih (n - 2) (by omega), map_pow]

theorem hjac_smul {A : Type*} [CommRing A] [Algebra ℚ A] (a : ℚ) (c l h : A) (n : ℕ) :
    hjac a (c * l) (c * h) n = c ^ n * hjac a l h n := by
  induction n using Nat.strong_induction_on with
  | _ n ih =>
    match n with
    | 0 => simp [hjac]
    | 1 => simp only [hjac, Algebra.smul_def]; ring
    | n + 2 =>
      simp only [hjac, ih (n + 1) (by omega), ih n (by omega), Algebra.smul_def]
      ring

/-! ### The polynomials -/

local notation "Y" => (Polynomial.X : ℝ[X])

/-- The Jacobi polynomial for the weight `(1-X)^a`, on `[0,1]`. -/
noncomputable def jac (a n : ℕ) : ℝ[X] := hjac (a : ℚ) (2 * Y - 1) 1 n

theorem jac_zero (a : ℕ) : jac a 0 = 1 := rfl

theorem two_jac_one (a : ℕ) : 2 * jac a 1 = ((a : ℝ[X]) + 2) * (2 * Y - 1) + (a : ℝ[X]) := by
  rw [jac, hjac]
  have hA : 2 * jrcA (a : ℚ) 0 = a + 2 := by
    unfold jrcA
    have : (a : ℚ) + 1 ≠ 0 := by positivity
    simp only [mul_zero, add_zero, zero_add, mul_one]
    field_simp
  have hB : 2 * jrcB (a : ℚ) 0 = a := by
    unfold jrcB
    by_cases h : a = 0
    · subst h; simp
    have : (a : ℚ) ≠ 0 := by exact_mod_cast h
    have : (a : ℚ) + 1 ≠ 0 := by positivity
    simp only [mul_zero, add_zero, zero_add, mul_one]
    field_simp
  have hA' := congrArg (algebraMap ℚ ℝ[X]) hA
  have hB' := congrArg (algebraMap ℚ ℝ[X]) hB
  simp only [map_mul, map_ofNat, map_add, map_natCast] at hA' hB'
  rw [Algebra.smul_def, Algebra.smul_def]
  linear_combination (2 * Y - 1) * hA' + hB'

theorem jac_rec (a n : ℕ) :
    2 * ((n : ℝ[X]) + 2) * (a + n + 2) * (a + 2 * n + 2) * jac a (n + 2)
      = ((a : ℝ[X]) + 2 * n + 3) * ((a + 2 * n + 2) * (a + 2 * n + 4) * (2 * Y - 1) + a ^ 2)
          * jac a (n + 1)
        - 2 * ((n : ℝ[X]) + 1) * (n + 1 + a) * (a + 2 * n + 4) * jac a n := by
  have h1 : (a : ℚ) + n + 2 ≠ 0 := by positivity
  have h2 : (n : ℚ) + 2 ≠ 0 := by positivity
  have h3 : (a : ℚ) + 2 * n + 2 ≠ 0 := by positivity
  have hA : 2 * (n + 2) * (a + n + 2) * jrcA (a : ℚ) (n + 1) = (a + 2 * n + 3) * (a + 2 * n + 4) := by
    unfold jrcA
    rw [show (n : ℚ) + 1 + 1 = n + 2 by ring, show (a : ℚ) + (n + 1) + 1 = a + n + 2 by ring]
    field_simp
    ring
  have hB : 2 * (n + 2) * (a + n + 2) * (a + 2 * n + 2) * jrcB (a : ℚ) (n + 1)
      = a ^ 2 * (a + 2 * n + 3) := by
    unfold jrcB
    rw [show (n : ℚ) + 1 + 1 = n + 2 by ring, show (a : ℚ) + (n + 1) + 1 = a + n + 2 by ring,
      show (a : ℚ) + 2 * (n + 1) = a + 2 * n + 2 by ring]
    field_simp
    ring
  have hC : (n + 2) * (a + n + 2) * (a + 2 * n + 2) * jrcC (a : ℚ) (n + 1)
      = (n + 1) * (a + n + 1) * (a + 2 * n + 4) := by
    unfold jrcC
    rw [show (n : ℚ) + 1 + 1 = n + 2 by ring, show (a : ℚ) + (n + 1) + 1 = a + n + 2 by ring,
      show (a : ℚ) + 2 * (n + 1) = a + 2 * n + 2 by ring]
    field_simp
    ring
  have hA' := congrArg (algebraMap ℚ ℝ[X]) hA
  have hB' := congrArg (algebraMap ℚ ℝ[X]) hB
  have hC' := congrArg (algebraMap ℚ ℝ[X]) hC
  simp only [map_mul, map_ofNat, map_add, map_natCast, map_pow, map_one] at hA' hB' hC'
  rw [show jac a (n + 2) = jac a (n + 1) * (jrcA a (n + 1) • (2 * Y - 1) + jrcB a (n + 1) • 1)
      - jrcC a (n + 1) • (jac a n * 1 ^ 2) from rfl]
  simp only [Algebra.smul_def]
  linear_combination jac a (n + 1) * (2 * Y - 1) * (a + 2 * n + 2) * hA' + jac a (n + 1) * hB'
    - 2 * jac a n * hC'

theorem natCast_ne {m : ℕ} (h : 0 < m) : (m : ℝ[X]) ≠ 0 := by
  exact_mod_cast h.ne'

/-- The structure relations. -/
theorem jac_structure (a n : ℕ) :
    ((2 * n + a + 2 : ℕ) : ℝ[X]) * (2 * Y * (1 - Y)) * derivative (jac a n)
        = (n + a + 1) * (a + (2 * n + a + 2) * (2 * Y - 1)) * jac a n
          - 2 * (n + 1) * (n + a + 1) * jac a (n + 1) ∧
    ((2 * n + a + 2 : ℕ) : ℝ[X]) * (2 * Y * (1 - Y)) * derivative (jac a (n + 1))
        = (n + 1) * (a - (2 * n + a + 2) * (2 * Y - 1)) * jac a (n + 1)
          + 2 * (n + 1) * (n + 1 + a) * jac a n := by
  induction n with
  | zero =>
    have h1 := two_jac_one a
    have h2 : (2 : ℝ[X]) * derivative (jac a 1) = 2 * (a + 2) := by
      have := congrArg derivative h1
      simp at this
      linear_combination this
    constructor
    · rw [jac_zero, derivative_one]
      push_cast
      linear_combination (a + 1) * h1
    · rw [jac_zero]
      have : (2 : ℝ[X]) ≠ 0 := by exact_mod_cast natCast_ne (m := 2) (by norm_num)
      apply mul_left_cancel₀ this
      push_cast
      linear_combination ((a : ℝ[X]) + 2) * (2 * Y * (1 - Y)) * h2
        - (a - (a + 2) * (2 * Y - 1)) * h1
  | succ n ih =>
    obtain ⟨S', S⟩ := ih
    have R := jac_rec a n
    have DR := congrArg derivative R
    simp only [derivative_mul, derivative_sub, derivative_add, derivative_natCast,
      derivative_ofNat, derivative_one, derivative_X, derivative_pow] at DR
    push_cast at S S' ⊢
    have hd : ((a : ℝ[X]) + 2 * n + 2) ≠ 0 := by
      exact_mod_cast natCast_ne (m := a + 2 * n + 2) (by omega)
    have hc : 2 * ((n : ℝ[X]) + 2) * (a + n + 2) ≠ 0 := by
      exact_mod_cast natCast_ne (m := 2 * (n + 2) * (a + n + 2)) (by positivity)
    constructor
    · apply mul_left_cancel₀ hd
      linear_combination ((a : ℝ[X]) + 2 * n + 4) * S + R
    · apply mul_left_cancel₀ (mul_ne_zero (mul_ne_zero hd hd) hc)
      linear_combination ((a : ℝ[X]) + 2 * n + 4) * (a + 2 * n + 2) * (2 * Y * (1 - Y)) * DR
        + ((a : ℝ[X]) + 2 * n + 4) * (a + 2 * n + 3)
          * ((a + 2 * n + 2) * (a + 2 * n + 4) * (2 * Y - 1) + a ^ 2) * S
        - ((a : ℝ[X]) + 2 * n + 4) * (2 * (n + 1) * (n + 1 + a) * (a + 2 * n + 4)) * S'
        - (a + 2 * n + 2) * (n + 2) * (a - (a + 2 * n + 4) * (2 * Y - 1)) * R

/-- The differential equation. -/
theorem jac_ode (a n : ℕ) :
    Y * (1 - Y) * derivative (derivative (jac a n)) + (1 - (a + 2) * Y) * derivative (jac a n)
      + (n * (n + a + 1) : ℝ[X]) * jac a n = 0 := by
  cases n with
  | zero => rw [jac_zero]; simp
  | succ n =>
    obtain ⟨S', S⟩ := jac_structure a n
    have DS := congrArg derivative S
    simp only [derivative_mul, derivative_sub, derivative_add, derivative_natCast,
      derivative_ofNat, derivative_one, derivative_X, derivative_pow] at DS
    push_cast at S S' DS ⊢
    have hd : ((a : ℝ[X]) + 2 * n + 2) ≠ 0 := by
      exact_mod_cast natCast_ne (m := a + 2 * n + 2) (by omega)
    have h2 : (2 : ℝ[X]) ≠ 0 := by exact_mod_cast natCast_ne (m := 2) (by norm_num)
    have hX : (2 * Y * (1 - Y) : ℝ[X]) ≠ 0 := by
      intro h
      have := congrArg (eval 2) h
      simp at this
      norm_num at this
    apply mul_left_cancel₀ (mul_ne_zero (mul_ne_zero hX (mul_ne_zero hd hd)) h2)
    linear_combination (2 * Y * (1 - Y)) * (a + 2 * n + 2) * DS
      + 2 * (n + 1) * (n + 1 + a) * S'
      - (n + 1 + a) * (a + (a + 2 * n + 2) * (2 * Y - 1)) * S

/-! ### Integrals -/

theorem integral_derivative (f : ℝ[X]) :
    ∫ y in (0 : ℝ)..1, (derivative f).eval y = f.eval 1 - f.eval 0 :=
  intervalIntegral.integral_eq_sub_of_hasDerivAt (fun y _ => f.hasDerivAt y)
    ((derivative f).continuous.intervalIntegrable _ _)

/-- Integral of a polynomial over `[0,1]`. -/
noncomputable def int (f : ℝ[X]) : ℝ := ∫ y in (0 : ℝ)..1, f.eval y

theorem int_add (f g : ℝ[X]) : int (f + g) = int f + int g := by
  unfold int
  simp only [eval_add]
  exact intervalIntegral.integral_add (f.continuous.intervalIntegrable _ _)
    (g.continuous.intervalIntegrable _ _)

theorem int_mul (c : ℝ) (f : ℝ[X]) : int (C c * f) = c * int f := by
  unfold int
  simp only [eval_mul, eval_C]
  exact intervalIntegral.integral_const_mul _ _

theorem int_sub (f g : ℝ[X]) : int (f - g) = int f - int g := by
  have h := int_mul (-1) g
  rw [show f - g = f + C (-1) * g by simp; ring, int_add, h]
  ring

theorem jac_orthogonal' {a m n : ℕ} (h : m ≠ n) : int ((1 - Y) ^ a * jac a m * jac a n) = 0 := by
  have e : derivative (Y * (1 - Y) ^ (a + 1) *
        (derivative (jac a m) * jac a n - jac a m * derivative (jac a n)))
      = C ((n * (n + a + 1) - m * (m + a + 1) : ℝ)) * ((1 - Y) ^ a * jac a m * jac a n) := by
    have h1 := jac_ode a m
    have h2 := jac_ode a n
    simp only [derivative_mul, derivative_sub, derivative_add, derivative_natCast,
      derivative_ofNat, derivative_one, derivative_X, derivative_pow]
    rw [show (C ((n * (n + a + 1) - m * (m + a + 1) : ℝ)) : ℝ[X]) =
      (n * (n + a + 1) - m * (m + a + 1) : ℝ[X]) by simp, Nat.add_sub_cancel,
      show (C ((a + 1 : ℕ) : ℝ) : ℝ[X]) = (a : ℝ[X]) + 1 by simp]
    linear_combination (1 - Y) ^ a * jac a n * h1 - (1 - Y) ^ a * jac a m * h2
  have h3 := integral_derivative (Y * (1 - Y) ^ (a + 1) *
        (derivative (jac a m) * jac a n - jac a m * derivative (jac a n)))
  rw [e] at h3
  have h4 := int_mul (n * (n + a + 1) - m * (m + a + 1) : ℝ) ((1 - Y) ^ a * jac a m * jac a n)
  rw [int, h3] at h4
  simp only [eval_mul, eval_X, eval_pow, eval_sub, eval_one] at h4
  simp only [sub_self, zero_mul, zero_pow (Nat.succ_ne_zero a), mul_zero] at h4
  rcases mul_eq_zero.1 h4.symm with h5 | h5
  · exfalso
    have h6 : ((n : ℝ) - m) * (n + m + a + 1) = 0 := by linear_combination h5
    rcases mul_eq_zero.1 h6 with h7 | h7
    · exact h (by exact_mod_cast (sub_eq_zero.1 h7).symm)
    · have : (0 : ℝ) < n + m + a + 1 := by positivity
      linarith
  · exact h5

theorem int_weight (a : ℕ) : int ((1 - Y) ^ a) = 1 / (a + 1) := by
  have h := integral_derivative (C (-1 / (a + 1 : ℝ)) * (1 - Y) ^ (a + 1))
  have h0 : (a : ℝ) + 1 ≠ 0 := by positivity
  have e : derivative (C (-1 / (a + 1 : ℝ)) * (1 - Y) ^ (a + 1)) = (1 - Y) ^ a := by
    simp only [derivative_mul, derivative_C, derivative_pow, derivative_sub, derivative_one,
      derivative_X, Nat.add_sub_cancel]
    rw [zero_mul, zero_add, show C (-1 / (a + 1 : ℝ)) * (C ((a + 1 : ℕ) : ℝ) * (1 - Y) ^ a * (0 - 1))
      = C (-1 / (a + 1 : ℝ)) * C ((a + 1 : ℕ) : ℝ) * (0 - 1) * (1 - Y) ^ a by ring, ← C_mul]
    push_cast
    rw [div_mul_cancel₀ _ h0]
    simp
  rw [e] at h
  rw [int, h]
  simp
  rw [neg_div, neg_neg, one_div]

theorem jac_norm' (a n : ℕ) : int ((1 - Y) ^ a * jac a n * jac a n) = 1 / (2 * n + a + 1) := by
  induction n with
  | zero => rw [jac_zero, mul_one, mul_one, int_weight]; simp
  | succ n ih =>
    -- `I = ∫ w t P_n P_(n+1)` in two ways
    have R1 : 2 * (n + 1) * (a + n + 1) * int ((1 - Y) ^ a * jac a (n + 1) * jac a (n + 1))
        = (a + 2 * n + 1) * (a + 2 * n + 2) *
          int ((1 - Y) ^ a * (2 * Y - 1) * jac a n * jac a (n + 1)) := by
      cases n with
      | zero =>
        have h1 := two_jac_one a
        have h2 : C 2 * ((1 - Y) ^ a * jac a 1 * jac a 1)
            = C (a + 2 : ℝ) * ((1 - Y) ^ a * (2 * Y - 1) * jac a 0 * jac a 1)
              + C (a : ℝ) * ((1 - Y) ^ a * jac a 0 * jac a 1) := by
          rw [jac_zero]
          simp only [C_add, map_ofNat, map_natCast]
          linear_combination (1 - Y) ^ a * jac a 1 * h1
        have h3 := congrArg int h2
        rw [int_add, int_mul, int_mul, int_mul, jac_orthogonal' (by norm_num : (0 : ℕ) ≠ 1)] at h3
        push_cast
        rw [zero_add]
        linear_combination ((a : ℝ) + 1) * h3
      | succ n =>
        have h1 := jac_rec a n
        have h2 : C (2 * (n + 2) * (a + n + 2) * (a + 2 * n + 2) : ℝ) *
              ((1 - Y) ^ a * jac a (n + 2) * jac a (n + 2))
            = C ((a + 2 * n + 3) * (a + 2 * n + 2) * (a + 2 * n + 4) : ℝ)
                * ((1 - Y) ^ a * (2 * Y - 1) * jac a (n + 1) * jac a (n + 2))
              + C ((a + 2 * n + 3) * a ^ 2 : ℝ) * ((1 - Y) ^ a * jac a (n + 1) * jac a (n + 2))
              - C (2 * (n + 1) * (n + 1 + a) * (a + 2 * n + 4) : ℝ)
                * ((1 - Y) ^ a * jac a n * jac a (n + 2)) := by
          simp only [C_add, C_mul, C_pow, map_ofNat, map_natCast, C_1]
          linear_combination (1 - Y) ^ a * jac a (n + 2) * h1
        have h3 := congrArg int h2
        rw [int_sub, int_add, int_mul, int_mul, int_mul, int_mul,
          jac_orthogonal' (by omega : n + 1 ≠ n + 2), jac_orthogonal' (by omega : n ≠ n + 2)] at h3
        have h4 : (a : ℝ) + 2 * n + 2 ≠ 0 := by positivity
        apply mul_left_cancel₀ h4
        push_cast
        linear_combination h3
    have h1 := jac_rec a n
    have h2 : C (2 * (n + 2) * (a + n + 2) * (a + 2 * n + 2) : ℝ) *
          ((1 - Y) ^ a * jac a (n + 2) * jac a n)
        = C ((a + 2 * n + 3) * (a + 2 * n + 2) * (a + 2 * n + 4) : ℝ)
            * ((1 - Y) ^ a * (2 * Y - 1) * jac a n * jac a (n + 1))
          + C ((a + 2 * n + 3) * a ^ 2 : ℝ) * ((1 - Y) ^ a * jac a (n + 1) * jac a n)
          - C (2 * (n + 1) * (n + 1 + a) * (a + 2 * n + 4) : ℝ)
            * ((1 - Y) ^ a * jac a n * jac a n) := by
      simp only [C_add, C_mul, C_pow, map_ofNat, map_natCast, C_1]
      linear_combination (1 - Y) ^ a * jac a n * h1
    have R2 := congrArg int h2
    rw [int_sub, int_add, int_mul, int_mul, int_mul, int_mul,
      jac_orthogonal' (by omega : n + 1 ≠ n), jac_orthogonal' (by omega : n + 2 ≠ n), ih] at R2
    have h4 : (2 : ℝ) * n + a + 1 ≠ 0 := by positivity
    have h5 : (2 : ℝ) * (n + 1) + a + 1 ≠ 0 := by positivity
    have h6 : (2 : ℝ) * (n + 1) * (a + n + 1) * (a + 2 * n + 4) ≠ 0 := by positivity
    have h7 : ((2 : ℝ) * n + a + 1) * (1 / (2 * n + a + 1)) = 1 := by field_simp
    push_cast
    rw [eq_div_iff h5]
    apply mul_left_cancel₀ h6
    linear_combination (a + 2 * n + 3) * (a + 2 * n + 4) * R1 - (a + 2 * n + 1) * R2
      + 2 * (n + 1) * (n + 1 + a) * (a + 2 * n + 4) * h7

end Verif.Orthogonal
