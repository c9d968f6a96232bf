import Verif.Quadrature.Model
import Verif.Quadrature.Spec
import Mathlib.Algebra.Polynomial.AlgebraMap
import Mathlib.Algebra.Polynomial.Degree.Lemmas
/-! # Helper lemmas for the quadrature properties -/

namespace Verif.Quadrature

open Polynomial

theorem quadValue_cons (x w : ℝ) (pts wts : List ℝ) (f : ℝ → ℝ) :
    quadValue (x :: pts) (w :: wts) f = w * f x + quadValue pts wts f := by
  simp [quadValue]

theorem quadValue_nil (f : ℝ → ℝ) : quadValue [] [] f = 0 := by simp [quadValue]

theorem quadValue_add (pts wts : List ℝ) (f g : ℝ → ℝ) :
    quadValue pts wts (fun x => f x + g x) = quadValue pts wts f + quadValue pts wts g := by
  induction pts generalizing wts with
  | nil => simp [quadValue]
  | cons x pts ih =>
    cases wts with
    | nil => simp [quadValue]
    | cons w wts => rw [quadValue_cons, quadValue_cons, quadValue_cons, ih]; ring

theorem quadValue_smul (pts wts : List ℝ) (c : ℝ) (f : ℝ → ℝ) :
    quadValue pts wts (fun x => c * f x) = c * quadValue pts wts f := by
  induction pts generalizing wts with
  | nil => simp [quadValue]
  | cons x pts ih =>
    cases wts with
    | nil => simp [quadValue]
    | cons w wts => rw [quadValue_cons, quadValue_cons, ih]; ring

theorem quadValue_zero (pts wts : List ℝ) : quadValue pts wts (fun _ => 0) = 0 := by
  have := quadValue_smul pts wts 0 (fun _ => 0)
  simpa using this

theorem quadValue_sum (pts wts : List ℝ) {ι : Type} (s : Finset ι) (f : ι → ℝ → ℝ) :
    quadValue pts wts (fun x => ∑ i ∈ s, f i x) = ∑ i ∈ s, quadValue pts wts (f i) := by
  classical
  induction s using Finset.induction_on with
  | empty => simp [quadValue_zero]
  | insert a s ha ih =>
    simp only [Finset.sum_insert ha, quadValue_add, ih]

/-- The integral of the powers of the centred variable. -/
theorem integral_centred (k : ℕ) : ∫ x in (0 : ℝ)..1, (2 * x - 1) ^ k =
    (1 - (-1) ^ (k + 1)) / (2 * (k + 1)) := by
  have h := intervalIntegral.integral_comp_mul_sub (a := 0) (b := 1) (fun y : ℝ => y ^ k)
    (two_ne_zero) 1
  rw [h, integral_pow]
  have hk : (k : ℝ) + 1 ≠ 0 := by positivity
  norm_num
  field_simp

/-- Exactness on the powers of the centred variable gives exactness on all polynomials. -/
theorem exactTo_of_centred {pts wts : List ℝ} {d : ℕ}
    (h : ∀ k ≤ d, quadValue pts wts (fun x => (2 * x - 1) ^ k) =
      (1 - (-1) ^ (k + 1)) / (2 * (k + 1))) : ExactTo pts wts d := by
  intro p hp
  set q : ℝ[X] := p.comp (C (1 / 2) * X + C (1 / 2)) with hq
  have hdeg : q.natDegree ≤ d := by
    refine le_trans natDegree_comp_le ?_
    have : (C (1 / 2) * X + C (1 / 2) : ℝ[X]).natDegree ≤ 1 := natDegree_linear_le
    calc p.natDegree * _ ≤ p.natDegree * 1 := Nat.mul_le_mul_left _ this
      _ ≤ d := by omega
  have hev : ∀ x : ℝ, p.eval x = ∑ k ∈ Finset.range (d + 1), q.coeff k * (2 * x - 1) ^ k := by
    intro x
    rw [← eval_eq_sum_range' (Nat.lt_succ_of_le hdeg)]
    simp only [hq, eval_comp, eval_add, eval_mul, eval_C, eval_X]
    congr 1
    ring
  have e1 : (fun x => p.eval x) = fun x => ∑ k ∈ Finset.range (d + 1), q.coeff k * (2 * x - 1) ^ k :=
    funext hev
  rw [e1, quadValue_sum, intervalIntegral.integral_finsetSum]
  · refine Finset.sum_congr rfl fun k hk => ?_
    have hk' : k ≤ d := by simpa [Nat.lt_succ_iff] using hk
    rw [quadValue_smul, h k hk', intervalIntegral.integral_const_mul, integral_centred]
  · intro k _
    apply Continuous.intervalIntegrable
    fun_prop

/-- Exactness on monomials gives exactness on all polynomials. -/
theorem exactTo_of_monomials {pts wts : List ℝ} {d : ℕ}
    (h : ∀ k ≤ d, quadValue pts wts (fun x => x ^ k) = 1 / (k + 1)) : ExactTo pts wts d := by
  intro p hp
  have e1 : (fun x => p.eval x) = fun x => ∑ k ∈ Finset.range (d + 1), p.coeff k * x ^ k :=
    funext fun x => eval_eq_sum_range' (Nat.lt_succ_of_le hp) x
  rw [e1, quadValue_sum, intervalIntegral.integral_finsetSum]
  · refine Finset.sum_congr rfl fun k hk => ?_
    have hk' : k ≤ d := by simpa [Nat.lt_succ_iff] using hk
    rw [quadValue_smul, h k hk', intervalIntegral.integral_const_mul, integral_pow]
    norm_num
  · intro k _
    apply Continuous.intervalIntegrable
    fun_prop

theorem quadValue_map_range (f g : ℕ → ℝ) (φ : ℝ → ℝ) (n : ℕ) :
    quadValue ((List.range n).map f) ((List.range n).map g) φ =
      ∑ i ∈ Finset.range n, g i * φ (f i) := by
  unfold quadValue
  rw [List.zipWith_map, List.zipWith_self]
  rfl

end Verif.Quadrature
