import Verif.Orthogonal.Lobatto

/-!
# Lobatto polynomials (C33)
-/

set_option linter.unusedSectionVars false
set_option linter.unusedSimpArgs false

namespace Verif.Orthogonal

open Verif.References Polynomial

/-- The antiderivative of a Legendre polynomial (from the differential equation). -/
theorem integral_leg (n : ℕ) (y : ℝ) : ∫ t in (0 : ℝ)..y, (jac 0 (n + 1)).eval t =
    -(y * (1 - y) * (derivative (jac 0 (n + 1))).eval y) / ((n + 1) * (n + 2)) := by
  have hd : derivative (X * (1 - X) * derivative (jac 0 (n + 1))) =
      C (-((n + 1) * (n + 2) : ℝ)) * jac 0 (n + 1) := by
    have h := jac_ode 0 (n + 1)
    simp only [derivative_mul, derivative_sub, derivative_one, derivative_X, C_neg, C_mul, C_add,
      map_natCast, C_1, map_ofNat] at h ⊢
    push_cast at h
    linear_combination h
  have key : ∫ t in (0 : ℝ)..y, (C (-((n + 1) * (n + 2) : ℝ)) * jac 0 (n + 1)).eval t =
      (X * (1 - X) * derivative (jac 0 (n + 1))).eval y -
        (X * (1 - X) * derivative (jac 0 (n + 1))).eval 0 := by
    rw [← hd]
    exact intervalIntegral.integral_eq_sub_of_hasDerivAt (fun t _ => Polynomial.hasDerivAt _ t)
      ((Polynomial.continuous _).intervalIntegrable _ _)
  simp only [eval_mul, eval_C, eval_X, eval_sub, eval_one, intervalIntegral.integral_const_mul] at key
  have h0 : ((n : ℝ) + 1) * (n + 2) ≠ 0 := by positivity
  rw [eq_div_iff h0]
  linear_combination -key

/-- The row of orthonormal Legendre polynomials. -/
theorem orthonormal_interval_row (m : ℕ) :
    rowOf ((orthonormalBasis .interval m 0).getD []) 0 =
      (List.range (m + 1)).map fun n : ℕ => fun p : ℕ → ℝ =>
        (jac 0 n).eval (p 0) / √(1 / (2 * (n : ℝ) + 1)) := by
  have hrow : rowOf (orthogonalInterval (var 0) m 0) 0 =
      (List.range (m + 1)).map fun n : ℕ => fun p : ℕ → ℝ => (jac 0 n).eval (p 0) := by
    apply List.ext_getElem?
    intro n
    by_cases hn : n < m + 1
    · rw [rowOf_get (interval_value (var 0) (order := m) (derivs := 0) (i := n) (by omega))]
      rw [List.getElem?_map, List.getElem?_range hn]
      simp only [Option.map_some, Option.some.injEq]
      funext p
      have h := map_hjac (Pi.evalAlgHom ℚ (fun _ : ℕ → ℝ => ℝ) p) 0 (2 * var 0 - 1) 1 n
      have h2 := hjac_eval 0 n (p 0)
      rw [Nat.cast_zero] at h2
      rw [← h2]
      exact h
    · rw [List.getElem?_eq_none, List.getElem?_eq_none]
      · simp; omega
      · rw [rowOf_length (orthogonalInterval_shape _ _ _) (by omega)]; omega
  have hnorm : ∀ n : ℕ, cellInt .interval (fun p => (jac 0 n).eval (p 0) ^ 2) =
      1 / (2 * (n : ℝ) + 1) := by
    intro n
    have h := jac_pair 0 n n
    rw [cellInt_interval, if_pos rfl] at *
    simp only [pow_zero, one_mul, Nat.cast_zero, add_zero] at h
    simp only [Function.update_self, pow_two]
    rw [← h]
    refine intervalIntegral.integral_congr fun y _ => ?_
    have e := hjac_eval 0 n y
    rw [Nat.cast_zero] at e
    simp only [e]
  simp only [orthonormalBasis, orthogonalBasis, Option.map_some, Option.getD_some]
  have hlen : (orthogonalInterval (var 0) m 0).length = 1 := (orthogonalInterval_shape _ _ _).1
  obtain ⟨r, hr⟩ := List.length_eq_one_iff.1 hlen
  rw [hr] at hrow ⊢
  simp only [rowOf, List.map_cons, List.map_nil, List.getElem?_cons_zero, Option.getD_some] at hrow ⊢
  rw [hrow, List.map_map, List.zipWith_map_left, List.zipWith_map_right, List.zipWith_self]
  simp only [Function.comp_apply, hnorm]

/-- Member `k` of the Lobatto basis on the interval, for `k > 0`. -/
theorem lobattoInterval_get (order k : ℕ) (hk : k + 1 < order + 1) :
    (lobattoInterval order)[k + 1]? = some fun p : ℕ → ℝ =>
      (∫ t in (0 : ℝ)..p 0, (jac 0 k).eval t) / √(1 / (2 * (k : ℝ) + 1)) := by
  unfold lobattoInterval
  rw [List.getElem?_cons_succ, orthonormal_interval_row, List.getElem?_map, List.getElem?_map,
    List.getElem?_range (by omega)]
  simp only [Option.map_some, Option.some.injEq]
  funext p
  unfold antider
  simp only [Function.update_self, intervalIntegral.integral_div]

theorem lobattoInterval_length (order : ℕ) (h : 0 < order) :
    (lobattoInterval order).length = order + 1 := by
  unfold lobattoInterval
  rw [orthonormal_interval_row]
  simp
  omega

/-- The factor of a bubble. -/
noncomputable def lobCoeff (k : ℕ) : ℝ := -1 / ((k + 1) * (k + 2)) / √(1 / (2 * ((k : ℝ) + 1) + 1))

/-- **C33** Bubble `k` is a non-zero multiple of `x (1 - x) P'_(k+1)(x)`. -/
theorem lobatto_bubble (order k : ℕ) (hk : k + 2 < order + 1) :
    ((lobattoInterval order).drop 2)[k]? = some fun p : ℕ → ℝ =>
      lobCoeff k * (p 0 * (1 - p 0) * (derivative (jac 0 (k + 1))).eval (p 0)) := by
  rw [List.getElem?_drop, show 2 + k = (k + 1) + 1 by omega, lobattoInterval_get order (k + 1) (by omega)]
  simp only [Option.some.injEq]
  funext p
  rw [integral_leg]
  unfold lobCoeff
  push_cast
  ring

theorem lobatto_bubble_mem {order : ℕ} (h : 0 < order) {f : Fn}
    (hf : f ∈ (lobattoInterval order).drop 2) : ∃ k, k + 2 < order + 1 ∧ f = fun p : ℕ → ℝ =>
      lobCoeff k * (p 0 * (1 - p 0) * (derivative (jac 0 (k + 1))).eval (p 0)) := by
  obtain ⟨k, hk⟩ := List.mem_iff_getElem?.1 hf
  have hlt : k + 2 < order + 1 := by
    have h1 := (List.getElem?_eq_some_iff.1 hk).1
    rw [List.length_drop, lobattoInterval_length order h] at h1
    omega
  rw [lobatto_bubble order k hlt, Option.some.injEq] at hk
  exact ⟨k, hlt, hk.symm⟩

/-- **C33** The functions of `lobatto_basis(cell, order, False)` vanish on the boundary of the cell:
where a coordinate is `0` or `1`. -/
theorem lobattoBasis_boundary {c : Cell} {order : ℕ} (h : 0 < order) {l : List Fn}
    (hl : lobattoBasis c order false = some l) {f : Fn} (hf : f ∈ l) {p : ℕ → ℝ} {i : ℕ}
    (hi : i < c.tdim) (hp : p i = 0 ∨ p i = 1) : f p = 0 := by
  have key : ∀ g ∈ (lobattoInterval order).drop 2, ∀ q : ℕ → ℝ, (q 0 = 0 ∨ q 0 = 1) → g q = 0 := by
    intro g hg q hq
    obtain ⟨k, -, rfl⟩ := lobatto_bubble_mem h hg
    rcases hq with hq | hq <;> simp [hq]
  unfold lobattoBasis tensor at hl
  rw [if_neg (by simp)] at hl
  split at hl <;> simp only [Option.some.injEq, reduceCtorEq] at hl
  · subst hl
    have : i = 0 := by simp [Cell.tdim] at hi; exact hi
    subst this
    exact key f hf p hp
  · subst hl
    simp only [List.mem_flatMap, List.mem_map] at hf
    obtain ⟨a, ha, b, hb, rfl⟩ := hf
    have : i = 0 ∨ i = 1 := by simp [Cell.tdim] at hi; omega
    rcases this with rfl | rfl
    · rw [Pi.mul_apply, key a ha p hp, zero_mul]
    · rw [Pi.mul_apply, subsVar, key b hb _ (by simpa using hp), mul_zero]
  · subst hl
    simp only [List.mem_flatMap, List.mem_map] at hf
    obtain ⟨a, ha, b, hb, d, hd, rfl⟩ := hf
    have : i = 0 ∨ i = 1 ∨ i = 2 := by simp [Cell.tdim] at hi; omega
    rcases this with rfl | rfl | rfl
    · rw [Pi.mul_apply, Pi.mul_apply, key a ha p hp, zero_mul, zero_mul]
    · rw [Pi.mul_apply, Pi.mul_apply, subsVar, key b hb _ (by simpa using hp), mul_zero, zero_mul]
    · have : subsVar 2 d p = 0 := key d hd _ (by simpa using hp)
      rw [Pi.mul_apply, this, mul_zero]

/-! ### Degrees -/

theorem jac_zero_degree (n : ℕ) : (jac 0 n).degree = n := by
  have h := degree_leg n
  have e : jac 0 n = (hjac 0 (2 * X - 1) 1 n : ℚ[X]).map (algebraMap ℚ ℝ) := by
    have := map_hjac (Polynomial.mapAlgHom (Algebra.ofId ℚ ℝ) : ℚ[X] →ₐ[ℚ] ℝ[X]) 0 (2 * X - 1) 1 n
    rw [jac, Nat.cast_zero]
    have h2 : (Polynomial.mapAlgHom (Algebra.ofId ℚ ℝ) : ℚ[X] →ₐ[ℚ] ℝ[X]) (2 * X - 1) = 2 * X - 1 := by
      simp
    rw [h2, map_one] at this
    exact this.symm
  rw [e, Polynomial.degree_map, h]

/-- The polynomial of bubble `k`. -/
noncomputable def bubblePoly (k : ℕ) : ℝ[X] :=
  C (lobCoeff k) * (X * (1 - X) * derivative (jac 0 (k + 1)))

theorem bubblePoly_degree (k : ℕ) : (bubblePoly k).degree = (k + 2 : ℕ) := by
  have hc : lobCoeff k ≠ 0 := by
    unfold lobCoeff
    apply div_ne_zero
    · apply div_ne_zero (by norm_num); positivity
    · positivity
  have h1 : (1 - X : ℝ[X]).degree = 1 := by
    rw [show (1 - X : ℝ[X]) = C (-1) * X + C 1 by simp; ring]
    exact degree_linear (by norm_num)
  have h2 : (derivative (jac 0 (k + 1))).degree = k := by
    rw [degree_derivative (by rw [natDegree_eq_of_degree_eq_some (jac_zero_degree (k + 1))]; omega),
      natDegree_eq_of_degree_eq_some (jac_zero_degree (k + 1)), Nat.add_sub_cancel]
  rw [bubblePoly, degree_C_mul hc, degree_mul, degree_mul, degree_X, h1, h2]
  norm_cast
  omega

/-- **C33** On the interval, bubble `k` is a polynomial of degree `k + 2`, and there are
`order - 1` bubbles. -/
theorem lobattoBasis_degree {order : ℕ} (h : 0 < order) : ∃ l, lobattoBasis .interval order false = some l ∧
    l.length = order - 1 ∧ ∀ k f, l[k]? = some f →
      ∃ P : ℝ[X], P.degree = (k + 2 : ℕ) ∧ ∀ p, f p = P.eval (p 0) := by
  refine ⟨_, rfl, ?_, ?_⟩
  · simp [lobattoInterval_length order h]
  · intro k f hk
    simp only [Bool.false_eq_true, if_false] at hk
    have hlt : k + 2 < order + 1 := by
      have h1 := (List.getElem?_eq_some_iff.1 hk).1
      rw [List.length_drop, lobattoInterval_length order h] at h1
      omega
    rw [lobatto_bubble order k hlt, Option.some.injEq] at hk
    refine ⟨bubblePoly k, bubblePoly_degree k, fun p => ?_⟩
    rw [← hk]
    simp [bubblePoly]

end Verif.Orthogonal
