import Verif.Functions.Model
import Mathlib.Algebra.BigOperators.Fin
import Mathlib.Tactic.FinCases

/-!
# Derivatives (C43)
-/

namespace Verif.Functions

open Expr

/-- **C43** `diff` is the partial derivative, wherever the expression is defined. -/
theorem diff_hasDerivAt (env : String → ℝ) (s : String) (f : Expr) (h : f.Defined env) :
    HasDerivAt (fun v => f.eval (Function.update env s v)) ((f.diff s).eval env) (env s) :=
  hasDerivAt_diff env s f h

example : ((div (sym "x") (sub (num 1) (sym "z"))).diff "z").eval (fun s => if s = "x" then 3 else 0) = 3 := by
  simp [diff, eval]

/-- **C43** Component `i` of `grad` is the partial derivative with respect to coordinate `i`. -/
theorem grad_hasDerivAt (env : String → ℝ) (f : Expr) (h : f.Defined env) (dim : ℕ) (hd : dim ≤ 3)
    (i : ℕ) (hi : i < dim) : ∃ g s, (grad f dim)[i]? = some g ∧ x[i]? = some s ∧
      HasDerivAt (fun v => f.eval (Function.update env s v)) (g.eval env) (env s) := by
  have hx : i < x.length := by simp [x]; omega
  refine ⟨f.diff x[i], x[i], ?_, List.getElem?_eq_getElem hx, hasDerivAt_diff env _ f h⟩
  simp [grad, hi, List.getElem?_eq_getElem hx]

/-- **C43** The curl of a gradient is zero. -/
theorem curl_grad (f : Expr) : ∃ v, vcurl (grad f 3) = some v ∧ v.length = 3 ∧
    ∀ g ∈ v, ∀ env, g.eval env = 0 := by
  refine ⟨_, rfl, rfl, ?_⟩
  intro g hg env
  simp only [List.mem_cons, List.not_mem_nil, or_false, x, List.getD_cons_zero, List.getD_cons_succ] at hg
  rcases hg with rfl | rfl | rfl <;> simp only [eval] <;> rw [diff_comm, sub_self]

/-- **C43** The divergence of a curl is zero. -/
theorem div_curl (v0 v1 v2 : Expr) : ∃ w, vcurl [v0, v1, v2] = some w ∧
    ∀ env, (vdivergence w).eval env = 0 := by
  refine ⟨_, rfl, fun env => ?_⟩
  simp only [vdivergence, x, List.zip_cons_cons, List.foldl_cons, List.zip_nil_right, List.foldl_nil, eval,
    diff]
  rw [diff_comm env "z" "x", diff_comm env "z" "y", diff_comm env "y" "x"]
  ring

/-- A curl exists for three components only. -/
theorem vcurl_isSome (v : List Expr) : (vcurl v).isSome ↔ v.length = 3 := by
  unfold vcurl
  split
  · simp
  · rename_i h
    simp only [Option.isSome_none, Bool.false_eq_true, false_iff]
    intro hl
    obtain ⟨a, b, c, rfl⟩ := List.length_eq_three.1 hl
    exact h a b c rfl

/-- **C43** The divergence of a gradient is the trace of the matrix of second derivatives, in one, two
and three dimensions. -/
theorem div_grad (f : Expr) (dim : ℕ) (hd : dim ≤ 3) (env : String → ℝ) :
    (vdivergence (grad f dim)).eval env = ∑ i ∈ Finset.range dim, (entry (jacobian f dim) i i).eval env := by
  have : dim = 0 ∨ dim = 1 ∨ dim = 2 ∨ dim = 3 := by omega
  rcases this with rfl | rfl | rfl | rfl <;>
    simp [vdivergence, grad, jacobian, jacobianComponent, entry, x, eval, List.range_succ, Finset.sum_range_succ]

/-- **C43** The matrix of second derivatives is symmetric. -/
theorem jacobian_symm (f : Expr) (dim i j : ℕ) (hi : i < dim) (hj : j < dim) (env : String → ℝ) :
    (entry (jacobian f dim) i j).eval env = (entry (jacobian f dim) j i).eval env := by
  simp only [jacobian, entry, List.getElem?_map, List.getElem?_range hi, List.getElem?_range hj,
    Option.map_some, Option.getD_some, jacobianComponent]
  exact diff_comm _ _ _ _

/-- **C43** The directional derivative is the dot product of the direction with the gradient. -/
theorem directionalDerivative_eval (f : Expr) (d : List Expr) (hd : d.length ≤ 3) (env : String → ℝ) :
    ∃ e, vdot d (grad f d.length) = some e ∧ (directionalDerivative f d).eval env = e.eval env := by
  match d, hd with
  | [], _ => exact ⟨_, rfl, rfl⟩
  | [a], _ => exact ⟨_, rfl, rfl⟩
  | [a, b], _ => exact ⟨_, rfl, rfl⟩
  | [a, b, c], _ => exact ⟨_, rfl, rfl⟩

/-- The directional derivative in the direction of an axis is the partial derivative. -/
theorem directionalDerivative_hasDerivAt (f : Expr) (d : Fin 3 → ℝ) (env : String → ℝ) (h : f.Defined env) :
    ∃ g : Fin 3 → ℝ, (∀ i : Fin 3, HasDerivAt (fun v => f.eval (Function.update env (x.getD i "") v)) (g i)
      (env (x.getD i ""))) ∧
      (directionalDerivative f (List.ofFn fun i => num (d i))).eval env = ∑ i, d i * g i := by
  refine ⟨fun i => (f.diff (x.getD i "")).eval env, fun i => hasDerivAt_diff env _ f h, ?_⟩
  simp [directionalDerivative, x, eval, Fin.sum_univ_three]

/-- **C43** Vectors and matrices are differentiated component by component. -/
theorem vdiff_hasDerivAt (env : String → ℝ) (s : String) (v : List Expr) (i : ℕ) (f : Expr)
    (hf : v[i]? = some f) (h : f.Defined env) : ∃ g, (vdiff v s)[i]? = some g ∧
      HasDerivAt (fun a => f.eval (Function.update env s a)) (g.eval env) (env s) :=
  ⟨f.diff s, by simp [vdiff, hf], hasDerivAt_diff env s f h⟩

end Verif.Functions
