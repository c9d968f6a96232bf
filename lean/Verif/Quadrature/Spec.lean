import Mathlib.Analysis.SpecialFunctions.Integrals.Basic
import Mathlib.Algebra.Polynomial.Eval.Defs
import Mathlib.Algebra.Polynomial.Degree.Defs
/-! # What it means for a quadrature rule on [0,1] to be exact -/

namespace Verif.Quadrature

open Polynomial

/-- The value of the rule on a function: the sum of weight times value at the point. -/
noncomputable def quadValue (pts wts : List ℝ) (f : ℝ → ℝ) : ℝ :=
  (List.zipWith (fun x w => w * f x) pts wts).sum

/-- The rule integrates every polynomial of degree at most `d` exactly over `[0,1]`. -/
def ExactTo (pts wts : List ℝ) (d : ℕ) : Prop :=
  ∀ p : ℝ[X], p.natDegree ≤ d → quadValue pts wts (fun x => p.eval x) = ∫ x in (0 : ℝ)..1, p.eval x

/-- A well-formed `n`-point rule: `n` points in `[0,1]` in increasing order, `n` positive weights. -/
structure WellFormed (pts wts : List ℝ) (n : ℕ) : Prop where
  points_length : pts.length = n
  weights_length : wts.length = n
  increasing : pts.Pairwise (· < ·)
  inside : ∀ x ∈ pts, 0 ≤ x ∧ x ≤ 1
  positive : ∀ w ∈ wts, 0 < w

end Verif.Quadrature
