import Mathlib.Algebra.Order.Field.Basic
import Mathlib.Algebra.BigOperators.Group.Finset.Basic
/-!
# Specification vocabulary for shapes
-/

namespace Verif.References

variable {K : Type} [Field K] [LinearOrder K]

/-- `p` is a convex combination of the first `n` points of `v` (in `g` coordinates). -/
def Hull (g n : ℕ) (v : ℕ → ℕ → K) (p : ℕ → K) : Prop :=
  ∃ lam : ℕ → K, (∀ i < n, 0 ≤ lam i) ∧ ∑ i ∈ Finset.range n, lam i = 1 ∧
    ∀ j < g, p j = ∑ i ∈ Finset.range n, lam i * v i j

/-- `p` is strictly inside: a convex combination with all weights positive. -/
def StrictHull (g n : ℕ) (v : ℕ → ℕ → K) (p : ℕ → K) : Prop :=
  ∃ lam : ℕ → K, (∀ i < n, 0 < lam i) ∧ ∑ i ∈ Finset.range n, lam i = 1 ∧
    ∀ j < g, p j = ∑ i ∈ Finset.range n, lam i * v i j

/-- Two points differ in one of the first `g` coordinates. -/
def Differ (g : ℕ) (p q : ℕ → K) : Prop := ∃ j < g, p j ≠ q j

/-- The vectors `a 0, ..., a (m - 1)` are linearly independent in `g` coordinates. -/
def Indep (g m : ℕ) (a : ℕ → ℕ → K) : Prop :=
  ∀ t : ℕ → K, (∀ j < g, ∑ k ∈ Finset.range m, t k * a k j = 0) → ∀ k < m, t k = 0

end Verif.References
