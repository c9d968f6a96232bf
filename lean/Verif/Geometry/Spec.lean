import Mathlib.Algebra.Order.Field.Basic
import Mathlib.Algebra.BigOperators.Fin
/-!
# Specification of point membership
-/

namespace Verif.Geometry

variable {K : Type} [Field K] [LinearOrder K]

/-- `p` is a convex combination of the `n` points `v`. Points are functions of the coordinate. -/
def InHull {d n : ℕ} (p : Fin d → K) (v : Fin n → Fin d → K) : Prop :=
  ∃ lam : Fin n → K, (∀ i, 0 ≤ lam i) ∧ ∑ i, lam i = 1 ∧ ∀ j, p j = ∑ i, lam i * v i j

/-- The inner product. -/
def inner' {d : ℕ} (v w : Fin d → K) : K := ∑ j, v j * w j

/-- Twice the signed area of the triangle `a b c` in the plane. -/
def area2 (a b c : Fin 2 → K) : K := (b 0 - a 0) * (c 1 - a 1) - (b 1 - a 1) * (c 0 - a 0)

/-- Six times the signed volume of a tetrahedron. -/
def volume6 (a b c d : Fin 3 → K) : K :=
  (b 0 - a 0) * ((c 1 - a 1) * (d 2 - a 2) - (c 2 - a 2) * (d 1 - a 1))
    - (b 1 - a 1) * ((c 0 - a 0) * (d 2 - a 2) - (c 2 - a 2) * (d 0 - a 0))
    + (b 2 - a 2) * ((c 0 - a 0) * (d 1 - a 1) - (c 1 - a 1) * (d 0 - a 0))

/-- A point as the tuple passed to the code. -/
def tup {d : ℕ} (p : Fin d → K) : List K := List.ofFn p

end Verif.Geometry
