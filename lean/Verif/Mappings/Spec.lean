import Mathlib.Algebra.MvPolynomial.PDeriv
import Mathlib.Algebra.MvPolynomial.Monad
import Mathlib.LinearAlgebra.Matrix.NonsingularInverse

/-!
# Specification vocabulary for the mappings

Independent of the model: affine maps, mutually inverse maps, the differential operators and the
points of a polynomial function.
-/

namespace Verif.Mappings

open MvPolynomial Matrix

variable {n : ℕ} {K : Type*} [Field K]

/-- The affine map `x ↦ A x + b`, as a tuple of polynomials. -/
noncomputable def affine (A : Matrix (Fin n) (Fin n) K) (b : Fin n → K) :
    Fin n → MvPolynomial (Fin n) K :=
  fun i => ∑ j, C (A i j) * X j + C (b i)

/-- `map` and `inv` are affine and `map ∘ inv` is the identity. -/
structure AffinePair (map inv : Fin n → MvPolynomial (Fin n) K)
    (A : Matrix (Fin n) (Fin n) K) (b : Fin n → K) : Prop where
  map_eq : map = affine A b
  inv_affine : ∃ B c, inv = affine B c
  right_inv : ∀ i, bind₁ inv (map i) = X i

/-- The gradient. -/
noncomputable def gradS (f : MvPolynomial (Fin n) K) : Fin n → MvPolynomial (Fin n) K :=
  fun j => pderiv j f

/-- The divergence. -/
noncomputable def divS (v : Fin n → MvPolynomial (Fin n) K) : MvPolynomial (Fin n) K :=
  ∑ j, pderiv j (v j)

/-- The curl of a vector field in three dimensions. -/
noncomputable def curlS (v : Fin 3 → MvPolynomial (Fin 3) K) : Fin 3 → MvPolynomial (Fin 3) K :=
  ![pderiv 1 (v 2) - pderiv 2 (v 1), pderiv 2 (v 0) - pderiv 0 (v 2),
    pderiv 0 (v 1) - pderiv 1 (v 0)]

end Verif.Mappings
