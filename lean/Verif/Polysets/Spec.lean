import Verif.Polysets.Model
import Mathlib.Algebra.MvPolynomial.Basic
import Mathlib.LinearAlgebra.LinearIndependent.Defs
/-!
# Specification vocabulary for polynomial sets

The polynomials denoted by the model's lists are Mathlib multivariate polynomials in the variables
`X 0, X 1, X 2` over a field `K`.
-/

namespace Verif.Polysets

open MvPolynomial

/-- The monomial with the given exponents: `X 0 ^ a * X 1 ^ b * ...`, with variables numbered from
`s`. -/
noncomputable def monoFrom (K : Type) [CommSemiring K] : ℕ → Mono → MvPolynomial ℕ K
  | _, [] => 1
  | s, a :: t => X s ^ a * monoFrom K (s + 1) t

/-- The polynomial denoted by a monomial. -/
noncomputable def denoteMono (K : Type) [CommSemiring K] (m : Mono) : MvPolynomial ℕ K :=
  monoFrom K 0 m

/-- The polynomial denoted by a list of terms. -/
noncomputable def denotePoly (K : Type) [CommRing K] (p : Poly) : MvPolynomial ℕ K :=
  (p.map fun t => C (t.1 : K) * denoteMono K t.2).sum

/-- The vector of polynomials denoted by a vector function with `r` components. -/
noncomputable def denoteVec (K : Type) [CommRing K] (r : ℕ) (v : VecPoly) :
    Fin r → MvPolynomial ℕ K :=
  fun i => denotePoly K (v[(i : ℕ)]?.getD [])

/-- The superlinear degree of a monomial: the degree, not counting variables that appear to the
first power. -/
def superlinearDegree (m : Mono) : ℕ := (m.filter (· ≠ 1)).sum

/-- A list of polynomials is linearly independent. -/
def Independent (K : Type) [Field K] {V : Type} [AddCommGroup V] [Module K V] (l : List V) : Prop :=
  LinearIndependent K (fun i : Fin l.length => l[i])

end Verif.Polysets
