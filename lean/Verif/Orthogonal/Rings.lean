import Verif.Orthogonal.Natural
import Verif.Orthogonal.Jacobi
import Mathlib.Algebra.MvPolynomial.PDeriv
import Mathlib.RingTheory.Ideal.Quotient.Operations

/-!
# Rings of expressions

Polynomials in `x`, `y`, `z`, and polynomials in `x`, `y`, `z` and `1/(1-z)`, with their partial
derivatives. These are rings in which the code's expressions live. The values of the tables at real
points follow.
-/

set_option linter.unusedSectionVars false
set_option linter.unusedSimpArgs false

namespace Verif.Orthogonal

open MvPolynomial

/-- Polynomials in three variables. -/
abbrev Pol := MvPolynomial (Fin 3) ℚ

theorem pol_partials : Partials (pderiv 0) (pderiv 1) (pderiv 2) (X 0 : Pol) (X 1) (X 2) := by
  constructor <;> simp [pderiv_X]

/-- Polynomials in four variables; the last will be `1/(1-z)`. -/
abbrev Pol4 := MvPolynomial (Fin 4) ℚ

/-- `w (1 - z) - 1` -/
noncomputable def pyrRel : Pol4 := X 3 * (1 - X 2) - 1

/-- Polynomials in `x`, `y`, `z` and `1/(1-z)`. -/
abbrev PyrRing := Pol4 ⧸ Ideal.span {pyrRel}

/-- Values at the variables. -/
noncomputable def pyrDer (k : Fin 3) : Derivation ℚ Pol4 Pol4 :=
  mkDerivation ℚ fun i => if i = 3 then (if k = 2 then X 3 ^ 2 else 0) else
    if i.val = k.val then 1 else 0

theorem pyrDer_rel (k : Fin 3) :
    pyrDer k pyrRel = (if k = 2 then X 3 else 0) * pyrRel := by
  unfold pyrDer pyrRel
  rw [map_sub, Derivation.leibniz, map_sub, Derivation.map_one_eq_zero, mkDerivation_X,
    mkDerivation_X]
  fin_cases k
  · simp
  · simp
  · simp
    ring

/-- The quotient map. -/
noncomputable abbrev pyrMk : Pol4 →ₐ[ℚ] PyrRing := Ideal.Quotient.mkₐ ℚ (Ideal.span {pyrRel})

theorem pyrDer_ker (k : Fin 3) (f : Pol4) (h : pyrMk f = 0) : pyrMk (pyrDer k f) = 0 := by
  rw [Ideal.Quotient.mkₐ_eq_mk, Ideal.Quotient.eq_zero_iff_mem, Ideal.mem_span_singleton] at *
  obtain ⟨g, rfl⟩ := h
  rw [Derivation.leibniz, pyrDer_rel]
  exact ⟨pyrDer k g + g * (if k = 2 then X 3 else 0), by simp only [smul_eq_mul]; ring⟩

/-- The partial derivatives. -/
noncomputable def pyrD (k : Fin 3) : Derivation ℚ PyrRing PyrRing :=
  Derivation.liftOfSurjective (f := pyrMk) (Ideal.Quotient.mkₐ_surjective ℚ _) (pyrDer_ker k)

theorem pyrD_mk (k : Fin 3) (f : Pol4) : pyrD k (pyrMk f) = pyrMk (pyrDer k f) :=
  Derivation.liftOfSurjective_apply _ (pyrDer_ker k) f

theorem pyr_partials : Partials (pyrD 0) (pyrD 1) (pyrD 2) (pyrMk (X 0)) (pyrMk (X 1))
    (pyrMk (X 2)) := by
  constructor <;> rw [pyrD_mk] <;> simp [pyrDer, mkDerivation_X]

theorem pyr_inv : pyrMk (X 3) * (1 - pyrMk (X 2)) = 1 := by
  rw [← map_one pyrMk, ← map_sub, ← map_mul, ← sub_eq_zero, ← map_sub]
  rw [Ideal.Quotient.mkₐ_eq_mk, Ideal.Quotient.eq_zero_iff_mem]
  exact Ideal.subset_span rfl

/-- Evaluation at a point of a `ℚ`-algebra. -/
noncomputable def pyrEval {A : Type*} [CommRing A] [Algebra ℚ A] (x y z w : A)
    (h : w * (1 - z) = 1) : PyrRing →ₐ[ℚ] A :=
  Ideal.Quotient.liftₐ _ (aeval ![x, y, z, w]) (by
    intro f hf
    rw [Ideal.mem_span_singleton] at hf
    obtain ⟨g, rfl⟩ := hf
    rw [map_mul, pyrRel]
    simp [h])

theorem pyrEval_mk {A : Type*} [CommRing A] [Algebra ℚ A] (x y z w : A) (h : w * (1 - z) = 1)
    (f : Pol4) : pyrEval x y z w h (pyrMk f) = aeval ![x, y, z, w] f := rfl

/-! ### Values -/

variable {A : Type*} [CommRing A] [Algebra ℚ A]

theorem interval_value (x : A) {order derivs i : ℕ} (hi : i ≤ order) :
    entry (orthogonalInterval x order derivs) 0 i = some (hjac 0 (2 * x - 1) 1 i) := by
  have h := interval_entry (pderiv 0) (X 0 : Pol) (by simp) (Nat.zero_le derivs) hi
  have e := orthogonalInterval_map (aeval ![x, 0, 0]) (X 0 : Pol) order derivs
  rw [aeval_X] at e
  change orthogonalInterval x order derivs = _ at e
  rw [e, entry_map, h]
  simp [map_hjac]

theorem triangle_value (x y : A) {order derivs p q : ℕ} (hi : p + q ≤ order) :
    entry (orthogonalTriangle x y order derivs) 0 (triIndex q p) = some (triMember x y q p) := by
  have h := triangle_entry (pderiv 0) (pderiv 1) (X 0 : Pol) (X 1) (by simp) (by simp [pderiv_X])
    (by simp [pderiv_X]) (by simp) hi (dx := 0) (dy := 0) (Nat.zero_le derivs)
  have e := orthogonalTriangle_map (aeval ![x, y, 0]) (X 0 : Pol) (X 1) order derivs
  rw [aeval_X, aeval_X] at e
  change orthogonalTriangle x y order derivs = _ at e
  rw [show triIndex 0 0 = 0 from rfl] at h
  rw [e, entry_map, h]
  simp [map_hjac, triMember]

theorem tetrahedron_value (x y z : A) {order derivs p q r : ℕ} (hi : p + q + r ≤ order) :
    entry (orthogonalTetrahedron x y z order derivs) 0 (tetIndex r q p) =
      some (tetMember x y z r q p) := by
  have h := tetrahedron_entry _ _ _ _ _ _ pol_partials hi (dx := 0) (dy := 0) (dz := 0)
    (Nat.zero_le derivs)
  have e := orthogonalTetrahedron_map (aeval ![x, y, z]) (X 0 : Pol) (X 1) (X 2) order derivs
  rw [aeval_X, aeval_X, aeval_X] at e
  change orthogonalTetrahedron x y z order derivs = _ at e
  rw [show tetIndex 0 0 0 = 0 from rfl] at h
  rw [e, entry_map, h]
  simp [map_hjac, tetMember, mixed]

theorem quadrilateral_value (x y : A) {order derivs a b : ℕ} (ha : a ≤ order) (hb : b ≤ order) :
    entry (orthogonalQuadrilateral x y order derivs) 0 (a * (order + 1) + b) =
      some (hjac 0 (2 * x - 1) 1 a * hjac 0 (2 * y - 1) 1 b) := by
  have h := quadrilateral_entry (pderiv 0) (pderiv 1) (X 0 : Pol) (X 1) (by simp)
    (by simp [pderiv_X]) (by simp [pderiv_X]) (by simp) ha hb (dx := 0) (dy := 0)
    (Nat.zero_le derivs)
  have e := orthogonalQuadrilateral_map (aeval ![x, y, 0]) (X 0 : Pol) (X 1) order derivs
  rw [aeval_X, aeval_X] at e
  change orthogonalQuadrilateral x y order derivs = _ at e
  rw [show triIndex 0 0 = 0 from rfl] at h
  rw [e, entry_map, h]
  simp [map_hjac]

theorem hexahedron_value (x y z : A) {order derivs a b c : ℕ} (ha : a ≤ order) (hb : b ≤ order)
    (hc : c ≤ order) :
    entry (orthogonalHexahedron x y z order derivs) 0 ((a * (order + 1) + b) * (order + 1) + c) =
      some (hjac 0 (2 * x - 1) 1 a * hjac 0 (2 * y - 1) 1 b * hjac 0 (2 * z - 1) 1 c) := by
  have h := hexahedron_entry _ _ _ _ _ _ pol_partials ha hb hc (dx := 0) (dy := 0) (dz := 0)
    (Nat.zero_le derivs)
  have e := orthogonalHexahedron_map (aeval ![x, y, z]) (X 0 : Pol) (X 1) (X 2) order derivs
  rw [aeval_X, aeval_X, aeval_X] at e
  change orthogonalHexahedron x y z order derivs = _ at e
  rw [show tetIndex 0 0 0 = 0 from rfl] at h
  rw [e, entry_map, h]
  simp [map_hjac, mixed]

theorem prism_value (x y z : A) {order derivs p q c : ℕ} (hp : p + q ≤ order) (hc : c ≤ order) :
    entry (orthogonalPrism x y z order derivs) 0 (triIndex q p * (order + 1) + c) =
      some (triMember x y q p * hjac 0 (2 * z - 1) 1 c) := by
  have h := prism_entry _ _ _ _ _ _ pol_partials hp hc (dx := 0) (dy := 0) (dz := 0)
    (Nat.zero_le derivs)
  have e := orthogonalPrism_map (aeval ![x, y, z]) (X 0 : Pol) (X 1) (X 2) order derivs
  rw [aeval_X, aeval_X, aeval_X] at e
  change orthogonalPrism x y z order derivs = _ at e
  rw [show tetIndex 0 0 0 = 0 from rfl] at h
  rw [e, entry_map, h]
  simp [map_hjac, mixed, triMember]

theorem pyramid_value (x y z w : A) (hw : w * (1 - z) = 1) {order derivs i j k : ℕ}
    (hi : i + k ≤ order) (hj : j + k ≤ order) :
    entry (orthogonalPyramid x y z w order derivs) 0 (pyrIndex order i j k) =
      some (pyrMember x y z w i j k) := by
  have h := pyramid_entry _ _ _ _ _ _ _ pyr_partials pyr_inv hi hj (dx := 0) (dy := 0) (dz := 0)
    (Nat.zero_le derivs)
  have e := orthogonalPyramid_map (pyrEval x y z w hw) (pyrMk (X 0)) (pyrMk (X 1)) (pyrMk (X 2))
    (pyrMk (X 3)) order derivs
  simp only [pyrEval_mk, aeval_X] at e
  change orthogonalPyramid x y z w order derivs = _ at e
  rw [show tetIndex 0 0 0 = 0 from rfl] at h
  rw [e, entry_map, h]
  have h2 : pyrEval x y z w hw 2 = 2 := map_ofNat _ 2
  simp [map_hjac, mixed, pyrMember, pyrEval_mk, h2, -Ideal.Quotient.mkₐ_eq_mk]

end Verif.Orthogonal
