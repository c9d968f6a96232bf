import Verif.Orthogonal.Model
import Mathlib.RingTheory.Derivation.Basic
import Mathlib.Algebra.BigOperators.Group.Finset.Basic
import Mathlib.Tactic.Module
import Mathlib.Tactic.LinearCombination

/-!
# Iterated derivatives of products
-/

set_option linter.unusedSectionVars false

namespace Verif.Orthogonal

variable {A : Type*} [CommRing A] [Algebra ℚ A]

/-- The mixed derivative `∂x^dx ∂y^dy ∂z^dz f`. -/
def mixed (Dx Dy Dz : Derivation ℚ A A) (dx dy dz : ℕ) (f : A) : A :=
  Dx^[dx] (Dy^[dy] (Dz^[dz] f))

section
variable (D Dx Dy Dz : Derivation ℚ A A)

theorem der_two : D (2 : A) = 0 := by
  rw [← one_add_one_eq_two, map_add, Derivation.map_one_eq_zero, add_zero]

theorem iter_add (n : ℕ) (f g : A) : D^[n] (f + g) = D^[n] f + D^[n] g := by
  induction n generalizing f g with
  | zero => rfl
  | succ n ih => rw [Function.iterate_succ_apply, map_add, ih]; rfl

theorem iter_smul (n : ℕ) (c : ℚ) (f : A) : D^[n] (c • f) = c • D^[n] f := by
  induction n generalizing f with
  | zero => rfl
  | succ n ih => rw [Function.iterate_succ_apply, Derivation.map_smul, ih]; rfl

theorem iter_neg (n : ℕ) (f : A) : D^[n] (-f) = -D^[n] f := by
  have := iter_smul D n (-1) f
  simp only [neg_smul, one_smul] at this
  exact this

theorem iter_sub (n : ℕ) (f g : A) : D^[n] (f - g) = D^[n] f - D^[n] g := by
  rw [sub_eq_add_neg, iter_add, iter_neg, sub_eq_add_neg]

theorem iter_zero (n : ℕ) : D^[n] (0 : A) = 0 := by
  have := iter_smul D n 0 0
  simp only [zero_smul] at this
  exact this

theorem iter_one (n : ℕ) : D^[n] (1 : A) = if n = 0 then 1 else 0 := by
  cases n with
  | zero => rfl
  | succ n => rw [Function.iterate_succ_apply, Derivation.map_one_eq_zero, iter_zero]; rfl

/-- Leibniz' rule for a factor with constant derivative. -/
theorem iter_mul_affine {l : A} {c : ℚ} (h : D l = algebraMap ℚ A c) (n : ℕ) (f : A) :
    D^[n] (f * l) = D^[n] f * l + (n * c) • D^[n - 1] f := by
  induction n with
  | zero => simp
  | succ n ih =>
    rw [Function.iterate_succ_apply', ih, map_add, Derivation.leibniz, h, Derivation.map_smul,
      Function.iterate_succ_apply']
    cases n with
    | zero => simp [Algebra.smul_def]; ring
    | succ n =>
      simp only [Nat.add_sub_cancel, Function.iterate_succ_apply']
      simp only [Algebra.smul_def, Algebra.algebraMap_self, RingHom.id_apply, map_mul, map_natCast]
      push_cast
      ring

theorem iter_mul_const {l : A} (h : D l = 0) (n : ℕ) (f : A) : D^[n] (f * l) = D^[n] f * l := by
  rw [iter_mul_affine D (c := 0) (by simpa using h)]; simp

@[simp] theorem mixed_zero' (f : A) : mixed Dx Dy Dz 0 0 0 f = f := rfl

theorem mixed_add (dx dy dz : ℕ) (f g : A) :
    mixed Dx Dy Dz dx dy dz (f + g) = mixed Dx Dy Dz dx dy dz f + mixed Dx Dy Dz dx dy dz g := by
  simp only [mixed, iter_add]

theorem mixed_sub (dx dy dz : ℕ) (f g : A) :
    mixed Dx Dy Dz dx dy dz (f - g) = mixed Dx Dy Dz dx dy dz f - mixed Dx Dy Dz dx dy dz g := by
  simp only [mixed, iter_sub]

theorem mixed_smul (dx dy dz : ℕ) (c : ℚ) (f : A) :
    mixed Dx Dy Dz dx dy dz (c • f) = c • mixed Dx Dy Dz dx dy dz f := by
  simp only [mixed, iter_smul]

theorem mixed_one (dx dy dz : ℕ) :
    mixed Dx Dy Dz dx dy dz (1 : A) = if dx = 0 ∧ dy = 0 ∧ dz = 0 then 1 else 0 := by
  simp only [mixed, iter_one]
  split_ifs with h1 h2 h2
  · rw [iter_one]
    split_ifs with h3
    · rw [iter_one]; simp [h2]
    · rw [iter_zero]; simp_all
  · rw [iter_one]
    split_ifs with h3
    · rw [iter_one]; simp_all
    · rw [iter_zero]
  · simp_all
  · simp only [iter_zero]

/-- Leibniz' rule for mixed derivatives and a factor with constant derivatives. -/
theorem mixed_mul_affine {l : A} {cx cy cz : ℚ} (hx : Dx l = algebraMap ℚ A cx)
    (hy : Dy l = algebraMap ℚ A cy) (hz : Dz l = algebraMap ℚ A cz) (dx dy dz : ℕ) (f : A) :
    mixed Dx Dy Dz dx dy dz (f * l) = mixed Dx Dy Dz dx dy dz f * l
      + (dx * cx) • mixed Dx Dy Dz (dx - 1) dy dz f
      + (dy * cy) • mixed Dx Dy Dz dx (dy - 1) dz f
      + (dz * cz) • mixed Dx Dy Dz dx dy (dz - 1) f := by
  simp only [mixed]
  rw [iter_mul_affine Dz hz, iter_add, iter_mul_affine Dy hy, iter_add, iter_add,
    iter_mul_affine Dx hx, iter_smul, iter_smul, iter_smul]

theorem mul_pred (n : ℕ) : (n : ℚ) * ((n - 1 : ℕ) : ℚ) = n * (n - 1) := by
  cases n <;> simp

/-- Leibniz' rule for mixed derivatives and the square of a factor with constant derivatives. -/
theorem mixed_mul_sq {l : A} {cx cy cz : ℚ} (hx : Dx l = algebraMap ℚ A cx)
    (hy : Dy l = algebraMap ℚ A cy) (hz : Dz l = algebraMap ℚ A cz) (dx dy dz : ℕ) (f : A) :
    mixed Dx Dy Dz dx dy dz (f * l ^ 2) = mixed Dx Dy Dz dx dy dz f * l ^ 2
      + (2 * dx * cx) • (mixed Dx Dy Dz (dx - 1) dy dz f * l)
      + (2 * dy * cy) • (mixed Dx Dy Dz dx (dy - 1) dz f * l)
      + (2 * dz * cz) • (mixed Dx Dy Dz dx dy (dz - 1) f * l)
      + (dx * (dx - 1) * cx ^ 2) • mixed Dx Dy Dz (dx - 2) dy dz f
      + (dy * (dy - 1) * cy ^ 2) • mixed Dx Dy Dz dx (dy - 2) dz f
      + (dz * (dz - 1) * cz ^ 2) • mixed Dx Dy Dz dx dy (dz - 2) f
      + (2 * dx * dy * cx * cy) • mixed Dx Dy Dz (dx - 1) (dy - 1) dz f
      + (2 * dx * dz * cx * cz) • mixed Dx Dy Dz (dx - 1) dy (dz - 1) f
      + (2 * dy * dz * cy * cz) • mixed Dx Dy Dz dx (dy - 1) (dz - 1) f := by
  rw [pow_two, ← mul_assoc]
  simp only [mixed_mul_affine Dx Dy Dz hx hy hz]
  have e1 := congrArg (algebraMap ℚ A) (mul_pred dx)
  have e2 := congrArg (algebraMap ℚ A) (mul_pred dy)
  have e3 := congrArg (algebraMap ℚ A) (mul_pred dz)
  simp only [Nat.sub_sub, Nat.reduceAdd, Algebra.smul_def, map_mul, map_natCast, map_sub, map_one,
    map_ofNat, map_pow] at *
  set X := algebraMap ℚ A cx
  set Y := algebraMap ℚ A cy
  set Z := algebraMap ℚ A cz
  linear_combination mixed Dx Dy Dz (dx - 2) dy dz f * X ^ 2 * e1
    + mixed Dx Dy Dz dx (dy - 2) dz f * Y ^ 2 * e2 + mixed Dx Dy Dz dx dy (dz - 2) f * Z ^ 2 * e3

end

end Verif.Orthogonal
