import Verif.Orthogonal.Equations
import Verif.Orthogonal.Leibniz
import Mathlib.Tactic.FieldSimp

/-!
# The tables hold derivatives of products of Jacobi polynomials (C29)
-/

set_option linter.unusedSectionVars false
set_option linter.unusedSimpArgs false

namespace Verif.Orthogonal

variable {A : Type*} [CommRing A] [Algebra ℚ A]

/-- Homogeneous Jacobi polynomials: `h^n P_n^(a,0)(l / h)` without division. With `a = 0` these are
Legendre polynomials. -/
def hjac (a : ℚ) (l h : A) : ℕ → A
  | 0 => 1
  | 1 => jrcA a 0 • l + jrcB a 0 • h
  | n + 2 => hjac a l h (n + 1) * (jrcA a (n + 1) • l + jrcB a (n + 1) • h)
      - jrcC a (n + 1) • (hjac a l h n * h ^ 2)

theorem alg_two : algebraMap ℚ A 2 = 2 := map_ofNat _ 2

theorem jrcC_zero (a : ℚ) : jrcC a 0 = 0 := by simp [jrcC]

theorem hjac_rec (a : ℚ) (l h : A) (n : ℕ) (hn : n ≠ 0) :
    hjac a l h n = hjac a l h (n - 1) * (jrcA a (n - 1) • l + jrcB a (n - 1) • h)
      - jrcC a (n - 1) • (hjac a l h (n - 2) * h ^ 2) := by
  match n, hn with
  | 1, _ => simp [hjac, jrcC_zero]
  | n + 2, _ =>
    rw [hjac]
    push_cast
    rw [show (n : ℚ) + 2 - 1 = n + 1 by ring]

theorem jrcA_leg (n : ℕ) (hn : n ≠ 0) : jrcA 0 (n - 1) = 2 - 1 / n := by
  have : (n : ℚ) ≠ 0 := by exact_mod_cast hn
  unfold jrcA
  rw [show (n : ℚ) - 1 + 1 = n by ring, show (0 : ℚ) + (n - 1) + 1 = n by ring]
  field_simp
  ring

theorem jrcB_leg (n : ℚ) : jrcB 0 n = 0 := by simp [jrcB]

theorem jrcC_leg (n : ℕ) (hn : n ≠ 0) : jrcC 0 (n - 1) = 1 - 1 / n := by
  have h0 : (n : ℚ) ≠ 0 := by exact_mod_cast hn
  by_cases h1 : n = 1
  · subst h1; simp [jrcC]
  have h2 : (n : ℚ) - 1 ≠ 0 := by
    rw [sub_ne_zero]; exact_mod_cast h1
  unfold jrcC
  rw [show (n : ℚ) - 1 + 1 = n by ring, show (0 : ℚ) + (n - 1) + 1 = n by ring]
  field_simp
  ring

theorem hleg_rec (l h : A) (n : ℕ) (hn : n ≠ 0) :
    hjac 0 l h n = (2 - 1 / n : ℚ) • (hjac 0 l h (n - 1) * l)
      - (1 - 1 / n : ℚ) • (hjac 0 l h (n - 2) * h ^ 2) := by
  rw [hjac_rec 0 l h n hn, jrcA_leg n hn, jrcB_leg, jrcC_leg n hn, zero_smul, add_zero,
    mul_smul_comm]

theorem leg_coeff (n : ℕ) (hn : n ≠ 0) : (2 * n - 1 : ℚ) / n = 2 - 1 / n := by
  have h0 : (n : ℚ) ≠ 0 := by exact_mod_cast hn
  field_simp

theorem leg_coeff' (n : ℕ) (hn : n ≠ 0) : (n - 1 : ℚ) / n = 1 - 1 / n := by
  have h0 : (n : ℚ) ≠ 0 := by exact_mod_cast hn
  field_simp

/-- `Dx`, `Dy`, `Dz` are the partial derivatives for the variables `x`, `y`, `z`. -/
structure Partials (Dx Dy Dz : Derivation ℚ A A) (x y z : A) : Prop where
  xx : Dx x = 1
  xy : Dx y = 0
  xz : Dx z = 0
  yx : Dy x = 0
  yy : Dy y = 1
  yz : Dy z = 0
  zx : Dz x = 0
  zy : Dz y = 0
  zz : Dz z = 1

theorem cast_pos_of {n : ℕ} (h : ¬ n > 0) : (n : ℚ) = 0 := by
  have : n = 0 := by omega
  simp [this]

theorem mul_pred_of {n : ℕ} (h : ¬ n > 1) : (n : ℚ) * (n - 1) = 0 := by
  have : n = 0 ∨ n = 1 := by omega
  rcases this with rfl | rfl <;> simp

theorem one_sub_inv_of {n : ℕ} (h : ¬ n > 1) (h0 : n ≠ 0) : (1 - 1 / n : ℚ) = 0 := by
  have : n = 1 := by omega
  subst this; simp

theorem jrcC_of {a : ℚ} {n : ℕ} (h : ¬ n > 1) (h0 : n ≠ 0) : jrcC a (n - 1) = 0 := by
  have : n = 1 := by omega
  subst this; simp [jrcC]

/-! ### Interval -/

/-- **C29** Interval: the whole table. -/
theorem intervalTable_closed (D : Derivation ℚ A A) (x : A) (hx : D x = 1) (order derivs : ℕ)
    (i : ℕ) (hi : i ≤ order) (dx : ℕ) (hd : dx ≤ derivs) :
    intervalTable x order derivs dx i = D^[dx] (hjac 0 (2 * x - 1) 1 i) := by
  induction i using Nat.strong_induction_on generalizing dx with
  | _ i ih =>
    by_cases h0 : i = 0
    · subst h0
      rw [intervalTable_zero, hjac, iter_one]
    rw [intervalTable_eq x order derivs dx i hd (by omega) hi, hleg_rec _ _ i h0, iter_sub,
      iter_smul, iter_smul, one_pow, mul_one,
      iter_mul_affine D (c := 2) (by simp [hx, der_two, alg_two])]
    unfold intervalVal
    rw [ih (i - 1) (by omega) (by omega) dx hd, ih (i - 1) (by omega) (by omega) (dx - 1) (by omega),
      ih (i - 2) (by omega) (by omega) dx hd]
    rw [addIf_eq fun h => by simp [cast_pos_of h],
      addIf_eq fun h => by rw [leg_coeff' i h0, one_sub_inv_of h h0, zero_smul]]
    rw [leg_coeff' i h0, mul_div_assoc, leg_coeff i h0]
    simp only [Algebra.smul_def, map_mul, map_natCast, map_ofNat]
    ring

/-! ### Triangle -/

/-- The member `(q, p)` of the triangle basis. -/
def triMember (x y : A) (q p : ℕ) : A :=
  hjac 0 (2 * x + y - 1) (1 - y) p * hjac (2 * p + 1) (2 * y - 1) 1 q

/-- **C29** Triangle: the whole table. -/
theorem triTable_closed (Dx Dy : Derivation ℚ A A) (x y : A) (hxx : Dx x = 1) (hxy : Dx y = 0)
    (hyx : Dy x = 0) (hyy : Dy y = 1) (order derivs p q dx dy : ℕ)
    (hp : p + q ≤ order) (hd : dx + dy ≤ derivs) :
    triRead (triTable x y order derivs) dx dy q p = Dx^[dx] (Dy^[dy] (triMember x y q p)) := by
  have key : ∀ p q dx dy, p + q ≤ order → dx + dy ≤ derivs →
      triRead (triTable x y order derivs) dx dy q p = mixed Dx Dy 0 dx dy 0 (triMember x y q p) := by
    have hl : ∀ l : A, (0 : Derivation ℚ A A) l = algebraMap ℚ A 0 := by simp
    have h1 : ∀ p dx dy, p ≤ order → dx + dy ≤ derivs → triRead (triTable x y order derivs) dx dy 0 p
        = mixed Dx Dy 0 dx dy 0 (hjac 0 (2 * x + y - 1) (1 - y) p) := by
      intro p
      induction p using Nat.strong_induction_on with
      | _ p ih =>
        intro dx dy hp hd
        rw [triTable_eq x y order derivs dx dy p 0 hd (by omega), if_pos rfl]
        unfold triVal0
        by_cases h0 : p = 0
        · subst h0
          rw [if_pos rfl, hjac, mixed_one]
          simp
        rw [if_neg h0, ih (p - 1) (by omega) dx dy (by omega) hd,
          ih (p - 1) (by omega) dx (dy - 1) (by omega) (by omega),
          ih (p - 1) (by omega) (dx - 1) dy (by omega) (by omega),
          ih (p - 2) (by omega) dx dy (by omega) (by omega),
          ih (p - 2) (by omega) dx (dy - 1) (by omega) (by omega),
          ih (p - 2) (by omega) dx (dy - 2) (by omega) (by omega)]
        rw [addIf_eq fun h => by simp [cast_pos_of h], addIf_eq fun h => by simp [cast_pos_of h],
          addIf_eq fun h => by rw [one_sub_inv_of h h0, zero_smul],
          addIf_eq fun h => by
            rw [not_and_or] at h
            rcases h with h | h
            · rw [one_sub_inv_of h h0, mul_zero, zero_smul]
            · simp [cast_pos_of h],
          addIf_eq fun h => by
            rw [not_and_or] at h
            rcases h with h | h
            · rw [one_sub_inv_of h h0, mul_zero, zero_smul]
            · rw [mul_pred_of h, zero_mul, zero_smul]]
        rw [hleg_rec _ _ p h0, mixed_sub, mixed_smul, mixed_smul,
          mixed_mul_affine Dx Dy 0 (cx := 2) (cy := 1) (cz := 0)
            (by simp [hxx, hxy, der_two, alg_two])
            (by simp [hyx, hyy, der_two, alg_two]) (hl _),
          mixed_mul_sq Dx Dy 0 (cx := 0) (cy := -1) (cz := 0) (by simp [hxy]) (by simp [hyy]) (hl _)]
        generalize (2 - 1 / p : ℚ) = a
        generalize (1 - 1 / p : ℚ) = b
        simp only [Algebra.smul_def, map_mul, map_natCast, map_ofNat, map_sub, map_one, map_neg,
          map_pow, map_zero]
        ring
    intro p q
    induction q using Nat.strong_induction_on with
    | _ q ih =>
      intro dx dy hp hd
      by_cases h0 : q = 0
      · subst h0
        rw [h1 p dx dy (by omega) hd, triMember, hjac, mul_one]
      rw [triTable_eq x y order derivs dx dy p q hd hp, if_neg h0]
      unfold triVal1
      rw [ih (q - 1) (by omega) dx dy (by omega) hd, ih (q - 2) (by omega) dx dy (by omega) hd,
        ih (q - 1) (by omega) dx (dy - 1) (by omega) (by omega)]
      rw [addIf_eq fun h => by rw [jrcC_of h h0, zero_smul],
        addIf_eq fun h => by simp [cast_pos_of h]]
      have hm : triMember x y q p =
          jrcA (2 * p + 1) (q - 1) • (triMember x y (q - 1) p * (2 * y - 1))
          + jrcB (2 * p + 1) (q - 1) • triMember x y (q - 1) p
          - jrcC (2 * p + 1) (q - 1) • triMember x y (q - 2) p := by
        unfold triMember
        rw [hjac_rec _ (2 * y - 1) _ q h0]
        simp only [Algebra.smul_def]
        ring
      rw [hm, mixed_sub, mixed_add, mixed_smul, mixed_smul, mixed_smul,
        mixed_mul_affine Dx Dy 0 (cx := 0) (cy := 2) (cz := 0)
            (by simp [hxy, der_two, alg_two])
            (by simp [hyy, der_two, alg_two]) (hl _)]
      simp only [Algebra.smul_def, map_mul, map_natCast, map_ofNat, map_zero]
      ring
  rw [key p q dx dy hp hd]
  rfl

/-! ### Tetrahedron -/

/-- The member `(r, q, p)` of the tetrahedron basis. -/
def tetMember (x y z : A) (r q p : ℕ) : A :=
  hjac 0 (2 * x + y + z - 1) (1 - y - z) p * hjac (2 * p + 1) (2 * y + z - 1) (1 - z) q *
    hjac (2 * p + 2 * q + 2) (2 * z - 1) 1 r

/-- **C29** Tetrahedron: the whole table. -/
theorem tetTable_closed (Dx Dy Dz : Derivation ℚ A A) (x y z : A)
    (hD : Partials Dx Dy Dz x y z) (order derivs p q r dx dy dz : ℕ)
    (hp : p + q + r ≤ order) (hd : dx + dy + dz ≤ derivs) :
    tetRead (tetTable x y z order derivs) dx dy dz r q p =
      mixed Dx Dy Dz dx dy dz (tetMember x y z r q p) := by
  obtain ⟨hxx, hxy, hxz, hyx, hyy, hyz, hzx, hzy, hzz⟩ := hD
  have h1 : ∀ p dx dy dz, p ≤ order → dx + dy + dz ≤ derivs →
      tetRead (tetTable x y z order derivs) dx dy dz 0 0 p
        = mixed Dx Dy Dz dx dy dz (hjac 0 (2 * x + y + z - 1) (1 - y - z) p) := by
    intro p
    induction p using Nat.strong_induction_on with
    | _ p ih =>
      intro dx dy dz hp hd
      rw [tetTable_eq x y z order derivs dx dy dz p 0 0 hd (by omega), if_pos rfl, if_pos rfl]
      unfold tetVal0
      by_cases h0 : p = 0
      · subst h0
        rw [if_pos rfl, hjac, mixed_one]
      rw [if_neg h0, ih (p - 1) (by omega) dx dy dz (by omega) hd,
        ih (p - 1) (by omega) (dx - 1) dy dz (by omega) (by omega),
        ih (p - 1) (by omega) dx (dy - 1) dz (by omega) (by omega),
        ih (p - 1) (by omega) dx dy (dz - 1) (by omega) (by omega),
        ih (p - 2) (by omega) dx dy dz (by omega) (by omega),
        ih (p - 2) (by omega) dx (dy - 1) dz (by omega) (by omega),
        ih (p - 2) (by omega) dx (dy - 2) dz (by omega) (by omega),
        ih (p - 2) (by omega) dx dy (dz - 1) (by omega) (by omega),
        ih (p - 2) (by omega) dx dy (dz - 2) (by omega) (by omega),
        ih (p - 2) (by omega) dx (dy - 1) (dz - 1) (by omega) (by omega)]
      rw [addIf_eq fun h => by simp [cast_pos_of h], addIf_eq fun h => by simp [cast_pos_of h],
        addIf_eq fun h => by simp [cast_pos_of h],
        addIf_eq fun h => by rw [one_sub_inv_of h h0, zero_smul],
        addIf_eq fun h => by
          rw [not_and_or] at h
          rcases h with h | h
          · rw [one_sub_inv_of h h0, mul_zero, zero_smul]
          · simp [cast_pos_of h],
        addIf_eq fun h => by
          rw [not_and_or] at h
          rcases h with h | h
          · rw [one_sub_inv_of h h0, mul_zero, zero_smul]
          · rw [mul_pred_of h, zero_mul, zero_smul],
        addIf_eq fun h => by
          rw [not_and_or] at h
          rcases h with h | h
          · rw [one_sub_inv_of h h0, mul_zero, zero_smul]
          · simp [cast_pos_of h],
        addIf_eq fun h => by
          rw [not_and_or] at h
          rcases h with h | h
          · rw [one_sub_inv_of h h0, mul_zero, zero_smul]
          · rw [mul_pred_of h, zero_mul, zero_smul],
        addIf_eq fun h => by
          rw [not_and_or, not_and_or] at h
          rcases h with h | h | h
          · rw [one_sub_inv_of h h0, mul_zero, zero_smul]
          · simp [cast_pos_of h]
          · simp [cast_pos_of h]]
      rw [hleg_rec _ _ p h0, mixed_sub, mixed_smul, mixed_smul,
        mixed_mul_affine Dx Dy Dz (cx := 2) (cy := 1) (cz := 1)
          (by simp [hxx, hxy, hxz, der_two, alg_two]) (by simp [hyx, hyy, hyz, der_two, alg_two])
          (by simp [hzx, hzy, hzz, der_two, alg_two]),
        mixed_mul_sq Dx Dy Dz (cx := 0) (cy := -1) (cz := -1) (by simp [hxy, hxz])
          (by simp [hyy, hyz]) (by simp [hzy, hzz])]
      generalize (2 - 1 / p : ℚ) = a
      generalize (1 - 1 / p : ℚ) = b
      simp only [Algebra.smul_def, map_mul, map_natCast, map_ofNat, map_sub, map_one, map_neg,
        map_pow, map_zero]
      ring
  have h2 : ∀ p q dx dy dz, p + q ≤ order → dx + dy + dz ≤ derivs →
      tetRead (tetTable x y z order derivs) dx dy dz 0 q p
        = mixed Dx Dy Dz dx dy dz (tetMember x y z 0 q p) := by
    intro p q
    induction q using Nat.strong_induction_on with
    | _ q ih =>
      intro dx dy dz hp hd
      by_cases h0 : q = 0
      · subst h0
        rw [h1 p dx dy dz (by omega) hd, tetMember, hjac, hjac, mul_one, mul_one]
      rw [tetTable_eq x y z order derivs dx dy dz p q 0 hd (by omega), if_pos rfl, if_neg h0]
      unfold tetVal1
      rw [ih (q - 1) (by omega) dx dy dz (by omega) hd,
        ih (q - 1) (by omega) dx (dy - 1) dz (by omega) (by omega),
        ih (q - 1) (by omega) dx dy (dz - 1) (by omega) (by omega),
        ih (q - 2) (by omega) dx dy dz (by omega) hd,
        ih (q - 2) (by omega) dx dy (dz - 1) (by omega) (by omega),
        ih (q - 2) (by omega) dx dy (dz - 2) (by omega) (by omega)]
      rw [addIf_eq fun h => by simp [cast_pos_of h], addIf_eq fun h => by simp [cast_pos_of h],
        addIf_eq fun h => by rw [jrcC_of h h0, zero_smul],
        addIf_eq fun h => by
          rw [not_and_or] at h
          rcases h with h | h
          · rw [jrcC_of h h0, mul_zero, zero_smul]
          · simp [cast_pos_of h],
        addIf_eq fun h => by
          rw [not_and_or] at h
          rcases h with h | h
          · rw [jrcC_of h h0, mul_zero, zero_smul]
          · rw [mul_pred_of h, zero_mul, zero_smul]]
      have hm : tetMember x y z 0 q p =
          jrcA (2 * p + 1) (q - 1) • (tetMember x y z 0 (q - 1) p * (2 * y + z - 1))
          + jrcB (2 * p + 1) (q - 1) • (tetMember x y z 0 (q - 1) p * (1 - z))
          - jrcC (2 * p + 1) (q - 1) • (tetMember x y z 0 (q - 2) p * (1 - z) ^ 2) := by
        unfold tetMember
        rw [hjac_rec _ (2 * y + z - 1) _ q h0]
        simp only [Algebra.smul_def, hjac]
        ring
      rw [hm, mixed_sub, mixed_add, mixed_smul, mixed_smul, mixed_smul,
        mixed_mul_affine Dx Dy Dz (cx := 0) (cy := 2) (cz := 1)
          (by simp [hxy, hxz, der_two, alg_two]) (by simp [hyy, hyz, der_two, alg_two])
          (by simp [hzy, hzz, der_two, alg_two]),
        mixed_mul_affine Dx Dy Dz (cx := 0) (cy := 0) (cz := -1)
          (by simp [hxz]) (by simp [hyz]) (by simp [hzz]),
        mixed_mul_sq Dx Dy Dz (cx := 0) (cy := 0) (cz := -1)
          (by simp [hxz]) (by simp [hyz]) (by simp [hzz])]
      simp only [Algebra.smul_def, map_mul, map_natCast, map_ofNat, map_sub, map_one, map_neg,
        map_pow, map_zero]
      ring
  induction r using Nat.strong_induction_on generalizing dx dy dz with
  | _ r ih =>
    by_cases h0 : r = 0
    · subst h0
      exact h2 p q dx dy dz (by omega) hd
    rw [tetTable_eq x y z order derivs dx dy dz p q r hd hp, if_neg h0]
    unfold tetVal2
    rw [ih (r - 1) (by omega) dx dy dz (by omega) hd,
      ih (r - 1) (by omega) dx dy (dz - 1) (by omega) (by omega),
      ih (r - 2) (by omega) dx dy dz (by omega) hd]
    rw [addIf_eq fun h => by simp [cast_pos_of h],
      addIf_eq fun h => by rw [jrcC_of h h0, zero_smul]]
    have hm : tetMember x y z r q p =
        jrcA (2 * p + 2 * q + 2) (r - 1) • (tetMember x y z (r - 1) q p * (2 * z - 1))
        + jrcB (2 * p + 2 * q + 2) (r - 1) • tetMember x y z (r - 1) q p
        - jrcC (2 * p + 2 * q + 2) (r - 1) • tetMember x y z (r - 2) q p := by
      unfold tetMember
      rw [hjac_rec _ (2 * z - 1) _ r h0]
      simp only [Algebra.smul_def]
      ring
    rw [hm, mixed_sub, mixed_add, mixed_smul, mixed_smul, mixed_smul,
      mixed_mul_affine Dx Dy Dz (cx := 0) (cy := 0) (cz := 2)
        (by simp [hxz, der_two, alg_two]) (by simp [hyz, der_two, alg_two]) (by simp [hzz, der_two, alg_two])]
    simp only [Algebra.smul_def, map_mul, map_natCast, map_ofNat, map_zero]
    ring

end Verif.Orthogonal
