import Verif.Orthogonal.Integral

/-!
# Orthogonality on every cell (C28, C31)
-/

set_option linter.unusedSectionVars false
set_option linter.unusedSimpArgs false

namespace Verif.Orthogonal

open Verif.References

theorem hjac_eval (a n : ℕ) (y : ℝ) : hjac (a : ℚ) (2 * y - 1) 1 n = (jac a n).eval y := by
  have h := map_hjac ((Polynomial.aeval y).restrictScalars ℚ : Polynomial ℝ →ₐ[ℚ] ℝ) (a : ℚ)
    (2 * Polynomial.X - 1) 1 n
  rw [← Polynomial.coe_aeval_eq_eval]
  refine Eq.trans ?_ h.symm
  simp

theorem jac_pair (a m n : ℕ) :
    ∫ y in (0 : ℝ)..1, (1 - y) ^ a * (hjac (a : ℚ) (2 * y - 1) 1 m * hjac (a : ℚ) (2 * y - 1) 1 n)
      = if m = n then 1 / (2 * (n : ℝ) + a + 1) else 0 := by
  have e : ∀ y : ℝ, (1 - y) ^ a * (hjac (a : ℚ) (2 * y - 1) 1 m * hjac (a : ℚ) (2 * y - 1) 1 n)
      = ((1 - Polynomial.X) ^ a * jac a m * jac a n).eval y := by
    intro y
    simp [hjac_eval, mul_assoc]
  simp_rw [e]
  split_ifs with h
  · subst h; exact jac_norm' a m
  · exact jac_orthogonal' h

theorem scaled_pair (a m n : ℕ) (h : ℝ) :
    ∫ y in (0 : ℝ)..h, (h - y) ^ a * (hjac (a : ℚ) (2 * y - h) h m * hjac (a : ℚ) (2 * y - h) h n)
      = h ^ (a + m + n + 1) * if m = n then 1 / (2 * (n : ℝ) + a + 1) else 0 := by
  have key := intervalIntegral.smul_integral_comp_mul_left
    (fun y : ℝ => (h - y) ^ a * (hjac (a : ℚ) (2 * y - h) h m * hjac (a : ℚ) (2 * y - h) h n)) h
    (a := 0) (b := 1)
  rw [mul_zero, mul_one] at key
  rw [← key]
  have e : ∀ y : ℝ, (h - h * y) ^ a *
      (hjac (a : ℚ) (2 * (h * y) - h) h m * hjac (a : ℚ) (2 * (h * y) - h) h n)
      = h ^ (a + m + n) *
        ((1 - y) ^ a * (hjac (a : ℚ) (2 * y - 1) 1 m * hjac (a : ℚ) (2 * y - 1) 1 n)) := by
    intro y
    have h1 := fun k => hjac_smul (a : ℚ) h (2 * y - 1) 1 k
    rw [mul_one, show h * (2 * y - 1) = 2 * (h * y) - h by ring] at h1
    rw [h1, h1, show h - h * y = h * (1 - y) by ring, mul_pow]
    ring
  simp_rw [e]
  rw [intervalIntegral.integral_const_mul, jac_pair, smul_eq_mul]
  ring

theorem leg_pair (m n : ℕ) (h : ℝ) :
    ∫ y in (0 : ℝ)..h, hjac 0 (2 * y - h) h m * hjac 0 (2 * y - h) h n
      = h ^ (m + n + 1) * if m = n then 1 / (2 * (n : ℝ) + 1) else 0 := by
  have := scaled_pair 0 m n h
  simp only [pow_zero, one_mul, Nat.cast_zero, zero_add, add_zero] at this
  exact this

/-- The value of entry `i` of row `0`. -/
def val (l : List (List ℝ)) (i : ℕ) : ℝ := (entry l 0 i).getD 0

/-! ### Interval -/

/-- **C28** Interval: the members are orthogonal, with norm `1 / (2 i + 1)`. -/
theorem orthogonalInterval_orthogonal (order derivs i j : ℕ) (hi : i ≤ order) (hj : j ≤ order) :
    cellInt .interval (fun x => val (orthogonalInterval (x 0) order derivs) i *
      val (orthogonalInterval (x 0) order derivs) j) = if i = j then 1 / (2 * (i : ℝ) + 1) else 0 := by
  rw [cellInt_interval]
  simp only [val, interval_value _ hi, interval_value _ hj, Option.getD_some, Function.update_self]
  have := leg_pair i j 1
  rw [one_pow, one_mul] at this
  rw [this]
  split_ifs with h
  · rw [h]
  · rfl

/-! ### Triangle -/

theorem tri_pair (p q p' q' : ℕ) :
    ∫ y in (0 : ℝ)..1, ∫ x in (0 : ℝ)..1 - y, triMember x y q p * triMember x y q' p'
      = if p = p' ∧ q = q' then 1 / ((2 * (p : ℝ) + 1) * (2 * p + 2 * q + 2)) else 0 := by
  have e : ∀ y : ℝ, ∫ x in (0 : ℝ)..1 - y, triMember x y q p * triMember x y q' p'
      = (hjac (2 * p + 1) (2 * y - 1) 1 q * hjac (2 * p' + 1) (2 * y - 1) 1 q') *
        ((1 - y) ^ (p + p' + 1) * if p = p' then 1 / (2 * (p' : ℝ) + 1) else 0) := by
    intro y
    rw [← leg_pair, ← intervalIntegral.integral_const_mul]
    congr 1
    funext x
    rw [triMember, triMember, show 2 * x + y - 1 = 2 * x - (1 - y) by ring]
    ring
  simp_rw [e]
  by_cases hp : p = p'
  · subst hp
    have h := jac_pair (2 * p + 1) q q'
    push_cast at h
    simp only [if_true, true_and]
    rw [show (if q = q' then 1 / ((2 * (p : ℝ) + 1) * (2 * p + 2 * q + 2)) else 0) =
      1 / (2 * (p : ℝ) + 1) * if q = q' then 1 / (2 * (q' : ℝ) + (2 * p + 1) + 1) else 0 by
        split_ifs with hq
        · subst hq; rw [one_div_mul_one_div]; congr 2; ring
        · simp]
    rw [← h, ← intervalIntegral.integral_const_mul]
    congr 1
    funext y
    rw [show p + p + 1 = 2 * p + 1 by ring]
    ring
  · simp [hp]

theorem continuous_hjac {X : Type*} [TopologicalSpace X] (a : ℚ) {l h : X → ℝ} (hl : Continuous l)
    (hh : Continuous h) (n : ℕ) : Continuous fun x => hjac a (l x) (h x) n := by
  induction n using Nat.strong_induction_on with
  | _ n ih =>
    by_cases h0 : n = 0
    · subst h0; simp only [hjac]; exact continuous_const
    have e : ∀ x, hjac a (l x) (h x) n = hjac a (l x) (h x) (n - 1) *
        ((jrcA a (n - 1) : ℝ) * l x + (jrcB a (n - 1) : ℝ) * h x)
        - (jrcC a (n - 1) : ℝ) * (hjac a (l x) (h x) (n - 2) * h x ^ 2) := by
      intro x
      rw [hjac_rec a _ _ n h0, Rat.smul_def, Rat.smul_def, Rat.smul_def]
    simp_rw [e]
    have h1 := ih (n - 1) (by omega)
    have h2 := ih (n - 2) (by omega)
    fun_prop

theorem continuous_triMember (q p : ℕ) :
    Continuous (Function.uncurry fun x y : ℝ => triMember x y q p) := by
  unfold triMember Function.uncurry
  exact (continuous_hjac 0 (by fun_prop) (by fun_prop) p).mul
    (continuous_hjac _ (by fun_prop) (by fun_prop) q)

theorem tri_pair' (p q p' q' : ℕ) :
    ∫ x in (0 : ℝ)..1, ∫ y in (0 : ℝ)..1 - x, triMember x y q p * triMember x y q' p'
      = if p = p' ∧ q = q' then 1 / ((2 * (p : ℝ) + 1) * (2 * p + 2 * q + 2)) else 0 := by
  rw [← tri_pair]
  exact triangle_swap (f := fun x y => triMember x y q p * triMember x y q' p')
    ((continuous_triMember q p).mul (continuous_triMember q' p'))

/-- **C31** Triangle: the members are orthogonal, with their norms. -/
theorem orthogonalTriangle_orthogonal (order derivs p q p' q' : ℕ) (h : p + q ≤ order)
    (h' : p' + q' ≤ order) :
    cellInt .triangle (fun x => val (orthogonalTriangle (x 0) (x 1) order derivs) (triIndex q p) *
      val (orthogonalTriangle (x 0) (x 1) order derivs) (triIndex q' p')) =
      if p = p' ∧ q = q' then 1 / ((2 * (p : ℝ) + 1) * (2 * p + 2 * q + 2)) else 0 := by
  rw [← tri_pair', cellInt_triangle fun x y => val (orthogonalTriangle x y order derivs) (triIndex q p)
    * val (orthogonalTriangle x y order derivs) (triIndex q' p')]
  simp only [val, triangle_value _ _ h, triangle_value _ _ h', Option.getD_some]

/-! ### Tetrahedron -/

theorem tet_pair (p q r p' q' r' : ℕ) :
    ∫ z in (0 : ℝ)..1, ∫ y in (0 : ℝ)..1 - z, ∫ x in (0 : ℝ)..1 - y - z,
        tetMember x y z r q p * tetMember x y z r' q' p'
      = if p = p' ∧ q = q' ∧ r = r' then
          1 / ((2 * (p : ℝ) + 1) * (2 * p + 2 * q + 2) * (2 * p + 2 * q + 2 * r + 3)) else 0 := by
  have e : ∀ y z : ℝ, ∫ x in (0 : ℝ)..1 - y - z, tetMember x y z r q p * tetMember x y z r' q' p'
      = (hjac (2 * p + 1) (2 * y + z - 1) (1 - z) q * hjac (2 * p' + 1) (2 * y + z - 1) (1 - z) q') *
        (hjac (2 * p + 2 * q + 2) (2 * z - 1) 1 r * hjac (2 * p' + 2 * q' + 2) (2 * z - 1) 1 r') *
        ((1 - y - z) ^ (p + p' + 1) * if p = p' then 1 / (2 * (p' : ℝ) + 1) else 0) := by
    intro y z
    rw [← leg_pair, ← intervalIntegral.integral_const_mul]
    congr 1
    funext x
    rw [tetMember, tetMember, show 2 * x + y + z - 1 = 2 * x - (1 - y - z) by ring]
    ring
  simp_rw [e]
  by_cases hp : p = p'
  · subst hp
    have e2 : ∀ z : ℝ, ∫ y in (0 : ℝ)..1 - z,
        (hjac (2 * p + 1) (2 * y + z - 1) (1 - z) q * hjac (2 * p + 1) (2 * y + z - 1) (1 - z) q') *
        (hjac (2 * p + 2 * q + 2) (2 * z - 1) 1 r * hjac (2 * p + 2 * q' + 2) (2 * z - 1) 1 r') *
        ((1 - y - z) ^ (p + p + 1) * if p = p then 1 / (2 * (p : ℝ) + 1) else 0)
      = 1 / (2 * (p : ℝ) + 1) *
        (hjac (2 * p + 2 * q + 2) (2 * z - 1) 1 r * hjac (2 * p + 2 * q' + 2) (2 * z - 1) 1 r') *
        ((1 - z) ^ (2 * p + 1 + q + q' + 1) *
          if q = q' then 1 / (2 * (q' : ℝ) + (2 * p + 1 : ℕ) + 1) else 0) := by
      intro z
      rw [← scaled_pair, ← intervalIntegral.integral_const_mul]
      congr 1
      funext y
      rw [if_pos rfl, show 2 * y + z - 1 = 2 * y - (1 - z) by ring,
        show 1 - y - z = 1 - z - y by ring, show p + p + 1 = 2 * p + 1 by ring]
      push_cast
      ring
    rw [intervalIntegral.integral_congr fun z _ => e2 z]
    by_cases hq : q = q'
    · subst hq
      have h := jac_pair (2 * p + 2 * q + 2) r r'
      push_cast at h
      simp only [if_true, true_and]
      rw [show (if r = r' then 1 / ((2 * (p : ℝ) + 1) * (2 * p + 2 * q + 2) *
          (2 * p + 2 * q + 2 * r + 3)) else 0) = 1 / (2 * (p : ℝ) + 1) * (1 / (2 * p + 2 * q + 2)) *
          if r = r' then 1 / (2 * (r' : ℝ) + (2 * p + 2 * q + 2) + 1) else 0 by
        split_ifs with hr
        · subst hr; rw [one_div_mul_one_div, one_div_mul_one_div]; congr 2; ring
        · simp]
      rw [← h, ← intervalIntegral.integral_const_mul]
      congr 1
      funext z
      rw [show 2 * p + 1 + q + q + 1 = 2 * p + 2 * q + 2 by ring]
      push_cast
      rw [show 2 * (q : ℝ) + (2 * p + 1) + 1 = 2 * p + 2 * q + 2 by ring]
      ring
    · simp [hq]
  · simp [hp]

/-- **C31** Tetrahedron: the members are orthogonal, with their norms. -/
theorem orthogonalTetrahedron_orthogonal (order derivs p q r p' q' r' : ℕ) (h : p + q + r ≤ order)
    (h' : p' + q' + r' ≤ order) :
    cellInt .tetrahedron (fun x =>
      val (orthogonalTetrahedron (x 0) (x 1) (x 2) order derivs) (tetIndex r q p) *
      val (orthogonalTetrahedron (x 0) (x 1) (x 2) order derivs) (tetIndex r' q' p')) =
      if p = p' ∧ q = q' ∧ r = r' then
        1 / ((2 * (p : ℝ) + 1) * (2 * p + 2 * q + 2) * (2 * p + 2 * q + 2 * r + 3)) else 0 := by
  rw [← tet_pair, cellInt_tetrahedron fun x y z =>
    val (orthogonalTetrahedron x y z order derivs) (tetIndex r q p)
    * val (orthogonalTetrahedron x y z order derivs) (tetIndex r' q' p')]
  simp only [val, tetrahedron_value _ _ _ h, tetrahedron_value _ _ _ h', Option.getD_some]

/-! ### Quadrilateral, hexahedron, prism -/

theorem leg_pair_one (m n : ℕ) :
    ∫ y in (0 : ℝ)..1, hjac 0 (2 * y - 1) 1 m * hjac 0 (2 * y - 1) 1 n
      = if m = n then 1 / (2 * (n : ℝ) + 1) else 0 := by
  have := leg_pair m n 1
  rwa [one_pow, one_mul] at this

/-- **C31** Quadrilateral: the members are orthogonal, with their norms. -/
theorem orthogonalQuadrilateral_orthogonal (order derivs a b a' b' : ℕ) (ha : a ≤ order)
    (hb : b ≤ order) (ha' : a' ≤ order) (hb' : b' ≤ order) :
    cellInt .quadrilateral (fun x =>
      val (orthogonalQuadrilateral (x 0) (x 1) order derivs) (a * (order + 1) + b) *
      val (orthogonalQuadrilateral (x 0) (x 1) order derivs) (a' * (order + 1) + b')) =
      if a = a' ∧ b = b' then 1 / ((2 * (a : ℝ) + 1) * (2 * b + 1)) else 0 := by
  rw [cellInt_quadrilateral fun x y =>
    val (orthogonalQuadrilateral x y order derivs) (a * (order + 1) + b)
    * val (orthogonalQuadrilateral x y order derivs) (a' * (order + 1) + b')]
  simp only [val, quadrilateral_value _ _ ha hb, quadrilateral_value _ _ ha' hb', Option.getD_some]
  have e : ∀ x : ℝ, ∫ y in (0 : ℝ)..1, hjac 0 (2 * x - 1) 1 a * hjac 0 (2 * y - 1) 1 b *
      (hjac 0 (2 * x - 1) 1 a' * hjac 0 (2 * y - 1) 1 b') =
      (hjac 0 (2 * x - 1) 1 a * hjac 0 (2 * x - 1) 1 a') *
        if b = b' then 1 / (2 * (b' : ℝ) + 1) else 0 := by
    intro x
    rw [← leg_pair_one, ← intervalIntegral.integral_const_mul]
    congr 1
    funext y
    ring
  simp_rw [e]
  rw [intervalIntegral.integral_mul_const, leg_pair_one]
  by_cases h1 : a = a' <;> by_cases h2 : b = b' <;> simp [h1, h2]
  ring

/-- **C31** Hexahedron: the members are orthogonal, with their norms. -/
theorem orthogonalHexahedron_orthogonal (order derivs a b c a' b' c' : ℕ) (ha : a ≤ order)
    (hb : b ≤ order) (hc : c ≤ order) (ha' : a' ≤ order) (hb' : b' ≤ order) (hc' : c' ≤ order) :
    cellInt .hexahedron (fun x =>
      val (orthogonalHexahedron (x 0) (x 1) (x 2) order derivs)
        ((a * (order + 1) + b) * (order + 1) + c) *
      val (orthogonalHexahedron (x 0) (x 1) (x 2) order derivs)
        ((a' * (order + 1) + b') * (order + 1) + c')) =
      if a = a' ∧ b = b' ∧ c = c' then 1 / ((2 * (a : ℝ) + 1) * (2 * b + 1) * (2 * c + 1)) else 0 := by
  rw [cellInt_hexahedron fun x y z =>
    val (orthogonalHexahedron x y z order derivs) ((a * (order + 1) + b) * (order + 1) + c)
    * val (orthogonalHexahedron x y z order derivs) ((a' * (order + 1) + b') * (order + 1) + c')]
  simp only [val, hexahedron_value _ _ _ ha hb hc, hexahedron_value _ _ _ ha' hb' hc',
    Option.getD_some]
  have e : ∀ x y : ℝ, ∫ z in (0 : ℝ)..1,
      hjac 0 (2 * x - 1) 1 a * hjac 0 (2 * y - 1) 1 b * hjac 0 (2 * z - 1) 1 c *
      (hjac 0 (2 * x - 1) 1 a' * hjac 0 (2 * y - 1) 1 b' * hjac 0 (2 * z - 1) 1 c') =
      (hjac 0 (2 * x - 1) 1 a * hjac 0 (2 * x - 1) 1 a') *
      ((hjac 0 (2 * y - 1) 1 b * hjac 0 (2 * y - 1) 1 b') *
        if c = c' then 1 / (2 * (c' : ℝ) + 1) else 0) := by
    intro x y
    rw [← leg_pair_one, ← intervalIntegral.integral_const_mul, ← intervalIntegral.integral_const_mul]
    congr 1
    funext z
    ring
  simp_rw [e, intervalIntegral.integral_const_mul, intervalIntegral.integral_mul_const, leg_pair_one]
  by_cases h1 : a = a' <;> by_cases h2 : b = b' <;> by_cases h3 : c = c' <;> simp [h1, h2, h3]
  ring

/-- **C31** Prism: the members are orthogonal, with their norms. -/
theorem orthogonalPrism_orthogonal (order derivs p q c p' q' c' : ℕ) (h : p + q ≤ order)
    (hc : c ≤ order) (h' : p' + q' ≤ order) (hc' : c' ≤ order) :
    cellInt .prism (fun x =>
      val (orthogonalPrism (x 0) (x 1) (x 2) order derivs) (triIndex q p * (order + 1) + c) *
      val (orthogonalPrism (x 0) (x 1) (x 2) order derivs) (triIndex q' p' * (order + 1) + c')) =
      if p = p' ∧ q = q' ∧ c = c' then
        1 / ((2 * (p : ℝ) + 1) * (2 * p + 2 * q + 2) * (2 * c + 1)) else 0 := by
  rw [cellInt_prism fun x y z =>
    val (orthogonalPrism x y z order derivs) (triIndex q p * (order + 1) + c)
    * val (orthogonalPrism x y z order derivs) (triIndex q' p' * (order + 1) + c')]
  simp only [val, prism_value _ _ _ h hc, prism_value _ _ _ h' hc', Option.getD_some]
  have e : ∀ x y : ℝ, ∫ z in (0 : ℝ)..1,
      triMember x y q p * hjac 0 (2 * z - 1) 1 c *
      (triMember x y q' p' * hjac 0 (2 * z - 1) 1 c') =
      (triMember x y q p * triMember x y q' p') * if c = c' then 1 / (2 * (c' : ℝ) + 1) else 0 := by
    intro x y
    rw [← leg_pair_one, ← intervalIntegral.integral_const_mul]
    congr 1
    funext z
    ring
  simp_rw [e, intervalIntegral.integral_mul_const, tri_pair']
  by_cases h1 : p = p' <;> by_cases h2 : q = q' <;> by_cases h3 : c = c' <;> simp [h1, h2, h3]
  ring

/-! ### Pyramid -/

theorem pyr_pair_at (i j k i' j' k' : ℕ) (z : ℝ) (hz : z ≠ 1) :
    ∫ y in (0 : ℝ)..1 - z, ∫ x in (0 : ℝ)..1 - z,
        pyrMember x y z (1 / (1 - z)) i j k * pyrMember x y z (1 / (1 - z)) i' j' k'
      = (if i = i' ∧ j = j' then 1 / ((2 * (i : ℝ) + 1) * (2 * j + 1)) else 0) *
        ((1 - z) ^ (2 * max i j + 2) * (hjac (2 * (max i j : ℕ) + 2) (2 * z - 1) 1 k *
          hjac (2 * (max i j : ℕ) + 2) (2 * z - 1) 1 k')) := by
  have hz' : (1 - z) ≠ 0 := fun h => hz (by linarith)
  have e : ∀ y : ℝ, ∫ x in (0 : ℝ)..1 - z,
        pyrMember x y z (1 / (1 - z)) i j k * pyrMember x y z (1 / (1 - z)) i' j' k'
      = (1 - z) ^ (max i j - i) * (1 - z) ^ (max i' j' - i') *
        (hjac 0 (2 * (y * (1 / (1 - z))) - 1) 1 j * hjac 0 (2 * (y * (1 / (1 - z))) - 1) 1 j') *
        (hjac (2 * (max i j : ℕ) + 2) (2 * z - 1) 1 k *
          hjac (2 * (max i' j' : ℕ) + 2) (2 * z - 1) 1 k') *
        ((1 - z) ^ (i + i' + 1) * if i = i' then 1 / (2 * (i' : ℝ) + 1) else 0) := by
    intro y
    rw [← leg_pair, ← intervalIntegral.integral_const_mul]
    congr 1
    funext x
    rw [pyrMember, pyrMember, show 2 * x + z - 1 = 2 * x - (1 - z) by ring]
    ring
  have e2 : ∫ y in (0 : ℝ)..1 - z,
      hjac 0 (2 * (y * (1 / (1 - z))) - 1) 1 j * hjac 0 (2 * (y * (1 / (1 - z))) - 1) 1 j'
      = (1 - z) * if j = j' then 1 / (2 * (j' : ℝ) + 1) else 0 := by
    have key := intervalIntegral.smul_integral_comp_mul_left
      (fun y : ℝ => hjac 0 (2 * (y * (1 / (1 - z))) - 1) 1 j *
        hjac 0 (2 * (y * (1 / (1 - z))) - 1) 1 j') (1 - z) (a := 0) (b := 1)
    rw [mul_zero, mul_one] at key
    rw [← key, smul_eq_mul, ← leg_pair_one]
    congr 2
    funext y
    rw [show (1 - z) * y * (1 / (1 - z)) = y by field_simp]
  have e3 : ∀ y : ℝ, ∫ x in (0 : ℝ)..1 - z,
        pyrMember x y z (1 / (1 - z)) i j k * pyrMember x y z (1 / (1 - z)) i' j' k'
      = ((1 - z) ^ (max i j - i) * (1 - z) ^ (max i' j' - i') *
        (hjac (2 * (max i j : ℕ) + 2) (2 * z - 1) 1 k *
          hjac (2 * (max i' j' : ℕ) + 2) (2 * z - 1) 1 k') *
        ((1 - z) ^ (i + i' + 1) * if i = i' then 1 / (2 * (i' : ℝ) + 1) else 0)) *
        (hjac 0 (2 * (y * (1 / (1 - z))) - 1) 1 j * hjac 0 (2 * (y * (1 / (1 - z))) - 1) 1 j') :=
    fun y => by rw [e]; ring
  rw [intervalIntegral.integral_congr fun y _ => e3 y, intervalIntegral.integral_const_mul, e2]
  by_cases hi : i = i'
  · subst hi
    by_cases hj : j = j'
    · subst hj
      simp only [if_true, and_self]
      have hm : (1 - z) ^ (2 * max i j + 2) = (1 - z) ^ (max i j - i) * (1 - z) ^ (max i j - i) *
          (1 - z) ^ (i + i + 1) * (1 - z) := by
        rw [← pow_add, ← pow_add, ← pow_succ]
        congr 1
        have := le_max_left i j
        omega
      rw [hm, ← one_div_mul_one_div]
      ring
    · simp [hj]
  · simp [hi]

theorem pyr_pair (i j k i' j' k' : ℕ) :
    ∫ z in (0 : ℝ)..1, ∫ y in (0 : ℝ)..1 - z, ∫ x in (0 : ℝ)..1 - z,
        pyrMember x y z (1 / (1 - z)) i j k * pyrMember x y z (1 / (1 - z)) i' j' k'
      = if i = i' ∧ j = j' ∧ k = k' then
          1 / ((2 * (i : ℝ) + 1) * (2 * j + 1) * (2 * (max i j : ℕ) + 2 * k + 3)) else 0 := by
  have e : ∀ z : ℝ, ∫ y in (0 : ℝ)..1 - z, ∫ x in (0 : ℝ)..1 - z,
        pyrMember x y z (1 / (1 - z)) i j k * pyrMember x y z (1 / (1 - z)) i' j' k'
      = (if i = i' ∧ j = j' then 1 / ((2 * (i : ℝ) + 1) * (2 * j + 1)) else 0) *
        ((1 - z) ^ (2 * max i j + 2) * (hjac (2 * (max i j : ℕ) + 2) (2 * z - 1) 1 k *
          hjac (2 * (max i j : ℕ) + 2) (2 * z - 1) 1 k')) := by
    intro z
    by_cases hz : z = 1
    · subst hz; simp
    · exact pyr_pair_at i j k i' j' k' z hz
  simp_rw [e]
  have h := jac_pair (2 * max i j + 2) k k'
  rw [show (((2 * max i j + 2 : ℕ) : ℚ)) = 2 * (max i j : ℕ) + 2 by push_cast; ring] at h
  rw [intervalIntegral.integral_const_mul, h]
  by_cases h1 : i = i' <;> by_cases h2 : j = j' <;> by_cases h3 : k = k' <;> simp [h1, h2, h3]
  ring

/-- **C31** Pyramid: the members are orthogonal, with their norms. -/
theorem orthogonalPyramid_orthogonal (order derivs i j k i' j' k' : ℕ) (hi : i + k ≤ order)
    (hj : j + k ≤ order) (hi' : i' + k' ≤ order) (hj' : j' + k' ≤ order) :
    cellInt .pyramid (fun x =>
      val (orthogonalPyramid (x 0) (x 1) (x 2) (1 / (1 - x 2)) order derivs) (pyrIndex order i j k) *
      val (orthogonalPyramid (x 0) (x 1) (x 2) (1 / (1 - x 2)) order derivs)
        (pyrIndex order i' j' k')) =
      if i = i' ∧ j = j' ∧ k = k' then
        1 / ((2 * (i : ℝ) + 1) * (2 * j + 1) * (2 * (max i j : ℕ) + 2 * k + 3)) else 0 := by
  rw [← pyr_pair, cellInt_pyramid fun x y z =>
    val (orthogonalPyramid x y z (1 / (1 - z)) order derivs) (pyrIndex order i j k)
    * val (orthogonalPyramid x y z (1 / (1 - z)) order derivs) (pyrIndex order i' j' k')]
  congr 1
  funext z
  by_cases hz : z = 1
  · subst hz; simp
  · have hz' : 1 / (1 - z) * (1 - z) = 1 := div_mul_cancel₀ _ fun h => hz (by linarith)
    simp only [val, pyramid_value _ _ _ _ hz' hi hj, pyramid_value _ _ _ _ hz' hi' hj',
      Option.getD_some]

end Verif.Orthogonal
