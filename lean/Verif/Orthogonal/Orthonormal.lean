import Verif.Orthogonal.PropsOrtho
import Mathlib.Algebra.Polynomial.Degree.Operations
import Mathlib.Analysis.Real.Sqrt

/-!
# `orthogonal_basis` and `orthonormal_basis` on every cell (C28, C31, C76)

Here the expressions are real functions of a point.
-/

set_option linter.unusedSectionVars false
set_option linter.unusedSimpArgs false

namespace Verif.Orthogonal

open Verif.References

/-! ### Degrees -/

theorem degree_leg (n : ℕ) :
    (hjac 0 (2 * Polynomial.X - 1) 1 n : Polynomial ℚ).degree = n := by
  induction n using Nat.strong_induction_on with
  | _ n ih =>
    by_cases h0 : n = 0
    · subst h0; simp [hjac]
    have hlin : (2 * Polynomial.X - 1 : Polynomial ℚ).degree = 1 := by
      rw [show (2 * Polynomial.X - 1 : Polynomial ℚ) = Polynomial.C 2 * Polynomial.X + Polynomial.C (-1) by
        rw [map_ofNat, map_neg, map_one]; ring]
      exact Polynomial.degree_linear (by norm_num)
    have hc : (2 - 1 / n : ℚ) ≠ 0 := by
      rw [← leg_coeff n h0]
      have : (0 : ℚ) < n := by exact_mod_cast Nat.pos_of_ne_zero h0
      have h1 : (1 : ℚ) ≤ n := by exact_mod_cast Nat.pos_of_ne_zero h0
      apply ne_of_gt
      apply div_pos <;> linarith
    have h1 : ((2 - 1 / n : ℚ) • (hjac 0 (2 * Polynomial.X - 1) 1 (n - 1) * (2 * Polynomial.X - 1) :
        Polynomial ℚ)).degree = n := by
      rw [Polynomial.degree_smul_of_isRightRegular_leadingCoeff hc (IsRegular.of_ne_zero ?_).right,
        Polynomial.degree_mul, ih (n - 1) (by omega), hlin]
      · norm_cast
        omega
      · apply Polynomial.leadingCoeff_ne_zero.2
        apply mul_ne_zero <;> rw [Ne, ← Polynomial.degree_eq_bot]
        · rw [ih (n - 1) (by omega)]; exact WithBot.natCast_ne_bot _
        · rw [hlin]; exact WithBot.one_ne_bot
    rw [hleg_rec _ _ n h0, Polynomial.degree_sub_eq_left_of_degree_lt, h1]
    rw [h1, one_pow, mul_one]
    by_cases h2 : n = 1
    · subst h2; simp
    · refine lt_of_le_of_lt (Polynomial.degree_smul_le _ _) ?_
      rw [ih (n - 2) (by omega)]
      exact_mod_cast (by omega : n - 2 < n)

/-- **C28** Entry `i` of the value row is a polynomial of degree `i`. -/
theorem orthogonalInterval_degree (order derivs i : ℕ) (hi : i ≤ order) :
    ∃ f : Polynomial ℚ, entry (orthogonalInterval Polynomial.X order derivs) 0 i = some f ∧
      f.degree = i :=
  ⟨_, interval_value _ hi, degree_leg i⟩

/-! ### All cells -/

/-- Real functions of a point. -/
abbrev Fn := (ℕ → ℝ) → ℝ

/-- The default variables, as functions. -/
def var (i : ℕ) : Fn := fun p => p i

/-- `1 / (1 - z)` -/
noncomputable def winv : Fn := fun p => 1 / (1 - p 2)

/-- `orthogonal_basis` (symfem/polynomials/legendre.py:625-659); `none`: `ValueError`. -/
noncomputable def orthogonalBasis (c : Cell) (order derivs : ℕ) : Option (List (List Fn)) :=
  match c with
  | .interval => some (orthogonalInterval (var 0) order derivs)
  | .triangle => some (orthogonalTriangle (var 0) (var 1) order derivs)
  | .quadrilateral => some (orthogonalQuadrilateral (var 0) (var 1) order derivs)
  | .hexahedron => some (orthogonalHexahedron (var 0) (var 1) (var 2) order derivs)
  | .tetrahedron => some (orthogonalTetrahedron (var 0) (var 1) (var 2) order derivs)
  | .prism => some (orthogonalPrism (var 0) (var 1) (var 2) order derivs)
  | .pyramid => some (orthogonalPyramid (var 0) (var 1) (var 2) winv order derivs)
  | _ => none

/-- `orthonormal_basis` (symfem/polynomials/legendre.py:662-689) with the default variables. -/
noncomputable def orthonormalBasis (c : Cell) (order derivs : ℕ) : Option (List (List Fn)) :=
  (orthogonalBasis c order derivs).map fun poly =>
    let norms := (rowOf poly 0).map fun f => √(cellInt c fun p => f p ^ 2)
    poly.map fun row => List.zipWith (fun f n => fun p => f p / n) row norms

/-- Number of functions. -/
def basisSize : Cell → ℕ → ℕ
  | .interval, n => n + 1
  | .triangle, n => (n + 1) * (n + 2) / 2
  | .quadrilateral, n => (n + 1) ^ 2
  | .hexahedron, n => (n + 1) ^ 3
  | .tetrahedron, n => (n + 1) * (n + 2) * (n + 3) / 6
  | .prism, n => (n + 1) * (n + 1) * (n + 2) / 2
  | .pyramid, n => (2 * n + 3) * (n + 2) * (n + 1) / 6
  | _, _ => 0

/-- Number of mixed derivatives of order at most `d`. -/
def derivSize : Cell → ℕ → ℕ
  | .interval, d => d + 1
  | .triangle, d | .quadrilateral, d => (d + 1) * (d + 2) / 2
  | _, d => (d + 1) * (d + 2) * (d + 3) / 6

theorem orthogonalBasis_shape {c : Cell} {order derivs : ℕ} {l : List (List Fn)}
    (h : orthogonalBasis c order derivs = some l) :
    Shape l (derivSize c derivs) (basisSize c order) := by
  unfold orthogonalBasis at h
  split at h <;> simp only [Option.some.injEq, reduceCtorEq] at h <;> subst h
  · exact orthogonalInterval_shape _ _ _
  · exact orthogonalTriangle_shape _ _ _ _
  · exact orthogonalQuadrilateral_shape _ _ _ _
  · exact orthogonalHexahedron_shape _ _ _ _ _
  · exact orthogonalTetrahedron_shape _ _ _ _ _
  · exact orthogonalPrism_shape _ _ _ _ _
  · exact orthogonalPyramid_shape _ _ _ _ _ _

/-- Entry `i` of the value row, as a function. -/
def fn (l : List (List Fn)) (i : ℕ) : Fn := (entry l 0 i).getD 0

theorem fn_apply (l : List (List Fn)) (i : ℕ) (p : ℕ → ℝ) :
    fn l i p = val (l.map (List.map (Pi.evalAlgHom ℚ (fun _ => ℝ) p))) i := by
  rw [fn, val, entry_map]
  cases entry l 0 i <;> rfl

theorem orthogonal_of {c : Cell} {l : List (List Fn)} {N : ℕ} {κ : Type} (idx : κ → ℕ)
    (ok : κ → Prop) (norm : κ → ℝ) [DecidableEq κ]
    (hidx : ∀ i < N, ∃ k, ok k ∧ idx k = i) (hnorm : ∀ k, 0 < norm k)
    (h : ∀ k k', ok k → ok k' →
      cellInt c (fun p => fn l (idx k) p * fn l (idx k') p) = if k = k' then norm k else 0)
    {i j : ℕ} (hi : i < N) (hj : j < N) :
    (i ≠ j → cellInt c (fun p => fn l i p * fn l j p) = 0) ∧
      0 < cellInt c (fun p => fn l i p * fn l i p) := by
  obtain ⟨k, hk, rfl⟩ := hidx i hi
  obtain ⟨k', hk', rfl⟩ := hidx j hj
  refine ⟨fun hne => ?_, ?_⟩
  · rw [h k k' hk hk', if_neg fun e => hne (by rw [e])]
  · rw [h k k hk hk, if_pos rfl]; exact hnorm k

/-- **C31** On every cell, different members of the value row are orthogonal and no member has norm
zero. -/
theorem orthogonalBasis_orthogonal {c : Cell} {order derivs : ℕ} {l : List (List Fn)}
    (hl : orthogonalBasis c order derivs = some l) {i j : ℕ} (hi : i < basisSize c order)
    (hj : j < basisSize c order) :
    (i ≠ j → cellInt c (fun p => fn l i p * fn l j p) = 0) ∧
      0 < cellInt c (fun p => fn l i p * fn l i p) := by
  have hv : ∀ (p : ℕ → ℝ) (i : ℕ), Pi.evalAlgHom ℚ (fun _ : ℕ → ℝ => ℝ) p (var i) = p i := fun _ _ => rfl
  have hw : ∀ (p : ℕ → ℝ), Pi.evalAlgHom ℚ (fun _ : ℕ → ℝ => ℝ) p winv = 1 / (1 - p 2) := fun _ => rfl
  unfold orthogonalBasis at hl
  split at hl <;> simp only [Option.some.injEq, reduceCtorEq] at hl <;> subst hl
  · refine orthogonal_of id (· ≤ order) (fun i => 1 / (2 * (i : ℝ) + 1))
      (fun i hi => ⟨i, by simp only [basisSize] at hi; omega, rfl⟩) (fun k => by positivity) ?_ hi hj
    intro k k' hk hk'
    simp only [fn_apply, ← orthogonalInterval_map, hv]
    exact orthogonalInterval_orthogonal order derivs k k' hk hk'
  · refine orthogonal_of (fun k : ℕ × ℕ => triIndex k.2 k.1) (fun k => k.1 + k.2 ≤ order)
      (fun k => 1 / ((2 * (k.1 : ℝ) + 1) * (2 * k.1 + 2 * k.2 + 2)))
      (fun i hi => ?_) (fun k => by positivity) ?_ hi hj
    · obtain ⟨⟨q, p⟩, h, rfl⟩ := (triIndex_bijOn order).surjOn hi
      have h : q + p ≤ order := h
      exact ⟨(p, q), by simp only; omega, rfl⟩
    · rintro ⟨p, q⟩ ⟨p', q'⟩ hk hk'
      simp only [fn_apply, ← orthogonalTriangle_map, hv, Prod.mk.injEq]
      exact orthogonalTriangle_orthogonal order derivs p q p' q' hk hk'
  · refine orthogonal_of (fun k : ℕ × ℕ => k.1 * (order + 1) + k.2)
      (fun k => k.1 ≤ order ∧ k.2 ≤ order) (fun k => 1 / ((2 * (k.1 : ℝ) + 1) * (2 * k.2 + 1)))
      (fun i hi => ?_) (fun k => by positivity) ?_ hi hj
    · have hb : i % (order + 1) < order + 1 := Nat.mod_lt _ (by omega)
      have ha : i / (order + 1) < order + 1 := by
        rw [Nat.div_lt_iff_lt_mul (by omega), ← pow_two]; exact hi
      exact ⟨(i / (order + 1), i % (order + 1)), ⟨by simp only; omega, by simp only; omega⟩,
        Nat.div_add_mod' i (order + 1)⟩
    · rintro ⟨p, q⟩ ⟨p', q'⟩ hk hk'
      simp only [fn_apply, ← orthogonalQuadrilateral_map, hv, Prod.mk.injEq]
      exact orthogonalQuadrilateral_orthogonal order derivs p q p' q' hk.1 hk.2 hk'.1 hk'.2
  · refine orthogonal_of (fun k : ℕ × ℕ × ℕ => (k.1 * (order + 1) + k.2.1) * (order + 1) + k.2.2)
      (fun k => k.1 ≤ order ∧ k.2.1 ≤ order ∧ k.2.2 ≤ order)
      (fun k => 1 / ((2 * (k.1 : ℝ) + 1) * (2 * k.2.1 + 1) * (2 * k.2.2 + 1)))
      (fun i hi => ?_) (fun k => by positivity) ?_ hi hj
    · have hc : i % (order + 1) < order + 1 := Nat.mod_lt _ (by omega)
      have hb : i / (order + 1) % (order + 1) < order + 1 := Nat.mod_lt _ (by omega)
      have ha : i / (order + 1) / (order + 1) < order + 1 := by
        rw [Nat.div_lt_iff_lt_mul (by omega), Nat.div_lt_iff_lt_mul (by omega), mul_assoc, ← pow_two,
          ← pow_succ']
        exact hi
      exact ⟨(i / (order + 1) / (order + 1), i / (order + 1) % (order + 1), i % (order + 1)),
        ⟨by simp only; omega, by simp only; omega, by simp only; omega⟩, by
          simp only; rw [Nat.div_add_mod', Nat.div_add_mod']⟩
    · rintro ⟨p, q, r⟩ ⟨p', q', r'⟩ hk hk'
      simp only [fn_apply, ← orthogonalHexahedron_map, hv, Prod.mk.injEq]
      exact orthogonalHexahedron_orthogonal order derivs p q r p' q' r' hk.1 hk.2.1 hk.2.2 hk'.1
        hk'.2.1 hk'.2.2
  · refine orthogonal_of (fun k : ℕ × ℕ × ℕ => tetIndex k.2.2 k.2.1 k.1)
      (fun k => k.1 + k.2.1 + k.2.2 ≤ order)
      (fun k => 1 / ((2 * (k.1 : ℝ) + 1) * (2 * k.1 + 2 * k.2.1 + 2) *
        (2 * k.1 + 2 * k.2.1 + 2 * k.2.2 + 3)))
      (fun i hi => ?_) (fun k => by positivity) ?_ hi hj
    · obtain ⟨⟨r, q, p⟩, h, rfl⟩ := (tetIndex_bijOn order).surjOn hi
      have h : r + q + p ≤ order := h
      exact ⟨(p, q, r), by simp only; omega, rfl⟩
    · rintro ⟨p, q, r⟩ ⟨p', q', r'⟩ hk hk'
      simp only [fn_apply, ← orthogonalTetrahedron_map, hv, Prod.mk.injEq]
      exact orthogonalTetrahedron_orthogonal order derivs p q r p' q' r' hk hk'
  · refine orthogonal_of (fun k : ℕ × ℕ × ℕ => triIndex k.2.1 k.1 * (order + 1) + k.2.2)
      (fun k => k.1 + k.2.1 ≤ order ∧ k.2.2 ≤ order)
      (fun k => 1 / ((2 * (k.1 : ℝ) + 1) * (2 * k.1 + 2 * k.2.1 + 2) * (2 * k.2.2 + 1)))
      (fun i hi => ?_) (fun k => by positivity) ?_ hi hj
    · have hi : i < (order + 1) * (order + 1) * (order + 2) / 2 := hi
      have hc : i % (order + 1) < order + 1 := Nat.mod_lt _ (by omega)
      have ha : i / (order + 1) < (order + 1) * (order + 2) / 2 := by
        rw [Nat.div_lt_iff_lt_mul (by omega)]
        have := two_tri (order + 1)
        rw [show (order + 1) * (order + 2) = 2 * ∑ i ∈ Finset.range (order + 1), (i + 1) by
          rw [this]; ring, Nat.mul_div_cancel_left _ (by norm_num)]
        rw [show (order + 1) * (order + 1) * (order + 2) =
          2 * ((∑ i ∈ Finset.range (order + 1), (i + 1)) * (order + 1)) by
          rw [← mul_assoc, this]; ring, Nat.mul_div_cancel_left _ (by norm_num)] at hi
        exact hi
      obtain ⟨⟨q, p⟩, hqp, hq⟩ := (triIndex_bijOn order).surjOn ha
      have hqp : q + p ≤ order := hqp
      have hq : triIndex q p = i / (order + 1) := hq
      exact ⟨(p, q, i % (order + 1)), ⟨by simp only; omega, by simp only; omega⟩, by
        simp only; rw [hq, Nat.div_add_mod']⟩
    · rintro ⟨p, q, r⟩ ⟨p', q', r'⟩ hk hk'
      simp only [fn_apply, ← orthogonalPrism_map, hv, Prod.mk.injEq]
      exact orthogonalPrism_orthogonal order derivs p q r p' q' r' hk.1 hk.2 hk'.1 hk'.2
  · refine orthogonal_of (fun k : ℕ × ℕ × ℕ => pyrIndex order k.1 k.2.1 k.2.2)
      (fun k => k.1 + k.2.2 ≤ order ∧ k.2.1 + k.2.2 ≤ order)
      (fun k => 1 / ((2 * (k.1 : ℝ) + 1) * (2 * k.2.1 + 1) *
        (2 * (max k.1 k.2.1 : ℕ) + 2 * k.2.2 + 3)))
      (fun i hi => ?_) (fun k => by positivity) ?_ hi hj
    · obtain ⟨⟨a, b, c⟩, h, rfl⟩ := (pyrIndex_bijOn order).surjOn hi
      exact ⟨(a, b, c), h, rfl⟩
    · rintro ⟨p, q, r⟩ ⟨p', q', r'⟩ hk hk'
      simp only [fn_apply, ← orthogonalPyramid_map, hv, hw, Prod.mk.injEq]
      exact orthogonalPyramid_orthogonal order derivs p q r p' q' r' hk.1 hk.2 hk'.1 hk'.2

/-! ### Linearity of the integral -/

theorem iterInt_const_mul (L : List (ℕ × Affine × Affine)) (k : ℝ) (f : Fn) :
    iterInt L (fun p => k * f p) = fun p => k * iterInt L f p := by
  induction L generalizing f with
  | nil => rfl
  | cons a L ih =>
    obtain ⟨v, lo, hi⟩ := a
    simp only [iterInt]
    rw [← ih]
    congr 1
    funext x
    rw [intervalIntegral.integral_const_mul]

theorem cellInt_const_mul (c : Cell) (k : ℝ) (f : Fn) :
    cellInt c (fun p => k * f p) = k * cellInt c f := by
  unfold cellInt
  rw [iterInt_const_mul]

/-- **C76** The functions returned by `orthonormal_basis` are orthonormal over the cell. -/
theorem orthonormalBasis_orthonormal {c : Cell} {order derivs : ℕ} {l : List (List Fn)}
    (hl : orthonormalBasis c order derivs = some l) :
    Shape l (derivSize c derivs) (basisSize c order) ∧
    ∀ i j, i < basisSize c order → j < basisSize c order →
      cellInt c (fun p => fn l i p * fn l j p) = if i = j then 1 else 0 := by
  unfold orthonormalBasis at hl
  cases hb : orthogonalBasis c order derivs with
  | none => rw [hb] at hl; simp at hl
  | some b =>
    rw [hb, Option.map_some, Option.some.injEq] at hl
    obtain ⟨hb1, hb2⟩ := orthogonalBasis_shape hb
    have hD : 0 < derivSize c derivs := by
      have : 0 < (derivs + 1) * (derivs + 2) / 2 := Nat.div_pos (by nlinarith) (by norm_num)
      have : 0 < (derivs + 1) * (derivs + 2) * (derivs + 3) / 6 :=
        Nat.div_pos (by nlinarith [Nat.zero_le (derivs * derivs * derivs), Nat.zero_le (derivs * derivs)]) (by norm_num)
      cases c <;> simp only [derivSize] <;> omega
    obtain ⟨row, rest, rfl⟩ : ∃ row rest, b = row :: rest := by
      cases b with
      | nil => simp at hb1; omega
      | cons a t => exact ⟨a, t, rfl⟩
    have hrow : row.length = basisSize c order := hb2 row (by simp)
    simp only [rowOf, List.getElem?_cons_zero, Option.getD_some] at hl
    subst hl
    constructor
    · refine ⟨by simpa using hb1, fun r hr => ?_⟩
      rw [List.mem_map] at hr
      obtain ⟨r', hr', rfl⟩ := hr
      simp [hb2 r' hr', hrow]
    · intro i j hi hj
      have hf : ∀ i < basisSize c order, ∀ p,
          fn ((row :: rest).map fun row' => List.zipWith (fun f n => fun p => f p / n) row'
            (row.map fun f => √(cellInt c fun p => f p ^ 2))) i p =
          (√(cellInt c fun p => fn (row :: rest) i p * fn (row :: rest) i p))⁻¹ *
            fn (row :: rest) i p := by
        intro i hi p
        have hi' : i < row.length := by omega
        simp [fn, entry, List.getElem?_zipWith, List.getElem?_eq_getElem hi', div_eq_inv_mul, pow_two]
      rw [show (fun p => fn ((row :: rest).map fun row' => List.zipWith (fun f n => fun p => f p / n) row'
            (row.map fun f => √(cellInt c fun p => f p ^ 2))) i p *
          fn ((row :: rest).map fun row' => List.zipWith (fun f n => fun p => f p / n) row'
            (row.map fun f => √(cellInt c fun p => f p ^ 2))) j p) = fun p =>
          ((√(cellInt c fun p => fn (row :: rest) i p * fn (row :: rest) i p))⁻¹ *
          (√(cellInt c fun p => fn (row :: rest) j p * fn (row :: rest) j p))⁻¹) *
          (fn (row :: rest) i p * fn (row :: rest) j p) by
        funext p; rw [hf i hi, hf j hj]; ring, cellInt_const_mul]
      obtain ⟨h1, h2⟩ := orthogonalBasis_orthogonal hb hi hj
      split_ifs with hij
      · subst hij
        rw [← mul_inv, Real.mul_self_sqrt h2.le, inv_mul_cancel₀ h2.ne']
      · rw [h1 hij, mul_zero]

/-- Which cells are accepted. -/
theorem orthonormalBasis_isSome (c : Cell) (order derivs : ℕ) :
    (orthonormalBasis c order derivs).isSome ↔ c ≠ .point ∧ ∀ n, c ≠ .dualPolygon n := by
  unfold orthonormalBasis
  cases c <;> simp [orthogonalBasis]

example : ∃ l, orthonormalBasis .pyramid 3 1 = some l ∧ basisSize .pyramid 3 = 30 ∧
    cellInt .pyramid (fun p => fn l 29 p * fn l 29 p) = 1 := by
  obtain ⟨l, hl⟩ := Option.isSome_iff_exists.1 ((orthonormalBasis_isSome .pyramid 3 1).2 (by simp))
  refine ⟨l, hl, by decide, ?_⟩
  have := (orthonormalBasis_orthonormal hl).2 29 29 (by decide) (by decide)
  simpa using this

end Verif.Orthogonal
