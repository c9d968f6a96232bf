import Verif.Orthogonal.Closed
import Mathlib.Data.Nat.Factorial.Basic

/-!
# The pyramid table (C29)
-/

set_option linter.unusedSectionVars false
set_option linter.unusedSimpArgs false

namespace Verif.Orthogonal

open Finset

variable {A : Type*} [CommRing A] [Algebra ℚ A]

theorem combinations_eq (n k : ℕ) : combinations n k = n.descFactorial k := by
  induction k with
  | zero => rfl
  | succ k ih =>
    rw [combinations] at ih
    rw [combinations, List.range_succ, List.map_append, List.prod_append, ih,
      Nat.descFactorial_succ]
    simp [Nat.mul_comm]

theorem list_sum_range (n : ℕ) (f : ℕ → A) :
    ((List.range n).map f).sum = ∑ i ∈ range n, f i := by
  induction n with
  | zero => simp
  | succ n ih => rw [List.range_succ, List.map_append, List.sum_append, ih, sum_range_succ]; simp

section
variable (D Dx Dy Dz : Derivation ℚ A A) {x y z w : A}

theorem der_inv_const (hw : w * (1 - z) = 1) (h : D z = 0) : D w = 0 := by
  have h1 : D (w * (1 - z)) = 0 := by rw [hw, Derivation.map_one_eq_zero]
  rw [Derivation.leibniz, map_sub, h, Derivation.map_one_eq_zero] at h1
  simp only [sub_zero, smul_zero, zero_add, smul_eq_mul, mul_zero] at h1
  calc D w = (w * (1 - z)) * D w := by rw [hw, one_mul]
    _ = w * ((1 - z) * D w) := by ring
    _ = 0 := by rw [h1, mul_zero]

theorem iter_sum (n : ℕ) (s : Finset ℕ) (f : ℕ → A) :
    D^[n] (∑ i ∈ s, f i) = ∑ i ∈ s, D^[n] (f i) := by
  classical
  induction s using Finset.induction_on with
  | empty => simp [iter_zero]
  | insert a s ha ih => rw [sum_insert ha, iter_add, ih, sum_insert ha]

/-- Leibniz' rule for the factor `1 / (1 - z)`. -/
theorem iter_mul_inv (hw : w * (1 - z) = 1) (hz : D z = 1) (n : ℕ) (f : A) :
    D^[n] (f * w) = D^[n] f * w +
      ∑ e ∈ range n, (combinations n (e + 1) : ℚ) • (D^[n - (e + 1)] f * w ^ (e + 2)) := by
  have step : ∀ n, D^[n] (f * w) = w * D^[n] f + (n : ℚ) • (w * D^[n - 1] (f * w)) := by
    intro n
    have h1 : D (1 - z) = algebraMap ℚ A (-1) := by simp [hz]
    have h2 := iter_mul_affine D h1 n (f * w)
    rw [mul_assoc, hw, mul_one] at h2
    calc D^[n] (f * w) = D^[n] (f * w) * (w * (1 - z)) := by rw [hw, mul_one]
      _ = w * (D^[n] (f * w) * (1 - z)) := by ring
      _ = w * (D^[n] f - (n * -1 : ℚ) • D^[n - 1] (f * w)) := by rw [h2]; ring
      _ = _ := by
        rw [mul_sub, mul_neg_one, neg_smul, mul_neg, sub_neg_eq_add, mul_smul_comm]
  induction n with
  | zero => simp
  | succ n ih =>
    rw [step (n + 1), Nat.add_sub_cancel, ih, sum_range_succ']
    simp only [combinations_eq, Nat.succ_descFactorial_succ, Nat.descFactorial_zero, mul_add,
      mul_sum, smul_add, smul_sum, Nat.add_sub_cancel, zero_add]
    rw [mul_comm w]
    congr 1
    rw [add_comm]
    congr 1
    · apply sum_congr rfl
      intro e _
      rw [show n + 1 - (e + 1 + 1) = n - (e + 1) by omega, mul_smul_comm, smul_smul]
      push_cast
      congr 1
      ring
    · push_cast
      rw [mul_one]
      congr 1
      ring

/-- Leibniz' rule for mixed derivatives and the factor `y / (1 - z)`. -/
theorem mixed_mul_quot (hw : w * (1 - z) = 1) (hD : Partials Dx Dy Dz x y z) (dx dy dz : ℕ) (f : A) :
    mixed Dx Dy Dz dx dy dz (f * (y * w)) = mixed Dx Dy Dz dx dy dz f * (y * w)
      + (dy : ℚ) • (mixed Dx Dy Dz dx (dy - 1) dz f * w)
      + ∑ e ∈ range dz,
        ((combinations dz (e + 1) : ℚ) •
            (mixed Dx Dy Dz dx dy (dz - (e + 1)) f * y * w ^ (e + 2))
          + (combinations dz (e + 1) * dy : ℚ) •
            (mixed Dx Dy Dz dx (dy - 1) (dz - (e + 1)) f * w ^ (e + 2))) := by
  have hwx : Dx w = 0 := der_inv_const Dx hw hD.xz
  have hwy : Dy w = 0 := der_inv_const Dy hw hD.yz
  have hwx' : ∀ k, Dx (w ^ k) = 0 := fun k => by rw [Derivation.leibniz_pow, hwx]; simp
  have hwy' : ∀ k, Dy (w ^ k) = 0 := fun k => by rw [Derivation.leibniz_pow, hwy]; simp
  have hterm : ∀ g : A, ∀ k, Dx^[dx] (Dy^[dy] (g * y * w ^ k)) =
      (Dx^[dx] (Dy^[dy] g) * y + (dy : ℚ) • Dx^[dx] (Dy^[dy - 1] g)) * w ^ k := by
    intro g k
    rw [iter_mul_const Dy (hwy' k), iter_mul_const Dx (hwx' k),
      iter_mul_affine Dy (c := 1) (by simp [hD.yy]), iter_add, iter_mul_const Dx hD.xy, iter_smul,
      mul_one]
  have hterm1 : ∀ g : A, Dx^[dx] (Dy^[dy] (g * y * w)) =
      (Dx^[dx] (Dy^[dy] g) * y + (dy : ℚ) • Dx^[dx] (Dy^[dy - 1] g)) * w := by
    intro g
    have := hterm g 1
    simpa using this
  simp only [mixed]
  rw [← mul_assoc, iter_mul_inv Dz hw hD.zz]
  simp only [iter_mul_const Dz hD.zy, iter_add, iter_sum, iter_smul, hterm, hterm1]
  rw [add_mul, smul_mul_assoc]
  congr 1
  · ring
  apply sum_congr rfl
  intro e _
  rw [add_mul, smul_mul_assoc, smul_add, smul_smul]

end

/-- The member `(i, j, k)` of the pyramid basis; `w` stands for `1 / (1 - z)`. -/
def pyrMember (x y z w : A) (i j k : ℕ) : A :=
  hjac 0 (2 * x + z - 1) (1 - z) i * (1 - z) ^ (max i j - i) * hjac 0 (2 * (y * w) - 1) 1 j *
    hjac (2 * (max i j : ℕ) + 2) (2 * z - 1) 1 k

/-- **C29** Pyramid: the whole table. -/
theorem pyrTable_closed (Dx Dy Dz : Derivation ℚ A A) (x y z w : A)
    (hD : Partials Dx Dy Dz x y z) (hw : w * (1 - z) = 1) (order derivs i j k dx dy dz : ℕ)
    (hi : i + k ≤ order) (hj : j + k ≤ order) (hd : dx + dy + dz ≤ derivs) :
    pyrRead order (pyrTable x y z w order derivs) dx dy dz i j k =
      mixed Dx Dy Dz dx dy dz (pyrMember x y z w i j k) := by
  obtain ⟨hxx, hxy, hxz, hyx, hyy, hyz, hzx, hzy, hzz⟩ := id hD
  have h1 : ∀ i dx dy dz, i ≤ order → dx + dy + dz ≤ derivs →
      pyrRead order (pyrTable x y z w order derivs) dx dy dz i 0 0
        = mixed Dx Dy Dz dx dy dz (hjac 0 (2 * x + z - 1) (1 - z) i) := by
    intro i
    induction i using Nat.strong_induction_on with
    | _ i ih =>
      intro dx dy dz hi hd
      rw [pyrTable_eq x y z w order derivs dx dy dz i 0 0 hd (by omega) (by omega), if_pos rfl,
        if_pos rfl]
      unfold pyrVal0
      by_cases h0 : i = 0
      · subst h0
        rw [if_pos rfl, hjac, mixed_one]
      rw [if_neg h0, ih (i - 1) (by omega) dx dy dz (by omega) hd,
        ih (i - 1) (by omega) (dx - 1) dy dz (by omega) (by omega),
        ih (i - 1) (by omega) dx dy (dz - 1) (by omega) (by omega),
        ih (i - 2) (by omega) dx dy dz (by omega) (by omega),
        ih (i - 2) (by omega) dx dy (dz - 1) (by omega) (by omega),
        ih (i - 2) (by omega) dx dy (dz - 2) (by omega) (by omega)]
      simp only [mul_div_assoc]
      rw [leg_coeff i h0, leg_coeff' i h0]
      rw [addIf_eq fun h => by simp [cast_pos_of h], addIf_eq fun h => by simp [cast_pos_of h],
        addIf_eq fun h => by rw [one_sub_inv_of h h0, zero_smul],
        addIf_eq fun h => by
          rw [not_and_or] at h
          rcases h with h | h
          · rw [one_sub_inv_of h h0, mul_zero, zero_smul]
          · simp [cast_pos_of h],
        addIf_eq fun h => by
          rw [not_and_or] at h
          rcases h with h | h
          · rw [one_sub_inv_of h h0, mul_zero, zero_smul]
          · rw [mul_pred_of h, zero_mul, zero_smul]]
      rw [hleg_rec _ _ i h0, mixed_sub, mixed_smul, mixed_smul,
        mixed_mul_affine Dx Dy Dz (cx := 2) (cy := 0) (cz := 1)
          (by simp [hxx, hxz, der_two, alg_two]) (by simp [hyx, hyz, der_two])
          (by simp [hzx, hzz, der_two]),
        mixed_mul_sq Dx Dy Dz (cx := 0) (cy := 0) (cz := -1) (by simp [hxz])
          (by simp [hyz]) (by simp [hzz])]
      generalize (2 - 1 / i : ℚ) = a
      generalize (1 - 1 / i : ℚ) = b
      simp only [Algebra.smul_def, map_mul, map_natCast, map_ofNat, map_sub, map_one, map_neg,
        map_pow, map_zero]
      ring
  have h2 : ∀ i j dx dy dz, i ≤ order → j ≤ order → dx + dy + dz ≤ derivs →
      pyrRead order (pyrTable x y z w order derivs) dx dy dz i j 0
        = mixed Dx Dy Dz dx dy dz (pyrMember x y z w i j 0) := by
    intro i j
    induction j using Nat.strong_induction_on with
    | _ j ih =>
      intro dx dy dz hi hj hd
      by_cases h0 : j = 0
      · subst h0
        rw [h1 i dx dy dz hi hd, pyrMember, hjac, hjac]
        simp
      rw [pyrTable_eq x y z w order derivs dx dy dz i j 0 hd (by omega) (by omega), if_pos rfl,
        if_neg h0]
      split_ifs with hij
      · unfold pyrVal1
        simp only [mul_div_assoc, leg_coeff j h0, leg_coeff' j h0]
        have hsum : ((List.range dz).map fun e =>
            ((combinations dz (e + 1) * 2 * (2 - 1 / j : ℚ)) •
              (pyrRead order (pyrTable x y z w order derivs) dx dy (dz - (e + 1)) i (j - 1) 0 * y *
                w ^ (e + 2)))
            + addIf (dy > 0) ((combinations dz (e + 1) * dy * 2 * (2 - 1 / j : ℚ)) •
              (pyrRead order (pyrTable x y z w order derivs) dx (dy - 1) (dz - (e + 1)) i (j - 1) 0 *
                w ^ (e + 2)))).sum =
            (2 * (2 - 1 / j : ℚ)) • ∑ e ∈ range dz, ((combinations dz (e + 1) : ℚ) •
              (mixed Dx Dy Dz dx dy (dz - (e + 1)) (pyrMember x y z w i (j - 1) 0) * y * w ^ (e + 2))
            + (combinations dz (e + 1) * dy : ℚ) •
              (mixed Dx Dy Dz dx (dy - 1) (dz - (e + 1)) (pyrMember x y z w i (j - 1) 0) *
                w ^ (e + 2))) := by
          rw [list_sum_range, smul_sum]
          apply sum_congr rfl
          intro e he
          rw [mem_range] at he
          rw [ih (j - 1) (by omega) dx dy _ hi (by omega) (by omega),
            ih (j - 1) (by omega) dx (dy - 1) _ hi (by omega) (by omega),
            addIf_eq fun h => by simp [cast_pos_of h], smul_add, smul_smul, smul_smul]
          congr 2 <;> ring
        rw [hsum, ih (j - 1) (by omega) dx dy dz hi (by omega) hd,
          ih (j - 1) (by omega) dx (dy - 1) dz hi (by omega) (by omega),
          ih (j - 2) (by omega) dx dy dz hi (by omega) hd]
        rw [addIf_eq fun h => by simp [cast_pos_of h],
          addIf_eq fun h => by rw [one_sub_inv_of h h0, zero_smul]]
        have hm : pyrMember x y z w i j 0 =
            (2 - 1 / j : ℚ) • ((2 : ℚ) • (pyrMember x y z w i (j - 1) 0 * (y * w))
              - pyrMember x y z w i (j - 1) 0)
            - (1 - 1 / j : ℚ) • pyrMember x y z w i (j - 2) 0 := by
          unfold pyrMember
          rw [hleg_rec (2 * (y * w) - 1) _ j h0, max_eq_left hij, max_eq_left (by omega),
            max_eq_left (by omega)]
          simp only [Algebra.smul_def, hjac, map_ofNat]
          ring
        rw [hm, mixed_sub, mixed_smul, mixed_smul, mixed_sub, mixed_smul,
          mixed_mul_quot Dx Dy Dz hw hD]
        generalize (∑ e ∈ range dz, _ : A) = S
        simp only [Algebra.smul_def, map_mul, map_natCast, map_ofNat]
        ring
      · have hlt : i < j := by omega
        unfold pyrVal2
        simp only [mul_div_assoc, leg_coeff j h0, leg_coeff' j h0]
        rw [ih (j - 1) (by omega) dx dy dz hi (by omega) hd,
          ih (j - 1) (by omega) dx (dy - 1) dz hi (by omega) (by omega),
          ih (j - 1) (by omega) dx dy (dz - 1) hi (by omega) (by omega),
          ih (j - 2) (by omega) dx dy dz hi (by omega) hd,
          ih (j - 2) (by omega) dx dy (dz - 1) hi (by omega) (by omega),
          ih (j - 2) (by omega) dx dy (dz - 2) hi (by omega) (by omega)]
        rw [addIf_eq fun h => by simp [cast_pos_of h], addIf_eq fun h => by simp [cast_pos_of h]]
        have hP : (1 - z) * (2 * (y * w) - 1) = 2 * y + z - 1 := by
          linear_combination 2 * y * hw
        by_cases hc : i + 1 = j
        · have hm : pyrMember x y z w i j 0 =
              (2 - 1 / j : ℚ) • (pyrMember x y z w i (j - 1) 0 * (2 * y + z - 1))
              - (1 - 1 / j : ℚ) • (pyrMember x y z w i (j - 2) 0 * (1 - z)) := by
            unfold pyrMember
            rw [hleg_rec (2 * (y * w) - 1) _ j h0, max_eq_right hlt.le, max_eq_left (by omega),
              max_eq_left (by omega), show j - i = 1 by omega, Nat.sub_self, ← hP]
            simp only [Algebra.smul_def, hjac]
            ring
          rw [hm, mixed_sub, mixed_smul, mixed_smul,
            mixed_mul_affine Dx Dy Dz (cx := 0) (cy := 2) (cz := 1)
              (by simp [hxy, hxz, der_two]) (by simp [hyy, hyz, der_two, alg_two])
              (by simp [hzy, hzz, der_two]),
            mixed_mul_affine Dx Dy Dz (cx := 0) (cy := 0) (cz := -1) (by simp [hxz])
              (by simp [hyz]) (by simp [hzz])]
          rw [addIf_eq fun h => by
              rw [one_sub_inv_of (n := j) (by tauto) h0, zero_smul],
            addIf_eq (c := j > 1 ∧ i + 1 = j ∧ dz > 0) fun h => by
              by_cases h1 : j > 1
              · have : ¬ dz > 0 := by tauto
                simp [cast_pos_of this]
              · rw [one_sub_inv_of h1 h0, mul_zero, zero_smul]]
          have f1 : ∀ a : A, addIf (j > 1 ∧ i + 1 ≠ j) a = 0 := fun a => if_neg (by tauto)
          have f2 : ∀ a : A, addIf (j > 1 ∧ i + 1 ≠ j ∧ dz > 0) a = 0 := fun a => if_neg (by tauto)
          have f3 : ∀ a : A, addIf (j > 1 ∧ i + 1 ≠ j ∧ dz > 1) a = 0 := fun a => if_neg (by tauto)
          rw [f1, f2, f3]
          generalize (2 - 1 / j : ℚ) = a
          generalize (1 - 1 / j : ℚ) = b
          simp only [Algebra.smul_def, map_mul, map_natCast, map_ofNat, map_sub, map_one, map_neg,
            map_pow, map_zero]
          ring
        · have hm : pyrMember x y z w i j 0 =
              (2 - 1 / j : ℚ) • (pyrMember x y z w i (j - 1) 0 * (2 * y + z - 1))
              - (1 - 1 / j : ℚ) • (pyrMember x y z w i (j - 2) 0 * (1 - z) ^ 2) := by
            unfold pyrMember
            rw [hleg_rec (2 * (y * w) - 1) _ j h0, max_eq_right hlt.le, max_eq_right (by omega),
              max_eq_right (by omega), show j - i = j - 2 - i + 2 by omega,
              show j - 1 - i = j - 2 - i + 1 by omega, ← hP]
            simp only [Algebra.smul_def, hjac]
            ring
          rw [hm, mixed_sub, mixed_smul, mixed_smul,
            mixed_mul_affine Dx Dy Dz (cx := 0) (cy := 2) (cz := 1)
              (by simp [hxy, hxz, der_two]) (by simp [hyy, hyz, der_two, alg_two])
              (by simp [hzy, hzz, der_two]),
            mixed_mul_sq Dx Dy Dz (cx := 0) (cy := 0) (cz := -1) (by simp [hxz])
              (by simp [hyz]) (by simp [hzz])]
          have f1 : ∀ a : A, addIf (j > 1 ∧ i + 1 = j) a = 0 := fun a => if_neg (by tauto)
          have f2 : ∀ a : A, addIf (j > 1 ∧ i + 1 = j ∧ dz > 0) a = 0 := fun a => if_neg (by tauto)
          rw [f1, f2]
          have hj1 : j > 1 := by omega
          rw [addIf_eq fun h => by tauto,
            addIf_eq (c := j > 1 ∧ i + 1 ≠ j ∧ dz > 0) fun h => by
              have : ¬ dz > 0 := by tauto
              simp [cast_pos_of this],
            addIf_eq (c := j > 1 ∧ i + 1 ≠ j ∧ dz > 1) fun h => by
              have : ¬ dz > 1 := by tauto
              rw [mul_pred_of this, zero_mul, zero_smul]]
          generalize (2 - 1 / j : ℚ) = a
          generalize (1 - 1 / j : ℚ) = b
          simp only [Algebra.smul_def, map_mul, map_natCast, map_ofNat, map_sub, map_one, map_neg,
            map_pow, map_zero]
          ring
  induction k using Nat.strong_induction_on generalizing dx dy dz with
  | _ k ih =>
    by_cases h0 : k = 0
    · subst h0
      exact h2 i j dx dy dz (by omega) (by omega) hd
    rw [pyrTable_eq x y z w order derivs dx dy dz i j k hd hi hj, if_neg h0]
    unfold pyrVal3
    rw [ih (k - 1) (by omega) dx dy dz (by omega) (by omega) hd,
      ih (k - 1) (by omega) dx dy (dz - 1) (by omega) (by omega) (by omega),
      ih (k - 2) (by omega) dx dy dz (by omega) (by omega) hd]
    rw [addIf_eq fun h => by simp [cast_pos_of h],
      addIf_eq fun h => by rw [jrcC_of h h0, zero_smul]]
    have hm : pyrMember x y z w i j k =
        jrcA (2 * (max i j : ℕ) + 2) (k - 1) • (pyrMember x y z w i j (k - 1) * (2 * z - 1))
        + jrcB (2 * (max i j : ℕ) + 2) (k - 1) • pyrMember x y z w i j (k - 1)
        - jrcC (2 * (max i j : ℕ) + 2) (k - 1) • pyrMember x y z w i j (k - 2) := by
      unfold pyrMember
      rw [hjac_rec _ (2 * z - 1) _ k h0]
      simp only [Algebra.smul_def]
      ring
    rw [hm, mixed_sub, mixed_add, mixed_smul, mixed_smul, mixed_smul,
      mixed_mul_affine Dx Dy Dz (cx := 0) (cy := 0) (cz := 2)
        (by simp [hxz, der_two]) (by simp [hyz, der_two]) (by simp [hzz, der_two, alg_two])]
    simp only [Algebra.smul_def, map_mul, map_natCast, map_ofNat, map_zero]
    ring

end Verif.Orthogonal
