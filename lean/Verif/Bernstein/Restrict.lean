import Verif.Bernstein.Functional
/-!
# Restricting Bernstein polynomials to sub-entities

C60: on a sub-entity a Bernstein polynomial is zero, or the Bernstein polynomial with the powers of the vertices of the
sub-entity.
-/

namespace Verif.Bernstein
open Verif.References Verif.Moments Verif.Functionals Verif.Elements Verif.FiniteElement Verif.Polysets Verif.Orthogonal
open Verif.Families
open MvPolynomial

/-- The sub-entities with functionals. -/
def ents : Cell → List (ℕ × ℕ)
  | .interval => [(1, 0)]
  | .triangle => [(1, 0), (1, 1), (1, 2), (2, 0)]
  | .tetrahedron => [(1, 0), (1, 1), (1, 2), (1, 3), (1, 4), (1, 5), (2, 0), (2, 1), (2, 2), (2, 3)]
  | _ => []

theorem zero_pow_mul (a : ℕ) (p : MvPolynomial ℕ ℝ) : (0 : MvPolynomial ℕ ℝ) ^ a * p = if a = 0 then p else 0 := by
  split_ifs with h <;> simp [h]

theorem bernP_two (a b : ℕ) : bernP [a, b] = C (multinom [a, b] : ℝ) * ((1 - X 0) ^ a * X 0 ^ b) := by
  simp [bernP, denoteMono, monoFrom, lam0]

theorem bernP_three (a b c : ℕ) :
    bernP [a, b, c] = C (multinom [a, b, c] : ℝ) * ((1 - X 0 - X 1) ^ a * X 0 ^ b * X 1 ^ c) := by
  simp only [bernP, denoteMono, monoFrom, lam0, Finset.sum_range_succ, List.headD_cons, List.tail_cons, List.length_cons,
    List.length_nil, Nat.add_sub_cancel, Finset.sum_range_zero]
  ring

theorem bernP_four (a b c d : ℕ) :
    bernP [a, b, c, d] = C (multinom [a, b, c, d] : ℝ) * ((1 - X 0 - X 1 - X 2) ^ a * X 0 ^ b * X 1 ^ c * X 2 ^ d) := by
  simp only [bernP, denoteMono, monoFrom, lam0, Finset.sum_range_succ, List.headD_cons, List.tail_cons, List.length_cons,
    List.length_nil, Nat.add_sub_cancel, Finset.sum_range_zero]
  ring

theorem pull_C (D : Domain) (a : ℝ) : pull D (C a) = C a := by simp [pull]
theorem pull_one (D : Domain) : pull D 1 = 1 := by simp [pull]
theorem pull_pow (D : Domain) (p : MvPolynomial ℕ ℝ) (n : ℕ) : pull D (p ^ n) = pull D p ^ n := by simp [pull]

/-- Coordinates on a sub-entity of dimension one. -/
theorem coord_one (g : ℕ) (v : ℕ → ℕ → ℝ) (i : ℕ) :
    coordPoly ⟨.interval, g, v⟩ i = C (v 0 i) + C (v 1 i - v 0 i) * X 0 := by
  rw [coordPoly]
  show C (v 0 i) + ∑ k : Fin 1, C (axis .interval v k i) * X k.val = _
  simp [axis, psub, axisVertices]

/-- Coordinates on a sub-entity of dimension two. -/
theorem coord_two (g : ℕ) (v : ℕ → ℕ → ℝ) (i : ℕ) :
    coordPoly ⟨.triangle, g, v⟩ i = C (v 0 i) + (C (v 1 i - v 0 i) * X 0 + C (v 2 i - v 0 i) * X 1) := by
  rw [coordPoly]
  show C (v 0 i) + ∑ k : Fin 2, C (axis .triangle v k i) * X k.val = _
  simp [axis, psub, axisVertices, Fin.sum_univ_two]

/-- **C60** The restriction of a Bernstein polynomial to a sub-entity. -/
theorem pull_bernP {c : Cell} (hc : Simplex c) {e : ℕ × ℕ} (he : e ∈ ents c) {β : List ℕ} (hl : β.length = c.tdim + 1) :
    pull (entityDomain c e) (bernP β) =
      if ∀ i < c.tdim + 1, i ∉ entVerts c e.1 e.2 → β.getD i 0 = 0 then
        bernP ((entVerts c e.1 e.2).map fun i => β.getD i 0) else 0 := by
  rcases hc with rfl | rfl | rfl
  · obtain ⟨a, b, rfl⟩ := List.length_eq_two.1 hl
    simp only [ents, List.mem_singleton] at he
    subst he
    have hd : entityDomain .interval (1, 0) = ⟨.interval, 1, entityVerts (refVertex .interval) [0, 1]⟩ := rfl
    have hv : entVerts .interval 1 0 = [0, 1] := rfl
    simp only [hd, hv, bernP_two, pull_mul, pull_pow, pull_sub, pull_one, pull_C, pull_X, coord_one]
    rw [if_pos]
    · simp [entityVerts, refVertex, refVerts, coords, bernP_two]
    · intro i hi h
      have : i < 2 := hi
      interval_cases i <;> simp at h
  · obtain ⟨a, b, c, rfl⟩ := List.length_eq_three.1 hl
    simp only [ents, List.mem_cons, List.not_mem_nil, or_false] at he
    rcases he with rfl | rfl | rfl | rfl
    · have hd : entityDomain .triangle (1, 0) = ⟨.interval, 2, entityVerts (refVertex .triangle) [1, 2]⟩ := rfl
      have hv : entVerts .triangle 1 0 = [1, 2] := rfl
      have hcond : (∀ i < Cell.tdim .triangle + 1, i ∉ ([1, 2] : List ℕ) → ([a, b, c] : List ℕ).getD i 0 = 0) ↔ a = 0 := by
        show (∀ i < 0 + 1 + 1 + 1, i ∉ ([1, 2] : List ℕ) → ([a, b, c] : List ℕ).getD i 0 = 0) ↔ _
        simp only [Nat.forall_lt_succ_right]
        simp
      simp only [hd, hv, hcond, bernP_three, pull_mul, pull_pow, pull_sub, pull_one, pull_C, pull_X, coord_one, coord_two]
      split_ifs with h
      · subst h
        simp [entityVerts, refVertex, refVerts, coords, bernP_two, bernP_three, multinom]
        try first | (left; ring) | ring
      · simp [entityVerts, refVertex, refVerts, coords, h]
    · have hd : entityDomain .triangle (1, 1) = ⟨.interval, 2, entityVerts (refVertex .triangle) [0, 2]⟩ := rfl
      have hv : entVerts .triangle 1 1 = [0, 2] := rfl
      have hcond : (∀ i < Cell.tdim .triangle + 1, i ∉ ([0, 2] : List ℕ) → ([a, b, c] : List ℕ).getD i 0 = 0) ↔ b = 0 := by
        show (∀ i < 0 + 1 + 1 + 1, i ∉ ([0, 2] : List ℕ) → ([a, b, c] : List ℕ).getD i 0 = 0) ↔ _
        simp only [Nat.forall_lt_succ_right]
        simp
      simp only [hd, hv, hcond, bernP_three, pull_mul, pull_pow, pull_sub, pull_one, pull_C, pull_X, coord_one, coord_two]
      split_ifs with h
      · subst h
        simp [entityVerts, refVertex, refVerts, coords, bernP_two, bernP_three, multinom]
        try first | (left; ring) | ring
      · simp [entityVerts, refVertex, refVerts, coords, h]
    · have hd : entityDomain .triangle (1, 2) = ⟨.interval, 2, entityVerts (refVertex .triangle) [0, 1]⟩ := rfl
      have hv : entVerts .triangle 1 2 = [0, 1] := rfl
      have hcond : (∀ i < Cell.tdim .triangle + 1, i ∉ ([0, 1] : List ℕ) → ([a, b, c] : List ℕ).getD i 0 = 0) ↔ c = 0 := by
        show (∀ i < 0 + 1 + 1 + 1, i ∉ ([0, 1] : List ℕ) → ([a, b, c] : List ℕ).getD i 0 = 0) ↔ _
        simp only [Nat.forall_lt_succ_right]
        simp
      simp only [hd, hv, hcond, bernP_three, pull_mul, pull_pow, pull_sub, pull_one, pull_C, pull_X, coord_one, coord_two]
      split_ifs with h
      · subst h
        simp [entityVerts, refVertex, refVerts, coords, bernP_two, bernP_three, multinom]
        try first | (left; ring) | ring
      · simp [entityVerts, refVertex, refVerts, coords, h]
    · have hd : entityDomain .triangle (2, 0) = ⟨.triangle, 2, entityVerts (refVertex .triangle) [0, 1, 2]⟩ := rfl
      have hv : entVerts .triangle 2 0 = [0, 1, 2] := rfl
      have hcond : (∀ i < Cell.tdim .triangle + 1, i ∉ ([0, 1, 2] : List ℕ) → ([a, b, c] : List ℕ).getD i 0 = 0) ↔ True := by
        show (∀ i < 0 + 1 + 1 + 1, i ∉ ([0, 1, 2] : List ℕ) → ([a, b, c] : List ℕ).getD i 0 = 0) ↔ _
        simp only [Nat.forall_lt_succ_right]
        simp
      simp only [hd, hv, hcond, bernP_three, pull_mul, pull_pow, pull_sub, pull_one, pull_C, pull_X, coord_one, coord_two]
      simp [entityVerts, refVertex, refVerts, coords, bernP_two, bernP_three, multinom]
  · obtain ⟨a, b, c, d, rfl⟩ : ∃ a b c d, β = [a, b, c, d] := by
      match β, hl with
      | [a, b, c, d], _ => exact ⟨a, b, c, d, rfl⟩
    simp only [ents, List.mem_cons, List.not_mem_nil, or_false] at he
    rcases he with rfl | rfl | rfl | rfl | rfl | rfl | rfl | rfl | rfl | rfl
    · have hd : entityDomain .tetrahedron (1, 0) = ⟨.interval, 3, entityVerts (refVertex .tetrahedron) [2, 3]⟩ := rfl
      have hv : entVerts .tetrahedron 1 0 = [2, 3] := rfl
      have hcond : (∀ i < Cell.tdim .tetrahedron + 1, i ∉ ([2, 3] : List ℕ) → ([a, b, c, d] : List ℕ).getD i 0 = 0) ↔ a = 0 ∧ b = 0 := by
        show (∀ i < 0 + 1 + 1 + 1 + 1, i ∉ ([2, 3] : List ℕ) → ([a, b, c, d] : List ℕ).getD i 0 = 0) ↔ _
        simp only [Nat.forall_lt_succ_right]
        simp
      simp only [hd, hv, hcond, bernP_four, pull_mul, pull_pow, pull_sub, pull_one, pull_C, pull_X, coord_one, coord_two]
      split_ifs with h
      · obtain ⟨rfl, rfl⟩ := h
        simp [entityVerts, refVertex, refVerts, coords, bernP_two, bernP_three, multinom]
        try first | (left; ring) | ring
      · rw [not_and_or] at h
        rcases h with h | h <;> simp [entityVerts, refVertex, refVerts, coords, h]
    · have hd : entityDomain .tetrahedron (1, 1) = ⟨.interval, 3, entityVerts (refVertex .tetrahedron) [1, 3]⟩ := rfl
      have hv : entVerts .tetrahedron 1 1 = [1, 3] := rfl
      have hcond : (∀ i < Cell.tdim .tetrahedron + 1, i ∉ ([1, 3] : List ℕ) → ([a, b, c, d] : List ℕ).getD i 0 = 0) ↔ a = 0 ∧ c = 0 := by
        show (∀ i < 0 + 1 + 1 + 1 + 1, i ∉ ([1, 3] : List ℕ) → ([a, b, c, d] : List ℕ).getD i 0 = 0) ↔ _
        simp only [Nat.forall_lt_succ_right]
        simp
      simp only [hd, hv, hcond, bernP_four, pull_mul, pull_pow, pull_sub, pull_one, pull_C, pull_X, coord_one, coord_two]
      split_ifs with h
      · obtain ⟨rfl, rfl⟩ := h
        simp [entityVerts, refVertex, refVerts, coords, bernP_two, bernP_three, multinom]
        try first | (left; ring) | ring
      · rw [not_and_or] at h
        rcases h with h | h <;> simp [entityVerts, refVertex, refVerts, coords, h]
    · have hd : entityDomain .tetrahedron (1, 2) = ⟨.interval, 3, entityVerts (refVertex .tetrahedron) [1, 2]⟩ := rfl
      have hv : entVerts .tetrahedron 1 2 = [1, 2] := rfl
      have hcond : (∀ i < Cell.tdim .tetrahedron + 1, i ∉ ([1, 2] : List ℕ) → ([a, b, c, d] : List ℕ).getD i 0 = 0) ↔ a = 0 ∧ d = 0 := by
        show (∀ i < 0 + 1 + 1 + 1 + 1, i ∉ ([1, 2] : List ℕ) → ([a, b, c, d] : List ℕ).getD i 0 = 0) ↔ _
        simp only [Nat.forall_lt_succ_right]
        simp
      simp only [hd, hv, hcond, bernP_four, pull_mul, pull_pow, pull_sub, pull_one, pull_C, pull_X, coord_one, coord_two]
      split_ifs with h
      · obtain ⟨rfl, rfl⟩ := h
        simp [entityVerts, refVertex, refVerts, coords, bernP_two, bernP_three, multinom]
        try first | (left; ring) | ring
      · rw [not_and_or] at h
        rcases h with h | h <;> simp [entityVerts, refVertex, refVerts, coords, h]
    · have hd : entityDomain .tetrahedron (1, 3) = ⟨.interval, 3, entityVerts (refVertex .tetrahedron) [0, 3]⟩ := rfl
      have hv : entVerts .tetrahedron 1 3 = [0, 3] := rfl
      have hcond : (∀ i < Cell.tdim .tetrahedron + 1, i ∉ ([0, 3] : List ℕ) → ([a, b, c, d] : List ℕ).getD i 0 = 0) ↔ b = 0 ∧ c = 0 := by
        show (∀ i < 0 + 1 + 1 + 1 + 1, i ∉ ([0, 3] : List ℕ) → ([a, b, c, d] : List ℕ).getD i 0 = 0) ↔ _
        simp only [Nat.forall_lt_succ_right]
        simp
      simp only [hd, hv, hcond, bernP_four, pull_mul, pull_pow, pull_sub, pull_one, pull_C, pull_X, coord_one, coord_two]
      split_ifs with h
      · obtain ⟨rfl, rfl⟩ := h
        simp [entityVerts, refVertex, refVerts, coords, bernP_two, bernP_three, multinom]
        try first | (left; ring) | ring
      · rw [not_and_or] at h
        rcases h with h | h <;> simp [entityVerts, refVertex, refVerts, coords, h]
    · have hd : entityDomain .tetrahedron (1, 4) = ⟨.interval, 3, entityVerts (refVertex .tetrahedron) [0, 2]⟩ := rfl
      have hv : entVerts .tetrahedron 1 4 = [0, 2] := rfl
      have hcond : (∀ i < Cell.tdim .tetrahedron + 1, i ∉ ([0, 2] : List ℕ) → ([a, b, c, d] : List ℕ).getD i 0 = 0) ↔ b = 0 ∧ d = 0 := by
        show (∀ i < 0 + 1 + 1 + 1 + 1, i ∉ ([0, 2] : List ℕ) → ([a, b, c, d] : List ℕ).getD i 0 = 0) ↔ _
        simp only [Nat.forall_lt_succ_right]
        simp
      simp only [hd, hv, hcond, bernP_four, pull_mul, pull_pow, pull_sub, pull_one, pull_C, pull_X, coord_one, coord_two]
      split_ifs with h
      · obtain ⟨rfl, rfl⟩ := h
        simp [entityVerts, refVertex, refVerts, coords, bernP_two, bernP_three, multinom]
        try first | (left; ring) | ring
      · rw [not_and_or] at h
        rcases h with h | h <;> simp [entityVerts, refVertex, refVerts, coords, h]
    · have hd : entityDomain .tetrahedron (1, 5) = ⟨.interval, 3, entityVerts (refVertex .tetrahedron) [0, 1]⟩ := rfl
      have hv : entVerts .tetrahedron 1 5 = [0, 1] := rfl
      have hcond : (∀ i < Cell.tdim .tetrahedron + 1, i ∉ ([0, 1] : List ℕ) → ([a, b, c, d] : List ℕ).getD i 0 = 0) ↔ c = 0 ∧ d = 0 := by
        show (∀ i < 0 + 1 + 1 + 1 + 1, i ∉ ([0, 1] : List ℕ) → ([a, b, c, d] : List ℕ).getD i 0 = 0) ↔ _
        simp only [Nat.forall_lt_succ_right]
        simp
      simp only [hd, hv, hcond, bernP_four, pull_mul, pull_pow, pull_sub, pull_one, pull_C, pull_X, coord_one, coord_two]
      split_ifs with h
      · obtain ⟨rfl, rfl⟩ := h
        simp [entityVerts, refVertex, refVerts, coords, bernP_two, bernP_three, multinom]
        try first | (left; ring) | ring
      · rw [not_and_or] at h
        rcases h with h | h <;> simp [entityVerts, refVertex, refVerts, coords, h]
    · have hd : entityDomain .tetrahedron (2, 0) = ⟨.triangle, 3, entityVerts (refVertex .tetrahedron) [1, 2, 3]⟩ := rfl
      have hv : entVerts .tetrahedron 2 0 = [1, 2, 3] := rfl
      have hcond : (∀ i < Cell.tdim .tetrahedron + 1, i ∉ ([1, 2, 3] : List ℕ) → ([a, b, c, d] : List ℕ).getD i 0 = 0) ↔ a = 0 := by
        show (∀ i < 0 + 1 + 1 + 1 + 1, i ∉ ([1, 2, 3] : List ℕ) → ([a, b, c, d] : List ℕ).getD i 0 = 0) ↔ _
        simp only [Nat.forall_lt_succ_right]
        simp
      simp only [hd, hv, hcond, bernP_four, pull_mul, pull_pow, pull_sub, pull_one, pull_C, pull_X, coord_one, coord_two]
      split_ifs with h
      · subst h
        simp [entityVerts, refVertex, refVerts, coords, bernP_two, bernP_three, multinom]
        try first | (left; ring) | ring
      · simp [entityVerts, refVertex, refVerts, coords, h]
    · have hd : entityDomain .tetrahedron (2, 1) = ⟨.triangle, 3, entityVerts (refVertex .tetrahedron) [0, 2, 3]⟩ := rfl
      have hv : entVerts .tetrahedron 2 1 = [0, 2, 3] := rfl
      have hcond : (∀ i < Cell.tdim .tetrahedron + 1, i ∉ ([0, 2, 3] : List ℕ) → ([a, b, c, d] : List ℕ).getD i 0 = 0) ↔ b = 0 := by
        show (∀ i < 0 + 1 + 1 + 1 + 1, i ∉ ([0, 2, 3] : List ℕ) → ([a, b, c, d] : List ℕ).getD i 0 = 0) ↔ _
        simp only [Nat.forall_lt_succ_right]
        simp
      simp only [hd, hv, hcond, bernP_four, pull_mul, pull_pow, pull_sub, pull_one, pull_C, pull_X, coord_one, coord_two]
      split_ifs with h
      · subst h
        simp [entityVerts, refVertex, refVerts, coords, bernP_two, bernP_three, multinom]
        try first | (left; ring) | ring
      · simp [entityVerts, refVertex, refVerts, coords, h]
    · have hd : entityDomain .tetrahedron (2, 2) = ⟨.triangle, 3, entityVerts (refVertex .tetrahedron) [0, 1, 3]⟩ := rfl
      have hv : entVerts .tetrahedron 2 2 = [0, 1, 3] := rfl
      have hcond : (∀ i < Cell.tdim .tetrahedron + 1, i ∉ ([0, 1, 3] : List ℕ) → ([a, b, c, d] : List ℕ).getD i 0 = 0) ↔ c = 0 := by
        show (∀ i < 0 + 1 + 1 + 1 + 1, i ∉ ([0, 1, 3] : List ℕ) → ([a, b, c, d] : List ℕ).getD i 0 = 0) ↔ _
        simp only [Nat.forall_lt_succ_right]
        simp
      simp only [hd, hv, hcond, bernP_four, pull_mul, pull_pow, pull_sub, pull_one, pull_C, pull_X, coord_one, coord_two]
      split_ifs with h
      · subst h
        simp [entityVerts, refVertex, refVerts, coords, bernP_two, bernP_three, multinom]
        try first | (left; ring) | ring
      · simp [entityVerts, refVertex, refVerts, coords, h]
    · have hd : entityDomain .tetrahedron (2, 3) = ⟨.triangle, 3, entityVerts (refVertex .tetrahedron) [0, 1, 2]⟩ := rfl
      have hv : entVerts .tetrahedron 2 3 = [0, 1, 2] := rfl
      have hcond : (∀ i < Cell.tdim .tetrahedron + 1, i ∉ ([0, 1, 2] : List ℕ) → ([a, b, c, d] : List ℕ).getD i 0 = 0) ↔ d = 0 := by
        show (∀ i < 0 + 1 + 1 + 1 + 1, i ∉ ([0, 1, 2] : List ℕ) → ([a, b, c, d] : List ℕ).getD i 0 = 0) ↔ _
        simp only [Nat.forall_lt_succ_right]
        simp
      simp only [hd, hv, hcond, bernP_four, pull_mul, pull_pow, pull_sub, pull_one, pull_C, pull_X, coord_one, coord_two]
      split_ifs with h
      · subst h
        simp [entityVerts, refVertex, refVerts, coords, bernP_two, bernP_three, multinom]
        try first | (left; ring) | ring
      · simp [entityVerts, refVertex, refVerts, coords, h]

end Verif.Bernstein
