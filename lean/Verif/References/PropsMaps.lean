import Verif.References.Maps
import Mathlib.Tactic.Ring
import Mathlib.Tactic.Linarith
import Mathlib.Tactic.LinearCombination
import Mathlib.Tactic.FieldSimp
import Mathlib.Tactic.IntervalCases
/-!
# Properties of the cell maps (C35-C37)
-/

set_option linter.unusedSectionVars false

namespace Verif.References

variable {K : Type} [Field K] [DecidableEq K]

/-! ### C35 -/

/-- The map sends vertex `i` of the default cell to vertex `i` of the target, for every cell type and
every target. -/
theorem mapTo_vertex (c : Cell) (hc : ∀ n, c ≠ .dualPolygon n) (v : ℕ → ℕ → K) (i : ℕ)
    (hi : i < c.nverts) : mapTo c v (refVertex c i) = some (v i) := by
  cases c with
  | dualPolygon n => exact absurd rfl (hc n)
  | _ =>
    simp only [Cell.nverts] at hi
    interval_cases i <;>
    · simp only [mapTo, refVertex, refVerts, coords, List.getD_cons_zero, List.getD_cons_succ,
        Option.some.injEq]
      try (funext j; ring)

/-- On simplices the map is affine: it commutes with affine combinations. -/
theorem mapTo_affine (c : Cell)
    (hc : c = .interval ∨ c = .triangle ∨ c = .tetrahedron) (v : ℕ → ℕ → K) (x y : ℕ → K)
    (t : K) :
    ∃ p q r, mapTo c v x = some p ∧ mapTo c v y = some q ∧
      mapTo c v (fun j => (1 - t) * x j + t * y j) = some r ∧
      ∀ j, r j = (1 - t) * p j + t * q j := by
  rcases hc with rfl | rfl | rfl <;>
  · refine ⟨_, _, _, rfl, rfl, rfl, fun j => ?_⟩
    ring

/-- On the other cells the map is affine along each coordinate direction. -/
theorem mapTo_multiaffine (c : Cell) (hc : ∀ n, c ≠ .dualPolygon n) (v : ℕ → ℕ → K) (x : ℕ → K)
    (k : ℕ) (hk : k < c.tdim) (a b t : K) :
    ∃ p q r, mapTo c v (Function.update x k a) = some p ∧
      mapTo c v (Function.update x k b) = some q ∧
      mapTo c v (Function.update x k ((1 - t) * a + t * b)) = some r ∧
      ∀ j, r j = (1 - t) * p j + t * q j := by
  cases c with
  | dualPolygon n => exact absurd rfl (hc n)
  | _ =>
    simp only [Cell.tdim] at hk
    interval_cases k <;>
    · refine ⟨_, _, _, rfl, rfl, rfl, fun j => ?_⟩
      simp [Function.update]
      try ring

/-- With the default vertices as target, the map is the identity, except for the pyramid. -/
theorem mapTo_default (c : Cell) (hc : ∀ n, c ≠ .dualPolygon n) (hp : c ≠ .pyramid) (x : ℕ → K) :
    ∃ p, mapTo c (refVertex c) x = some p ∧ ∀ j < c.tdim, p j = x j := by
  cases c with
  | dualPolygon n => exact absurd rfl (hc n)
  | pyramid => exact absurd rfl hp
  | _ =>
    refine ⟨_, rfl, fun j hj => ?_⟩
    simp only [Cell.tdim] at hj
    interval_cases j <;>
    · simp only [refVertex, refVerts, coords, List.getD_cons_zero, List.getD_cons_succ]
      try ring

/-- The pyramid's map to its own default vertices squashes the cell: it is not the identity. -/
theorem mapTo_default_pyramid (x : ℕ → K) :
    ∃ p, mapTo .pyramid (refVertex .pyramid) x = some p ∧ p 0 = (1 - x 2) * x 0 ∧
      p 1 = (1 - x 2) * x 1 ∧ p 2 = x 2 := by
  refine ⟨_, rfl, ?_, ?_, ?_⟩ <;>
  · simp only [refVertex, refVerts, coords, List.getD_cons_zero, List.getD_cons_succ]
    ring

/-! ### C36 -/

theorem solve2_spec {M : Matrix (Fin 2) (Fin 2) K} {v0 : ℕ → K} {F : (ℕ → K) → List K}
    (h : solve2 M v0 = some F) (y : ℕ → K) :
    ∃ s t, F y = [s, t] ∧ M 0 0 * s + M 0 1 * t = y 0 - v0 0 ∧
      M 1 0 * s + M 1 1 * t = y 1 - v0 1 := by
  unfold solve2 at h
  split at h
  · cases h
  · rename_i hd
    simp only [Option.some.injEq] at h
    subst h
    have hu : IsUnit M.det := isUnit_iff_ne_zero.2 hd
    have hM := Matrix.mul_nonsing_inv M hu
    have hv := congrArg (fun A => A.mulVec ![y 0 - v0 0, y 1 - v0 1]) hM
    simp only [← Matrix.mulVec_mulVec, Matrix.one_mulVec] at hv
    refine ⟨_, _, rfl, ?_, ?_⟩
    · have := congrFun hv 0
      simpa [Matrix.mulVec, dotProduct, Fin.sum_univ_two, psub] using this
    · have := congrFun hv 1
      simpa [Matrix.mulVec, dotProduct, Fin.sum_univ_two, psub] using this

theorem solve2_unique {M : Matrix (Fin 2) (Fin 2) K} {v0 : ℕ → K} {F : (ℕ → K) → List K}
    (h : solve2 M v0 = some F) (y : ℕ → K) (s t : K)
    (h0 : M 0 0 * s + M 0 1 * t = y 0 - v0 0) (h1 : M 1 0 * s + M 1 1 * t = y 1 - v0 1) :
    F y = [s, t] := by
  obtain ⟨s', t', he, e0, e1⟩ := solve2_spec h y
  have hd : M.det ≠ 0 := by
    intro hd
    unfold solve2 at h
    rw [if_pos hd] at h; cases h
  rw [Matrix.det_fin_two] at hd
  rw [he]
  have hs : s' = s := by
    have : (M 0 0 * M 1 1 - M 0 1 * M 1 0) * (s' - s) = 0 := by
      linear_combination M 1 1 * (e0 - h0) - M 0 1 * (e1 - h1)
    rcases mul_eq_zero.1 this with h' | h'
    · exact absurd h' hd
    · exact sub_eq_zero.1 h'
  have ht : t' = t := by
    have : (M 0 0 * M 1 1 - M 0 1 * M 1 0) * (t' - t) = 0 := by
      linear_combination M 0 0 * (e1 - h1) - M 1 0 * (e0 - h0)
    rcases mul_eq_zero.1 this with h' | h'
    · exact absurd h' hd
    · exact sub_eq_zero.1 h'
  rw [hs, ht]

theorem solve3_spec {n : ℕ} {M : Matrix (Fin 3) (Fin 3) K} {v0 : ℕ → K} {F : (ℕ → K) → List K}
    (h : solve3 n M v0 = some F) (y : ℕ → K) :
    ∃ r s t, F y = [r, s, t].take n ∧ M 0 0 * r + M 0 1 * s + M 0 2 * t = y 0 - v0 0 ∧
      M 1 0 * r + M 1 1 * s + M 1 2 * t = y 1 - v0 1 ∧
      M 2 0 * r + M 2 1 * s + M 2 2 * t = y 2 - v0 2 := by
  unfold solve3 at h
  split at h
  · cases h
  · rename_i hd
    simp only [Option.some.injEq] at h
    subst h
    have hu : IsUnit M.det := isUnit_iff_ne_zero.2 hd
    have hM := Matrix.mul_nonsing_inv M hu
    have hv := congrArg (fun A => A.mulVec ![y 0 - v0 0, y 1 - v0 1, y 2 - v0 2]) hM
    simp only [← Matrix.mulVec_mulVec, Matrix.one_mulVec] at hv
    refine ⟨_, _, _, rfl, ?_, ?_, ?_⟩
    · have := congrFun hv 0
      simpa [Matrix.mulVec, dotProduct, Fin.sum_univ_three, psub] using this
    · have := congrFun hv 1
      simpa [Matrix.mulVec, dotProduct, Fin.sum_univ_three, psub] using this
    · have := congrFun hv 2
      simpa [Matrix.mulVec, dotProduct, Fin.sum_univ_three, psub] using this

theorem solve3_unique {n : ℕ} {M : Matrix (Fin 3) (Fin 3) K} {v0 : ℕ → K} {F : (ℕ → K) → List K}
    (h : solve3 n M v0 = some F) (y : ℕ → K) (r s t : K)
    (h0 : M 0 0 * r + M 0 1 * s + M 0 2 * t = y 0 - v0 0)
    (h1 : M 1 0 * r + M 1 1 * s + M 1 2 * t = y 1 - v0 1)
    (h2 : M 2 0 * r + M 2 1 * s + M 2 2 * t = y 2 - v0 2) :
    F y = [r, s, t].take n := by
  obtain ⟨r', s', t', he, e0, e1, e2⟩ := solve3_spec h y
  have hd : M.det ≠ 0 := by
    intro hd
    unfold solve3 at h
    rw [if_pos hd] at h; cases h
  have hu : IsUnit M.det := isUnit_iff_ne_zero.2 hd
  have hv : M.mulVec ![r' - r, s' - s, t' - t] = 0 := by
    funext i
    fin_cases i
    · simp [Matrix.mulVec, dotProduct, Fin.sum_univ_three]; linear_combination e0 - h0
    · simp [Matrix.mulVec, dotProduct, Fin.sum_univ_three]; linear_combination e1 - h1
    · simp [Matrix.mulVec, dotProduct, Fin.sum_univ_three]; linear_combination e2 - h2
  have hz : ![r' - r, s' - s, t' - t] = 0 := by
    have := congrArg (fun w => M⁻¹.mulVec w) hv
    simpa [Matrix.mulVec_mulVec, Matrix.nonsing_inv_mul M hu] using this
  have a := congrFun hz 0
  have b := congrFun hz 1
  have c := congrFun hz 2
  simp at a b c
  rw [he, sub_eq_zero.1 a, sub_eq_zero.1 b, sub_eq_zero.1 c]

/-- The first `n` coordinates of a point. -/
def firstCoords (n : ℕ) (x : ℕ → K) : List K := (List.range n).map x

theorem parallelogram_iff (g : ℕ) (v : ℕ → ℕ → K) (a b c d : ℕ) :
    parallelogram g v [a, b, c, d] = true ↔ ∀ j < g, v a j + v d j = v b j + v c j := by
  simp [parallelogram]

theorem pdot_self_ne_zero {K : Type} [Field K] [LinearOrder K] [IsStrictOrderedRing K] (g : ℕ)
    (d : ℕ → K) (h : ∃ j < g, d j ≠ 0) : pdot g d d ≠ 0 := by
  obtain ⟨j, hj, hne⟩ := h
  have : 0 < pdot g d d := by
    unfold pdot
    refine Finset.sum_pos' (fun i _ => mul_self_nonneg _) ⟨j, Finset.mem_range.2 hj, ?_⟩
    exact mul_self_pos.2 hne
  exact this.ne'

section ordered

variable {K : Type} [Field K] [LinearOrder K] [IsStrictOrderedRing K]

/-- `inverse ∘ map` is the identity, for every target that `get_inverse_map_to` accepts and every
point, except for pyramids.  Intervals may have any geometric dimension but must not be degenerate;
the other cells are rejected by the code when degenerate. -/
theorem inv_map (c : Cell) (hp : c ≠ .pyramid) (g : ℕ) (v : ℕ → ℕ → K)
    (hg : 2 ≤ g ∨ c = .point ∨ c = .interval)
    (hI : c = .interval → ∃ j < g, v 1 j ≠ v 0 j) (F : (ℕ → K) → List K)
    (hF : invMapTo c g v = some F) (x : ℕ → K) :
    ∃ y, mapTo c v x = some y ∧ F y = firstCoords c.tdim x := by
  cases c with
  | dualPolygon n => simp [invMapTo] at hF
  | pyramid => exact absurd rfl hp
  | point =>
    simp only [invMapTo, Option.some.injEq] at hF
    subst hF
    exact ⟨_, rfl, by simp [firstCoords, Cell.tdim]⟩
  | interval =>
    simp only [invMapTo, Option.some.injEq] at hF
    subst hF
    refine ⟨_, rfl, ?_⟩
    have hne : pdot g (psub (v 1) (v 0)) (psub (v 1) (v 0)) ≠ 0 := by
      obtain ⟨j, hj, h⟩ := hI rfl
      exact pdot_self_ne_zero g _ ⟨j, hj, by unfold psub; exact sub_ne_zero.2 h⟩
    simp only [firstCoords, Cell.tdim, List.range_one, List.map_cons, List.map_nil,
      List.cons.injEq, and_true]
    rw [div_eq_iff hne]
    unfold pdot psub
    rw [Finset.mul_sum]
    apply Finset.sum_congr rfl
    intro j _
    ring
  | triangle =>
    simp only [invMapTo] at hF
    split at hF
    · refine ⟨_, rfl, ?_⟩
      rw [solve2_unique hF _ (x 0) (x 1)]
      · simp [firstCoords, Cell.tdim, List.range_succ]
      · simp [mat2, psub]; ring
      · simp [mat2, psub]; ring
    · cases hF
  | quadrilateral =>
    have hg2 : 2 ≤ g := by rcases hg with h | h | h <;> first | exact h | cases h
    simp only [invMapTo] at hF
    split at hF
    · rename_i hq
      rw [parallelogram_iff] at hq
      refine ⟨_, rfl, ?_⟩
      rw [solve2_unique hF _ (x 0) (x 1)]
      · simp [firstCoords, Cell.tdim, List.range_succ]
      · have := hq 0 (by omega)
        simp [mat2, psub]; linear_combination (-(x 0 * x 1)) * this
      · have := hq 1 (by omega)
        simp [mat2, psub]; linear_combination (-(x 0 * x 1)) * this
    · cases hF
  | tetrahedron =>
    simp only [invMapTo] at hF
    split at hF
    · refine ⟨_, rfl, ?_⟩
      rw [solve3_unique hF _ (x 0) (x 1) (x 2)]
      · simp [firstCoords, Cell.tdim, List.range_succ]
      · simp [mat3, psub]; ring
      · simp [mat3, psub]; ring
      · simp [mat3, psub]; ring
    · cases hF
  | hexahedron =>
    simp only [invMapTo] at hF
    split at hF
    · rename_i hq
      obtain ⟨rfl, hq⟩ := hq
      simp only [Cell.faces, List.all_cons, List.all_nil, Bool.and_true, Bool.and_eq_true,
        parallelogram_iff] at hq
      obtain ⟨q0, q1, q2, q3, q4, q5⟩ := hq
      refine ⟨_, rfl, ?_⟩
      have key : ∀ j < 3, (v 1 j - v 0 j) * x 0 + (v 2 j - v 0 j) * x 1 + (v 4 j - v 0 j) * x 2 =
          ((1 - x 2) * ((1 - x 1) * ((1 - x 0) * v 0 j + x 0 * v 1 j)
          + x 1 * ((1 - x 0) * v 2 j + x 0 * v 3 j))
        + x 2 * ((1 - x 1) * ((1 - x 0) * v 4 j + x 0 * v 5 j)
          + x 1 * ((1 - x 0) * v 6 j + x 0 * v 7 j))) - v 0 j := by
        intro j hj
        have e3 : v 3 j = v 1 j + v 2 j - v 0 j := by linear_combination q0 j hj
        have e5 : v 5 j = v 1 j + v 4 j - v 0 j := by linear_combination q1 j hj
        have e6 : v 6 j = v 2 j + v 4 j - v 0 j := by linear_combination q2 j hj
        have e7 : v 7 j = v 3 j + v 5 j - v 1 j := by linear_combination q3 j hj
        rw [e7, e6, e5, e3]; ring
      rw [solve3_unique hF _ (x 0) (x 1) (x 2)]
      · simp [firstCoords, Cell.tdim, List.range_succ]
      · simpa [mat3, psub] using key 0 (by omega)
      · simpa [mat3, psub] using key 1 (by omega)
      · simpa [mat3, psub] using key 2 (by omega)
    · cases hF
  | prism =>
    simp only [invMapTo] at hF
    split at hF
    · rename_i hq
      obtain ⟨rfl, hq⟩ := hq
      simp only [Cell.faces, List.drop_succ_cons, List.drop_zero, List.take_succ_cons,
        List.take_zero, List.all_cons, List.all_nil, Bool.and_true, Bool.and_eq_true,
        parallelogram_iff] at hq
      obtain ⟨q0, q1, q2⟩ := hq
      refine ⟨_, rfl, ?_⟩
      have key : ∀ j < 3, (v 1 j - v 0 j) * x 0 + (v 2 j - v 0 j) * x 1 + (v 3 j - v 0 j) * x 2 =
          ((1 - x 2) * (v 0 j + x 0 * (v 1 j - v 0 j) + x 1 * (v 2 j - v 0 j))
        + x 2 * (v 3 j + x 0 * (v 4 j - v 3 j) + x 1 * (v 5 j - v 3 j))) - v 0 j := by
        intro j hj
        have e4 : v 4 j = v 1 j + v 3 j - v 0 j := by linear_combination q0 j hj
        have e5 : v 5 j = v 2 j + v 3 j - v 0 j := by linear_combination q1 j hj
        rw [e4, e5]; ring
      rw [solve3_unique hF _ (x 0) (x 1) (x 2)]
      · simp [firstCoords, Cell.tdim, List.range_succ]
      · simpa [mat3, psub] using key 0 (by omega)
      · simpa [mat3, psub] using key 1 (by omega)
      · simpa [mat3, psub] using key 2 (by omega)
    · cases hF

/-- `map ∘ inverse` is the identity on all of space when the geometric and topological dimensions
agree, except for pyramids. -/
theorem map_inv (c : Cell) (hp : c ≠ .pyramid) (v : ℕ → ℕ → K)
    (hI : c = .interval → v 1 0 ≠ v 0 0) (F : (ℕ → K) → List K)
    (hF : invMapTo c c.tdim v = some F) (y : ℕ → K) :
    ∃ z, mapTo c v (coords (F y)) = some z ∧ ∀ j < c.tdim, z j = y j := by
  cases c with
  | dualPolygon n => simp [invMapTo] at hF
  | pyramid => exact absurd rfl hp
  | point => exact ⟨_, rfl, by simp [Cell.tdim]⟩
  | interval =>
    simp only [invMapTo, Option.some.injEq] at hF
    subst hF
    refine ⟨_, rfl, ?_⟩
    intro j hj
    simp only [Cell.tdim, Nat.lt_one_iff] at hj
    subst hj
    have hne : v 1 0 - v 0 0 ≠ 0 := sub_ne_zero.2 (hI rfl)
    simp only [coords, List.getD_cons_zero, pdot, Cell.tdim, Finset.range_one,
      Finset.sum_singleton, psub]
    field_simp
    ring
  | triangle =>
    simp only [invMapTo, Cell.tdim, if_true] at hF
    obtain ⟨s, t, he, e0, e1⟩ := solve2_spec hF y
    rw [he]
    refine ⟨_, rfl, ?_⟩
    intro j hj
    simp only [Cell.tdim] at hj
    simp [mat2, psub] at e0 e1
    interval_cases j
    · simp [coords]; linear_combination e0
    · simp [coords]; linear_combination e1
  | quadrilateral =>
    change (if parallelogram 2 v [0, 1, 2, 3] = true then
      solve2 (mat2 (psub (v 1) (v 0)) (psub (v 2) (v 0))) (v 0) else none) = some F at hF
    by_cases hq : parallelogram 2 v [0, 1, 2, 3] = true
    · rw [if_pos hq] at hF
      rw [parallelogram_iff] at hq
      obtain ⟨s, t, he, e0, e1⟩ := solve2_spec hF y
      rw [he]
      refine ⟨_, rfl, ?_⟩
      intro j hj
      simp only [Cell.tdim] at hj
      have hq' := hq j hj
      simp [mat2, psub] at e0 e1
      interval_cases j
      · simp [coords]; linear_combination e0 + s * t * hq'
      · simp [coords]; linear_combination e1 + s * t * hq'
    · rw [if_neg hq] at hF; cases hF
  | tetrahedron =>
    simp only [invMapTo, Cell.tdim, if_true] at hF
    obtain ⟨r, s, t, he, e0, e1, e2⟩ := solve3_spec hF y
    rw [he]
    refine ⟨_, rfl, ?_⟩
    intro j hj
    simp only [Cell.tdim] at hj
    simp [mat3, psub] at e0 e1 e2
    interval_cases j
    · simp [coords]; linear_combination e0
    · simp [coords]; linear_combination e1
    · simp [coords]; linear_combination e2
  | hexahedron =>
    simp only [invMapTo, Cell.tdim] at hF
    split at hF
    · rename_i hq
      obtain ⟨-, hq⟩ := hq
      simp only [Cell.faces, List.all_cons, List.all_nil, Bool.and_true, Bool.and_eq_true,
        parallelogram_iff] at hq
      obtain ⟨q0, q1, q2, q3, q4, q5⟩ := hq
      obtain ⟨r, s, t, he, e0, e1, e2⟩ := solve3_spec hF y
      rw [he]
      refine ⟨_, rfl, ?_⟩
      intro j hj
      simp only [Cell.tdim] at hj
      have e3 : v 3 j = v 1 j + v 2 j - v 0 j := by linear_combination q0 j hj
      have e5 : v 5 j = v 1 j + v 4 j - v 0 j := by linear_combination q1 j hj
      have e6 : v 6 j = v 2 j + v 4 j - v 0 j := by linear_combination q2 j hj
      have e7 : v 7 j = v 3 j + v 5 j - v 1 j := by linear_combination q3 j hj
      rw [e7, e6, e5, e3]
      simp [mat3, psub] at e0 e1 e2
      interval_cases j
      · simp [coords]; linear_combination e0
      · simp [coords]; linear_combination e1
      · simp [coords]; linear_combination e2
    · cases hF
  | prism =>
    simp only [invMapTo, Cell.tdim] at hF
    split at hF
    · rename_i hq
      obtain ⟨-, hq⟩ := hq
      simp only [Cell.faces, List.drop_succ_cons, List.drop_zero, List.take_succ_cons,
        List.take_zero, List.all_cons, List.all_nil, Bool.and_true, Bool.and_eq_true,
        parallelogram_iff] at hq
      obtain ⟨q0, q1, q2⟩ := hq
      obtain ⟨r, s, t, he, e0, e1, e2⟩ := solve3_spec hF y
      rw [he]
      refine ⟨_, rfl, ?_⟩
      intro j hj
      simp only [Cell.tdim] at hj
      have e4 : v 4 j = v 1 j + v 3 j - v 0 j := by linear_combination q0 j hj
      have e5 : v 5 j = v 2 j + v 3 j - v 0 j := by linear_combination q1 j hj
      rw [e4, e5]
      simp [mat3, psub] at e0 e1 e2
      interval_cases j
      · simp [coords]; linear_combination e0
      · simp [coords]; linear_combination e1
      · simp [coords]; linear_combination e2
    · cases hF

/-- Non-degenerate targets are accepted: simplices with independent edge vectors. -/
theorem inv_accepts_simplex (v : ℕ → ℕ → K) :
    ((mat2 (psub (v 1) (v 0)) (psub (v 2) (v 0))).det ≠ 0 →
      (invMapTo .triangle 2 v).isSome) ∧
    ((mat3 (psub (v 1) (v 0)) (psub (v 2) (v 0)) (psub (v 3) (v 0))).det ≠ 0 →
      (invMapTo .tetrahedron 3 v).isSome) := by
  constructor
  · intro h; simp [invMapTo, solve2, h]
  · intro h; simp [invMapTo, solve3, h]

/-- The full property fails for pyramids: for every target that `get_inverse_map_to` accepts, the
composition `inverse ∘ map` is `(x, y, z) ↦ ((1-z) x, (1-z) y, z)`, not the identity. -/
theorem inv_map_pyramid_partial (v : ℕ → ℕ → K) (F : (ℕ → K) → List K)
    (hF : invMapTo .pyramid 3 v = some F) (x : ℕ → K) :
    ∃ y, mapTo .pyramid v x = some y ∧ F y = [(1 - x 2) * x 0, (1 - x 2) * x 1, x 2] := by
  simp only [invMapTo] at hF
  split at hF
  · rename_i hq
    obtain ⟨-, hq⟩ := hq
    simp only [Cell.faces, List.take_succ_cons,
      List.take_zero, List.all_cons, List.all_nil, Bool.and_true, parallelogram_iff] at hq
    refine ⟨_, rfl, ?_⟩
    have key : ∀ j < 3, (v 1 j - v 0 j) * ((1 - x 2) * x 0) + (v 2 j - v 0 j) * ((1 - x 2) * x 1)
        + (v 4 j - v 0 j) * x 2 =
        ((1 - x 2) * ((1 - x 1) * ((1 - x 0) * v 0 j + x 0 * v 1 j)
          + x 1 * ((1 - x 0) * v 2 j + x 0 * v 3 j))
        + x 2 * v 4 j) - v 0 j := by
      intro j hj
      have e3 : v 3 j = v 1 j + v 2 j - v 0 j := by linear_combination hq j hj
      rw [e3]; ring
    rw [solve3_unique hF _ ((1 - x 2) * x 0) ((1 - x 2) * x 1) (x 2)]
    · simp
    · simpa [mat3, psub] using key 0 (by omega)
    · simpa [mat3, psub] using key 1 (by omega)
    · simpa [mat3, psub] using key 2 (by omega)
  · cases hF

/-- The default pyramid is accepted, and the composition of the two maps moves the point
`(1/2, 0, 1/2)`, which is in the cell. -/
theorem inv_map_pyramid_fails :
    ∃ F, invMapTo .pyramid 3 (refVertex (K := ℚ) .pyramid) = some F ∧
      ∃ y, mapTo .pyramid (refVertex .pyramid) (coords [1/2, 0, 1/2]) = some y ∧
        F y ≠ firstCoords 3 (coords [1/2, 0, 1/2]) := by
  have hs : (invMapTo .pyramid 3 (refVertex (K := ℚ) .pyramid)).isSome := by
    have hd : (mat3 (psub (refVertex (K := ℚ) .pyramid 1) (refVertex .pyramid 0))
        (psub (refVertex .pyramid 2) (refVertex .pyramid 0))
        (psub (refVertex .pyramid 4) (refVertex .pyramid 0))).det ≠ 0 := by
      simp [mat3, Matrix.det_fin_three, psub, refVertex, refVerts, coords]
    have hq : (Cell.pyramid.faces.take 1).all (parallelogram 3 (refVertex (K := ℚ) .pyramid)) =
        true := by decide +kernel
    simp [invMapTo, hq, solve3, hd]
  obtain ⟨F, hF⟩ := Option.isSome_iff_exists.1 hs
  obtain ⟨y, h1, h2⟩ := inv_map_pyramid_partial _ F hF (coords [1/2, 0, 1/2])
  refine ⟨F, hF, y, h1, ?_⟩
  rw [h2]
  simp [coords, firstCoords, List.range_succ]

/-! ### C37 -/

/-- The self maps agree with `get_map_to` and `get_inverse_map_to` at the cell's own vertices whenever
the two dimensions agree. -/
theorem self_maps_agree (c : Cell) (v : ℕ → ℕ → K) (x : ℕ → K) :
    mapToSelf c v x = mapTo c v x ∧ invMapToSelf c c.tdim v = invMapTo c c.tdim v := by
  refine ⟨rfl, ?_⟩
  cases c <;> rfl

/-- Parallelograms in three dimensions: the inverse self map undoes the self map. -/
theorem inv_self_map_quadrilateral_3d (v : ℕ → ℕ → K) (F : (ℕ → K) → List K)
    (hF : invMapToSelf .quadrilateral 3 v = some F) (x : ℕ → K) :
    ∃ y, mapToSelf .quadrilateral v x = some y ∧ F y = [x 0, x 1] := by
  simp only [invMapToSelf] at hF
  split at hF
  · rename_i hq
    rw [parallelogram_iff] at hq
    norm_num at hF
    refine ⟨_, rfl, ?_⟩
    have e : ∀ j < 3, v 3 j = v 1 j + v 2 j - v 0 j := fun j hj => by
      linear_combination hq j hj
    rw [solve3_unique hF _ (x 0) (x 1) 0]
    · simp
    · simp [mat3, psub]; rw [e 0 (by omega)]; ring
    · simp [mat3, psub]; rw [e 1 (by omega)]; ring
    · simp [mat3, psub]; rw [e 2 (by omega)]; ring
  · cases hF

/-- ... and every non-degenerate parallelogram is accepted. -/
theorem inv_self_quadrilateral_3d_accepts (v : ℕ → ℕ → K)
    (hq : ∀ j < 3, v 0 j + v 3 j = v 1 j + v 2 j)
    (hn : ∃ j < 3, pcross (psub (v 1) (v 0)) (psub (v 2) (v 0)) j ≠ 0) :
    (invMapToSelf .quadrilateral 3 v).isSome := by
  have hd : (mat3 (psub (v 1) (v 0)) (psub (v 2) (v 0))
      (pcross (psub (v 1) (v 0)) (psub (v 2) (v 0)))).det ≠ 0 := by
    have h := pdot_self_ne_zero 3 _ hn
    have e : (mat3 (psub (v 1) (v 0)) (psub (v 2) (v 0))
      (pcross (psub (v 1) (v 0)) (psub (v 2) (v 0)))).det =
        pdot 3 (pcross (psub (v 1) (v 0)) (psub (v 2) (v 0)))
          (pcross (psub (v 1) (v 0)) (psub (v 2) (v 0))) := by
      simp [mat3, Matrix.det_fin_three, pdot, Finset.sum_range_succ, pcross, coords]
      ring
    rw [e]; exact h
  have hq' : parallelogram 3 v [0, 1, 2, 3] = true := (parallelogram_iff 3 v 0 1 2 3).2 hq
  simp [invMapToSelf, hq', solve3, hd]

/-- `get_inverse_map_to` looks at the dimension of the default cell, so it rejects a perfectly good
square that stands upright in three dimensions. -/
theorem inv_map_rejects_vertical_square :
    invMapTo .quadrilateral 3
      (fun i => coords ([[0, 0, 0], [1, 0, 0], [0, 0, 1], [1, 0, (1 : ℚ)]].getD i [])) = none := by
  simp [invMapTo, solve2, mat2, psub, coords, Matrix.det_fin_two]

end ordered

/-- Triangles in three dimensions: the inverse self map undoes the self map exactly when the two edge
vectors from vertex 0 are orthonormal. -/
theorem inv_self_map_triangle_3d_iff (v : ℕ → ℕ → ℝ)
    (h0 : ∃ j < 3, v 1 j ≠ v 0 j) (h1 : ∃ j < 3, v 2 j ≠ v 0 j) :
    (∀ x, ∃ y, mapToSelf .triangle v x = some y ∧ triangleInvSelf3 v y = [x 0, x 1]) ↔
      pdot 3 (psub (v 1) (v 0)) (psub (v 1) (v 0)) = 1 ∧
      pdot 3 (psub (v 2) (v 0)) (psub (v 2) (v 0)) = 1 ∧
      pdot 3 (psub (v 1) (v 0)) (psub (v 2) (v 0)) = 0 := by
  set a := psub (v 1) (v 0) with ha
  set b := psub (v 2) (v 0) with hb
  have hA : 0 < pdot 3 a a := by
    obtain ⟨j, hj, h⟩ := h0
    have h1 := pdot_self_ne_zero 3 a ⟨j, hj, by rw [ha]; unfold psub; exact sub_ne_zero.2 h⟩
    exact lt_of_le_of_ne (Finset.sum_nonneg fun i _ => mul_self_nonneg _) h1.symm
  have hB : 0 < pdot 3 b b := by
    obtain ⟨j, hj, h⟩ := h1
    have h1 := pdot_self_ne_zero 3 b ⟨j, hj, by rw [hb]; unfold psub; exact sub_ne_zero.2 h⟩
    exact lt_of_le_of_ne (Finset.sum_nonneg fun i _ => mul_self_nonneg _) h1.symm
  have sA : 0 < √(pdot 3 a a) := Real.sqrt_pos.2 hA
  have sB : 0 < √(pdot 3 b b) := Real.sqrt_pos.2 hB
  have key : ∀ x : ℕ → ℝ, ∃ y, mapToSelf .triangle v x = some y ∧
      triangleInvSelf3 v y = [(pdot 3 a a * x 0 + pdot 3 a b * x 1) / √(pdot 3 a a),
        (pdot 3 a b * x 0 + pdot 3 b b * x 1) / √(pdot 3 b b)] := by
    intro x
    refine ⟨_, rfl, ?_⟩
    simp only [triangleInvSelf3, ← ha, ← hb]
    congr 1
    · congr 1
      simp only [pdot, Finset.sum_range_succ, Finset.sum_range_zero, ha, hb, psub]; ring
    · congr 1
      congr 1
      simp only [pdot, Finset.sum_range_succ, Finset.sum_range_zero, ha, hb, psub]; ring
  constructor
  · intro h
    obtain ⟨y, e1, e2⟩ := h (coords [1, 0])
    obtain ⟨y', e1', e2'⟩ := key (coords [1, 0])
    rw [e1] at e1'; cases e1'
    rw [e2] at e2'
    obtain ⟨z, f1, f2⟩ := h (coords [0, 1])
    obtain ⟨z', f1', f2'⟩ := key (coords [0, 1])
    rw [f1] at f1'; cases f1'
    rw [f2] at f2'
    simp [coords] at e2' f2'
    have hab : pdot 3 a b = 0 := by
      have h := e2'.2
      rw [eq_comm, div_eq_zero_iff] at h
      rcases h with h | h
      · exact h
      · exact absurd h sB.ne'
    have one : ∀ t : ℝ, 0 < t → 1 = t / √t → t = 1 := by
      intro t ht h
      have h2 : √t = 1 := by
        rw [Real.div_sqrt] at h; exact h.symm
      have := Real.sq_sqrt ht.le
      rw [h2] at this; linarith
    refine ⟨one _ hA ?_, one _ hB ?_, hab⟩
    · have := e2'.1; simpa using this
    · have := f2'.2; simpa using this
  · rintro ⟨hA1, hB1, hab⟩ x
    obtain ⟨y, e1, e2⟩ := key x
    refine ⟨y, e1, ?_⟩
    rw [e2, hA1, hB1, hab]
    simp

/-- The property fails: a right triangle with legs of length 2 in three dimensions. -/
theorem inv_self_map_triangle_3d_fails :
    ∃ v : ℕ → ℕ → ℝ, (∃ j < 3, v 1 j ≠ v 0 j) ∧ (∃ j < 3, v 2 j ≠ v 0 j) ∧
      ∃ x y, mapToSelf .triangle v x = some y ∧ triangleInvSelf3 v y ≠ [x 0, x 1] := by
  refine ⟨fun i => coords ([[0, 0, 0], [2, 0, 0], [0, 2, 0]].getD i []), ⟨0, by omega, ?_⟩,
    ⟨1, by omega, ?_⟩, ?_⟩
  · simp [coords]
  · simp [coords]
  · by_contra hcon
    push Not at hcon
    have := (inv_self_map_triangle_3d_iff
      (fun i => coords ([[0, 0, 0], [2, 0, 0], [0, 2, 0]].getD i []))
      ⟨0, by omega, by simp [coords]⟩ ⟨1, by omega, by simp [coords]⟩).1
      (fun x => ⟨_, rfl, hcon x _ rfl⟩)
    have h1 := this.1
    simp [pdot, Finset.sum_range_succ, psub, coords] at h1
    norm_num at h1

end Verif.References
