import Verif.References.Shape
import Verif.References.SpecShape
import Verif.References.PropsMaps
import Mathlib.Tactic.Ring
import Mathlib.Tactic.Linarith
import Mathlib.Tactic.LinearCombination
import Mathlib.Tactic.FieldSimp
import Mathlib.Tactic.IntervalCases
import Mathlib.Tactic.Positivity
import Mathlib.Tactic.FinCases
import Mathlib.LinearAlgebra.Matrix.ToLinearEquiv
/-!
# `contains` decides membership (C39)
-/

set_option linter.unusedSectionVars false

namespace Verif.References

variable {K : Type} [Field K] [LinearOrder K] [IsStrictOrderedRing K]

theorem hull_congr {g n : ℕ} {v w : ℕ → ℕ → K} (h : ∀ i < n, ∀ j < g, v i j = w i j) (p : ℕ → K) :
    Hull g n v p ↔ Hull g n w p := by
  unfold Hull
  refine exists_congr fun lam => and_congr_right fun _ => and_congr_right fun _ =>
    forall_congr' fun j => forall_congr' fun hj => ?_
  rw [Finset.sum_congr rfl fun i hi => by rw [h i (Finset.mem_range.1 hi) j hj]]

theorem isDefault_iff (c : Cell) (g : ℕ) (v : ℕ → ℕ → K) :
    isDefault c g v = true ↔ g = c.tdim ∧ ∀ i < c.nverts, ∀ j < g, v i j = refVertex c i j := by
  simp [isDefault]

/-- The hull of the default vertices, as inequalities. -/
def DefaultIneq (c : Cell) (p : ℕ → K) : Prop :=
  match c with
  | .point => True
  | .interval => 0 ≤ p 0 ∧ p 0 ≤ 1
  | .triangle => 0 ≤ p 0 ∧ 0 ≤ p 1 ∧ p 0 + p 1 ≤ 1
  | .tetrahedron => 0 ≤ p 0 ∧ 0 ≤ p 1 ∧ 0 ≤ p 2 ∧ p 0 + p 1 + p 2 ≤ 1
  | .quadrilateral => (0 ≤ p 0 ∧ p 0 ≤ 1) ∧ (0 ≤ p 1 ∧ p 1 ≤ 1)
  | .hexahedron => (0 ≤ p 0 ∧ p 0 ≤ 1) ∧ (0 ≤ p 1 ∧ p 1 ≤ 1) ∧ (0 ≤ p 2 ∧ p 2 ≤ 1)
  | .prism => 0 ≤ p 0 ∧ 0 ≤ p 1 ∧ 0 ≤ p 2 ∧ p 2 ≤ 1 ∧ p 0 + p 1 ≤ 1
  | .pyramid => 0 ≤ p 0 ∧ 0 ≤ p 1 ∧ 0 ≤ p 2 ∧ p 0 + p 2 ≤ 1 ∧ p 1 + p 2 ≤ 1
  | .dualPolygon _ => False

/-- Barycentric-like weights of a point of a default cell. -/
def weights (c : Cell) (p : ℕ → K) : List K :=
  match c with
  | .point => [1]
  | .interval => [1 - p 0, p 0]
  | .triangle => [1 - p 0 - p 1, p 0, p 1]
  | .tetrahedron => [1 - p 0 - p 1 - p 2, p 0, p 1, p 2]
  | .quadrilateral => [(1 - p 0) * (1 - p 1), p 0 * (1 - p 1), (1 - p 0) * p 1, p 0 * p 1]
  | .hexahedron => [(1 - p 0) * (1 - p 1) * (1 - p 2), p 0 * (1 - p 1) * (1 - p 2),
      (1 - p 0) * p 1 * (1 - p 2), p 0 * p 1 * (1 - p 2), (1 - p 0) * (1 - p 1) * p 2,
      p 0 * (1 - p 1) * p 2, (1 - p 0) * p 1 * p 2, p 0 * p 1 * p 2]
  | .prism => [(1 - p 0 - p 1) * (1 - p 2), p 0 * (1 - p 2), p 1 * (1 - p 2),
      (1 - p 0 - p 1) * p 2, p 0 * p 2, p 1 * p 2]
  | .pyramid =>
    let w := p 0 * p 1 / (1 - p 2)
    [1 - p 2 - p 0 - p 1 + w, p 0 - w, p 1 - w, w, p 2]
  | .dualPolygon _ => []

theorem hull_default (c : Cell) (hc : ∀ n, c ≠ .dualPolygon n) (p : ℕ → K) :
    Hull c.tdim c.nverts (refVertex c) p ↔ DefaultIneq c p := by
  constructor
  · rintro ⟨lam, h0, h1, hp⟩
    cases c with
    | dualPolygon n => exact absurd rfl (hc n)
    | point => trivial
    | interval =>
      have q0 := hp 0 (by decide)
      have := h0 0 (by decide); have := h0 1 (by decide)
      simp [Cell.nverts, Finset.sum_range_succ, refVertex, refVerts, coords] at h1 q0
      refine ⟨?_, ?_⟩ <;> linarith
    | triangle =>
      have q0 := hp 0 (by decide); have q1 := hp 1 (by decide)
      have := h0 0 (by decide); have := h0 1 (by decide); have := h0 2 (by decide)
      simp [Cell.nverts, Finset.sum_range_succ, refVertex, refVerts, coords] at h1 q0 q1
      refine ⟨?_, ?_, ?_⟩ <;> linarith
    | tetrahedron =>
      have q0 := hp 0 (by decide); have q1 := hp 1 (by decide); have q2 := hp 2 (by decide)
      have := h0 0 (by decide); have := h0 1 (by decide); have := h0 2 (by decide)
      have := h0 3 (by decide)
      simp [Cell.nverts, Finset.sum_range_succ, refVertex, refVerts, coords] at h1 q0 q1 q2
      refine ⟨?_, ?_, ?_, ?_⟩ <;> linarith
    | quadrilateral =>
      have q0 := hp 0 (by decide); have q1 := hp 1 (by decide)
      have := h0 0 (by decide); have := h0 1 (by decide); have := h0 2 (by decide)
      have := h0 3 (by decide)
      simp [Cell.nverts, Finset.sum_range_succ, refVertex, refVerts, coords] at h1 q0 q1
      refine ⟨⟨?_, ?_⟩, ?_, ?_⟩ <;> linarith
    | hexahedron =>
      have q0 := hp 0 (by decide); have q1 := hp 1 (by decide); have q2 := hp 2 (by decide)
      have := h0 0 (by decide); have := h0 1 (by decide); have := h0 2 (by decide)
      have := h0 3 (by decide); have := h0 4 (by decide); have := h0 5 (by decide)
      have := h0 6 (by decide); have := h0 7 (by decide)
      simp [Cell.nverts, Finset.sum_range_succ, refVertex, refVerts, coords] at h1 q0 q1 q2
      refine ⟨⟨?_, ?_⟩, ⟨?_, ?_⟩, ?_, ?_⟩ <;> linarith
    | prism =>
      have q0 := hp 0 (by decide); have q1 := hp 1 (by decide); have q2 := hp 2 (by decide)
      have := h0 0 (by decide); have := h0 1 (by decide); have := h0 2 (by decide)
      have := h0 3 (by decide); have := h0 4 (by decide); have := h0 5 (by decide)
      simp [Cell.nverts, Finset.sum_range_succ, refVertex, refVerts, coords] at h1 q0 q1 q2
      refine ⟨?_, ?_, ?_, ?_, ?_⟩ <;> linarith
    | pyramid =>
      have q0 := hp 0 (by decide); have q1 := hp 1 (by decide); have q2 := hp 2 (by decide)
      have := h0 0 (by decide); have := h0 1 (by decide); have := h0 2 (by decide)
      have := h0 3 (by decide); have := h0 4 (by decide)
      simp [Cell.nverts, Finset.sum_range_succ, refVertex, refVerts, coords] at h1 q0 q1 q2
      refine ⟨?_, ?_, ?_, ?_, ?_⟩ <;> linarith
  · intro h
    refine ⟨coords (weights c p), ?_, ?_, ?_⟩
    · intro i hi
      cases c with
      | dualPolygon n => exact absurd rfl (hc n)
      | pyramid =>
        obtain ⟨ha, hb, hz, hxz, hyz⟩ := h
        simp only [Cell.nverts] at hi
        rcases eq_or_lt_of_le (show p 2 ≤ 1 by linarith) with h1 | h1
        · have e0 : p 0 = 0 := by linarith
          have e1 : p 1 = 0 := by linarith
          interval_cases i <;> simp [coords, weights, h1, e0, e1]
        · have hz1 : 0 < 1 - p 2 := by linarith
          have w0 : 0 ≤ p 0 * p 1 / (1 - p 2) := by positivity
          have wa : p 0 * p 1 / (1 - p 2) ≤ p 0 := by
            rw [div_le_iff₀ hz1]; nlinarith
          have wb : p 0 * p 1 / (1 - p 2) ≤ p 1 := by
            rw [div_le_iff₀ hz1]; nlinarith
          have wc : 0 ≤ 1 - p 2 - p 0 - p 1 + p 0 * p 1 / (1 - p 2) := by
            have : 1 - p 2 - p 0 - p 1 + p 0 * p 1 / (1 - p 2)
                = (1 - p 2 - p 0) * (1 - p 2 - p 1) / (1 - p 2) := by
              field_simp; ring
            rw [this]
            apply div_nonneg (mul_nonneg _ _) hz1.le <;> linarith
          interval_cases i <;> simp only [coords, weights, List.getD_cons_zero, List.getD_cons_succ] <;>
            linarith
      | _ =>
        simp only [Cell.nverts] at hi
        simp only [DefaultIneq] at h
        interval_cases i <;> simp only [coords, weights, List.getD_cons_zero, List.getD_cons_succ] <;>
        first
        | exact zero_le_one
        | linarith
        | linarith [h.1, h.2]
        | linarith [h.1, h.2.1, h.2.2]
        | linarith [h.1, h.2.1, h.2.2.1, h.2.2.2]
        | (apply mul_nonneg <;> linarith [h.1.1, h.1.2, h.2.1, h.2.2])
        | (apply mul_nonneg (mul_nonneg _ _) <;>
            linarith [h.1.1, h.1.2, h.2.1.1, h.2.1.2, h.2.2.1, h.2.2.2])
        | (apply mul_nonneg <;> linarith [h.1, h.2.1, h.2.2.1, h.2.2.2.1, h.2.2.2.2])
    · cases c with
      | dualPolygon n => exact absurd rfl (hc n)
      | _ =>
        simp only [Cell.nverts, Finset.sum_range_succ, Finset.sum_range_zero, coords, weights,
          List.getD_cons_zero, List.getD_cons_succ]
        ring
    · intro j hj
      cases c with
      | dualPolygon n => exact absurd rfl (hc n)
      | pyramid =>
        obtain ⟨ha, hb, hz, hxz, hyz⟩ := h
        simp only [Cell.tdim] at hj
        interval_cases j <;>
        · simp only [Cell.nverts, Finset.sum_range_succ, Finset.sum_range_zero, coords, weights,
            List.getD_cons_zero, List.getD_cons_succ, refVertex, refVerts]
          ring
      | _ =>
        simp only [Cell.tdim] at hj
        interval_cases j <;>
        · simp only [Cell.nverts, Finset.sum_range_succ, Finset.sum_range_zero, coords, weights,
            List.getD_cons_zero, List.getD_cons_succ, refVertex, refVerts]
          ring

/-- On cells with the default vertices `contains` is exact. -/
theorem contains_default (c : Cell) (hc : ∀ n, c ≠ .dualPolygon n) (v : ℕ → ℕ → K) (g : ℕ)
    (hd : isDefault c g v = true) (p : ℕ → K) :
    ∃ b, contains c g v p = some b ∧ (b = true ↔ Hull g c.nverts v p) := by
  obtain ⟨hg, hv⟩ := (isDefault_iff c g v).1 hd
  subst hg
  rw [hull_congr hv, hull_default c hc]
  cases c with
  | dualPolygon n => exact absurd rfl (hc n)
  | point => exact ⟨_, rfl, by simp [DefaultIneq, Cell.tdim]⟩
  | _ =>
    refine ⟨_, by rw [contains, if_pos hd], ?_⟩
    simp [DefaultIneq, and_assoc]

/-- A point cell contains exactly its vertex. -/
theorem contains_point (g : ℕ) (v : ℕ → ℕ → K) (p : ℕ → K) :
    ∃ b, contains .point g v p = some b ∧ (b = true ↔ Hull g 1 v p) := by
  refine ⟨_, rfl, ?_⟩
  simp only [List.all_eq_true, List.mem_range, decide_eq_true_eq]
  constructor
  · intro h
    exact ⟨fun _ => 1, fun _ _ => zero_le_one, by simp, fun j hj => by simp [h j hj]⟩
  · rintro ⟨lam, -, h1, hp⟩ j hj
    simp at h1
    simpa [h1] using hp j hj

/-- On every non-degenerate triangle in the plane `contains` is exact. -/
theorem contains_triangle (v : ℕ → ℕ → K)
    (h : Indep 2 2 fun k => fun j => v (k + 1) j - v 0 j) (p : ℕ → K) :
    ∃ b, contains .triangle 2 v p = some b ∧ (b = true ↔ Hull 2 3 v p) := by
  by_cases hd : isDefault .triangle 2 v = true
  · exact contains_default .triangle (by simp) v 2 hd p
  set a : ℕ → K := psub (v 1) (v 0) with ha
  set b : ℕ → K := psub (v 2) (v 0) with hb
  have a0 : ∀ j, a j = v 1 j - v 0 j := fun j => rfl
  have b0 : ∀ j, b j = v 2 j - v 0 j := fun j => rfl
  have hdet : a 0 * b 1 - a 1 * b 0 ≠ 0 := by
    intro h0
    have key : ∀ i < 2, b i = 0 ∧ a i = 0 := by
      intro i hi
      have := h (fun k => if k = 0 then b i else -a i) (by
        intro j hj
        simp only [Finset.sum_range_succ, Finset.sum_range_zero]
        change 0 + b i * a j + -a i * b j = 0
        interval_cases i <;> interval_cases j <;> linarith)
      have k0 := this 0 (by norm_num)
      have k1 := this 1 (by norm_num)
      simp at k0 k1
      exact ⟨k0, k1⟩
    have := h (fun k => if k = 0 then 1 else 0) (by
      intro j hj
      simp only [Finset.sum_range_succ, Finset.sum_range_zero]
      change 0 + 1 * a j + 0 * b j = 0
      rw [(key j hj).2]; ring) 0 (by norm_num)
    simp at this
  refine ⟨_, by rw [contains, if_neg hd, if_pos rfl], ?_⟩
  simp only [Bool.and_eq_true, decide_eq_true_eq]
  change ((0 ≤ (b 1 * (p 0 - v 0 0) - b 0 * (p 1 - v 0 1)) / (a 0 * b 1 - a 1 * b 0) ∧
    0 ≤ (a 0 * (p 1 - v 0 1) - a 1 * (p 0 - v 0 0)) / (a 0 * b 1 - a 1 * b 0)) ∧
    (b 1 * (p 0 - v 0 0) - b 0 * (p 1 - v 0 1)) / (a 0 * b 1 - a 1 * b 0) +
    (a 0 * (p 1 - v 0 1) - a 1 * (p 0 - v 0 0)) / (a 0 * b 1 - a 1 * b 0) ≤ 1) ↔ _
  set D := a 0 * b 1 - a 1 * b 0 with hD
  constructor
  · rintro ⟨⟨h0, h1⟩, h2⟩
    set s := (b 1 * (p 0 - v 0 0) - b 0 * (p 1 - v 0 1)) / D with hs
    set t := (a 0 * (p 1 - v 0 1) - a 1 * (p 0 - v 0 0)) / D with ht
    have hsD : s * D = b 1 * (p 0 - v 0 0) - b 0 * (p 1 - v 0 1) := by
      rw [hs, div_mul_cancel₀ _ hdet]
    have htD : t * D = a 0 * (p 1 - v 0 1) - a 1 * (p 0 - v 0 0) := by
      rw [ht, div_mul_cancel₀ _ hdet]
    have e0 : p 0 - v 0 0 = s * a 0 + t * b 0 := by
      apply mul_left_cancel₀ hdet
      rw [mul_add, ← mul_assoc, ← mul_assoc, mul_comm D s, mul_comm D t, hsD, htD, hD]; ring
    have e1 : p 1 - v 0 1 = s * a 1 + t * b 1 := by
      apply mul_left_cancel₀ hdet
      rw [mul_add, ← mul_assoc, ← mul_assoc, mul_comm D s, mul_comm D t, hsD, htD, hD]; ring
    refine ⟨coords [1 - s - t, s, t], ?_, ?_, ?_⟩
    · intro i hi
      interval_cases i <;> simp only [coords, List.getD_cons_zero, List.getD_cons_succ] <;> linarith
    · simp only [Finset.sum_range_succ, Finset.sum_range_zero, coords, List.getD_cons_zero,
        List.getD_cons_succ]
      ring
    · intro j hj
      simp only [Finset.sum_range_succ, Finset.sum_range_zero, coords, List.getD_cons_zero,
        List.getD_cons_succ]
      interval_cases j
      · rw [a0, b0] at e0; linear_combination e0
      · rw [a0, b0] at e1; linear_combination e1
  · rintro ⟨lam, h0, h1, hp⟩
    have l0 := h0 0 (by norm_num)
    have l1 := h0 1 (by norm_num)
    have l2 := h0 2 (by norm_num)
    have q0 := hp 0 (by norm_num)
    have q1 := hp 1 (by norm_num)
    simp only [Finset.sum_range_succ, Finset.sum_range_zero] at h1 q0 q1
    have hs : (b 1 * (p 0 - v 0 0) - b 0 * (p 1 - v 0 1)) / D = lam 1 := by
      rw [div_eq_iff hdet, hD, q0, q1]
      simp only [a0, b0]
      have : lam 0 = 1 - lam 1 - lam 2 := by linarith
      rw [this]; ring
    have ht : (a 0 * (p 1 - v 0 1) - a 1 * (p 0 - v 0 0)) / D = lam 2 := by
      rw [div_eq_iff hdet, hD, q0, q1]
      simp only [a0, b0]
      have : lam 0 = 1 - lam 1 - lam 2 := by linarith
      rw [this]; ring
    rw [hs, ht]
    exact ⟨⟨l1, l2⟩, by linarith⟩

/-- `contains` answers only for default cells, triangles in the plane, tetrahedra and points. -/
theorem contains_raises (c : Cell) (g : ℕ) (v : ℕ → ℕ → K) (p : ℕ → K)
    (hp : c ≠ .point) (hd : isDefault c g v = false) (ht : ¬(c = .triangle ∧ g = 2))
    (htt : c ≠ .tetrahedron) : contains c g v p = none := by
  cases c <;> simp_all [contains]

theorem det_ne_zero_of_indep (a : ℕ → ℕ → K) (h : Indep 3 3 a) :
    (mat3 (a 0) (a 1) (a 2)).det ≠ 0 := by
  intro h0
  obtain ⟨w, hw, hM⟩ := Matrix.exists_mulVec_eq_zero_iff.2 h0
  apply hw
  have key := h (fun k => coords [w 0, w 1, w 2] k) (by
    intro j hj
    simp only [Finset.sum_range_succ, Finset.sum_range_zero, coords, List.getD_cons_zero,
      List.getD_cons_succ]
    interval_cases j
    · have := congrFun hM 0
      simp [mat3, Matrix.mulVec, dotProduct, Fin.sum_univ_three] at this
      linear_combination this
    · have := congrFun hM 1
      simp [mat3, Matrix.mulVec, dotProduct, Fin.sum_univ_three] at this
      linear_combination this
    · have := congrFun hM 2
      simp [mat3, Matrix.mulVec, dotProduct, Fin.sum_univ_three] at this
      linear_combination this)
  funext i
  fin_cases i
  · exact key 0 (by norm_num)
  · exact key 1 (by norm_num)
  · exact key 2 (by norm_num)

/-- What `contains` decides for a non-degenerate tetrahedron that is not the default one: the
comparison for the third coordinate is reversed. -/
theorem contains_tetrahedron_partial (v : ℕ → ℕ → K)
    (h : Indep 3 3 fun k => fun j => v (k + 1) j - v 0 j)
    (hd : isDefault .tetrahedron 3 v = false) (p : ℕ → K) :
    ∃ b, contains .tetrahedron 3 v p = some b ∧ (b = true ↔ ∃ t0 t1 t2 : K,
      0 ≤ t0 ∧ 0 ≤ t1 ∧ t2 ≤ 0 ∧ t0 + t1 + t2 ≤ 1 ∧ ∀ j < 3, p j = v 0 j +
        t0 * (v 1 j - v 0 j) + t1 * (v 2 j - v 0 j) + t2 * (v 3 j - v 0 j)) := by
  have hdet := det_ne_zero_of_indep _ h
  set M := mat3 (axis .tetrahedron v 0) (axis .tetrahedron v 1) (axis .tetrahedron v 2) with hM
  have hdet' : M.det ≠ 0 := hdet
  obtain ⟨F, hF⟩ : ∃ F, solve3 3 M (v 0) = some F := by
    unfold solve3; rw [if_neg hdet']; exact ⟨_, rfl⟩
  refine ⟨_, by rw [contains, if_neg (by simp [hd]), ← hM, hF]; rfl, ?_⟩
  obtain ⟨r, s, t, he, e0, e1, e2⟩ := solve3_spec hF p
  have he : F p = [r, s, t] := he
  beta_reduce
  rw [he]
  simp only [List.getD_cons_zero, List.getD_cons_succ, Bool.and_eq_true, decide_eq_true_eq]
  simp only [hM, mat3, Matrix.of_apply, Matrix.cons_val', Matrix.cons_val_zero,
    Matrix.cons_val_one, Matrix.cons_val, axis, axisVertices, psub, List.getD_cons_zero,
    List.getD_cons_succ] at e0 e1 e2
  constructor
  · rintro ⟨⟨⟨h0, h1⟩, h2⟩, h3⟩
    refine ⟨r, s, t, h0, h1, h2, h3, fun j hj => ?_⟩
    interval_cases j
    · linear_combination -e0
    · linear_combination -e1
    · linear_combination -e2
  · rintro ⟨t0, t1, t2, h0, h1, h2, h3, hp⟩
    have key := h (fun k => coords [t0 - r, t1 - s, t2 - t] k) (by
      intro j hj
      have := hp j hj
      simp only [Finset.sum_range_succ, Finset.sum_range_zero, coords, List.getD_cons_zero,
        List.getD_cons_succ]
      interval_cases j
      · linear_combination -this - e0
      · linear_combination -this - e1
      · linear_combination -this - e2)
    have k0 : t0 - r = 0 := key 0 (by norm_num)
    have k1 : t1 - s = 0 := key 1 (by norm_num)
    have k2 : t2 - t = 0 := key 2 (by norm_num)
    rw [← sub_eq_zero.1 k0, ← sub_eq_zero.1 k1, ← sub_eq_zero.1 k2]
    exact ⟨⟨⟨h0, h1⟩, h2⟩, h3⟩

/-- So for *every* non-degenerate tetrahedron other than the default one, the midpoint is reported to
be outside, and some point outside is reported to be inside. -/
theorem contains_tetrahedron_wrong (v : ℕ → ℕ → K)
    (h : Indep 3 3 fun k => fun j => v (k + 1) j - v 0 j)
    (hd : isDefault .tetrahedron 3 v = false) :
    (contains .tetrahedron 3 v (midpoint .tetrahedron v) = some false ∧
      Hull 3 4 v (midpoint .tetrahedron v)) ∧
    ∃ q, contains .tetrahedron 3 v q = some true ∧ ¬Hull 3 4 v q := by
  have uniq : ∀ r : ℕ → K, (∀ j < 3, r 0 * (v 1 j - v 0 j) + r 1 * (v 2 j - v 0 j) +
      r 2 * (v 3 j - v 0 j) = 0) → r 2 = 0 := by
    intro r hr
    exact h r (fun j hj => by
      simp only [Finset.sum_range_succ, Finset.sum_range_zero]
      linear_combination hr j hj) 2 (by norm_num)
  refine ⟨⟨?_, ?_⟩, ?_⟩
  · obtain ⟨b, hb, hiff⟩ := contains_tetrahedron_partial v h hd (midpoint .tetrahedron v)
    rw [hb]
    congr 1
    rw [Bool.eq_false_iff]
    intro hbt
    obtain ⟨t0, t1, t2, -, -, h2, -, hp⟩ := hiff.1 hbt
    have := uniq (coords [t0 - 1 / 4, t1 - 1 / 4, t2 - 1 / 4]) (by
      intro j hj
      have := hp j hj
      simp only [midpoint, Cell.nverts, Finset.sum_range_succ, Finset.sum_range_zero] at this
      simp only [coords, List.getD_cons_zero, List.getD_cons_succ]
      push_cast at this
      linear_combination -this)
    have : t2 - 1 / 4 = 0 := this
    linarith
  · refine ⟨fun _ => 1 / 4, fun _ _ => by norm_num, ?_, fun j hj => ?_⟩
    · simp only [Finset.sum_range_succ, Finset.sum_range_zero]; ring
    · simp only [midpoint, Cell.nverts, Finset.sum_range_succ, Finset.sum_range_zero]
      push_cast; ring
  · refine ⟨fun j => v 0 j - (v 3 j - v 0 j), ?_, ?_⟩
    · obtain ⟨b, hb, hiff⟩ := contains_tetrahedron_partial v h hd
        (fun j => v 0 j - (v 3 j - v 0 j))
      rw [hb]
      congr 1
      exact hiff.2 ⟨0, 0, -1, le_refl _, le_refl _, by norm_num, by norm_num,
        fun j _ => by ring⟩
    · rintro ⟨lam, h0, h1, hp⟩
      have := uniq (coords [lam 1, lam 2, lam 3 + 1]) (by
        intro j hj
        have := hp j hj
        simp only [Finset.sum_range_succ, Finset.sum_range_zero] at this h1
        simp only [coords, List.getD_cons_zero, List.getD_cons_succ]
        linear_combination -this - v 0 j * h1)
      have : lam 3 + 1 = 0 := this
      linarith [h0 3 (by norm_num)]

/-! ### Concrete cases -/

/-- The triangle (1, 0), (3, 0), (1, 2) meets the hypothesis. -/
example : Indep 2 2 fun k => fun j =>
    ((fun i : ℕ => coords (([[1, 0], [3, 0], [1, 2]] : List (List ℚ)).getD i [])) (k + 1) j -
      (fun i : ℕ => coords (([[1, 0], [3, 0], [1, 2]] : List (List ℚ)).getD i [])) 0 j) := by
  intro t ht k hk
  have h0 := ht 0 (by norm_num)
  have h1 := ht 1 (by norm_num)
  norm_num [Finset.sum_range_succ, coords] at h0 h1
  interval_cases k <;> assumption

/-- The default tetrahedron shifted by one meets the hypotheses of `contains_tetrahedron_wrong`. -/
example : (Indep 3 3 fun k => fun j => ((if j = k then 1 else 0 : ℚ) + 1) - 1) ∧
    isDefault .tetrahedron 3 (fun i j => if i = j + 1 then (2 : ℚ) else 1) = false := by
  constructor
  · intro t ht k hk
    have := ht k hk
    interval_cases k <;> simpa [Finset.sum_range_succ] using this
  · rw [Bool.eq_false_iff, Ne, isDefault_iff]
    rintro ⟨-, h⟩
    have := h 0 (by decide) 0 (by decide)
    simp [refVertex, refVerts, coords] at this

end Verif.References
