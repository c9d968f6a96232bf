import Verif.References.Shape
import Verif.References.SpecShape
import Mathlib.Tactic.Ring
import Mathlib.Tactic.Linarith
import Mathlib.Tactic.LinearCombination
import Mathlib.Tactic.FieldSimp
import Mathlib.Tactic.IntervalCases
import Mathlib.Tactic.Positivity
import Mathlib.Algebra.BigOperators.Field
/-!
# Properties of normals and tangents (C38)
-/

namespace Verif.References

theorem pdot_self_nonneg (g : ℕ) (v : ℕ → ℝ) : 0 ≤ pdot g v v :=
  Finset.sum_nonneg fun j _ => mul_self_nonneg (v j)

theorem pdot_self_pos {g : ℕ} {v : ℕ → ℝ} (h : ∃ j < g, v j ≠ 0) : 0 < pdot g v v := by
  obtain ⟨j, hj, hv⟩ := h
  exact Finset.sum_pos' (fun j _ => mul_self_nonneg (v j))
    ⟨j, Finset.mem_range.2 hj, mul_self_pos.2 hv⟩

theorem vnormalise_unit {g : ℕ} {v : ℕ → ℝ} (h : 0 < pdot g v v) :
    ∑ j ∈ Finset.range g, vnormalise g v j ^ 2 = 1 := by
  have hs : √(pdot g v v) ^ 2 = pdot g v v := Real.sq_sqrt h.le
  simp only [vnormalise, div_pow, hs]
  rw [← Finset.sum_div, div_eq_one_iff_eq h.ne']
  simp only [pdot, pow_two]

/-- The tangent of a non-degenerate interval in any number of coordinates is a unit vector and a
positive multiple of the vector from the first to the second vertex. -/
theorem tangent_spec (g : ℕ) (v : ℕ → ℕ → ℝ) (h : ∃ j < g, v 0 j ≠ v 1 j) :
    ∃ t, tangent .interval g v = some t ∧ ∑ j ∈ Finset.range g, t j ^ 2 = 1 ∧
      ∃ s : ℝ, 0 < s ∧ ∀ j, v 1 j - v 0 j = s * t j := by
  have hax : ∀ j, axis .interval v 0 j = v 1 j - v 0 j := fun j => rfl
  have hpos : 0 < ∑ j ∈ Finset.range g, axis .interval v 0 j ^ 2 := by
    obtain ⟨j, hj, hv⟩ := h
    have hj0 : v 1 j - v 0 j ≠ 0 := sub_ne_zero.2 (Ne.symm hv)
    exact Finset.sum_pos' (fun j _ => by positivity)
      ⟨j, Finset.mem_range.2 hj, by rw [hax]; positivity⟩
  set S := ∑ j ∈ Finset.range g, axis .interval v 0 j ^ 2 with hS
  have hr : 0 < √S := Real.sqrt_pos.2 hpos
  have hone : pdot g (fun j => axis .interval v 0 j / √S) (fun j => axis .interval v 0 j / √S)
      = 1 := by
    have hs : √S ^ 2 = S := Real.sq_sqrt hpos.le
    simp only [pdot, ← pow_two, div_pow]
    rw [hs, ← Finset.sum_div, ← hS, div_self hpos.ne']
  refine ⟨_, rfl, vnormalise_unit ?_, √S, hr, fun j => ?_⟩
  · rw [hone]; exact one_pos
  · change v 1 j - v 0 j = √S * vnormalise g (fun j => axis .interval v 0 j / √S) j
    rw [vnormalise, hone, Real.sqrt_one, hax]
    field_simp

/-- Only cells of dimension 1 have a tangent. -/
theorem tangent_raises (c : Cell) (hc : c ≠ .interval) (g : ℕ) (v : ℕ → ℕ → ℝ) :
    tangent c g v = none := by
  cases c <;> first | exact absurd rfl hc | rfl

/-- The normal of a non-degenerate interval in the plane is the unit vector orthogonal to it, on the
left of the direction from the first to the second vertex.  These conditions determine it. -/
theorem normal_interval_spec (v : ℕ → ℕ → ℝ) (h : ∃ j < 2, v 0 j ≠ v 1 j) :
    ∃ n, normal .interval 2 v = some n ∧ n 0 ^ 2 + n 1 ^ 2 = 1 ∧
      (v 1 0 - v 0 0) * n 0 + (v 1 1 - v 0 1) * n 1 = 0 ∧
      0 < (v 1 0 - v 0 0) * n 1 - (v 1 1 - v 0 1) * n 0 := by
  set w : ℕ → ℝ := coords [-(v 1 1 - v 0 1), v 1 0 - v 0 0] with hw
  have w0 : w 0 = -(v 1 1 - v 0 1) := rfl
  have w1 : w 1 = v 1 0 - v 0 0 := rfl
  have hpos : 0 < pdot 2 w w := by
    apply pdot_self_pos
    obtain ⟨j, hj, hv⟩ := h
    interval_cases j
    · exact ⟨1, by norm_num, by rw [w1]; exact sub_ne_zero.2 (Ne.symm hv)⟩
    · exact ⟨0, by norm_num, by rw [w0, neg_ne_zero]; exact sub_ne_zero.2 (Ne.symm hv)⟩
  have hu := vnormalise_unit hpos
  rw [Finset.sum_range_succ, Finset.sum_range_one] at hu
  refine ⟨vnormalise 2 w, rfl, hu, ?_, ?_⟩
  · simp only [vnormalise, w0, w1]; ring
  · have hs : 0 < √(pdot 2 w w) := Real.sqrt_pos.2 hpos
    have : (v 1 0 - v 0 0) * vnormalise 2 w 1 - (v 1 1 - v 0 1) * vnormalise 2 w 0
        = pdot 2 w w / √(pdot 2 w w) := by
      simp only [vnormalise, pdot, Finset.sum_range_succ, Finset.sum_range_zero, w0, w1]
      ring
    rw [this]
    positivity

/-- The normal of a non-degenerate triangle or quadrilateral in space is the unit vector orthogonal to
both axes which forms a right-handed frame with them. -/
theorem normal_3d_spec (c : Cell) (hc : c = .triangle ∨ c = .quadrilateral) (v : ℕ → ℕ → ℝ)
    (h : Indep 3 2 fun k => fun j => v (k + 1) j - v 0 j) :
    ∃ n, normal c 3 v = some n ∧ n 0 ^ 2 + n 1 ^ 2 + n 2 ^ 2 = 1 ∧
      (∀ k ∈ [1, 2], ∑ j ∈ Finset.range 3, n j * (v k j - v 0 j) = 0) ∧
      0 < Matrix.det !![v 1 0 - v 0 0, v 1 1 - v 0 1, v 1 2 - v 0 2;
        v 2 0 - v 0 0, v 2 1 - v 0 1, v 2 2 - v 0 2; n 0, n 1, n 2] := by
  set a : ℕ → ℝ := psub (v 1) (v 0) with ha
  set b : ℕ → ℝ := psub (v 2) (v 0) with hb
  have a0 : ∀ j, v 1 j - v 0 j = a j := fun j => rfl
  have b0 : ∀ j, v 2 j - v 0 j = b j := fun j => rfl
  set w : ℕ → ℝ := pcross a b with hw
  have w0 : w 0 = a 1 * b 2 - a 2 * b 1 := rfl
  have w1 : w 1 = a 2 * b 0 - a 0 * b 2 := rfl
  have w2 : w 2 = a 0 * b 1 - a 1 * b 0 := rfl
  have hpos : 0 < pdot 3 w w := by
    apply pdot_self_pos
    by_contra hne
    push Not at hne
    have e0 : a 1 * b 2 - a 2 * b 1 = 0 := hne 0 (by norm_num)
    have e1 : a 2 * b 0 - a 0 * b 2 = 0 := hne 1 (by norm_num)
    have e2 : a 0 * b 1 - a 1 * b 0 = 0 := hne 2 (by norm_num)
    -- every `b j • a - a j • b` vanishes
    have key : ∀ i < 3, b i = 0 ∧ a i = 0 := by
      intro i hi
      have := h (fun k => if k = 0 then b i else -a i) (by
        intro j hj
        simp only [Finset.sum_range_succ, Finset.sum_range_zero]
        change 0 + b i * a j + -a i * b j = 0
        interval_cases i <;> interval_cases j <;> linarith)
      have k0 := this 0 (by norm_num)
      have k1 := this 1 (by norm_num)
      simp at k0 k1
      exact ⟨k0, k1⟩
    have := h (fun k => if k = 0 then 1 else 0) (by
      intro j hj
      simp only [Finset.sum_range_succ, Finset.sum_range_zero]
      change 0 + 1 * a j + 0 * b j = 0
      rw [(key j hj).2]; ring) 0 (by norm_num)
    simp at this
  have hu := vnormalise_unit hpos
  simp only [Finset.sum_range_succ, Finset.sum_range_zero, zero_add] at hu
  have hs : 0 < √(pdot 3 w w) := Real.sqrt_pos.2 hpos
  refine ⟨vnormalise 3 w, by rcases hc with rfl | rfl <;> rfl, hu, ?_, ?_⟩
  · intro k hk
    simp only [List.mem_cons, List.not_mem_nil, or_false] at hk
    simp only [Finset.sum_range_succ, Finset.sum_range_zero, vnormalise, w0, w1, w2]
    rcases hk with rfl | rfl
    · simp only [a0]; ring
    · simp only [b0]; ring
  · have : Matrix.det !![v 1 0 - v 0 0, v 1 1 - v 0 1, v 1 2 - v 0 2;
        v 2 0 - v 0 0, v 2 1 - v 0 1, v 2 2 - v 0 2; vnormalise 3 w 0, vnormalise 3 w 1,
        vnormalise 3 w 2] = pdot 3 w w / √(pdot 3 w w) := by
      simp only [a0, b0, Matrix.det_fin_three, Matrix.of_apply, Matrix.cons_val_zero,
        Matrix.cons_val_one, Matrix.cons_val, vnormalise, pdot, Finset.sum_range_succ,
        Finset.sum_range_zero, w0, w1, w2]
      ring
    rw [this]
    positivity

/-- Hence the normal of a triangle is orthogonal to every edge in the cell's edge table; that of a
quadrilateral is if its vertices are coplanar in the sense of a parallelogram. -/
theorem normal_orthogonal_to_edges (c : Cell) (v : ℕ → ℕ → ℝ)
    (hc : c = .triangle ∨ c = .quadrilateral ∧ ∀ j, v 0 j + v 3 j = v 1 j + v 2 j)
    (h : Indep 3 2 fun k => fun j => v (k + 1) j - v 0 j) :
    ∃ n, normal c 3 v = some n ∧ ∀ e ∈ c.edges,
      ∑ j ∈ Finset.range 3, n j * (v (e.getD 1 0) j - v (e.getD 0 0) j) = 0 := by
  obtain ⟨n, hn, -, ho, -⟩ := normal_3d_spec c (by tauto) v h
  refine ⟨n, hn, ?_⟩
  have h1 := ho 1 (by simp)
  have h2 := ho 2 (by simp)
  simp only [Finset.sum_range_succ, Finset.sum_range_zero] at h1 h2 ⊢
  intro e he
  rcases hc with rfl | ⟨rfl, hp⟩
  · simp only [Cell.edges, List.mem_cons, List.not_mem_nil, or_false] at he
    rcases he with rfl | rfl | rfl <;> simp only [List.getD_cons_zero, List.getD_cons_succ] <;>
      linarith
  · simp only [Cell.edges, List.mem_cons, List.not_mem_nil, or_false] at he
    have hp' : ∀ j, v 3 j = v 1 j + v 2 j - v 0 j := fun j => by linarith [hp j]
    rcases he with rfl | rfl | rfl | rfl <;>
      simp only [List.getD_cons_zero, List.getD_cons_succ, hp'] <;> linarith

/-- In every other case there is no normal. -/
theorem normal_raises (c : Cell) (g : ℕ) (v : ℕ → ℕ → ℝ)
    (h1 : ¬(c = .interval ∧ g = 2)) (h2 : ¬((c = .triangle ∨ c = .quadrilateral) ∧ g = 3)) :
    normal c g v = none := by
  unfold normal
  rw [if_neg, if_neg]
  · rintro ⟨ht, hg, hl⟩
    apply h2
    cases c <;> simp_all [Cell.tdim, axisVertices]
  · rintro ⟨ht, hg⟩
    apply h1
    cases c <;> simp_all [Cell.tdim]

/-- The edge from (1, 0) to (0, 1) meets the hypotheses. -/
example : ∃ n, normal .interval 2 (fun i j => if i = j then 0 else 1) = some n ∧
    n 0 ^ 2 + n 1 ^ 2 = 1 := by
  obtain ⟨n, h, hu, -⟩ := normal_interval_spec (fun i j => if i = j then 0 else 1)
    ⟨0, by norm_num, by simp⟩
  exact ⟨n, h, hu⟩

/-- The unit right triangle in the plane z = 0 meets the hypotheses: its axes are independent. -/
example : Indep 3 2 fun k => fun j => (if j = k then 1 else 0 : ℝ) := by
  intro t ht k hk
  have := ht k (by omega)
  interval_cases k <;> simpa [Finset.sum_range_succ] using this

end Verif.References
