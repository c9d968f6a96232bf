import Verif.Families.Kmv
/-!
# Kong–Mulder–Veldhuizen elements: defects

The weights of order 3 on triangles are not those of a quadrature rule, and the element of order 2 on tetrahedra cannot
be created.
-/

namespace Verif.Families
open Verif.References Verif.Quadrature Verif.Polysets Verif.Elements Verif.FiniteElement Verif.Orthogonal MvPolynomial

theorem sum_two_tri (G : ℝ → ℝ → ℝ) (t w : ℝ) :
    ((kmvTwo .triangle t w).map fun d => G (d.point 0) (d.point 1) * d.weight).sum =
      (G (1 - t) t + G t (1 - t) + G 0 t + G 0 (1 - t) + G t 0 + G (1 - t) 0) * w := by
  have : (Cell.triangle.subEntities 1).getD [] = [[1, 2], [0, 2], [0, 1]] := by decide
  rw [kmvTwo, this]
  simp [refVertex, refVerts, coords, ← sub_eq_add_neg]
  ring

theorem sum_three_tri (G : ℝ → ℝ → ℝ) (t w : ℝ) (e : ℕ × ℕ) :
    ((kmvThree .triangle [0, 1, 2] t w e).map fun d => G (d.point 0) (d.point 1) * d.weight).sum =
      (G t t + G (1 - 2 * t) t + G t (1 - 2 * t)) * w := by
  have e : 1 + -t + -t = 1 - 2 * t := by ring
  simp [kmvThree, refVertex, refVerts, coords, e]
  ring

theorem kmvTriangle_three {l poly} (h : kmvTriangle 3 = some (l, poly)) :
    l = kmvVertices .triangle (1 / 90 - √7 / 720) ++
      kmvTwo .triangle (1 / 2 - √(411 - 84 * (7 - √7)) / 42) (7 / 720 - √7 / 180) ++
      kmvThree .triangle [0, 1, 2] ((1 - 1 / √7) / 3) (49 / 360 - 7 * √7 / 720) (2, 0) := by
  rw [kmvTriangle, if_neg (by decide), if_neg (by decide), if_pos rfl] at h
  obtain ⟨_, _, h⟩ := Option.map_eq_some_iff.1 h
  exact (Prod.mk.inj h).1.symm

/-- **C62** (violated) Order 3 on a triangle: the weights do not add up to the area of the triangle, so that not even
constants are integrated exactly. -/
theorem kmv_triangle_three_not_exact {l poly} (h : kmvTriangle 3 = some (l, poly)) :
    (l.map fun d => d.functional.eval 1).sum = 1 / 2 - √7 / 15 ∧
      (cellInt .triangle fun z => eval z 1) = 1 / 2 ∧
      (l.map fun d => d.functional.eval 1).sum ≠ cellInt .triangle fun z => eval z 1 := by
  have h1 : (l.map fun d => d.functional.eval 1).sum = 1 / 2 - √7 / 15 := by
    rw [kmvTriangle_three h]
    simp only [weighted_eval, map_one, List.map_append, List.sum_append]
    rw [sum_vertices_tri (fun _ _ => 1), sum_two_tri (fun _ _ => 1), sum_three_tri (fun _ _ => 1)]
    ring
  have h2 : (cellInt .triangle fun z => eval z 1) = 1 / 2 := by
    have := cellInt_tri_mono 0 0
    have e : denoteMono ℝ [0, 0] = 1 := by simp [denoteMono, monoFrom]
    rw [e] at this
    rw [this]
    norm_num [Nat.factorial]
  refine ⟨h1, h2, ?_⟩
  rw [h1, h2]
  have : 0 < √(7 : ℝ) := Real.sqrt_pos.2 (by norm_num)
  intro hc
  linarith

/-! ### Order 2 on tetrahedra -/

theorem forall_vertices_tet (Q : ℝ → ℝ → ℝ → Prop) (w : ℝ) (h : Q 0 0 0 ∧ Q 1 0 0 ∧ Q 0 1 0 ∧ Q 0 0 1) :
    ∀ d ∈ kmvVertices .tetrahedron w, Q (d.point 0) (d.point 1) (d.point 2) := by
  simp [kmvVertices, Cell.nverts, List.range_succ, refVertex, refVerts, coords, h]

theorem forall_mid_tet (Q : ℝ → ℝ → ℝ → Prop) (w : ℝ)
    (h : Q 0 (1 / 2) (1 / 2) ∧ Q (1 / 2) 0 (1 / 2) ∧ Q (1 / 2) (1 / 2) 0 ∧ Q 0 0 (1 / 2) ∧ Q 0 (1 / 2) 0 ∧ Q (1 / 2) 0 0) :
    ∀ d ∈ kmvMid .tetrahedron w, Q (d.point 0) (d.point 1) (d.point 2) := by
  have e : (Cell.tetrahedron.subEntities 1).getD [] = [[2, 3], [1, 3], [1, 2], [0, 3], [0, 2], [0, 1]] := by decide
  rw [kmvMid, e]
  simp [refVertex, refVerts, coords]
  simpa using h

theorem forall_faces_tet (Q : ℝ → ℝ → ℝ → Prop) (t w : ℝ)
    (h : (Q (1 - 2 * t) t t ∧ Q t (1 - 2 * t) t ∧ Q t t (1 - 2 * t)) ∧ (Q 0 t t ∧ Q 0 (1 - 2 * t) t ∧ Q 0 t (1 - 2 * t)) ∧
      (Q t 0 t ∧ Q (1 - 2 * t) 0 t ∧ Q t 0 (1 - 2 * t)) ∧ Q t t 0 ∧ Q (1 - 2 * t) t 0 ∧ Q t (1 - 2 * t) 0) :
    ∀ d ∈ ((Cell.tetrahedron.subEntities 2).getD []).zipIdx.flatMap fun f =>
        kmvThree .tetrahedron f.1 t w (2, f.2), Q (d.point 0) (d.point 1) (d.point 2) := by
  have h0 : (Cell.tetrahedron.subEntities 2).getD [] = [[1, 2, 3], [0, 2, 3], [0, 1, 3], [0, 1, 2]] := by decide
  have e : 1 + -t + -t = 1 - 2 * t := by ring
  rw [h0]
  simp [kmvThree, refVertex, refVerts, coords, e, or_imp, forall_and]
  tauto

/-- A function of the space that vanishes at all points. -/
noncomputable def badReal (s x y z : ℝ) : ℝ :=
  (-180 + 168 * s) * x + (-90 + 84 * s) * (x * z) + (-90 + 84 * s) * (x * y) + (450 - 420 * s) * x ^ 2 +
  ((-5708 + 62 * s) * z + (8101 + 647 * s) * y + (-12955 - 2621 * s) * x) * (x * y * (1 - x - y)) +
  ((8101 + 647 * s) * z + (-5708 + 62 * s) * y + (-12955 - 2621 * s) * x) * (x * z * (1 - x - z)) +
  ((-2038 - 266 * s) * z + (-2038 - 266 * s) * y + (14862 + 996 * s) * x) * (y * z * (1 - y - z)) +
  ((2038 + 266 * s) * z + (2038 + 266 * s) * y + (-90 + 84 * s) * x) *
    ((y - x) * (z - x) * (1 - (y - x) - (z - x))) + 27876 * (x * y * z * (1 - x - y - z))

/-- The same function as a polynomial. -/
noncomputable def badPoly (s : ℝ) : MvPolynomial ℕ ℝ :=
  C (-180 + 168 * s) * X 0 + C (-90 + 84 * s) * (X 0 * X 2) + C (-90 + 84 * s) * (X 0 * X 1) +
  C (450 - 420 * s) * X 0 ^ 2 +
  (C (-5708 + 62 * s) * X 2 + C (8101 + 647 * s) * X 1 + C (-12955 - 2621 * s) * X 0) * (X 0 * X 1 * (1 - X 0 - X 1)) +
  (C (8101 + 647 * s) * X 2 + C (-5708 + 62 * s) * X 1 + C (-12955 - 2621 * s) * X 0) * (X 0 * X 2 * (1 - X 0 - X 2)) +
  (C (-2038 - 266 * s) * X 2 + C (-2038 - 266 * s) * X 1 + C (14862 + 996 * s) * X 0) * (X 1 * X 2 * (1 - X 1 - X 2)) +
  (C (2038 + 266 * s) * X 2 + C (2038 + 266 * s) * X 1 + C (-90 + 84 * s) * X 0) *
    ((X 1 - X 0) * (X 2 - X 0) * (1 - (X 1 - X 0) - (X 2 - X 0))) + C 27876 * (X 0 * X 1 * X 2 * (1 - X 0 - X 1 - X 2))

theorem eval_badPoly (s : ℝ) (z : ℕ → ℝ) : eval z (badPoly s) = badReal s (z 0) (z 1) (z 2) := by
  simp only [badPoly, badReal, map_add, map_mul, map_sub, map_pow, eval_C, eval_X, map_one]

theorem bad_vanishes {s : ℝ} (hs : s ^ 2 = 13) :
    (∀ d ∈ kmvVertices .tetrahedron ((13 - 3 * √13) / 10080), badReal s (d.point 0) (d.point 1) (d.point 2) = 0) ∧
    (∀ d ∈ kmvMid .tetrahedron ((4 - √13) / 315), badReal s (d.point 0) (d.point 1) (d.point 2) = 0) ∧
    (∀ d ∈ ((Cell.tetrahedron.subEntities 2).getD []).zipIdx.flatMap fun f =>
      kmvThree .tetrahedron f.1 ((7 - s) / 18) ((29 + 17 * √13) / 10080) (2, f.2),
        badReal s (d.point 0) (d.point 1) (d.point 2) = 0) ∧ badReal s (1 / 4) (1 / 4) (1 / 4) = 0 := by
  have s3 : s ^ 3 = 13 * s := by rw [pow_succ, hs]
  have s4 : s ^ 4 = 169 := by rw [show s ^ 4 = (s ^ 2) ^ 2 by ring, hs]; norm_num
  have s5 : s ^ 5 = 169 * s := by rw [show s ^ 5 = s ^ 4 * s by ring, s4]
  refine ⟨forall_vertices_tet (fun x y z => badReal s x y z = 0) _ ?_,
    forall_mid_tet (fun x y z => badReal s x y z = 0) _ ?_, forall_faces_tet (fun x y z => badReal s x y z = 0) _ _ ?_, ?_⟩
  · refine ⟨?_, ?_, ?_, ?_⟩ <;> · rw [badReal]; ring
  · refine ⟨?_, ?_, ?_, ?_, ?_, ?_⟩ <;> · rw [badReal]; ring
  · refine ⟨⟨?_, ?_, ?_⟩, ⟨?_, ?_, ?_⟩, ⟨?_, ?_, ?_⟩, ?_, ?_, ?_⟩ <;>
      · rw [badReal]; ring_nf; try (simp only [hs, s3, s4, s5]; ring)
  · rw [badReal]; ring

/-- **C62** (violated) Order 2 on a tetrahedron is accepted, but the dual matrix is singular: there is a function in the
space that vanishes at all points. -/
theorem kmv_tetrahedron_two_fails : ∃ basis dofs, kmvElement .tetrahedron 2 = some (.ciarlet basis dofs) ∧
    getBasis (.ciarlet basis dofs) = none := by
  obtain ⟨l, l1, l2⟩ := polySet_lspan (d := 3) (by simp) ((2 : ℕ) : ℤ)
  obtain ⟨poly, hp⟩ : ∃ poly, kmvTetPolyset 2 4 4 = some poly := by rw [kmvTetPolyset, l1]; exact ⟨_, rfl⟩
  have hk : kmvTetrahedron 2 = some (tetTwo, poly) := by
    rw [kmvTetrahedron, if_neg (by decide), if_pos rfl, hp]
    rfl
  have hpoly := hp
  rw [kmvTetPolyset, l1, Option.map_some] at hpoly
  have hpoly := Option.some.inj hpoly
  have hlen : (tetTwo.map WeightedDof.functional).length = poly.length := by
    have h1 : tetTwo.length = 23 := by
      have e : (Cell.tetrahedron.subEntities 1).getD [] = [[2, 3], [1, 3], [1, 2], [0, 3], [0, 2], [0, 1]] := by decide
      have h0 : (Cell.tetrahedron.subEntities 2).getD [] = [[1, 2, 3], [0, 2, 3], [0, 1, 3], [0, 1, 2]] := by decide
      rw [tetTwo, kmvMid, e, h0]
      simp [kmvVertices, kmvThree, Cell.nverts]
    have h2 : l.length = 10 := by rw [polySet_length _ _ _ l1]; rfl
    rw [List.length_map, h1, ← hpoly]
    simp [h2, List.range_succ]
  refine ⟨poly, tetTwo.map WeightedDof.functional, ?_, ?_⟩
  · rw [kmvElement]
    show (kmvTetrahedron 2).bind _ = _
    rw [hk, Option.bind_some]
    exact if_pos hlen
  · have hs : √(13 : ℝ) ^ 2 = 13 := Real.sq_sqrt (by norm_num)
    refine getBasis_none (p := badPoly √13) ?_ (fun d hd => ?_) fun h0 => ?_
    · have hP : ∀ q ∈ P 3 ((2 : ℕ) : ℤ), q ∈ lspan poly := by
        intro q hq
        rw [← l2] at hq
        rw [← hpoly]
        exact Submodule.span_mono (fun x hx => List.mem_append_left _ (List.mem_append_left _ hx)) hq
      have hm : ∀ q ∈ poly, q ∈ lspan poly := fun q hq => Submodule.subset_span hq
      have hmem : ∀ q : MvPolynomial ℕ ℝ, q ∈ [X 2 * (X 0 * X 1 * (1 - X 0 - X 1)), X 1 * (X 0 * X 1 * (1 - X 0 - X 1)),
          X 0 * (X 0 * X 1 * (1 - X 0 - X 1)), X 2 * (X 0 * X 2 * (1 - X 0 - X 2)), X 1 * (X 0 * X 2 * (1 - X 0 - X 2)),
          X 0 * (X 0 * X 2 * (1 - X 0 - X 2)), X 2 * (X 1 * X 2 * (1 - X 1 - X 2)), X 1 * (X 1 * X 2 * (1 - X 1 - X 2)),
          X 0 * (X 1 * X 2 * (1 - X 1 - X 2)), X 2 * ((X 1 - X 0) * (X 2 - X 0) * (1 - (X 1 - X 0) - (X 2 - X 0))),
          X 1 * ((X 1 - X 0) * (X 2 - X 0) * (1 - (X 1 - X 0) - (X 2 - X 0))),
          X 0 * ((X 1 - X 0) * (X 2 - X 0) * (1 - (X 1 - X 0) - (X 2 - X 0))),
          X 0 * X 1 * X 2 * (1 - X 0 - X 1 - X 2)] → q ∈ lspan poly := by
        intro q hq
        refine hm q ?_
        rw [← hpoly, List.append_assoc]
        refine List.mem_append_right _ ?_
        simpa [List.range_succ] using hq
      simp only [List.mem_cons, List.not_mem_nil, or_false, forall_eq_or_imp, forall_eq] at hmem
      obtain ⟨m1, m2, m3, m4, m5, m6, m7, m8, m9, m10, m11, m12, m13⟩ := hmem
      have hx : ∀ i < 3, (X i : MvPolynomial ℕ ℝ) ∈ P 3 1 := fun i hi => X_mem hi
      have e : badPoly √13 = (-180 + 168 * √13) • X 0 + (-90 + 84 * √13) • (X 0 * X 2) + (-90 + 84 * √13) • (X 0 * X 1) +
        (450 - 420 * √13) • (X 0 * X 0) +
        (-5708 + 62 * √13) • (X 2 * (X 0 * X 1 * (1 - X 0 - X 1))) + (8101 + 647 * √13) • (X 1 * (X 0 * X 1 * (1 - X 0 - X 1))) +
        (-12955 - 2621 * √13) • (X 0 * (X 0 * X 1 * (1 - X 0 - X 1))) +
        (8101 + 647 * √13) • (X 2 * (X 0 * X 2 * (1 - X 0 - X 2))) + (-5708 + 62 * √13) • (X 1 * (X 0 * X 2 * (1 - X 0 - X 2))) +
        (-12955 - 2621 * √13) • (X 0 * (X 0 * X 2 * (1 - X 0 - X 2))) +
        (-2038 - 266 * √13) • (X 2 * (X 1 * X 2 * (1 - X 1 - X 2))) + (-2038 - 266 * √13) • (X 1 * (X 1 * X 2 * (1 - X 1 - X 2))) +
        (14862 + 996 * √13) • (X 0 * (X 1 * X 2 * (1 - X 1 - X 2))) +
        (2038 + 266 * √13) • (X 2 * ((X 1 - X 0) * (X 2 - X 0) * (1 - (X 1 - X 0) - (X 2 - X 0)))) +
        (2038 + 266 * √13) • (X 1 * ((X 1 - X 0) * (X 2 - X 0) * (1 - (X 1 - X 0) - (X 2 - X 0)))) +
        (-90 + 84 * √13) • (X 0 * ((X 1 - X 0) * (X 2 - X 0) * (1 - (X 1 - X 0) - (X 2 - X 0)))) +
        (27876 : ℝ) • (X 0 * X 1 * X 2 * (1 - X 0 - X 1 - X 2)) := by
        simp only [badPoly, smul_eq_C_mul]
        ring
      rw [e]
      have h2 : ∀ i < 3, ∀ j < 3, (X i * X j : MvPolynomial ℕ ℝ) ∈ lspan poly := fun i hi j hj =>
        hP _ (by have := P_mul (hx i hi) (hx j hj); exact this)
      have h1 : (X 0 : MvPolynomial ℕ ℝ) ∈ lspan poly := hP _ (P_mono (by norm_num) (hx 0 (by norm_num)))
      have ad := fun {a b : MvPolynomial ℕ ℝ} => (lspan poly).add_mem (x := a) (y := b)
      have sm := fun (r : ℝ) {a : MvPolynomial ℕ ℝ} => (lspan poly).smul_mem (x := a) r
      exact ad (ad (ad (ad (ad (ad (ad (ad (ad (ad (ad (ad (ad (ad (ad (ad (sm _ h1) (sm _ (h2 0 (by norm_num) 2 (by norm_num))))
        (sm _ (h2 0 (by norm_num) 1 (by norm_num)))) (sm _ (h2 0 (by norm_num) 0 (by norm_num)))) (sm _ m1)) (sm _ m2)) (sm _ m3))
        (sm _ m4)) (sm _ m5)) (sm _ m6)) (sm _ m7)) (sm _ m8)) (sm _ m9)) (sm _ m10)) (sm _ m11)) (sm _ m12)) (sm _ m13)
    · obtain ⟨w, hw, rfl⟩ := List.mem_map.1 hd
      rw [weighted_eval, eval_badPoly]
      obtain ⟨b1, b2, b3, b4⟩ := bad_vanishes hs
      have : badReal √13 (w.point 0) (w.point 1) (w.point 2) = 0 := by
        rw [tetTwo] at hw
        rcases List.mem_append.1 hw with hw | hw
        · rcases List.mem_append.1 hw with hw | hw
          · rcases List.mem_append.1 hw with hw | hw
            · exact b1 w hw
            · exact b2 w hw
          · exact b3 w hw
        · rw [List.mem_singleton] at hw
          rw [hw]
          exact b4
      rw [this, zero_mul]
    · have := congrArg (eval fun i : ℕ => if i = 2 then (0 : ℝ) else 1) h0
      rw [eval_badPoly, map_zero] at this
      simp only [badReal] at this
      norm_num at this
      have h13 : 0 ≤ √(13 : ℝ) := Real.sqrt_nonneg _
      linarith

end Verif.Families
