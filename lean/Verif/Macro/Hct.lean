import Verif.Macro.Basic
/-!
# Hsieh–Clough–Tocher elements

symfem/elements/hct.py. The element exists on the default triangle only.
-/

namespace Verif.Macro
open Verif.References Verif.Elements Verif.FiniteElement Verif.Polysets Verif.Moments Verif.Geometry Verif.Functions
open Verif.Families Verif.Scalar Verif.Smooth
open MvPolynomial

/-! ### Model -/

/-- The pieces of the functions (symfem/elements/hct.py:61-124). -/
def hctBasisTerms : List (List (List (ℤ × Mono))) :=
  [[[(1, [0, 0])], [(1, [0, 0])], [(1, [0, 0])]],
   [[(1, [1, 0])], [(1, [1, 0])], [(1, [1, 0])]],
   [[(1, [0, 1])], [(1, [0, 1])], [(1, [0, 1])]],
   [[(1, [2, 0])], [(1, [2, 0])], [(1, [2, 0])]],
   [[(1, [1, 1])], [(1, [1, 1])], [(1, [1, 1])]],
   [[(1, [0, 2])], [(1, [0, 2])], [(1, [0, 2])]],
   [[(1, [3, 0])], [(1, [3, 0])], [(1, [3, 0])]],
   [[(1, [2, 1])], [(1, [2, 1])], [(1, [2, 1])]],
   [[(1, [1, 2])], [(1, [1, 2])], [(1, [1, 2])]],
   [[(1, [0, 3])], [(1, [0, 3])], [(1, [0, 3])]],
   [[(-23, [3, 0]), (24, [2, 1]), (-12, [1, 2]), (36, [0, 2])], [(-28, [3, 0]), (12, [2, 1]), (9, [2, 0]), (-3, [1, 0]), (32, [0, 3]), (12, [0, 1]), (-1, [0, 0])], [(-15, [2, 0]), (-33, [1, 2]), (30, [1, 1]), (22, [0, 3]), (21, [0, 2])]],
   [[(22, [3, 0]), (-21, [2, 1]), (-12, [1, 2]), (30, [1, 1]), (-24, [0, 2])], [(32, [3, 0]), (12, [2, 1]), (-21, [2, 0]), (12, [1, 0]), (-28, [0, 3]), (-3, [0, 1]), (-1, [0, 0])], [(15, [2, 0]), (12, [1, 2]), (-23, [0, 3]), (-9, [0, 2])]]]

/-- The functions: `PiecewiseFunction` with the three cells (symfem/elements/hct.py:126-128). -/
noncomputable def hctBasis : List (Fin 3 → MvPolynomial ℕ ℝ) := hctBasisTerms.map fun t i => denotePoly ℝ (t.getD i.val [])

/-- The functionals of vertex `n` (symfem/elements/hct.py:41-44). -/
noncomputable def hctVertex (n : ℕ) : Option (List (Dof ℝ (Fin 3 → MvPolynomial ℕ ℝ))) :=
  (PointDof.functional ⟨refVertex .triangle n, (0, n)⟩ :: [[1, 0], [0, 1]].map fun s => derivDof (refVertex .triangle n) s (0, n) none).mapM
    (onPiece 3 2 splitCells (refVertex .triangle n))

/-- The functional of edge `i` (symfem/elements/hct.py:45-51). -/
noncomputable def hctEdge (i : ℕ) : Option (Dof ℝ (Fin 3 → MvPolynomial ℕ ℝ)) :=
  (normalDof i).bind (onPiece 3 2 splitCells (References.midpoint (entityDomain .triangle (1, i)).cell (entityDomain .triangle (1, i)).v))

/-- `HsiehCloughTocher(reference, order)` (symfem/elements/hct.py:28-130) on the default triangle; `map_polyset_from_default` is the identity
there. -/
noncomputable def hct (k : ℕ) : Option (Element ℝ (Fin 3 → MvPolynomial ℕ ℝ)) :=
  if k = 3 then do
    let vs ← (List.range 3).mapM hctVertex
    let es ← (List.range 3).mapM hctEdge
    ciarlet hctBasis (vs.flatten ++ es)
  else none

/-! ### Specification -/

/-- Cubic pieces that fit together with their derivatives: a continuously differentiable function. -/
def C1Split (f : Fin 3 → MvPolynomial ℕ ℝ) : Prop :=
  (∀ i, f i ∈ P 2 3) ∧ ∀ i j z, InCell i z → InCell j z →
    eval z (f i) = eval z (f j) ∧ ∀ l < 2, eval z (pderiv l (f i)) = eval z (pderiv l (f j))

/-! ### The space -/

/-- The functions form a space. -/
def c1Sub : Submodule ℝ (Fin 3 → MvPolynomial ℕ ℝ) where
  carrier := {f | C1Split f}
  zero_mem' := ⟨fun _ => Submodule.zero_mem _, fun i j z _ _ => by simp⟩
  add_mem' := by
    rintro f g ⟨f1, f2⟩ ⟨g1, g2⟩
    refine ⟨fun i => Submodule.add_mem _ (f1 i) (g1 i), fun i j z hi hj => ⟨?_, fun l hl => ?_⟩⟩
    · simp [(f2 i j z hi hj).1, (g2 i j z hi hj).1]
    · simp [(f2 i j z hi hj).2 l hl, (g2 i j z hi hj).2 l hl]
  smul_mem' := by
    rintro a f ⟨f1, f2⟩
    refine ⟨fun i => Submodule.smul_mem _ _ (f1 i), fun i j z hi hj => ⟨?_, fun l hl => ?_⟩⟩
    · simp [(f2 i j z hi hj).1, smul_eval]
    · simp [(f2 i j z hi hj).2 l hl, smul_eval]

/-- Two pieces agree at a point. -/
def Agree (p q : MvPolynomial ℕ ℝ) (z : ℕ → ℝ) : Prop :=
  eval z p = eval z q ∧ eval z (pderiv 0 p) = eval z (pderiv 0 q) ∧ eval z (pderiv 1 p) = eval z (pderiv 1 q)

theorem c1_of {f : Fin 3 → MvPolynomial ℕ ℝ} (h : ∀ i, f i ∈ P 2 3) (h01 : ∀ z : ℕ → ℝ, z 0 = 1 - 2 * z 1 → Agree (f 0) (f 1) z)
    (h02 : ∀ z : ℕ → ℝ, z 0 = z 1 → Agree (f 0) (f 2) z) (h12 : ∀ z : ℕ → ℝ, z 1 = 1 - 2 * z 0 → Agree (f 1) (f 2) z) : C1Split f := by
  refine ⟨h, fun i j z hi hj => ?_⟩
  have key : Agree (f i) (f j) z := by
    fin_cases i <;> fin_cases j
    · exact ⟨rfl, rfl, rfl⟩
    · have a := inCell_zero.1 hi
      have b := inCell_one.1 hj
      exact h01 z (by linarith)
    · have a := inCell_zero.1 hi
      have b := inCell_two.1 hj
      exact h02 z (by linarith)
    · have a := inCell_one.1 hi
      have b := inCell_zero.1 hj
      obtain ⟨x, y, z⟩ := h01 z (by linarith)
      exact ⟨x.symm, y.symm, z.symm⟩
    · exact ⟨rfl, rfl, rfl⟩
    · have a := inCell_one.1 hi
      have b := inCell_two.1 hj
      exact h12 z (by linarith)
    · have a := inCell_two.1 hi
      have b := inCell_zero.1 hj
      obtain ⟨x, y, z⟩ := h02 z (by linarith)
      exact ⟨x.symm, y.symm, z.symm⟩
    · have a := inCell_two.1 hi
      have b := inCell_one.1 hj
      obtain ⟨x, y, z⟩ := h12 z (by linarith)
      exact ⟨x.symm, y.symm, z.symm⟩
    · exact ⟨rfl, rfl, rfl⟩
  refine ⟨key.1, fun l hl => ?_⟩
  interval_cases l
  · exact key.2.1
  · exact key.2.2

theorem pieces_mem {k : ℤ} {t : List (List (ℤ × Mono))} (h : ∀ p ∈ t, ∀ s ∈ p, s.2.length = 2 ∧ (s.2.sum : ℤ) ≤ k) (i : ℕ) :
    denotePoly ℝ (t.getD i []) ∈ P 2 k := by
  refine denotePoly_mem fun s hs => ?_
  by_cases hi : i < t.length
  · rw [List.getD_eq_getElem _ _ hi] at hs
    exact h _ (List.getElem_mem hi) s hs
  · rw [List.getD_eq_default _ _ (by omega)] at hs
    simp at hs

theorem hctBasisTerms_deg : ∀ t ∈ hctBasisTerms, ∀ p ∈ t, ∀ s ∈ p, s.2.length = 2 ∧ (s.2.sum : ℤ) ≤ 3 := by decide

theorem hct_mem : ∀ b ∈ hctBasis, b ∈ c1Sub := by
  intro b hb
  obtain ⟨t, ht, rfl⟩ := List.mem_map.1 hb
  have hd : ∀ i : Fin 3, denotePoly ℝ (t.getD i.val []) ∈ P 2 3 := fun i => pieces_mem (hctBasisTerms_deg t ht) i.val
  simp only [hctBasisTerms, List.mem_cons, List.not_mem_nil, or_false] at ht
  rcases ht with rfl | rfl | rfl | rfl | rfl | rfl | rfl | rfl | rfl | rfl | rfl | rfl
  iterate 10 exact c1_of hd (fun _ _ => ⟨rfl, rfl, rfl⟩) (fun _ _ => ⟨rfl, rfl, rfl⟩) fun _ _ => ⟨rfl, rfl, rfl⟩
  all_goals
    refine c1_of hd (fun z hz => ?_) (fun z hz => ?_) fun z hz => ?_
    all_goals
      refine ⟨?_, ?_, ?_⟩
      all_goals
        simp [denotePoly, denoteMono, monoFrom, Derivation.leibniz_pow, pderiv_num, hz]
        try ring

theorem hct_independent : Independent ℝ hctBasis := by
  rw [list_eq_range hctBasis]
  refine independent_range _ _ fun a ha => ?_
  have h0 : ∀ x y : ℝ, a 0 * ((1) * (x ^ 0 * y ^ 0)) + a 1 * ((1) * (x ^ 1 * y ^ 0)) + a 2 * ((1) * (x ^ 0 * y ^ 1)) + a 3 * ((1) * (x ^ 2 * y ^ 0)) + a 4 * ((1) * (x ^ 1 * y ^ 1)) + a 5 * ((1) * (x ^ 0 * y ^ 2)) + a 6 * ((1) * (x ^ 3 * y ^ 0)) + a 7 * ((1) * (x ^ 2 * y ^ 1)) + a 8 * ((1) * (x ^ 1 * y ^ 2)) + a 9 * ((1) * (x ^ 0 * y ^ 3)) + a 10 * ((-23) * (x ^ 3 * y ^ 0) + (24) * (x ^ 2 * y ^ 1) + (-12) * (x ^ 1 * y ^ 2) + (36) * (x ^ 0 * y ^ 2)) + a 11 * ((22) * (x ^ 3 * y ^ 0) + (-21) * (x ^ 2 * y ^ 1) + (-12) * (x ^ 1 * y ^ 2) + (30) * (x ^ 1 * y ^ 1) + (-24) * (x ^ 0 * y ^ 2)) = 0 := by
    intro x y
    have := congrArg (eval (coords [x, y])) (congrFun ha 0)
    simp [hctBasis, hctBasisTerms, Finset.sum_range_succ, denotePoly, denoteMono, monoFrom, coords] at this
    linear_combination this
  have h1 : ∀ x y : ℝ, a 0 * ((1) * (x ^ 0 * y ^ 0)) + a 1 * ((1) * (x ^ 1 * y ^ 0)) + a 2 * ((1) * (x ^ 0 * y ^ 1)) + a 3 * ((1) * (x ^ 2 * y ^ 0)) + a 4 * ((1) * (x ^ 1 * y ^ 1)) + a 5 * ((1) * (x ^ 0 * y ^ 2)) + a 6 * ((1) * (x ^ 3 * y ^ 0)) + a 7 * ((1) * (x ^ 2 * y ^ 1)) + a 8 * ((1) * (x ^ 1 * y ^ 2)) + a 9 * ((1) * (x ^ 0 * y ^ 3)) + a 10 * ((-28) * (x ^ 3 * y ^ 0) + (12) * (x ^ 2 * y ^ 1) + (9) * (x ^ 2 * y ^ 0) + (-3) * (x ^ 1 * y ^ 0) + (32) * (x ^ 0 * y ^ 3) + (12) * (x ^ 0 * y ^ 1) + (-1) * (x ^ 0 * y ^ 0)) + a 11 * ((32) * (x ^ 3 * y ^ 0) + (12) * (x ^ 2 * y ^ 1) + (-21) * (x ^ 2 * y ^ 0) + (12) * (x ^ 1 * y ^ 0) + (-28) * (x ^ 0 * y ^ 3) + (-3) * (x ^ 0 * y ^ 1) + (-1) * (x ^ 0 * y ^ 0)) = 0 := by
    intro x y
    have := congrArg (eval (coords [x, y])) (congrFun ha 1)
    simp [hctBasis, hctBasisTerms, Finset.sum_range_succ, denotePoly, denoteMono, monoFrom, coords] at this
    linear_combination this
  have h2 : ∀ x y : ℝ, a 0 * ((1) * (x ^ 0 * y ^ 0)) + a 1 * ((1) * (x ^ 1 * y ^ 0)) + a 2 * ((1) * (x ^ 0 * y ^ 1)) + a 3 * ((1) * (x ^ 2 * y ^ 0)) + a 4 * ((1) * (x ^ 1 * y ^ 1)) + a 5 * ((1) * (x ^ 0 * y ^ 2)) + a 6 * ((1) * (x ^ 3 * y ^ 0)) + a 7 * ((1) * (x ^ 2 * y ^ 1)) + a 8 * ((1) * (x ^ 1 * y ^ 2)) + a 9 * ((1) * (x ^ 0 * y ^ 3)) + a 10 * ((-15) * (x ^ 2 * y ^ 0) + (-33) * (x ^ 1 * y ^ 2) + (30) * (x ^ 1 * y ^ 1) + (22) * (x ^ 0 * y ^ 3) + (21) * (x ^ 0 * y ^ 2)) + a 11 * ((15) * (x ^ 2 * y ^ 0) + (12) * (x ^ 1 * y ^ 2) + (-23) * (x ^ 0 * y ^ 3) + (-9) * (x ^ 0 * y ^ 2)) = 0 := by
    intro x y
    have := congrArg (eval (coords [x, y])) (congrFun ha 2)
    simp [hctBasis, hctBasisTerms, Finset.sum_range_succ, denotePoly, denoteMono, monoFrom, coords] at this
    linear_combination this
  intro i hi
  have hi' : i < 12 := hi
  interval_cases i
  · linear_combination (1) * (h0 0 0)
  · linear_combination (-11/6) * (h0 0 0) + (3) * (h0 1 0) + (-3/2) * (h0 2 0) + (1/3) * (h0 3 0)
  · linear_combination (-11/6) * (h0 0 0) + (3) * (h0 0 1) + (-3/2) * (h0 0 2) + (1/3) * (h0 0 3)
  · linear_combination (1) * (h0 0 0) + (-5/2) * (h0 1 0) + (2) * (h0 2 0) + (-1/2) * (h0 3 0)
  · linear_combination (-12) * (h0 0 0) + (-9/2) * (h0 0 1) + (1/2) * (h0 0 2) + (-5/2) * (h0 1 0) + (3) * (h0 1 1) + (-1/2) * (h0 1 2) + (1/2) * (h0 2 0) + (-1/2) * (h0 2 1) + (14) * (h1 0 0) + (2) * (h1 0 1)
  · linear_combination (-7) * (h0 0 0) + (3/2) * (h0 0 1) + (2) * (h0 0 2) + (-1/2) * (h0 0 3) + (8) * (h1 0 0) + (-4) * (h1 0 1)
  · linear_combination (11/6) * (h0 0 0) + (-3) * (h0 0 1) + (1/2) * (h0 1 0) + (-1/2) * (h0 2 0) + (1/6) * (h0 3 0) + (-2) * (h1 0 0) + (3) * (h1 0 1)
  · linear_combination (-7/2) * (h0 0 0) + (7/2) * (h0 0 1) + (1) * (h0 1 0) + (-1) * (h0 1 1) + (-1/2) * (h0 2 0) + (1/2) * (h0 2 1) + (3) * (h1 0 0) + (-3) * (h1 0 1)
  · linear_combination (23/2) * (h0 0 0) + (1) * (h0 0 1) + (-1/2) * (h0 0 2) + (1/2) * (h0 1 0) + (-1) * (h0 1 1) + (1/2) * (h0 1 2) + (-12) * (h1 0 0)
  · linear_combination (-1/6) * (h0 0 0) + (1/2) * (h0 0 1) + (-1/2) * (h0 0 2) + (1/6) * (h0 0 3)
  · linear_combination (8/15) * (h0 0 0) + (-1/15) * (h0 0 1) + (-8/15) * (h1 0 0) + (1/15) * (h1 0 1)
  · linear_combination (7/15) * (h0 0 0) + (1/15) * (h0 0 1) + (-7/15) * (h1 0 0) + (-1/15) * (h1 0 1)

/-! ### Unisolvence -/

/-- A point on the segment between a vertex and the centre. -/
theorem on_segment (s : ℝ) (h0 : 0 ≤ s) (h1 : s ≤ 1) :
    (InCell 0 (coords [s / 3, s / 3]) ∧ InCell 2 (coords [s / 3, s / 3])) ∧
    (InCell 0 (coords [1 - 2 * s / 3, s / 3]) ∧ InCell 1 (coords [1 - 2 * s / 3, s / 3])) ∧
    (InCell 1 (coords [s / 3, 1 - 2 * s / 3]) ∧ InCell 2 (coords [s / 3, 1 - 2 * s / 3])) := by
  simp only [inCell_zero, inCell_one, inCell_two, coords, List.getD_cons_zero, List.getD_cons_succ]
  refine ⟨⟨⟨?_, ?_, ?_⟩, ?_, ?_, ?_⟩, ⟨⟨?_, ?_, ?_⟩, ?_, ?_, ?_⟩, ⟨?_, ?_, ?_⟩, ?_, ?_, ?_⟩ <;> linarith

/-- The only continuously differentiable function with cubic pieces that has no values and no derivatives at the vertices and no normal derivatives at the
midpoints of the edges is 0. -/
theorem hct_zero {f : Fin 3 → MvPolynomial ℕ ℝ} (hf : C1Split f)
    (w0 : eval (coords [0, 0]) (f 0) = 0 ∧ eval (coords [0, 0]) (pderiv 0 (f 0)) = 0 ∧ eval (coords [0, 0]) (pderiv 1 (f 0)) = 0)
    (w1 : eval (coords [1, 0]) (f 0) = 0 ∧ eval (coords [1, 0]) (pderiv 0 (f 0)) = 0 ∧ eval (coords [1, 0]) (pderiv 1 (f 0)) = 0)
    (w2 : eval (coords [0, 1]) (f 1) = 0 ∧ eval (coords [0, 1]) (pderiv 0 (f 1)) = 0 ∧ eval (coords [0, 1]) (pderiv 1 (f 1)) = 0)
    (n0 : eval (coords [1 / 2, 1 / 2]) (pderiv 0 (f 1)) + eval (coords [1 / 2, 1 / 2]) (pderiv 1 (f 1)) = 0)
    (n1 : eval (coords [0, 1 / 2]) (pderiv 0 (f 2)) = 0) (n2 : eval (coords [1 / 2, 0]) (pderiv 1 (f 0)) = 0) : f = 0 := by
  obtain ⟨hP, hC⟩ := hf
  obtain ⟨a, a1, a2, a3, a4⟩ := cubic (hP 0)
  obtain ⟨b, b1, b2, b3, b4⟩ := cubic (hP 1)
  obtain ⟨c, c1, c2, c3, c4⟩ := cubic (hP 2)
  obtain ⟨v0, x0, y0⟩ := w0
  obtain ⟨v1, x1, y1⟩ := w1
  obtain ⟨v2, x2, y2⟩ := w2
  have g := fun s h0 h1 => on_segment s h0 h1
  obtain ⟨pv0, pk0⟩ := hC 0 2 _ (g 0 (by norm_num) (by norm_num)).1.1 (g 0 (by norm_num) (by norm_num)).1.2
  have px0 := pk0 0 (by norm_num)
  have py0 := pk0 1 (by norm_num)
  obtain ⟨pv1, pk1⟩ := hC 0 2 _ (g (1 / 2) (by norm_num) (by norm_num)).1.1 (g (1 / 2) (by norm_num) (by norm_num)).1.2
  have px1 := pk1 0 (by norm_num)
  have py1 := pk1 1 (by norm_num)
  obtain ⟨pv2, pk2⟩ := hC 0 2 _ (g 1 (by norm_num) (by norm_num)).1.1 (g 1 (by norm_num) (by norm_num)).1.2
  have px2 := pk2 0 (by norm_num)
  have py2 := pk2 1 (by norm_num)
  obtain ⟨qv0, qk0⟩ := hC 0 1 _ (g 0 (by norm_num) (by norm_num)).2.1.1 (g 0 (by norm_num) (by norm_num)).2.1.2
  have qx0 := qk0 0 (by norm_num)
  have qy0 := qk0 1 (by norm_num)
  obtain ⟨qv1, qk1⟩ := hC 0 1 _ (g (1 / 2) (by norm_num) (by norm_num)).2.1.1 (g (1 / 2) (by norm_num) (by norm_num)).2.1.2
  have qx1 := qk1 0 (by norm_num)
  have qy1 := qk1 1 (by norm_num)
  obtain ⟨qv2, qk2⟩ := hC 0 1 _ (g 1 (by norm_num) (by norm_num)).2.1.1 (g 1 (by norm_num) (by norm_num)).2.1.2
  have qx2 := qk2 0 (by norm_num)
  have qy2 := qk2 1 (by norm_num)
  obtain ⟨rv0, rk0⟩ := hC 1 2 _ (g 0 (by norm_num) (by norm_num)).2.2.1 (g 0 (by norm_num) (by norm_num)).2.2.2
  have rx0 := rk0 0 (by norm_num)
  have ry0 := rk0 1 (by norm_num)
  obtain ⟨rv1, rk1⟩ := hC 1 2 _ (g (1 / 2) (by norm_num) (by norm_num)).2.2.1 (g (1 / 2) (by norm_num) (by norm_num)).2.2.2
  have rx1 := rk1 0 (by norm_num)
  have ry1 := rk1 1 (by norm_num)
  obtain ⟨rv2, rk2⟩ := hC 1 2 _ (g 1 (by norm_num) (by norm_num)).2.2.1 (g 1 (by norm_num) (by norm_num)).2.2.2
  have rx2 := rk2 0 (by norm_num)
  have ry2 := rk2 1 (by norm_num)
  simp only [a1, a2, a3, b1, b2, b3, c1, c2, c3, coords, List.getD_cons_zero, List.getD_cons_succ, cub, cubx, cuby] at v0 x0 y0 v1 x1 y1 v2 x2 y2 n0 n1 n2 pv0 px0 py0 pv1 px1 py1 pv2 px2 py2 qv0 qx0 qy0 qv1 qx1 qy1 qv2 qx2 qy2 rv0 rx0 ry0 rv1 rx1 ry1 rv2 rx2 ry2
  clear pk0 pk1 pk2 qk0 qk1 qk2 rk0 rk1 rk2
  have z0 : f 0 = 0 := by
    refine a4 fun i hi => ?_
    interval_cases i
    · linear_combination (1) * v0
    · linear_combination (1) * x0
    · linear_combination (-3) * v0 + (-2) * x0 + (3) * v1 + (-1) * x1
    · linear_combination (2) * v0 + (1) * x0 + (-2) * v1 + (1) * x1
    · linear_combination (1) * y0
    · linear_combination (-3) * y0 + (-1) * y1 + (4) * n2
    · linear_combination (2) * y0 + (2) * y1 + (-4) * n2
    · linear_combination (-3) * v0 + (-3/2) * x0 + (-1/2) * y0 + (1/2) * y1 + (3) * v2 + (-1/2) * x2 + (-1) * y2 + (2) * n1 + (-2) * n2 + (-105) * pv0 + (-6) * px0 + (-10) * py0 + (108) * pv1 + (-12) * px1 + (-6) * py1 + (3/2) * px2 + (-3) * rv0 + (1/2) * rx0 + (1) * ry0
    · linear_combination (-3) * v0 + (-1/2) * x0 + (2) * y0 + (3/2) * v1 + (-1/4) * x1 + (7/4) * y1 + (3/2) * v2 + (9/4) * x2 + (-1/4) * y2 + (-1) * n0 + (-2) * n1 + (-4) * n2 + (105) * pv0 + (6) * px0 + (10) * py0 + (-108) * pv1 + (12) * px1 + (6) * py1 + (-3/2) * px2 + (-207/2) * qv0 + (63/4) * qx0 + (-39/4) * qy0 + (108) * qv1 + (18) * qx1 + (-6) * qy1 + (-3/2) * qx2 + (3) * rv0 + (-1/2) * rx0 + (-1) * ry0
    · linear_combination (3) * v0 + (7/3) * x0 + (-7/6) * y0 + (-1/2) * v1 + (1/12) * x1 + (-13/12) * y1 + (-5/2) * v2 + (5/12) * x2 + (13/12) * y2 + (1/3) * n0 + (-8/3) * n1 + (10/3) * n2 + (535/2) * pv0 + (50/3) * px0 + (45/2) * py0 + (-270) * pv1 + (31) * px1 + (21) * py1 + (-15/4) * px2 + (162) * qv0 + (-277/12) * qx0 + (149/12) * qy0 + (-162) * qv1 + (-34) * qx1 + (15) * qy1 + (9/4) * qx2 + (5/2) * rv0 + (-7/12) * rx0 + (-1) * ry0 + (-1) * rx1
  have z1 : f 1 = 0 := by
    refine b4 fun i hi => ?_
    interval_cases i
    · linear_combination (-1) * v0 + (-1/6) * x0 + (-1/6) * y0 + (1) * v1 + (-1/6) * x1 + (2/3) * y1 + (1) * v2 + (2/3) * x2 + (-1/6) * y2 + (-2/3) * n0 + (-2/3) * n1 + (-2/3) * n2 + (-220) * pv0 + (-46/3) * px0 + (-15) * py0 + (216) * pv1 + (-26) * px1 + (-24) * py1 + (3) * px2 + (220) * qv0 + (-179/6) * qx0 + (91/6) * qy0 + (-216) * qv1 + (-52) * qx1 + (24) * qy1 + (15/2) * qx2 + (4) * rv0 + (-1/3) * rx0 + (-1) * ry0 + (2) * rx1
    · linear_combination (9) * v0 + (5/2) * x0 + (-9/2) * v1 + (3/4) * x1 + (-13/4) * y1 + (-9/2) * v2 + (-11/4) * x2 + (3/4) * y2 + (3) * n0 + (2) * n1 + (4) * n2 + (660) * pv0 + (46) * px0 + (45) * py0 + (-648) * pv1 + (78) * px1 + (72) * py1 + (-9) * px2 + (-1329/2) * qv0 + (355/4) * qx0 + (-183/4) * qy0 + (648) * qv1 + (162) * qx1 + (-72) * qy1 + (-24) * qx2 + (-12) * rv0 + (1) * rx0 + (3) * ry0 + (-6) * rx1
    · linear_combination (-15) * v0 + (-9/2) * x0 + (1/2) * y0 + (9) * v1 + (-2) * x1 + (9/2) * y1 + (6) * v2 + (7/2) * x2 + (-1) * y2 + (-4) * n0 + (-2) * n1 + (-6) * n2 + (-660) * pv0 + (-46) * px0 + (-45) * py0 + (648) * pv1 + (-78) * px1 + (-72) * py1 + (9) * px2 + (666) * qv0 + (-87) * qx0 + (46) * qy0 + (-648) * qv1 + (-168) * qx1 + (72) * qy1 + (51/2) * qx2 + (12) * rv0 + (-1) * rx0 + (-3) * ry0 + (6) * rx1
    · linear_combination (7) * v0 + (13/6) * x0 + (-1/3) * y0 + (-9/2) * v1 + (17/12) * x1 + (-23/12) * y1 + (-5/2) * v2 + (-17/12) * x2 + (5/12) * y2 + (5/3) * n0 + (2/3) * n1 + (8/3) * n2 + (220) * pv0 + (46/3) * px0 + (15) * py0 + (-216) * pv1 + (26) * px1 + (24) * py1 + (-3) * px2 + (-445/2) * qv0 + (337/12) * qx0 + (-185/12) * qy0 + (216) * qv1 + (58) * qx1 + (-24) * qy1 + (-9) * qx2 + (-4) * rv0 + (1/3) * rx0 + (1) * ry0 + (-2) * rx1
    · linear_combination (9) * v0 + (5/2) * y0 + (-9/2) * v1 + (3/4) * x1 + (-11/4) * y1 + (-9/2) * v2 + (-13/4) * x2 + (3/4) * y2 + (3) * n0 + (4) * n1 + (2) * n2 + (1875/2) * pv0 + (66) * px0 + (125/2) * py0 + (-918) * pv1 + (111) * px1 + (105) * py1 + (-51/4) * px2 + (-942) * qv0 + (513/4) * qx0 + (-257/4) * qy0 + (918) * qv1 + (222) * qx1 + (-105) * qy1 + (-111/4) * qx2 + (-39/2) * rv0 + (7/4) * rx0 + (5) * ry0 + (-9) * rx1
    · linear_combination (-30) * v0 + (-4) * x0 + (-4) * y0 + (15) * v1 + (-5/2) * x1 + (19/2) * y1 + (15) * v2 + (19/2) * x2 + (-5/2) * y2 + (-10) * n0 + (-8) * n1 + (-8) * n2 + (-1875) * pv0 + (-132) * px0 + (-125) * py0 + (1836) * pv1 + (-222) * px1 + (-210) * py1 + (51/2) * px2 + (1890) * qv0 + (-509/2) * qx0 + (255/2) * qy0 + (-1836) * qv1 + (-456) * qx1 + (210) * qy1 + (117/2) * qx2 + (39) * rv0 + (-7/2) * rx0 + (-10) * ry0 + (18) * rx1
    · linear_combination (21) * v0 + (4) * x0 + (3/2) * y0 + (-21/2) * v1 + (7/4) * x1 + (-23/4) * y1 + (-21/2) * v2 + (-25/4) * x2 + (7/4) * y2 + (7) * n0 + (4) * n1 + (6) * n2 + (1875/2) * pv0 + (66) * px0 + (125/2) * py0 + (-918) * pv1 + (111) * px1 + (105) * py1 + (-51/4) * px2 + (-948) * qv0 + (505/4) * qx0 + (-257/4) * qy0 + (918) * qv1 + (234) * qx1 + (-105) * qy1 + (-123/4) * qx2 + (-39/2) * rv0 + (7/4) * rx0 + (5) * ry0 + (-9) * rx1
    · linear_combination (-15) * v0 + (1/2) * x0 + (-9/2) * y0 + (6) * v1 + (-1) * x1 + (7/2) * y1 + (9) * v2 + (9/2) * x2 + (-2) * y2 + (-4) * n0 + (-6) * n1 + (-2) * n2 + (-1215) * pv0 + (-86) * px0 + (-80) * py0 + (1188) * pv1 + (-144) * px1 + (-138) * py1 + (33/2) * px2 + (1224) * qv0 + (-167) * qx0 + (83) * qy0 + (-1188) * qv1 + (-288) * qx1 + (138) * qy1 + (33) * qx2 + (27) * rv0 + (-5/2) * rx0 + (-7) * ry0 + (12) * rx1
    · linear_combination (21) * v0 + (3/2) * x0 + (4) * y0 + (-21/2) * v1 + (7/4) * x1 + (-25/4) * y1 + (-21/2) * v2 + (-23/4) * x2 + (7/4) * y2 + (7) * n0 + (6) * n1 + (4) * n2 + (1215) * pv0 + (86) * px0 + (80) * py0 + (-1188) * pv1 + (144) * px1 + (138) * py1 + (-33/2) * px2 + (-2451/2) * qv0 + (663/4) * qx0 + (-327/4) * qy0 + (1188) * qv1 + (294) * qx1 + (-138) * qy1 + (-69/2) * qx2 + (-27) * rv0 + (5/2) * rx0 + (7) * ry0 + (-12) * rx1
    · linear_combination (7) * v0 + (-1/3) * x0 + (13/6) * y0 + (-5/2) * v1 + (5/12) * x1 + (-17/12) * y1 + (-9/2) * v2 + (-23/12) * x2 + (17/12) * y2 + (5/3) * n0 + (8/3) * n1 + (2/3) * n2 + (995/2) * pv0 + (106/3) * px0 + (65/2) * py0 + (-486) * pv1 + (59) * px1 + (57) * py1 + (-27/4) * px2 + (-502) * qv0 + (823/12) * qx0 + (-407/12) * qy0 + (486) * qv1 + (118) * qx1 + (-57) * qy1 + (-51/4) * qx2 + (-23/2) * rv0 + (13/12) * rx0 + (3) * ry0 + (-5) * rx1
  have z2 : f 2 = 0 := by
    refine c4 fun i hi => ?_
    interval_cases i
    · linear_combination (1) * v0 + (-1) * pv0
    · linear_combination (1) * x0 + (-1) * px0
    · linear_combination (-3) * v0 + (-1/2) * x0 + (-3/2) * y0 + (3) * v1 + (-1) * x1 + (-1/2) * y1 + (1/2) * x2 + (-2) * n1 + (2) * n2 + (3) * px0 + (-6) * px1 + (3/2) * px2 + (-1/2) * rx0
    · linear_combination (3) * v0 + (-7/6) * x0 + (7/3) * y0 + (-5/2) * v1 + (13/12) * x1 + (5/12) * y1 + (-1/2) * v2 + (-13/12) * x2 + (1/12) * y2 + (1/3) * n0 + (10/3) * n1 + (-8/3) * n2 + (220) * pv0 + (38/3) * px0 + (15) * py0 + (-216) * pv1 + (34) * px1 + (24) * py1 + (-9) * px2 + (-441/2) * qv0 + (365/12) * qx0 + (-181/12) * qy0 + (216) * qv1 + (50) * qx1 + (-24) * qy1 + (-3) * qx2 + (-4) * rv0 + (-1/3) * rx0 + (1) * ry0 + (2) * rx1
    · linear_combination (1) * y0 + (-1) * py0
    · linear_combination (-3) * x0 + (-1) * x2 + (4) * n1 + (3) * px0 + (1) * rx0
    · linear_combination (-3) * v0 + (2) * x0 + (-1/2) * y0 + (3/2) * v1 + (-1/4) * x1 + (9/4) * y1 + (3/2) * v2 + (7/4) * x2 + (-1/4) * y2 + (-1) * n0 + (-4) * n1 + (-2) * n2 + (-555/2) * pv0 + (-24) * px0 + (-35/2) * py0 + (270) * pv1 + (-27) * px1 + (-33) * py1 + (15/4) * px2 + (279) * qv0 + (-151/4) * qx0 + (71/4) * qy0 + (-270) * qv1 + (-66) * qx1 + (33) * qy1 + (15/4) * qx2 + (15/2) * rv0 + (5/4) * rx0 + (-2) * ry0 + (-3) * rx1
    · linear_combination (-3) * v0 + (-2) * y0 + (3) * v2 + (-1) * y2 + (3) * pv0 + (2) * py0 + (-3) * rv0 + (1) * ry0
    · linear_combination (2) * x0 + (2) * x2 + (-4) * n1 + (-2) * px0 + (-2) * rx0
    · linear_combination (2) * v0 + (1) * y0 + (-2) * v2 + (1) * y2 + (-2) * pv0 + (-1) * py0 + (2) * rv0 + (-1) * ry0
  funext i
  fin_cases i
  · exact z0
  · exact z1
  · exact z2

end Verif.Macro
