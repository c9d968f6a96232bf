import Verif.Macro.HctElement
import Verif.Families.Trimmed
/-!
# Alfeld–Sorokina elements

symfem/elements/alfeld_sorokina.py. The element exists on the default triangle only.
-/

namespace Verif.Macro
open Verif.References Verif.Elements Verif.FiniteElement Verif.Polysets Verif.Moments Verif.Geometry Verif.Functions
open Verif.Families Verif.Scalar Verif.Smooth
open MvPolynomial

/-! ### Model -/

/-- The pieces of the functions (symfem/elements/alfeld_sorokina.py:56-121). -/
def asTerms : List (List (List (List (ℤ × Mono)))) :=
  [[[[(1, [0, 0])], []], [[(1, [0, 0])], []], [[(1, [0, 0])], []]],
   [[[(1, [1, 0])], []], [[(1, [1, 0])], []], [[(1, [1, 0])], []]],
   [[[(1, [0, 1])], []], [[(1, [0, 1])], []], [[(1, [0, 1])], []]],
   [[[(1, [2, 0])], []], [[(1, [2, 0])], []], [[(1, [2, 0])], []]],
   [[[(1, [1, 1])], []], [[(1, [1, 1])], []], [[(1, [1, 1])], []]],
   [[[(1, [0, 2])], []], [[(1, [0, 2])], []], [[(1, [0, 2])], []]],
   [[[], [(1, [0, 0])]], [[], [(1, [0, 0])]], [[], [(1, [0, 0])]]],
   [[[], [(1, [1, 0])]], [[], [(1, [1, 0])]], [[], [(1, [1, 0])]]],
   [[[], [(1, [0, 1])]], [[], [(1, [0, 1])]], [[], [(1, [0, 1])]]],
   [[[], [(1, [2, 0])]], [[], [(1, [2, 0])]], [[], [(1, [2, 0])]]],
   [[[], [(1, [1, 1])]], [[], [(1, [1, 1])]], [[], [(1, [1, 1])]]],
   [[[], [(1, [0, 2])]], [[], [(1, [0, 2])]], [[], [(1, [0, 2])]]],
   [[[(4, [1, 0]), (12, [0, 2]), (-4, [0, 1])], [(6, [1, 1]), (-4, [0, 1])]], [[(3, [2, 0]), (2, [1, 0]), (4, [0, 1]), (-1, [0, 0])], [(-3, [2, 0]), (4, [1, 0]), (-2, [0, 1]), (-1, [0, 0])]], [[(3, [2, 0]), (6, [1, 1]), (3, [0, 2])], [(9, [2, 0]), (-4, [1, 0]), (-3, [0, 2])]]],
   [[[(144, [1, 1]), (10, [1, 0]), (12, [0, 2]), (-10, [0, 1])], [(-30, [1, 1]), (36, [0, 2]), (-10, [0, 1])]], [[(-69, [2, 0]), (104, [1, 0]), (46, [0, 1]), (-25, [0, 0])], [(24, [2, 0]), (-26, [1, 0]), (4, [0, 1]), (2, [0, 0])]], [[(39, [2, 0]), (96, [1, 1]), (21, [0, 2])], [(-10, [1, 0]), (6, [0, 2])]]],
   [[[(-14, [1, 0]), (12, [0, 2]), (14, [0, 1])], [(42, [1, 1]), (-108, [0, 2]), (14, [0, 1])]], [[(3, [2, 0]), (-16, [1, 0]), (22, [0, 1]), (-1, [0, 0])], [(24, [2, 0]), (144, [1, 1]), (-50, [1, 0]), (-92, [0, 1]), (26, [0, 0])]], [[(-33, [2, 0]), (24, [1, 1]), (21, [0, 2])], [(14, [1, 0]), (-66, [0, 2])]]]]

/-- The functions: `PiecewiseFunction` with the three cells (symfem/elements/alfeld_sorokina.py:123-124). -/
noncomputable def asBasis : List (Fin 3 → Field 2) := asTerms.map fun t i c => denotePoly ℝ ((t.getD i.val []).getD c.val [])

/-- The functional of a `PointDivergenceEvaluation` (symfem/functionals.py:857-896). -/
noncomputable def divDof {r : ℕ} (d : PointDof) : Dof ℝ (Field r) where
  kind := 8
  entity := d.entity
  mapping := some "identity"
  eval := (aeval d.point).toLinearMap ∘ₗ divL r

/-- The unit vectors. -/
def unitDir (c : Fin 2) : Fin 2 → ℝ := Pi.single c 1

/-- The functionals of vertex `n` (symfem/elements/alfeld_sorokina.py:36-39). -/
noncomputable def asVertex (n : ℕ) : Option (List (Dof ℝ (Fin 3 → Field 2))) :=
  [dotDof ⟨refVertex .triangle n, (0, n)⟩ (unitDir 0), dotDof ⟨refVertex .triangle n, (0, n)⟩ (unitDir 1), divDof ⟨refVertex .triangle n, (0, n)⟩].mapM
    (onPiece 3 2 splitCells (refVertex .triangle n))

/-- `sub_ref.midpoint()`. -/
noncomputable def edgeMid (i : ℕ) : ℕ → ℝ := References.midpoint (entityDomain .triangle (1, i)).cell (entityDomain .triangle (1, i)).v

/-- The functionals of edge `i` (symfem/elements/alfeld_sorokina.py:41-44). -/
noncomputable def asEdge (i : ℕ) : Option (List (Dof ℝ (Fin 3 → Field 2))) :=
  [dotDof ⟨edgeMid i, (1, i)⟩ (unitDir 0), dotDof ⟨edgeMid i, (1, i)⟩ (unitDir 1)].mapM (onPiece 3 2 splitCells (edgeMid i))

/-- `AlfeldSorokina(reference, order)` (symfem/elements/alfeld_sorokina.py:23-126) on the default triangle. -/
noncomputable def alfeldSorokina (k : ℕ) : Option (Element ℝ (Fin 3 → Field 2)) :=
  if k = 2 then do
    let vs ← (List.range 3).mapM asVertex
    let es ← (List.range 3).mapM asEdge
    ciarlet asBasis (vs.flatten ++ es.flatten)
  else none

/-! ### Specification -/

/-- The divergence at a point. -/
noncomputable def divAt (v : Field 2) (z : ℕ → ℝ) : ℝ := eval z (pderiv 0 (v 0)) + eval z (pderiv 1 (v 1))

/-- Quadratic pieces that fit together with their divergences. -/
def DivSplit (f : Fin 3 → Field 2) : Prop :=
  (∀ i c, f i c ∈ P 2 2) ∧ ∀ i j z, InCell i z → InCell j z → (∀ c, eval z (f i c) = eval z (f j c)) ∧ divAt (f i) z = divAt (f j) z

/-- The value and the divergence at a point vanish. -/
def NoDiv (v : Field 2) (z : ℕ → ℝ) : Prop := (∀ c, eval z (v c) = 0) ∧ divAt v z = 0

/-- The functionals of the closure of an edge determine the function and its divergence on the edge. -/
def DivMacro (dofs : List (Dof ℝ (Fin 3 → Field 2))) : Prop :=
  ∀ i < 3, ∀ f, DivSplit f → (∀ d ∈ dofs, entVerts .triangle d.entity.1 d.entity.2 ⊆ entVerts .triangle 1 i → d.eval f = 0) →
    ∀ t j, InCell j ((entityDomain .triangle (1, i)).param t) → NoDiv (f j) ((entityDomain .triangle (1, i)).param t)

/-! ### The space -/

theorem divAt_add (v w : Field 2) (z : ℕ → ℝ) : divAt (v + w) z = divAt v z + divAt w z := by
  simp only [divAt, Pi.add_apply, map_add]
  ring

theorem divAt_smul (a : ℝ) (v : Field 2) (z : ℕ → ℝ) : divAt (a • v) z = a * divAt v z := by
  simp only [divAt, Pi.smul_apply, Derivation.map_smul, smul_eval]
  ring

/-- The functions form a space. -/
def divSub : Submodule ℝ (Fin 3 → Field 2) where
  carrier := {f | DivSplit f}
  zero_mem' := ⟨fun _ _ => Submodule.zero_mem _, fun i j z _ _ => ⟨fun _ => rfl, rfl⟩⟩
  add_mem' := by
    rintro f g ⟨f1, f2⟩ ⟨g1, g2⟩
    refine ⟨fun i c => Submodule.add_mem _ (f1 i c) (g1 i c), fun i j z hi hj => ⟨fun c => ?_, ?_⟩⟩
    · simp [(f2 i j z hi hj).1 c, (g2 i j z hi hj).1 c]
    · rw [Pi.add_apply, Pi.add_apply, divAt_add, divAt_add, (f2 i j z hi hj).2, (g2 i j z hi hj).2]
  smul_mem' := by
    rintro a f ⟨f1, f2⟩
    refine ⟨fun i c => Submodule.smul_mem _ _ (f1 i c), fun i j z hi hj => ⟨fun c => ?_, ?_⟩⟩
    · simp [(f2 i j z hi hj).1 c, smul_eval]
    · rw [Pi.smul_apply, Pi.smul_apply, divAt_smul, divAt_smul, (f2 i j z hi hj).2]

/-- Two pieces agree at a point. -/
def AgreeD (v w : Field 2) (z : ℕ → ℝ) : Prop := (eval z (v 0) = eval z (w 0) ∧ eval z (v 1) = eval z (w 1)) ∧ divAt v z = divAt w z

theorem div_of {f : Fin 3 → Field 2} (h : ∀ i c, f i c ∈ P 2 2) (h01 : ∀ z : ℕ → ℝ, z 0 = 1 - 2 * z 1 → AgreeD (f 0) (f 1) z)
    (h02 : ∀ z : ℕ → ℝ, z 0 = z 1 → AgreeD (f 0) (f 2) z) (h12 : ∀ z : ℕ → ℝ, z 1 = 1 - 2 * z 0 → AgreeD (f 1) (f 2) z) : DivSplit f := by
  refine ⟨h, fun i j z hi hj => ?_⟩
  have sy : ∀ {v w : Field 2}, AgreeD v w z → AgreeD w v z := fun h => ⟨⟨h.1.1.symm, h.1.2.symm⟩, h.2.symm⟩
  have key : AgreeD (f i) (f j) z := by
    fin_cases i <;> fin_cases j
    · exact ⟨⟨rfl, rfl⟩, rfl⟩
    · have a := inCell_zero.1 hi
      have b := inCell_one.1 hj
      exact h01 z (by linarith)
    · have a := inCell_zero.1 hi
      have b := inCell_two.1 hj
      exact h02 z (by linarith)
    · have a := inCell_one.1 hi
      have b := inCell_zero.1 hj
      exact sy (h01 z (by linarith))
    · exact ⟨⟨rfl, rfl⟩, rfl⟩
    · have a := inCell_one.1 hi
      have b := inCell_two.1 hj
      exact h12 z (by linarith)
    · have a := inCell_two.1 hi
      have b := inCell_zero.1 hj
      exact sy (h02 z (by linarith))
    · have a := inCell_two.1 hi
      have b := inCell_one.1 hj
      exact sy (h12 z (by linarith))
    · exact ⟨⟨rfl, rfl⟩, rfl⟩
  exact ⟨Fin.forall_fin_two.2 key.1, key.2⟩

theorem asTerms_deg : ∀ t ∈ asTerms, ∀ q ∈ t, ∀ p ∈ q, ∀ s ∈ p, s.2.length = 2 ∧ (s.2.sum : ℤ) ≤ 2 := by decide

theorem as_mem : ∀ b ∈ asBasis, b ∈ divSub := by
  intro b hb
  obtain ⟨t, ht, rfl⟩ := List.mem_map.1 hb
  have hd : ∀ (i : Fin 3) (c : Fin 2), denotePoly ℝ ((t.getD i.val []).getD c.val []) ∈ P 2 2 := by
    intro i c
    refine pieces_mem ?_ c.val
    by_cases hi : i.val < t.length
    · rw [List.getD_eq_getElem _ _ hi]
      exact asTerms_deg t ht _ (List.getElem_mem hi)
    · rw [List.getD_eq_default _ _ (by omega)]
      simp
  simp only [asTerms, List.mem_cons, List.not_mem_nil, or_false] at ht
  rcases ht with rfl | rfl | rfl | rfl | rfl | rfl | rfl | rfl | rfl | rfl | rfl | rfl | rfl | rfl | rfl
  iterate 12 exact div_of hd (fun _ _ => ⟨⟨rfl, rfl⟩, rfl⟩) (fun _ _ => ⟨⟨rfl, rfl⟩, rfl⟩) fun _ _ => ⟨⟨rfl, rfl⟩, rfl⟩
  all_goals
    refine div_of hd (fun z hz => ?_) (fun z hz => ?_) fun z hz => ?_
    all_goals
      refine ⟨⟨?_, ?_⟩, ?_⟩
      all_goals
        simp [divAt, denotePoly, denoteMono, monoFrom, Derivation.leibniz_pow, pderiv_num, hz]
        try ring

theorem as_independent : Independent ℝ asBasis := by
  rw [list_eq_range asBasis]
  refine independent_range _ _ fun a ha => ?_
  have h00 : ∀ x y : ℝ, a 0 * ((1) * (x ^ 0 * y ^ 0)) + a 1 * ((1) * (x ^ 1 * y ^ 0)) + a 2 * ((1) * (x ^ 0 * y ^ 1)) + a 3 * ((1) * (x ^ 2 * y ^ 0)) + a 4 * ((1) * (x ^ 1 * y ^ 1)) + a 5 * ((1) * (x ^ 0 * y ^ 2)) + a 12 * ((4) * (x ^ 1 * y ^ 0) + (12) * (x ^ 0 * y ^ 2) + (-4) * (x ^ 0 * y ^ 1)) + a 13 * ((144) * (x ^ 1 * y ^ 1) + (10) * (x ^ 1 * y ^ 0) + (12) * (x ^ 0 * y ^ 2) + (-10) * (x ^ 0 * y ^ 1)) + a 14 * ((-14) * (x ^ 1 * y ^ 0) + (12) * (x ^ 0 * y ^ 2) + (14) * (x ^ 0 * y ^ 1)) = 0 := by
    intro x y
    have := congrArg (eval (coords [x, y])) (congrFun (congrFun ha 0) 0)
    simp [asBasis, asTerms, Finset.sum_range_succ, denotePoly, denoteMono, monoFrom, coords] at this
    linear_combination this
  have h01 : ∀ x y : ℝ, a 6 * ((1) * (x ^ 0 * y ^ 0)) + a 7 * ((1) * (x ^ 1 * y ^ 0)) + a 8 * ((1) * (x ^ 0 * y ^ 1)) + a 9 * ((1) * (x ^ 2 * y ^ 0)) + a 10 * ((1) * (x ^ 1 * y ^ 1)) + a 11 * ((1) * (x ^ 0 * y ^ 2)) + a 12 * ((6) * (x ^ 1 * y ^ 1) + (-4) * (x ^ 0 * y ^ 1)) + a 13 * ((-30) * (x ^ 1 * y ^ 1) + (36) * (x ^ 0 * y ^ 2) + (-10) * (x ^ 0 * y ^ 1)) + a 14 * ((42) * (x ^ 1 * y ^ 1) + (-108) * (x ^ 0 * y ^ 2) + (14) * (x ^ 0 * y ^ 1)) = 0 := by
    intro x y
    have := congrArg (eval (coords [x, y])) (congrFun (congrFun ha 0) 1)
    simp [asBasis, asTerms, Finset.sum_range_succ, denotePoly, denoteMono, monoFrom, coords] at this
    linear_combination this
  have h10 : ∀ x y : ℝ, a 0 * ((1) * (x ^ 0 * y ^ 0)) + a 1 * ((1) * (x ^ 1 * y ^ 0)) + a 2 * ((1) * (x ^ 0 * y ^ 1)) + a 3 * ((1) * (x ^ 2 * y ^ 0)) + a 4 * ((1) * (x ^ 1 * y ^ 1)) + a 5 * ((1) * (x ^ 0 * y ^ 2)) + a 12 * ((3) * (x ^ 2 * y ^ 0) + (2) * (x ^ 1 * y ^ 0) + (4) * (x ^ 0 * y ^ 1) + (-1) * (x ^ 0 * y ^ 0)) + a 13 * ((-69) * (x ^ 2 * y ^ 0) + (104) * (x ^ 1 * y ^ 0) + (46) * (x ^ 0 * y ^ 1) + (-25) * (x ^ 0 * y ^ 0)) + a 14 * ((3) * (x ^ 2 * y ^ 0) + (-16) * (x ^ 1 * y ^ 0) + (22) * (x ^ 0 * y ^ 1) + (-1) * (x ^ 0 * y ^ 0)) = 0 := by
    intro x y
    have := congrArg (eval (coords [x, y])) (congrFun (congrFun ha 1) 0)
    simp [asBasis, asTerms, Finset.sum_range_succ, denotePoly, denoteMono, monoFrom, coords] at this
    linear_combination this
  have h11 : ∀ x y : ℝ, a 6 * ((1) * (x ^ 0 * y ^ 0)) + a 7 * ((1) * (x ^ 1 * y ^ 0)) + a 8 * ((1) * (x ^ 0 * y ^ 1)) + a 9 * ((1) * (x ^ 2 * y ^ 0)) + a 10 * ((1) * (x ^ 1 * y ^ 1)) + a 11 * ((1) * (x ^ 0 * y ^ 2)) + a 12 * ((-3) * (x ^ 2 * y ^ 0) + (4) * (x ^ 1 * y ^ 0) + (-2) * (x ^ 0 * y ^ 1) + (-1) * (x ^ 0 * y ^ 0)) + a 13 * ((24) * (x ^ 2 * y ^ 0) + (-26) * (x ^ 1 * y ^ 0) + (4) * (x ^ 0 * y ^ 1) + (2) * (x ^ 0 * y ^ 0)) + a 14 * ((24) * (x ^ 2 * y ^ 0) + (144) * (x ^ 1 * y ^ 1) + (-50) * (x ^ 1 * y ^ 0) + (-92) * (x ^ 0 * y ^ 1) + (26) * (x ^ 0 * y ^ 0)) = 0 := by
    intro x y
    have := congrArg (eval (coords [x, y])) (congrFun (congrFun ha 1) 1)
    simp [asBasis, asTerms, Finset.sum_range_succ, denotePoly, denoteMono, monoFrom, coords] at this
    linear_combination this
  have h20 : ∀ x y : ℝ, a 0 * ((1) * (x ^ 0 * y ^ 0)) + a 1 * ((1) * (x ^ 1 * y ^ 0)) + a 2 * ((1) * (x ^ 0 * y ^ 1)) + a 3 * ((1) * (x ^ 2 * y ^ 0)) + a 4 * ((1) * (x ^ 1 * y ^ 1)) + a 5 * ((1) * (x ^ 0 * y ^ 2)) + a 12 * ((3) * (x ^ 2 * y ^ 0) + (6) * (x ^ 1 * y ^ 1) + (3) * (x ^ 0 * y ^ 2)) + a 13 * ((39) * (x ^ 2 * y ^ 0) + (96) * (x ^ 1 * y ^ 1) + (21) * (x ^ 0 * y ^ 2)) + a 14 * ((-33) * (x ^ 2 * y ^ 0) + (24) * (x ^ 1 * y ^ 1) + (21) * (x ^ 0 * y ^ 2)) = 0 := by
    intro x y
    have := congrArg (eval (coords [x, y])) (congrFun (congrFun ha 2) 0)
    simp [asBasis, asTerms, Finset.sum_range_succ, denotePoly, denoteMono, monoFrom, coords] at this
    linear_combination this
  have h21 : ∀ x y : ℝ, a 6 * ((1) * (x ^ 0 * y ^ 0)) + a 7 * ((1) * (x ^ 1 * y ^ 0)) + a 8 * ((1) * (x ^ 0 * y ^ 1)) + a 9 * ((1) * (x ^ 2 * y ^ 0)) + a 10 * ((1) * (x ^ 1 * y ^ 1)) + a 11 * ((1) * (x ^ 0 * y ^ 2)) + a 12 * ((9) * (x ^ 2 * y ^ 0) + (-4) * (x ^ 1 * y ^ 0) + (-3) * (x ^ 0 * y ^ 2)) + a 13 * ((-10) * (x ^ 1 * y ^ 0) + (6) * (x ^ 0 * y ^ 2)) + a 14 * ((14) * (x ^ 1 * y ^ 0) + (-66) * (x ^ 0 * y ^ 2)) = 0 := by
    intro x y
    have := congrArg (eval (coords [x, y])) (congrFun (congrFun ha 2) 1)
    simp [asBasis, asTerms, Finset.sum_range_succ, denotePoly, denoteMono, monoFrom, coords] at this
    linear_combination this
  intro i hi
  have hi' : i < 15 := hi
  interval_cases i
  · linear_combination (1) * (h00 0 0)
  · linear_combination (-7/3) * (h00 0 0) + (-1/2) * (h00 0 1) + (2) * (h00 1 0) + (-1/2) * (h00 2 0) + (-2/3) * (h01 0 0) + (5/6) * (h10 0 0) + (1/2) * (h10 0 1) + (2/3) * (h11 0 0)
  · linear_combination (-2/3) * (h00 0 0) + (5/2) * (h00 0 1) + (-1/2) * (h00 0 2) + (2/3) * (h01 0 0) + (-5/6) * (h10 0 0) + (-1/2) * (h10 0 1) + (-2/3) * (h11 0 0)
  · linear_combination (1/2) * (h00 0 0) + (-1) * (h00 1 0) + (1/2) * (h00 2 0)
  · linear_combination (-4) * (h00 0 0) + (-1) * (h00 1 0) + (1) * (h00 1 1) + (5) * (h10 0 0) + (-1) * (h10 0 1)
  · linear_combination (-3/2) * (h00 0 0) + (-3) * (h00 0 1) + (1/2) * (h00 0 2) + (2) * (h10 0 0) + (2) * (h10 0 1)
  · linear_combination (1) * (h01 0 0)
  · linear_combination (-3/2) * (h01 0 0) + (2) * (h01 1 0) + (-1/2) * (h01 2 0)
  · linear_combination (5/6) * (h00 0 0) + (1/2) * (h00 0 1) + (-5/6) * (h01 0 0) + (2) * (h01 0 1) + (-1/2) * (h01 0 2) + (-5/6) * (h10 0 0) + (-1/2) * (h10 0 1) + (-2/3) * (h11 0 0)
  · linear_combination (1/2) * (h01 0 0) + (-1) * (h01 1 0) + (1/2) * (h01 2 0)
  · linear_combination (1/6) * (h00 0 0) + (-3/2) * (h00 0 1) + (7/3) * (h01 0 0) + (-1) * (h01 0 1) + (-1) * (h01 1 0) + (1) * (h01 1 1) + (-1/6) * (h10 0 0) + (3/2) * (h10 0 1) + (-4/3) * (h11 0 0)
  · linear_combination (-1) * (h00 0 0) + (1) * (h00 0 1) + (-7/2) * (h01 0 0) + (-1) * (h01 0 1) + (1/2) * (h01 0 2) + (1) * (h10 0 0) + (-1) * (h10 0 1) + (4) * (h11 0 0)
  · linear_combination (7/54) * (h00 0 0) + (1/6) * (h00 0 1) + (1/27) * (h01 0 0) + (-7/54) * (h10 0 0) + (-1/6) * (h10 0 1) + (-1/27) * (h11 0 0)
  · linear_combination (5/144) * (h00 0 0) + (-1/144) * (h00 0 1) + (-5/144) * (h10 0 0) + (1/144) * (h10 0 1)
  · linear_combination (1/432) * (h00 0 0) + (1/144) * (h00 0 1) + (-1/27) * (h01 0 0) + (-1/432) * (h10 0 0) + (-1/144) * (h10 0 1) + (1/27) * (h11 0 0)

/-! ### Unisolvence -/

/-- The value of a quadratic polynomial. -/
def qua (a : ℕ → ℝ) (x y : ℝ) : ℝ := a 0 + a 1 * x + a 2 * x ^ 2 + a 3 * y + a 4 * (x * y) + a 5 * y ^ 2

/-- Its derivatives. -/
def quax (a : ℕ → ℝ) (x y : ℝ) : ℝ := a 1 + 2 * a 2 * x + a 4 * y

/-- Its derivatives. -/
def quay (a : ℕ → ℝ) (x y : ℝ) : ℝ := a 3 + a 4 * x + 2 * a 5 * y

theorem quadratic {p : MvPolynomial ℕ ℝ} (hp : p ∈ P 2 2) : ∃ a : ℕ → ℝ, (∀ z, eval z p = qua a (z 0) (z 1)) ∧
    (∀ z, eval z (pderiv 0 p) = quax a (z 0) (z 1)) ∧ (∀ z, eval z (pderiv 1 p) = quay a (z 0) (z 1)) ∧ ((∀ i < 6, a i = 0) → p = 0) := by
  obtain ⟨a, rfl⟩ := P_two_two hp
  refine ⟨a, fun z => ?_, fun z => ?_, fun z => ?_, fun h => ?_⟩
  · simp [qua]
  · simp [quax, Derivation.leibniz_pow]
    ring
  · simp [quay, Derivation.leibniz_pow]
    ring
  · simp [h]

/-- The only function without values and divergences at the vertices and without values at the midpoints of the edges is 0. -/
theorem as_zero {f : Fin 3 → Field 2} (hf : DivSplit f)
    (w0 : NoDiv (f 0) (coords [0, 0])) (w1 : NoDiv (f 0) (coords [1, 0])) (w2 : NoDiv (f 1) (coords [0, 1]))
    (n0 : ∀ c, eval (coords [1 / 2, 1 / 2]) (f 1 c) = 0) (n1 : ∀ c, eval (coords [0, 1 / 2]) (f 2 c) = 0)
    (n2 : ∀ c, eval (coords [1 / 2, 0]) (f 0 c) = 0) : f = 0 := by
  obtain ⟨hP, hC⟩ := hf
  obtain ⟨a0, a0v, a0x, a0y, a0z⟩ := quadratic (hP 0 0)
  obtain ⟨a1, a1v, a1x, a1y, a1z⟩ := quadratic (hP 0 1)
  obtain ⟨b0, b0v, b0x, b0y, b0z⟩ := quadratic (hP 1 0)
  obtain ⟨b1, b1v, b1x, b1y, b1z⟩ := quadratic (hP 1 1)
  obtain ⟨c0, c0v, c0x, c0y, c0z⟩ := quadratic (hP 2 0)
  obtain ⟨c1, c1v, c1x, c1y, c1z⟩ := quadratic (hP 2 1)
  obtain ⟨w0', d0⟩ := w0
  have v00 := w0' 0
  have v01 := w0' 1
  obtain ⟨w1', d1⟩ := w1
  have v10 := w1' 0
  have v11 := w1' 1
  obtain ⟨w2', d2⟩ := w2
  have v20 := w2' 0
  have v21 := w2' 1
  have e00 := n0 0
  have e01 := n0 1
  have e10 := n1 0
  have e11 := n1 1
  have e20 := n2 0
  have e21 := n2 1
  have g := fun s h0 h1 => on_segment s h0 h1
  obtain ⟨pk0, pd0⟩ := hC 0 2 _ (g 0 (by norm_num) (by norm_num)).1.1 (g 0 (by norm_num) (by norm_num)).1.2
  have p00 := pk0 0
  have p10 := pk0 1
  obtain ⟨pk1, pd1⟩ := hC 0 2 _ (g (1 / 2) (by norm_num) (by norm_num)).1.1 (g (1 / 2) (by norm_num) (by norm_num)).1.2
  have p01 := pk1 0
  have p11 := pk1 1
  obtain ⟨pk2, pd2⟩ := hC 0 2 _ (g 1 (by norm_num) (by norm_num)).1.1 (g 1 (by norm_num) (by norm_num)).1.2
  have p02 := pk2 0
  have p12 := pk2 1
  obtain ⟨qk0, qd0⟩ := hC 0 1 _ (g 0 (by norm_num) (by norm_num)).2.1.1 (g 0 (by norm_num) (by norm_num)).2.1.2
  have q00 := qk0 0
  have q10 := qk0 1
  obtain ⟨qk1, qd1⟩ := hC 0 1 _ (g (1 / 2) (by norm_num) (by norm_num)).2.1.1 (g (1 / 2) (by norm_num) (by norm_num)).2.1.2
  have q01 := qk1 0
  have q11 := qk1 1
  obtain ⟨qk2, qd2⟩ := hC 0 1 _ (g 1 (by norm_num) (by norm_num)).2.1.1 (g 1 (by norm_num) (by norm_num)).2.1.2
  have q02 := qk2 0
  have q12 := qk2 1
  obtain ⟨rk0, rd0⟩ := hC 1 2 _ (g 0 (by norm_num) (by norm_num)).2.2.1 (g 0 (by norm_num) (by norm_num)).2.2.2
  have r00 := rk0 0
  have r10 := rk0 1
  obtain ⟨rk1, rd1⟩ := hC 1 2 _ (g (1 / 2) (by norm_num) (by norm_num)).2.2.1 (g (1 / 2) (by norm_num) (by norm_num)).2.2.2
  have r01 := rk1 0
  have r11 := rk1 1
  obtain ⟨rk2, rd2⟩ := hC 1 2 _ (g 1 (by norm_num) (by norm_num)).2.2.1 (g 1 (by norm_num) (by norm_num)).2.2.2
  have r02 := rk2 0
  have r12 := rk2 1
  clear pk0 pk1 pk2 qk0 qk1 qk2 rk0 rk1 rk2 w0' w1' w2' n0 n1 n2
  simp only [divAt, a0v, a0x, a0y, a1v, a1x, a1y, b0v, b0x, b0y, b1v, b1x, b1y, c0v, c0x, c0y, c1v, c1x, c1y, coords, List.getD_cons_zero, List.getD_cons_succ, qua, quax, quay] at v00 v01 d0 v10 v11 d1 v20 v21 d2 e00 e01 e10 e11 e20 e21 p00 p10 pd0 p01 p11 pd1 p02 p12 pd2 q00 q10 qd0 q01 q11 qd1 q02 q12 qd2 r00 r10 rd0 r01 r11 rd1 r02 r12 rd2
  have z00 : f 0 0 = 0 := by
    refine a0z fun i hi => ?_
    interval_cases i
    · linear_combination (1) * v00
    · linear_combination (-3) * v00 + (-1) * v10 + (4) * e20
    · linear_combination (2) * v00 + (2) * v10 + (-4) * e20
    · linear_combination (3) * v01 + (1) * d0 + (1) * v10 + (-1) * v20 + (1) * v21 + (4) * e10 + (-4) * e11 + (-4) * e20 + (-6) * p00 + (-3) * p10 + (-1) * pd0 + (12) * p01 + (-3) * p02 + (1) * r00 + (-1) * r10
    · linear_combination (3) * v00 + (-1) * v01 + (-1) * d0 + (5) * v10 + (-2) * d1 + (-3) * v21 + (4) * e00 + (8) * e01 + (-4) * e10 + (4) * e11 + (-8) * e20 + (-8) * e21 + (6) * p00 + (3) * p10 + (1) * pd0 + (-12) * p01 + (3) * p02 + (-6) * q00 + (-3) * q10 + (1) * qd0 + (12) * q01 + (12) * q11 + (-3) * q02 + (-3) * q12 + (-1) * r00 + (1) * r10
    · linear_combination (-4) * v00 + (-6) * v01 + (-3/2) * d0 + (-4) * v10 + (1) * d1 + (2) * v20 + (-2) * v21 + (1/2) * d2 + (-2) * e00 + (-4) * e01 + (-2) * e10 + (8) * e11 + (10) * e20 + (4) * e21 + (12) * p00 + (6) * p10 + (5/2) * pd0 + (-26) * p01 + (-4) * p11 + (-2) * pd1 + (12) * p02 + (4) * q00 + (2) * q10 + (-1) * qd0 + (-10) * q01 + (-8) * q11 + (1) * qd1 + (6) * q02 + (6) * q12 + (-2) * r00 + (2) * r10 + (-1/2) * rd0 + (2) * r01 + (4) * r11
  have z01 : f 0 1 = 0 := by
    refine a1z fun i hi => ?_
    interval_cases i
    · linear_combination (1) * v01
    · linear_combination (-3) * v01 + (-1) * v11 + (4) * e21
    · linear_combination (2) * v01 + (2) * v11 + (-4) * e21
    · linear_combination (3) * v00 + (1) * d0 + (1) * v10 + (-4) * e20
    · linear_combination (-4) * v00 + (-1) * d0 + (-4) * v10 + (1) * d1 + (8) * e20
    · linear_combination (-3) * v00 + (-1) * v01 + (-3/2) * d0 + (-1) * v10 + (-1/2) * d1 + (3) * v21 + (-1) * d2 + (4) * e00 + (2) * e01 + (-4) * e10 + (-2) * e11 + (4) * e20 + (-2) * e21 + (-2) * p00 + (-1) * p10 + (-1/2) * pd0 + (4) * p01 + (2) * p11 + (1) * pd1 + (-3) * p02 + (2) * q00 + (1) * q10 + (-1/2) * qd0 + (-4) * q01 + (-2) * q11 + (1) * qd1 + (3) * q02 + (3) * q12 + (1) * r00 + (-1) * r10 + (1/2) * rd0 + (-4) * r01 + (-2) * r11
  have z10 : f 1 0 = 0 := by
    refine b0z fun i hi => ?_
    interval_cases i
    · linear_combination (2) * v00 + (1) * v01 + (1/2) * d0 + (-3) * v10 + (1) * d1 + (3) * v21 + (-1/2) * d2 + (2) * e00 + (-4) * e01 + (-2) * e10 + (-4) * e11 + (2) * e20 + (4) * e21 + (-2) * p00 + (-1) * p10 + (1/2) * pd0 + (-2) * p01 + (-4) * p11 + (-2) * pd1 + (9) * p02 + (1) * q00 + (2) * q10 + (-1) * qd0 + (2) * q01 + (-8) * q11 + (1) * qd1 + (-9) * q02 + (6) * q12 + (3) * r00 + (-3) * r10 + (1/2) * rd0 + (-10) * r01 + (4) * r11
    · linear_combination (-3) * v00 + (-1) * d0 + (11) * v10 + (-4) * d1 + (-8) * v21 + (1) * d2 + (-4) * e00 + (16) * e01 + (4) * e10 + (8) * e11 + (-8) * e20 + (-16) * e21 + (4) * p00 + (2) * p10 + (-1) * pd0 + (4) * p01 + (8) * p11 + (4) * pd1 + (-18) * p02 + (-4) * q00 + (-7) * q10 + (3) * qd0 + (-4) * q01 + (28) * q11 + (-2) * qd1 + (18) * q02 + (-15) * q12 + (-6) * r00 + (6) * r10 + (-1) * rd0 + (20) * r01 + (-8) * r11
    · linear_combination (1) * v00 + (-1) * v01 + (1/2) * d0 + (-7) * v10 + (3) * d1 + (5) * v21 + (-1/2) * d2 + (2) * e00 + (-12) * e01 + (-2) * e10 + (-4) * e11 + (6) * e20 + (12) * e21 + (-2) * p00 + (-1) * p10 + (1/2) * pd0 + (-2) * p01 + (-4) * p11 + (-2) * pd1 + (9) * p02 + (2) * q00 + (5) * q10 + (-2) * qd0 + (2) * q01 + (-20) * q11 + (1) * qd1 + (-9) * q02 + (9) * q12 + (3) * r00 + (-3) * r10 + (1/2) * rd0 + (-10) * r01 + (4) * r11
    · linear_combination (-6) * v00 + (-3) * v01 + (-1) * d0 + (7) * v10 + (-2) * d1 + (-1) * v20 + (-9) * v21 + (2) * d2 + (-8) * e00 + (8) * e01 + (12) * e10 + (12) * e11 + (-4) * e20 + (-8) * e21 + (6) * p00 + (3) * p10 + (-1) * pd0 + (4) * p01 + (8) * p11 + (4) * pd1 + (-21) * p02 + (-3) * q00 + (-4) * q10 + (2) * qd0 + (-4) * q01 + (16) * q11 + (-2) * qd1 + (21) * q02 + (-12) * q12 + (-9) * r00 + (9) * r10 + (-2) * rd0 + (32) * r01 + (-8) * r11
    · linear_combination (5) * v00 + (1) * v01 + (1) * d0 + (-13) * v10 + (4) * d1 + (11) * v21 + (-2) * d2 + (12) * e00 + (-16) * e01 + (-12) * e10 + (-12) * e11 + (8) * e20 + (16) * e21 + (-6) * p00 + (-3) * p10 + (1) * pd0 + (-4) * p01 + (-8) * p11 + (-4) * pd1 + (21) * p02 + (6) * q00 + (7) * q10 + (-3) * qd0 + (4) * q01 + (-28) * q11 + (2) * qd1 + (-21) * q02 + (15) * q12 + (9) * r00 + (-9) * r10 + (2) * rd0 + (-32) * r01 + (8) * r11
    · linear_combination (4) * v00 + (2) * v01 + (1/2) * d0 + (-4) * v10 + (1) * d1 + (2) * v20 + (6) * v21 + (-3/2) * d2 + (6) * e00 + (-4) * e01 + (-10) * e10 + (-8) * e11 + (2) * e20 + (4) * e21 + (-4) * p00 + (-2) * p10 + (1/2) * pd0 + (-2) * p01 + (-4) * p11 + (-2) * pd1 + (12) * p02 + (2) * q00 + (2) * q10 + (-1) * qd0 + (2) * q01 + (-8) * q11 + (1) * qd1 + (-12) * q02 + (6) * q12 + (6) * r00 + (-6) * r10 + (3/2) * rd0 + (-22) * r01 + (4) * r11
  have z11 : f 1 1 = 0 := by
    refine b1z fun i hi => ?_
    interval_cases i
    · linear_combination (1) * v00 + (2) * v01 + (1/2) * d0 + (3) * v10 + (-1/2) * d1 + (-3) * v21 + (1) * d2 + (-4) * e00 + (2) * e01 + (4) * e10 + (2) * e11 + (-4) * e20 + (-2) * e21 + (-1/2) * pd0 + (4) * p01 + (2) * p11 + (1) * pd1 + (-6) * p02 + (-3) * q10 + (-1/2) * qd0 + (-4) * q01 + (10) * q11 + (1) * qd1 + (6) * q02 + (-9) * q12 + (-2) * r00 + (2) * r10 + (-1/2) * rd0 + (8) * r01 + (-2) * r11
    · linear_combination (-3) * v00 + (-6) * v01 + (-1) * d0 + (-9) * v10 + (-1) * v11 + (2) * d1 + (7) * v21 + (-2) * d2 + (8) * e00 + (-8) * e01 + (-8) * e10 + (-4) * e11 + (12) * e20 + (12) * e21 + (1) * pd0 + (-8) * p01 + (-4) * p11 + (-2) * pd1 + (12) * p02 + (10) * q10 + (1) * qd0 + (8) * q01 + (-32) * q11 + (-2) * qd1 + (-12) * q02 + (21) * q12 + (4) * r00 + (-4) * r10 + (1) * rd0 + (-16) * r01 + (4) * r11
    · linear_combination (2) * v00 + (4) * v01 + (1/2) * d0 + (6) * v10 + (2) * v11 + (-3/2) * d1 + (-4) * v21 + (1) * d2 + (-4) * e00 + (6) * e01 + (4) * e10 + (2) * e11 + (-8) * e20 + (-10) * e21 + (-1/2) * pd0 + (4) * p01 + (2) * p11 + (1) * pd1 + (-6) * p02 + (-8) * q10 + (-1/2) * qd0 + (-4) * q01 + (22) * q11 + (1) * qd1 + (6) * q02 + (-12) * q12 + (-2) * r00 + (2) * r10 + (-1/2) * rd0 + (8) * r01 + (-2) * r11
    · linear_combination (-3) * v01 + (-1) * d0 + (-8) * v10 + (1) * d1 + (11) * v21 + (-4) * d2 + (16) * e00 + (-4) * e01 + (-16) * e10 + (-8) * e11 + (8) * e20 + (4) * e21 + (-2) * p00 + (-1) * p10 + (1) * pd0 + (-8) * p01 + (-4) * p11 + (-2) * pd1 + (15) * p02 + (2) * q00 + (6) * q10 + (1) * qd0 + (8) * q01 + (-20) * q11 + (-2) * qd1 + (-15) * q02 + (18) * q12 + (7) * r00 + (-7) * r10 + (2) * rd0 + (-28) * r01 + (4) * r11
    · linear_combination (1) * v00 + (5) * v01 + (1) * d0 + (11) * v10 + (-2) * d1 + (-13) * v21 + (4) * d2 + (-16) * e00 + (12) * e01 + (16) * e10 + (8) * e11 + (-12) * e20 + (-12) * e21 + (2) * p00 + (1) * p10 + (-1) * pd0 + (8) * p01 + (4) * p11 + (2) * pd1 + (-15) * p02 + (-2) * q00 + (-9) * q10 + (-1) * qd0 + (-8) * q01 + (32) * q11 + (2) * qd1 + (15) * q02 + (-21) * q12 + (-7) * r00 + (7) * r10 + (-2) * rd0 + (28) * r01 + (-4) * r11
    · linear_combination (-1) * v00 + (1) * v01 + (1/2) * d0 + (5) * v10 + (-1/2) * d1 + (-7) * v21 + (3) * d2 + (-12) * e00 + (2) * e01 + (12) * e10 + (6) * e11 + (-4) * e20 + (-2) * e21 + (2) * p00 + (1) * p10 + (-1/2) * pd0 + (4) * p01 + (2) * p11 + (1) * pd1 + (-9) * p02 + (-2) * q00 + (-3) * q10 + (-1/2) * qd0 + (-4) * q01 + (10) * q11 + (1) * qd1 + (9) * q02 + (-9) * q12 + (-5) * r00 + (5) * r10 + (-3/2) * rd0 + (20) * r01 + (-2) * r11
  have z20 : f 2 0 = 0 := by
    refine c0z fun i hi => ?_
    interval_cases i
    · linear_combination (1) * v00 + (-1) * p00
    · linear_combination (3) * v01 + (1) * d0 + (1) * v21 + (-4) * e11 + (-3) * p10 + (-1) * pd0 + (-1) * r10
    · linear_combination (-1) * v00 + (-3) * v01 + (-3/2) * d0 + (3) * v10 + (-1) * d1 + (-1) * v21 + (-1/2) * d2 + (2) * e00 + (4) * e01 + (-2) * e10 + (4) * e11 + (-2) * e20 + (-4) * e21 + (2) * p00 + (5) * p10 + (5/2) * pd0 + (-2) * p01 + (-4) * p11 + (-2) * pd1 + (-3) * p02 + (-2) * q00 + (-1) * q10 + (2) * q01 + (4) * q11 + (1) * qd1 + (3) * q02 + (3) * q12 + (-1) * r00 + (-1) * r10 + (1/2) * rd0 + (2) * r01 + (4) * r11
    · linear_combination (-3) * v00 + (-1) * v20 + (4) * e10 + (3) * p00 + (1) * r00
    · linear_combination (-4) * v01 + (-1) * d0 + (-4) * v21 + (1) * d2 + (8) * e11 + (4) * p10 + (1) * pd0 + (4) * r10 + (-1) * rd0
    · linear_combination (2) * v00 + (2) * v20 + (-4) * e10 + (-2) * p00 + (-2) * r00
  have z21 : f 2 1 = 0 := by
    refine c1z fun i hi => ?_
    interval_cases i
    · linear_combination (1) * v01 + (-1) * p10
    · linear_combination (3) * v00 + (1) * d0 + (1) * v10 + (-1) * v11 + (1) * v21 + (-4) * e11 + (-4) * e20 + (4) * e21 + (6) * p10 + (-12) * p11 + (3) * p12 + (-1) * r10
    · linear_combination (-6) * v00 + (-4) * v01 + (-3/2) * d0 + (-2) * v10 + (2) * v11 + (1/2) * d1 + (-4) * v21 + (1) * d2 + (-4) * e00 + (-2) * e01 + (4) * e10 + (10) * e11 + (8) * e20 + (-2) * e21 + (-8) * p10 + (-1/2) * pd0 + (4) * p01 + (26) * p11 + (1) * pd1 + (-6) * p02 + (-18) * p12 + (-1/2) * qd0 + (-4) * q01 + (-2) * q11 + (1) * qd1 + (6) * q02 + (6) * q12 + (-2) * r00 + (-1/2) * rd0 + (8) * r01 + (10) * r11
    · linear_combination (-3) * v01 + (-1) * v21 + (4) * e11 + (3) * p10 + (1) * r10
    · linear_combination (-1) * v00 + (3) * v01 + (-1) * d0 + (-3) * v10 + (5) * v21 + (-2) * d2 + (8) * e00 + (4) * e01 + (-8) * e10 + (-8) * e11 + (4) * e20 + (-4) * e21 + (-2) * p00 + (-9) * p10 + (12) * p11 + (3) * p02 + (2) * q00 + (1) * q10 + (-3) * q02 + (-3) * q12 + (3) * r00 + (1) * r10 + (1) * rd0 + (-12) * r01 + (-12) * r11
    · linear_combination (2) * v01 + (2) * v21 + (-4) * e11 + (-2) * p10 + (-2) * r10
  funext i c
  fin_cases i <;> fin_cases c
  · exact z00
  · exact z01
  · exact z10
  · exact z11
  · exact z20
  · exact z21

end Verif.Macro
