import Verif.Macro.HctElement
/-!
# Reduced Hsieh–Clough–Tocher elements

symfem/elements/rhct.py. The element exists on the default triangle only.
-/

namespace Verif.Macro
open Verif.References Verif.Elements Verif.FiniteElement Verif.Polysets Verif.Moments Verif.Geometry Verif.Functions
open Verif.Families Verif.Scalar Verif.Smooth
open MvPolynomial

/-! ### Model -/

/-- The pieces of the functions (symfem/elements/rhct.py:52-97). -/
def rhctBasisTerms : List (List (List (ℤ × Mono))) :=
  [[[(1, [0, 0])], [(1, [0, 0])], [(1, [0, 0])]],
   [[(1, [1, 0])], [(1, [1, 0])], [(1, [1, 0])]],
   [[(1, [0, 1])], [(1, [0, 1])], [(1, [0, 1])]],
   [[(1, [2, 0])], [(1, [2, 0])], [(1, [2, 0])]],
   [[(1, [1, 1])], [(1, [1, 1])], [(1, [1, 1])]],
   [[(1, [0, 2])], [(1, [0, 2])], [(1, [0, 2])]],
   [[(1, [3, 0]), (-1, [0, 3])], [(1, [3, 0]), (-1, [0, 3])], [(1, [3, 0]), (-1, [0, 3])]],
   [[(4, [3, 0]), (-3, [1, 2]), (2, [1, 1]), (4, [0, 2])], [(7, [3, 0]), (12, [2, 1]), (-7, [2, 0]), (9, [1, 2]), (-14, [1, 1]), (5, [1, 0]), (4, [0, 1]), (-1, [0, 0])], [(3, [3, 0]), (1, [2, 0]), (-2, [0, 3]), (5, [0, 2])]],
   [[(25, [3, 0]), (-24, [1, 2]), (30, [1, 1]), (-24, [0, 2])], [(35, [3, 0]), (33, [2, 1]), (-21, [2, 0]), (-12, [1, 2]), (12, [1, 0]), (-28, [0, 3]), (-3, [0, 1]), (-1, [0, 0])], [(3, [3, 0]), (21, [2, 1]), (15, [2, 0]), (-23, [0, 3]), (-9, [0, 2])]]]

/-- The functions: `PiecewiseFunction` with the three cells (symfem/elements/rhct.py:99-101). -/
noncomputable def rhctBasis : List (Fin 3 → MvPolynomial ℕ ℝ) := rhctBasisTerms.map fun t i => denotePoly ℝ (t.getD i.val [])

/-- `ReducedHsiehCloughTocher(reference, order)` (symfem/elements/rhct.py:25-103) on the default triangle. The functionals of the vertices
(symfem/elements/rhct.py:38-42) are those of `HsiehCloughTocher`. -/
noncomputable def rhct (k : ℕ) : Option (Element ℝ (Fin 3 → MvPolynomial ℕ ℝ)) :=
  if k = 3 then do
    let vs ← (List.range 3).mapM hctVertex
    ciarlet rhctBasis vs.flatten
  else none

/-! ### Specification -/

/-- A continuously differentiable function with cubic pieces whose derivative across each edge is affine along the edge. -/
def C1Reduced (f : Fin 3 → MvPolynomial ℕ ℝ) : Prop :=
  C1Split f ∧ ∀ i < 3, ∃ a b : ℝ, ∀ t : ℕ → ℝ, eval ((entityDomain .triangle (1, i)).param t) (directional 2 (across i) (f (epiece i))) = a + b * t 0

/-! ### The space -/

/-- The functions form a space. -/
def c1RedSub : Submodule ℝ (Fin 3 → MvPolynomial ℕ ℝ) where
  carrier := {f | C1Reduced f}
  zero_mem' := ⟨c1Sub.zero_mem, fun i _ => ⟨0, 0, fun t => by simp⟩⟩
  add_mem' := by
    rintro f g ⟨f1, f2⟩ ⟨g1, g2⟩
    refine ⟨c1Sub.add_mem f1 g1, fun i hi => ?_⟩
    obtain ⟨a, b, h⟩ := f2 i hi
    obtain ⟨a', b', h'⟩ := g2 i hi
    exact ⟨a + a', b + b', fun t => by rw [Pi.add_apply, map_add, map_add, h, h']; ring⟩
  smul_mem' := by
    rintro c f ⟨f1, f2⟩
    refine ⟨c1Sub.smul_mem c f1, fun i hi => ?_⟩
    obtain ⟨a, b, h⟩ := f2 i hi
    exact ⟨c * a, c * b, fun t => by rw [Pi.smul_apply, map_smul, smul_eval, h]; ring⟩

theorem rhctBasisTerms_deg : ∀ t ∈ rhctBasisTerms, ∀ p ∈ t, ∀ s ∈ p, s.2.length = 2 ∧ (s.2.sum : ℤ) ≤ 3 := by decide

theorem rhct_c1 : ∀ b ∈ rhctBasis, C1Split b := by
  intro b hb
  obtain ⟨t, ht, rfl⟩ := List.mem_map.1 hb
  have hd : ∀ i : Fin 3, denotePoly ℝ (t.getD i.val []) ∈ P 2 3 := fun i => pieces_mem (rhctBasisTerms_deg t ht) i.val
  simp only [rhctBasisTerms, List.mem_cons, List.not_mem_nil, or_false] at ht
  rcases ht with rfl | rfl | rfl | rfl | rfl | rfl | rfl | rfl | rfl
  iterate 7 exact c1_of hd (fun _ _ => ⟨rfl, rfl, rfl⟩) (fun _ _ => ⟨rfl, rfl, rfl⟩) fun _ _ => ⟨rfl, rfl, rfl⟩
  all_goals
    refine c1_of hd (fun z hz => ?_) (fun z hz => ?_) fun z hz => ?_
    all_goals
      refine ⟨?_, ?_, ?_⟩
      all_goals
        simp [denotePoly, denoteMono, monoFrom, Derivation.leibniz_pow, pderiv_num, hz]
        try ring

/-- Evaluates the derivative across edge `i`. -/
local macro "rhct_eval" i:term:max t:ident : tactic => `(tactic| (
  rcases edge_coords (i := $i) (by norm_num) $t with ⟨h, e0, e1⟩ | ⟨h, e0, e1⟩ | ⟨h, e0, e1⟩ <;> first | cases h | skip
  rw [directional_apply]
  simp [Finset.sum_range_succ, across, epiece, smul_eval, denotePoly, denoteMono, monoFrom, Derivation.leibniz_pow, pderiv_num, e0, e1]
  try ring))

theorem rhct_mem : ∀ b ∈ rhctBasis, b ∈ c1RedSub := by
  intro b hb
  refine ⟨rhct_c1 b hb, fun i hi => ?_⟩
  obtain ⟨s, hs, rfl⟩ := List.mem_map.1 hb
  simp only [rhctBasisTerms, List.mem_cons, List.not_mem_nil, or_false] at hs
  rcases hs with rfl | rfl | rfl | rfl | rfl | rfl | rfl | rfl | rfl
  · interval_cases i
    · exact ⟨0, 0, fun t => by rhct_eval 0 t⟩
    · exact ⟨0, 0, fun t => by rhct_eval 1 t⟩
    · exact ⟨0, 0, fun t => by rhct_eval 2 t⟩
  · interval_cases i
    · exact ⟨1, 0, fun t => by rhct_eval 0 t⟩
    · exact ⟨1, 0, fun t => by rhct_eval 1 t⟩
    · exact ⟨0, 0, fun t => by rhct_eval 2 t⟩
  · interval_cases i
    · exact ⟨1, 0, fun t => by rhct_eval 0 t⟩
    · exact ⟨0, 0, fun t => by rhct_eval 1 t⟩
    · exact ⟨1, 0, fun t => by rhct_eval 2 t⟩
  · interval_cases i
    · exact ⟨2, -2, fun t => by rhct_eval 0 t⟩
    · exact ⟨0, 0, fun t => by rhct_eval 1 t⟩
    · exact ⟨0, 0, fun t => by rhct_eval 2 t⟩
  · interval_cases i
    · exact ⟨1, 0, fun t => by rhct_eval 0 t⟩
    · exact ⟨0, 1, fun t => by rhct_eval 1 t⟩
    · exact ⟨0, 1, fun t => by rhct_eval 2 t⟩
  · interval_cases i
    · exact ⟨0, 2, fun t => by rhct_eval 0 t⟩
    · exact ⟨0, 0, fun t => by rhct_eval 1 t⟩
    · exact ⟨0, 0, fun t => by rhct_eval 2 t⟩
  · interval_cases i
    · exact ⟨3, -6, fun t => by rhct_eval 0 t⟩
    · exact ⟨0, 0, fun t => by rhct_eval 1 t⟩
    · exact ⟨0, 0, fun t => by rhct_eval 2 t⟩
  · interval_cases i
    · exact ⟨14, -10, fun t => by rhct_eval 0 t⟩
    · exact ⟨0, 0, fun t => by rhct_eval 1 t⟩
    · exact ⟨0, 2, fun t => by rhct_eval 2 t⟩
  · interval_cases i
    · exact ⟨105, -192, fun t => by rhct_eval 0 t⟩
    · exact ⟨0, 0, fun t => by rhct_eval 1 t⟩
    · exact ⟨0, 30, fun t => by rhct_eval 2 t⟩

theorem rhct_independent : Independent ℝ rhctBasis := by
  rw [list_eq_range rhctBasis]
  refine independent_range _ _ fun a ha => ?_
  have h0 : ∀ x y : ℝ, a 0 * ((1) * (x ^ 0 * y ^ 0)) + a 1 * ((1) * (x ^ 1 * y ^ 0)) + a 2 * ((1) * (x ^ 0 * y ^ 1)) + a 3 * ((1) * (x ^ 2 * y ^ 0)) + a 4 * ((1) * (x ^ 1 * y ^ 1)) + a 5 * ((1) * (x ^ 0 * y ^ 2)) + a 6 * ((1) * (x ^ 3 * y ^ 0) + (-1) * (x ^ 0 * y ^ 3)) + a 7 * ((4) * (x ^ 3 * y ^ 0) + (-3) * (x ^ 1 * y ^ 2) + (2) * (x ^ 1 * y ^ 1) + (4) * (x ^ 0 * y ^ 2)) + a 8 * ((25) * (x ^ 3 * y ^ 0) + (-24) * (x ^ 1 * y ^ 2) + (30) * (x ^ 1 * y ^ 1) + (-24) * (x ^ 0 * y ^ 2)) = 0 := by
    intro x y
    have := congrArg (eval (coords [x, y])) (congrFun ha 0)
    simp [rhctBasis, rhctBasisTerms, Finset.sum_range_succ, denotePoly, denoteMono, monoFrom, coords] at this
    linear_combination this
  have h1 : ∀ x y : ℝ, a 0 * ((1) * (x ^ 0 * y ^ 0)) + a 1 * ((1) * (x ^ 1 * y ^ 0)) + a 2 * ((1) * (x ^ 0 * y ^ 1)) + a 3 * ((1) * (x ^ 2 * y ^ 0)) + a 4 * ((1) * (x ^ 1 * y ^ 1)) + a 5 * ((1) * (x ^ 0 * y ^ 2)) + a 6 * ((1) * (x ^ 3 * y ^ 0) + (-1) * (x ^ 0 * y ^ 3)) + a 7 * ((7) * (x ^ 3 * y ^ 0) + (12) * (x ^ 2 * y ^ 1) + (-7) * (x ^ 2 * y ^ 0) + (9) * (x ^ 1 * y ^ 2) + (-14) * (x ^ 1 * y ^ 1) + (5) * (x ^ 1 * y ^ 0) + (4) * (x ^ 0 * y ^ 1) + (-1) * (x ^ 0 * y ^ 0)) + a 8 * ((35) * (x ^ 3 * y ^ 0) + (33) * (x ^ 2 * y ^ 1) + (-21) * (x ^ 2 * y ^ 0) + (-12) * (x ^ 1 * y ^ 2) + (12) * (x ^ 1 * y ^ 0) + (-28) * (x ^ 0 * y ^ 3) + (-3) * (x ^ 0 * y ^ 1) + (-1) * (x ^ 0 * y ^ 0)) = 0 := by
    intro x y
    have := congrArg (eval (coords [x, y])) (congrFun ha 1)
    simp [rhctBasis, rhctBasisTerms, Finset.sum_range_succ, denotePoly, denoteMono, monoFrom, coords] at this
    linear_combination this
  have h2 : ∀ x y : ℝ, a 0 * ((1) * (x ^ 0 * y ^ 0)) + a 1 * ((1) * (x ^ 1 * y ^ 0)) + a 2 * ((1) * (x ^ 0 * y ^ 1)) + a 3 * ((1) * (x ^ 2 * y ^ 0)) + a 4 * ((1) * (x ^ 1 * y ^ 1)) + a 5 * ((1) * (x ^ 0 * y ^ 2)) + a 6 * ((1) * (x ^ 3 * y ^ 0) + (-1) * (x ^ 0 * y ^ 3)) + a 7 * ((3) * (x ^ 3 * y ^ 0) + (1) * (x ^ 2 * y ^ 0) + (-2) * (x ^ 0 * y ^ 3) + (5) * (x ^ 0 * y ^ 2)) + a 8 * ((3) * (x ^ 3 * y ^ 0) + (21) * (x ^ 2 * y ^ 1) + (15) * (x ^ 2 * y ^ 0) + (-23) * (x ^ 0 * y ^ 3) + (-9) * (x ^ 0 * y ^ 2)) = 0 := by
    intro x y
    have := congrArg (eval (coords [x, y])) (congrFun ha 2)
    simp [rhctBasis, rhctBasisTerms, Finset.sum_range_succ, denotePoly, denoteMono, monoFrom, coords] at this
    linear_combination this
  intro i hi
  have hi' : i < 9 := hi
  interval_cases i
  · linear_combination (1) * (h0 0 0)
  · linear_combination (-11/6) * (h0 0 0) + (3) * (h0 1 0) + (-3/2) * (h0 2 0) + (1/3) * (h0 3 0)
  · linear_combination (-11/6) * (h0 0 0) + (3) * (h0 0 1) + (-3/2) * (h0 0 2) + (1/3) * (h0 0 3)
  · linear_combination (1) * (h0 0 0) + (-5/2) * (h0 1 0) + (2) * (h0 2 0) + (-1/2) * (h0 3 0)
  · linear_combination (-5/6) * (h0 0 0) + (7/3) * (h0 0 1) + (-13/6) * (h0 0 2) + (1/3) * (h0 0 3) + (7/6) * (h0 1 0) + (-4/3) * (h0 1 1) + (7/6) * (h0 1 2) + (-1) * (h0 2 0) + (1/3) * (h0 3 0)
  · linear_combination (25/3) * (h0 0 0) + (-95/6) * (h0 0 1) + (32/3) * (h0 0 2) + (-11/6) * (h0 0 3) + (-26/3) * (h0 1 0) + (28/3) * (h0 1 1) + (-14/3) * (h0 1 2) + (4) * (h0 2 0) + (-4/3) * (h0 3 0)
  · linear_combination (1/6) * (h0 0 0) + (-1/2) * (h0 0 1) + (1/2) * (h0 0 2) + (-1/6) * (h0 0 3)
  · linear_combination (-41/42) * (h0 0 0) + (37/21) * (h0 0 1) + (-7/6) * (h0 0 2) + (4/21) * (h0 0 3) + (7/6) * (h0 1 0) + (-25/21) * (h0 1 1) + (25/42) * (h0 1 2) + (-4/7) * (h0 2 0) + (4/21) * (h0 3 0)
  · linear_combination (1/7) * (h0 0 0) + (-11/42) * (h0 0 1) + (1/6) * (h0 0 2) + (-1/42) * (h0 0 3) + (-1/6) * (h0 1 0) + (4/21) * (h0 1 1) + (-2/21) * (h0 1 2) + (1/14) * (h0 2 0) + (-1/42) * (h0 3 0)

/-! ### Creation -/

/-- The functionals. -/
theorem rhct_dofs : ∃ dofs, rhct 3 = ciarlet rhctBasis dofs ∧ dofs.length = 9 ∧
    (∀ n < 3, ∀ f, (∀ d ∈ dofs, d.entity = (0, n) → d.eval f = 0) → Flat (f (vpiece n)) (refVertex .triangle n)) := by
  obtain ⟨l0, a0, b0, c0, d0⟩ := hctVertex_eq (n := 0) (by norm_num)
  obtain ⟨l1, a1, b1, c1, d1⟩ := hctVertex_eq (n := 1) (by norm_num)
  obtain ⟨l2, a2, b2, c2, d2⟩ := hctVertex_eq (n := 2) (by norm_num)
  refine ⟨[l0, l1, l2].flatten, ?_, by simp [b0, b1, b2], fun n hn f h => ?_⟩
  · rw [rhct, if_pos rfl]
    have r : List.range 3 = [0, 1, 2] := rfl
    simp only [r, List.mapM_cons, List.mapM_nil, a0, a1, a2]
    rfl
  · interval_cases n
    · exact (d0 f).1 fun d hd => h d (by simp [hd]) (c0 d hd)
    · exact (d1 f).1 fun d hd => h d (by simp [hd]) (c1 d hd)
    · exact (d2 f).1 fun d hd => h d (by simp [hd]) (c2 d hd)

/-- Flat at the ends of an edge: the derivative across the edge is 0 at the midpoint. -/
theorem reduced_mid {f : Fin 3 → MvPolynomial ℕ ℝ} (hf : C1Reduced f) {i : ℕ} (hi : i < 3)
    (hv : ∀ n ∈ entVerts .triangle 1 i, Flat (f (vpiece n)) (refVertex .triangle n)) :
    eval ((entityDomain .triangle (1, i)).param (pt [1 / 2])) (directional 2 (across i) (f (epiece i))) = 0 := by
  have hE : entVerts .triangle 1 0 = [1, 2] ∧ entVerts .triangle 1 1 = [0, 2] ∧ entVerts .triangle 1 2 = [0, 1] := ⟨rfl, rfl, rfl⟩
  have hv' := end_flat hf.1 hi hv
  obtain ⟨a, b, h⟩ := hf.2 i hi
  obtain ⟨c, c1, c2, c3, -⟩ := cubic (hf.1.1 (epiece i))
  have h0 := h (pt [0])
  have h1 := h (pt [1])
  rw [h]
  rw [directional_apply] at h0 h1
  unfold Flat at hv'
  simp only [Finset.sum_range_succ, Finset.sum_range_zero, zero_add, map_add, smul_eval, c1, c2, c3] at h0 h1 hv'
  have p0 : pt [0] 0 = 0 := by norm_num [pt]
  have p1 : pt [1] 0 = 1 := by norm_num [pt]
  have p2 : pt [1 / 2] 0 = 1 / 2 := by norm_num [pt]
  rw [p2]
  rcases edge_coords hi (pt [0]) with ⟨rfl, m0, m1⟩ | ⟨rfl, m0, m1⟩ | ⟨rfl, m0, m1⟩ <;>
    rcases edge_coords hi (pt [1]) with ⟨h', e0, e1⟩ | ⟨h', e0, e1⟩ | ⟨h', e0, e1⟩ <;> first | cases h' | skip
  all_goals
    simp only [m0, m1, e0, e1, p0, p1] at h0 h1
    simp only [hE, List.mem_cons, List.not_mem_nil, or_false, forall_eq_or_imp, forall_eq, refVertex, refVerts, coords, List.getD_cons_zero,
      List.getD_cons_succ, cub, cubx, cuby] at hv'
    simp only [cubx, cuby, across, Nat.one_ne_zero, Nat.zero_ne_one, if_true, if_false] at h0 h1
    obtain ⟨⟨-, x0, y0⟩, -, x1, y1⟩ := hv'
  · linear_combination (-1 / 2) * h0 - (1 / 2) * h1 + (1 / 2) * (x0 + y0) + (1 / 2) * (x1 + y1)
  · linear_combination (-1 / 2) * h0 - (1 / 2) * h1 + (1 / 2) * x0 + (1 / 2) * x1
  · linear_combination (-1 / 2) * h0 - (1 / 2) * h1 + (1 / 2) * y0 + (1 / 2) * y1

/-- **C141** Reduced Hsieh–Clough–Tocher elements. -/
theorem rhct_created : Created (rhct 3) C1Reduced 9 (C1Macro C1Reduced) := by
  have hE : entVerts .triangle 1 0 = [1, 2] ∧ entVerts .triangle 1 1 = [0, 2] ∧ entVerts .triangle 1 2 = [0, 1] := ⟨rfl, rfl, rfl⟩
  have h3' : ∀ i < 3, ∀ n ∈ entVerts .triangle 1 i, n < 3 := by
    intro i hi n hn
    interval_cases i <;> simp [hE] at hn <;> omega
  obtain ⟨dofs, h1, h2, h3⟩ := rhct_dofs
  have key := created_of_unisolvent (S := c1RedSub) (basis := rhctBasis) (dofs := dofs) (by rw [h2]; rfl) rhct_independent rhct_mem
    (fun f hf hz => hct_zero' hf.1 (fun n hn => h3 n hn f fun d hd _ => hz d hd) fun i hi => reduced_mid hf hi fun n hn =>
      h3 n (h3' i hi n hn) f fun d hd _ => hz d hd)
  obtain ⟨basis, ds, fs, k1, k2, k3, k4, k5, k6, rfl⟩ := key
  refine ⟨basis, _, fs, h1.trans k1, k2, k3, k4, k5, k6, fun i hi f hf hz t j hj => ?_⟩
  have hv : ∀ n ∈ entVerts .triangle 1 i, Flat (f (vpiece n)) (refVertex .triangle n) := by
    intro n hn
    have hn3 := h3' i hi n hn
    refine h3 n hn3 f fun d hd he => hz d hd ?_
    rw [he]
    have : entVerts .triangle 0 n = [n] := by interval_cases n <;> rfl
    rw [this]
    intro m hm
    rw [List.mem_singleton.1 hm]
    exact hn
  exact edges_flat hf.1 hi hv (reduced_mid hf hi hv) t hj

theorem rhct_none {k : ℕ} (h : k ≠ 3) : rhct k = none := if_neg h

end Verif.Macro
