import Verif.Macro.Hct
/-!
# Creation of Hsieh–Clough–Tocher elements
-/

namespace Verif.Macro
open Verif.References Verif.Elements Verif.FiniteElement Verif.Polysets Verif.Moments Verif.Geometry Verif.Functions
open Verif.Families Verif.Scalar Verif.Smooth
open MvPolynomial

/-! ### The pieces that the functionals see -/

/-- The piece at a vertex. -/
def vpiece : ℕ → Fin 3
  | 2 => 1
  | _ => 0

/-- The piece at an edge. -/
def epiece : ℕ → Fin 3
  | 0 => 1
  | 1 => 2
  | _ => 0

/-- The value and the derivatives at a point vanish. -/
def Flat (p : MvPolynomial ℕ ℝ) (z : ℕ → ℝ) : Prop := eval z p = 0 ∧ eval z (pderiv 0 p) = 0 ∧ eval z (pderiv 1 p) = 0

theorem vertex_piece {n : ℕ} (hn : n < 3) : pieceAt 2 splitCells ((List.range 2).map (refVertex .triangle n)) = some (vpiece n).val := by
  obtain ⟨h0, h1, -⟩ := pieceAt_split (refVertex .triangle n)
  simp only [inCell_zero, inCell_one] at h0 h1
  interval_cases n
  · exact h0 (by norm_num [refVertex, refVerts, coords])
  · exact h0 (by norm_num [refVertex, refVerts, coords])
  · exact h1 (by norm_num [refVertex, refVerts, coords]) (by norm_num [refVertex, refVerts, coords])

theorem edge_coords {i : ℕ} (hi : i < 3) (t : ℕ → ℝ) : (i = 0 ∧ (entityDomain .triangle (1, i)).param t 0 = 1 - t 0 ∧ (entityDomain .triangle (1, i)).param t 1 = t 0) ∨
    (i = 1 ∧ (entityDomain .triangle (1, i)).param t 0 = 0 ∧ (entityDomain .triangle (1, i)).param t 1 = t 0) ∨
    (i = 2 ∧ (entityDomain .triangle (1, i)).param t 0 = t 0 ∧ (entityDomain .triangle (1, i)).param t 1 = 0) := by
  obtain ⟨a, b, h, e⟩ := triangle_edges hi
  rw [e, interval_param]
  rcases h with ⟨rfl, rfl, rfl⟩ | ⟨rfl, rfl, rfl⟩ | ⟨rfl, rfl, rfl⟩
  · left
    refine ⟨rfl, ?_, ?_⟩ <;> simp [entityVerts, refVertex, refVerts, coords]
    ring
  · right; left
    refine ⟨rfl, ?_, ?_⟩ <;> simp [entityVerts, refVertex, refVerts, coords]
  · right; right
    refine ⟨rfl, ?_, ?_⟩ <;> simp [entityVerts, refVertex, refVerts, coords]

theorem edge_piece {i : ℕ} (hi : i < 3) :
    pieceAt 2 splitCells ((List.range 2).map (References.midpoint (entityDomain .triangle (1, i)).cell (entityDomain .triangle (1, i)).v)) =
      some (epiece i).val := by
  rw [edge_mid hi]
  obtain ⟨h0, h1, h2, -⟩ := pieceAt_split ((entityDomain .triangle (1, i)).param (pt [1 / 2]))
  simp only [inCell_zero, inCell_one, inCell_two] at h0 h1 h2
  have hp : pt [1 / 2] 0 = 1 / 2 := by norm_num [pt]
  rcases edge_coords hi (pt [1 / 2]) with ⟨rfl, e0, e1⟩ | ⟨rfl, e0, e1⟩ | ⟨rfl, e0, e1⟩ <;> rw [e0, e1, hp] at h0 h1 h2
  · exact h1 (by norm_num) (by norm_num)
  · exact h2 (by norm_num) (by norm_num) (by norm_num)
  · exact h0 (by norm_num)

theorem hctVertex_eq {n : ℕ} (hn : n < 3) : ∃ l, hctVertex n = some l ∧ l.length = 3 ∧ (∀ d ∈ l, d.entity = (0, n)) ∧
    ∀ f, (∀ d ∈ l, d.eval f = 0) ↔ Flat (f (vpiece n)) (refVertex .triangle n) := by
  have h := fun d => onPiece_of (W := MvPolynomial ℕ ℝ) (n := 3) (vertex_piece hn) (vpiece n).2 d
  refine ⟨_, by rw [hctVertex]; simp only [List.map_cons, List.map_nil, List.mapM_cons, List.mapM_nil, h]; rfl, rfl, ?_, fun f => ?_⟩
  · intro d hd
    simp only [List.mem_cons, List.not_mem_nil, or_false] at hd
    rcases hd with rfl | rfl | rfl <;> rfl
  · simp only [List.mem_cons, List.not_mem_nil, or_false, forall_eq_or_imp, forall_eq]
    rfl

theorem hctEdge_eq {i : ℕ} (hi : i < 3) : ∃ d, hctEdge i = some d ∧ d.entity = (1, i) ∧
    ∀ f, d.eval f = 0 ↔ eval ((entityDomain .triangle (1, i)).param (pt [1 / 2])) (directional 2 (across i) (f (epiece i))) = 0 := by
  obtain ⟨d, h1, h2, h3⟩ := normalDof_zero hi
  have h := onPiece_of (n := 3) (edge_piece hi) (epiece i).2 d
  refine ⟨_, by rw [hctEdge, h1, Option.bind_some, h], h2, fun f => h3 (f (epiece i))⟩

/-- The functionals. -/
theorem hct_dofs : ∃ dofs, hct 3 = ciarlet hctBasis dofs ∧ dofs.length = 12 ∧
    (∀ n < 3, ∀ f, (∀ d ∈ dofs, d.entity = (0, n) → d.eval f = 0) → Flat (f (vpiece n)) (refVertex .triangle n)) ∧
    (∀ i < 3, ∀ f, (∀ d ∈ dofs, d.entity = (1, i) → d.eval f = 0) →
      eval ((entityDomain .triangle (1, i)).param (pt [1 / 2])) (directional 2 (across i) (f (epiece i))) = 0) := by
  obtain ⟨l0, a0, b0, c0, d0⟩ := hctVertex_eq (n := 0) (by norm_num)
  obtain ⟨l1, a1, b1, c1, d1⟩ := hctVertex_eq (n := 1) (by norm_num)
  obtain ⟨l2, a2, b2, c2, d2⟩ := hctVertex_eq (n := 2) (by norm_num)
  obtain ⟨e0, p0, q0, r0⟩ := hctEdge_eq (i := 0) (by norm_num)
  obtain ⟨e1, p1, q1, r1⟩ := hctEdge_eq (i := 1) (by norm_num)
  obtain ⟨e2, p2, q2, r2⟩ := hctEdge_eq (i := 2) (by norm_num)
  refine ⟨[l0, l1, l2].flatten ++ [e0, e1, e2], ?_, by simp [b0, b1, b2], fun n hn f h => ?_, fun i hi f h => ?_⟩
  · rw [hct, if_pos rfl]
    have r : List.range 3 = [0, 1, 2] := rfl
    simp only [r, List.mapM_cons, List.mapM_nil, a0, a1, a2, p0, p1, p2]
    rfl
  · interval_cases n
    · exact (d0 f).1 fun d hd => h d (by simp [hd]) (c0 d hd)
    · exact (d1 f).1 fun d hd => h d (by simp [hd]) (c1 d hd)
    · exact (d2 f).1 fun d hd => h d (by simp [hd]) (c2 d hd)
  · interval_cases i
    · exact (r0 f).1 (h _ (by simp) q0)
    · exact (r1 f).1 (h _ (by simp) q1)
    · exact (r2 f).1 (h _ (by simp) q2)

/-! ### Edges -/

/-- At a vertex every piece that has the vertex is flat. -/
theorem flat_pieces {f : Fin 3 → MvPolynomial ℕ ℝ} (hf : C1Split f) {z : ℕ → ℝ} {i j : Fin 3} (hi : InCell i z) (hj : InCell j z) (h : Flat (f i) z) :
    Flat (f j) z := by
  obtain ⟨h0, h1⟩ := hf.2 i j z hi hj
  exact ⟨h0 ▸ h.1, h1 0 (by norm_num) ▸ h.2.1, h1 1 (by norm_num) ▸ h.2.2⟩

theorem vertex_in {n : ℕ} (hn : n < 3) (j : Fin 3) (h : n ≠ (j.val + 2) % 3) : InCell j (refVertex .triangle n) := by
  fin_cases j <;> interval_cases n <;> simp_all [inCell_zero, inCell_one, inCell_two, refVertex, refVerts, coords]

/-- The functionals of the closure of an edge determine the function and its derivatives on the edge. -/
def C1Macro (S : (Fin 3 → MvPolynomial ℕ ℝ) → Prop) (dofs : List (Dof ℝ (Fin 3 → MvPolynomial ℕ ℝ))) : Prop :=
  ∀ i < 3, ∀ f, S f → (∀ d ∈ dofs, entVerts .triangle d.entity.1 d.entity.2 ⊆ entVerts .triangle 1 i → d.eval f = 0) →
    ∀ t j, InCell j ((entityDomain .triangle (1, i)).param t) → Flat (f j) ((entityDomain .triangle (1, i)).param t)

theorem edge_flat {p : MvPolynomial ℕ ℝ} (hp : p ∈ P 2 3) {i : ℕ} (hi : i < 3) (h : ∀ n ∈ entVerts .triangle 1 i, Flat p (refVertex .triangle n))
    (hm : eval ((entityDomain .triangle (1, i)).param (pt [1 / 2])) (directional 2 (across i) p) = 0) (t : ℕ → ℝ) :
    Flat p ((entityDomain .triangle (1, i)).param t) := by
  obtain ⟨a, a1, a2, a3, -⟩ := cubic hp
  have hpt : pt [1 / 2] 0 = 1 / 2 := by norm_num [pt]
  have hE : entVerts .triangle 1 0 = [1, 2] ∧ entVerts .triangle 1 1 = [0, 2] ∧ entVerts .triangle 1 2 = [0, 1] := ⟨rfl, rfl, rfl⟩
  rw [directional_apply] at hm
  unfold Flat at h ⊢
  simp only [Finset.sum_range_succ, Finset.sum_range_zero, zero_add, map_add, smul_eval, a1, a2, a3] at h hm ⊢
  rcases edge_coords hi t with ⟨rfl, e0, e1⟩ | ⟨rfl, e0, e1⟩ | ⟨rfl, e0, e1⟩ <;> rw [e0, e1] <;>
    rcases edge_coords hi (pt [1 / 2]) with ⟨h', m0, m1⟩ | ⟨h', m0, m1⟩ | ⟨h', m0, m1⟩ <;> first | cases h' | skip
  all_goals
    rw [m0, m1, hpt] at hm
    simp only [hE, List.mem_cons, List.not_mem_nil, or_false, forall_eq_or_imp, forall_eq, refVertex, refVerts, coords, List.getD_cons_zero,
      List.getD_cons_succ, cub, cubx, cuby, across, Nat.one_ne_zero, Nat.zero_ne_one, if_true, if_false] at h hm ⊢
    obtain ⟨⟨v0, x0, y0⟩, v1, x1, y1⟩ := h
    generalize t 0 = t
  · refine ⟨?_, ?_, ?_⟩
    · linear_combination (2 * t ^ 3 - 3 * t ^ 2 + 1) * v0 + (t ^ 3 - 2 * t ^ 2 + t) * (y0 - x0) + (-2 * t ^ 3 + 3 * t ^ 2) * v1 + (t ^ 3 - t ^ 2) * (y1 - x1)
    · linear_combination (1 / 2) * ((1 - t) * (1 - 2 * t) * (x0 + y0) + 4 * t * (1 - t) * hm + t * (2 * t - 1) * (x1 + y1)) -
        (1 / 2) * ((6 * t ^ 2 - 6 * t) * v0 + (3 * t ^ 2 - 4 * t + 1) * (y0 - x0) + (-6 * t ^ 2 + 6 * t) * v1 + (3 * t ^ 2 - 2 * t) * (y1 - x1))
    · linear_combination (1 / 2) * ((1 - t) * (1 - 2 * t) * (x0 + y0) + 4 * t * (1 - t) * hm + t * (2 * t - 1) * (x1 + y1)) +
        (1 / 2) * ((6 * t ^ 2 - 6 * t) * v0 + (3 * t ^ 2 - 4 * t + 1) * (y0 - x0) + (-6 * t ^ 2 + 6 * t) * v1 + (3 * t ^ 2 - 2 * t) * (y1 - x1))
  · refine ⟨?_, ?_, ?_⟩
    · linear_combination (2 * t ^ 3 - 3 * t ^ 2 + 1) * v0 + (t ^ 3 - 2 * t ^ 2 + t) * y0 + (-2 * t ^ 3 + 3 * t ^ 2) * v1 + (t ^ 3 - t ^ 2) * y1
    · linear_combination (1 - t) * (1 - 2 * t) * x0 + 4 * t * (1 - t) * hm + t * (2 * t - 1) * x1
    · linear_combination (6 * t ^ 2 - 6 * t) * v0 + (3 * t ^ 2 - 4 * t + 1) * y0 + (-6 * t ^ 2 + 6 * t) * v1 + (3 * t ^ 2 - 2 * t) * y1
  · refine ⟨?_, ?_, ?_⟩
    · linear_combination (2 * t ^ 3 - 3 * t ^ 2 + 1) * v0 + (t ^ 3 - 2 * t ^ 2 + t) * x0 + (-2 * t ^ 3 + 3 * t ^ 2) * v1 + (t ^ 3 - t ^ 2) * x1
    · linear_combination (6 * t ^ 2 - 6 * t) * v0 + (3 * t ^ 2 - 4 * t + 1) * x0 + (-6 * t ^ 2 + 6 * t) * v1 + (3 * t ^ 2 - 2 * t) * x1
    · linear_combination (1 - t) * (1 - 2 * t) * y0 + 4 * t * (1 - t) * hm + t * (2 * t - 1) * y1

/-- The piece of an edge is flat at its ends. -/
theorem end_flat {f : Fin 3 → MvPolynomial ℕ ℝ} (hf : C1Split f) {i : ℕ} (hi : i < 3)
    (hv : ∀ n ∈ entVerts .triangle 1 i, Flat (f (vpiece n)) (refVertex .triangle n)) :
    ∀ n ∈ entVerts .triangle 1 i, Flat (f (epiece i)) (refVertex .triangle n) := by
  have hE : entVerts .triangle 1 0 = [1, 2] ∧ entVerts .triangle 1 1 = [0, 2] ∧ entVerts .triangle 1 2 = [0, 1] := ⟨rfl, rfl, rfl⟩
  intro n hn
  have h := hv n hn
  have hn3 : n < 3 := by interval_cases i <;> simp [hE] at hn <;> omega
  refine flat_pieces hf (vertex_in hn3 _ ?_) (vertex_in hn3 _ ?_) h
  · interval_cases n <;> decide
  · interval_cases i <;> simp [hE] at hn <;> rcases hn with rfl | rfl <;> decide

/-- The part of an edge that is in a cell is in the cell of the edge. -/
theorem edge_in {i : ℕ} (hi : i < 3) (t : ℕ → ℝ) {j : Fin 3} (hj : InCell j ((entityDomain .triangle (1, i)).param t)) :
    InCell (epiece i) ((entityDomain .triangle (1, i)).param t) := by
  have h3 : InCell j ((entityDomain .triangle (1, i)).param t) → 0 ≤ t 0 ∧ t 0 ≤ 1 := by
    intro h
    rcases edge_coords hi t with ⟨rfl, e0, e1⟩ | ⟨rfl, e0, e1⟩ | ⟨rfl, e0, e1⟩ <;> fin_cases j <;>
      simp only [Fin.zero_eta, Fin.mk_one, Fin.reduceFinMk, inCell_zero, inCell_one, inCell_two, e0, e1] at h <;> constructor <;> linarith
  obtain ⟨t0, t1⟩ := h3 hj
  rcases edge_coords hi t with ⟨rfl, e0, e1⟩ | ⟨rfl, e0, e1⟩ | ⟨rfl, e0, e1⟩
  · exact inCell_one.2 (by rw [e0, e1]; exact ⟨by linarith, by linarith, by linarith⟩)
  · exact inCell_two.2 (by rw [e0, e1]; exact ⟨by linarith, by linarith, by linarith⟩)
  · exact inCell_zero.2 (by rw [e0, e1]; exact ⟨by linarith, by linarith, by linarith⟩)

/-- Flat pieces along the edges, from flat vertices and the derivatives at midpoints. -/
theorem edges_flat {f : Fin 3 → MvPolynomial ℕ ℝ} (hf : C1Split f) {i : ℕ} (hi : i < 3)
    (hv : ∀ n ∈ entVerts .triangle 1 i, Flat (f (vpiece n)) (refVertex .triangle n))
    (hm : eval ((entityDomain .triangle (1, i)).param (pt [1 / 2])) (directional 2 (across i) (f (epiece i))) = 0) (t : ℕ → ℝ) {j : Fin 3}
    (hj : InCell j ((entityDomain .triangle (1, i)).param t)) : Flat (f j) ((entityDomain .triangle (1, i)).param t) := by
  have hv' := end_flat hf hi hv
  have key := edge_flat (hf.1 (epiece i)) hi hv' hm t
  exact flat_pieces hf (edge_in hi t hj) hj key

/-- Flat at the vertices and at the midpoints of the edges. -/
theorem hct_zero' {f : Fin 3 → MvPolynomial ℕ ℝ} (hf : C1Split f) (hv : ∀ n < 3, Flat (f (vpiece n)) (refVertex .triangle n))
    (hm : ∀ i < 3, eval ((entityDomain .triangle (1, i)).param (pt [1 / 2])) (directional 2 (across i) (f (epiece i))) = 0) : f = 0 := by
  have key : ∀ i (hi : i < 3), Flat (f (epiece i)) ((entityDomain .triangle (1, i)).param (pt [1 / 2])) := by
    intro i hi
    have hpt : pt [1 / 2] 0 = 1 / 2 := by norm_num [pt]
    refine edges_flat hf hi (fun n hn => hv n ?_) (hm i hi) _ ?_
    · have hE : entVerts .triangle 1 0 = [1, 2] ∧ entVerts .triangle 1 1 = [0, 2] ∧ entVerts .triangle 1 2 = [0, 1] := ⟨rfl, rfl, rfl⟩
      interval_cases i <;> simp [hE] at hn <;> omega
    · rcases edge_coords hi (pt [1 / 2]) with ⟨rfl, e0, e1⟩ | ⟨rfl, e0, e1⟩ | ⟨rfl, e0, e1⟩ <;> simp only [hpt] at e0 e1
      · exact inCell_one.2 (by rw [e0, e1]; norm_num)
      · exact inCell_two.2 (by rw [e0, e1]; norm_num)
      · exact inCell_zero.2 (by rw [e0, e1]; norm_num)
  have ev : ∀ (j : Fin 3) {z w : ℕ → ℝ}, z 0 = w 0 → z 1 = w 1 → Flat (f j) z → Flat (f j) w := by
    intro j z w h0 h1 h
    obtain ⟨a, a1, a2, a3, -⟩ := cubic (hf.1 j)
    simp only [Flat, a1, a2, a3, h0, h1] at h ⊢
    exact h
  have hpt : pt [1 / 2] 0 = 1 / 2 := by norm_num [pt]
  have m0 := key 0 (by norm_num)
  have m1 := key 1 (by norm_num)
  have m2 := key 2 (by norm_num)
  have c0 := edge_coords (i := 0) (by norm_num) (pt [1 / 2])
  have c1 := edge_coords (i := 1) (by norm_num) (pt [1 / 2])
  have c2 := edge_coords (i := 2) (by norm_num) (pt [1 / 2])
  simp only [hpt, true_and, false_and, or_false, false_or, OfNat.ofNat_ne_zero, OfNat.ofNat_ne_one, OfNat.zero_ne_ofNat, one_ne_zero, zero_ne_one, OfNat.one_ne_ofNat] at c0 c1 c2
  replace m0 := ev 1 (w := coords [1 / 2, 1 / 2]) (by rw [c0.1]; norm_num [coords]) (by rw [c0.2]; norm_num [coords]) m0
  replace m1 := ev 2 (w := coords [0, 1 / 2]) (by rw [c1.1]; norm_num [coords]) (by rw [c1.2]; norm_num [coords]) m1
  replace m2 := ev 0 (w := coords [1 / 2, 0]) (by rw [c2.1]; norm_num [coords]) (by rw [c2.2]; norm_num [coords]) m2
  exact hct_zero hf (hv 0 (by norm_num)) (hv 1 (by norm_num)) (hv 2 (by norm_num)) (by rw [m0.2.1, m0.2.2, add_zero]) m1.2.1 m2.2.2

/-- **C141** Hsieh–Clough–Tocher elements. -/
theorem hct_created : Created (hct 3) C1Split 12 (C1Macro C1Split) := by
  obtain ⟨dofs, h1, h2, h3, h4⟩ := hct_dofs
  have key := created_of_unisolvent (S := c1Sub) (basis := hctBasis) (dofs := dofs) (by rw [h2]; rfl) hct_independent hct_mem
    (fun f hf hz => hct_zero' hf (fun n hn => h3 n hn f fun d hd _ => hz d hd) fun i hi => h4 i hi f fun d hd _ => hz d hd)
  obtain ⟨basis, ds, fs, k1, k2, k3, k4, k5, k6, rfl⟩ := key
  refine ⟨basis, _, fs, h1.trans k1, k2, k3, k4, k5, k6, fun i hi f hf hz t j hj => ?_⟩
  refine edges_flat hf hi (fun n hn => ?_) (h4 i hi f fun d hd he => hz d hd ?_) t hj
  · have hE : entVerts .triangle 1 0 = [1, 2] ∧ entVerts .triangle 1 1 = [0, 2] ∧ entVerts .triangle 1 2 = [0, 1] := ⟨rfl, rfl, rfl⟩
    have hn3 : n < 3 := by interval_cases i <;> simp [hE] at hn <;> omega
    refine h3 n hn3 f fun d hd he => hz d hd ?_
    rw [he]
    have : entVerts .triangle 0 n = [n] := by interval_cases n <;> rfl
    rw [this]
    intro m hm
    rw [List.mem_singleton.1 hm]
    exact hn
  · rw [he]
    exact fun _ h => h

theorem hct_none {k : ℕ} (h : k ≠ 3) : hct k = none := if_neg h

end Verif.Macro
