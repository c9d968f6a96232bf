import Verif.Macro.P1Macro
import Verif.Families.QSub
/-!
# P1-iso-P2 elements
-/

namespace Verif.Macro
open Verif.References Verif.Elements Verif.FiniteElement Verif.Polysets Verif.Moments Verif.Geometry Verif.Functions
open Verif.Families Verif.Scalar Verif.Functionals Verif.Smooth
open MvPolynomial

/-! ### Model -/

/-- The points and entities of the functionals: the vertices and the midpoints of the edges
(symfem/elements/p1_iso_p2.py:43-47, 113-118). -/
noncomputable def isoNodes (t : Cell) : List ((ℕ → ℝ) × (ℕ × ℕ)) :=
  (List.range t.nverts).map (fun n => (refVertex t n, ((0, n) : ℕ × ℕ))) ++
    (List.range ((t.subEntityCount 1).getD 0)).map fun i =>
      (References.midpoint (entityDomain t (1, i)).cell (entityDomain t (1, i)).v, ((1, i) : ℕ × ℕ))

/-- `CiarletElement.__init__` with one `PointEvaluation` for each point (symfem/finite_element.py:593-623). -/
noncomputable def nodalElement {d m n : ℕ} (c : Fin n → Fin m → Fin d → ℝ) (nodes : List ((ℕ → ℝ) × (ℕ × ℕ))) (basis : List (Fin n → MvPolynomial ℕ ℝ)) :
    Option (Element ℝ (Fin n → MvPolynomial ℕ ℝ)) := do
  let dofs ← nodes.mapM fun p => nodalDof c p.1 p.2
  ciarlet basis dofs

/-- The cells of the interval (symfem/elements/p1_iso_p2.py:33-39). -/
noncomputable def halves : Fin 2 → Fin 2 → Fin 1 → ℝ
  | 0 => ![![0], ![1 / 2]]
  | 1 => ![![1 / 2], ![1]]

/-- The functions on the default interval, where `x` is the coordinate (symfem/elements/p1_iso_p2.py:37-41). -/
def isoInterval : List (List (List (ℤ × Mono))) :=
  [[[(1, [0]), (-2, [1])], []], [[(2, [1])], [(2, [0]), (-2, [1])]], [[], [(2, [1]), (-1, [0])]]]

/-- The cells of the triangle (symfem/elements/p1_iso_p2.py:86-91). -/
noncomputable def quarters : Fin 4 → Fin 3 → Fin 2 → ℝ
  | 0 => ![![0, 0], ![1 / 2, 0], ![0, 1 / 2]]
  | 1 => ![![1, 0], ![1 / 2, 1 / 2], ![1 / 2, 0]]
  | 2 => ![![0, 1], ![0, 1 / 2], ![1 / 2, 1 / 2]]
  | 3 => ![![0, 1 / 2], ![1 / 2, 1 / 2], ![1 / 2, 0]]

/-- The functions on the default triangle, with `c = 1 - x - y` (symfem/elements/p1_iso_p2.py:93-112). -/
def isoTriangle : List (List (List (ℤ × Mono))) :=
  [[[(1, [0, 0]), (-2, [1, 0]), (-2, [0, 1])], [], [], []],
   [[], [(2, [1, 0]), (-1, [0, 0])], [], []],
   [[], [], [(2, [0, 1]), (-1, [0, 0])], []],
   [[(2, [1, 0])], [(2, [0, 0]), (-2, [1, 0]), (-2, [0, 1])], [], [(1, [0, 0]), (-2, [0, 1])]],
   [[(2, [0, 1])], [], [(2, [0, 0]), (-2, [1, 0]), (-2, [0, 1])], [(1, [0, 0]), (-2, [1, 0])]],
   [[], [(2, [0, 1])], [(2, [1, 0])], [(-1, [0, 0]), (2, [1, 0]), (2, [0, 1])]]]

/-- The cells of the quadrilateral (symfem/elements/p1_iso_p2.py:165-170). -/
noncomputable def squares : Fin 4 → Fin 4 → Fin 2 → ℝ
  | 0 => ![![0, 0], ![1 / 2, 0], ![0, 1 / 2], ![1 / 2, 1 / 2]]
  | 1 => ![![1 / 2, 0], ![1, 0], ![1 / 2, 1 / 2], ![1, 1 / 2]]
  | 2 => ![![0, 1 / 2], ![1 / 2, 1 / 2], ![0, 1], ![1 / 2, 1]]
  | 3 => ![![1 / 2, 1 / 2], ![1, 1 / 2], ![1 / 2, 1], ![1, 1]]

/-- The functions on the default quadrilateral (symfem/elements/p1_iso_p2.py:172-195). -/
def isoQuadrilateral : List (List (List (ℤ × Mono))) :=
  [[[(1, [0, 0]), (-2, [1, 0]), (-2, [0, 1]), (4, [1, 1])], [], [], []],
   [[], [(2, [1, 0]), (-4, [1, 1]), (-1, [0, 0]), (2, [0, 1])], [], []],
   [[], [], [(2, [0, 1]), (-1, [0, 0]), (-4, [1, 1]), (2, [1, 0])], []],
   [[], [], [], [(4, [1, 1]), (-2, [1, 0]), (-2, [0, 1]), (1, [0, 0])]],
   [[(2, [1, 0]), (-4, [1, 1])], [(2, [0, 0]), (-4, [0, 1]), (-2, [1, 0]), (4, [1, 1])], [], []],
   [[(2, [0, 1]), (-4, [1, 1])], [], [(2, [0, 0]), (-2, [0, 1]), (-4, [1, 0]), (4, [1, 1])], []],
   [[], [(4, [1, 1]), (-2, [0, 1])], [], [(4, [1, 0]), (-4, [1, 1]), (-2, [0, 0]), (2, [0, 1])]],
   [[], [], [(4, [1, 1]), (-2, [1, 0])], [(4, [0, 1]), (-2, [0, 0]), (-4, [1, 1]), (2, [1, 0])]],
   [[(4, [1, 1])], [(4, [0, 1]), (-4, [1, 1])], [(4, [1, 0]), (-4, [1, 1])], [(4, [0, 0]), (-4, [1, 0]), (-4, [0, 1]), (4, [1, 1])]]]

/-- `P1IsoP2Interval(reference, order)`; `create_element` accepts order 1 (symfem/elements/p1_iso_p2.py:25-49, 68-70). -/
noncomputable def p1IsoP2Interval (k : ℕ) : Option (Element ℝ (Fin 2 → MvPolynomial ℕ ℝ)) :=
  if k = 1 then nodalElement halves (isoNodes .interval) (isoInterval.map (ofTerms 2)) else none

/-- `P1IsoP2Tri(reference, order)`; `create_element` accepts order 1 (symfem/elements/p1_iso_p2.py:76-120, 142-148). -/
noncomputable def p1IsoP2Triangle (k : ℕ) : Option (Element ℝ (Fin 4 → MvPolynomial ℕ ℝ)) :=
  if k = 1 then nodalElement quarters (isoNodes .triangle) (isoTriangle.map (ofTerms 4)) else none

/-- `P1IsoP2Quad(reference, order)`, with a functional at the midpoint; `create_element` accepts order 1
(symfem/elements/p1_iso_p2.py:155-205, 225-231). -/
noncomputable def p1IsoP2Quadrilateral (k : ℕ) : Option (Element ℝ (Fin 4 → MvPolynomial ℕ ℝ)) :=
  if k = 1 then nodalElement squares (isoNodes .quadrilateral ++ [(References.midpoint .quadrilateral (refVertex .quadrilateral), (2, 0))])
    (isoQuadrilateral.map (ofTerms 4)) else none

/-! ### Elements with values at points -/

section
variable {d m n : ℕ} {c : Fin n → Fin m → Fin d → ℝ} (hd : d = 1 ∨ d = 2 ∨ d = 3) (hc : ∀ i, Proper d (c i)) {nodes : List ((ℕ → ℝ) × (ℕ × ℕ))}
  (hn : ∀ p ∈ nodes, ∃ j, Inside (c j) p.1)
include hd hc hn

/-- The functionals. -/
theorem nodes_dofs : ∃ dofs : List (Dof ℝ (Fin n → MvPolynomial ℕ ℝ)), nodes.mapM (fun p => nodalDof c p.1 p.2) = some dofs ∧
    dofs.length = nodes.length ∧ ∀ p ∈ nodes, ∃ D ∈ dofs, D.entity = p.2 ∧
      ∀ S f, Continuous0 S c f → ∀ i, Inside (c i) p.1 → D.eval f = eval p.1 (f i) := by
  induction nodes with
  | nil => exact ⟨[], rfl, rfl, fun p hp => absurd hp (by simp)⟩
  | cons p l ih =>
    obtain ⟨dofs, h1, h2, h3⟩ := ih fun q hq => hn q (by simp [hq])
    obtain ⟨j, hj⟩ := hn p (by simp)
    obtain ⟨D, a1, a2, a3⟩ := nodalDof_eq hd hc p.1 p.2 hj
    refine ⟨D :: dofs, by rw [List.mapM_cons, a1, h1]; rfl, by simp [h2], fun q hq => ?_⟩
    rcases List.mem_cons.1 hq with rfl | hq
    · exact ⟨D, by simp, a2, a3⟩
    · obtain ⟨D', b1, b2⟩ := h3 q hq
      exact ⟨D', by simp [b1], b2⟩

theorem nodal_created {S : Submodule ℝ (MvPolynomial ℕ ℝ)} {t : Cell} {basis : List (Fin n → MvPolynomial ℕ ℝ)} (hl : nodes.length = basis.length)
    (hi : Independent ℝ basis) (hb : ∀ b ∈ basis, b ∈ c0Sub S c)
    (hu : ∀ f, Continuous0 S c f → (∀ p ∈ nodes, ∀ i, Inside (c i) p.1 → eval p.1 (f i) = 0) → f = 0)
    (hf : ∀ i < (t.subEntityCount (t.tdim - 1)).getD 0, ∀ f, Continuous0 S c f →
      (∀ p ∈ nodes, entVerts t p.2.1 p.2.2 ⊆ entVerts t (t.tdim - 1) i → ∀ j, Inside (c j) p.1 → eval p.1 (f j) = 0) →
      ∀ z j, Inside (c j) ((entityDomain t (t.tdim - 1, i)).param z) → eval ((entityDomain t (t.tdim - 1, i)).param z) (f j) = 0) :
    Created (nodalElement c nodes basis) (Continuous0 S c) basis.length (C0Macro t c (Continuous0 S c)) := by
  obtain ⟨dofs, h1, h2, h3⟩ := nodes_dofs hd hc hn
  have key := created_of_unisolvent (S := c0Sub S c) (basis := basis) (dofs := dofs) (h2.trans hl) hi hb fun f hf' hz => hu f hf' fun p hp i hi => by
    obtain ⟨D, d1, -, d3⟩ := h3 p hp
    rw [← d3 S f hf' i hi]
    exact hz D d1
  obtain ⟨basis', ds, fs, k1, k2, k3, k4, k5, k6, rfl⟩ := key
  refine ⟨basis', _, fs, ?_, k2, k3, k4, k5, k6, fun i hi f hf' hz => hf i hi f hf' fun p hp hs j hj => ?_⟩
  · rw [nodalElement, h1]
    exact k1
  · obtain ⟨D, d1, d2, d3⟩ := h3 p hp
    rw [← d3 S f hf' j hj]
    exact hz D d1 (by rw [d2]; exact hs)

end

theorem inside_le {m : ℕ} {v : Fin m → Fin 2 → ℝ} {z : ℕ → ℝ} (hz : Inside v z) (a b c : ℝ) (h : ∀ k, 0 ≤ a + b * v k 0 + c * v k 1) :
    0 ≤ a + b * z 0 + c * z 1 := by
  obtain ⟨l, l1, l2, l3⟩ := hz
  have e0 := l3 0
  have e1 := l3 1
  simp only [Fin.val_zero, Fin.val_one] at e0 e1
  have hsum : ∑ k, l k * (a + b * v k 0 + c * v k 1) = a + b * z 0 + c * z 1 := by
    rw [e0, e1]
    simp only [mul_add, Finset.sum_add_distrib]
    rw [← Finset.sum_mul, l2, Finset.mul_sum, Finset.mul_sum]
    congr 1
    · congr 1
      · ring
      · exact Finset.sum_congr rfl fun _ _ => by ring
    · exact Finset.sum_congr rfl fun _ _ => by ring
  rw [← hsum]
  exact Finset.sum_nonneg fun k _ => mul_nonneg (l1 k) (h k)

theorem affine_eval {p : MvPolynomial ℕ ℝ} (hp : p ∈ P 2 1) {z w : ℕ → ℝ} (h0 : z 0 = w 0) (h1 : z 1 = w 1) : eval z p = eval w p := by
  obtain ⟨a, b, c, rfl⟩ := P_one hp
  simp [h0, h1]

theorem fin4_two (h : 2 < 4) : (⟨2, h⟩ : Fin 4) = 2 := rfl

theorem fin4_three (h : 3 < 4) : (⟨3, h⟩ : Fin 4) = 3 := rfl

/-! ### Triangles -/

theorem quarters_rows : (quarters 0 0 = ![0, 0] ∧ quarters 0 1 = ![1 / 2, 0] ∧ quarters 0 2 = ![0, 1 / 2]) ∧
    (quarters 1 0 = ![1, 0] ∧ quarters 1 1 = ![1 / 2, 1 / 2] ∧ quarters 1 2 = ![1 / 2, 0]) ∧
    (quarters 2 0 = ![0, 1] ∧ quarters 2 1 = ![0, 1 / 2] ∧ quarters 2 2 = ![1 / 2, 1 / 2]) ∧
    quarters 3 0 = ![0, 1 / 2] ∧ quarters 3 1 = ![1 / 2, 1 / 2] ∧ quarters 3 2 = ![1 / 2, 0] :=
  ⟨⟨rfl, rfl, rfl⟩, ⟨rfl, rfl, rfl⟩, ⟨rfl, rfl, rfl⟩, rfl, rfl, rfl⟩

theorem quarters_area (i : Fin 4) : area2 (quarters i 0) (quarters i 1) (quarters i 2) ≠ 0 := by
  revert i
  rw [Fin.forall_fin_succ, Fin.forall_fin_succ, Fin.forall_fin_two]
  refine ⟨?_, ?_, ?_, ?_⟩
  · rw [show quarters 0 0 = ![0, 0] from rfl, show quarters 0 1 = ![1 / 2, 0] from rfl, show quarters 0 2 = ![0, 1 / 2] from rfl]
    norm_num [area2]
  · show area2 (![1, 0] : Fin 2 → ℝ) ![1 / 2, 1 / 2] ![1 / 2, 0] ≠ 0
    norm_num [area2]
  · show area2 (![0, 1] : Fin 2 → ℝ) ![0, 1 / 2] ![1 / 2, 1 / 2] ≠ 0
    norm_num [area2]
  · show area2 (![0, 1 / 2] : Fin 2 → ℝ) ![1 / 2, 1 / 2] ![1 / 2, 0] ≠ 0
    norm_num [area2]

theorem quarters_proper (i : Fin 4) : Proper 2 (quarters i) := by
  have h := quarters_area i
  fin_cases i
  all_goals exact .triangle _ _ _ h

theorem quarters_in {z : ℕ → ℝ} : (Inside (quarters 0) z → z 0 + z 1 ≤ 1 / 2 ∧ 0 ≤ z 0 ∧ 0 ≤ z 1) ∧ (Inside (quarters 1) z → 1 / 2 ≤ z 0 ∧ 0 ≤ z 1 ∧ z 0 + z 1 ≤ 1) ∧
    (Inside (quarters 2) z → 1 / 2 ≤ z 1 ∧ 0 ≤ z 0 ∧ z 0 + z 1 ≤ 1) ∧ (Inside (quarters 3) z → z 0 ≤ 1 / 2 ∧ z 1 ≤ 1 / 2 ∧ 1 / 2 ≤ z 0 + z 1) := by
  refine ⟨fun h => ?_, fun h => ?_, fun h => ?_, fun h => ?_⟩
  · have a := inside_le h (1 / 2) (-1) (-1) fun k => by fin_cases k <;> norm_num [quarters_rows, fin_two]
    have b := inside_le h 0 1 0 fun k => by fin_cases k <;> norm_num [quarters_rows, fin_two]
    have c := inside_le h 0 0 1 fun k => by fin_cases k <;> norm_num [quarters_rows, fin_two]
    exact ⟨by linarith, by linarith, by linarith⟩
  · have a := inside_le h (-1 / 2) 1 0 fun k => by fin_cases k <;> norm_num [quarters_rows, fin_two]
    have b := inside_le h 0 0 1 fun k => by fin_cases k <;> norm_num [quarters_rows, fin_two]
    have c := inside_le h 1 (-1) (-1) fun k => by fin_cases k <;> norm_num [quarters_rows, fin_two]
    exact ⟨by linarith, by linarith, by linarith⟩
  · have a := inside_le h (-1 / 2) 0 1 fun k => by fin_cases k <;> norm_num [quarters_rows, fin_two]
    have b := inside_le h 0 1 0 fun k => by fin_cases k <;> norm_num [quarters_rows, fin_two]
    have c := inside_le h 1 (-1) (-1) fun k => by fin_cases k <;> norm_num [quarters_rows, fin_two]
    exact ⟨by linarith, by linarith, by linarith⟩
  · have a := inside_le h (1 / 2) (-1) 0 fun k => by fin_cases k <;> norm_num [quarters_rows, fin_two]
    have b := inside_le h (1 / 2) 0 (-1) fun k => by fin_cases k <;> norm_num [quarters_rows, fin_two]
    have c := inside_le h (-1 / 2) 1 1 fun k => by fin_cases k <;> norm_num [quarters_rows, fin_two]
    exact ⟨by linarith, by linarith, by linarith⟩

theorem quarters_continuous {f : Fin 4 → MvPolynomial ℕ ℝ} (h : ∀ i, f i ∈ P 2 1) (h0 : ∀ z : ℕ → ℝ, z 1 = 1 / 2 - z 0 → eval z (f 0) = eval z (f 3))
    (h1 : ∀ z : ℕ → ℝ, z 0 = 1 / 2 → eval z (f 1) = eval z (f 3)) (h2 : ∀ z : ℕ → ℝ, z 1 = 1 / 2 → eval z (f 2) = eval z (f 3)) :
    Continuous0 (P 2 1) quarters f := by
  refine ⟨h, ?_⟩
  have key : ∀ z : ℕ → ℝ, ∀ i j, i < j → Inside (quarters i) z → Inside (quarters j) z → eval z (f i) = eval z (f j) := by
    intro z i j hij hi hj
    obtain ⟨q0, q1, q2, q3⟩ := quarters_in (z := z)
    fin_cases i <;> fin_cases j <;> first | (exfalso; revert hij; decide) | skip
    · have a := q0 hi
      have b := q1 hj
      exact (h0 z (by linarith)).trans (h1 z (by linarith)).symm
    · have a := q0 hi
      have b := q2 hj
      exact (h0 z (by linarith)).trans (h2 z (by linarith)).symm
    · have a := q0 hi
      have b := q3 hj
      exact h0 z (by linarith)
    · have a := q1 hi
      have b := q2 hj
      exact (h1 z (by linarith)).trans (h2 z (by linarith)).symm
    · have a := q1 hi
      have b := q3 hj
      exact h1 z (by linarith)
    · have a := q2 hi
      have b := q3 hj
      exact h2 z (by linarith)
  intro i j z hi hj
  rcases lt_trichotomy i j with h | rfl | h
  · exact key z i j h hi hj
  · rfl
  · exact (key z j i h hj hi).symm

theorem isoTriangle_mem : ∀ b ∈ isoTriangle.map (ofTerms 4), b ∈ c0Sub (P 2 1) quarters := by
  intro b hb
  obtain ⟨t, ht, rfl⟩ := List.mem_map.1 hb
  have hd : ∀ t ∈ isoTriangle, ∀ i : Fin 4, ∀ s ∈ t.getD i.val [], s.2.length = 2 ∧ (s.2.sum : ℤ) ≤ 1 := by decide
  have hm := fun i => denotePoly_mem (hd t ht i)
  simp only [isoTriangle, List.mem_cons, List.not_mem_nil, or_false] at ht
  rcases ht with rfl | rfl | rfl | rfl | rfl | rfl
  all_goals
    refine quarters_continuous hm (fun z hz => ?_) (fun z hz => ?_) fun z hz => ?_
    all_goals
      simp [ofTerms, denotePoly, denoteMono, monoFrom, hz]
      try ring

theorem isoTriangle_independent : Independent ℝ (isoTriangle.map (ofTerms 4)) := by
  rw [list_eq_range (isoTriangle.map (ofTerms 4))]
  refine independent_range _ _ fun a ha => ?_
  have h : ∀ (i : Fin 4) (x y : ℝ), eval (coords [x, y]) ((∑ i ∈ Finset.range (isoTriangle.map (ofTerms 4)).length, a i • (isoTriangle.map (ofTerms 4)).getD i 0) i) = 0 := by
    intro i x y
    rw [ha]
    simp
  have h00 := h 0 0 0
  have h10 := h 1 1 0
  have h20 := h 2 0 1
  have h01 := h 0 (1 / 2) 0
  have h02 := h 0 0 (1 / 2)
  have h12 := h 1 (1 / 2) (1 / 2)
  simp [isoTriangle, ofTerms, Finset.sum_range_succ, denotePoly, denoteMono, monoFrom, coords] at h00 h10 h20 h01 h02 h12
  intro i hi
  have hi' : i < 6 := hi
  interval_cases i <;> linarith

theorem mid_coords (a b c d : ℝ) : (fun j => (coords [a, b] j + coords [c, d] j) / 2) = coords [(a + c) / 2, (b + d) / 2] := by
  funext j
  match j with
  | 0 => rfl
  | 1 => rfl
  | j + 2 => simp [coords]

theorem interval_mid (V : ℕ → ℕ → ℝ) : References.midpoint .interval V = fun j => (V 0 j + V 1 j) / 2 := by
  funext j
  simp [References.midpoint, Cell.nverts, Finset.sum_range_succ]

/-- The points of the functionals. -/
theorem triangle_nodes : isoNodes .triangle = [(coords [0, 0], (0, 0)), (coords [1, 0], (0, 1)), (coords [0, 1], (0, 2)),
    (coords [1 / 2, 1 / 2], (1, 0)), (coords [0, 1 / 2], (1, 1)), (coords [1 / 2, 0], (1, 2))] := by
  have m0 : References.midpoint (entityDomain .triangle (1, 0)).cell (entityDomain .triangle (1, 0)).v = coords [1 / 2, 1 / 2] :=
    (interval_mid _).trans ((mid_coords 1 0 0 1).trans (by norm_num))
  have m1 : References.midpoint (entityDomain .triangle (1, 1)).cell (entityDomain .triangle (1, 1)).v = coords [0, 1 / 2] :=
    (interval_mid _).trans ((mid_coords 0 0 0 1).trans (by norm_num))
  have m2 : References.midpoint (entityDomain .triangle (1, 2)).cell (entityDomain .triangle (1, 2)).v = coords [1 / 2, 0] :=
    (interval_mid _).trans ((mid_coords 0 0 1 0).trans (by norm_num))
  show [(refVertex .triangle 0, (0, 0)), (refVertex .triangle 1, (0, 1)), (refVertex .triangle 2, (0, 2)), (_, (1, 0)), (_, (1, 1)), (_, (1, 2))] = _
  rw [m0, m1, m2]
  rfl

/-- Each corner is a point of a functional. -/
theorem quarters_node (i : Fin 4) (k : Fin 3) : ∃ p ∈ isoNodes .triangle, p.1 = coords [quarters i k 0, quarters i k 1] ∧ Inside (quarters i) p.1 ∧
    ∀ e < 3, (e = 0 → quarters i k 0 + quarters i k 1 = 1) → (e = 1 → quarters i k 0 = 0) → (e = 2 → quarters i k 1 = 0) →
      entVerts .triangle p.2.1 p.2.2 ⊆ entVerts .triangle 1 e := by
  have hE : entVerts .triangle 1 0 = [1, 2] ∧ entVerts .triangle 1 1 = [0, 2] ∧ entVerts .triangle 1 2 = [0, 1] := ⟨rfl, rfl, rfl⟩
  have hV : entVerts .triangle 0 0 = [0] ∧ entVerts .triangle 0 1 = [1] ∧ entVerts .triangle 0 2 = [2] := ⟨rfl, rfl, rfl⟩
  have key : ∀ p ∈ isoNodes .triangle, p.1 = coords [quarters i k 0, quarters i k 1] → Inside (quarters i) p.1 := by
    rintro p - hp
    refine inside_corner _ k fun j => ?_
    rw [hp]
    fin_cases j <;> rfl
  suffices h : ∃ p ∈ isoNodes .triangle, p.1 = coords [quarters i k 0, quarters i k 1] ∧
      ∀ e < 3, (e = 0 → quarters i k 0 + quarters i k 1 = 1) → (e = 1 → quarters i k 0 = 0) → (e = 2 → quarters i k 1 = 0) →
      entVerts .triangle p.2.1 p.2.2 ⊆ entVerts .triangle 1 e by
    obtain ⟨p, h1, h2, h3⟩ := h
    exact ⟨p, h1, h2, key p h1 h2, h3⟩
  clear key
  have mem : (coords [0, 0], ((0, 0) : ℕ × ℕ)) ∈ isoNodes .triangle ∧ (coords [1, 0], ((0, 1) : ℕ × ℕ)) ∈ isoNodes .triangle ∧
      (coords [0, 1], ((0, 2) : ℕ × ℕ)) ∈ isoNodes .triangle ∧ (coords [1 / 2, 1 / 2], ((1, 0) : ℕ × ℕ)) ∈ isoNodes .triangle ∧
      (coords [0, 1 / 2], ((1, 1) : ℕ × ℕ)) ∈ isoNodes .triangle ∧ (coords [1 / 2, 0], ((1, 2) : ℕ × ℕ)) ∈ isoNodes .triangle := by
    rw [triangle_nodes]
    simp
  obtain ⟨n0, n1, n2, n3, n4, n5⟩ := mem
  fin_cases i <;> fin_cases k
  · refine ⟨_, n0, rfl, fun e he a b c => ?_⟩
    interval_cases e
    all_goals
      first
        | (simp [hE, hV]; done)
        | (exfalso; have q := a rfl; norm_num [quarters_rows, fin_two, fin4_two, fin4_three] at q; done)
        | (exfalso; have q := b rfl; norm_num [quarters_rows, fin_two, fin4_two, fin4_three] at q; done)
        | (exfalso; have q := c rfl; norm_num [quarters_rows, fin_two, fin4_two, fin4_three] at q; done)
  · refine ⟨_, n5, rfl, fun e he a b c => ?_⟩
    interval_cases e
    all_goals
      first
        | (simp [hE, hV]; done)
        | (exfalso; have q := a rfl; norm_num [quarters_rows, fin_two, fin4_two, fin4_three] at q; done)
        | (exfalso; have q := b rfl; norm_num [quarters_rows, fin_two, fin4_two, fin4_three] at q; done)
        | (exfalso; have q := c rfl; norm_num [quarters_rows, fin_two, fin4_two, fin4_three] at q; done)
  · refine ⟨_, n4, rfl, fun e he a b c => ?_⟩
    interval_cases e
    all_goals
      first
        | (simp [hE, hV]; done)
        | (exfalso; have q := a rfl; norm_num [quarters_rows, fin_two, fin4_two, fin4_three] at q; done)
        | (exfalso; have q := b rfl; norm_num [quarters_rows, fin_two, fin4_two, fin4_three] at q; done)
        | (exfalso; have q := c rfl; norm_num [quarters_rows, fin_two, fin4_two, fin4_three] at q; done)
  · refine ⟨_, n1, rfl, fun e he a b c => ?_⟩
    interval_cases e
    all_goals
      first
        | (simp [hE, hV]; done)
        | (exfalso; have q := a rfl; norm_num [quarters_rows, fin_two, fin4_two, fin4_three] at q; done)
        | (exfalso; have q := b rfl; norm_num [quarters_rows, fin_two, fin4_two, fin4_three] at q; done)
        | (exfalso; have q := c rfl; norm_num [quarters_rows, fin_two, fin4_two, fin4_three] at q; done)
  · refine ⟨_, n3, rfl, fun e he a b c => ?_⟩
    interval_cases e
    all_goals
      first
        | (simp [hE, hV]; done)
        | (exfalso; have q := a rfl; norm_num [quarters_rows, fin_two, fin4_two, fin4_three] at q; done)
        | (exfalso; have q := b rfl; norm_num [quarters_rows, fin_two, fin4_two, fin4_three] at q; done)
        | (exfalso; have q := c rfl; norm_num [quarters_rows, fin_two, fin4_two, fin4_three] at q; done)
  · refine ⟨_, n5, rfl, fun e he a b c => ?_⟩
    interval_cases e
    all_goals
      first
        | (simp [hE, hV]; done)
        | (exfalso; have q := a rfl; norm_num [quarters_rows, fin_two, fin4_two, fin4_three] at q; done)
        | (exfalso; have q := b rfl; norm_num [quarters_rows, fin_two, fin4_two, fin4_three] at q; done)
        | (exfalso; have q := c rfl; norm_num [quarters_rows, fin_two, fin4_two, fin4_three] at q; done)
  · refine ⟨_, n2, rfl, fun e he a b c => ?_⟩
    interval_cases e
    all_goals
      first
        | (simp [hE, hV]; done)
        | (exfalso; have q := a rfl; norm_num [quarters_rows, fin_two, fin4_two, fin4_three] at q; done)
        | (exfalso; have q := b rfl; norm_num [quarters_rows, fin_two, fin4_two, fin4_three] at q; done)
        | (exfalso; have q := c rfl; norm_num [quarters_rows, fin_two, fin4_two, fin4_three] at q; done)
  · refine ⟨_, n4, rfl, fun e he a b c => ?_⟩
    interval_cases e
    all_goals
      first
        | (simp [hE, hV]; done)
        | (exfalso; have q := a rfl; norm_num [quarters_rows, fin_two, fin4_two, fin4_three] at q; done)
        | (exfalso; have q := b rfl; norm_num [quarters_rows, fin_two, fin4_two, fin4_three] at q; done)
        | (exfalso; have q := c rfl; norm_num [quarters_rows, fin_two, fin4_two, fin4_three] at q; done)
  · refine ⟨_, n3, rfl, fun e he a b c => ?_⟩
    interval_cases e
    all_goals
      first
        | (simp [hE, hV]; done)
        | (exfalso; have q := a rfl; norm_num [quarters_rows, fin_two, fin4_two, fin4_three] at q; done)
        | (exfalso; have q := b rfl; norm_num [quarters_rows, fin_two, fin4_two, fin4_three] at q; done)
        | (exfalso; have q := c rfl; norm_num [quarters_rows, fin_two, fin4_two, fin4_three] at q; done)
  · refine ⟨_, n4, rfl, fun e he a b c => ?_⟩
    interval_cases e
    all_goals
      first
        | (simp [hE, hV]; done)
        | (exfalso; have q := a rfl; norm_num [quarters_rows, fin_two, fin4_two, fin4_three] at q; done)
        | (exfalso; have q := b rfl; norm_num [quarters_rows, fin_two, fin4_two, fin4_three] at q; done)
        | (exfalso; have q := c rfl; norm_num [quarters_rows, fin_two, fin4_two, fin4_three] at q; done)
  · refine ⟨_, n3, rfl, fun e he a b c => ?_⟩
    interval_cases e
    all_goals
      first
        | (simp [hE, hV]; done)
        | (exfalso; have q := a rfl; norm_num [quarters_rows, fin_two, fin4_two, fin4_three] at q; done)
        | (exfalso; have q := b rfl; norm_num [quarters_rows, fin_two, fin4_two, fin4_three] at q; done)
        | (exfalso; have q := c rfl; norm_num [quarters_rows, fin_two, fin4_two, fin4_three] at q; done)
  · refine ⟨_, n5, rfl, fun e he a b c => ?_⟩
    interval_cases e
    all_goals
      first
        | (simp [hE, hV]; done)
        | (exfalso; have q := a rfl; norm_num [quarters_rows, fin_two, fin4_two, fin4_three] at q; done)
        | (exfalso; have q := b rfl; norm_num [quarters_rows, fin_two, fin4_two, fin4_three] at q; done)
        | (exfalso; have q := c rfl; norm_num [quarters_rows, fin_two, fin4_two, fin4_three] at q; done)

/-- **C145** P1-iso-P2 elements on triangles. -/
theorem p1IsoP2Triangle_created : Created (p1IsoP2Triangle 1) (Continuous0 (P 2 1) quarters) 6 (C0Macro .triangle quarters (Continuous0 (P 2 1) quarters)) := by
  rw [p1IsoP2Triangle, if_pos rfl]
  refine nodal_created (by simp) quarters_proper ?_ (by rw [triangle_nodes]; rfl) isoTriangle_independent isoTriangle_mem ?_ ?_
  · rw [triangle_nodes]
    simp only [List.mem_cons, List.not_mem_nil, or_false, forall_eq_or_imp, forall_eq]
    refine ⟨⟨0, inside_corner _ 0 ?_⟩, ⟨1, inside_corner _ 0 ?_⟩, ⟨2, inside_corner _ 0 ?_⟩, ⟨3, inside_corner _ 1 ?_⟩, ⟨3, inside_corner _ 0 ?_⟩, ⟨0, inside_corner _ 1 ?_⟩⟩
    all_goals
      intro j
      fin_cases j <;> rfl
  · intro f hf hz
    funext i
    refine affine_zero (hf.1 i) (quarters_area i) fun k => ?_
    obtain ⟨p, h1, h2, h3, -⟩ := quarters_node i k
    rw [← h2]
    exact hz p h1 i h3
  · intro e he f hf hz t j hj
    have he3 : e < 3 := he
    simp only [show (Cell.triangle.tdim - 1) = 1 from rfl] at hz hj ⊢
    rcases edge_coords he3 t with ⟨rfl, c0, c1⟩ | ⟨rfl, c0, c1⟩ | ⟨rfl, c0, c1⟩
    · refine side_zero (hf.1 j) (a := 1) (b := -1) (c := -1) (v := quarters j) ?_ ?_ hj (by rw [c0, c1]; ring)
      · intro k
        fin_cases j <;> fin_cases k <;> norm_num [quarters_rows, fin_two, fin4_two, fin4_three]
      · intro k hk
        obtain ⟨p, h1, h2, h3, h4⟩ := quarters_node j k
        rw [← h2]
        exact hz p h1 (h4 0 (by norm_num) (fun _ => by linarith) (by norm_num) (by norm_num)) j h3
    · refine side_zero (hf.1 j) (a := 0) (b := 1) (c := 0) (v := quarters j) ?_ ?_ hj (by rw [c0, c1]; ring)
      · intro k
        fin_cases j <;> fin_cases k <;> norm_num [quarters_rows, fin_two, fin4_two, fin4_three]
      · intro k hk
        obtain ⟨p, h1, h2, h3, h4⟩ := quarters_node j k
        rw [← h2]
        exact hz p h1 (h4 1 (by norm_num) (by norm_num) (fun _ => by linarith) (by norm_num)) j h3
    · refine side_zero (hf.1 j) (a := 0) (b := 0) (c := 1) (v := quarters j) ?_ ?_ hj (by rw [c0, c1]; ring)
      · intro k
        fin_cases j <;> fin_cases k <;> norm_num [quarters_rows, fin_two, fin4_two, fin4_three]
      · intro k hk
        obtain ⟨p, h1, h2, h3, h4⟩ := quarters_node j k
        rw [← h2]
        exact hz p h1 (h4 2 (by norm_num) (by norm_num) (by norm_num) (fun _ => by linarith)) j h3

end Verif.Macro
