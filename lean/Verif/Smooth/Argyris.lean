import Verif.Smooth.Edge
import Verif.Smooth.Taylor
import Verif.References.Shape
/-!
# Argyris and Morley elements

symfem/elements/argyris.py and symfem/elements/morley.py. Both elements exist on the default triangle only.
-/

namespace Verif.Smooth
open Verif.References Verif.Moments Verif.Functionals Verif.Elements Verif.FiniteElement Verif.Polysets Verif.Orthogonal
open Verif.Families Verif.Scalar
open MvPolynomial

/-! ### Model -/

/-- `PointNormalDerivativeEvaluation(reference, sub_ref.midpoint(), sub_ref, entity=(1, i))` for edge `i` of the default triangle
(symfem/functionals.py:565-587): the derivative in the direction `edge.normal()`. -/
noncomputable def normalDof (i : ℕ) : Option (Dof ℝ (MvPolynomial ℕ ℝ)) :=
  (normal (entityDomain .triangle (1, i)).cell 2 (entityDomain .triangle (1, i)).v).map fun n =>
    directionalDof 2 (References.midpoint (entityDomain .triangle (1, i)).cell (entityDomain .triangle (1, i)).v) n (1, i)

/-- The functionals of vertex `n` (symfem/elements/argyris.py:37-50). -/
noncomputable def argyrisVertex (n : ℕ) : List (Dof ℝ (MvPolynomial ℕ ℝ)) :=
  PointDof.functional ⟨refVertex .triangle n, (0, n)⟩ ::
    ((List.range 2).map fun i => directionalDof 2 (refVertex .triangle n) (fun j => if i = j then 1 else 0) (0, n)) ++
    (List.range 2).flatMap fun i => (List.range (i + 1)).map fun j => secondDof (refVertex .triangle n) i j (0, n)

/-- `Argyris(reference, order)` (symfem/elements/argyris.py:26-64) on the default triangle. -/
noncomputable def argyris (k : ℕ) : Option (Element ℝ (MvPolynomial ℕ ℝ)) :=
  if k = 5 then do
    let normals ← (List.range 3).mapM normalDof
    let p ← polySet 2 5
    ciarlet (p.map (denoteMono ℝ)) ((List.range 3).flatMap argyrisVertex ++ normals)
  else none

/-- `Morley(reference, order)` (symfem/elements/morley.py:20-48) on the default triangle. -/
noncomputable def morley (k : ℕ) : Option (Element ℝ (MvPolynomial ℕ ℝ)) :=
  if k = 2 then do
    let normals ← (List.range 3).mapM normalDof
    let p ← polySet 2 2
    ciarlet (p.map (denoteMono ℝ)) ((List.range 3).map (fun n => PointDof.functional ⟨refVertex .triangle n, (0, n)⟩) ++ normals)
  else none

/-! ### Specification -/

/-- The values and the first derivatives on an edge are determined by the functionals of the closure of the edge. -/
def C1Trace (c : Cell) (v : ℕ → ℕ → ℝ) (S : MvPolynomial ℕ ℝ → Prop) (dofs : List (Dof ℝ (MvPolynomial ℕ ℝ))) : Prop :=
  ∀ dim ≤ c.tdim, ∀ i < entityCount c dim, ∀ f, S f →
    (∀ d ∈ dofs, entVerts c d.entity.1 d.entity.2 ⊆ entVerts c dim i → d.eval f = 0) →
    ∀ z, eval ((physDomain c v (dim, i)).param z) f = 0 ∧ ∀ j < c.tdim, eval ((physDomain c v (dim, i)).param z) (pderiv j f) = 0

/-- The mean of the derivatives across an edge. -/
def MidNormal (f : MvPolynomial ℕ ℝ) (i : ℕ) : Prop :=
  ∀ n : ℕ → ℝ, (∀ z w, ∑ j ∈ Finset.range 2, n j * ((entityDomain .triangle (1, i)).param z j - (entityDomain .triangle (1, i)).param w j) = 0) →
    eval ((entityDomain .triangle (1, i)).param (pt [1 / 2])) (directional 2 n f) = 0

/-! ### The functionals -/

/-- A direction across the edges. -/
def across : ℕ → ℕ → ℝ
  | 0, _ => 1
  | 1, j => if j = 0 then 1 else 0
  | _, j => if j = 1 then 1 else 0

/-- Factors of the normals. -/
noncomputable def scaleN : ℕ → ℝ
  | 0 => -(1 / √2)
  | 1 => -1
  | _ => 1

theorem triangle_edges {i : ℕ} (hi : i < 3) : ∃ a b, (i = 0 ∧ a = 1 ∧ b = 2 ∨ i = 1 ∧ a = 0 ∧ b = 2 ∨ i = 2 ∧ a = 0 ∧ b = 1) ∧
    entityDomain .triangle (1, i) = ⟨.interval, 2, entityVerts (refVertex .triangle) [a, b]⟩ := by
  interval_cases i
  · exact ⟨1, 2, by simp, rfl⟩
  · exact ⟨0, 2, by simp, rfl⟩
  · exact ⟨0, 1, by simp, rfl⟩

theorem refTriangle (n j : ℕ) (hn : n < 3) (hj : j < 2) : refVertex (K := ℝ) .triangle n j = if n = j + 1 then 1 else 0 := by
  interval_cases n <;> interval_cases j <;> simp [refVertex, refVerts, coords]

theorem normal_eq {i : ℕ} (hi : i < 3) : ∃ n, normal (entityDomain .triangle (1, i)).cell 2 (entityDomain .triangle (1, i)).v = some n ∧
    ∀ j < 2, n j = scaleN i * across i j := by
  obtain ⟨a, b, h, e⟩ := triangle_edges hi
  rw [e]
  refine ⟨_, rfl, fun j hj => ?_⟩
  rcases h with ⟨rfl, rfl, rfl⟩ | ⟨rfl, rfl, rfl⟩ | ⟨rfl, rfl, rfl⟩
  all_goals
    interval_cases j
    all_goals
      norm_num [vnormalise, pdot, coords, axis, psub, axisVertices, refTriangle, Finset.sum_range_succ, scaleN, across, entityVerts]
      try ring

theorem edge_mid {i : ℕ} (hi : i < 3) : References.midpoint (entityDomain .triangle (1, i)).cell (entityDomain .triangle (1, i)).v =
    (entityDomain .triangle (1, i)).param (pt [1 / 2]) := by
  obtain ⟨a, b, -, e⟩ := triangle_edges hi
  rw [e, interval_param]
  funext j
  norm_num [References.midpoint, pt, Finset.sum_range_succ, Cell.nverts]
  ring

theorem normalDof_zero {i : ℕ} (hi : i < 3) : ∃ d, normalDof i = some d ∧ d.entity = (1, i) ∧
    ∀ f, d.eval f = 0 ↔ eval ((entityDomain .triangle (1, i)).param (pt [1 / 2])) (directional 2 (across i) f) = 0 := by
  obtain ⟨n, hn, hj⟩ := normal_eq hi
  refine ⟨_, by rw [normalDof, hn]; rfl, rfl, fun f => ?_⟩
  show eval (References.midpoint _ _) (directional 2 n f) = 0 ↔ _
  rw [edge_mid hi]
  have : directional 2 n f = scaleN i • directional 2 (across i) f := by
    rw [directional_apply, directional_apply, Finset.smul_sum]
    exact Finset.sum_congr rfl fun j h => by rw [hj j (Finset.mem_range.1 h), smul_smul]
  rw [this, smul_eval]
  have h0 : scaleN i ≠ 0 := by interval_cases i <;> simp [scaleN]
  simp [h0]

def argyrisInv : List (List ℚ) := [
    [1, 0, 0, 0, 0, 0, 0, 0, 0, 0, 0, 0, 0, 0, 0, 0, 0, 0, 0, 0, 0],
    [0, 1, 0, 0, 0, 0, 0, 0, 0, 0, 0, 0, 0, 0, 0, 0, 0, 0, 0, 0, 0],
    [0, 0, 0, 1/2, 0, 0, 0, 0, 0, 0, 0, 0, 0, 0, 0, 0, 0, 0, 0, 0, 0],
    [-10, -6, 0, -3/2, 0, 0, 10, -4, 0, 1/2, 0, 0, 0, 0, 0, 0, 0, 0, 0, 0, 0],
    [15, 8, 0, 3/2, 0, 0, -15, 7, 0, -1, 0, 0, 0, 0, 0, 0, 0, 0, 0, 0, 0],
    [-6, -3, 0, -1/2, 0, 0, 6, -3, 0, 1/2, 0, 0, 0, 0, 0, 0, 0, 0, 0, 0, 0],
    [0, 0, 1, 0, 0, 0, 0, 0, 0, 0, 0, 0, 0, 0, 0, 0, 0, 0, 0, 0, 0],
    [0, 0, 0, 0, 1, 0, 0, 0, 0, 0, 0, 0, 0, 0, 0, 0, 0, 0, 0, 0, 0],
    [0, 0, -11, 0, -4, 0, 0, 0, -5, 0, 1, 0, 0, 0, 0, 0, 0, 0, 0, 0, 16],
    [0, 0, 18, 0, 5, 0, 0, 0, 14, 0, -3, 0, 0, 0, 0, 0, 0, 0, 0, 0, -32],
    [0, 0, -8, 0, -2, 0, 0, 0, -8, 0, 2, 0, 0, 0, 0, 0, 0, 0, 0, 0, 16],
    [0, 0, 0, 0, 0, 1/2, 0, 0, 0, 0, 0, 0, 0, 0, 0, 0, 0, 0, 0, 0, 0],
    [0, -11, 0, 0, -4, 0, 0, 0, 0, 0, 0, 0, 0, -5, 0, 0, 1, 0, 0, 16, 0],
    [-30, 10, 10, -3/2, 10, -3/2, 15, -7/2, 37/2, 1/4, -7/2, 5/4, 15, 37/2, -7/2, 5/4, -7/2, 1/4, -8, -32, -32],
    [30, 1, -10, 3/2, -6, 1, -15, 7/2, -37/2, -1/4, 7/2, -3/4, -15, -27/2, 7/2, -5/4, 5/2, -1/4, 8, 16, 32],
    [-10, 0, -6, 0, 0, -3/2, 0, 0, 0, 0, 0, 0, 10, 0, -4, 0, 0, 1/2, 0, 0, 0],
    [0, 18, 0, 0, 5, 0, 0, 0, 0, 0, 0, 0, 0, 14, 0, 0, -3, 0, 0, -32, 0],
    [30, -10, 1, 1, -6, 3/2, -15, 7/2, -27/2, -1/4, 5/2, -5/4, -15, -37/2, 7/2, -3/4, 7/2, -1/4, 8, 32, 16],
    [15, 0, 8, 0, 0, 3/2, 0, 0, 0, 0, 0, 0, -15, 0, 7, 0, 0, -1, 0, 0, 0],
    [0, -8, 0, 0, -2, 0, 0, 0, 0, 0, 0, 0, 0, -8, 0, 0, 2, 0, 0, 16, 0],
    [-6, 0, -3, 0, 0, -1/2, 0, 0, 0, 0, 0, 0, 6, 0, -3, 0, 0, 1/2, 0, 0, 0]]

def morleyInv : List (List ℚ) := [
    [1, 0, 0, 0, 0, 0],
    [-1, 1/2, 1/2, -1/2, 1, 0],
    [0, 1/2, -1/2, 1/2, -1, 0],
    [-1, 1/2, 1/2, -1/2, 0, 1],
    [2, -1, -1, 1, 0, 0],
    [0, -1/2, 1/2, 1/2, 0, -1]]

/-! ### Argyris -/

theorem argyris_flat {n : ℕ} {f : MvPolynomial ℕ ℝ} (h : ∀ d ∈ argyrisVertex n, d.eval f = 0) : Flat (refVertex .triangle n) f := by
  have h0 := h _ (List.mem_cons_self ..)
  have hx : eval (refVertex .triangle n) (directional 2 (fun j => if 0 = j then 1 else 0) f) = 0 :=
    h (directionalDof 2 (refVertex .triangle n) (fun j => if 0 = j then 1 else 0) (0, n)) (List.mem_cons_of_mem _ (List.mem_append_left _ (List.mem_map.2 ⟨0, by simp, rfl⟩)))
  have hy : eval (refVertex .triangle n) (directional 2 (fun j => if 1 = j then 1 else 0) f) = 0 :=
    h (directionalDof 2 (refVertex .triangle n) (fun j => if 1 = j then 1 else 0) (0, n)) (List.mem_cons_of_mem _ (List.mem_append_left _ (List.mem_map.2 ⟨1, by simp, rfl⟩)))
  have hs : ∀ i < 2, ∀ j ≤ i, eval (refVertex .triangle n) (pderiv j (pderiv i f)) = 0 := fun i hi j hj =>
    h (secondDof (refVertex .triangle n) i j (0, n)) (List.mem_cons_of_mem _ (List.mem_append_right _ (List.mem_flatMap.2
      ⟨i, List.mem_range.2 hi, List.mem_map.2 ⟨j, List.mem_range.2 (by omega), rfl⟩⟩)))
  rw [directional_apply] at hx hy
  refine ⟨h0, fun i hi => ?_, fun i hi j hj => ?_⟩
  · interval_cases i
    · simpa [Finset.sum_range_succ] using hx
    · simpa [Finset.sum_range_succ] using hy
  · rcases le_total j i with hij | hij
    · exact hs i hi j hij
    · have := hs j hj i hij
      rwa [pderiv_comm] at this

theorem refTriangle_pt {n : ℕ} (hn : n < 3) : refVertex .triangle n = pt (vert 2 n) := by
  funext j
  by_cases hj : j < 2
  · rw [refTriangle n j hn hj, vert_cast hj]
  · have h1 : refVertex (K := ℝ) .triangle n j = 0 := by
      interval_cases n
      all_goals
        show List.getD [_, _] j 0 = (0 : ℝ)
        exact List.getD_eq_default _ _ (by simp; omega)
    have h2 : pt (vert 2 n) j = 0 := by
      rw [pt, List.getD_eq_default _ _ (by simp [vert]; omega), Rat.cast_zero]
    rw [h1, h2]

/-- The derivatives up to order 2 at the vertices. -/
def flatJets : List Jet := (List.range 3).flatMap fun n => [[], [1, 0], [0, 1], [2, 0], [1, 1], [0, 2]].map fun s => [(1, s, vert 2 n)]

/-- The derivatives across the edges. -/
def acrossJets : List Jet :=
  [[(1, [1, 0], [1 / 2, 1 / 2]), (1, [0, 1], [1 / 2, 1 / 2])], [(1, [1, 0], [0, 1 / 2])], [(1, [0, 1], [1 / 2, 0])]]

theorem flatJets_zero {f : MvPolynomial ℕ ℝ} (h : ∀ n < 3, Flat (refVertex .triangle n) f) : ∀ j ∈ flatJets, jetMap j f = 0 := by
  intro j hj
  obtain ⟨n, hn, hj⟩ := List.mem_flatMap.1 hj
  obtain ⟨s, hs, rfl⟩ := List.mem_map.1 hj
  have hn' := List.mem_range.1 hn
  obtain ⟨h0, h1, h2⟩ := h n hn'
  rw [refTriangle_pt hn'] at h0 h1 h2
  rw [jetMap_apply]
  simp only [List.map_cons, List.map_nil, List.sum_cons, List.sum_nil, add_zero, Rat.cast_one, one_mul]
  simp only [List.mem_cons, List.not_mem_nil, or_false] at hs
  rcases hs with rfl | rfl | rfl | rfl | rfl | rfl
  · exact h0
  · exact h1 0 (by omega)
  · exact h1 1 (by omega)
  · exact h2 0 (by omega) 0 (by omega)
  · exact h2 0 (by omega) 1 (by omega)
  · exact h2 1 (by omega) 1 (by omega)

theorem acrossJets_zero {k : ℤ} {f : MvPolynomial ℕ ℝ} (hf : f ∈ P 2 k)
    (h : ∀ i < 3, eval ((entityDomain .triangle (1, i)).param (pt [1 / 2])) (directional 2 (across i) f) = 0) : ∀ j ∈ acrossJets, jetMap j f = 0 := by
  have hp : ∀ i < 3, ∀ j < 2, (entityDomain .triangle (1, i)).param (pt [1 / 2]) j = pt (if i = 0 then [1 / 2, 1 / 2] else if i = 1 then [0, 1 / 2] else [1 / 2, 0]) j := by
    intro i hi j hj
    obtain ⟨a, b, h, e⟩ := triangle_edges hi
    rw [e, interval_param]
    rcases h with ⟨rfl, rfl, rfl⟩ | ⟨rfl, rfl, rfl⟩ | ⟨rfl, rfl, rfl⟩ <;> interval_cases j <;> norm_num [entityVerts, refTriangle, pt]
  have hd : ∀ i < 3, eval (pt (if i = 0 then [1 / 2, 1 / 2] else if i = 1 then [0, 1 / 2] else [1 / 2, 0])) (directional 2 (across i) f) = 0 := fun i hi => by
    rw [← h i hi]
    exact eval_congr_P (directional_mem _ hf) fun j hj => (hp i hi j hj).symm
  have h0 := hd 0 (by omega)
  have h1 := hd 1 (by omega)
  have h2 := hd 2 (by omega)
  rw [directional_apply] at h0 h1 h2
  intro j hj
  simp only [acrossJets, List.mem_cons, List.not_mem_nil, or_false] at hj
  rw [jetMap_apply]
  rcases hj with rfl | rfl | rfl
  · simpa [Finset.sum_range_succ, across, multiDeriv] using h0
  · simpa [Finset.sum_range_succ, across, multiDeriv] using h1
  · simpa [Finset.sum_range_succ, across, multiDeriv] using h2

theorem argyris_zero {f : MvPolynomial ℕ ℝ} (hf : f ∈ P 2 5) (h : ∀ n < 3, Flat (refVertex .triangle n) f)
    (ha : ∀ i < 3, eval ((entityDomain .triangle (1, i)).param (pt [1 / 2])) (directional 2 (across i) f) = 0) : f = 0 := by
  have h1 := acrossJets_zero hf ha
  rw [← monoPolys_lspan (Or.inr (Or.inl rfl))] at hf
  refine (certified (G := flatJets ++ acrossJets) argyrisInv (by decide +kernel)).2 f hf fun j hj => ?_
  rcases List.mem_append.1 hj with hj | hj
  · exact flatJets_zero h j hj
  · exact h1 j hj

theorem morley_zero {f : MvPolynomial ℕ ℝ} (hf : f ∈ P 2 2) (h : ∀ n < 3, eval (refVertex .triangle n) f = 0)
    (ha : ∀ i < 3, eval ((entityDomain .triangle (1, i)).param (pt [1 / 2])) (directional 2 (across i) f) = 0) : f = 0 := by
  have h1 := acrossJets_zero hf ha
  rw [← monoPolys_lspan (Or.inr (Or.inl rfl))] at hf
  refine (certified (G := (List.range 3).map (fun n => [(1, [], vert 2 n)]) ++ acrossJets) morleyInv (by decide +kernel)).2 f hf fun j hj => ?_
  rcases List.mem_append.1 hj with hj | hj
  · obtain ⟨n, hn, rfl⟩ := List.mem_map.1 hj
    have := h n (List.mem_range.1 hn)
    rw [refTriangle_pt (List.mem_range.1 hn)] at this
    rw [jetMap_apply]
    simpa [multiDeriv] using this
  · exact h1 j hj

/-- Elements whose functionals at the vertices are the derivatives up to order 2, and that determine the derivatives across the edges. -/
theorem c1_of {S : MvPolynomial ℕ ℝ → Prop} {dofs : List (Dof ℝ (MvPolynomial ℕ ℝ))} (hS : ∀ f, S f → f ∈ P 2 5)
    (hv : ∀ n < 3, ∀ f, (∀ d ∈ dofs, d.entity = (0, n) → d.eval f = 0) → Flat (refVertex .triangle n) f)
    (he : ∀ i < 3, ∀ f, S f → (∀ n ≤ 1, Flat (refVertex .triangle ((entVerts .triangle 1 i).getD n 0)) f) →
      (∀ d ∈ dofs, d.entity = (1, i) → d.eval f = 0) → pull (entityDomain .triangle (1, i)) (directional 2 (across i) f) = 0)
    (hu : ∀ f, S f → (∀ d ∈ dofs, d.eval f = 0) → f = 0)
    (hd : ∀ d ∈ dofs, entVerts .triangle d.entity.1 d.entity.2 ⊆ [0, 1, 2]) : C1Trace .triangle (refVertex .triangle) S dofs := by
  intro m hm i hi f hf hz z
  have hs : Simplex .triangle := Or.inr (Or.inl rfl)
  have hvv : ∀ n < 3, n ∈ entVerts .triangle m i → Flat (refVertex .triangle n) f := fun n hn hmem =>
    hv n hn f fun d hd he => hz d hd (by rw [he]; show entVerts .triangle 0 n ⊆ _; rw [vertex_table hs n hn]; simpa using hmem)
  have hm2 : m ≤ 2 := hm
  interval_cases m
  · have hmem : i ∈ entVerts .triangle 0 i := by rw [vertex_table hs i hi]; simp
    have := hvv i hi hmem
    have hp : (physDomain .triangle (refVertex .triangle) (0, i)).param z = refVertex .triangle i := phys_zero hs _ hi z
    rw [hp]
    exact ⟨this.1, this.2.1⟩
  · have hi' : i < 3 := hi
    have hfl : ∀ n ≤ 1, Flat (refVertex .triangle ((entVerts .triangle 1 i).getD n 0)) f := fun n hn =>
      hvv _ (by revert n; interval_cases i <;> decide) (by revert n; interval_cases i <;> decide)
    refine edge_gradient (refVertex .triangle) hi' (hS f hf) (n := across i) (edge_value _ hi' (hS f hf) hfl)
      (he i hi' f hf hfl fun d hd he => hz d hd (by rw [he]; exact List.Subset.refl _)) ?_ z
    show axis (entityDomain .triangle (1, i)).cell (entityDomain .triangle (1, i)).v 0 0 * _ - axis (entityDomain .triangle (1, i)).cell (entityDomain .triangle (1, i)).v 0 1 * _ ≠ 0
    obtain ⟨a, b, h, e⟩ := triangle_edges hi'
    rw [e]
    rcases h with ⟨rfl, rfl, rfl⟩ | ⟨rfl, rfl, rfl⟩ | ⟨rfl, rfl, rfl⟩ <;> norm_num [axis, psub, axisVertices, refTriangle, across, entityVerts]
  · obtain rfl : i = 0 := by have : i < 1 := hi; omega
    rw [hu f hf fun d h => hz d h (hd d h)]
    simp

theorem perp_across {i : ℕ} (hi : i < 3) (n : ℕ → ℝ)
    (hn : ∀ z w, ∑ j ∈ Finset.range 2, n j * ((entityDomain .triangle (1, i)).param z j - (entityDomain .triangle (1, i)).param w j) = 0) :
    ∃ t : ℝ, ∀ f, directional 2 n f = t • directional 2 (across i) f := by
  have hs : ∃ t, ∀ j < 2, n j = t * across i j := by
    have hh := hn (fun _ => 1) (fun _ => 0)
    obtain ⟨a, b, h, e⟩ := triangle_edges hi
    rw [e, interval_param, interval_param] at hh
    simp only [Finset.sum_range_succ, Finset.sum_range_zero, zero_add] at hh
    rcases h with ⟨rfl, rfl, rfl⟩ | ⟨rfl, rfl, rfl⟩ | ⟨rfl, rfl, rfl⟩
    · norm_num [entityVerts, refTriangle] at hh
      refine ⟨n 0, fun j hj => ?_⟩
      interval_cases j
      · simp [across]
      · simp [across]; linarith
    · norm_num [entityVerts, refTriangle] at hh
      refine ⟨n 0, fun j hj => ?_⟩
      interval_cases j
      · simp [across]
      · simp [across, hh]
    · norm_num [entityVerts, refTriangle] at hh
      refine ⟨n 1, fun j hj => ?_⟩
      interval_cases j
      · simp [across, hh]
      · simp [across]
  obtain ⟨t, ht⟩ := hs
  refine ⟨t, fun f => ?_⟩
  rw [directional_apply, directional_apply, Finset.smul_sum]
  exact Finset.sum_congr rfl fun j h => by rw [ht j (Finset.mem_range.1 h), smul_smul]

theorem normals_exist : ∃ normals, (List.range 3).mapM normalDof = some normals ∧ normals.length = 3 ∧ (∀ d ∈ normals, ∃ i < 3, d.entity = (1, i)) ∧
    ∀ i < 3, ∃ d ∈ normals, d.entity = (1, i) ∧
      ∀ f, d.eval f = 0 → eval ((entityDomain .triangle (1, i)).param (pt [1 / 2])) (directional 2 (across i) f) = 0 := by
  obtain ⟨d0, a0, b0, c0⟩ := normalDof_zero (i := 0) (by omega)
  obtain ⟨d1, a1, b1, c1⟩ := normalDof_zero (i := 1) (by omega)
  obtain ⟨d2, a2, b2, c2⟩ := normalDof_zero (i := 2) (by omega)
  refine ⟨[d0, d1, d2], by simp [List.range_succ, a0, a1, a2], rfl, ?_, fun i hi => ?_⟩
  · simp only [List.mem_cons, List.not_mem_nil, or_false, forall_eq_or_imp, forall_eq]
    exact ⟨⟨0, by omega, b0⟩, ⟨1, by omega, b1⟩, ⟨2, by omega, b2⟩⟩
  · interval_cases i
    · exact ⟨d0, by simp, b0, fun f => (c0 f).1⟩
    · exact ⟨d1, by simp, b1, fun f => (c1 f).1⟩
    · exact ⟨d2, by simp, b2, fun f => (c2 f).1⟩

theorem argyrisVertex_entity {n : ℕ} : ∀ d ∈ argyrisVertex n, d.entity = (0, n) := by
  intro d hd
  rcases List.mem_append.1 hd with hd | hd
  · rcases List.mem_cons.1 hd with rfl | hd
    · rfl
    · obtain ⟨i, -, rfl⟩ := List.mem_map.1 hd
      rfl
  · obtain ⟨i, -, hd⟩ := List.mem_flatMap.1 hd
    obtain ⟨j, -, rfl⟩ := List.mem_map.1 hd
    rfl

/-- **C117.** The Argyris element can be created. Its functions are all polynomials of degree at most 5, and the values and the first
derivatives on each vertex and edge are determined by the functionals of the closure. -/
theorem argyris_created : Created (argyris 5) (· ∈ P 2 5) 21 (C1Trace .triangle (refVertex .triangle) (· ∈ P 2 5)) := by
  obtain ⟨p, hp, hps⟩ := polySet_lspan (d := 2) (Or.inr (Or.inl rfl)) 5
  obtain ⟨ns, n1, n2, n3, n4⟩ := normals_exist
  have hfl : ∀ n < 3, ∀ f, (∀ d ∈ (List.range 3).flatMap argyrisVertex ++ ns, d.entity = (0, n) → d.eval f = 0) → Flat (refVertex .triangle n) f :=
    fun n hn f h => argyris_flat fun d hd => h d (List.mem_append_left _ (List.mem_flatMap.2 ⟨n, List.mem_range.2 hn, hd⟩)) (argyrisVertex_entity d hd)
  have hu : ∀ f, f ∈ P 2 5 → (∀ d ∈ (List.range 3).flatMap argyrisVertex ++ ns, d.eval f = 0) → f = 0 := fun f hf hz =>
    argyris_zero hf (fun n hn => hfl n hn f fun d hd _ => hz d hd) fun i hi => by
      obtain ⟨d, h1, -, h3⟩ := n4 i hi
      exact h3 f (hz d (List.mem_append_right _ h1))
  refine created_of (basis := p.map (denoteMono ℝ)) (dofs := (List.range 3).flatMap argyrisVertex ++ ns) ?_ ?_ ?_
    ((scalar_sets_independent ℝ).1 _ _ _ hp) (fun f => by rw [hps]) hu (c1_of (fun _ h => h) hfl (fun i hi f hf hv hz => ?_) hu fun d hd => ?_)
  · rw [argyris, if_pos rfl, n1]
    simp only [Option.bind_eq_bind, Option.bind_some, hp]
  · rw [List.length_append, List.length_flatMap, n2]
    simp [argyrisVertex, List.range_succ]
  · rw [List.length_map, ← Option.some.inj hp]
    decide
  · obtain ⟨d, h1, h2, h3⟩ := n4 i hi
    refine quartic ?_ (edge_ends (refVertex .triangle) hi hf (across i) hv) ?_
    · have := Families.pull_mem (entityDomain .triangle (1, i)) (directional_mem (across i) hf)
      have hd : (entityDomain .triangle (1, i)).cell.tdim = 1 := edge_dim _ hi
      rwa [hd] at this
    · rw [eval_pull]
      exact h3 f (hz d (List.mem_append_right _ h1) h2)
  · rcases List.mem_append.1 hd with hd | hd
    · obtain ⟨n, hn, hd⟩ := List.mem_flatMap.1 hd
      rw [argyrisVertex_entity d hd]
      have := List.mem_range.1 hn
      interval_cases n <;> decide
    · obtain ⟨i, hi, e⟩ := n3 d hd
      rw [e]
      interval_cases i <;> decide

/-- The two functions on the sides of an edge agree to first order if the functionals of the edge do. -/
example (f g : MvPolynomial ℕ ℝ) (hf : f ∈ P 2 5) (hg : g ∈ P 2 5) {basis : List (MvPolynomial ℕ ℝ)} {dofs : List (Dof ℝ (MvPolynomial ℕ ℝ))}
    (h : C1Trace .triangle (refVertex .triangle) (· ∈ P 2 5) dofs) (_ : argyris 5 = some (.ciarlet basis dofs))
    (he : ∀ d ∈ dofs, entVerts .triangle d.entity.1 d.entity.2 ⊆ [0, 1] → d.eval f = d.eval g) (z : ℕ → ℝ) :
    eval ((entityDomain .triangle (1, 2)).param z) f = eval ((entityDomain .triangle (1, 2)).param z) g := by
  have := (h 1 (by decide) 2 (by decide) (f - g) (Submodule.sub_mem _ hf hg) (fun d hd hs => by rw [map_sub, he d hd hs, sub_self]) z).1
  rwa [map_sub, sub_eq_zero] at this

theorem argyris_none {k : ℕ} (hk : k ≠ 5) : argyris k = none := if_neg hk

/-! ### Morley -/

/-- **C118.** The Morley element can be created. Its functions are all polynomials of degree at most 2. The functionals of the closure
of an edge determine the values at its ends and the mean of the derivative across the edge, which is the value at the midpoint. -/
theorem morley_created : Created (morley 2) (· ∈ P 2 2) 6 (fun dofs => ∀ i < 3, ∀ f ∈ P 2 2,
    (∀ d ∈ dofs, entVerts .triangle d.entity.1 d.entity.2 ⊆ entVerts .triangle 1 i → d.eval f = 0) →
    (∀ n ∈ entVerts .triangle 1 i, eval (refVertex .triangle n) f = 0) ∧ MidNormal f i) := by
  obtain ⟨p, hp, hps⟩ := polySet_lspan (d := 2) (Or.inr (Or.inl rfl)) 2
  obtain ⟨ns, n1, n2, n3, n4⟩ := normals_exist
  refine created_of (basis := p.map (denoteMono ℝ))
    (dofs := (List.range 3).map (fun n => PointDof.functional ⟨refVertex .triangle n, (0, n)⟩) ++ ns) ?_ ?_ ?_
    ((scalar_sets_independent ℝ).1 _ _ _ hp) (fun f => by rw [hps]) (fun f hf hz => morley_zero hf (fun n hn => ?_) fun i hi => ?_)
    fun i hi f hf hz => ⟨fun n hn => ?_, fun n hn => ?_⟩
  · rw [morley, if_pos rfl, n1]
    simp only [Option.bind_eq_bind, Option.bind_some, hp]
  · rw [List.length_append, List.length_map, n2]
    rfl
  · rw [List.length_map, ← Option.some.inj hp]
    decide
  · have := hz (PointDof.functional ⟨refVertex .triangle n, (0, n)⟩) (List.mem_append_left _ (List.mem_map.2 ⟨n, List.mem_range.2 hn, rfl⟩))
    rwa [eval_functional] at this
  · obtain ⟨d, h1, -, h3⟩ := n4 i hi
    exact h3 f (hz d (List.mem_append_right _ h1))
  · have hn3 : n < 3 := by revert n; interval_cases i <;> decide
    have := hz (PointDof.functional ⟨refVertex .triangle n, (0, n)⟩) (List.mem_append_left _ (List.mem_map.2 ⟨n, List.mem_range.2 hn3, rfl⟩))
      (by show entVerts .triangle 0 n ⊆ _; rw [vertex_table (Or.inr (Or.inl rfl)) n hn3]; simpa using hn)
    rwa [eval_functional] at this
  · obtain ⟨d, h1, h2, h3⟩ := n4 i hi
    have h0 := h3 f (hz d (List.mem_append_right _ h1) (by rw [h2]; exact List.Subset.refl _))
    obtain ⟨t, ht⟩ := perp_across hi n hn
    rw [ht, smul_eval, h0, mul_zero]

theorem morley_none {k : ℕ} (hk : k ≠ 2) : morley k = none := if_neg hk

end Verif.Smooth
