import Verif.Smooth.Hermite
/-!
# Values and derivatives on the edges of triangles
-/

namespace Verif.Smooth
open Verif.References Verif.Moments Verif.Functionals Verif.Elements Verif.FiniteElement Verif.Polysets Verif.Orthogonal
open Verif.Families Verif.Scalar
open MvPolynomial

def quinticInv : List (List ℚ) := [
    [1, 0, 0, 0, 0, 0],
    [0, 1, 0, 0, 0, 0],
    [0, 0, 1/2, 0, 0, 0],
    [-10, -6, -3/2, 10, -4, 1/2],
    [15, 8, 3/2, -15, 7, -1],
    [-6, -3, -1/2, 6, -3, 1/2]]

def quarticInv : List (List ℚ) := [
    [1, 0, 0, 0, 0],
    [0, 1, 0, 0, 0],
    [-11, -4, -5, 1, 16],
    [18, 5, 14, -3, -32],
    [-8, -2, -8, 2, 16]]

/-- The derivatives up to order `m` at the ends of the interval. -/
def endJets (m : ℕ) : List Jet := [[0], [1]].flatMap fun p => (List.range (m + 1)).map fun s => [(1, [s], p)]

theorem endJets_zero {m : ℕ} {g : MvPolynomial ℕ ℝ} (h : ∀ n ≤ 1, ∀ s ≤ m, eval (pt (vert 1 n)) (((pderiv (R := ℝ) 0).toLinearMap ^ s) g) = 0) :
    ∀ j ∈ endJets m, jetMap j g = 0 := by
  intro j hj
  obtain ⟨p, hp, hj⟩ := List.mem_flatMap.1 hj
  obtain ⟨s, hs, rfl⟩ := List.mem_map.1 hj
  have hs' : s ≤ m := by have := List.mem_range.1 hs; omega
  obtain ⟨n, hn, rfl⟩ : ∃ n ≤ 1, p = vert 1 n := by
    rcases List.mem_cons.1 hp with rfl | hp
    · exact ⟨0, by omega, rfl⟩
    · rcases List.mem_cons.1 hp with rfl | hp
      · exact ⟨1, le_rfl, rfl⟩
      · simp at hp
  rw [jetMap_apply]
  simp only [List.map_cons, List.map_nil, List.sum_cons, List.sum_nil, add_zero, Rat.cast_one, one_mul]
  exact h n hn s hs'

theorem quintic {g : MvPolynomial ℕ ℝ} (hg : g ∈ P 1 5)
    (h : ∀ n ≤ 1, eval (pt (vert 1 n)) g = 0 ∧ eval (pt (vert 1 n)) (pderiv 0 g) = 0 ∧ eval (pt (vert 1 n)) (pderiv 0 (pderiv 0 g)) = 0) : g = 0 := by
  rw [← monoPolys_lspan (Or.inl rfl)] at hg
  refine (certified (G := endJets 2) quinticInv (by decide +kernel)).2 g hg (endJets_zero fun n hn s hs => ?_)
  obtain ⟨h0, h1, h2⟩ := h n hn
  interval_cases s
  · exact h0
  · exact h1
  · exact h2

theorem quartic {g : MvPolynomial ℕ ℝ} (hg : g ∈ P 1 4)
    (h : ∀ n ≤ 1, eval (pt (vert 1 n)) g = 0 ∧ eval (pt (vert 1 n)) (pderiv 0 g) = 0) (hm : eval (pt [1 / 2]) g = 0) : g = 0 := by
  rw [← monoPolys_lspan (Or.inl rfl)] at hg
  refine (certified (G := endJets 1 ++ [[(1, [], [1 / 2])]]) quarticInv (by decide +kernel)).2 g hg fun j hj => ?_
  rcases List.mem_append.1 hj with hj | hj
  · refine endJets_zero (fun n hn s hs => ?_) j hj
    obtain ⟨h0, h1⟩ := h n hn
    interval_cases s
    · exact h0
    · exact h1
  · rw [List.mem_singleton.1 hj, jetMap_apply]
    simpa [multiDeriv] using hm

theorem cubic {g : MvPolynomial ℕ ℝ} (hg : g ∈ P 1 3)
    (h : ∀ n ≤ 1, eval (pt (vert 1 n)) g = 0 ∧ eval (pt (vert 1 n)) (pderiv 0 g) = 0) : g = 0 :=
  herm_ref (Or.inl rfl) hg (fun n hn => (h n hn).1) (fun n hn i hi => by obtain rfl : i = 0 := by omega
                                                                         exact (h n hn).2) fun t ht => by simp [triples] at ht

/-! ### Edges of triangles -/

/-- The value and the first and second derivatives vanish. -/
def Flat (p : ℕ → ℝ) (f : MvPolynomial ℕ ℝ) : Prop :=
  eval p f = 0 ∧ (∀ i < 2, eval p (pderiv i f) = 0) ∧ ∀ i < 2, ∀ j < 2, eval p (pderiv j (pderiv i f)) = 0

variable (v : ℕ → ℕ → ℝ) {i : ℕ} {f : MvPolynomial ℕ ℝ} {k : ℤ}

/-- Edge `i` of the triangle with vertices `v`. -/
noncomputable abbrev edgeOf (v : ℕ → ℕ → ℝ) (i : ℕ) : Domain := physDomain .triangle v (1, i)

theorem edge_cell (hi : i < 3) : (edgeOf v i).cell = .interval := by interval_cases i <;> rfl

theorem edge_dim (hi : i < 3) : (edgeOf v i).cell.tdim = 1 := by rw [edge_cell v hi]; rfl

theorem edge_vertex (hi : i < 3) {n : ℕ} (hn : n ≤ 1) : (edgeOf v i).param (pt (vert 1 n)) = v ((entVerts .triangle 1 i).getD n 0) :=
  phys_vertex (Or.inr (Or.inl rfl)) v (m := 1) (by decide) (show i < 3 from hi) hn

theorem directional_apply (d : ℕ) (n : ℕ → ℝ) (f : MvPolynomial ℕ ℝ) : directional d n f = ∑ i ∈ Finset.range d, n i • pderiv i f := by
  simp [directional, LinearMap.sum_apply]

theorem directional_mem {d : ℕ} (n : ℕ → ℝ) (hf : f ∈ P d k) : directional d n f ∈ P d (k - 1) := by
  rw [directional_apply]
  exact Submodule.sum_mem _ fun i _ => Submodule.smul_mem _ _ (pderiv_mem hf i)

theorem directional_flat {p : ℕ → ℝ} (n : ℕ → ℝ) (h : Flat p f) :
    eval p (directional 2 n f) = 0 ∧ ∀ i < 2, eval p (pderiv i (directional 2 n f)) = 0 := by
  rw [directional_apply]
  simp only [Finset.sum_range_succ, Finset.sum_range_zero, zero_add, map_add, Derivation.map_smul, smul_eval]
  refine ⟨by rw [h.2.1 0 (by omega), h.2.1 1 (by omega)]; ring, fun i hi => ?_⟩
  rw [h.2.2 0 (by omega) i hi, h.2.2 1 (by omega) i hi]
  ring

/-- The values on an edge are determined by the vertices. -/
theorem edge_value (hi : i < 3) (hf : f ∈ P 2 5) (h : ∀ n ≤ 1, Flat (v ((entVerts .triangle 1 i).getD n 0)) f) : pull (edgeOf v i) f = 0 := by
  have hd := edge_dim v hi
  refine quintic (by have := Families.pull_mem (edgeOf v i) hf; rwa [hd] at this) fun n hn => ?_
  obtain ⟨h0, h1, h2⟩ := h n hn
  rw [← edge_vertex v hi hn] at h0 h1 h2
  refine ⟨by rw [eval_pull]; exact h0, pderiv_pull_zero hf _ (by omega) h1, ?_⟩
  rw [pderiv_pull hf _ (by omega), map_sum, map_sum]
  refine Finset.sum_eq_zero fun j hj => ?_
  rw [Derivation.leibniz, pderiv_C, smul_zero, add_zero, smul_eq_mul, map_mul,
    pderiv_pull_zero (pderiv_mem hf j) _ (by omega) (h2 j (Finset.mem_range.1 hj)), mul_zero]

/-- The derivatives of the edge in a direction. -/
theorem edge_ends (hi : i < 3) (hf : f ∈ P 2 k) (d : ℕ → ℝ) (h : ∀ n ≤ 1, Flat (v ((entVerts .triangle 1 i).getD n 0)) f) :
    ∀ n ≤ 1, eval (pt (vert 1 n)) (pull (edgeOf v i) (directional 2 d f)) = 0 ∧
      eval (pt (vert 1 n)) (pderiv 0 (pull (edgeOf v i) (directional 2 d f))) = 0 := by
  intro n hn
  obtain ⟨h1, h2⟩ := directional_flat d (h n hn)
  rw [← edge_vertex v hi hn] at h1 h2
  exact ⟨by rw [eval_pull]; exact h1, pderiv_pull_zero (directional_mem d hf) _ (by rw [edge_dim v hi]; omega) h2⟩

/-- The functions that vanish on an edge, and whose derivative in a direction across the edge does, have no derivatives there. -/
theorem edge_gradient (hi : i < 3) (hf : f ∈ P 2 k) {n : ℕ → ℝ} (h0 : pull (edgeOf v i) f = 0) (h1 : pull (edgeOf v i) (directional 2 n f) = 0)
    (hn : axis (edgeOf v i).cell (edgeOf v i).v 0 0 * n 1 - axis (edgeOf v i).cell (edgeOf v i).v 0 1 * n 0 ≠ 0) (z : ℕ → ℝ) :
    eval ((edgeOf v i).param z) f = 0 ∧ ∀ j < 2, eval ((edgeOf v i).param z) (pderiv j f) = 0 := by
  refine ⟨by rw [← eval_pull, h0, map_zero], ?_⟩
  have h2 := pderiv_pull hf (edgeOf v i) (j := 0) (by rw [edge_dim v hi]; omega)
  rw [h0, map_zero] at h2
  have h3 := congrArg (eval z) h2
  have h4 : eval z (pull (edgeOf v i) (directional 2 n f)) = 0 := by rw [h1, map_zero]
  rw [eval_pull, directional_apply] at h4
  simp only [Finset.sum_range_succ, Finset.sum_range_zero, zero_add, map_add, map_mul, eval_pull, eval_C, map_zero, smul_eval] at h3 h4
  generalize axis (edgeOf v i).cell (edgeOf v i).v 0 0 = a at h3 hn
  generalize axis (edgeOf v i).cell (edgeOf v i).v 0 1 = b at h3 hn
  intro j hj
  interval_cases j
  all_goals
    apply mul_left_cancel₀ hn
    rw [mul_zero]
  · linear_combination (-(n 1)) * h3 - b * h4
  · linear_combination a * h4 + n 0 * h3

end Verif.Smooth
