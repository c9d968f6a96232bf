import Verif.Families.KmvCreated
import Verif.Families.Enrich
import Verif.Scalar.Trace
/-!
# The entities of simplices, and a criterion for created elements
-/

namespace Verif.Scalar
open Verif.References Verif.Moments Verif.Functionals Verif.Elements Verif.FiniteElement Verif.Polysets Verif.Orthogonal
open Verif.Families
open MvPolynomial

/-- An element with independent polynomials and functionals that determine them can be created. -/
theorem created_of {V : Type} [AddCommGroup V] [Module ℝ V] {e : Option (Element ℝ V)} {basis : List V} {dofs : List (Dof ℝ V)}
    {n : ℕ} {S : V → Prop} {T : List (Dof ℝ V) → Prop} (he : e = ciarlet basis dofs) (hd : dofs.length = n)
    (hb : basis.length = n) (hi : Independent ℝ basis) (hs : ∀ v, v ∈ lspan basis ↔ S v)
    (hu : ∀ v, S v → (∀ d ∈ dofs, d.eval v = 0) → v = 0) (ht : T dofs) : Created e S n T := by
  obtain ⟨h1, fs, h2, h3, h4⟩ := ciarlet_basis (basis := basis) (dofs := dofs) (by rw [hd, hb]) hi
    fun p hp hz => hu p ((hs p).1 hp) hz
  exact ⟨_, _, fs, he.trans h1, h2, hd, by rw [h4, hb], fun v => by rw [h3, hs], hu, ht⟩

/-- An element with dependent polynomials has no basis functions: the matrix is singular. -/
theorem getBasis_dependent {V : Type} [AddCommGroup V] [Module ℝ V] {basis : List V} {dofs : List (Dof ℝ V)}
    (h : ¬ Independent ℝ basis) : getBasis (.ciarlet basis dofs) = none := by
  unfold getBasis
  split_ifs with hl
  · rw [← Option.not_isSome_iff_eq_none, basisFunctions_isSome_iff]
    intro hc
    refine h (Fintype.linearIndependent_iff.2 fun cf h0 k => ?_)
    have := hc cf fun j => by
      have h1 : ∑ k : Fin basis.length, cf k • basis[k] = 0 := h0
      rw [h1, map_zero]
    rw [this]
    rfl
  · rfl

/-- The number of a vertex of an entity. -/
theorem point_param {c : Cell} (hc : Simplex c) {n : ℕ} (hn : n < entityCount c 0) (y : ℕ → ℝ) :
    (entityDomain c (0, n)).param y = refVertex c n := by
  have h : ∀ n < entityCount c 0, (entVerts c 0 n).getD 0 0 = n := by
    rcases hc with rfl | rfl | rfl <;> decide
  have hp : (entityDomain c (0, n)).cell = .point := by rcases hc with rfl | rfl | rfl <;> rfl
  funext j
  have h1 : (entityDomain c (0, n)).v 0 j = refVertex c n j := by
    show refVertex c ((entVerts c 0 n).getD 0 0) j = _
    rw [h n hn]
  rw [Domain.param, hp, h1]
  simp [Cell.tdim]

theorem edge_param {c : Cell} (hc : Simplex c) (i : ℕ) (z : ℕ → ℝ) : (entityDomain c (1, i)).param z =
    onLine (refVertex c ((entVerts c 1 i).getD 0 0)) (refVertex c ((entVerts c 1 i).getD 1 0)) (z 0) := by
  have hp : (entityDomain c (1, i)).cell = .interval := by rcases hc with rfl | rfl | rfl <;> rfl
  have e : entityDomain c (1, i) = ⟨.interval, c.tdim, (entityDomain c (1, i)).v⟩ := by
    rw [← hp]; rfl
  rw [e, interval_param]
  rfl

theorem simplex_param {c : Cell} (hc : Simplex c) (z : ℕ → ℝ) {j : ℕ} (hj : j < c.tdim) :
    (entityDomain c (c.tdim, 0)).param z j = z j := by
  rcases hc with rfl | rfl | rfl
  · have hj' : j < 1 := hj
    obtain rfl : j = 0 := by omega
    have := congrFun (interval_param 1 (entityDomain .interval (1, 0)).v z) 0
    refine this.trans ?_
    rw [interval_cell_v, interval_cell_v]
    norm_num [refVertex, refVerts, coords]
  · have hv : ∀ n j, (entityDomain .triangle (2, 0)).v n j = refVertex .triangle ([0, 1, 2].getD n 0) j := fun _ _ => rfl
    have := congrFun (triangle_param 2 (entityDomain .triangle (2, 0)).v z) j
    refine this.trans ?_
    rw [hv, hv, hv]
    have hj' : j < 2 := hj
    interval_cases j <;> norm_num [refVertex, refVerts, coords]
  · have hv : ∀ n j, (entityDomain .tetrahedron (3, 0)).v n j = refVertex .tetrahedron ([0, 1, 2, 3].getD n 0) j := fun _ _ => rfl
    show (entityDomain .tetrahedron (3, 0)).v 0 j + _ = _
    simp only [show (entityDomain .tetrahedron (3, 0)).cell = .tetrahedron from rfl, Cell.tdim, Finset.sum_range_succ,
      Finset.sum_range_zero, axis, axisVertices, List.getD_cons_zero, List.getD_cons_succ, hv]
    have hj' : j < 3 := hj
    interval_cases j <;> norm_num [refVertex, refVerts, coords]

end Verif.Scalar
