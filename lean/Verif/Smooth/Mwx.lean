import Verif.Smooth.JetDofs
import Verif.Families.Mtw
/-!
# Morley-Wang-Xu elements

symfem/elements/morley_wang_xu.py. The elements exist on the default simplices only.
-/

namespace Verif.Smooth
open Verif.References Verif.Moments Verif.Functionals Verif.Elements Verif.FiniteElement Verif.Polysets Verif.Orthogonal
open Verif.Families Verif.Scalar
open MvPolynomial

/-! ### Model -/

/-- `PointEvaluation(reference, v, entity=(0, v_n))` for all vertices. -/
noncomputable def corners (c : Cell) : List (Dof ℝ (MvPolynomial ℕ ℝ)) :=
  (List.range (c.tdim + 1)).map fun n => PointDof.functional ⟨refVertex c n, (0, n)⟩

/-- The edges and orders of the derivatives (symfem/elements/morley_wang_xu.py:82, 92). -/
def mwxEdges : List (ℕ × List ℕ) := (List.range 6).flatMap fun i => [(i, [1, 0]), (i, [0, 1])]

/-- The functionals (symfem/elements/morley_wang_xu.py:44-106). -/
noncomputable def mwxDofs (c : Cell) (k : ℕ) : Option (List (Dof ℝ (MvPolynomial ℕ ℝ))) :=
  if k = 1 then
    if c.tdim = 1 then some (corners c) else (List.range (entityCount c (c.tdim - 1))).mapM (meanDof c (c.tdim - 1))
  else if k = 2 then
    (if c.tdim = 2 then some (corners c) else (List.range (entityCount c (c.tdim - 2))).mapM (meanDof c (c.tdim - 2))).bind fun a =>
      ((List.range (entityCount c (c.tdim - 1))).mapM (facetDof c 1)).map fun b => a ++ b
  else if k = 3 ∧ c = .tetrahedron then
    (mwxEdges.mapM fun p => edgeDof p.2 p.1).bind fun a => ((List.range 4).mapM (facetDof c 2)).map fun b => corners c ++ a ++ b
  else none

/-- `MorleyWangXu(reference, order)` (symfem/elements/morley_wang_xu.py:26-108) on the default simplices. -/
noncomputable def mwx (c : Cell) (k : ℕ) : Option (Element ℝ (MvPolynomial ℕ ℝ)) :=
  if k ≤ c.tdim then (polySet c.tdim k).bind fun p => (mwxDofs c k).bind fun dofs => ciarlet (p.map (denoteMono ℝ)) dofs else none

/-! ### Computations -/

def mwxInv11 : List (List ℚ) := [
    [1, 0],
    [-1, 1]]

def mwxInv21 : List (List ℚ) := [
    [-1, 1, 1],
    [2, -2, 0],
    [2, 0, -2]]

def mwxInv22 : List (List ℚ) := [
    [1, 0, 0, 0, 0, 0],
    [-1, 1/2, 1/2, -1/2, 1, 0],
    [0, 1/2, -1/2, 1/2, -1, 0],
    [-1, 1/2, 1/2, -1/2, 0, 1],
    [2, -1, -1, 1, 0, 0],
    [0, -1/2, 1/2, 1/2, 0, -1]]

def mwxInv31 : List (List ℚ) := [
    [-4, 2, 2, 2],
    [6, -6, 0, 0],
    [6, 0, -6, 0],
    [6, 0, 0, -6]]

def mwxInv32 : List (List ℚ) := [
    [-2/3, -2/3, -2/3, 1, 1, 1, 1/3, 0, 0, 0],
    [8/3, 2/3, 2/3, -2, -2, 0, -4/3, 2, 0, 0],
    [-2, 1, 1, 0, 0, 0, 1, -3, 0, 0],
    [2/3, 8/3, 2/3, -2, 0, -2, -4/3, 0, 2, 0],
    [-4, -4, 2, 6, 0, 0, 2, 0, 0, 0],
    [1, -2, 1, 0, 0, 0, 1, 0, -3, 0],
    [2/3, 2/3, 8/3, 0, -2, -2, -4/3, 0, 0, 2],
    [-4, 2, -4, 0, 6, 0, 2, 0, 0, 0],
    [2, -4, -4, 0, 0, 6, 2, 0, 0, 0],
    [1, 1, -2, 0, 0, 0, 1, 0, 0, -3]]

def mwxInv33 : List (List ℚ) := [
    [1, 0, 0, 0, 0, 0, 0, 0, 0, 0, 0, 0, 0, 0, 0, 0, 0, 0, 0, 0],
    [-1, 1/3, 1/3, 1/3, -2/9, -2/3, -2/9, 1/3, -2/9, 1/3, 1, 0, 1, 0, 0, 0, 1/9, 0, 0, 0],
    [0, 1/3, -1/6, -1/6, 4/9, 4/3, -1/18, -1/6, -1/18, -1/6, -1, 0, -1, 0, 0, 0, -2/9, 1, 0, 0],
    [0, 1/3, -1/6, -1/6, -2/9, -2/3, 5/18, -1/6, 5/18, -1/6, 0, 0, 0, 0, 0, 0, 1/9, -1, 0, 0],
    [-1, 1/3, 1/3, 1/3, -2/9, 1/3, -2/9, -2/3, -2/9, 1/3, 0, 1, 0, 0, 1, 0, 1/9, 0, 0, 0],
    [2, -1/3, -1/3, -4/3, 8/9, 2/3, 8/9, 2/3, -1/9, -1/3, -2, -2, 0, 0, 0, 0, -4/9, 0, 0, 0],
    [0, -1/2, -1/2, 1, -2/3, -2, -2/3, 1, 5/6, -1/2, 3, 0, 0, 0, 0, 0, 1/3, 0, 0, 0],
    [0, -1/6, 1/3, -1/6, -1/18, -1/6, 4/9, 4/3, -1/18, -1/6, 0, -1, 0, 0, -1, 0, -2/9, 0, 1, 0],
    [0, -1/2, -1/2, 1, -2/3, 1, -2/3, -2, 5/6, -1/2, 0, 3, 0, 0, 0, 0, 1/3, 0, 0, 0],
    [0, -1/6, 1/3, -1/6, 5/18, -1/6, -2/9, -2/3, 5/18, -1/6, 0, 0, 0, 0, 0, 0, 1/9, 0, -1, 0],
    [-1, 1/3, 1/3, 1/3, -2/9, 1/3, -2/9, 1/3, -2/9, -2/3, 0, 0, 0, 1, 0, 1, 1/9, 0, 0, 0],
    [2, -1/3, -4/3, -1/3, 8/9, 2/3, -1/9, -1/3, 8/9, 2/3, 0, 0, -2, -2, 0, 0, -4/9, 0, 0, 0],
    [0, -1/2, 1, -1/2, -2/3, -2, 5/6, -1/2, -2/3, 1, 0, 0, 3, 0, 0, 0, 1/3, 0, 0, 0],
    [2, -4/3, -1/3, -1/3, -1/9, -1/3, 8/9, 2/3, 8/9, 2/3, 0, 0, 0, 0, -2, -2, -4/9, 0, 0, 0],
    [-6, 2, 2, 2, -4/3, 2, -4/3, 2, -4/3, 2, 0, 0, 0, 0, 0, 0, 2/3, 0, 0, 0],
    [0, 1, -1/2, -1/2, 5/6, -1/2, -2/3, -2, -2/3, 1, 0, 0, 0, 0, 3, 0, 1/3, 0, 0, 0],
    [0, -1/6, -1/6, 1/3, -1/18, -1/6, -1/18, -1/6, 4/9, 4/3, 0, 0, 0, -1, 0, -1, -2/9, 0, 0, 1],
    [0, -1/2, 1, -1/2, -2/3, 1, 5/6, -1/2, -2/3, -2, 0, 0, 0, 3, 0, 0, 1/3, 0, 0, 0],
    [0, 1, -1/2, -1/2, 5/6, -1/2, -2/3, 1, -2/3, -2, 0, 0, 0, 0, 0, 3, 1/3, 0, 0, 0],
    [0, -1/6, -1/6, 1/3, 5/18, -1/6, 5/18, -1/6, -2/9, -2/3, 0, 0, 0, 0, 0, 0, 1/9, 0, 0, -1]]

/-- The functionals of the vertices. -/
def cornerJets (c : Cell) : List ((ℕ × ℕ) × Jet) := (List.range (c.tdim + 1)).map fun n => ((0, n), [(1, [], vert c.tdim n)])

/-- The functionals as sums of derivatives at points. -/
def mwxJets (c : Cell) (k : ℕ) : List ((ℕ × ℕ) × Jet) :=
  if k = 1 then
    if c.tdim = 1 then cornerJets c else (List.range (entityCount c (c.tdim - 1))).map fun i => entityJet c (c.tdim - 1, i) []
  else if k = 2 then
    (if c.tdim = 2 then cornerJets c else (List.range (entityCount c (c.tdim - 2))).map fun i => entityJet c (c.tdim - 2, i) []) ++
      (List.range (entityCount c (c.tdim - 1))).map fun i => entityJet c (c.tdim - 1, i) [i]
  else
    cornerJets c ++ (mwxEdges.map fun p => entityJet .tetrahedron (1, p.1)
      (List.replicate (p.2.getD 0 0) ((edgeFaces p.1).getD 0 0) ++ List.replicate (p.2.getD 1 0) ((edgeFaces p.1).getD 1 0))) ++
      (List.range 4).map fun i => entityJet c (2, i) [i, i]

/-- The cells and orders of the elements. -/
def MwxOrder (c : Cell) (k : ℕ) : Prop := Simplex c ∧ 1 ≤ k ∧ k ≤ c.tdim

theorem corners_jets {c : Cell} (hc : Simplex c) (k : ℤ) : List.Forall₂ (IsJet c.tdim k) (corners c) (cornerJets c) :=
  map_jets fun n hn => point_jet hc (by have := List.mem_range.1 hn; omega) k

theorem mwxEdges_mem : ∀ p ∈ mwxEdges, p.1 < 6 ∧ (p.2 = [1, 0] ∨ p.2 = [0, 1]) := by decide

theorem mwx_jets {c : Cell} {k : ℕ} (h : MwxOrder c k) : ∃ dofs, mwxDofs c k = some dofs ∧ List.Forall₂ (IsJet c.tdim k) dofs (mwxJets c k) := by
  obtain ⟨hc, h1, h2⟩ := h
  have hcor := corners_jets hc k
  rcases hc with rfl | rfl | rfl
  · obtain rfl : k = 1 := by have : k ≤ 1 := h2; omega
    exact ⟨_, rfl, hcor⟩
  · have : k ≤ 2 := h2
    interval_cases k
    · exact mapM_jets (l := List.range 3) fun i hi => mean_jet (c := .triangle) (e := (1, i)) (Or.inl ⟨rfl, rfl, List.mem_range.1 hi⟩) (by show (1 : ℤ) ≤ 3; norm_num)
    · obtain ⟨b, b1, b2⟩ := mapM_jets (l := List.range 3) (F := facetDof .triangle 1) (m := 2) (k := 2) fun i hi =>
        facet_jet (c := .triangle) (Or.inl rfl) (by have := List.mem_range.1 hi; show i ≤ 2; omega) (Or.inl ⟨rfl, rfl, List.mem_range.1 hi⟩) 1
          (by show (2 : ℤ) - 1 ≤ 3; norm_num)
      exact ⟨corners .triangle ++ b, by show ((List.range 3).mapM (facetDof .triangle 1)).map _ = _; rw [b1]; rfl, append_jets hcor b2⟩
  · have : k ≤ 3 := h2
    interval_cases k
    · exact mapM_jets (l := List.range 4) fun i hi => mean_jet (c := .tetrahedron) (e := (2, i)) (Or.inr (Or.inr ⟨rfl, rfl, List.mem_range.1 hi⟩))
        (by show (1 : ℤ) ≤ 4; norm_num)
    · obtain ⟨a, a1, a2⟩ := mapM_jets (l := List.range 6) (F := meanDof .tetrahedron 1) (m := 3) (k := 2) fun i hi =>
        mean_jet (c := .tetrahedron) (e := (1, i)) (Or.inr (Or.inl ⟨rfl, rfl, List.mem_range.1 hi⟩)) (by show (2 : ℤ) ≤ 3; norm_num)
      obtain ⟨b, b1, b2⟩ := mapM_jets (l := List.range 4) (F := facetDof .tetrahedron 1) (m := 3) (k := 2) fun i hi =>
        facet_jet (c := .tetrahedron) (Or.inr rfl) (by have := List.mem_range.1 hi; show i ≤ 3; omega) (Or.inr (Or.inr ⟨rfl, rfl, List.mem_range.1 hi⟩)) 1
          (by show (2 : ℤ) - 1 ≤ 4; norm_num)
      refine ⟨a ++ b, ?_, append_jets a2 b2⟩
      have e1 : (List.range (entityCount .tetrahedron (Cell.tetrahedron.tdim - 2))).mapM (meanDof .tetrahedron (Cell.tetrahedron.tdim - 2)) = some a := a1
      have e2 : (List.range (entityCount .tetrahedron (Cell.tetrahedron.tdim - 1))).mapM (facetDof .tetrahedron 1) = some b := b1
      rw [mwxDofs, if_neg (by decide), if_pos rfl, if_neg (by decide), e1, e2]
      rfl
    · obtain ⟨a, a1, a2⟩ := mapM_jets (l := mwxEdges) (F := fun p => edgeDof p.2 p.1) (m := 3) (k := 3)
        (g := fun p => entityJet .tetrahedron (1, p.1)
          (List.replicate (p.2.getD 0 0) ((edgeFaces p.1).getD 0 0) ++ List.replicate (p.2.getD 1 0) ((edgeFaces p.1).getD 1 0))) fun p hp => by
        obtain ⟨h1, h2 | h2⟩ := mwxEdges_mem p hp
        · rw [h2]; exact edge_jet h1 1 0 (by norm_num)
        · rw [h2]; exact edge_jet h1 0 1 (by norm_num)
      obtain ⟨b, b1, b2⟩ := mapM_jets (l := List.range 4) (F := facetDof .tetrahedron 2) (m := 3) (k := 3) fun i hi =>
        facet_jet (c := .tetrahedron) (Or.inr rfl) (by have := List.mem_range.1 hi; show i ≤ 3; omega) (Or.inr (Or.inr ⟨rfl, rfl, List.mem_range.1 hi⟩)) 2
          (by show (3 : ℤ) - 2 ≤ 4; norm_num)
      refine ⟨corners .tetrahedron ++ a ++ b, ?_, append_jets (append_jets hcor a2) b2⟩
      rw [mwxDofs, if_neg (by decide), if_neg (by decide), if_pos ⟨rfl, rfl⟩, a1, b1]
      rfl

/-- **C146.** The Morley-Wang-Xu elements can be created: orders 1 to the dimension of the cell. Their functions are all polynomials of degree
at most the order, and these are determined by the functionals. The values of the functionals are multiples of the means of the function and of
its derivatives across facets. -/
theorem mwx_created {c : Cell} {k : ℕ} (h : MwxOrder c k) :
    Created (mwx c k) (· ∈ P c.tdim k) (monoPolys c.tdim k).length fun dofs => List.Forall₂ (IsJet c.tdim k) dofs (mwxJets c k) := by
  obtain ⟨dofs, h1, h2⟩ := mwx_jets h
  obtain ⟨hc, h3, h4⟩ := h
  have hd : c.tdim = 1 ∨ c.tdim = 2 ∨ c.tdim = 3 := by rcases hc with rfl | rfl | rfl <;> decide
  obtain ⟨p, hp, -⟩ := polySet_lspan hd k
  have he : mwx c k = ciarlet ((monoPolys c.tdim k).map (denotePoly ℝ)) dofs := by
    rw [mwx, if_pos h4, monoPolys_map, hp, Option.getD_some]
    show (mwxDofs c k).bind _ = _
    rw [h1]
    rfl
  have hB : ∀ b ∈ monoPolys c.tdim k, denotePoly ℝ b ∈ P c.tdim k := fun b hb => by
    rw [← monoPolys_lspan hd]
    exact Submodule.subset_span (List.mem_map.2 ⟨b, hb, rfl⟩)
  have key : ∃ N, leftInverse (monoPolys c.tdim k) ((mwxJets c k).map Prod.snd) N = true ∧ (mwxJets c k).length = (monoPolys c.tdim k).length := by
    clear he hB hp h1 h2
    rcases hc with rfl | rfl | rfl
    · obtain rfl : k = 1 := by have : k ≤ 1 := h4; omega
      exact ⟨mwxInv11, by decide +kernel, by decide +kernel⟩
    · have : k ≤ 2 := h4
      interval_cases k
      · exact ⟨mwxInv21, by decide +kernel, by decide +kernel⟩
      · exact ⟨mwxInv22, by decide +kernel, by decide +kernel⟩
    · have : k ≤ 3 := h4
      interval_cases k
      · exact ⟨mwxInv31, by decide +kernel, by decide +kernel⟩
      · exact ⟨mwxInv32, by decide +kernel, by decide +kernel⟩
      · exact ⟨mwxInv33, by decide +kernel, by decide +kernel⟩
  obtain ⟨N, hN, hl⟩ := key
  have := jets_created he h2 hB hl N hN
  rwa [monoPolys_lspan hd] at this

theorem mwx_none {c : Cell} (hc : Simplex c) {k : ℕ} (h : ¬ MwxOrder c k) : mwx c k = none := by
  rw [mwx]
  split_ifs with h1
  · obtain rfl : k = 0 := by
      by_contra h0
      exact h ⟨hc, by omega, h1⟩
    have h0 : mwxDofs c 0 = none := by simp [mwxDofs]
    rw [h0]
    cases polySet c.tdim (0 : ℕ) <;> rfl
  · rfl

/-- The numbers of functionals. -/
example : (monoPolys 1 1).length = 2 ∧ (monoPolys 2 1).length = 3 ∧ (monoPolys 2 2).length = 6 ∧ (monoPolys 3 1).length = 4 ∧
    (monoPolys 3 2).length = 10 ∧ (monoPolys 3 3).length = 20 := by decide

/-! ### Continuity -/

/-- The functions of the space that vanish in the functionals of a facet and not on the facet. -/
def mwxWitness (c : Cell) (k : ℕ) : Poly :=
  match c, k with
  | .triangle, 1 => [(-1, [0, 0]), (2, [1, 0])]
  | .triangle, _ => [(-1, [1, 0]), (1, [2, 0])]
  | _, 1 => [(-1, [0, 0, 0]), (3, [1, 0, 0])]
  | _, 2 => [(-2, [1, 0, 0]), (3, [2, 0, 0])]
  | _, _ => [(-1, [2, 0, 0]), (1, [3, 0, 0])]

/-- **C147.** The functionals of facets of the Morley-Wang-Xu elements determine the values on the facets on intervals only, although all these
elements are labelled C0. -/
theorem mwx_C0_iff {c : Cell} {k : ℕ} (h : MwxOrder c k) {basis : List (MvPolynomial ℕ ℝ)} {dofs : List (Dof ℝ (MvPolynomial ℕ ℝ))}
    (he : mwx c k = some (.ciarlet basis dofs)) : C0Trace c (· ∈ P c.tdim k) dofs ↔ c = .interval := by
  obtain ⟨basis', dofs', fs, e1, -, -, -, -, e5, e6⟩ := mwx_created h
  obtain ⟨rfl, rfl⟩ : basis' = basis ∧ dofs' = dofs := by
    have := e1.symm.trans he
    simp only [Option.some.injEq, Element.ciarlet.injEq] at this
    exact this
  obtain ⟨hc, h3, h4⟩ := h
  have hw : ∀ w : Poly, (∀ t ∈ w, t.2.length = c.tdim ∧ (t.2.sum : ℤ) ≤ k) → denotePoly ℝ w ∈ P c.tdim k := fun w hw => denotePoly_mem hw
  rcases hc with rfl | rfl | rfl
  · obtain rfl : k = 1 := by have : k ≤ 1 := h4; omega
    refine ⟨fun _ => rfl, fun _ => ?_⟩
    intro dim hdim i hi f hf hz z
    have hdim' : dim ≤ 1 := hdim
    interval_cases dim
    · have hi' : i < 2 := hi
      have hcor := corners_jets (Or.inl rfl : Simplex .interval) 1
      obtain ⟨d, hd, hj⟩ := forall₂_mem_left e6 (b := ((0, i), [(1, [], vert 1 i)])) (List.mem_map.2 ⟨i, List.mem_range.2 hi', rfl⟩)
      obtain ⟨j1, t, ht, hj⟩ := hj
      have h0 := hz d hd (by rw [j1]; exact List.Subset.refl _)
      rw [hj f hf] at h0
      have h5 := (mul_eq_zero.1 h0).resolve_left ht
      rw [jetMap_apply] at h5
      simp only [List.map_cons, List.map_nil, List.sum_cons, List.sum_nil, add_zero, Rat.cast_one, one_mul, multiDeriv, LinearMap.id_apply] at h5
      have hp : (entityDomain .interval (0, i)).param z = pt (vert 1 i) := by
        have h6 := refVertex_pt (Or.inl rfl : Simplex .interval) (n := i) (by show i ≤ 1; omega)
        have h7 : (entityDomain .interval (0, i)).param z = refVertex .interval i := phys_zero (Or.inl rfl : Simplex .interval) (refVertex .interval) hi z
        rw [h7, h6]
        rfl
      rw [hp, h5]
    · obtain rfl : i = 0 := by have : i < 1 := hi; omega
      rw [e5 f hf fun d hd => hz d hd ?_, map_zero]
      obtain ⟨g, hg, j1, -⟩ := forall₂_mem_right e6 hd
      rw [j1]
      have : ∀ g ∈ mwxJets .interval 1, entVerts .interval g.1.1 g.1.2 ⊆ entVerts .interval 1 0 := by decide +kernel
      exact this g hg
  · have : k ≤ 2 := h4
    refine ⟨fun ht => absurd ht ?_, by rintro ⟨⟩⟩
    interval_cases k
    · exact not_C0Trace (e := (1, 2)) (Or.inl ⟨rfl, rfl, by decide⟩) e6 [0] (mwxWitness .triangle 1) (hw _ (by decide)) (hw _ (by decide)) rfl (by decide +kernel)
    · exact not_C0Trace (e := (1, 2)) (Or.inl ⟨rfl, rfl, by decide⟩) e6 [1 / 2] (mwxWitness .triangle 2) (hw _ (by decide)) (hw _ (by decide)) rfl (by decide +kernel)
  · have : k ≤ 3 := h4
    refine ⟨fun ht => absurd ht ?_, by rintro ⟨⟩⟩
    interval_cases k
    · exact not_C0Trace (e := (2, 3)) (Or.inr (Or.inr ⟨rfl, rfl, by decide⟩)) e6 [0, 0] (mwxWitness .tetrahedron 1) (hw _ (by decide)) (hw _ (by decide)) rfl
        (by decide +kernel)
    · exact not_C0Trace (e := (2, 3)) (Or.inr (Or.inr ⟨rfl, rfl, by decide⟩)) e6 [1, 0] (mwxWitness .tetrahedron 2) (hw _ (by decide)) (hw _ (by decide)) rfl
        (by decide +kernel)
    · exact not_C0Trace (e := (2, 3)) (Or.inr (Or.inr ⟨rfl, rfl, by decide⟩)) e6 [1 / 2, 0] (mwxWitness .tetrahedron 3) (hw _ (by decide)) (hw _ (by decide)) rfl
        (by decide +kernel)

end Verif.Smooth
