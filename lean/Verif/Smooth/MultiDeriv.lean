import Verif.Smooth.Argyris
import Verif.Families.Facets
import Verif.Families.Kmv
/-!
# Integrals of directional derivatives

`IntegralOfDirectionalMultiderivative` and `IntegralAgainst` with a constant (symfem/functionals.py:1120-1175, 938-1005) on the entities of the
default simplices, and their values as weighted sums of derivatives at points with rational coordinates.
-/

namespace Verif.Smooth
open Verif.References Verif.Moments Verif.Functionals Verif.Elements Verif.FiniteElement Verif.Polysets Verif.Orthogonal
open Verif.Families Verif.Scalar
open MvPolynomial

/-! ### Model -/

/-- `for dir, o in zip(self.directions, self.orders): for i in range(o): function = function.grad(len(dir)).dot(VectorFunction(dir))`
(symfem/functionals.py:1166-1168) in `d` coordinates. -/
noncomputable def dirDerivs (d : ℕ) : List ((ℕ → ℝ) × ℕ) → (MvPolynomial ℕ ℝ →ₗ[ℝ] MvPolynomial ℕ ℝ)
  | [] => LinearMap.id
  | p :: l => dirDerivs d l ∘ₗ directional d p.1 ^ p.2

/-- `IntegralOfDirectionalMultiderivative(reference, directions, orders, entity, scale)` (symfem/functionals.py:1120-1175) on the default
reference of a cell. -/
noncomputable def multiDof (c : Cell) (dirs : List (ℕ → ℝ)) (orders : List ℕ) (e : ℕ × ℕ) (s : ℝ) : Option (Dof ℝ (MvPolynomial ℕ ℝ)) :=
  (jacobian (entityDomain c e).cell c.tdim (entityDomain c e).v).map fun J =>
    ⟨15, e, some "identity", moment1Map (entityDomain c e) J (C s) ∘ₗ dirDerivs c.tdim (dirs.zip orders)⟩

/-- `IntegralAgainst(reference, w, entity)` with a number `w` (symfem/functionals.py:938-1005): `w` is divided by `reference.jacobian()`. -/
noncomputable def againstDof (c : Cell) (w : ℝ) (e : ℕ × ℕ) : Option (Dof ℝ (MvPolynomial ℕ ℝ)) :=
  (jacobian c c.tdim (refVertex c)).bind fun J0 =>
    (jacobian (entityDomain c e).cell c.tdim (entityDomain c e).v).map fun J =>
      ⟨9, e, some "identity", moment1Map (entityDomain c e) J (C (w / J0))⟩

/-- `sub_entity.normal()` of a facet. -/
noncomputable def facetUnit (c : Cell) (i : ℕ) : Option (ℕ → ℝ) :=
  normal (entityDomain c (c.tdim - 1, i)).cell c.tdim (entityDomain c (c.tdim - 1, i)).v

/-- `IntegralAgainst(reference, 1 / entity.jacobian(), entity=(dim, i))` (symfem/elements/morley_wang_xu.py:52-57, 63-67). -/
noncomputable def meanDof (c : Cell) (dim i : ℕ) : Option (Dof ℝ (MvPolynomial ℕ ℝ)) :=
  (jacobian (entityDomain c (dim, i)).cell c.tdim (entityDomain c (dim, i)).v).bind fun J => againstDof c (1 / J) (dim, i)

/-- `IntegralOfDirectionalMultiderivative(reference, (facet.normal(),), (k,), (dim, i), scale=1 / facet.jacobian())`
(symfem/elements/morley_wang_xu.py:69-79, 98-105; symfem/elements/wu_xu.py:89-110). -/
noncomputable def facetDof (c : Cell) (k i : ℕ) : Option (Dof ℝ (MvPolynomial ℕ ℝ)) :=
  (jacobian (entityDomain c (c.tdim - 1, i)).cell c.tdim (entityDomain c (c.tdim - 1, i)).v).bind fun J =>
    (facetUnit c i).bind fun n => multiDof c [n] [k] (c.tdim - 1, i) (1 / J)

/-- The faces of the tetrahedron for which `vs[0] in f_vs and vs[1] in f_vs`, for the vertices `vs` of edge `i`
(symfem/elements/morley_wang_xu.py:88-89; symfem/elements/wu_xu.py:97-98). -/
def edgeFaces (i : ℕ) : List ℕ :=
  (List.range 4).filter fun f =>
    (entVerts .tetrahedron 2 f).contains ((entVerts .tetrahedron 1 i).getD 0 0) && (entVerts .tetrahedron 2 f).contains ((entVerts .tetrahedron 1 i).getD 1 0)

/-- `IntegralOfDirectionalMultiderivative(reference, tuple(normals), orders, (1, i), scale=1 / volume)` with the normals of the faces next
to edge `i` of the tetrahedron (symfem/elements/morley_wang_xu.py:84-97; symfem/elements/wu_xu.py:96-110). -/
noncomputable def edgeDof (orders : List ℕ) (i : ℕ) : Option (Dof ℝ (MvPolynomial ℕ ℝ)) :=
  (jacobian (entityDomain .tetrahedron (1, i)).cell 3 (entityDomain .tetrahedron (1, i)).v).bind fun J =>
    ((edgeFaces i).mapM (facetUnit .tetrahedron)).bind fun ns => multiDof .tetrahedron ns orders (1, i) (1 / J)

/-! ### Derivatives across facets -/

/-- The derivatives across a list of facets, one after the other. -/
noncomputable def derivs (m : ℕ) : List ℕ → (MvPolynomial ℕ ℝ →ₗ[ℝ] MvPolynomial ℕ ℝ)
  | [] => LinearMap.id
  | i :: l => derivs m l ∘ₗ directional m (facetNormal i)

/-- The partial derivatives in a derivative across facets. -/
def terms (m : ℕ) : List ℕ → List (List ℕ)
  | [] => [List.replicate m 0]
  | i :: l => (terms m l).flatMap fun t => ((List.range m).filter fun j => i = 0 ∨ j + 1 = i).map fun j => t.modify j (· + 1)

theorem terms_length {m : ℕ} (l : List ℕ) : ∀ t ∈ terms m l, t.length = m := by
  induction l with
  | nil => simp [terms]
  | cons i l ih =>
    intro t ht
    obtain ⟨s, hs, ht⟩ := List.mem_flatMap.1 ht
    obtain ⟨j, -, rfl⟩ := List.mem_map.1 ht
    rw [List.length_modify, ih s hs]

theorem multiDeriv_replicate (m i : ℕ) (f : MvPolynomial ℕ ℝ) : multiDeriv (List.replicate m 0) i f = f := by
  induction m generalizing i with
  | zero => rfl
  | succ m ih =>
    rw [List.replicate_succ]
    show multiDeriv (List.replicate m 0) (i + 1) f = f
    exact ih _

theorem derivs_terms {m : ℕ} (l : List ℕ) (f : MvPolynomial ℕ ℝ) : derivs m l f = ((terms m l).map fun t => multiDeriv t 0 f).sum := by
  induction l generalizing f with
  | nil => simp [terms, derivs, multiDeriv_replicate]
  | cons i l ih =>
    show derivs m l (directional m (facetNormal i) f) = _
    rw [ih, terms]
    have h : ∀ T : List (List ℕ), (∀ t ∈ T, t.length = m) → (T.map fun t => multiDeriv t 0 (directional m (facetNormal i) f)).sum =
        ((T.flatMap fun t => ((List.range m).filter fun j => i = 0 ∨ j + 1 = i).map fun j => t.modify j (· + 1)).map fun t => multiDeriv t 0 f).sum := by
      intro T hT
      induction T with
      | nil => rfl
      | cons t T iht =>
        rw [List.map_cons, List.sum_cons, List.flatMap_cons, List.map_append, List.sum_append, iht fun s hs => hT s (List.mem_cons_of_mem _ hs)]
        congr 1
        rw [directional_apply, map_sum, List.map_map]
        have e : ∀ n ≤ m, ∑ j ∈ Finset.range n, multiDeriv t 0 (facetNormal i j • pderiv j f) =
            (((List.range n).filter fun j => i = 0 ∨ j + 1 = i).map ((fun t => multiDeriv t 0 f) ∘ fun j => t.modify j (· + 1))).sum := by
          intro n hn
          induction n with
          | zero => rfl
          | succ n ihn =>
            rw [Finset.sum_range_succ, ihn (by omega), List.range_succ, List.filter_append, List.map_append, List.sum_append]
            congr 1
            have hb := multiDeriv_pderiv t 0 n (by rw [hT t List.mem_cons_self]; omega) f
            rw [zero_add] at hb
            rw [map_smul, hb]
            by_cases h0 : i = 0
            · simp [facetNormal, h0]
            · by_cases h1 : n + 1 = i
              · simp [facetNormal, h1]
              · simp [facetNormal, h0, h1]
        exact e m le_rfl
    exact h _ (terms_length l)

theorem derivs_mem {m : ℕ} {k : ℤ} (l : List ℕ) {f : MvPolynomial ℕ ℝ} (hf : f ∈ P m k) : derivs m l f ∈ P m (k - l.length) := by
  induction l generalizing k f with
  | nil =>
    show f ∈ P m (k - 0)
    rwa [sub_zero]
  | cons i l ih =>
    have := ih (directional_mem (facetNormal i) hf)
    rw [List.length_cons]
    push_cast
    rwa [show k - ((l.length : ℤ) + 1) = k - 1 - l.length by ring]

/-! ### Rules for the integrals -/

/-- Points and weights. -/
abbrev Rule := List (ℚ × List ℚ)

/-- Simpson's rule. -/
def simpson : Rule := [(1 / 6, [0]), (2 / 3, [1 / 2]), (1 / 6, [1])]

/-- A rule of degree 4 on the triangle. -/
def triRule : Rule := [(2/45, [0, 1/4]), (-1/90, [0, 1/2]), (2/45, [0, 3/4]), (2/45, [1/4, 0]), (4/45, [1/4, 1/4]), (4/45, [1/4, 1/2]),
  (2/45, [1/4, 3/4]), (-1/90, [1/2, 0]), (4/45, [1/2, 1/4]), (-1/90, [1/2, 1/2]), (2/45, [3/4, 0]), (2/45, [3/4, 1/4])]

/-- The rule is exact for polynomials of this degree. -/
def Exact (c : Cell) (R : Rule) (k : ℤ) : Prop :=
  ∀ q ∈ P c.tdim k, cellInt c (fun z => eval z q) = (R.map fun r => (r.1 : ℝ) * eval (pt r.2) q).sum

theorem exact_of {c : Cell} (hd : c.tdim = 1 ∨ c.tdim = 2 ∨ c.tdim = 3) {R : Rule} {k : ℤ} (val : List ℕ → ℚ)
    (h1 : ∀ s ∈ (polySet c.tdim k).getD [], cellInt c (fun z => eval z (denoteMono ℝ s)) = (val s : ℝ))
    (h2 : ∀ s ∈ (polySet c.tdim k).getD [], jetVal (R.map fun r => (r.1, [], r.2)) [(1, s)] = val s) : Exact c R k := by
  intro q hq
  have hm : ∀ q, (R.map fun r => (r.1 : ℝ) * eval (pt r.2) q).sum = jetMap (R.map fun r => (r.1, [], r.2)) q := by
    intro q
    rw [jetMap_apply, List.map_map]
    rfl
  rw [hm]
  rw [← monoPolys_lspan hd] at hq
  have hadd : ∀ p q : MvPolynomial ℕ ℝ, cellInt c (fun z => eval z (p + q)) = cellInt c (fun z => eval z p) + cellInt c (fun z => eval z q) := fun p q => by
    rw [← cellInt_add c (MvPolynomial.continuous_eval p) (MvPolynomial.continuous_eval q)]
    exact congrArg (cellInt c) (funext fun z => map_add _ _ _)
  have hsm : ∀ (a : ℝ) (p : MvPolynomial ℕ ℝ), cellInt c (fun z => eval z (a • p)) = a * cellInt c (fun z => eval z p) := fun a p => by
    rw [← cellInt_const_mul]
    exact congrArg (cellInt c) (funext fun z => smul_eval _ _ _)
  induction hq using Submodule.span_induction with
  | mem x hx =>
    have hx' : x ∈ (monoPolys c.tdim k).map (denotePoly ℝ) := hx
    rw [monoPolys, List.map_map] at hx'
    obtain ⟨s, hs, rfl⟩ := List.mem_map.1 hx'
    show cellInt c (fun z => eval z (denotePoly ℝ [(1, s)])) = jetMap _ (denotePoly ℝ [(1, s)])
    rw [jetMap_poly, h2 s hs, ← h1 s hs]
    refine congrArg (cellInt c) (funext fun z => ?_)
    simp [denotePoly]
  | zero => 
    rw [map_zero]
    have := hsm 0 0
    rwa [zero_mul, zero_smul] at this
  | add x y _ _ hx hy => rw [hadd, hx, hy, map_add]
  | smul a x _ hx => rw [hsm, hx, map_smul, smul_eq_mul]

theorem simpson_exact : Exact .interval simpson 3 := by
  refine exact_of (by decide) (fun s => 1 / ((s.getD 0 0 : ℚ) + 1)) (fun s hs => ?_) (by decide +kernel)
  have hl : (polySet Cell.interval.tdim 3).getD [] = [[0], [1], [2], [3]] := by decide
  rw [hl] at hs
  have : ∃ n, s = [n] := by
    simp only [List.mem_cons, List.not_mem_nil, or_false] at hs
    rcases hs with rfl | rfl | rfl | rfl <;> exact ⟨_, rfl⟩
  obtain ⟨n, rfl⟩ := this
  rw [cellInt_interval]
  simp [denoteMono, monoFrom, integral_pow]

theorem triRule_exact : Exact .triangle triRule 4 := by
  refine exact_of (by decide) (fun s => (((s.getD 0 0).factorial : ℚ) * (s.getD 1 0).factorial) / (s.getD 0 0 + s.getD 1 0 + 2).factorial) (fun s hs => ?_)
    (by decide +kernel)
  have hl : ∀ s ∈ (polySet Cell.triangle.tdim 4).getD [], s = [s.getD 0 0, s.getD 1 0] := by decide
  rw [hl s hs, cellInt_tri_mono]
  push_cast
  simp

/-! ### Points of entities -/

/-- The point of an entity with these parameters. -/
def place (m : ℕ) (vs : List ℕ) (z : List ℚ) : List ℚ :=
  (List.range m).map fun j => (vert m (vs.getD 0 0)).getD j 0 +
    ((List.range z.length).map fun k => ((vert m (vs.getD (k + 1) 0)).getD j 0 - (vert m (vs.getD 0 0)).getD j 0) * z.getD k 0).sum

theorem refVertex_pt {c : Cell} (hc : Simplex c) {n : ℕ} (hn : n ≤ c.tdim) : refVertex (K := ℝ) c n = pt (vert c.tdim n) := by
  rcases hc with rfl | rfl | rfl
  · funext j
    have : n ≤ 1 := hn
    rcases j with _ | j <;> interval_cases n <;> simp [refVertex, refVerts, coords, pt, vert, Cell.tdim]
  · exact refTriangle_pt (by have : n ≤ 2 := hn; omega)
  · funext j
    have : n ≤ 3 := hn
    rcases j with _ | _ | _ | j <;> interval_cases n <;> simp [refVertex, refVerts, coords, pt, vert, Cell.tdim, List.range_succ]

theorem param_place {c : Cell} (hc : Simplex c) {e : ℕ × ℕ} {z : List ℚ} (hv : ∀ n ∈ entVerts c e.1 e.2, n ≤ c.tdim)
    (hl : (entVerts c e.1 e.2).length = (entityDomain c e).cell.tdim + 1) (hz : z.length = (entityDomain c e).cell.tdim)
    (hx : axisVertices (entityDomain c e).cell = (List.range (entityDomain c e).cell.tdim).map (· + 1)) :
    (entityDomain c e).param (pt z) = pt (place c.tdim (entVerts c e.1 e.2) z) := by
  funext j
  have hD : ∀ n, n < (entVerts c e.1 e.2).length → (entityDomain c e).v n j = pt (vert c.tdim ((entVerts c e.1 e.2).getD n 0)) j := by
    intro n hn
    show refVertex c ((entVerts c e.1 e.2).getD n 0) j = _
    rw [refVertex_pt hc (hv _ (by rw [List.getD_eq_getElem _ _ hn]; exact List.getElem_mem _))]
  rw [Domain.param, hD 0 (by omega)]
  have hsum : ∑ k ∈ Finset.range (entityDomain c e).cell.tdim,
      ((entityDomain c e).v ((axisVertices (entityDomain c e).cell).getD k 0) j - pt (vert c.tdim ((entVerts c e.1 e.2).getD 0 0)) j) * pt z k =
      ∑ k ∈ Finset.range z.length, ((((vert c.tdim ((entVerts c e.1 e.2).getD (k + 1) 0)).getD j 0 -
        (vert c.tdim ((entVerts c e.1 e.2).getD 0 0)).getD j 0) * z.getD k 0 : ℚ) : ℝ) := by
    rw [hz]
    refine Finset.sum_congr rfl fun k hk => ?_
    have hk' := Finset.mem_range.1 hk
    rw [hx, List.getD_eq_getElem _ _ (by simpa using hk'), List.getElem_map, List.getElem_range, hD _ (by omega)]
    simp only [pt]
    push_cast
    rfl
  rw [hsum]
  by_cases hj : j < c.tdim
  · rw [pt, pt, place, List.getD_eq_getElem (List.map _ _) _ (by simpa using hj), List.getElem_map, List.getElem_range]
    rw [← Rat.cast_sum, ← Rat.cast_add, Finset.sum_range, ← List.sum_ofFn]
    congr 3
    refine List.ext_getElem (by simp) fun k h1 h2 => ?_
    have hk : k < z.length := by simpa using h2
    simp [List.getElem?_eq_getElem hk]
  · have hv0 : ∀ n, (vert c.tdim n).getD j 0 = 0 := fun n => List.getD_eq_default _ _ (by simpa [vert] using hj)
    have hp0 : (place c.tdim (entVerts c e.1 e.2) z).getD j 0 = 0 := List.getD_eq_default _ _ (by simpa [place] using hj)
    simp only [pt, hv0, hp0]
    simp

/-! ### Integrals as sums of derivatives at points -/

/-- The integral over an entity of a derivative across facets. -/
def entJet (m : ℕ) (vs : List ℕ) (R : Rule) (l : List ℕ) : Jet :=
  R.flatMap fun r => (terms m l).map fun t => (r.1, t, place m vs r.2)

theorem entJet_apply (m : ℕ) (vs : List ℕ) (R : Rule) (l : List ℕ) (f : MvPolynomial ℕ ℝ) :
    jetMap (entJet m vs R l) f = (R.map fun r => (r.1 : ℝ) * eval (pt (place m vs r.2)) (derivs m l f)).sum := by
  rw [jetMap_apply]
  induction R with
  | nil => rfl
  | cons r R ih =>
    rw [entJet, List.flatMap_cons, List.map_append, List.sum_append, List.map_cons, List.sum_cons, ← ih]
    congr 1
    rw [derivs_terms, List.map_map, map_list_sum, List.map_map, ← List.sum_map_mul_left]
    rfl

/-- **The value of the integrals.** -/
theorem integral_jet {c : Cell} (hc : Simplex c) {e : ℕ × ℕ} (hv : ∀ n ∈ entVerts c e.1 e.2, n ≤ c.tdim)
    (hl : (entVerts c e.1 e.2).length = (entityDomain c e).cell.tdim + 1)
    (hx : axisVertices (entityDomain c e).cell = (List.range (entityDomain c e).cell.tdim).map (· + 1))
    {R : Rule} {k k' : ℤ} (hR : Exact (entityDomain c e).cell R k) (hz : ∀ r ∈ R, r.2.length = (entityDomain c e).cell.tdim)
    {l : List ℕ} {f : MvPolynomial ℕ ℝ} (hf : f ∈ P c.tdim k') (hk : k' - l.length ≤ k) :
    cellInt (entityDomain c e).cell (fun z => eval ((entityDomain c e).param z) (derivs c.tdim l f)) =
      jetMap (entJet c.tdim (entVerts c e.1 e.2) R l) f := by
  have h := hR (pull (entityDomain c e) (derivs c.tdim l f)) (pull_mem _ (P_mono hk (derivs_mem l hf)))
  simp only [eval_pull] at h
  rw [h, entJet_apply]
  refine congrArg List.sum (List.map_congr_left fun r hr => ?_)
  rw [param_place hc hv hl (hz r hr) hx]

end Verif.Smooth
