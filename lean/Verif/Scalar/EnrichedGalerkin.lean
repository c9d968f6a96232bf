import Verif.Scalar.BubbleEnriched
import Verif.Families.HuangZhang
import Verif.Degrees.Basic
/-!
# Enriched Galerkin elements

`symfem/elements/enriched_galerkin.py` and `symfem/elements/vector_enriched_galerkin.py`.  The basis functions exist at every
order and the last one is what it should be, but the functions are linearly dependent, and the last one does not vanish on the
boundary although it is a function of the interior and the elements are labelled "C0".
-/

namespace Verif.Scalar
open Verif.References Verif.Moments Verif.Functionals Verif.Elements Verif.FiniteElement Verif.Polysets Verif.Orthogonal
open Verif.Families
open MvPolynomial

/-! ### Model -/

/-- `EnrichedGalerkin(reference, order)` (symfem/elements/enriched_galerkin.py:20-30). -/
noncomputable def egElement (c : Cell) (k : ℕ) : Option (Element ℝ (MvPolynomial ℕ ℝ)) :=
  (lagEl c k).bind fun a => (lagEl c 0).map fun b => .enriched [a, b]

/-- The function of `Enrichment` (symfem/elements/vector_enriched_galerkin.py:31). -/
noncomputable def lfegFun (c : Cell) : List (MvPolynomial ℕ ℝ) :=
  (List.range c.tdim).map fun i : ℕ => X i - C (midpoint c (refVertex c) i)

/-- `f.dot(f).integral(reference, x)` (symfem/elements/vector_enriched_galerkin.py:33). -/
noncomputable def lfegSize (c : Cell) : ℝ := cellInt c fun z => eval z (((lfegFun c).map fun p => p * p).sum)

/-- `Enrichment(reference)` (symfem/elements/vector_enriched_galerkin.py:23-40). -/
noncomputable def lfegEnrichment (c : Cell) : Option (Element ℝ (Field c.tdim)) :=
  (againstDof c (c.tdim, 0) "contravariant" ((lfegFun c).map fun p => C (1 / lfegSize c) * p)).bind fun d =>
    ciarlet [fun j => (lfegFun c).getD j.val 0] [d]

/-- `VectorEnrichedGalerkin(reference, order)` (symfem/elements/vector_enriched_galerkin.py:70-80). -/
noncomputable def lfegElement (c : Cell) (k : ℕ) : Option (Element ℝ (Field c.tdim)) :=
  (if c ∈ [Cell.quadrilateral, .hexahedron] then vectorQElement "equispaced" c k
    else vectorLagrangeElement "equispaced" c (refVertex c) k).bind fun a => (lfegEnrichment c).map fun b => .enriched [a, b]

/-! ### Sums of basis functions -/

theorem one_mem_W {c : Cell} (hc : LagCell c) (k : ℕ) : (1 : MvPolynomial ℕ ℝ) ∈ W c k := by
  rcases hc with hc | hc
  · rw [W_simplex hc]
    exact Families.one_mem (by positivity)
  · rw [W_box hc]
    exact Degrees.P_le_QP _ _ (Families.one_mem (by positivity))

theorem eval_sum_list (z : ℕ → ℝ) (fs : List (MvPolynomial ℕ ℝ)) : eval z fs.sum = (fs.map (eval z)).sum := by
  induction fs with
  | nil => simp
  | cons a fs ih => simp [ih]

theorem sum_indicator {fs : List (MvPolynomial ℕ ℝ)} {z : ℕ → ℝ} {j : ℕ} (hj : j < fs.length)
    (h : ∀ i f, fs[i]? = some f → eval z f = if i = j then 1 else 0) : (fs.map (eval z)).sum = 1 := by
  induction fs generalizing j with
  | nil => simp at hj
  | cons a fs ih =>
    rw [List.map_cons, List.sum_cons]
    have h0 := h 0 a rfl
    cases j with
    | zero =>
      rw [h0, if_pos rfl]
      have : (fs.map (eval z)).sum = 0 := by
        refine List.sum_eq_zero fun x hx => ?_
        obtain ⟨f, hf, rfl⟩ := List.mem_map.1 hx
        obtain ⟨i, hi, rfl⟩ := List.getElem_of_mem hf
        rw [h (i + 1) fs[i] (by simp), if_neg (by omega)]
      rw [this, add_zero]
    | succ j =>
      rw [h0, if_neg (by omega), zero_add]
      refine ih (j := j) (by simpa using hj) fun i f hf => ?_
      rw [h (i + 1) f (by simpa using hf)]
      simp

/-- The basis functions of a Lagrange element sum to 1. -/
theorem lag_sum {c : Cell} (hc : LagCell c) (k : ℕ) : ∃ e fs, lagEl c k = some e ∧ getBasis e = some fs ∧ lspan fs = W c k ∧
    fs.length = lagCount c k ∧ fs.sum = 1 := by
  obtain ⟨e, l, fs, h1, h2, h3, h4, h5, -, h7, h8⟩ := lag_basis hc k
  refine ⟨e, fs, h1, h2, h3, h4, sub_eq_zero.1 (h8 _ (Submodule.sub_mem _ ?_ (one_mem_W hc k)) fun d hd => ?_)⟩
  · rw [← h3]
    exact list_sum_mem fun f hf => mem_lspan hf
  · obtain ⟨j, hj, rfl⟩ := List.getElem_of_mem hd
    rw [map_sub, map_one, eval_sum_list, sum_indicator (j := j) (by omega) fun i f hf =>
      h7 i j f _ hf (List.getElem?_eq_getElem hj), sub_self]

/-- The basis function of a Lagrange element of order 0. -/
theorem lag_zero {c : Cell} (hc : LagCell c) : ∃ e, lagEl c 0 = some e ∧ getBasis e = some [1] := by
  obtain ⟨e, fs, h1, h2, -, h4, h5⟩ := lag_sum hc 0
  have : lagCount c 0 = 1 := by rcases hc with (rfl | rfl | rfl) | (rfl | rfl) <;> rfl
  rw [this] at h4
  obtain ⟨f, rfl⟩ := List.length_eq_one_iff.1 h4
  rw [List.sum_singleton] at h5
  exact ⟨e, h1, h5 ▸ h2⟩

/-- A list that ends with a combination of the others is not independent. -/
theorem dependent_of_mem {V : Type} [AddCommGroup V] [Module ℝ V] {fs : List V} {g : V} (hg : g ∈ lspan fs) (h0 : g ≠ 0) :
    ¬ Independent ℝ (fs ++ [g]) := fun hi => by
  have := disjoint_of_append hi
  rw [Submodule.disjoint_def] at this
  exact h0 (this g hg (mem_lspan (by simp)))

/-- **C136** Enriched Galerkin elements have basis functions at every order: those of the Lagrange element, which span the
polynomials of the order, and the constant 1, the sum of the others. -/
theorem eg_basis {c : Cell} (hc : LagCell c) (k : ℕ) : ∃ e fs, egElement c k = some e ∧ getBasis e = some (fs ++ [1]) ∧
    fs.length = lagCount c k ∧ lspan (fs ++ [1]) = W c k ∧ fs.sum = 1 ∧ Independent ℝ fs ∧ ¬ Independent ℝ (fs ++ [1]) := by
  obtain ⟨a, fs, h1, h2, h3, h4, h5⟩ := lag_sum hc k
  obtain ⟨b, g1, g2⟩ := lag_zero hc
  have hone : (1 : MvPolynomial ℕ ℝ) ∈ lspan fs := h3 ▸ one_mem_W hc k
  refine ⟨_, fs, by rw [egElement, h1, g1]; rfl, ?_, h4, ?_, h5, ?_, dependent_of_mem hone one_ne_zero⟩
  · simp [getBasis, getBases, h2, g2]
  · rw [lspan_append, h3, sup_eq_left]
    refine Submodule.span_le.2 fun v hv => ?_
    obtain rfl : v = 1 := by simpa using hv
    exact one_mem_W hc k
  · obtain ⟨e', l, fs', k1, k2, -, -, k5, -, k7, -⟩ := lag_basis hc k
    obtain rfl := Option.some.inj (h1.symm.trans k1)
    obtain rfl := Option.some.inj (h2.symm.trans k2)
    exact basis_independent k5 k7

/-- The last function belongs to the interior, although by `eg_basis` it is 1 on the boundary too. -/
theorem eg_interior {c : Cell} (hc : LagCell c) (k : ℕ) : ∃ e, egElement c k = some e ∧
    dofEntities e = ((lagEl c k).map dofEntities).getD [] ++ [(c.tdim, 0)] := by
  obtain ⟨a, fs, h1, -⟩ := lag_sum hc k
  obtain ⟨b, g1, g2⟩ := lag_zero hc
  refine ⟨_, by rw [egElement, h1, g1]; rfl, ?_⟩
  have hb : dofEntities b = [(c.tdim, 0)] := by
    rcases hc with (rfl | rfl | rfl) | (rfl | rfl)
    all_goals
      simp [lagEl, lagrangeElement, lagrangeDofs, qElement, qDofs, getPoint, axisVertices, ciarlet, Option.bind_eq_some_iff] at g1
      first
        | (obtain ⟨_, -, rfl⟩ := g1; rfl)
        | (obtain ⟨_, -, -, rfl⟩ := g1; rfl)
        | (obtain ⟨_, -, -, -, rfl⟩ := g1; rfl)
  simp [dofEntities, dofEntitiesList, h1, hb]

/-! ### Vector functions -/

/-- The cells of the vector elements. -/
def LfegCell (c : Cell) : Prop := Simp c ∨ Box c

theorem LfegCell.solid {c : Cell} (hc : LfegCell c) : Solid c := hc.elim Simp.solid Box.solid

theorem LfegCell.lag {c : Cell} (hc : LfegCell c) : LagCell c := by
  rcases hc with (rfl | rfl) | hc
  · exact Or.inl (Or.inr (Or.inl rfl))
  · exact Or.inl (Or.inr (Or.inr rfl))
  · exact Or.inr hc

theorem lfeg_jacobian {c : Cell} (hc : LfegCell c) :
    jacobian (entityDomain c (c.tdim, 0)).cell c.tdim (entityDomain c (c.tdim, 0)).v = some 1 :=
  hc.elim cell_jacobian box_jacobian

theorem lfeg_param {c : Cell} (hc : LfegCell c) (z : ℕ → ℝ) {j : ℕ} (hj : j < c.tdim) :
    (entityDomain c (c.tdim, 0)).param z j = z j := hc.elim (fun h => cell_param h z hj) fun h => box_param h z hj

theorem lfeg_axis {c : Cell} (hc : LfegCell c) {k j : ℕ} (hk : k < c.tdim) (hj : j < c.tdim) :
    axis (entityDomain c (c.tdim, 0)).cell (entityDomain c (c.tdim, 0)).v k j = if j = k then 1 else 0 := by
  rcases hc with (rfl | rfl) | hc
  · have hv : ∀ j k, (entityDomain .triangle (2, 0)).v j k =
      refVertex .triangle ((entVerts .triangle 2 0).getD j 0) k := fun _ _ => rfl
    have e0 : entVerts .triangle 2 0 = [0, 1, 2] := rfl
    have hc : (entityDomain .triangle (2, 0)).cell = .triangle := rfl
    simp only [Cell.tdim] at hj hk
    show axis (entityDomain .triangle (2, 0)).cell (entityDomain .triangle (2, 0)).v k j = _
    rw [hc]
    interval_cases j <;> interval_cases k <;> norm_num [axis, psub, hv, e0, axisVertices, refVertex, refVerts, coords]
  · have hv : ∀ j k, (entityDomain .tetrahedron (3, 0)).v j k =
      refVertex .tetrahedron ((entVerts .tetrahedron 3 0).getD j 0) k := fun _ _ => rfl
    have e0 : entVerts .tetrahedron 3 0 = [0, 1, 2, 3] := rfl
    have hc : (entityDomain .tetrahedron (3, 0)).cell = .tetrahedron := rfl
    simp only [Cell.tdim] at hj hk
    show axis (entityDomain .tetrahedron (3, 0)).cell (entityDomain .tetrahedron (3, 0)).v k j = _
    rw [hc]
    interval_cases j <;> interval_cases k <;> norm_num [axis, psub, hv, e0, axisVertices, refVertex, refVerts, coords]
  · exact box_axis hc hk hj

/-- A functional given by a function, in the cell. -/
theorem lfeg_against {c : Cell} (hc : LfegCell c) {f : List (MvPolynomial ℕ ℝ)} (hf : f.length = c.tdim) (mp : String) :
    ∃ d, againstDof c (c.tdim, 0) mp f = some d ∧ d.entity = (c.tdim, 0) ∧
      ∀ (v : Field c.tdim) (k : ℤ), (∀ j, v j ∈ P c.tdim k) → d.eval v = pairing c v fun j => f.getD j.val 0 := by
  have hcell : (entityDomain c (c.tdim, 0)).cell = c := by rcases hc with (rfl | rfl) | (rfl | rfl) <;> rfl
  have hf' : f.length = (entityDomain c (c.tdim, 0)).cell.tdim := by rw [hf, hcell]
  unfold againstDof
  simp only [if_pos hf', lfeg_jacobian hc, Option.bind_some]
  have hj' : jacobian (entityDomain c (c.tdim, 0)).cell (entityDomain c (c.tdim, 0)).g (entityDomain c (c.tdim, 0)).v = some 1 :=
    lfeg_jacobian hc
  rw [hj', Option.map_some]
  refine ⟨_, rfl, rfl, fun v k hv => ?_⟩
  have := momentMap_push (entityDomain c (c.tdim, 0)) one_ne_zero (fun k => C (1 / (1 : ℝ)) * f.getD k.val 0) v
  refine this.trans ?_
  have key : ∀ (t : Cell) (ht : t = c) (w : Field t.tdim), (∀ (j : ℕ) (h : j < t.tdim) z, eval z (w ⟨j, h⟩) = eval z (v ⟨j, ht ▸ h⟩)) →
      pairing t w (fun j => C (1 / (1 : ℝ)) * f.getD j.val 0) = pairing c v fun j => f.getD j.val 0 := by
    intro t ht w hw
    subst ht
    rw [pairing_apply, pairing_apply]
    congr 1
    funext z
    rw [map_sum, map_sum]
    refine Finset.sum_congr rfl fun j _ => ?_
    rw [div_one, C_1, one_mul, map_mul, map_mul, hw j.val j.2]
  refine key _ hcell _ fun j h z => ?_
  have hj : j < c.tdim := by rwa [hcell] at h
  show eval z (comp (entityDomain c (c.tdim, 0)) (axis (entityDomain c (c.tdim, 0)).cell (entityDomain c (c.tdim, 0)).v j) v) = _
  refine (eval_comp (entityDomain c (c.tdim, 0)) _ v z).trans ?_
  show ∑ i : Fin c.tdim, _ = _
  rw [Finset.sum_eq_single ⟨j, hj⟩]
  · rw [lfeg_axis hc hj hj, if_pos rfl, one_mul, eval_congr_P (hv _) fun l hl => lfeg_param hc z hl]
  · intro i _ hi
    rw [lfeg_axis hc hj i.2, if_neg fun hc => hi (Fin.ext hc), zero_mul]
  · intro hn; exact absurd (Finset.mem_univ _) hn

/-- The field of the vectors from the midpoint. -/
noncomputable def fromMidpoint (c : Cell) : Field c.tdim := fun j => X j.val - C (midpoint c (refVertex c) j.val)

theorem fromMidpoint_mem (c : Cell) (j : Fin c.tdim) : fromMidpoint c j ∈ P c.tdim 1 :=
  Submodule.sub_mem _ (X_mem j.2) (Families.C_mem _ (by norm_num))

theorem lfegFun_getD {c : Cell} (j : Fin c.tdim) : (lfegFun c).getD j.val 0 = fromMidpoint c j := by
  simp [lfegFun, fromMidpoint]

theorem fromMidpoint_ne {c : Cell} (j : Fin c.tdim) : fromMidpoint c j ≠ 0 := by
  intro h
  have := congrArg (coeff (Finsupp.single j.val 1)) h
  have hn : (0 : ℕ →₀ ℕ) ≠ Finsupp.single j.val 1 := fun h => by
    have := DFunLike.congr_fun h j.val
    simp at this
  simp [fromMidpoint, coeff_C, hn] at this

theorem lfegSize_eq (c : Cell) : lfegSize c = pairing c (fromMidpoint c) (fromMidpoint c) := by
  rw [lfegSize, pairing_apply]
  congr 1
  funext z
  congr 1
  rw [lfegFun, List.map_map, ← List.sum_ofFn]
  congr 1
  apply List.ext_getElem
  · simp
  · intro i h1 h2
    simp [fromMidpoint]

theorem lfegSize_ne {c : Cell} (hc : LfegCell c) : lfegSize c ≠ 0 := by
  intro h
  have hpos : 0 < c.tdim := by rcases hc with (rfl | rfl) | (rfl | rfl) <;> decide
  rw [lfegSize_eq, pairing_apply] at h
  refine fromMidpoint_ne ⟨0, hpos⟩ (squares_zero hc.solid (fun _ : Fin c.tdim => 1) (fun _ z _ => by simp) (fun _ z _ => by simp)
    (fromMidpoint c) (fromMidpoint_mem c) ?_ ⟨0, hpos⟩)
  refine Eq.trans ?_ h
  congr 1
  funext z
  congr 1
  exact Finset.sum_congr rfl fun j _ => by rw [one_mul, pow_two]

/-- The enrichment has one basis function, the vector from the midpoint. -/
theorem lfegEnrichment_basis {c : Cell} (hc : LfegCell c) : ∃ e, lfegEnrichment c = some e ∧ getBasis e = some [fromMidpoint c] ∧
    dofEntities e = [(c.tdim, 0)] := by
  obtain ⟨d, h1, h2, h3⟩ := lfeg_against hc (f := (lfegFun c).map fun p => C (1 / lfegSize c) * p) (by simp [lfegFun]) "contravariant"
  have hfun : (fun j : Fin c.tdim => (lfegFun c).getD j.val 0) = fromMidpoint c := funext fun j => lfegFun_getD j
  have hev : d.eval (fromMidpoint c) = 1 := by
    rw [h3 _ 1 (fromMidpoint_mem c)]
    have : (fun j : Fin c.tdim => ((lfegFun c).map fun p => C (1 / lfegSize c) * p).getD j.val 0) = (1 / lfegSize c) • fromMidpoint c := by
      funext j
      simp [lfegFun, fromMidpoint, smul_eq_C_mul]
    rw [this, map_smul, ← lfegSize_eq, smul_eq_mul, one_div, inv_mul_cancel₀ (lfegSize_ne hc)]
  have hne : fromMidpoint c ≠ 0 := fun h => by rw [h, map_zero] at hev; exact zero_ne_one hev
  obtain ⟨k1, fs, k2, k3, k4⟩ := ciarlet_basis (basis := [fromMidpoint c]) (dofs := [d]) rfl
    (by
      unfold Independent
      haveI : Subsingleton (Fin [fromMidpoint c].length) := inferInstanceAs (Subsingleton (Fin 1))
      exact LinearIndependent.of_subsingleton (R := ℝ) (v := fun i : Fin [fromMidpoint c].length => [fromMidpoint c][i]) ⟨0, by simp⟩ (by simpa using hne)) fun p hp hz => by
      obtain ⟨a, rfl⟩ : ∃ a : ℝ, a • fromMidpoint c = p := by
        have : lspan [fromMidpoint c] = Submodule.span ℝ {fromMidpoint c} := by
          unfold lspan
          congr 1
          ext
          simp
        rw [this] at hp
        exact Submodule.mem_span_singleton.1 hp
      have := hz d (by simp)
      rw [map_smul, hev, smul_eq_mul, mul_one] at this
      rw [this, zero_smul]
  refine ⟨_, by rw [lfegEnrichment, h1, Option.bind_some, hfun]; exact k1, ?_, by simp [dofEntities, h2]⟩
  rw [k2]
  obtain ⟨g, rfl⟩ := List.length_eq_one_iff.1 k4
  have hd := (getBasis_ciarlet_dual _ _ _ k2).2 0 0 g d rfl rfl
  obtain ⟨a, rfl⟩ : ∃ a : ℝ, a • fromMidpoint c = g := by
    have h5 : g ∈ lspan [fromMidpoint c] := k3 ▸ mem_lspan (by simp)
    have : lspan [fromMidpoint c] = Submodule.span ℝ {fromMidpoint c} := by
      unfold lspan
      congr 1
      ext
      simp
    rw [this] at h5
    exact Submodule.mem_span_singleton.1 h5
  rw [map_smul, hev, smul_eq_mul, mul_one, if_pos rfl] at hd
  rw [hd, one_smul]

/-- **C136** Locking-free enriched Galerkin elements have basis functions at every order: those of the vector Lagrange element,
which span the vectors of polynomials of the order, and the vector from the midpoint, a combination of the others. -/
theorem lfeg_basis {c : Cell} (hc : LfegCell c) {k : ℕ} (hk : 1 ≤ k) : ∃ e fs, lfegElement c k = some e ∧
    getBasis e = some (fs ++ [fromMidpoint c]) ∧ fs.length = lagCount c k * c.tdim ∧
    (∀ v, v ∈ lspan fs ↔ ∀ i, v i ∈ W c k) ∧ ¬ Independent ℝ (fs ++ [fromMidpoint c]) := by
  obtain ⟨b, g1, g2, -⟩ := lfegEnrichment_basis hc
  have main : ∀ (a : Element ℝ (Field c.tdim)) (fs : List (Field c.tdim)), (if c ∈ [Cell.quadrilateral, .hexahedron] then vectorQElement "equispaced" c k
      else vectorLagrangeElement "equispaced" c (refVertex c) k) = some a → getBasis a = some fs → (∀ v, v ∈ lspan fs ↔ ∀ i, v i ∈ W c k) →
      fs.length = lagCount c k * c.tdim → ∃ e fs, lfegElement c k = some e ∧
      getBasis e = some (fs ++ [fromMidpoint c]) ∧ fs.length = lagCount c k * c.tdim ∧
      (∀ v, v ∈ lspan fs ↔ ∀ i, v i ∈ W c k) ∧ ¬ Independent ℝ (fs ++ [fromMidpoint c]) := by
    intro a fs h1 h2 h3 h4
    have hpos : 0 < c.tdim := by rcases hc with (rfl | rfl) | (rfl | rfl) <;> decide
    refine ⟨_, fs, by rw [lfegElement, h1, g1]; rfl, by simp [getBasis, getBases, h2, g2], h4, h3,
      dependent_of_mem ((h3 _).2 fun i => ?_) fun h => fromMidpoint_ne ⟨0, hpos⟩ (congrFun h _)⟩
    have hm : fromMidpoint c i ∈ P c.tdim k := P_mono (by exact_mod_cast hk) (fromMidpoint_mem c i)
    rcases hc.lag with h | h
    · rw [W_simplex h]; exact hm
    · rw [W_box h]; exact Degrees.P_le_QP _ _ hm
  rcases hc with hc | hc
  · have hs : Simplex c := by rcases hc with rfl | rfl <;> simp [Simplex]
    obtain ⟨a, fs, h1, h2, h3, h4⟩ := vectorLagrange_basis hs (refVertex c) (nonDegenerate_ref hs) k
    refine main a fs ?_ h2 (fun v => ?_) ?_
    · rw [if_neg (by rcases hc with rfl | rfl <;> simp), h1]
    · rw [h3, mem_PV, W_simplex hs]
    · rw [h4, lagCount, if_pos (simplex_mem hs)]
  · obtain ⟨a, fs, h1, h2, h3, h4⟩ := vectorQ_basis hc.tensor (points_equispaced k)
    refine main a fs ?_ h2 (fun v => ?_) ?_
    · rw [if_pos (by rcases hc with rfl | rfl <;> simp), h1]
    · rw [h3, W_box hc]
    · rw [h4, lagCount, if_neg (box_not_mem hc)]

/-- Order 2 on a triangle: seven functions. -/
example : ∃ e fs, egElement .triangle 2 = some e ∧ getBasis e = some fs ∧ fs.length = 7 := by
  obtain ⟨e, fs, h1, h2, h3, -⟩ := eg_basis tri_cell 2
  exact ⟨e, _, h1, h2, by rw [List.length_append, h3]; rfl⟩

end Verif.Scalar
