import Verif.Families.Mapped
/-!
# Elements with moments of the normal components

What is common to `RaviartThomas` and `BDM`: moments of the normal component on every facet, and moments inside the cell.
-/

namespace Verif.Families
open Verif.References Verif.Moments Verif.Functionals Verif.Elements Verif.FiniteElement Verif.Polysets Verif.Orthogonal
open MvPolynomial

/-- The element is created, has `n` functionals and basis functions, its basis functions span exactly the functions with
property `S`, and its functionals determine these functions. -/
def Created {V : Type} [AddCommGroup V] [Module ℝ V] (e : Option (Element ℝ V)) (S : V → Prop) (n : ℕ)
    (T : List (Dof ℝ V) → Prop) : Prop :=
  ∃ basis dofs fs, e = some (.ciarlet basis dofs) ∧ getBasis (.ciarlet basis dofs) = some fs ∧
    dofs.length = n ∧ fs.length = n ∧ (∀ v, v ∈ lspan fs ↔ S v) ∧
    (∀ v, S v → (∀ d ∈ dofs, d.eval v = 0) → v = 0) ∧ T dofs

/-- The cell of the facets. -/
def facetCell : Cell → Cell
  | .triangle => .interval
  | _ => .triangle

theorem facetCell_simplex (c : Cell) : Simplex (facetCell c) := by
  cases c <;> simp [facetCell, Simplex]

theorem facetCell_tdim {c : Cell} (hc : Simp c) : (facetCell c).tdim = c.tdim - 1 := by
  rcases hc with rfl | rfl <;> rfl

/-- The moments on the facets and in the cell. -/
def hdivMoments (c : Cell) (dA dB : Data) (xs ys : List Fun) : List (MomentDof Fun) :=
  ((List.range (c.tdim + 1)).flatMap fun i => xs.map fun x => ⟨dA.moment, x, (c.tdim - 1, i), dA.mapping⟩) ++
    ys.map fun y => ⟨dB.moment, y, (c.tdim, 0), dB.mapping⟩

theorem hdivMoments_length (c : Cell) (dA dB : Data) (xs ys : List Fun) :
    (hdivMoments c dA dB xs ys).length = (c.tdim + 1) * xs.length + ys.length := by
  simp [hdivMoments, List.length_flatMap]

theorem hdiv_moments {classes : String → ElementClass Fun} {c : Cell} (hc : Simp c) {A B : List Item} {dA dB : Data}
    (hA : parse A = some dA) (hB : parse B = some dB) {xs ys : List Fun} (hx : subFuns classes dA (facetCell c) = some xs)
    (hy : subFuns classes dB c = some ys) :
    makeIntegralMomentDofs classes c { facets := some (.single A), cells := some (.single B) } =
      some (hdivMoments c dA dB xs ys) := by
  have e0 : ∀ dim : ℤ, slotDofs classes c dim none = some [] := fun _ => rfl
  have h1 : slotDofs classes c ((c.tdim : ℤ) - 1) (some (.single A)) = some ((List.range (c.tdim + 1)).flatMap fun i =>
      xs.map fun x => ⟨dA.moment, x, (c.tdim - 1, i), dA.mapping⟩) := by
    rcases hc with rfl | rfl
    · exact slot_uniform (dim := 1) (by omega) (by omega) (by decide) rfl hA hx
    · exact slot_uniform (dim := 2) (by omega) (by omega) (by decide) rfl hA hx
  have h2 : slotDofs classes c (c.tdim : ℤ) (some (.single B)) = some (ys.map fun y => ⟨dB.moment, y, (c.tdim, 0), dB.mapping⟩) := by
    rcases hc with rfl | rfl
    · refine (slot_uniform (c := .triangle) (t := .triangle) (dim := 2) (by omega) (by omega) (by decide) rfl hB hy).trans ?_
      simp [show entityCount .triangle 2 = 1 from rfl, Cell.tdim]
    · refine (slot_uniform (c := .tetrahedron) (t := .tetrahedron) (dim := 3) (by omega) (by omega) (by decide) rfl hB hy).trans ?_
      simp [show entityCount .tetrahedron 3 = 1 from rfl, Cell.tdim]
  unfold makeIntegralMomentDofs slots
  simp only [List.mapM_cons, List.mapM_nil, e0, h1, h2, Option.bind_eq_bind, Option.bind_some, Option.pure_def, Option.map_some,
    List.flatten_cons, List.flatten_nil, List.nil_append, List.append_nil]
  rfl

theorem momentFn_normal (D : Domain) (p : MvPolynomial ℕ ℝ) :
    momentFn "NormalIntegralMoment" D (.scalar p) = (normal D.cell D.g D.v).map fun s (i : Fin D.g) => C (s i) * p := by
  rw [momentFn, if_neg (by simp), if_pos rfl]

theorem momentFn_tangent (D : Domain) (p : MvPolynomial ℕ ℝ) :
    momentFn "TangentIntegralMoment" D (.scalar p) = (tangent D.cell D.g D.v).map fun s (i : Fin D.g) => C (s i) * p := by
  rw [momentFn, if_pos rfl]

theorem momentFn_cell (D : Domain) (f : Field D.g) : momentFn "IntegralMoment" D (.vector D.g f) = some f := by
  rw [momentFn, if_pos rfl, dif_pos rfl]
  rfl

theorem momentFn_push (D : Domain) (f : Field D.cell.tdim) (h : D.cell.tdim ≠ D.g) :
    momentFn "IntegralMoment" D (.vector D.cell.tdim f) = (jacobian D.cell D.g D.v).map fun J (i : Fin D.g) =>
      ∑ k : Fin D.cell.tdim, C (axis D.cell D.v k i / J) * f k := by
  rw [momentFn, if_pos rfl, dif_neg h, if_pos rfl]

theorem momentDof_of {c : Cell} {m : MomentDof Fun} {w : Field (entityDomain c m.entity).g} {J : ℝ}
    (hw : momentFn m.moment (entityDomain c m.entity) m.sub = some w)
    (hJ : jacobian (entityDomain c m.entity).cell c.tdim (entityDomain c m.entity).v = some J) :
    momentDof c m = some ⟨(momentDefault m.moment).1, m.entity, some (m.mapping.getD (momentDefault m.moment).2),
      momentMap (entityDomain c m.entity) J w⟩ := by
  show (momentFn m.moment (entityDomain c m.entity) m.sub).bind _ = _
  rw [hw, Option.bind_some]
  show Option.map _ (jacobian (entityDomain c m.entity).cell c.tdim (entityDomain c m.entity).v) = _
  rw [hJ, Option.map_some]

theorem momentMap_scale (D : Domain) (J s : ℝ) (n : ℕ → ℝ) (x : MvPolynomial ℕ ℝ) (v : Field D.g) :
    momentMap D (J * s) (fun i => C (n i) * x) v = momentMap D J (fun i => C (s * n i) * x) v := by
  rw [momentMap_eq, momentMap_eq, mul_assoc, ← cellInt_const_mul (k := s)]
  congr 2
  funext y
  have e : ∀ q : MvPolynomial ℕ ℝ, s * eval y q = eval y (C s * q) := fun q => by rw [map_mul, eval_C]
  rw [e]
  congr 1
  rw [Finset.mul_sum]
  refine Finset.sum_congr rfl fun j _ => ?_
  rw [map_mul]
  ring

/-- If the moments of a component vanish, so does the component. -/
theorem trace_zero (D : Domain) (hc : Solid D.cell) {J s : ℝ} (hJ : J ≠ 0) (hs : s ≠ 0) {n : ℕ → ℝ} {v : Field D.g} {m k : ℤ}
    (hv : ∀ j, v j ∈ P D.g k) (hcomp : comp D n v ∈ P D.cell.tdim m) {xs : List (MvPolynomial ℕ ℝ)}
    (hxs : lspan xs = P D.cell.tdim m) (h : ∀ x ∈ xs, momentMap D J (fun j => C (s * n j.val) * x) v = 0) {y z : ℕ → ℝ}
    (hy : ∀ j < D.g, D.param y j = z j) : ∑ j, n j.val * eval z (v j) = 0 := by
  have h0 : comp D n v = 0 := comp_zero D hc (mul_ne_zero hJ hs) hcomp hxs fun x hx =>
    (momentMap_scale D J s n x v).trans (h x hx)
  have := eval_comp D n v y
  rw [h0, map_zero] at this
  rw [this]
  refine Finset.sum_congr rfl fun j _ => ?_
  rw [eval_congr_P (hv j) fun l hl => (hy l hl).symm]

/-- The moments of the cell. -/
theorem moment_pairing (D : Domain) {v : Field D.g} {k : ℤ} (hv : ∀ j, v j ∈ P D.g k) (y : Field D.g)
    (hp : ∀ z, ∀ j < D.g, D.param z j = z j) : momentMap D 1 y v = pairing D.cell v y := by
  rw [momentMap_eq, one_mul, pairing_apply]
  congr 1
  funext z
  rw [map_sum, map_sum]
  refine Finset.sum_congr rfl fun j _ => ?_
  rw [map_mul, map_mul, eval_pull, eval_congr_P (hv j) fun l hl => hp z l hl]

/-- The functionals on a facet. -/
theorem facet_moment {c : Cell} (hc : Simp c) {i : ℕ} (hi : i ≤ c.tdim) (mp : Option String) :
    ∃ J s : ℝ, J ≠ 0 ∧ s ≠ 0 ∧ ∀ x, ∃ d, momentDof c ⟨"NormalIntegralMoment", .scalar x, (c.tdim - 1, i), mp⟩ = some d ∧
      d.entity = (c.tdim - 1, i) ∧ ∀ v, d.eval v = momentMap (entityDomain c (c.tdim - 1, i)) J
        (fun j => C (s * facetNormal i j.val) * x) v := by
  obtain ⟨J, n, s, hJ, hs, h1, h2, h3⟩ := (facet_facts hc hi).facts
  refine ⟨J, s, hJ, hs, fun x => ⟨_, momentDof_of (w := fun j => C (n j.val) * x) ?_ h1, rfl, ?_⟩⟩
  · rw [momentFn_normal]
    show Option.map _ (normal (entityDomain c (c.tdim - 1, i)).cell c.tdim (entityDomain c (c.tdim - 1, i)).v) = _
    rw [h2, Option.map_some]
  · intro v
    show momentMap (entityDomain c (c.tdim - 1, i)) J (fun j => C (n j.val) * x) v = _
    congr 2
    funext j
    rw [h3 j.val j.2]

/-- If the moments on a facet vanish, so does the normal component. -/
theorem normal_trace {c : Cell} (hc : Simp c) {i : ℕ} (hi : i ≤ c.tdim) {v : Field c.tdim} {k m : ℤ}
    (hv : ∀ j, v j ∈ P c.tdim k) (hcomp : comp (entityDomain c (c.tdim - 1, i)) (facetNormal i) v ∈ P (c.tdim - 1) m)
    {xs : List (MvPolynomial ℕ ℝ)} (hxs : lspan xs = P (c.tdim - 1) m) {mp : Option String}
    (h : ∀ x ∈ xs, ∀ d, momentDof c ⟨"NormalIntegralMoment", .scalar x, (c.tdim - 1, i), mp⟩ = some d → d.eval v = 0)
    (z : ℕ → ℝ) (hz : OnFacet c.tdim i z) : ∑ j, facetNormal i j.val * eval z (v j) = 0 := by
  have F := facet_facts hc hi
  obtain ⟨J, s, hJ, hs, hm⟩ := facet_moment hc hi mp
  have hcomp' : comp (entityDomain c (c.tdim - 1, i)) (facetNormal i) v ∈ P (entityDomain c (c.tdim - 1, i)).cell.tdim m := by
    rw [F.cell]; exact hcomp
  have hxs' : lspan xs = P (entityDomain c (c.tdim - 1, i)).cell.tdim m := by rw [F.cell]; exact hxs
  obtain ⟨y, hy⟩ := F.covers z hz
  refine trace_zero (entityDomain c (c.tdim - 1, i)) F.solid hJ hs hv hcomp' hxs' (fun x hx => ?_) hy
  obtain ⟨d, hd, -, hd'⟩ := hm x
  rw [← hd']
  exact h x hx d hd

/-- Vanishing normal components on all facets. -/
theorem normalZero_of {c : Cell} {v : Field c.tdim}
    (h : ∀ i ≤ c.tdim, ∀ z, OnFacet c.tdim i z → ∑ j, facetNormal i j.val * eval z (v j) = 0) : NormalZero c.tdim v := by
  constructor
  · intro i z hz
    have := h (i.val + 1) i.2 z (by simpa [OnFacet] using hz)
    rw [Finset.sum_eq_single i] at this
    · simpa [facetNormal] using this
    · intro j _ hj
      have : ¬ j.val = i.val := fun hh => hj (Fin.ext hh)
      simp [facetNormal, this]
    · intro hh; exact absurd (Finset.mem_univ i) hh
  · intro z hz
    have := h 0 (Nat.zero_le _) z (by simpa [OnFacet] using hz)
    simpa [facetNormal] using this

/-- The parametrisation of the default cell. -/
theorem cell_param {c : Cell} (hc : Simp c) (z : ℕ → ℝ) {j : ℕ} (hj : j < c.tdim) : (entityDomain c (c.tdim, 0)).param z j = z j := by
  rcases hc with rfl | rfl
  · have hv : ∀ j k, (entityDomain .triangle (2, 0)).v j k =
      refVertex .triangle ((entVerts .triangle 2 0).getD j 0) k := fun _ _ => rfl
    have e0 : entVerts .triangle 2 0 = [0, 1, 2] := rfl
    have hc : (entityDomain .triangle (2, 0)).cell = .triangle := rfl
    simp only [Cell.tdim] at hj
    show (entityDomain .triangle (2, 0)).param z j = z j
    interval_cases j <;> norm_num [Domain.param, hc, hv, e0, Finset.sum_range_succ, axisVertices, refVertex, refVerts, coords,
        show Cell.triangle.tdim = 2 from rfl]
  · have hv : ∀ j k, (entityDomain .tetrahedron (3, 0)).v j k =
      refVertex .tetrahedron ((entVerts .tetrahedron 3 0).getD j 0) k := fun _ _ => rfl
    have e0 : entVerts .tetrahedron 3 0 = [0, 1, 2, 3] := rfl
    have hc : (entityDomain .tetrahedron (3, 0)).cell = .tetrahedron := rfl
    simp only [Cell.tdim] at hj
    show (entityDomain .tetrahedron (3, 0)).param z j = z j
    interval_cases j <;> norm_num [Domain.param, hc, hv, e0, Finset.sum_range_succ, axisVertices, refVertex, refVerts, coords,
        show Cell.tetrahedron.tdim = 3 from rfl]

theorem cell_jacobian {c : Cell} (hc : Simp c) :
    jacobian (entityDomain c (c.tdim, 0)).cell c.tdim (entityDomain c (c.tdim, 0)).v = some 1 := by
  rcases hc with rfl | rfl
  · have hv : ∀ j k, (entityDomain .triangle (2, 0)).v j k =
      refVertex .triangle ((entVerts .triangle 2 0).getD j 0) k := fun _ _ => rfl
    have e0 : entVerts .triangle 2 0 = [0, 1, 2] := rfl
    have hc : (entityDomain .triangle (2, 0)).cell = .triangle := rfl
    show jacobian (entityDomain .triangle (2, 0)).cell 2 (entityDomain .triangle (2, 0)).v = some 1
    rw [hc]
    simp only [jacobian, axisVertices, Cell.tdim]
    norm_num [axis, psub, hv, e0, axisVertices, refVertex, refVerts, coords, pcross]
  · have hv : ∀ j k, (entityDomain .tetrahedron (3, 0)).v j k =
      refVertex .tetrahedron ((entVerts .tetrahedron 3 0).getD j 0) k := fun _ _ => rfl
    have e0 : entVerts .tetrahedron 3 0 = [0, 1, 2, 3] := rfl
    have hc : (entityDomain .tetrahedron (3, 0)).cell = .tetrahedron := rfl
    show jacobian (entityDomain .tetrahedron (3, 0)).cell 3 (entityDomain .tetrahedron (3, 0)).v = some 1
    rw [hc]
    simp only [jacobian, axisVertices, Cell.tdim]
    norm_num [axis, psub, hv, e0, axisVertices, refVertex, refVerts, coords, pcross, pdot, Finset.sum_range_succ]

/-- The functionals in the cell. -/
theorem cell_moment {c : Cell} (hc : Simp c) (y : Field c.tdim) (mp : Option String) :
    ∃ d, momentDof c ⟨"IntegralMoment", .vector c.tdim y, (c.tdim, 0), mp⟩ = some d ∧ d.entity = (c.tdim, 0) ∧
      ∀ (v : Field c.tdim) (k : ℤ), (∀ j, v j ∈ P c.tdim k) → d.eval v = pairing c v y := by
  refine ⟨_, momentDof_of (momentFn_cell (entityDomain c (c.tdim, 0)) y) (cell_jacobian hc), rfl, ?_⟩
  · intro v k hv
    have hcell : (entityDomain c (c.tdim, 0)).cell = c := by rcases hc with rfl | rfl <;> rfl
    have := moment_pairing (entityDomain c (c.tdim, 0)) hv y fun z j hj => cell_param hc z hj
    refine this.trans ?_
    show pairing (entityDomain c (c.tdim, 0)).cell (d := c.tdim) v y = pairing c v y
    rw [hcell]

/-- The normal component on facet `i` vanishes whenever the functionals of facet `i` vanish. -/
def NormalTrace (c : Cell) (S : Field c.tdim → Prop) (dofs : List (Dof ℝ (Field c.tdim))) : Prop :=
  ∀ i ≤ c.tdim, ∀ v, S v → (∀ d ∈ dofs, d.entity = (c.tdim - 1, i) → d.eval v = 0) →
    ∀ z, OnFacet c.tdim i z → ∑ j, facetNormal i j.val * eval z (v j) = 0

/-- Conformity in H(div).  Two cells, with vertices `V` and `V'`, share a facet: its vertices are the same, in the same
order, in both.  If two functions of the space have the same values of the functionals of that facet, then the normal
components of the functions mapped to the cells are equal on the facet. -/
def NormalConform (c : Cell) (S : Field c.tdim → Prop) (dofs : List (Dof ℝ (Field c.tdim))) : Prop :=
  ∀ i < entityCount c (c.tdim - 1), ∀ i' < entityCount c (c.tdim - 1), ∀ v v', S v → S v' →
    (entityFunctionals dofs (c.tdim - 1, i)).map (·.eval v) = (entityFunctionals dofs (c.tdim - 1, i')).map (·.eval v') →
    ∀ V V' g g', mapped pushContra c V v = some g → mapped pushContra c V' v' = some g' →
    (∀ k < (entVerts c (c.tdim - 1) i).length,
      V ((entVerts c (c.tdim - 1) i).getD k 0) = V' ((entVerts c (c.tdim - 1) i').getD k 0)) →
    ∀ t y, y = (physDomain c V (c.tdim - 1, i)).param t →
      ∑ r : Fin c.tdim, areaVec c.tdim (physDomain c V (c.tdim - 1, i)).v r.val * g y r =
      ∑ r : Fin c.tdim, areaVec c.tdim (physDomain c V (c.tdim - 1, i)).v r.val * g' y r

/-- What is needed for the conformity: the values of the functionals of a facet are the moments of the normal component. -/
theorem normal_conform {c : Cell} (hc : Affine4 c) {S : Field c.tdim → Prop} {dofs : List (Dof ℝ (Field c.tdim))} {k : ℤ}
    (hk : ∀ v, S v → ∀ j, v j ∈ P c.tdim k) {T : MvPolynomial ℕ ℝ → Prop} {fc : Cell}
    (hfc : ∀ i < entityCount c (c.tdim - 1), (entityDomain c (c.tdim - 1, i)).cell = fc)
    (hT : ∀ v, S v → ∀ i < entityCount c (c.tdim - 1),
      T (comp (entityDomain c (c.tdim - 1, i)) (areaVec c.tdim (entityDomain c (c.tdim - 1, i)).v) v))
    {xs : List (MvPolynomial ℕ ℝ)} (hz : ∀ p q, T p → T q → (∀ x ∈ xs, pairing1 fc p x = pairing1 fc q x) → p = q)
    (hv : ∀ v, S v → ∀ i < entityCount c (c.tdim - 1), (entityFunctionals dofs (c.tdim - 1, i)).map (·.eval v) =
      xs.map fun x => pairing1 fc (comp (entityDomain c (c.tdim - 1, i)) (areaVec c.tdim (entityDomain c (c.tdim - 1, i)).v) v) x) :
    NormalConform c S dofs := by
  intro i hi i' hi' v v' hSv hSv' heq V V' g g' hg hg' hV t y hy
  obtain ⟨F, hF, -⟩ := Option.map_eq_some_iff.1 hg
  obtain ⟨F', hF', -⟩ := Option.map_eq_some_iff.1 hg'
  have hcell : (physDomain c V (c.tdim - 1, i)).cell = fc := hfc i hi
  have hcell' : (physDomain c V' (c.tdim - 1, i')).cell = fc := hfc i' hi'
  have hlen : ∀ i < entityCount c (c.tdim - 1), (∀ k ∈ axisVertices (entityDomain c (c.tdim - 1, i)).cell,
      k < (entVerts c (c.tdim - 1) i).length) ∧ c.tdim ≤ (entVerts c (c.tdim - 1) i).length := by
    rcases hc with rfl | rfl | rfl | rfl <;> decide
  have hver : ∀ k, k = 0 ∨ k < c.tdim ∨ k ∈ axisVertices fc → (physDomain c V (c.tdim - 1, i)).v k = (physDomain c V' (c.tdim - 1, i')).v k := by
    intro k hk
    have h2 := hlen i hi
    rw [hfc i hi] at h2
    have : 0 < c.tdim := by rcases hc with rfl | rfl | rfl | rfl <;> decide
    refine hV k ?_
    rcases hk with rfl | h | h
    · omega
    · omega
    · exact h2.1 k h
  have hd : c.tdim = 2 ∨ c.tdim = 3 := by rcases hc with rfl | rfl | rfl | rfl <;> simp [Cell.tdim]
  have harea : areaVec c.tdim (physDomain c V (c.tdim - 1, i)).v = areaVec c.tdim (physDomain c V' (c.tdim - 1, i')).v := by
    unfold areaVec
    rw [hver 0 (by simp), hver 1 (by omega)]
    rcases hd with h | h
    · rw [if_pos h, if_pos h]
    · rw [hver 2 (by omega)]
  have hpar : y = (physDomain c V' (c.tdim - 1, i')).param t := by
    rw [hy]
    funext j
    rw [Domain.param, Domain.param, hcell, hcell', hver 0 (by simp)]
    congr 1
    refine Finset.sum_congr rfl fun k hk => ?_
    rw [hver]
    by_cases h : k < (axisVertices fc).length
    · rw [List.getD_eq_getElem _ _ h]
      exact Or.inr (Or.inr (List.getElem_mem h))
    · rw [List.getD_eq_default _ _ (by omega)]
      exact Or.inl rfl
  have hcomp : comp (entityDomain c (c.tdim - 1, i)) (areaVec c.tdim (entityDomain c (c.tdim - 1, i)).v) v =
      comp (entityDomain c (c.tdim - 1, i')) (areaVec c.tdim (entityDomain c (c.tdim - 1, i')).v) v' := by
    refine hz _ _ (hT v hSv i hi) (hT v' hSv' i' hi') fun x hx => ?_
    rw [hv v hSv i hi, hv v' hSv' i' hi'] at heq
    exact List.map_inj_left.1 heq x hx
  rw [mapped_param hc (hk v hSv) hg _ t y fun j _ => by rw [hy], area_contra hc hF, harea,
    mapped_param hc (hk v' hSv') hg' _ t y fun j _ => by rw [hpar], area_contra hc hF']
  exact (eval_comp (entityDomain c (c.tdim - 1, i)) _ v t).symm.trans ((congrArg (eval t) hcomp).trans
    (eval_comp (entityDomain c (c.tdim - 1, i')) _ v' t))

/-- The value of a normal moment. -/
theorem momentMap_pairing (D : Domain) {J : ℝ} {n a : ℕ → ℝ} (h : ∀ j, J * n j = a j) (x : MvPolynomial ℕ ℝ) (v : Field D.g) :
    momentMap D J (fun j => C (n j.val) * x) v = pairing1 D.cell (comp D a v) x := by
  rw [momentMap_eq, ← cellInt_const_mul]
  show _ = cellInt D.cell fun z => eval z (comp D a v * x)
  congr 1
  funext z
  rw [← eval_C (f := z) J, ← map_mul]
  congr 1
  rw [comp, Finset.sum_mul, Finset.mul_sum]
  refine Finset.sum_congr rfl fun j _ => ?_
  rw [← h, map_mul]
  ring

theorem facet_area {c : Cell} (hc : Simp c) {i : ℕ} {J : ℝ} {n : ℕ → ℝ}
    (h1 : jacobian (entityDomain c (c.tdim - 1, i)).cell c.tdim (entityDomain c (c.tdim - 1, i)).v = some J)
    (h2 : normal (entityDomain c (c.tdim - 1, i)).cell c.tdim (entityDomain c (c.tdim - 1, i)).v = some n) (hJ : J ≠ 0) (j : ℕ) :
    J * n j = areaVec c.tdim (entityDomain c (c.tdim - 1, i)).v j := by
  rcases hc with rfl | rfl
  · exact jac_normal2 h1 h2 hJ j
  · exact jac_normal3 (Or.inl rfl) h1 h2 hJ j

theorem pairing1_comm {c : Cell} (p q : MvPolynomial ℕ ℝ) : pairing1 c p q = pairing1 c q p := by
  show cellInt c (fun z => eval z (p * q)) = cellInt c fun z => eval z (q * p)
  rw [mul_comm]

/-- The functionals of an element with normal moments on the facets and moments in the interior: they determine the
functions of a space, and those of a facet determine the normal component on it. -/
theorem hdiv_functionals {classes : String → ElementClass Fun} {c : Cell} (hc : Simp c) {S : Field c.tdim → Prop}
    {k m : ℤ} (hk : ∀ v, S v → ∀ j, v j ∈ P c.tdim k)
    (hcomp : ∀ v, S v → ∀ i ≤ c.tdim, comp (entityDomain c (c.tdim - 1, i)) (facetNormal i) v ∈ P (c.tdim - 1) m)
    {A B : List Item} {dA dB : Data} (hA : parse A = some dA) (hB : parse B = some dB) {xs : List (MvPolynomial ℕ ℝ)}
    {ys : List (Field c.tdim)} (hx : subFuns classes dA (facetCell c) = some (xs.map .scalar))
    (hy : subFuns classes dB c = some (ys.map (.vector c.tdim))) (hAm : dA.moment = "NormalIntegralMoment")
    (hBm : dB.moment = "IntegralMoment") (hxs : lspan xs = P (c.tdim - 1) m)
    (hz : ∀ v, S v → NormalZero c.tdim v → (∀ y ∈ ys, pairing c v y = 0) → v = 0) :
    ∃ ms dofs, makeIntegralMomentDofs classes c { facets := some (.single A), cells := some (.single B) } = some ms ∧
      ms.mapM (momentDof c) = some dofs ∧ ms.length = (c.tdim + 1) * xs.length + ys.length ∧
      (∀ v, S v → (∀ d ∈ dofs, d.eval v = 0) → v = 0) ∧ NormalTrace c S dofs ∧ NormalConform c S dofs := by
  have hms := hdiv_moments hc hA hB hx hy
  obtain ⟨dofs, hdofs⟩ := mapM_exists (f := momentDof c) (l := hdivMoments c dA dB (xs.map .scalar) (ys.map (.vector c.tdim))) (by
    intro mo hmo
    simp only [hdivMoments, List.mem_append, List.mem_flatMap, List.mem_range, List.mem_map] at hmo
    rcases hmo with ⟨i, hi, _, ⟨x, -, rfl⟩, rfl⟩ | ⟨_, ⟨y, -, rfl⟩, rfl⟩
    · rw [hAm]
      obtain ⟨J, s, -, -, h⟩ := facet_moment hc (Nat.lt_succ_iff.1 hi) dA.mapping
      obtain ⟨d, hd, -⟩ := h x
      exact ⟨d, hd⟩
    · rw [hBm]
      obtain ⟨d, hd, -⟩ := cell_moment hc y dB.mapping
      exact ⟨d, hd⟩)
  have htr : NormalTrace c S dofs := by
    intro i hi v hv h z hz
    refine normal_trace hc hi (hk v hv) (hcomp v hv i hi) hxs (mp := dA.mapping) (fun x hx d hd => ?_) z hz
    obtain ⟨d', hd', h1⟩ := momentDof_mem hdofs (m := ⟨dA.moment, .scalar x, (c.tdim - 1, i), dA.mapping⟩) (by
      simp only [hdivMoments, List.mem_append, List.mem_flatMap, List.mem_range, List.mem_map]
      exact Or.inl ⟨i, by omega, _, ⟨x, hx, rfl⟩, rfl⟩)
    rw [hAm, hd] at h1
    obtain rfl := Option.some.inj h1
    obtain ⟨J, s, -, -, h'⟩ := facet_moment hc hi dA.mapping
    obtain ⟨d'', hd1, hd2, -⟩ := h' x
    obtain rfl := Option.some.inj (hd.symm.trans hd1)
    exact h d hd' hd2
  have hu : ∀ v, S v → (∀ d ∈ dofs, d.eval v = 0) → v = 0 := by
    intro v hv h
    refine hz v hv (normalZero_of fun i hi z hz => htr i hi v hv (fun d hd _ => h d hd) z hz) fun y hy => ?_
    obtain ⟨d', hd', h1⟩ := momentDof_mem hdofs (m := ⟨dB.moment, .vector c.tdim y, (c.tdim, 0), dB.mapping⟩) (by
      simp only [hdivMoments, List.mem_append, List.mem_flatMap, List.mem_range, List.mem_map]
      exact Or.inr ⟨_, ⟨y, hy, rfl⟩, rfl⟩)
    obtain ⟨d, hd, -, hd2⟩ := cell_moment hc y dB.mapping
    rw [hBm, hd] at h1
    obtain rfl := Option.some.inj h1
    rw [← hd2 v k (hk v hv)]
    exact h d hd'
  have hcount : entityCount c (c.tdim - 1) = c.tdim + 1 := by rcases hc with rfl | rfl <;> rfl
  have hcon : NormalConform c S dofs := by
    have hfc : ∀ i, (entityDomain c (c.tdim - 1, i)).cell = facetCell c := fun i => by rcases hc with rfl | rfl <;> rfl
    have hS : Solid (facetCell c) := by rcases hc with rfl | rfl <;> simp [facetCell, Solid]
    refine normal_conform hc.affine4 hk (T := fun p => p ∈ P (facetCell c).tdim m) (fun i _ => hfc i) (fun v hv i hi => ?_) (xs := xs)
      (fun p q hp hq h => ?_) fun v hv i hi => ?_
    · rw [hcount] at hi
      obtain ⟨J, n, s, hJ, hs, h1, h2, h3⟩ := (facet_facts hc (Nat.lt_succ_iff.1 hi)).facts
      have e : comp (entityDomain c (c.tdim - 1, i)) (areaVec c.tdim (entityDomain c (c.tdim - 1, i)).v) v =
          C (J * s) * comp (entityDomain c (c.tdim - 1, i)) (facetNormal i) v := by
        unfold comp
        rw [Finset.mul_sum]
        refine Finset.sum_congr rfl fun j _ => ?_
        rw [← mul_assoc, ← map_mul, mul_assoc, ← h3 j.val j.2, facet_area hc h1 h2 hJ]
      rw [e, facetCell_tdim hc]
      exact C_mul_mem _ (hcomp v hv i (Nat.lt_succ_iff.1 hi))
    · rw [← sub_eq_zero]
      refine eq_zero_of_pairing hS (Submodule.sub_mem _ hp hq) (fs := xs) ?_ fun x hx => ?_
      · rw [hxs, ← facetCell_tdim hc]; exact Submodule.sub_mem _ hp hq
      · have := h x hx
        rw [pairing1_comm, pairing1_comm q] at this
        rw [pairing1_comm, map_sub, this, sub_self]
    · rw [hcount] at hi
      refine entity_values hdofs (xs := xs) (h := fun x => ⟨dA.moment, .scalar x, (c.tdim - 1, i), dA.mapping⟩) ?_ fun x hx d hd => ?_
      · have h1 := filter_entities (dim := c.tdim - 1) (xs.map Fun.scalar) (fun x i => ⟨dA.moment, x, (c.tdim - 1, i), dA.mapping⟩)
          (fun _ _ => rfl) hi
        have h2 : (((ys.map (Fun.vector c.tdim)).map fun y => (⟨dB.moment, y, (c.tdim, 0), dB.mapping⟩ : MomentDof Fun)).filter
            fun m => decide (m.entity = (c.tdim - 1, i))) = [] := by
          rw [List.filter_eq_nil_iff]
          intro mo hmo
          obtain ⟨y, -, rfl⟩ := List.mem_map.1 hmo
          have : c.tdim ≠ c.tdim - 1 := by rcases hc with rfl | rfl <;> decide
          simp [this]
        rw [hdivMoments, List.filter_append, h1, h2, List.append_nil, List.map_map]
        rfl
      · obtain ⟨J, n, s, hJ, hs, h1, h2, h3⟩ := (facet_facts hc (Nat.lt_succ_iff.1 hi)).facts
        have hw : momentFn "NormalIntegralMoment" (entityDomain c (c.tdim - 1, i)) (.scalar x) = some fun j => C (n j.val) * x := by
          rw [momentFn_normal]
          show Option.map _ (normal (entityDomain c (c.tdim - 1, i)).cell c.tdim (entityDomain c (c.tdim - 1, i)).v) = _
          rw [h2, Option.map_some]
        rw [hAm] at hd
        obtain rfl := Option.some.inj ((momentDof_of (m := ⟨"NormalIntegralMoment", .scalar x, (c.tdim - 1, i), dA.mapping⟩) hw h1).symm.trans hd)
        rw [← hfc i]
        exact momentMap_pairing (entityDomain c (c.tdim - 1, i)) (fun j => facet_area hc h1 h2 hJ j) x v
  refine ⟨_, dofs, hms, hdofs, ?_, hu, htr, hcon⟩
  rw [hdivMoments_length, List.length_map, List.length_map]

theorem hdiv_created {classes : String → ElementClass Fun} {c : Cell} (hc : Simp c) {poly : Option (List VecPoly)}
    {pl : List VecPoly} (hpoly : poly = some pl) (hi : Independent ℝ (pl.map (denoteVec ℝ c.tdim))) {S : Field c.tdim → Prop}
    (hS : ∀ v, v ∈ lspan (pl.map (denoteVec ℝ c.tdim)) ↔ S v) {k m : ℤ} (hk : ∀ v, S v → ∀ j, v j ∈ P c.tdim k)
    (hcomp : ∀ v, S v → ∀ i ≤ c.tdim, comp (entityDomain c (c.tdim - 1, i)) (facetNormal i) v ∈ P (c.tdim - 1) m)
    {A B : List Item} {dA dB : Data} (hA : parse A = some dA) (hB : parse B = some dB) {xs : List (MvPolynomial ℕ ℝ)}
    {ys : List (Field c.tdim)} (hx : subFuns classes dA (facetCell c) = some (xs.map .scalar))
    (hy : subFuns classes dB c = some (ys.map (.vector c.tdim))) (hAm : dA.moment = "NormalIntegralMoment")
    (hBm : dB.moment = "IntegralMoment") (hxs : lspan xs = P (c.tdim - 1) m)
    (hz : ∀ v, S v → NormalZero c.tdim v → (∀ y ∈ ys, pairing c v y = 0) → v = 0)
    (hlen : (c.tdim + 1) * xs.length + ys.length = pl.length) :
    Created (momentElement classes c poly { facets := some (.single A), cells := some (.single B) }) S pl.length
      (fun dofs => NormalTrace c S dofs ∧ NormalConform c S dofs) := by
  obtain ⟨ms, dofs, hms, hdofs, hml, hu, htr⟩ := hdiv_functionals hc hk hcomp hA hB hx hy hAm hBm hxs hz
  obtain ⟨fs, h1, h2, h3, h4⟩ := momentElement_basis hpoly hms hdofs (hml.trans hlen) hi fun v hv => hu v ((hS v).1 hv)
  exact ⟨_, dofs, fs, h1, h2, by rw [← (mapM_forall hdofs).length_eq, hml, hlen], h4, fun v => by rw [h3, hS], hu, htr⟩

end Verif.Families
