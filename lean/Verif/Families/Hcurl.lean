import Verif.Families.Hdiv
/-!
# Elements with moments of the tangential components

What is common to `NedelecFirstKind` and `NedelecSecondKind`: moments of the tangential component on every edge, moments on
the faces, and in three dimensions moments in the cell.
-/

namespace Verif.Families
open Verif.References Verif.Moments Verif.Functionals Verif.Elements Verif.FiniteElement Verif.Polysets Verif.Orthogonal
open MvPolynomial

/-- The tangential component is zero on the line through two points. -/
def EdgeZero {d : ℕ} (a b : ℕ → ℝ) (v : Field d) : Prop :=
  ∀ t : ℝ, ∑ j : Fin d, (b j.val - a j.val) * eval (fun i => a i + t * (b i - a i)) (v j) = 0

/-- The Jacobian and the tangent of an edge. -/
theorem edge_facts (g : ℕ) (V : ℕ → ℕ → ℝ) (h : ∃ j < g, V 1 j ≠ V 0 j) :
    ∃ J t s, J ≠ 0 ∧ s ≠ 0 ∧ jacobian .interval g V = some J ∧ tangent .interval g V = some t ∧
      ∀ j, t j = s * axis .interval V 0 j := by
  obtain ⟨j, hj, hne⟩ := h
  have hax : ∀ j, axis .interval V 0 j = V 1 j - V 0 j := fun _ => rfl
  have hpos : 0 < ∑ j ∈ Finset.range g, axis .interval V 0 j ^ 2 := by
    refine Finset.sum_pos' (fun i _ => sq_nonneg _) ⟨j, Finset.mem_range.2 hj, ?_⟩
    rw [hax]
    have : V 1 j - V 0 j ≠ 0 := sub_ne_zero.2 hne
    positivity
  have hr := Real.sqrt_pos.2 hpos
  refine ⟨√(∑ j ∈ Finset.range g, axis .interval V 0 j ^ 2), _, (√(∑ j ∈ Finset.range g, axis .interval V 0 j ^ 2))⁻¹ /
    √(pdot g (fun j => axis .interval V 0 j / √(∑ j ∈ Finset.range g, axis .interval V 0 j ^ 2))
      fun j => axis .interval V 0 j / √(∑ j ∈ Finset.range g, axis .interval V 0 j ^ 2)), hr.ne', ?_, rfl, rfl, fun j => ?_⟩
  · refine div_ne_zero (inv_ne_zero hr.ne') (Real.sqrt_pos.2 ?_).ne'
    unfold pdot
    refine Finset.sum_pos' (fun i _ => mul_self_nonneg _) ⟨j, Finset.mem_range.2 hj, mul_self_pos.2 (div_ne_zero ?_ hr.ne')⟩
    rw [hax]
    exact sub_ne_zero.2 hne
  · show axis .interval V 0 j / _ / _ = _
    ring

/-- The functionals on an edge. -/
theorem edge_moment {c : Cell} (hc : Simp c) {i : ℕ}
    (h : ∃ j < c.tdim, (entityDomain c (1, i)).v 1 j ≠ (entityDomain c (1, i)).v 0 j) (mp : Option String) :
    ∃ J s : ℝ, J ≠ 0 ∧ s ≠ 0 ∧ ∀ x, ∃ d, momentDof c ⟨"TangentIntegralMoment", .scalar x, (1, i), mp⟩ = some d ∧
      d.entity = (1, i) ∧ ∀ v, d.eval v = momentMap ⟨.interval, c.tdim, (entityDomain c (1, i)).v⟩ J
        (fun j => C (s * axis .interval (entityDomain c (1, i)).v 0 j.val) * x) v := by
  obtain ⟨J, t, s, hJ, hs, h1, h2, h3⟩ := edge_facts c.tdim (entityDomain c (1, i)).v h
  have hcell' : (entityDomain c (1, i)).cell = .interval := by rcases hc with rfl | rfl <;> rfl
  rw [← hcell'] at h1 h2
  refine ⟨J, s, hJ, hs, fun x => ⟨_, momentDof_of (w := fun j => C (t j.val) * x) ?_ h1, rfl, ?_⟩⟩
  · rw [momentFn_tangent]
    show Option.map _ (tangent (entityDomain c (1, i)).cell c.tdim (entityDomain c (1, i)).v) = _
    rw [h2, Option.map_some]
  · intro v
    show momentMap (entityDomain c (1, i)) J (fun j => C (t j.val) * x) v = _
    have : (fun j : Fin (entityDomain c (1, i)).g => C (t j.val) * x) =
        fun j => C (s * axis .interval (entityDomain c (1, i)).v 0 j.val) * x := funext fun j => by rw [h3 j.val]
    rw [this]
    rcases hc with rfl | rfl <;> rfl

theorem interval_param (g : ℕ) (V : ℕ → ℕ → ℝ) (y : ℕ → ℝ) :
    (⟨.interval, g, V⟩ : Domain).param y = fun i => V 0 i + y 0 * (V 1 i - V 0 i) := by
  funext i
  simp [Domain.param, Cell.tdim, axisVertices, mul_comm]

theorem triangle_param (g : ℕ) (V : ℕ → ℕ → ℝ) (y : ℕ → ℝ) :
    (⟨.triangle, g, V⟩ : Domain).param y = fun i => V 0 i + (V 1 i - V 0 i) * y 0 + (V 2 i - V 0 i) * y 1 := by
  funext i
  simp [Domain.param, Cell.tdim, axisVertices, Finset.sum_range_succ]
  ring

/-- If the moments on an edge vanish, so does the tangential component. -/
theorem edgeZero_of (g : ℕ) (V : ℕ → ℕ → ℝ) {J s : ℝ} (hJ : J ≠ 0) (hs : s ≠ 0) {v : Field g} {m k : ℤ}
    (hv : ∀ j, v j ∈ P g k) (hcomp : comp ⟨.interval, g, V⟩ (axis .interval V 0) v ∈ P 1 m) {xs : List (MvPolynomial ℕ ℝ)}
    (hxs : lspan xs = P 1 m)
    (h : ∀ x ∈ xs, momentMap ⟨.interval, g, V⟩ J (fun j => C (s * axis .interval V 0 j.val) * x) v = 0) :
    EdgeZero (V 0) (V 1) v := by
  intro t
  have := trace_zero ⟨.interval, g, V⟩ (by simp [Solid]) hJ hs hv hcomp hxs h (y := fun _ => t) (z := _) fun j _ => rfl
  rwa [interval_param] at this

/-- The tangential components on a triangle. -/
theorem tangentZero2_of (g : ℕ) (V : ℕ → ℕ → ℝ) {v : Field g} (h01 : EdgeZero (V 0) (V 1) v) (h02 : EdgeZero (V 0) (V 2) v)
    (h12 : EdgeZero (V 1) (V 2) v) : TangentZero2 (tang ⟨.triangle, g, V⟩ v) := by
  have e : ∀ (k : Fin 2) z, eval z (tang ⟨.triangle, g, V⟩ v k) = ∑ j : Fin g, (V (k.val + 1) j.val - V 0 j.val) *
      eval (fun i => V 0 i + (V 1 i - V 0 i) * z 0 + (V 2 i - V 0 i) * z 1) (v j) := by
    intro k z
    refine (eval_comp ⟨.triangle, g, V⟩ _ v z).trans ?_
    rw [triangle_param]
    fin_cases k <;> rfl
  constructor
  · intro z hz
    rw [e 0 z]
    refine Eq.trans ?_ (h01 (z 0))
    refine Finset.sum_congr rfl fun j _ => ?_
    congr 3
    funext i
    rw [hz]
    ring
  · intro z hz
    rw [e 1 z]
    refine Eq.trans ?_ (h02 (z 1))
    refine Finset.sum_congr rfl fun j _ => ?_
    congr 3
    funext i
    rw [hz]
    ring
  · intro z hz
    rw [e 0 z, e 1 z, eq_comm, ← sub_eq_zero, ← Finset.sum_sub_distrib]
    refine Eq.trans ?_ (h12 (z 1))
    refine Finset.sum_congr rfl fun j _ => ?_
    rw [← sub_mul]
    have : z 0 = 1 - z 1 := by linarith
    congr 1
    · show V 2 j.val - V 0 j.val - (V 1 j.val - V 0 j.val) = _
      ring
    · congr 2
      funext i
      rw [this]
      ring

/-- The tangential component along edge `i` vanishes whenever the functionals of edge `i` vanish. -/
def EdgeTrace (c : Cell) (S : Field c.tdim → Prop) (dofs : List (Dof ℝ (Field c.tdim))) : Prop :=
  ∀ i < entityCount c 1, ∀ p q, entVerts c 1 i = [p, q] → ∀ v, S v → (∀ d ∈ dofs, d.entity = (1, i) → d.eval v = 0) →
    EdgeZero (refVertex c p) (refVertex c q) v

theorem edge_distinct {c : Cell} (hc : Simp c) {i : ℕ} (hi : i < entityCount c 1) :
    ∃ j < c.tdim, (entityDomain c (1, i)).v 1 j ≠ (entityDomain c (1, i)).v 0 j := by
  rcases hc with rfl | rfl
  · have hv : ∀ i j k, (entityDomain .triangle (1, i)).v j k = refVertex .triangle ((entVerts .triangle 1 i).getD j 0) k :=
      fun _ _ _ => rfl
    have hi' : i < 3 := hi
    have e0 : entVerts .triangle 1 0 = [1, 2] := rfl
    have e1 : entVerts .triangle 1 1 = [0, 2] := rfl
    have e2 : entVerts .triangle 1 2 = [0, 1] := rfl
    interval_cases i
    · exact ⟨0, by decide, by norm_num [hv, e0, refVertex, refVerts, coords]⟩
    · exact ⟨1, by decide, by norm_num [hv, e1, refVertex, refVerts, coords]⟩
    · exact ⟨0, by decide, by norm_num [hv, e2, refVertex, refVerts, coords]⟩
  · have hv : ∀ i j k, (entityDomain .tetrahedron (1, i)).v j k =
      refVertex .tetrahedron ((entVerts .tetrahedron 1 i).getD j 0) k := fun _ _ _ => rfl
    have hi' : i < 6 := hi
    have e0 : entVerts .tetrahedron 1 0 = [2, 3] := rfl
    have e1 : entVerts .tetrahedron 1 1 = [1, 3] := rfl
    have e2 : entVerts .tetrahedron 1 2 = [1, 2] := rfl
    have e3 : entVerts .tetrahedron 1 3 = [0, 3] := rfl
    have e4 : entVerts .tetrahedron 1 4 = [0, 2] := rfl
    have e5 : entVerts .tetrahedron 1 5 = [0, 1] := rfl
    interval_cases i
    · exact ⟨1, by decide, by norm_num [hv, e0, refVertex, refVerts, coords]⟩
    · exact ⟨0, by decide, by norm_num [hv, e1, refVertex, refVerts, coords]⟩
    · exact ⟨0, by decide, by norm_num [hv, e2, refVertex, refVerts, coords]⟩
    · exact ⟨2, by decide, by norm_num [hv, e3, refVertex, refVerts, coords]⟩
    · exact ⟨1, by decide, by norm_num [hv, e4, refVertex, refVerts, coords]⟩
    · exact ⟨0, by decide, by norm_num [hv, e5, refVertex, refVerts, coords]⟩

/-- The traces on the edges. -/
theorem edge_trace {c : Cell} (hc : Simp c) {S : Field c.tdim → Prop} {k m : ℤ} (hk : ∀ v, S v → ∀ j, v j ∈ P c.tdim k)
    (hcomp : ∀ v, S v → ∀ i, comp ⟨.interval, c.tdim, (entityDomain c (1, i)).v⟩ (axis .interval (entityDomain c (1, i)).v 0) v ∈ P 1 m)
    {xs : List (MvPolynomial ℕ ℝ)} (hxs : lspan xs = P 1 m) {mp : Option String} {dofs : List (Dof ℝ (Field c.tdim))}
    (hd : ∀ i < entityCount c 1, ∀ x ∈ xs, ∃ d ∈ dofs, momentDof c ⟨"TangentIntegralMoment", .scalar x, (1, i), mp⟩ = some d) :
    EdgeTrace c S dofs := by
  intro i hi p q hpq v hv h
  obtain ⟨J, s, hJ, hs, hm⟩ := edge_moment hc (edge_distinct hc hi) mp
  have := edgeZero_of c.tdim (entityDomain c (1, i)).v hJ hs (hk v hv) (hcomp v hv i) hxs fun x hx => by
    obtain ⟨d, hd1, hd2⟩ := hd i hi x hx
    obtain ⟨d', h1, h2, h3⟩ := hm x
    obtain rfl := Option.some.inj (hd2.symm.trans h1)
    rw [← h3 v]
    exact h d hd1 h2
  have e0 : (entityDomain c (1, i)).v 0 = refVertex c p := by
    show refVertex c ((entVerts c 1 i).getD 0 0) = _
    rw [hpq]; rfl
  have e1 : (entityDomain c (1, i)).v 1 = refVertex c q := by
    show refVertex c ((entVerts c 1 i).getD 1 0) = _
    rw [hpq]; rfl
  rwa [e0, e1] at this

/-! ### Conformity -/

/-- The Jacobian times the tangent of an edge. -/
theorem jac_tangent {g : ℕ} {V : ℕ → ℕ → ℝ} (h : ∃ j < g, V 1 j ≠ V 0 j) {J : ℝ} {t : ℕ → ℝ} (h1 : jacobian .interval g V = some J)
    (h2 : tangent .interval g V = some t) (j : ℕ) : J * t j = axis .interval V 0 j := by
  obtain ⟨l, hl, hne⟩ := h
  have hpos : 0 < ∑ j ∈ Finset.range g, axis .interval V 0 j ^ 2 := by
    refine Finset.sum_pos' (fun i _ => sq_nonneg _) ⟨l, Finset.mem_range.2 hl, ?_⟩
    have : V 1 l - V 0 l ≠ 0 := sub_ne_zero.2 hne
    show 0 < (V 1 l - V 0 l) ^ 2
    positivity
  have hr := Real.sqrt_pos.2 hpos
  simp only [jacobian, axisVertices, Cell.tdim, List.length_singleton, if_true, Option.some.injEq] at h1
  simp only [tangent, Cell.tdim, if_true, Option.some.injEq] at h2
  subst h2
  rw [h1] at hr ⊢
  have e : pdot g (fun j => axis .interval V 0 j / J) (fun j => axis .interval V 0 j / J) = 1 := by
    unfold pdot
    simp_rw [div_mul_div_comm, ← Finset.sum_div, ← pow_two]
    rw [← h1, Real.sq_sqrt hpos.le, div_self hpos.ne']
  rw [vnormalise, e, Real.sqrt_one, div_one, mul_div_cancel₀ _ hr.ne']

theorem edge_cell {c : Cell} (hc : Affine4 c) (i : ℕ) : (entityDomain c (1, i)).cell = .interval := by
  rcases hc with rfl | rfl | rfl | rfl <;> rfl

/-- The value of a tangential moment. -/
theorem edge_value {c : Cell} (hc : Affine4 c) {i : ℕ}
    (h : ∃ j < c.tdim, (entityDomain c (1, i)).v 1 j ≠ (entityDomain c (1, i)).v 0 j) {mp : Option String} {x : MvPolynomial ℕ ℝ}
    {d : Dof ℝ (Field c.tdim)} (hd : momentDof c ⟨"TangentIntegralMoment", .scalar x, (1, i), mp⟩ = some d) (v : Field c.tdim) :
    d.eval v = pairing1 .interval (comp ⟨.interval, c.tdim, (entityDomain c (1, i)).v⟩
      (axis .interval (entityDomain c (1, i)).v 0) v) x := by
  obtain ⟨J, t, s, hJ, hs, h1, h2, -⟩ := edge_facts c.tdim (entityDomain c (1, i)).v h
  have hu := jac_tangent h h1 h2
  have hcell := edge_cell hc i
  have h1' : jacobian (entityDomain c (1, i)).cell c.tdim (entityDomain c (1, i)).v = some J := by rw [hcell]; exact h1
  have hw : momentFn "TangentIntegralMoment" (entityDomain c (1, i)) (.scalar x) = some fun j => C (t j.val) * x := by
    rw [momentFn_tangent, hcell]
    show Option.map _ (tangent .interval c.tdim (entityDomain c (1, i)).v) = _
    rw [h2, Option.map_some]
  obtain rfl := Option.some.inj ((momentDof_of (m := ⟨"TangentIntegralMoment", .scalar x, (1, i), mp⟩) hw h1').symm.trans hd)
  refine (momentMap_pairing (entityDomain c (1, i)) hu x v).trans ?_
  have e : entityDomain c (1, i) = ⟨.interval, c.tdim, (entityDomain c (1, i)).v⟩ := by
    conv_lhs => rw [show entityDomain c (1, i) = ⟨(entityDomain c (1, i)).cell, c.tdim, (entityDomain c (1, i)).v⟩ from rfl]
    rw [hcell]
  rw [hcell]
  rcases hc with rfl | rfl | rfl | rfl <;> rfl

/-- The tangential components on two edges are equal whenever the values of the functionals of the edges are. -/
def EdgeMatch (c : Cell) (S : Field c.tdim → Prop) (dofs : List (Dof ℝ (Field c.tdim))) : Prop :=
  ∀ i < entityCount c 1, ∀ i' < entityCount c 1, ∀ v v', S v → S v' →
    (entityFunctionals dofs (1, i)).map (·.eval v) = (entityFunctionals dofs (1, i')).map (·.eval v') →
    comp ⟨.interval, c.tdim, (entityDomain c (1, i)).v⟩ (axis .interval (entityDomain c (1, i)).v 0) v =
      comp ⟨.interval, c.tdim, (entityDomain c (1, i')).v⟩ (axis .interval (entityDomain c (1, i')).v 0) v'

theorem edge_match {c : Cell} (hc : Affine4 c)
    (hdis : ∀ i < entityCount c 1, ∃ j < c.tdim, (entityDomain c (1, i)).v 1 j ≠ (entityDomain c (1, i)).v 0 j)
    {S : Field c.tdim → Prop} {m : ℤ}
    (hcomp : ∀ v, S v → ∀ i, comp ⟨.interval, c.tdim, (entityDomain c (1, i)).v⟩ (axis .interval (entityDomain c (1, i)).v 0) v ∈ P 1 m)
    {xs : List (MvPolynomial ℕ ℝ)} (hxs : lspan xs = P 1 m) {mp : Option String} {ms : List (MomentDof Fun)}
    {dofs : List (Dof ℝ (Field c.tdim))} (hdofs : ms.mapM (momentDof c) = some dofs)
    (hms : ∀ i < entityCount c 1, (ms.filter fun m => m.entity = (1, i)) =
      xs.map fun x => ⟨"TangentIntegralMoment", .scalar x, (1, i), mp⟩) : EdgeMatch c S dofs := by
  intro i hi i' hi' v v' hv hv' heq
  have val : ∀ i < entityCount c 1, ∀ v, (entityFunctionals dofs (1, i)).map (·.eval v) = xs.map fun x =>
      pairing1 .interval (comp ⟨.interval, c.tdim, (entityDomain c (1, i)).v⟩ (axis .interval (entityDomain c (1, i)).v 0) v) x :=
    fun i hi v => entity_values hdofs (hms i hi) fun x _ d hd => edge_value hc (hdis i hi) hd v
  rw [val i hi, val i' hi'] at heq
  rw [← sub_eq_zero]
  refine eq_zero_of_pairing (c := .interval) (by simp [Solid]) (Submodule.sub_mem _ (hcomp v hv i) (hcomp v' hv' i')) (fs := xs) ?_
    fun x hx => ?_
  · rw [hxs]; exact Submodule.sub_mem _ (hcomp v hv i) (hcomp v' hv' i')
  · have := List.map_inj_left.1 heq x hx
    rw [pairing1_comm, pairing1_comm _ x] at this
    rw [pairing1_comm, map_sub, this, sub_self]

/-- Conformity in H(curl), edges.  Two cells, with vertices `V` and `V'`, share an edge: its vertices are the same, in the
same order, in both.  If two functions of the space have the same values of the functionals of that edge, then the
tangential components of the functions mapped to the cells are equal on the edge. -/
def EdgeConform (c : Cell) (S : Field c.tdim → Prop) (dofs : List (Dof ℝ (Field c.tdim))) : Prop :=
  ∀ i < entityCount c 1, ∀ i' < entityCount c 1, ∀ v v', S v → S v' →
    (entityFunctionals dofs (1, i)).map (·.eval v) = (entityFunctionals dofs (1, i')).map (·.eval v') →
    ∀ V V' g g', mapped pushCo c V v = some g → mapped pushCo c V' v' = some g' →
    (∀ k < 2, V ((entVerts c 1 i).getD k 0) = V' ((entVerts c 1 i').getD k 0)) →
    ∀ t y, y = (physDomain c V (1, i)).param t →
      ∑ r : Fin c.tdim, ((physDomain c V (1, i)).v 1 r.val - (physDomain c V (1, i)).v 0 r.val) * g y r =
      ∑ r : Fin c.tdim, ((physDomain c V (1, i)).v 1 r.val - (physDomain c V (1, i)).v 0 r.val) * g' y r

theorem edge_conform {c : Cell} (hc : Affine4 c) {S : Field c.tdim → Prop} {dofs : List (Dof ℝ (Field c.tdim))} {k : ℤ}
    (hk : ∀ v, S v → ∀ j, v j ∈ P c.tdim k) (h : EdgeMatch c S dofs) : EdgeConform c S dofs := by
  intro i hi i' hi' v v' hSv hSv' heq V V' g g' hg hg' hV t y hy
  obtain ⟨F, hF, -⟩ := Option.map_eq_some_iff.1 hg
  obtain ⟨F', hF', -⟩ := Option.map_eq_some_iff.1 hg'
  have h0 : (physDomain c V (1, i)).v 0 = (physDomain c V' (1, i')).v 0 := hV 0 (by omega)
  have h1 : (physDomain c V (1, i)).v 1 = (physDomain c V' (1, i')).v 1 := hV 1 (by omega)
  have ep : ∀ V i, (physDomain c V (1, i)).param t = fun j => (physDomain c V (1, i)).v 0 j +
      t 0 * ((physDomain c V (1, i)).v 1 j - (physDomain c V (1, i)).v 0 j) := fun V i => by
    rw [← interval_param c.tdim]
    rcases hc with rfl | rfl | rfl | rfl <;> rfl
  have hpar : y = (physDomain c V' (1, i')).param t := by rw [hy, ep, ep, h0, h1]
  have ev : ∀ i (v : Field c.tdim), ∑ r : Fin c.tdim, ((entityDomain c (1, i)).v 1 r.val - (entityDomain c (1, i)).v 0 r.val) *
      eval ((entityDomain c (1, i)).param t) (v r) =
      eval t (comp ⟨.interval, c.tdim, (entityDomain c (1, i)).v⟩ (axis .interval (entityDomain c (1, i)).v 0) v) := by
    intro i v
    refine Eq.trans ?_ (eval_comp ⟨.interval, c.tdim, (entityDomain c (1, i)).v⟩ _ v t).symm
    rcases hc with rfl | rfl | rfl | rfl <;> rfl
  rw [mapped_param hc (hk v hSv) hg _ t y fun j _ => by rw [hy], axis_co hc hF, h0, h1,
    mapped_param hc (hk v' hSv') hg' _ t y fun j _ => by rw [hpar], axis_co hc hF', ev, ev, h i hi i' hi' v v' hSv hSv' heq]

/-- The tangential component along a line. -/
noncomputable def edgeVal {d : ℕ} (a b : ℕ → ℝ) (v : Field d) (t : ℝ) : ℝ :=
  ∑ j : Fin d, (b j.val - a j.val) * eval (fun i => a i + t * (b i - a i)) (v j)

theorem edgeVal_comp {g : ℕ} (V : ℕ → ℕ → ℝ) (v : Field g) (t : ℝ) :
    edgeVal (V 0) (V 1) v t = eval (fun _ => t) (comp ⟨.interval, g, V⟩ (axis .interval V 0) v) := by
  rw [eval_comp, interval_param]
  rfl

/-- The components along the axes of a triangle. -/
noncomputable def faceTang {g : ℕ} (V : ℕ → ℕ → ℝ) (v : Field g) : Field 2 := tang ⟨.triangle, g, V⟩ v

/-- The difference of the tangential components on two triangles. -/
theorem tangentZero2_diff {g : ℕ} (V V' : ℕ → ℕ → ℝ) {v v' : Field g} (h01 : ∀ t, edgeVal (V 0) (V 1) v t = edgeVal (V' 0) (V' 1) v' t)
    (h02 : ∀ t, edgeVal (V 0) (V 2) v t = edgeVal (V' 0) (V' 2) v' t)
    (h12 : ∀ t, edgeVal (V 1) (V 2) v t = edgeVal (V' 1) (V' 2) v' t) :
    TangentZero2 (faceTang V v - faceTang V' v') := by
  have e : ∀ (V : ℕ → ℕ → ℝ) (v : Field g) (k : Fin 2) z, eval z (faceTang V v k) =
      ∑ j : Fin g, (V (k.val + 1) j.val - V 0 j.val) *
      eval (fun i => V 0 i + (V 1 i - V 0 i) * z 0 + (V 2 i - V 0 i) * z 1) (v j) := by
    intro V v k z
    refine (eval_comp ⟨.triangle, g, V⟩ _ v z).trans ?_
    rw [triangle_param]
    fin_cases k <;> rfl
  have ex : ∀ (V : ℕ → ℕ → ℝ) (v : Field g) z, z 1 = 0 → eval z (faceTang V v 0) = edgeVal (V 0) (V 1) v (z 0) := by
    intro V v z hz
    rw [e V v 0 z]
    refine Finset.sum_congr rfl fun j _ => ?_
    congr 3
    funext i
    rw [hz]
    ring
  have ey : ∀ (V : ℕ → ℕ → ℝ) (v : Field g) z, z 0 = 0 → eval z (faceTang V v 1) = edgeVal (V 0) (V 2) v (z 1) := by
    intro V v z hz
    rw [e V v 1 z]
    refine Finset.sum_congr rfl fun j _ => ?_
    congr 3
    funext i
    rw [hz]
    ring
  have el : ∀ (V : ℕ → ℕ → ℝ) (v : Field g) z, z 0 + z 1 = 1 → eval z (faceTang V v 1) - eval z (faceTang V v 0) =
      edgeVal (V 1) (V 2) v (z 1) := by
    intro V v z hz
    rw [e V v 0 z, e V v 1 z, ← Finset.sum_sub_distrib]
    refine Finset.sum_congr rfl fun j _ => ?_
    rw [← sub_mul]
    have : z 0 = 1 - z 1 := by linarith
    congr 1
    · show V 2 j.val - V 0 j.val - (V 1 j.val - V 0 j.val) = _
      ring
    · congr 2
      funext i
      rw [this]
      ring
  constructor
  · intro z hz
    rw [Pi.sub_apply, map_sub, ex V v z hz, ex V' v' z hz, h01, sub_self]
  · intro z hz
    rw [Pi.sub_apply, map_sub, ey V v z hz, ey V' v' z hz, h02, sub_self]
  · intro z hz
    have h1 := el V v z hz
    have h2 := el V' v' z hz
    rw [Pi.sub_apply, Pi.sub_apply, map_sub, map_sub]
    have := h12 (z 1)
    linarith

end Verif.Families
