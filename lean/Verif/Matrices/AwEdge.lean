import Verif.Matrices.AwSpace
/-!
# The functionals of the Arnold–Winther elements (C148, C149)
-/

namespace Verif.Matrices
open Verif.References Verif.Moments Verif.Functionals Verif.Elements Verif.FiniteElement Verif.Polysets Verif.Orthogonal Verif.Families
open MvPolynomial

/-! ### Edges -/

/-- The vector on the left. -/
noncomputable def edgeLeft (e : ℕ) (b : Bool) : ℕ → ℝ :=
  if b then axis .interval (entityDomain .triangle (1, e)).v 0 else areaVec 2 (entityDomain .triangle (1, e)).v

/-- The normal-normal (or tangential-normal) component on an edge, as a polynomial in the parameter of the edge. -/
noncomputable def line (e : ℕ) (b : Bool) (u : MField 2) : MvPolynomial ℕ ℝ :=
  comp (entityDomain .triangle (1, e)) (edgeLeft e b) (contract (areaVec 2 (entityDomain .triangle (1, e)).v) u)

/-- A point of an edge. -/
noncomputable def edgePoint (e : ℕ) (t : ℝ) : ℕ → ℝ :=
  if e = 0 then coords [1 - t, t] else if e = 1 then coords [0, t] else coords [t, 0]

theorem edge_param {e : ℕ} (he : e < 3) (t : ℕ → ℝ) : ∀ j < 2, (entityDomain .triangle (1, e)).param t j = edgePoint e (t 0) j := by
  intro j hj
  have hc : ∀ i, (entityDomain .triangle (1, i)).cell = .interval := fun _ => rfl
  have hv : ∀ i j k, (entityDomain .triangle (1, i)).v j k = refVertex .triangle ((entVerts .triangle 1 i).getD j 0) k :=
    fun _ _ _ => rfl
  have e0 : entVerts .triangle 1 0 = [1, 2] := rfl
  have e1 : entVerts .triangle 1 1 = [0, 2] := rfl
  have e2 : entVerts .triangle 1 2 = [0, 1] := rfl
  have h1 : Cell.interval.tdim = 1 := rfl
  interval_cases e <;> interval_cases j <;>
    norm_num [Domain.param, hc, hv, e0, e1, e2, axisVertices, refVertex, refVerts, coords, edgePoint, h1] <;> ring

/-- The vectors of the edges. -/
theorem edge_area {e : ℕ} (he : e < 3) : ∀ j < 2, areaVec 2 (entityDomain .triangle (1, e)).v j =
    coords (if e = 0 then [-1, -1] else if e = 1 then [-1, 0] else [0, 1]) j := by
  intro j hj
  have hv : ∀ i j k, (entityDomain .triangle (1, i)).v j k = refVertex .triangle ((entVerts .triangle 1 i).getD j 0) k :=
    fun _ _ _ => rfl
  have e0 : entVerts .triangle 1 0 = [1, 2] := rfl
  have e1 : entVerts .triangle 1 1 = [0, 2] := rfl
  have e2 : entVerts .triangle 1 2 = [0, 1] := rfl
  interval_cases e <;> interval_cases j <;> norm_num [areaVec, hv, e0, e1, e2, refVertex, refVerts, coords]

theorem edge_axis {e : ℕ} (he : e < 3) : ∀ j < 2, axis .interval (entityDomain .triangle (1, e)).v 0 j =
    coords (if e = 0 then [-1, 1] else if e = 1 then [0, 1] else [1, 0]) j := by
  intro j hj
  have hv : ∀ i j k, (entityDomain .triangle (1, i)).v j k = refVertex .triangle ((entVerts .triangle 1 i).getD j 0) k :=
    fun _ _ _ => rfl
  have e0 : entVerts .triangle 1 0 = [1, 2] := rfl
  have e1 : entVerts .triangle 1 1 = [0, 2] := rfl
  have e2 : entVerts .triangle 1 2 = [0, 1] := rfl
  interval_cases e <;> interval_cases j <;> norm_num [axis, psub, hv, e0, e1, e2, axisVertices, refVertex, refVerts, coords]

theorem eval_line {k : ℤ} {e : ℕ} (he : e < 3) (b : Bool) {u : MField 2} (hu : ∀ i j, u i j ∈ P 2 k) (t : ℕ → ℝ) :
    eval t (line e b u) = ∑ i : Fin 2, edgeLeft e b i.val *
      ∑ j : Fin 2, areaVec 2 (entityDomain .triangle (1, e)).v j.val * eval (edgePoint e (t 0)) (u i j) := by
  refine (eval_comp (entityDomain .triangle (1, e)) _ _ t).trans ?_
  refine Finset.sum_congr rfl fun i _ => ?_
  congr 1
  have hc : contract (areaVec 2 (entityDomain .triangle (1, e)).v) u i =
      ∑ j : Fin 2, C (areaVec 2 (entityDomain .triangle (1, e)).v j.val) * u i j := contract_apply _ _ _
  refine (congrArg (eval ((entityDomain .triangle (1, e)).param t)) hc).trans ?_
  rw [map_sum]
  refine Finset.sum_congr rfl fun j _ => ?_
  rw [map_mul, eval_C]
  congr 1
  exact eval_congr_P (hu i j) fun l hl => edge_param he t l hl

theorem line_mem {k : ℤ} (e : ℕ) (b : Bool) {u : MField 2} (hu : ∀ i j, u i j ∈ P 2 k) : line e b u ∈ P 1 k :=
  comp_mem (entityDomain .triangle (1, e)) _ fun i : Fin 2 => by
    have hc : contract (areaVec 2 (entityDomain .triangle (1, e)).v) u i =
        ∑ j : Fin 2, C (areaVec 2 (entityDomain .triangle (1, e)).v j.val) * u i j := contract_apply _ _ _
    have hm : (∑ j : Fin 2, C (areaVec 2 (entityDomain .triangle (1, e)).v j.val) * u i j) ∈ P 2 k :=
      Submodule.sum_mem _ fun j _ => C_mul_mem _ (hu i j)
    exact hc ▸ hm

theorem inner_pairing (D : Domain) {J : ℝ} {n a l s : ℕ → ℝ} (ha : ∀ j, J * n j = a j) (hs : ∀ j, J * l j = s j)
    (x : MvPolynomial ℕ ℝ) (u : MField D.g) :
    momentMap D J (fun j => C (l j.val) * (x * C J)) (contract n u) = pairing1 D.cell (comp D s (contract a u)) x := by
  rw [momentMap_pairing D hs]
  have e : comp D s (contract n u) * (x * C J) = comp D s (contract a u) * x := by
    have : comp D s (contract n u) * C J = comp D s (contract a u) := by
      refine MvPolynomial.funext fun z => ?_
      rw [map_mul, eval_C, eval_comp, eval_comp, Finset.sum_mul]
      refine Finset.sum_congr rfl fun i _ => ?_
      rw [contract_apply, contract_apply, map_sum, map_sum, Finset.mul_sum, Finset.mul_sum, Finset.sum_mul]
      refine Finset.sum_congr rfl fun b _ => ?_
      rw [map_mul, map_mul, eval_C, eval_C, ← ha b.val]
      ring
    rw [← this]
    ring
  show cellInt D.cell (fun z => eval z (comp D s (contract n u) * (x * C J))) = cellInt D.cell fun z => eval z (comp D s (contract a u) * x)
  rw [e]

theorem edge_distinct2 {e : ℕ} (he : e < 3) :
    ∃ j < 2, (entityDomain .triangle (1, e)).v 1 j ≠ (entityDomain .triangle (1, e)).v 0 j := by
  have hv : ∀ i j k, (entityDomain .triangle (1, i)).v j k = refVertex .triangle ((entVerts .triangle 1 i).getD j 0) k :=
    fun _ _ _ => rfl
  have e0 : entVerts .triangle 1 0 = [1, 2] := rfl
  have e1 : entVerts .triangle 1 1 = [0, 2] := rfl
  have e2 : entVerts .triangle 1 2 = [0, 1] := rfl
  interval_cases e
  · exact ⟨0, by decide, by norm_num [hv, e0, refVertex, refVerts, coords]⟩
  · exact ⟨1, by decide, by norm_num [hv, e1, refVertex, refVerts, coords]⟩
  · exact ⟨0, by decide, by norm_num [hv, e2, refVertex, refVerts, coords]⟩

/-- The value of a functional of an edge. -/
theorem aw_edge {e : ℕ} (he : e < 3) (p : MvPolynomial ℕ ℝ) (b : Bool) :
    ∃ d, awEdge e p b = some d ∧ d.entity = (1, e) ∧ d.mapping = some "double_contravariant" ∧
      ∀ u, d.eval u = pairing1 .interval (line e b u) p := by
  obtain ⟨J, n, s, hJ, hs, h1, h2, h3⟩ := (facet_facts (c := .triangle) (Or.inl rfl) (i := e) (by show e ≤ 2; omega)).facts
  obtain ⟨J', t, s', hJ', -, h1', h2', -⟩ := edge_facts 2 (entityDomain .triangle (1, e)).v (edge_distinct2 he)
  have h1 : jacobian .interval 2 (entityDomain .triangle (1, e)).v = some J := h1
  have h2 : normal .interval 2 (entityDomain .triangle (1, e)).v = some n := h2
  obtain rfl : J' = J := Option.some.inj (h1'.symm.trans h1)
  have ha : ∀ j, J' * n j = areaVec 2 (entityDomain .triangle (1, e)).v j := fun j => jac_normal2 h1 h2 hJ j
  have ht : ∀ j, J' * t j = axis .interval (entityDomain .triangle (1, e)).v 0 j := jac_tangent (edge_distinct2 he) h1 h2'
  have hl : (if b then tangent .interval 2 (entityDomain .triangle (1, e)).v else normal .interval 2 (entityDomain .triangle (1, e)).v) =
      some (if b then t else n) := by
    cases b
    · simp [h2]
    · simp [h2']
  refine ⟨⟨16, (1, e), some "double_contravariant", momentMap (entityDomain .triangle (1, e)) J'
    (fun i => C ((if b then t else n) i.val) * (p * C J')) ∘ₗ contract n⟩, ?_, rfl, rfl, fun u => ?_⟩
  · show ((if b then tangent .interval 2 (entityDomain .triangle (1, e)).v else normal .interval 2 (entityDomain .triangle (1, e)).v).bind
      fun l => (normal .interval 2 (entityDomain .triangle (1, e)).v).bind fun n =>
      (jacobian .interval 2 (entityDomain .triangle (1, e)).v).map fun J => _) = _
    rw [hl, h2, h1]
    rfl
  · refine inner_pairing (entityDomain .triangle (1, e)) ha (l := if b then t else n) (s := edgeLeft e b) (fun j => ?_) p u
    cases b
    · exact ha j
    · exact ht j

/-- The functionals of the edges. -/
theorem aw_edges (m : ℕ) : ∃ dofs xs, awEdges "equispaced" m = some dofs ∧ dofs.length = 6 * (m + 1) ∧ lspan xs = P 1 m ∧
    (∀ d ∈ dofs, d.entity.1 = 1 ∧ d.mapping = some "double_contravariant") ∧
    ∀ e < 3, ∀ u, (entityFunctionals dofs (1, e)).map (·.eval u) =
      xs.flatMap fun x => [pairing1 .interval (line e false u) x, pairing1 .interval (line e true u) x] := by
  obtain ⟨xs, h1, h2, h3⟩ := lagrange_functions (c := .interval) (by simp [Simplex]) m
  have hx : ∀ e < 3, ∃ r, (xs.flatMap fun p => [(p, false), (p, true)]).mapM (fun pt => awEdge e pt.1 pt.2) = some r ∧
      r.length = 2 * (m + 1) ∧ (∀ d ∈ r, d.entity = (1, e) ∧ d.mapping = some "double_contravariant") ∧
      ∀ u, r.map (·.eval u) = xs.flatMap fun x => [pairing1 .interval (line e false u) x, pairing1 .interval (line e true u) x] := by
    intro e he
    obtain ⟨r, hr⟩ := mapM_exists (f := fun pt : MvPolynomial ℕ ℝ × Bool => awEdge e pt.1 pt.2)
      (l := xs.flatMap fun p => [(p, false), (p, true)]) fun pt _ => by
        obtain ⟨d, hd, -⟩ := aw_edge he pt.1 pt.2
        exact ⟨d, hd⟩
    refine ⟨r, hr, ?_, fun d hd => ?_, fun u => ?_⟩
    · rw [← (mapM_forall hr).length_eq, List.length_flatMap]
      simp only [List.length_cons, List.length_nil, List.map_const', List.sum_replicate, smul_eq_mul, h3]
      simp [Cell.tdim, mul_comm]
    · obtain ⟨pt, -, h⟩ := forall₂_mem_left (mapM_forall hr) hd
      obtain ⟨d', hd1, hd2, hd3, -⟩ := aw_edge he pt.1 pt.2
      obtain rfl := Option.some.inj (h.symm.trans hd1)
      exact ⟨hd2, hd3⟩
    · have := mapM_values (φ := fun pt : MvPolynomial ℕ ℝ × Bool => pairing1 .interval (line e pt.2 u) pt.1)
        (ψ := fun d : Dof ℝ (MField 2) => d.eval u) hr fun pt _ d h => by
          obtain ⟨d', hd1, -, -, hd4⟩ := aw_edge he pt.1 pt.2
          obtain rfl := Option.some.inj (h.symm.trans hd1)
          exact hd4 u
      rw [this, List.map_flatMap]
      rfl
  obtain ⟨r0, a0, b0, c0, d0⟩ := hx 0 (by omega)
  obtain ⟨r1, a1, b1, c1, d1⟩ := hx 1 (by omega)
  obtain ⟨r2, a2, b2, c2, d2⟩ := hx 2 (by omega)
  refine ⟨r0 ++ (r1 ++ r2), xs, ?_, ?_, h2, ?_, ?_⟩
  · rw [awEdges, h1]
    have e3 : List.range 3 = [0, 1, 2] := rfl
    rw [e3]
    simp only [Option.bind_some, List.mapM_cons, List.mapM_nil, a0, a1, a2, Option.bind_eq_bind, Option.pure_def, Option.map_some,
      List.flatten_cons, List.flatten_nil, List.append_nil]
  · simp only [List.length_append, b0, b1, b2]; ring
  · intro d hd
    rcases List.mem_append.1 hd with hd | hd
    · rw [(c0 d hd).1]; exact ⟨rfl, (c0 d hd).2⟩
    · rcases List.mem_append.1 hd with hd | hd
      · rw [(c1 d hd).1]; exact ⟨rfl, (c1 d hd).2⟩
      · rw [(c2 d hd).1]; exact ⟨rfl, (c2 d hd).2⟩
  · have fil : ∀ (r : List (Dof ℝ (MField 2))) (e i : ℕ), (∀ d ∈ r, d.entity = (1, i) ∧ d.mapping = some "double_contravariant") →
        r.filter (fun d => decide (d.entity = (1, e))) = if e = i then r else [] := by
      intro r e i hr
      split_ifs with h
      · rw [List.filter_eq_self]
        intro d hd
        rw [(hr d hd).1, h]; simp
      · rw [List.filter_eq_nil_iff]
        intro d hd
        rw [(hr d hd).1]
        simp; omega
    intro e he u
    rw [entityFunctionals, List.filter_append, List.filter_append, fil _ e _ c0, fil _ e _ c1, fil _ e _ c2]
    interval_cases e
    · simpa using d0 u
    · simpa using d1 u
    · simpa using d2 u

/-! ### Zero on an edge -/

/-- A polynomial on an interval with zeros at the ends that is orthogonal to the polynomials of degree `k - 2`. -/
theorem line_zero {k : ℤ} {q : MvPolynomial ℕ ℝ} (hq : q ∈ P 1 k) (h0 : ∀ z : ℕ → ℝ, z 0 = 0 → eval z q = 0)
    (h1 : ∀ z : ℕ → ℝ, z 0 = 1 → eval z q = 0) (ho : ∀ p ∈ P 1 (k - 2), pairing1 .interval q p = 0) : q = 0 := by
  obtain ⟨q, rfl⟩ := X_dvd (p := q) 0 h0
  have hq := X_cancel hq
  obtain ⟨q, rfl⟩ := opp_dvd (d := 1) (by omega) (p := q) fun z h => by
    have hz : z 0 = 1 := by simpa using h
    have := h1 z hz
    rw [map_mul, eval_X, hz, one_mul] at this
    exact this
  have hq : q ∈ P 1 (k - 2) := by
    have := P_cancel (degree_opp (d := 1) (by omega)) hq
    rwa [show k - 1 - 1 = k - 2 by ring] at this
  have he : ∀ z : ℕ → ℝ, eval z (X 0 * opp 1) = z 0 * (1 - z 0) := fun z => by
    rw [map_mul, eval_X, eval_opp]; simp
  have := squares_zero (c := .interval) (by simp [Solid]) (ι := Unit) (fun _ => X 0 * opp 1) (fun _ z hz => ?_) (fun _ z hz => ?_) (fun _ => q)
    (fun _ => hq) (by
      rw [← ho q hq]
      show _ = cellInt .interval fun z => eval z (X 0 * (opp 1 * q) * q)
      congr 1
      funext z
      simp only [Finset.univ_unique, Finset.sum_singleton]
      congr 1
      ring) ()
  · rw [this, mul_zero, mul_zero]
  · rw [he]
    obtain ⟨a, b⟩ := hz
    exact mul_nonneg a (by linarith)
  · rw [he]
    obtain ⟨a, b⟩ := hz 0 (by decide)
    exact mul_pos a (by linarith)

theorem pairing_of_map {q : MvPolynomial ℕ ℝ} {xs : List (MvPolynomial ℕ ℝ)} {k : ℤ} (hs : lspan xs = P 1 k)
    (h : ∀ x ∈ xs, pairing1 .interval q x = 0) : ∀ p ∈ P 1 k, pairing1 .interval q p = 0 := by
  intro p hp
  rw [← hs] at hp
  exact (Submodule.span_le (p := LinearMap.ker (pairing1 .interval q))).2 (fun f hf => h f hf) hp

/-- The functionals of an edge vanish if and only if the moments do. -/
theorem edge_moments {dofs : List (Dof ℝ (MField 2))} {xs : List (MvPolynomial ℕ ℝ)} {e : ℕ} {u : MField 2}
    (h : (entityFunctionals dofs (1, e)).map (·.eval u) =
      xs.flatMap fun x => [pairing1 .interval (line e false u) x, pairing1 .interval (line e true u) x])
    (hz : ∀ d ∈ dofs, d.entity = (1, e) → d.eval u = 0) (b : Bool) : ∀ x ∈ xs, pairing1 .interval (line e b u) x = 0 := by
  intro x hx
  have : pairing1 .interval (line e b u) x ∈ (entityFunctionals dofs (1, e)).map (·.eval u) := by
    rw [h, List.mem_flatMap]
    refine ⟨x, hx, ?_⟩
    cases b <;> simp
  obtain ⟨d, hd, e'⟩ := List.mem_map.1 this
  rw [entityFunctionals, List.mem_filter] at hd
  rw [← e']
  exact hz d hd.1 (by simpa using hd.2)

/-- If both components vanish on an edge, so does the product with the normal. -/
theorem normal_of_lines {k : ℤ} {e : ℕ} (he : e < 3) {u : MField 2} (hu : ∀ i j, u i j ∈ P 2 k) (h0 : line e false u = 0)
    (h1 : line e true u = 0) {z : ℕ → ℝ} (hz : OnFacet 2 e z) (i : Fin 2) : ∑ j : Fin 2, facetNormal e j.val * eval z (u i j) = 0 := by
  have hp : ∃ t, ∀ j < 2, z j = edgePoint e t j := by
    interval_cases e
    · refine ⟨z 1, fun j hj => ?_⟩
      have h : ∑ j : Fin 2, z j.val = 1 := by simpa [OnFacet] using hz
      rw [Fin.sum_univ_two] at h
      have h : z 0 + z 1 = 1 := h
      interval_cases j
      · show z 0 = 1 - z 1
        linarith
      · rfl
    · refine ⟨z 1, fun j hj => ?_⟩
      have h : z 0 = 0 := by simpa [OnFacet] using hz
      interval_cases j
      · exact h
      · rfl
    · refine ⟨z 0, fun j hj => ?_⟩
      have h : z 1 = 0 := by simpa [OnFacet] using hz
      interval_cases j
      · rfl
      · exact h
  obtain ⟨t, ht⟩ := hp
  have hv : ∀ i j, eval z (u i j) = eval (edgePoint e t) (u i j) := fun i j => eval_congr_P (hu i j) fun l hl => ht l hl
  have a0 := eval_line he false hu fun _ => t
  have a1 := eval_line he true hu fun _ => t
  rw [h0, map_zero] at a0
  rw [h1, map_zero] at a1
  simp only [edgeLeft, Fin.sum_univ_two, if_true, if_false, Bool.false_eq_true] at a0 a1
  have v0 : ((0 : Fin 2) : ℕ) = 0 := rfl
  have v1 : ((1 : Fin 2) : ℕ) = 1 := rfl
  simp only [v0, v1, edge_area he 0 (by omega), edge_area he 1 (by omega), edge_axis he 0 (by omega), edge_axis he 1 (by omega)] at a0 a1
  simp only [Fin.sum_univ_two, hv, v0, v1]
  clear hv ht hz
  interval_cases e <;> fin_cases i <;> norm_num [coords, facetNormal] at a0 a1 ⊢ <;> linarith

/-- The functionals of the ends of an edge. -/
theorem vertex_zero {u : MField 2} (hs : ∀ i j, u i j = u j i) {v : ℕ} (hv : v < 3)
    (h : ∀ d ∈ awVertices, d.entity = (0, v) → d.eval u = 0) (i j : Fin 2) : eval (refVertex .triangle v) (u i j) = 0 := by
  have hm : ∀ l r, awVertex v l r ∈ awVertices → innerForm (refVertex .triangle v) l r u = 0 := fun l r hd => h _ hd rfl
  have mem : ∀ d ∈ [awVertex v (coords [1, 0]) (coords [1, 0]), awVertex v (coords [1, 0]) (coords [0, 1]),
      awVertex v (coords [0, 1]) (coords [0, 1])], d ∈ awVertices := fun d hd =>
    List.mem_flatMap.2 ⟨v, List.mem_range.2 hv, hd⟩
  have h00 := hm (coords [1, 0]) (coords [1, 0]) (mem _ (by simp))
  have h01 := hm (coords [1, 0]) (coords [0, 1]) (mem _ (by simp))
  have h11 := hm (coords [0, 1]) (coords [0, 1]) (mem _ (by simp))
  rw [innerForm_apply] at h00 h01 h11
  simp only [formAt, Fin.sum_univ_two] at h00 h01 h11
  norm_num [coords] at h00 h01 h11
  fin_cases i <;> fin_cases j
  · exact h00
  · exact h01
  · show eval _ (u 1 0) = 0
    rw [hs]; exact h01
  · exact h11

/-- The product with the normal vanishes on edge `e` whenever the functionals of the edge and of its ends do. -/
def NormalTrace (V : MField 2 → Prop) (dofs : List (Dof ℝ (MField 2))) : Prop :=
  ∀ e < 3, ∀ u, V u → (∀ d ∈ dofs, d.entity = (1, e) ∨ (∃ v ∈ entVerts .triangle 1 e, d.entity = (0, v)) → d.eval u = 0) →
    ∀ z, OnFacet 2 e z → ∀ i : Fin 2, ∑ j : Fin 2, facetNormal e j.val * eval z (u i j) = 0

theorem aw_trace {k : ℕ} (hk : 2 ≤ k) {V : MField 2 → Prop} (hV : ∀ u, V u → SymSpace 2 k u) {edges rest : List (Dof ℝ (MField 2))}
    {xs : List (MvPolynomial ℕ ℝ)} (hs : lspan xs = P 1 (k - 2 : ℕ))
    (hx : ∀ e < 3, ∀ u, (entityFunctionals edges (1, e)).map (·.eval u) =
      xs.flatMap fun x => [pairing1 .interval (line e false u) x, pairing1 .interval (line e true u) x]) :
    NormalTrace V (awVertices ++ edges ++ rest) := by
  intro e he u hu hz z hzf i
  have hS := hV u hu
  have hvert : ∀ v ∈ entVerts .triangle 1 e, ∀ i j, eval (refVertex .triangle v) (u i j) = 0 := by
    intro v hv
    refine vertex_zero hS.1 ?_ fun d hd hd' => hz d (by simp [hd]) (Or.inr ⟨v, hv, hd'⟩)
    have : ∀ e < 3, ∀ v ∈ entVerts .triangle 1 e, v < 3 := by decide
    exact this e he v hv
  have ends : ∀ s : ℝ, s = 0 ∨ s = 1 → ∀ i j, eval (edgePoint e s) (u i j) = 0 := by
    intro s hs i j
    have h2 : ∃ v ∈ entVerts .triangle 1 e, ∀ j < 2, refVertex .triangle v j = edgePoint e s j := by
      have e0 : entVerts .triangle 1 0 = [1, 2] := rfl
      have e1 : entVerts .triangle 1 1 = [0, 2] := rfl
      have e2 : entVerts .triangle 1 2 = [0, 1] := rfl
      clear hvert hz hzf hx
      rcases hs with rfl | rfl
      · interval_cases e
        · exact ⟨1, by rw [e0]; simp, fun j hj => by interval_cases j <;> norm_num [refVertex, refVerts, coords, edgePoint]⟩
        · exact ⟨0, by rw [e1]; simp, fun j hj => by interval_cases j <;> norm_num [refVertex, refVerts, coords, edgePoint]⟩
        · exact ⟨0, by rw [e2]; simp, fun j hj => by interval_cases j <;> norm_num [refVertex, refVerts, coords, edgePoint]⟩
      · interval_cases e
        · exact ⟨2, by rw [e0]; simp, fun j hj => by interval_cases j <;> norm_num [refVertex, refVerts, coords, edgePoint]⟩
        · exact ⟨2, by rw [e1]; simp, fun j hj => by interval_cases j <;> norm_num [refVertex, refVerts, coords, edgePoint]⟩
        · exact ⟨1, by rw [e2]; simp, fun j hj => by interval_cases j <;> norm_num [refVertex, refVerts, coords, edgePoint]⟩
    obtain ⟨v, hv, hj⟩ := h2
    rw [← eval_congr_P (hS.2 i j) hj]
    exact hvert v hv i j
  have hline : ∀ b, line e b u = 0 := by
    intro b
    have hend : ∀ t : ℕ → ℝ, t 0 = 0 ∨ t 0 = 1 → eval t (line e b u) = 0 := by
      intro t ht
      rw [eval_line he b hS.2]
      simp only [ends _ ht, mul_zero, Finset.sum_const_zero]
    refine line_zero (line_mem e b hS.2) (fun t ht => hend t (Or.inl ht)) (fun t ht => hend t (Or.inr ht)) ?_
    rw [show (k : ℤ) - 2 = ((k - 2 : ℕ) : ℤ) by omega]
    exact pairing_of_map hs (edge_moments (hx e he u) (fun d hd hd' => hz d (by simp [hd]) (Or.inl hd')) b)
  exact normal_of_lines he hS.2 (hline false) (hline true) hzf i

/-! ### The cell -/

/-- The value of a moment in the cell. -/
theorem aw_moment (mapping : String) (f : MField 2) :
    ∃ d, awMoment mapping f = some d ∧ d.entity = (2, 0) ∧ d.mapping = some mapping ∧
      ∀ (u : MField 2) (k : ℤ), (∀ i j, u i j ∈ P 2 k) → d.eval u = cellInt .triangle fun z => eval z (∑ i, ∑ j, u i j * f i j) := by
  have hc : Simp .triangle := Or.inl rfl
  refine ⟨⟨11, (2, 0), some mapping, ∑ i : Fin 2, momentMap (entityDomain .triangle (2, 0)) 1 (f i) ∘ₗ
    (LinearMap.proj i : MField 2 →ₗ[ℝ] Field 2)⟩, ?_, rfl, rfl, fun u k hu => ?_⟩
  · have hJ : jacobian (entityDomain .triangle (2, 0)).cell (entityDomain .triangle (2, 0)).g (entityDomain .triangle (2, 0)).v = some 1 :=
      cell_jacobian hc
    simp only [awMoment, hJ, Option.map_some]
  · refine (LinearMap.sum_apply (M := MField 2) (M₂ := ℝ) Finset.univ (fun i : Fin 2 =>
      momentMap (entityDomain .triangle (2, 0)) 1 (f i) ∘ₗ (LinearMap.proj i : MField 2 →ₗ[ℝ] Field 2)) u).trans ?_
    rw [cellInt_poly_sum]
    refine Finset.sum_congr rfl fun i _ => ?_
    exact moment_pairing (entityDomain .triangle (2, 0)) (hu i) (f i) fun z j hj => cell_param hc z hj

theorem aw_interior (mapping : String) (m : ℕ) : ∃ dofs, awInterior "equispaced" mapping m = some dofs ∧
    dofs.length = (m + 2).choose 2 * 3 ∧ (∀ d ∈ dofs, d.entity = (2, 0) ∧ d.mapping = some mapping) ∧
    ∀ (u : MField 2) (n : ℤ), (∀ i j, u i j ∈ P 2 n) → (∀ d ∈ dofs, d.eval u = 0) → ∀ q ∈ P 2 m,
      pairing1 .triangle (u 0 0) q = 0 ∧ pairing1 .triangle (u 0 1) q = 0 ∧ pairing1 .triangle (u 1 1) q = 0 := by
  obtain ⟨fs, h1, h2, h3⟩ := lagrange_functions (c := .triangle) (by simp [Simplex]) m
  obtain ⟨dofs, hd⟩ := mapM_exists (f := awMoment mapping)
    (l := fs.flatMap fun p => awDirections.map fun d => (fun i j => p * C (d i j) : MField 2)) fun f _ => by
      obtain ⟨d, hd, -⟩ := aw_moment mapping f
      exact ⟨d, hd⟩
  refine ⟨dofs, by rw [awInterior, h1, Option.bind_some, hd], ?_, fun d hd' => ?_, fun u n hu hz q hq => ?_⟩
  · rw [← (mapM_forall hd).length_eq, List.length_flatMap]
    simp only [List.length_map, List.map_const', List.sum_replicate, smul_eq_mul, h3]
    rfl
  · obtain ⟨f, -, h⟩ := forall₂_mem_left (mapM_forall hd) hd'
    obtain ⟨d', hd1, hd2, hd3, -⟩ := aw_moment mapping f
    obtain rfl := Option.some.inj (h.symm.trans hd1)
    exact ⟨hd2, hd3⟩
  · have key : ∀ M ∈ awDirections, ∀ p ∈ fs, cellInt .triangle (fun z => eval z (∑ i, ∑ j, u i j * (p * C (M i j)))) = 0 := by
      intro M hM p hp
      obtain ⟨d, hd1, h⟩ := forall₂_mem_right (mapM_forall hd) (a := (fun i j => p * C (M i j) : MField 2))
        (List.mem_flatMap.2 ⟨p, hp, List.mem_map.2 ⟨M, hM, rfl⟩⟩)
      obtain ⟨d', hd2, -, -, hd3⟩ := aw_moment mapping fun i j => p * C (M i j)
      obtain rfl := Option.some.inj (h.symm.trans hd2)
      exact (hd3 u n hu).symm.trans (hz d hd1)
    have fin : ∀ w : MvPolynomial ℕ ℝ, (∀ p ∈ fs, cellInt .triangle (fun z => eval z (w * p)) = 0) → pairing1 .triangle w q = 0 := by
      intro w hw
      have hq : q ∈ lspan fs := by rw [h2]; exact hq
      exact (Submodule.span_le (p := LinearMap.ker (pairing1 .triangle w))).2 (fun f hf => hw f hf) hq
    refine ⟨fin _ fun p hp => ?_, fin _ fun p hp => ?_, fin _ fun p hp => ?_⟩
    · have := key ![![1, 0], ![0, 0]] (by simp [awDirections]) p hp
      simpa [Fin.sum_univ_two] using this
    · have := key ![![0, 1], ![0, 0]] (by simp [awDirections]) p hp
      simpa [Fin.sum_univ_two] using this
    · have := key ![![0, 0], ![0, 1]] (by simp [awDirections]) p hp
      simpa [Fin.sum_univ_two] using this

end Verif.Matrices
