import Verif.Matrices.NcAwCreated
import Verif.Families.NotConformDiv
/-!
# Continuity of the Arnold–Winther elements (C150)

The continuity of both elements is "integral inner H(div)": the integral over a shared edge of the normal-normal component is the same
from both sides (symfem/finite_element.py:525-527).
-/

namespace Verif.Matrices
open Verif.References Verif.Moments Verif.Functionals Verif.Elements Verif.FiniteElement Verif.Polysets Verif.Orthogonal Verif.Families
open MvPolynomial

/-- The integral over edge `i` of the triangle with the vertices `V` of the normal-normal component (with the vector that is the length
times the normal, and with respect to the parameter of the edge). -/
noncomputable def edgeIntegral (V : ℕ → ℕ → ℝ) (i : ℕ) (g : (ℕ → ℝ) → Fin 2 → Fin 2 → ℝ) : ℝ :=
  cellInt .interval fun t => ∑ r : Fin 2, ∑ s : Fin 2, areaVec 2 (physDomain .triangle V (1, i)).v r.val *
    g ((physDomain .triangle V (1, i)).param t) r s * areaVec 2 (physDomain .triangle V (1, i)).v s.val

/-- Two triangles, with vertices `V` and `V'`, share an edge.  If two functions of the space have the same values of the functionals of that
edge, then the integrals of the normal-normal components of the functions mapped to the triangles are the same. -/
def InnerIntegralConform (S : MField 2 → Prop) (dofs : List (Dof ℝ (MField 2))) : Prop :=
  ∀ i < 3, ∀ i' < 3, ∀ u u', S u → S u' →
    (entityFunctionals dofs (1, i)).map (·.eval u) = (entityFunctionals dofs (1, i')).map (·.eval u') →
    ∀ V V' g g', mappedMatrix .triangle V u = some g → mappedMatrix .triangle V' u' = some g' →
    (∀ k < 2, V ((entVerts .triangle 1 i).getD k 0) = V' ((entVerts .triangle 1 i').getD k 0)) →
    edgeIntegral V i g = edgeIntegral V' i' g'

theorem mapped_integral {V : ℕ → ℕ → ℝ} {u : MField 2} {k : ℤ} (hu : ∀ i j, u i j ∈ P 2 k) {g : (ℕ → ℝ) → Fin 2 → Fin 2 → ℝ}
    (hg : mappedMatrix .triangle V u = some g) (i : ℕ) : edgeIntegral V i g = pairing1 .interval (line i false u) 1 := by
  show cellInt .interval _ = cellInt .interval fun t => eval t (line i false u * 1)
  rw [mul_one]
  congr 1
  funext t
  exact mapped_nn (c := .triangle) (Or.inl rfl) hu hg (1, i) t _ fun _ _ => rfl

theorem flatMap_pairs {α : Type} {f g f' g' : α → ℝ} : ∀ {xs : List α},
    (xs.flatMap fun x => [f x, g x]) = (xs.flatMap fun x => [f' x, g' x]) → ∀ x ∈ xs, f x = f' x ∧ g x = g' x
  | [], _, _, hx => by simp at hx
  | y :: ys, h, x, hx => by
    simp only [List.flatMap_cons, List.cons_append, List.nil_append, List.cons.injEq] at h
    rcases List.mem_cons.1 hx with rfl | hx
    · exact ⟨h.1, h.2.1⟩
    · exact flatMap_pairs h.2.2 x hx

theorem aw_conform {m : ℕ} {k : ℤ} {S : MField 2 → Prop} (hS : ∀ u, S u → ∀ i j, u i j ∈ P 2 k) {xs : List (MvPolynomial ℕ ℝ)}
    (hs : lspan xs = P 1 m) {dofs : List (Dof ℝ (MField 2))}
    (hx : ∀ e < 3, ∀ u, (entityFunctionals dofs (1, e)).map (·.eval u) =
      xs.flatMap fun x => [pairing1 .interval (line e false u) x, pairing1 .interval (line e true u) x]) : InnerIntegralConform S dofs := by
  intro i hi i' hi' u u' hu hu' h V V' g g' hg hg' _
  rw [mapped_integral (hS u hu) hg, mapped_integral (hS u' hu') hg']
  rw [hx i hi, hx i' hi'] at h
  have h := flatMap_pairs h
  have h1 : (1 : MvPolynomial ℕ ℝ) ∈ lspan xs := by rw [hs]; exact one_mem (by omega)
  have : ∀ p ∈ lspan xs, (pairing1 .interval (line i false u) - pairing1 .interval (line i' false u')) p = 0 := fun p hp =>
    (Submodule.span_le (p := LinearMap.ker (pairing1 .interval (line i false u) - pairing1 .interval (line i' false u')))).2
      (fun f hf => by
        show (pairing1 .interval (line i false u) - pairing1 .interval (line i' false u')) f = 0
        rw [LinearMap.sub_apply, (h f hf).1, sub_self]) hp
  have := this 1 h1
  rw [LinearMap.sub_apply, sub_eq_zero] at this
  exact this

theorem aw_extra (k : ℕ) : ∃ extra, awExtra "equispaced" k = some extra ∧
    ∀ d ∈ extra, d.entity = (2, 0) ∧ d.mapping = some "double_contravariant" := by
  by_cases hk : k ≥ 4
  · obtain ⟨fs, h1, -, -⟩ := lagrange_functions (c := .triangle) (by simp [Simplex]) (k - 4)
    obtain ⟨extra, he⟩ := mapM_exists (f := awMoment "double_contravariant")
      (l := (fs.filter fun p => p.degreeOf 0 = k - 4).map awAiry) fun f _ => by
        obtain ⟨d, hd, -⟩ := aw_moment "double_contravariant" f
        exact ⟨d, hd⟩
    refine ⟨extra, by rw [awExtra, if_pos hk, h1, Option.bind_some, he], fun d hd => ?_⟩
    obtain ⟨f, -, h⟩ := forall₂_mem_left (mapM_forall he) hd
    obtain ⟨d', hd1, hd2, hd3, -⟩ := aw_moment "double_contravariant" f
    obtain rfl := Option.some.inj (h.symm.trans hd1)
    exact ⟨hd2, hd3⟩
  · exact ⟨[], by rw [awExtra, if_neg hk], by simp⟩

/-- **C150.** For every order, the functionals of the Arnold–Winther element can be created, all of them have the double contravariant
mapping, the products with the normal on an edge are determined by the functionals of the edge and its ends, and the integrals of the
normal-normal components over shared edges agree. -/
theorem aw_label {k : ℕ} (hk : 2 ≤ k) : ∃ dofs, awDofs "equispaced" k = some dofs ∧ (∀ d ∈ dofs, d.mapping = some "double_contravariant") ∧
    NormalTrace (AwSpace k) dofs ∧ InnerIntegralConform (AwSpace k) dofs := by
  obtain ⟨extra, h1, h2⟩ := aw_extra k
  obtain ⟨edges, interior, xs, b1, b2, b3, b4, b5, b6, b7, b8⟩ := aw_dofs h1
  refine ⟨_, b1, fun d hd => ?_, ?_, ?_⟩
  · simp only [List.mem_append] at hd
    rcases hd with ((hd | hd) | hd) | hd
    · obtain ⟨v, -, hd⟩ := List.mem_flatMap.1 hd
      simp only [List.mem_cons, List.not_mem_nil, or_false] at hd
      rcases hd with rfl | rfl | rfl <;> rfl
    · exact (b5 d hd).2
    · exact (b6 d hd).2
    · exact (h2 d hd).2
  · rw [List.append_assoc]
    exact aw_trace hk (fun u hu => hu.1) b4 b7
  · have hent : ∀ e, entityFunctionals (awVertices ++ edges ++ interior ++ extra) (1, e) = entityFunctionals edges (1, e) := by
      intro e
      have n1 : (awVertices.filter fun d : Dof ℝ (MField 2) => decide (d.entity = (1, e))) = [] := by
        rw [List.filter_eq_nil_iff]
        intro d hd
        obtain ⟨v, -, hd⟩ := List.mem_flatMap.1 hd
        simp only [List.mem_cons, List.not_mem_nil, or_false] at hd
        rcases hd with rfl | rfl | rfl <;> simp [awVertex]
      have n2 : (interior.filter fun d : Dof ℝ (MField 2) => decide (d.entity = (1, e))) = [] := by
        rw [List.filter_eq_nil_iff]
        intro d hd
        simp [(b6 d hd).1]
      have n3 : (extra.filter fun d : Dof ℝ (MField 2) => decide (d.entity = (1, e))) = [] := by
        rw [List.filter_eq_nil_iff]
        intro d hd
        simp [(h2 d hd).1]
      rw [entityFunctionals, List.filter_append, List.filter_append, List.filter_append, n1, n2, n3, List.append_nil, List.append_nil,
        List.nil_append]
      rfl
    refine aw_conform (k := k) (fun u hu => hu.1.2) b4 fun e he u => ?_
    rw [hent]
    exact b7 e he u

/-- Order 5: a function of the space that is not zero. -/
example : ∃ dofs, awDofs "equispaced" 5 = some dofs ∧ (∀ d ∈ dofs, d.mapping = some "double_contravariant") ∧
    NormalTrace (AwSpace 5) dofs ∧ InnerIntegralConform (AwSpace 5) dofs := aw_label (by omega)

/-! ### The nonconforming element -/

/-- `map_to_cell` for matrix-valued functions with the mappings that occur (symfem/finite_element.py:783-836, symfem/mappings.py:36-60,
169-194). -/
noncomputable def performMatrix (s : Option String) (V : ℕ → ℕ → ℝ) (f : MField 2) : Option ((ℕ → ℝ) → Fin 2 → Fin 2 → ℝ) :=
  if s = some "identity" then (invMapTo .triangle 2 V).map fun F x k l => eval (coords (F x)) (f k l)
  else if s = some "double_contravariant" then mappedMatrix .triangle V f else none

/-- A function with products with the normals that vanish on all edges. -/
noncomputable def tangentialBump : MField 2 := symMat (X 0 * (1 - X 0)) (-(X 0 * X 1)) (X 1 * (1 - X 1))

theorem bump_mem : NcSpace tangentialBump := by
  have x0 : (X 0 : MvPolynomial ℕ ℝ) ∈ P 2 1 := X_mem (by omega)
  have x1 : (X 1 : MvPolynomial ℕ ℝ) ∈ P 2 1 := X_mem (by omega)
  have o : (1 : MvPolynomial ℕ ℝ) ∈ P 2 1 := one_mem (by omega)
  have m : ∀ {p q : MvPolynomial ℕ ℝ}, p ∈ P 2 1 → q ∈ P 2 1 → p * q ∈ P 2 ((2 : ℕ) : ℤ) := fun hp hq => by
    have h := P_mul hp hq
    rwa [show (1 : ℤ) + 1 = ((2 : ℕ) : ℤ) by norm_num] at h
  refine ⟨⟨symMat_sym _ _ _, symMat_mem (m x0 (Submodule.sub_mem _ o x0)) (Submodule.neg_mem _ (m x0 x1)) (m x1 (Submodule.sub_mem _ o x1))⟩,
    fun e he => ⟨0, 0, fun t => ?_⟩⟩
  interval_cases e <;> norm_num [edgeNormal, tangentialBump, symMat, Fin.sum_univ_two, facetNormal, edgePoint, coords] <;> ring

theorem bump_line {e : ℕ} (he : e < 3) (b : Bool) : line e b tangentialBump = 0 := by
  refine MvPolynomial.funext fun t => ?_
  rw [eval_line he b bump_mem.1.2, map_zero]
  have v0 : ((0 : Fin 2) : ℕ) = 0 := rfl
  have v1 : ((1 : Fin 2) : ℕ) = 1 := rfl
  cases b <;> simp only [edgeLeft, Fin.sum_univ_two, if_true, if_false, Bool.false_eq_true, v0, v1, edge_area he 0 (by omega),
    edge_area he 1 (by omega), edge_axis he 0 (by omega), edge_axis he 1 (by omega)] <;>
    interval_cases e <;> norm_num [coords, edgePoint, tangentialBump, symMat] <;> ring

/-- A sheared triangle. -/
noncomputable def slanted (i : ℕ) : ℕ → ℝ := if i = 0 then coords [0, 0] else if i = 1 then coords [1, 1] else coords [0, 1]

theorem slanted_map : ∃ F, invMapTo .triangle 2 slanted = some F ∧ ∀ x : ℕ → ℝ, coords (F x) 0 = x 0 ∧ coords (F x) 1 = x 1 - x 0 := by
  simp [invMapTo, solve2, mat2, psub, slanted, coords, Matrix.inv_def, Matrix.adjugate_fin_two, Matrix.det_fin_two]
  intro x
  ring

/-- All coefficients of the functionals of the edges are 0, so that the function fits to a function that is 0 in the neighbouring
triangle, but the integral of its normal-normal component over an edge does not vanish. -/
def InnerIntegralBroken (e : Option (Element ℝ (MField 2))) : Prop :=
  ∃ basis dofs fs, e = some (.ciarlet basis dofs) ∧ getBasis (.ciarlet basis dofs) = some fs ∧
  ∃ a : ℕ → ℝ, (∀ l d, dofs[l]? = some d → d.entity.1 = 1 → a l = 0) ∧
  ∃ V gs, (dofs.zip fs).mapM (fun p => performMatrix p.1.mapping V p.2) = some gs ∧
  ∃ i < 3, edgeIntegral V i (fun y r s => ∑ l : Fin gs.length, a l * gs[l] y r s) ≠ 0

theorem edges_lt {variant : String} {m : ℕ} {dofs : List (Dof ℝ (MField 2))} (h : awEdges variant m = some dofs) :
    ∀ d ∈ dofs, d.entity.2 < 3 := by
  obtain ⟨r, hr, rfl⟩ := Option.map_eq_some_iff.1 h
  intro d hd
  obtain ⟨ds, hds, hd⟩ := List.mem_flatten.1 hd
  obtain ⟨e, he, h⟩ := forall₂_mem_left (mapM_forall hr) hds
  obtain ⟨basis, -, h⟩ := Option.bind_eq_some_iff.1 h
  obtain ⟨pt, -, h⟩ := forall₂_mem_left (mapM_forall h) hd
  obtain ⟨d', hd1, hd2, -⟩ := aw_edge (List.mem_range.1 he) pt.1 pt.2
  obtain rfl := Option.some.inj (h.symm.trans hd1)
  rw [hd2]
  exact List.mem_range.1 he

theorem bump_integral : edgeIntegral slanted 2 (fun y r s => eval (coords [y 0, y 1 - y 0]) (tangentialBump r s)) ≠ 0 := by
  have hc : ∀ i, (physDomain .triangle slanted (1, i)).cell = .interval := fun _ => rfl
  have hp : ∀ i j k, (physDomain .triangle slanted (1, i)).v j k = slanted ((entVerts .triangle 1 i).getD j 0) k :=
    fun _ _ _ => rfl
  have e2 : entVerts .triangle 1 2 = [0, 1] := rfl
  have h1 : Cell.interval.tdim = 1 := rfl
  rw [edgeIntegral, cellInt_interval]
  have e : ∀ x : ℝ, (∑ r : Fin 2, ∑ s : Fin 2, areaVec 2 (physDomain .triangle slanted (1, 2)).v r.val *
      eval (coords [(physDomain .triangle slanted (1, 2)).param (Function.update (fun _ => 0) 0 x) 0,
        (physDomain .triangle slanted (1, 2)).param (Function.update (fun _ => 0) 0 x) 1 -
        (physDomain .triangle slanted (1, 2)).param (Function.update (fun _ => 0) 0 x) 0]) (tangentialBump r s) *
      areaVec 2 (physDomain .triangle slanted (1, 2)).v s.val) = x - x ^ 2 := by
    intro x
    norm_num [Fin.sum_univ_two, areaVec, hp, hc, e2, h1, slanted, coords, Domain.param, axisVertices, tangentialBump, symMat]
    ring
  simp only [e]
  rw [intervalIntegral.integral_sub (Continuous.intervalIntegrable (by fun_prop) _ _) (Continuous.intervalIntegrable (by fun_prop) _ _),
    integral_id, integral_pow]
  norm_num

/-- **C150** is violated by the nonconforming element: its functionals in the triangle have the mapping `identity`. -/
theorem nc_aw_broken : InnerIntegralBroken (ncAwElement "equispaced") := by
  obtain ⟨F, hF, hF'⟩ := slanted_map
  obtain ⟨l, h1, h2, h3, h4⟩ := nc_poly
  obtain ⟨edges, xs, a1, a2, a3, a4, a5⟩ := aw_edges 1
  obtain ⟨basis, dofs, fs, e1, e2, e3, e4, e5, e6, e7⟩ := nc_aw_created
  have hdofs : ∀ d ∈ dofs, d.entity.1 = 1 → d.eval tangentialBump = 0 := by
    obtain ⟨interior, b1, b2, b3, b4⟩ := aw_interior "identity" 0
    have he : dofs = edges ++ interior := by
      rw [ncAwElement, h1, Option.bind_some, a1, Option.bind_some, b1, Option.bind_some, ciarlet] at e1
      split_ifs at e1
      exact (Element.ciarlet.inj (Option.some.inj e1)).2.symm
    intro d hd hd1
    rw [he] at hd
    rcases List.mem_append.1 hd with hd | hd
    · have hlt : d.entity.2 < 3 := edges_lt a1 d hd
      have : d.eval tangentialBump ∈ (entityFunctionals edges (1, d.entity.2)).map (·.eval tangentialBump) := by
        refine List.mem_map.2 ⟨d, ?_, rfl⟩
        rw [entityFunctionals, List.mem_filter]
        exact ⟨hd, by simp [← hd1]⟩
      rw [a5 _ hlt, List.mem_flatMap] at this
      obtain ⟨x, -, hx⟩ := this
      rw [bump_line hlt, bump_line hlt] at hx
      have hz : pairing1 .interval (0 : MvPolynomial ℕ ℝ) x = 0 := by rw [pairing1_comm, map_zero]
      simpa [hz] using hx
    · rw [(b3 d hd).1] at hd1
      exact absurd hd1 (by decide)
  let a : ℕ → ℝ := fun l => ((dofs[l]?.map fun d : Dof ℝ (MField 2) => d.eval tangentialBump).getD 0 : ℝ)
  have ha : ∀ l d, dofs[l]? = some d → a l = d.eval tangentialBump := fun l d hl => by
    show ((dofs[l]?.map fun d : Dof ℝ (MField 2) => d.eval tangentialBump).getD 0 : ℝ) = _
    rw [hl]; rfl
  have hsum : ∑ l : Fin fs.length, a l • fs[l] = tangentialBump := by
    have hmem : (∑ l : Fin fs.length, a l • fs[l]) ∈ lspan fs :=
      Submodule.sum_mem _ fun l _ => Submodule.smul_mem _ _ (Submodule.subset_span (List.getElem_mem l.2))
    refine sub_eq_zero.1 (e6 _ ((e5 _).1 (Submodule.sub_mem _ hmem ((e5 tangentialBump).2 bump_mem))) fun d hd' => ?_)
    obtain ⟨l, hl⟩ := List.getElem?_of_mem hd'
    rw [map_sub, combination_eval e2 a hl, ha l d hl, sub_self]
  obtain ⟨gs, hgs⟩ := mapM_exists (f := fun p : Dof ℝ (MField 2) × MField 2 => performMatrix p.1.mapping slanted p.2) (l := dofs.zip fs)
    fun p hp => by
      rcases e7 p.1 (List.of_mem_zip hp).1 with ⟨-, h⟩ | ⟨-, h⟩
      · exact ⟨_, by
          show performMatrix p.1.mapping slanted p.2 = some _
          have hm : mappedMatrix .triangle slanted p.2 = some _ := congrArg (Option.map _) hF
          rw [h, performMatrix, if_neg (by decide)]
          exact (if_pos rfl).trans hm⟩
      · exact ⟨_, by
          show performMatrix p.1.mapping slanted p.2 = some _
          rw [h, performMatrix, if_pos rfl, hF, Option.map_some]⟩
  have hf := mapM_forall hgs
  have hlen := hf.length_eq
  rw [List.length_zip, e3, e4, min_self] at hlen
  refine ⟨basis, dofs, fs, e1, e2, a, fun l d hl h1 => (ha l d hl).trans (hdofs d (List.mem_of_getElem? hl) h1), slanted, gs, hgs, 2, by omega, ?_⟩
  have key : ∀ y r s, ∑ l : Fin gs.length, a l * gs[l] y r s = eval (coords [y 0, y 1 - y 0]) (tangentialBump r s) := by
    intro y r s
    have hl' : gs.length = fs.length := by omega
    conv_rhs => rw [← hsum]
    rw [Finset.sum_apply, Finset.sum_apply, map_sum, ← Equiv.sum_comp (finCongr hl'.symm)]
    refine Finset.sum_congr rfl fun l _ => ?_
    show a l.val * (gs[l.val]'(by omega)) y r s = eval _ (a l.val • (fs[l.val]'l.2) r s)
    rw [smul_eval]
    have hd : l.val < dofs.length := by omega
    have := (List.forall₂_iff_get.1 hf).2 l.val (by rw [List.length_zip]; omega) (by omega)
    simp only [List.get_eq_getElem, List.getElem_zip] at this
    rcases e7 dofs[l.val] (List.getElem_mem hd) with ⟨h, -⟩ | ⟨-, h⟩
    · rw [ha _ _ (List.getElem?_eq_getElem hd), hdofs _ (List.getElem_mem hd) h, zero_mul, zero_mul]
    · rw [h, performMatrix, if_pos rfl, hF, Option.map_some] at this
      rw [← Option.some.inj this]
      congr 1
      refine eval_congr_P (((e5 _).1 (Submodule.subset_span (List.getElem_mem l.2))).1.2 r s) fun i hi => ?_
      interval_cases i
      · exact (hF' y).1
      · exact (hF' y).2
  simp only [key]
  exact bump_integral

end Verif.Matrices
