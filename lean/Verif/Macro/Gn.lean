import Verif.Macro.GnModel
/-!
# Creation of Guzmán–Neilan elements
-/

namespace Verif.Macro
open Verif.References Verif.Elements Verif.FiniteElement Verif.Polysets Verif.Moments Verif.Geometry Verif.Functions
open Verif.Families Verif.Scalar Verif.Smooth Verif.Functionals Verif.Orthogonal
open MvPolynomial

/-! ### Functionals at points -/

/-- A functional at a point is that of one of the pieces at the point. -/
theorem onPiece_at {W : Type} [AddCommGroup W] [Module ℝ W] {d m n : ℕ} {c : Fin n → Fin m → Fin d → ℝ} (hd : d = 1 ∨ d = 2 ∨ d = 3) (hc : ∀ i, Proper d (c i))
    (z : ℕ → ℝ) {j : Fin n} (hj : Inside (c j) z) : ∃ i, Inside (c i) z ∧ ∀ D : Dof ℝ W,
      onPiece n d (cellList c) z D = some ⟨D.kind, D.entity, D.mapping, D.eval ∘ₗ LinearMap.proj i⟩ := by
  have hz : (List.range d).map z = tup fun j : Fin d => z j.val := by
    rw [tup, List.ofFn_eq_map, ← List.map_coe_finRange_eq_range, List.map_map]
    rfl
  obtain ⟨i, hi, h1, h2⟩ := loop_piece (List.ofFn c) (fun v hv => by obtain ⟨i, rfl⟩ := (List.mem_ofFn' _ _).1 hv; exact hc i) 0 (fun j : Fin d => z j.val)
    ⟨c j, (List.mem_ofFn' _ _).2 ⟨j, rfl⟩, hj⟩
  have hi' : i < n := by simpa using hi
  have hp : pieceAt d (cellList c) ((List.range d).map z) = some i := by
    rw [pieceAt, Piecewise.getPiece, if_pos hd, hz]
    have : cellList c = (List.ofFn c).map cellOf := by
      rw [cellList, List.map_ofFn]
      rfl
    simp only [this, h1, zero_add]
  refine ⟨⟨i, hi'⟩, ?_, fun D => onPiece_of hp hi' D⟩
  rw [List.getElem_ofFn] at h2
  exact h2

theorem contraPoint_eval (e : ℕ × ℕ) (p dir : ℕ → ℝ) (v : Field 2) : (contraPoint (r := 2) e p dir).eval v = dir 0 * eval p (v 0) + dir 1 * eval p (v 1) := by
  simp [contraPoint, dotDof, LinearMap.sum_apply, Fin.sum_univ_two, aeval_eq_eval]

theorem edge_verts (i : Fin 3) : (entityDomain .triangle (1, i.val)).v 0 = sidePoint i 0 ∧ (entityDomain .triangle (1, i.val)).v 1 = sidePoint i 1 := by
  fin_cases i <;> constructor <;> funext j
  all_goals
    simp [entityDomain, entVerts, Cell.subEntities, Cell.edges, refVertex, refVerts, sidePoint, entityVerts]

theorem side_param (i : Fin 3) (t : ℕ → ℝ) : (entityDomain .triangle (1, i.val)).param t 0 = sidePoint i (t 0) 0 ∧
    (entityDomain .triangle (1, i.val)).param t 1 = sidePoint i (t 0) 1 := by
  rcases edge_coords i.2 t with ⟨h, e0, e1⟩ | ⟨h, e0, e1⟩ | ⟨h, e0, e1⟩ <;> rw [e0, e1] <;> obtain ⟨i, hi⟩ := i <;> simp only at h <;> subst h <;>
    simp [sidePoint, coords]

theorem edge_area (i : Fin 3) : areaVec 2 (entityDomain .triangle (1, i.val)).v 0 = sideNormal i 0 ∧
    areaVec 2 (entityDomain .triangle (1, i.val)).v 1 = sideNormal i 1 := by
  obtain ⟨h0, h1⟩ := edge_verts i
  rw [areaVec, if_pos rfl, h0, h1]
  fin_cases i <;> simp [sidePoint, sideNormal, coords]

theorem side_inside (i : Fin 3) {t : ℝ} (h0 : 0 ≤ t) (h1 : t ≤ 1) : Inside (gnCells i.rev) (sidePoint i t) := by
  fin_cases i
  · exact inside_two.2 ⟨by simp [sidePoint, coords], by simp [sidePoint, coords]; linarith, by simp [sidePoint, coords]; linarith⟩
  · exact inside_one.2 ⟨by simp [sidePoint, coords], by simp [sidePoint, coords]; linarith, by simp [sidePoint, coords]; linarith⟩
  · exact inside_zero.2 ⟨by simp [sidePoint, coords], by simp [sidePoint, coords]; linarith, by simp [sidePoint, coords]; linarith⟩

theorem gnEnds_eq (i : Fin 3) : ∃ l, gnEnds i.val = some l ∧ l.length = 2 ∧ (∀ d ∈ l, d.entity = (1, i.val)) ∧
    ∀ f, GNSpace f → (∀ d ∈ l, d.eval f = 0) → ∀ t, (t = 0 ∨ t = 1) → ∑ c, sideNormal i c * eval (sidePoint i t) (f i.rev c) = 0 := by
  obtain ⟨J, n, s, hJ, hs, h1, h2, h3⟩ := (facet_facts (c := .triangle) (Or.inl rfl) (i := i.val) (Nat.lt_succ_iff.1 i.2)).facts
  have ha := facet_area (c := .triangle) (Or.inl rfl) h1 h2 hJ
  have h1' : References.jacobian (entityDomain .triangle (1, i.val)).cell 2 (entityDomain .triangle (1, i.val)).v = some J := h1
  have h2' : normal (entityDomain .triangle (1, i.val)).cell 2 (entityDomain .triangle (1, i.val)).v = some n := h2
  obtain ⟨v0, v1⟩ := edge_verts i
  have i0 := side_inside i (t := 0) le_rfl zero_le_one
  have i1 := side_inside i (t := 1) zero_le_one le_rfl
  obtain ⟨p0, p1, p2⟩ := onPiece_at (W := Field 2) (c := gnCells) (by omega) gn_proper _ i0
  obtain ⟨q0, q1, q2⟩ := onPiece_at (W := Field 2) (c := gnCells) (by omega) gn_proper _ i1
  refine ⟨_, by
    rw [gnEnds, h2', Option.bind_some, h1', Option.bind_some]
    simp only [show List.range 2 = [0, 1] from rfl, List.mapM_cons, List.mapM_nil, v0, v1, p2, q2]
    rfl, rfl, ?_, fun f hf hz t ht => ?_⟩
  · intro d hd
    simp only [List.mem_cons, List.not_mem_nil, or_false] at hd
    rcases hd with rfl | rfl <;> rfl
  · simp only [List.mem_cons, List.not_mem_nil, or_false, forall_eq_or_imp, forall_eq, LinearMap.comp_apply, LinearMap.proj_apply, contraPoint_eval] at hz
    obtain ⟨a0, a1⟩ := edge_area i
    have e0 : n 0 * J = sideNormal i 0 := by rw [← a0, mul_comm]; exact ha 0
    have e1 : n 1 * J = sideNormal i 1 := by rw [← a1, mul_comm]; exact ha 1
    rw [e0, e1] at hz
    rw [Fin.sum_univ_two]
    rcases ht with rfl | rfl
    · rw [hf.2.1 _ _ _ i0 p1 0, hf.2.1 _ _ _ i0 p1 1]
      exact hz.1
    · rw [hf.2.1 _ _ _ i1 q1 0, hf.2.1 _ _ _ i1 q1 1]
      exact hz.2

theorem gnMid_eq : ∃ l, gnMid = some l ∧ l.length = 2 ∧ (∀ d ∈ l, d.entity = (2, 0)) ∧
    ∀ f, GNSpace f → (∀ d ∈ l, d.eval f = 0) → ∀ i c, eval (coords [1 / 3, 1 / 3]) (f i c) = 0 := by
  have hm : ∀ j < 2, References.midpoint .triangle (refVertex .triangle) j = (coords [1 / 3, 1 / 3] : ℕ → ℝ) j := fun j hj => by
    interval_cases j <;> norm_num [References.midpoint, Cell.nverts, refVertex, refVerts, coords, Finset.sum_range_succ]
  have hin : ∀ z : ℕ → ℝ, (∀ j < 2, z j = coords [1 / 3, 1 / 3] j) → ∀ i, Inside (gnCells i) z := fun z hz i => by
    have h0 := hz 0 (by omega)
    have h1 := hz 1 (by omega)
    fin_cases i
    · exact inside_zero.2 (by rw [h0, h1]; norm_num [coords])
    · exact inside_one.2 (by rw [h0, h1]; norm_num [coords])
    · exact inside_two.2 (by rw [h0, h1]; norm_num [coords])
  obtain ⟨p0, p1, p2⟩ := onPiece_at (W := Field 2) (c := gnCells) (by omega) gn_proper _ (hin _ hm 0)
  refine ⟨_, by
    rw [gnMid]
    simp only [show List.range 2 = [0, 1] from rfl, List.mapM_cons, List.mapM_nil, p2]
    rfl, rfl, ?_, fun f hf hz i c => ?_⟩
  · intro d hd
    simp only [List.mem_cons, List.not_mem_nil, or_false] at hd
    rcases hd with rfl | rfl <;> rfl
  · simp only [List.mem_cons, List.not_mem_nil, or_false, forall_eq_or_imp, forall_eq, LinearMap.comp_apply, LinearMap.proj_apply, contraPoint_eval] at hz
    norm_num at hz
    have he : eval (coords [1 / 3, 1 / 3]) (f i c) = eval (References.midpoint .triangle (refVertex .triangle)) (f i c) := by
      obtain ⟨a, a1, -⟩ := quadratic (hf.1 i c)
      rw [a1, a1, hm 0 (by omega), hm 1 (by omega)]
    rw [he, hf.2.1 i p0 _ (hin _ hm i) p1 c]
    fin_cases c
    · exact hz.1
    · exact hz.2

/-! ### Functionals of edges -/

theorem contains_tri (V : ℕ → ℕ → ℝ) (hV : ¬ isDefault .triangle 2 V = true) (p : ℕ → ℝ) : contains .triangle 2 V p = some (decide
   (0 ≤ ((V 2 1 - V 0 1) * (p 0 - V 0 0) - (V 2 0 - V 0 0) * (p 1 - V 0 1)) / ((V 1 0 - V 0 0) * (V 2 1 - V 0 1) - (V 1 1 - V 0 1) * (V 2 0 - V 0 0))) &&
   decide (0 ≤ ((V 1 0 - V 0 0) * (p 1 - V 0 1) - (V 1 1 - V 0 1) * (p 0 - V 0 0)) / ((V 1 0 - V 0 0) * (V 2 1 - V 0 1) - (V 1 1 - V 0 1) * (V 2 0 - V 0 0))) &&
   decide (((V 2 1 - V 0 1) * (p 0 - V 0 0) - (V 2 0 - V 0 0) * (p 1 - V 0 1)) / ((V 1 0 - V 0 0) * (V 2 1 - V 0 1) - (V 1 1 - V 0 1) * (V 2 0 - V 0 0)) +
    ((V 1 0 - V 0 0) * (p 1 - V 0 1) - (V 1 1 - V 0 1) * (p 0 - V 0 0)) / ((V 1 0 - V 0 0) * (V 2 1 - V 0 1) - (V 1 1 - V 0 1) * (V 2 0 - V 0 0)) ≤ 1)) := by
  simp only [contains, if_neg hV]
  rfl

theorem gnVerts_eq : (gnVerts 0 0 0 = 0 ∧ gnVerts 0 0 1 = 0 ∧ gnVerts 0 1 0 = 1 ∧ gnVerts 0 1 1 = 0 ∧ gnVerts 0 2 0 = 1 / 3 ∧ gnVerts 0 2 1 = 1 / 3) ∧
    (gnVerts 1 0 0 = 0 ∧ gnVerts 1 0 1 = 0 ∧ gnVerts 1 1 0 = 0 ∧ gnVerts 1 1 1 = 1 ∧ gnVerts 1 2 0 = 1 / 3 ∧ gnVerts 1 2 1 = 1 / 3) ∧
    (gnVerts 2 0 0 = 1 ∧ gnVerts 2 0 1 = 0 ∧ gnVerts 2 1 0 = 0 ∧ gnVerts 2 1 1 = 1 ∧ gnVerts 2 2 0 = 1 / 3 ∧ gnVerts 2 2 1 = 1 / 3) := by
  simp [gnVerts, gnCells]

theorem gnVerts_default (i : Fin 3) : ¬ isDefault .triangle 2 (gnVerts i) = true := by
  intro h
  simp only [isDefault, Bool.and_eq_true, List.all_eq_true, decide_eq_true_eq, List.mem_range] at h
  have := h.2 2 (by decide) 0 (by omega)
  fin_cases i <;> simp [gnVerts_eq, refVertex, refVerts, coords] at this


theorem gnVerts_at (i : Fin 3) : gnVerts i 0 0 = ![0, 0, 1] i ∧ gnVerts i 0 1 = 0 ∧ gnVerts i 1 0 = ![1, 0, 0] i ∧ gnVerts i 1 1 = ![0, 1, 1] i ∧
    gnVerts i 2 0 = 1 / 3 ∧ gnVerts i 2 1 = 1 / 3 := by
  obtain ⟨h0, h1, h2⟩ := gnVerts_eq
  fin_cases i
  · exact h0
  · exact h1
  · exact h2

theorem interval_outside (i : Fin 3) (V : ℕ → ℕ → ℝ) : allContained 2 ⟨.triangle, gnVerts i⟩ ⟨.interval, V⟩ = false := by
  have h : ∀ p, contains .interval 2 V p = none := fun p => by
    simp [contains, isDefault, Cell.tdim]
  have n3 : List.range Cell.triangle.nverts = [0, 1, 2] := rfl
  simp [allContained, h, n3]

theorem meets' (i j : Fin 3) (V : ℕ → ℕ → ℝ) (v0 : V 0 = ![coords [1, 0], coords [0, 0], coords [0, 0]] j) (v1 : V 1 = ![coords [0, 1], coords [0, 1], coords [1, 0]] j) :
    intersection 2 ⟨.triangle, gnVerts i⟩ ⟨.interval, V⟩ = if i = j.rev then .second else .nothing := by
  have e : Cell.triangle.edges = [[1, 2], [0, 2], [0, 1]] := rfl
  have n3 : List.range Cell.triangle.nverts = [0, 1, 2] := rfl
  have r3 : List.range 3 = [0, 1, 2] := rfl
  have r2 : List.range 2 = [0, 1] := rfl
  have n2 : List.range Cell.interval.nverts = [0, 1] := rfl
  have w00 : V 0 0 = ![1, 0, 0] j := by rw [v0]; fin_cases j <;> rfl
  have w01 : V 0 1 = ![0, 0, 0] j := by rw [v0]; fin_cases j <;> rfl
  have w10 : V 1 0 = ![0, 0, 1] j := by rw [v1]; fin_cases j <;> rfl
  have w11 : V 1 1 = ![1, 1, 0] j := by rw [v1]; fin_cases j <;> rfl
  obtain ⟨x0, x1, x2, x3, x4, x5⟩ := gnVerts_at i
  rw [intersection, if_neg (by rw [interval_outside]; simp)]
  by_cases hij : i = j.rev
  · rw [if_pos hij, if_pos]
    simp only [allContained, n2, List.all_cons, List.all_nil, contains_tri _ (gnVerts_default _), w00, w01, w10, w11, x0, x1, x2, x3, x4, x5]
    subst hij
    fin_cases j <;> norm_num [Fin.rev]
  · have h1 : allContained 2 ⟨.interval, V⟩ ⟨.triangle, gnVerts i⟩ = false := by
      simp only [allContained, n2, List.all_cons, List.all_nil, contains_tri _ (gnVerts_default _), w00, w01, w10, w11, x0, x1, x2, x3, x4, x5]
      fin_cases i <;> fin_cases j <;> first | exact absurd rfl hij | norm_num
    have h2 : separated 2 ⟨.triangle, gnVerts i⟩ ⟨.interval, V⟩ = true := by
      simp only [separated, if_true, e, List.any_cons, List.any_nil, whichSide, n3, n2, List.map_cons, List.map_nil, List.getD_cons_zero, List.getD_cons_succ,
        true_or, w00, w01, w10, w11, x0, x1, x2, x3, x4, x5]
      fin_cases i <;> fin_cases j <;> first | exact absurd rfl hij | norm_num [opposite]
    rw [if_neg hij, if_neg (by rw [h1]; simp), if_pos (by rw [h2]; rfl)]

/-- The intersection of a cell of the subdivision and an edge is the edge, or nothing. -/
theorem meets (i j : Fin 3) : intersection 2 ⟨.triangle, gnVerts i⟩ ⟨(entityDomain .triangle (1, j.val)).cell, (entityDomain .triangle (1, j.val)).v⟩ =
    if i = j.rev then .second else .nothing := by
  obtain ⟨h0, h1⟩ := edge_verts j
  refine meets' i j _ (h0.trans ?_) (h1.trans ?_) <;> fin_cases j <;> simp [sidePoint]


theorem onEntity_eq (d : Dof ℝ (Field 2)) (j : Fin 3) (hd : d.entity = (1, j.val)) :
    ∃ D, onEntity d = some D ∧ D.entity = d.entity ∧ ∀ f, D.eval f = d.eval (f j.rev) := by
  have h : (List.finRange 3).mapM (entityPiece d) = some ((List.finRange 3).map fun i => if i = j.rev then d.eval ∘ₗ LinearMap.proj i else 0) := by
    refine mapM_some_of _ _ _ fun i _ => ?_
    rw [entityPiece, hd, meets]
    by_cases hij : i = j.rev
    · rw [if_pos hij, if_pos hij]
    · rw [if_neg hij, if_neg hij]
  refine ⟨_, by rw [onEntity, h]; rfl, rfl, fun f => ?_⟩
  show ((List.finRange 3).map fun i => if i = j.rev then (d.eval ∘ₗ LinearMap.proj i : (Fin 3 → Field 2) →ₗ[ℝ] ℝ) else 0).sum f = _
  fin_cases j <;> simp [List.finRange_succ, Fin.rev]

end Verif.Macro
