import Verif.Scalar.TntPoly
import Verif.Families.Mtw
/-!
# Tiniest tensor product elements

C153.
-/

namespace Verif.Scalar
open Verif.References Verif.Moments Verif.Functionals Verif.Elements Verif.FiniteElement Verif.Polysets Verif.Orthogonal
open Verif.Families
open MvPolynomial

/-! ### Model -/

/-- `IntegralAgainst(reference, f, entity, mapping="identity")` with a scalar `f` (symfem/functionals.py:938-1025): `f` is divided by
`reference.jacobian()`. -/
noncomputable def against1 (c : Cell) (m : (ℕ × ℕ) × MvPolynomial ℕ ℝ) : Option (Dof ℝ (MvPolynomial ℕ ℝ)) :=
  (jacobian (entityDomain c (c.tdim, 0)).cell c.tdim (entityDomain c (c.tdim, 0)).v).bind fun J0 =>
    (jacobian (entityDomain c m.1).cell c.tdim (entityDomain c m.1).v).map fun J =>
      ⟨9, m.1, some "identity", moment1Map (entityDomain c m.1) J (C (1 / J0) * m.2)⟩

/-- The functions of the functionals on edges (symfem/elements/tnt.py:95-98). -/
noncomputable def tntEdgeFn (i : ℕ) : MvPolynomial ℕ ℝ := C (i : ℝ) * X 0 ^ (i - 1)

/-- `t[0] ** i * (t[0] - 1) * t[1] ** j * (t[1] - 1)` (symfem/elements/tnt.py:102). -/
noncomputable def tntFaceFn (i j : ℕ) : MvPolynomial ℕ ℝ := X 0 ^ i * (X 0 - 1) * X 1 ^ j * (X 1 - 1)

/-- `delta_f` (symfem/elements/tnt.py:103). -/
noncomputable def tntDelta (f : MvPolynomial ℕ ℝ) : MvPolynomial ℕ ℝ := pderiv 0 (pderiv 0 f) + pderiv 1 (pderiv 1 f)

/-- The products of `k ** j * (k - 1)` (symfem/elements/tnt.py:112-114). -/
noncomputable def tntCellFn (ii : ℕ × ℕ × ℕ) : MvPolynomial ℕ ℝ :=
  1 * (X 0 ^ ii.1 * (X 0 - 1)) * (X 1 ^ ii.2.1 * (X 1 - 1)) * (X 2 ^ ii.2.2 * (X 2 - 1))

/-- The integral of the product of the gradients, as a linear map. -/
noncomputable def gradMap (D : Domain) (J : ℝ) (f : MvPolynomial ℕ ℝ) : MvPolynomial ℕ ℝ →ₗ[ℝ] ℝ :=
  ∑ j : Fin D.g, moment1Map D J 1 ∘ₗ LinearMap.mulRight ℝ (pderiv j.val f) ∘ₗ (pderiv (R := ℝ) j.val).toLinearMap

/-- `DerivativeIntegralMoment(reference, 1, grad_f, dof, entity=(3, 0), mapping="identity")` on the default hexahedron
(symfem/functionals.py:1388-1451): the gradient of the function is evaluated at the points of the cell (line 1449), and so is `grad_f` (in
`integral`, symfem/functions.py:801-806). -/
noncomputable def tntGradDof (f : MvPolynomial ℕ ℝ) : Option (Dof ℝ (MvPolynomial ℕ ℝ)) :=
  (jacobian (entityDomain .hexahedron (3, 0)).cell 3 (entityDomain .hexahedron (3, 0)).v).map fun J =>
    ⟨16, (3, 0), some "identity", gradMap (entityDomain .hexahedron (3, 0)) J f⟩

/-- `range(1, n)` -/
def from1 (n : ℕ) : List ℕ := (List.range (n - 1)).map (· + 1)

/-- The functionals on the edges and faces (symfem/elements/tnt.py:95-107). -/
noncomputable def tntAgainst (c : Cell) (k : ℕ) : List ((ℕ × ℕ) × MvPolynomial ℕ ℝ) :=
  ((from1 (k + 1)).flatMap fun i => (List.range (entityCount c 1)).map fun e => ((1, e), tntEdgeFn i)) ++
  (from1 k).flatMap fun i => (from1 k).flatMap fun j => (List.range (entityCount c 2)).map fun e => ((2, e), tntDelta (tntFaceFn i j))

/-- `product(range(1, order), repeat=3)` in three dimensions (symfem/elements/tnt.py:109-111). -/
def tntInner (c : Cell) (k : ℕ) : List (ℕ × ℕ × ℕ) :=
  if c.tdim = 3 then (from1 k).flatMap fun i => (from1 k).flatMap fun j => (from1 k).map fun l => (i, j, l) else []

/-- `TNT(reference, order)` on the default references (symfem/elements/tnt.py:65-122). -/
noncomputable def tntElement (c : Cell) (k : ℕ) : Option (Element ℝ (MvPolynomial ℕ ℝ)) :=
  ((tntAgainst c k).mapM (against1 c)).bind fun ds => ((tntInner c k).mapM fun ii => tntGradDof (tntCellFn ii)).bind fun gs =>
    ciarlet (tntPoly c.tdim k) ((vertexDofs c).map PointDof.functional ++ ds ++ gs)

/-! ### The functions that determine the interior -/

theorem mem_from1 {n i : ℕ} : i ∈ from1 n ↔ 1 ≤ i ∧ i < n := by
  simp only [from1, List.mem_map, List.mem_range]
  constructor
  · rintro ⟨a, h, rfl⟩
    omega
  · rintro ⟨h1, h2⟩
    exact ⟨i - 1, by omega, by omega⟩

theorem from1_length (n : ℕ) : (from1 n).length = n - 1 := by simp [from1]

/-- A linear map of the products of powers of the variables. -/
theorem QP_span {n : ℕ} (hpos : 1 ≤ n) {k : ℤ} {w b : MvPolynomial ℕ ℝ} (hw : w ∈ QP n k) (L : MvPolynomial ℕ ℝ →ₗ[ℝ] ℝ)
    (h : ∀ t : ℕ → ℕ, (∀ i, (t i : ℤ) ≤ k) → L (b * ∏ i ∈ Finset.range n, X i ^ t i) = 0) : L (b * w) = 0 := by
  rw [w.as_sum, Finset.mul_sum, map_sum]
  refine Finset.sum_eq_zero fun t ht => ?_
  have hb := mem_B.1 hw t ht
  have h0 : ∀ i, ¬ i < n → t i = 0 := fun i hi => by
    have := hb i
    rw [if_neg hi] at this
    omega
  have e : monomial t (coeff t w) = C (coeff t w) * ∏ i ∈ Finset.range n, X i ^ t i := by
    rw [monomial_eq, Finsupp.prod_of_support_subset t (s := Finset.range n) (fun i hi => ?_) _ (fun _ _ => pow_zero _)]
    rw [Finset.mem_range]
    by_contra hn
    exact Finsupp.mem_support_iff.1 hi (h0 i hn)
  rw [e, mul_left_comm, C_mul', map_smul]
  by_cases hn : ∀ i, (t i : ℤ) ≤ k
  · rw [h t hn, smul_zero]
  · exfalso
    push Not at hn
    obtain ⟨i, hi⟩ := hn
    have h1 := hb i
    have h2 := hb 0
    rw [if_pos (Nat.lt_of_succ_le hpos)] at h2
    split_ifs at h1 <;> omega

theorem tnt_zero1 {k : ℕ} (hk : 1 ≤ k) {g : MvPolynomial ℕ ℝ} (hg : g ∈ Tnt 1 k)
    (h : ∀ j < 1, ∀ z : ℕ → ℝ, z j = 0 ∨ z j = 1 → eval z g = 0)
    (hm : ∀ i ∈ from1 (k + 1), pairing1 .interval g (tntEdgeFn i) = 0) : g = 0 := by
  obtain ⟨w, hw, rfl⟩ := box_factor (Tnt_QP hg) h
  have hw' : w ∈ QP 1 ((k : ℤ) - 1) := B_mono (fun i => by split_ifs <;> omega) hw
  have h0 : pairing1 .interval (cellBub 1 * w) (1 * w) = 0 := by
    refine QP_span le_rfl hw' _ fun t ht => ?_
    have h1 := ht 0
    have h2 := hm (t 0 + 1) (mem_from1.2 ⟨by omega, by omega⟩)
    have e : tntEdgeFn (t 0 + 1) = ((t 0 + 1 : ℕ) : ℝ) • (1 * ∏ i ∈ Finset.range 1, X i ^ t i) := by
      rw [tntEdgeFn, smul_eq_C_mul]
      simp
    rw [e, map_smul, smul_eq_mul, mul_eq_zero] at h2
    exact h2.resolve_left (by positivity)
  rw [one_mul] at h0
  have hP : w ∈ P 1 (1 * ((k : ℤ) - 1)) := B_P (d := 1) (fun i hi => by rw [if_pos hi]) (fun i hi => by rw [if_neg (by omega)]) hw'
  have hw0 : w = 0 := by
    refine squares_zero (c := .interval) (tensor_solid (Or.inl rfl)) (fun _ : Unit => cellBub 1) (fun _ z hz => ?_) (fun _ z hz => ?_)
      (fun _ => w) (k := 1 * ((k : ℤ) - 1)) (fun _ => hP)
      (Eq.trans ?_ h0) ()
    · rw [cellBub, map_prod]
      exact Finset.prod_nonneg fun i hi => closed_bub1 (c := .interval) (Or.inl rfl) hz (Finset.mem_range.1 hi)
    · rw [cellBub, map_prod]
      exact Finset.prod_pos fun i hi => inner_bub (hz i (Finset.mem_range.1 hi))
    · show _ = cellInt .interval fun z => eval z (cellBub 1 * w * w)
      congr 1
      funext z
      simp [pow_two, mul_assoc]
  rw [hw0, mul_zero]

/-- `tntDelta` as a linear map. -/
noncomputable def deltaMap : MvPolynomial ℕ ℝ →ₗ[ℝ] MvPolynomial ℕ ℝ :=
  (pderiv (R := ℝ) 0).toLinearMap ∘ₗ (pderiv (R := ℝ) 0).toLinearMap + (pderiv (R := ℝ) 1).toLinearMap ∘ₗ (pderiv (R := ℝ) 1).toLinearMap

theorem tnt_zero2 {k : ℕ} (hk : 1 ≤ k) {g : MvPolynomial ℕ ℝ} (hg : g ∈ Tnt 2 k)
    (h : ∀ j < 2, ∀ z : ℕ → ℝ, z j = 0 ∨ z j = 1 → eval z g = 0)
    (hm : ∀ i ∈ from1 k, ∀ j ∈ from1 k, pairing1 .quadrilateral g (tntDelta (tntFaceFn i j)) = 0) : g = 0 := by
  obtain ⟨w, hw, e⟩ := tnt_bubble le_rfl hk hg h
  have h0 : (pairing1 .quadrilateral g ∘ₗ deltaMap) (cellBub 2 * w) = 0 := by
    refine QP_span (by omega) hw _ fun t ht => ?_
    have h1 := ht 0
    have h2 := ht 1
    have h3 := hm (t 0 + 1) (mem_from1.2 ⟨by omega, by omega⟩) (t 1 + 1) (mem_from1.2 ⟨by omega, by omega⟩)
    have e2 : tntFaceFn (t 0 + 1) (t 1 + 1) = cellBub 2 * ∏ i ∈ Finset.range 2, X i ^ t i := by
      simp only [tntFaceFn, cellBub, Finset.prod_range_succ, Finset.prod_range_zero, bub]
      ring
    rw [e2] at h3
    exact h3
  rw [← e] at h0
  have h1 := laplace_parts (c := .quadrilateral) (Or.inl rfl) (Tnt_P hg) (Tnt_P hg) h
  have e3 : (∑ j : Fin (Cell.quadrilateral).tdim, pderiv j.val (pderiv j.val g)) = deltaMap g := Fin.sum_univ_two _
  rw [e3] at h1
  have h2 : pairing1 .quadrilateral g (deltaMap g) = 0 := h0
  rw [h2] at h1
  exact zero_of_gradient (c := .quadrilateral) (Or.inl rfl) (Tnt_P hg) h (by linarith)

theorem tnt_zero3 {k : ℕ} (hk : 1 ≤ k) {g : MvPolynomial ℕ ℝ} (hg : g ∈ Tnt 3 k)
    (h : ∀ j < 3, ∀ z : ℕ → ℝ, z j = 0 ∨ z j = 1 → eval z g = 0)
    (hm : ∀ ii ∈ tntInner .hexahedron k, ∑ j : Fin 3, pairing1 .hexahedron (pderiv j.val g) (pderiv j.val (tntCellFn ii)) = 0) : g = 0 := by
  obtain ⟨w, hw, e⟩ := tnt_bubble (by omega) hk hg h
  have h0 : (∑ j : Fin 3, pairing1 .hexahedron (pderiv j.val g) ∘ₗ (pderiv (R := ℝ) j.val).toLinearMap) (cellBub 3 * w) = 0 := by
    refine QP_span (by omega) hw _ fun t ht => ?_
    have h1 := ht 0
    have h2 := ht 1
    have h3 := ht 2
    have h4 := hm (t 0 + 1, t 1 + 1, t 2 + 1) (by
      rw [tntInner, if_pos (show Cell.hexahedron.tdim = 3 from rfl)]
      simp only [List.mem_flatMap, List.mem_map, mem_from1, Prod.mk.injEq]
      exact ⟨_, ⟨by omega, by omega⟩, _, ⟨by omega, by omega⟩, _, ⟨by omega, by omega⟩, rfl, rfl, rfl⟩)
    have e2 : tntCellFn (t 0 + 1, t 1 + 1, t 2 + 1) = - (cellBub 3 * ∏ i ∈ Finset.range 3, X i ^ t i) := by
      simp only [tntCellFn, cellBub, Finset.prod_range_succ, Finset.prod_range_zero, bub]
      ring
    rw [e2] at h4
    simp only [map_neg, Finset.sum_neg_distrib, neg_eq_zero] at h4
    rw [LinearMap.sum_apply]
    exact h4
  rw [← e, LinearMap.sum_apply] at h0
  refine zero_of_gradient (c := .hexahedron) (Or.inr rfl) (Tnt_P hg) h ?_
  rw [cellInt_poly_sum]
  exact h0

/-! ### The functionals -/

theorem against1_exists {c : Cell} (hc : Box c) {dim i : ℕ} (h1 : 1 ≤ dim) (hd : dim ≤ c.tdim) (hi : i < entityCount c dim) (x : MvPolynomial ℕ ℝ) :
    ∃ d, against1 c ((dim, i), x) = some d ∧ d.entity = (dim, i) ∧
      ∃ J, J ≠ 0 ∧ ∀ f, d.eval f = J * pairing1 (entityDomain c (dim, i)).cell (pull (entityDomain c (dim, i)) f) x := by
  obtain ⟨σ, J, -, hJ, hj⟩ := entity_aligned (hc.tensor) h1 hd hi
  refine ⟨⟨9, (dim, i), some "identity", moment1Map (entityDomain c (dim, i)) J (C (1 / 1) * x)⟩, ?_, rfl, J, hJ, fun f => ?_⟩
  · simp only [against1, box_jacobian hc, Option.bind_some, hj, Option.map_some]
  · show moment1Map _ _ _ _ = _
    rw [moment1Map_eq]
    simp

theorem hex_pull {p : MvPolynomial ℕ ℝ} {k : ℤ} (hp : p ∈ P 3 k) (z : ℕ → ℝ) : eval z (pull (entityDomain .hexahedron (3, 0)) p) = eval z p := by
  rw [eval_pull]
  exact eval_congr_P hp fun j hj => cell_param1 (c := .hexahedron) (Or.inr (Or.inr rfl)) z hj

theorem gradMap_hex {k l : ℤ} {f x : MvPolynomial ℕ ℝ} (hf : f ∈ P 3 k) (hx : x ∈ P 3 l) :
    gradMap (entityDomain .hexahedron (3, 0)) 1 x f = ∑ j : Fin 3, pairing1 .hexahedron (pderiv j.val f) (pderiv j.val x) := by
  have key : ∀ j : ℕ, moment1Map (entityDomain .hexahedron (3, 0)) 1 1 (pderiv j f * pderiv j x) = pairing1 .hexahedron (pderiv j f) (pderiv j x) := by
    intro j
    rw [moment1Map_eq, one_mul]
    show cellInt .hexahedron (fun z => eval z (pull (entityDomain .hexahedron (3, 0)) (pderiv j f * pderiv j x) * 1)) =
      cellInt .hexahedron (fun z => eval z (pderiv j f * pderiv j x))
    congr 1
    funext z
    rw [mul_one, hex_pull (P_mul (Smooth.pderiv_mem hf j) (Smooth.pderiv_mem hx j))]
  rw [gradMap, LinearMap.sum_apply]
  exact Finset.sum_congr rfl fun j _ => key j.val

theorem tntGrad_exists (x : MvPolynomial ℕ ℝ) :
    tntGradDof x = some ⟨16, (3, 0), some "identity", gradMap (entityDomain .hexahedron (3, 0)) 1 x⟩ := by
  have hj : jacobian (entityDomain .hexahedron (3, 0)).cell 3 (entityDomain .hexahedron (3, 0)).v = some 1 := box_jacobian (c := .hexahedron) (Or.inr rfl)
  rw [tntGradDof, hj, Option.map_some]

theorem tntCellFn_mem (ii : ℕ × ℕ × ℕ) : ∃ l : ℤ, tntCellFn ii ∈ P 3 l := by
  have hx : ∀ (i n : ℕ), i < 3 → (X i ^ n * (X i - 1) : MvPolynomial ℕ ℝ) ∈ P 3 ((n : ℤ) + 1) := fun i n hi =>
    P_mul (P_pow (X_mem hi) n) (Submodule.sub_mem _ (X_mem hi) (one_mem (by omega)))
  exact ⟨_, P_mul (P_mul (P_mul (one_mem le_rfl) (hx 0 _ (by omega))) (hx 1 _ (by omega))) (hx 2 _ (by omega))⟩

/-- **C153.** The values on an entity are determined by the functionals on the entity and on its boundary. -/
theorem tnt_trace {c : Cell} (hc : Box c) {k : ℕ} (hk : 1 ≤ k) {dofs : List (Dof ℝ (MvPolynomial ℕ ℝ))}
    (hv : ∀ d ∈ vertexDofs c, d.functional ∈ dofs) (hm : ∀ m ∈ tntAgainst c k, ∃ d ∈ dofs, against1 c m = some d)
    (hn : ∀ ii ∈ tntInner c k, ∃ d ∈ dofs, tntGradDof (tntCellFn ii) = some d) :
    C0Trace c (fun f => f ∈ Tnt c.tdim k) dofs := by
  have hT := hc.tensor
  have h3 : c.tdim = 2 ∨ c.tdim = 3 := by rcases hc with rfl | rfl <;> simp [Cell.tdim]
  intro dim
  induction dim with
  | zero =>
    intro _ i hi f hf h z
    obtain ⟨h1, h2⟩ := vertex_entity hT
    have h0 : (entityDomain c (0, i)).param z = refVertex c i := by
      have h3 : ∀ j, (entityDomain c (0, i)).v 0 j = refVertex c i j := fun j => by
        show refVertex c ((entVerts c 0 i).getD 0 0) j = _
        rw [h2 i hi]; rfl
      funext j
      rw [Domain.param, entity_cell hT (Nat.zero_le _), h3]
      simp [cubeCell, Cell.tdim]
    rw [h0, ← eval_functional ⟨refVertex c i, (0, i)⟩]
    refine h _ (hv _ (List.mem_map.2 ⟨i, List.mem_range.2 (h1 ▸ hi), rfl⟩)) ?_
    exact List.Subset.refl _
  | succ dim ih =>
    intro hd i hi f hf h z
    have hcell := entity_cell hT (i := i) hd
    obtain ⟨σ, J, hA, -, -⟩ := entity_aligned hT (by omega) hd hi
    have ht : (cubeCell (dim + 1)).tdim = dim + 1 := cubeCell_tdim (by omega)
    have hg : pull (entityDomain c (dim + 1, i)) f ∈ Tnt (dim + 1) k := by
      have := Tnt_pull hA hk hf
      rwa [hcell, ht] at this
    have hb : ∀ j < dim + 1, ∀ z : ℕ → ℝ, z j = 0 ∨ z j = 1 → eval z (pull (entityDomain c (dim + 1, i)) f) = 0 := by
      intro j hj z hz
      obtain ⟨i', hi', hs, y, hy⟩ := entity_boundary hT hd hi hj hz
      rw [eval_pull, ← eval_congr_P (Tnt_P hf) hy]
      exact ih (by omega) i' hi' f hf (fun d hdd hsub => h d hdd (List.Subset.trans hsub hs)) y
    have hp : ∀ x, ((dim + 1, i), x) ∈ tntAgainst c k → pairing1 (cubeCell (dim + 1)) (pull (entityDomain c (dim + 1, i)) f) x = 0 := by
      intro x hx
      obtain ⟨d, hd1, hd2⟩ := hm _ hx
      obtain ⟨d', e1, e2, J, hJ, e3⟩ := against1_exists hc (by omega : 1 ≤ dim + 1) hd hi x
      obtain rfl := Option.some.inj (hd2.symm.trans e1)
      have h5 := h d hd1 (by rw [e2]; exact List.Subset.refl _)
      rw [e3, mul_eq_zero, hcell] at h5
      exact h5.resolve_left hJ
    rw [← eval_pull]
    have : pull (entityDomain c (dim + 1, i)) f = 0 := by
      obtain rfl | rfl | rfl : dim = 0 ∨ dim = 1 ∨ dim = 2 := by omega
      · refine tnt_zero1 hk hg hb fun a ha => hp _ ?_
        refine List.mem_append_left _ (List.mem_flatMap.2 ⟨a, ha, List.mem_map.2 ⟨i, List.mem_range.2 hi, rfl⟩⟩)
      · refine tnt_zero2 hk hg hb fun a ha b hb => hp _ ?_
        refine List.mem_append_right _ (List.mem_flatMap.2 ⟨a, ha, List.mem_flatMap.2 ⟨b, hb, List.mem_map.2 ⟨i, List.mem_range.2 hi, rfl⟩⟩⟩)
      · obtain rfl : c = .hexahedron := by
          rcases hc with rfl | rfl
          · exact absurd hd (by decide)
          · rfl
        obtain rfl : i = 0 := Nat.lt_one_iff.1 hi
        have hf0 : pull (entityDomain .hexahedron (3, 0)) f = f := MvPolynomial.funext fun z => hex_pull (Tnt_P hf) z
        refine tnt_zero3 hk hg hb fun ii hii => ?_
        rw [hf0]
        obtain ⟨d, hd1, hd2⟩ := hn ii hii
        obtain rfl := Option.some.inj (hd2.symm.trans (tntGrad_exists (tntCellFn ii)))
        obtain ⟨m, hm2⟩ := tntCellFn_mem ii
        rw [← gradMap_hex (Tnt_P hf) hm2]
        exact h _ hd1 (List.Subset.refl _)
    rw [this, map_zero]

theorem tntAgainst_mem {c : Cell} (hc : Box c) {k : ℕ} {m : (ℕ × ℕ) × MvPolynomial ℕ ℝ} (hm : m ∈ tntAgainst c k) :
    1 ≤ m.1.1 ∧ m.1.1 ≤ c.tdim ∧ m.1.2 < entityCount c m.1.1 := by
  have h3 : 2 ≤ c.tdim := by rcases hc with rfl | rfl <;> decide
  rw [tntAgainst, List.mem_append] at hm
  simp only [List.mem_flatMap, List.mem_map, List.mem_range] at hm
  rcases hm with ⟨i, -, e, he, rfl⟩ | ⟨i, -, j, -, e, he, rfl⟩
  · exact ⟨le_rfl, (by omega : 1 ≤ c.tdim), he⟩
  · exact ⟨(by omega : 1 ≤ 2), h3, he⟩

/-- The number of functionals: one for each vertex, and the moments. -/
def tntCount (c : Cell) (k : ℕ) : ℕ :=
  entityCount c 0 + entityCount c 1 * k + entityCount c 2 * (k - 1) ^ 2 + if c.tdim = 3 then (k - 1) ^ 3 else 0

/-- **C153.** Tiniest tensor product elements can be created on quadrilaterals and hexahedra at every order, their functions are the polynomials
of degree at most the order in every variable and the products of the next power of one variable with polynomials of degree at most 1 in every
other variable, they are determined by the functionals, and the values on an entity are determined by the functionals on the entity and its
boundary. -/
theorem tnt_created {c : Cell} (hc : Box c) {k : ℕ} (hk : 1 ≤ k) :
    Created (tntElement c k) (fun f => f ∈ Tnt c.tdim k) (tntCount c k) (C0Trace c fun f => f ∈ Tnt c.tdim k) := by
  have hd : c.tdim = 2 ∨ c.tdim = 3 := by rcases hc with rfl | rfl <;> simp [Cell.tdim]
  obtain ⟨ds, hds⟩ := mapM_exists (f := against1 c) (l := tntAgainst c k) (by
    intro m hm
    obtain ⟨h1, h2, h3⟩ := tntAgainst_mem hc hm
    obtain ⟨d, hd, -⟩ := against1_exists hc h1 h2 h3 m.2
    exact ⟨d, hd⟩)
  obtain ⟨gs, hgs⟩ := mapM_exists (f := fun ii => tntGradDof (tntCellFn ii)) (l := tntInner c k) fun ii _ => ⟨_, tntGrad_exists _⟩
  have htr : C0Trace c (fun f => f ∈ Tnt c.tdim k) ((vertexDofs c).map PointDof.functional ++ ds ++ gs) := by
    refine tnt_trace hc hk (fun d hd => List.mem_append_left _ (List.mem_append_left _ (List.mem_map_of_mem hd))) (fun m hm => ?_) fun ii hii => ?_
    · obtain ⟨d, hd1, hd2⟩ := forall₂_mem_right (mapM_forall hds) hm
      exact ⟨d, List.mem_append_left _ (List.mem_append_right _ hd1), hd2⟩
    · obtain ⟨d, hd1, hd2⟩ := forall₂_mem_right (mapM_forall hgs) hii
      exact ⟨d, List.mem_append_right _ hd1, hd2⟩
  have hu : ∀ f ∈ Tnt c.tdim k, (∀ d ∈ (vertexDofs c).map PointDof.functional ++ ds ++ gs, d.eval f = 0) → f = 0 :=
    fun f hf h => htr.zero hc.tensor (fun f hf => Tnt_P hf) hf h
  have hdl : ((vertexDofs c).map PointDof.functional ++ ds ++ gs).length = tntCount c k := by
    rw [List.length_append, List.length_append, List.length_map, vertexDofs, List.length_map, List.length_range, ← (vertex_entity hc.tensor).1,
      ← (mapM_forall hds).length_eq, ← (mapM_forall hgs).length_eq, tntCount, tntAgainst, tntInner]
    split_ifs <;> simp [from1_length, List.length_flatMap] <;> ring
  have hpl : (tntPoly c.tdim k).length = tntCount c k := by
    obtain ⟨n, rfl⟩ : ∃ n, k = n + 1 := ⟨k - 1, by omega⟩
    rw [tntPoly_length hd]
    rcases hc with rfl | rfl
    · show (n + 1 + 1) ^ 2 + 2 * 2 ^ 1 = 4 + 4 * (n + 1) + 1 * n ^ 2 + 0
      ring
    · show (n + 1 + 1) ^ 3 + 3 * 2 ^ 2 = 8 + 12 * (n + 1) + 6 * n ^ 2 + n ^ 3
      ring
  obtain ⟨b, dofs, fs, h1, h2, h3, h4, h5, h6, h7⟩ := created_of_unisolvent (hdl.trans hpl.symm) (tntPoly_independent hd hk)
    (fun p hp => tntPoly_mem hd hk hp) hu
  refine ⟨b, dofs, fs, ?_, h2, h3.trans hpl, h4.trans hpl, h5, h6, h7 ▸ htr⟩
  simp only [tntElement, hds, hgs, Option.bind_some, h1]

/-- The functions of order 1 on a quadrilateral include `x ^ 2 y` but not `x ^ 2 y ^ 2`. -/
example : tntCount .quadrilateral 1 = 8 ∧ tntCount .hexahedron 2 = 39 ∧ (X 0 ^ 2 * X 1 : MvPolynomial ℕ ℝ) ∈ Tnt 2 1 ∧
    (X 0 ^ 2 * X 1 ^ 2 : MvPolynomial ℕ ℝ) ∉ Tnt 2 1 := by
  have e : ∀ n : ℕ, (X 0 ^ 2 * X 1 ^ n : MvPolynomial ℕ ℝ) = monomial (Finsupp.single 0 2 + Finsupp.single 1 n) 1 := fun n => by
    rw [X_pow_eq_monomial, X_pow_eq_monomial, monomial_mul, one_mul]
  refine ⟨rfl, rfl, ?_, ?_⟩
  · rw [← pow_one (X 1), e]
    show _ ∈ restrictSupport _ _
    rw [monomial_mem_restrictSupport]
    refine Or.inl ⟨fun i hi => ?_, Or.inr ⟨0, by simp, fun j hj => ?_⟩⟩
    · by_contra hn
      exact Finsupp.mem_support_iff.1 hi (by simp [Finsupp.single_apply]; omega)
    · simp only [Finsupp.add_apply, Finsupp.single_apply]
      split_ifs <;> omega
  · rw [e]
    intro h
    replace h : _ ∈ restrictSupport _ _ := h
    rw [monomial_mem_restrictSupport] at h
    rcases h with ⟨-, h | ⟨i, h, h2⟩⟩ | h
    · exact absurd (h 0) (by simp)
    · have h3 : i = 0 := by
        by_contra hn
        exact absurd (h2 0 (Ne.symm hn)) (by simp)
      exact absurd (h2 1 (by omega)) (by simp)
    · exact one_ne_zero h

end Verif.Scalar
