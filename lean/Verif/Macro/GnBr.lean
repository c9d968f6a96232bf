import Verif.Macro.Gn
/-!
# The moments of the edges, and the functions of the Bernardi–Raugel element in the Guzmán–Neilan element
-/

namespace Verif.Macro
open Verif.References Verif.Elements Verif.FiniteElement Verif.Polysets Verif.Moments Verif.Geometry Verif.Functions
open Verif.Families Verif.Scalar Verif.Smooth Verif.Functionals Verif.Orthogonal
open MvPolynomial

/-! ### Moments of the edges -/

/-- The basis function of the Lagrange element of order 0 on an interval is 1. -/
theorem lagrange_const : scalarBasis (lagrangeElement "equispaced" .interval (refVertex .interval) 0) = some [.scalar 1] := by
  have hc : Simplex .interval := Or.inl rfl
  obtain ⟨l, hl, hn⟩ := lagrange_count hc (refVertex .interval) 0
  obtain ⟨poly, hp, hsp⟩ := polySet_lspan (simplex_dims hc) ((0 : ℕ) : ℤ)
  have hlen : (l.map PointDof.functional).length = (poly.map (denoteMono ℝ)).length := by
    rw [List.length_map, List.length_map, hn, polySet_length _ _ _ hp]
  obtain ⟨h1, fs, h2, h3, h4⟩ := ciarlet_basis hlen ((scalar_sets_independent ℝ).1 _ _ _ hp) fun p hps hz => by
    rw [hsp] at hps
    refine lagrange_determined hc _ (nonDegenerate_ref hc) hl hps fun d hd => ?_
    rw [← eval_functional]
    exact hz _ (List.mem_map_of_mem hd)
  have hl1 : l.length = 1 := by rw [hn]; rfl
  obtain ⟨d, rfl⟩ := List.length_eq_one_iff.1 hl1
  obtain ⟨f, rfl⟩ := List.length_eq_one_iff.1 (h4.trans (hlen.symm.trans (by simp)))
  have he := (getBasis_ciarlet_dual _ _ _ h2).2 0 0 f d.functional rfl rfl
  rw [eval_functional, if_pos rfl] at he
  have hf : f = 1 := by
    have : (1 : MvPolynomial ℕ ℝ) ∈ lspan [f] := by rw [h3, hsp]; exact Families.one_mem le_rfl
    rw [lspan, show {v : MvPolynomial ℕ ℝ | v ∈ [f]} = {f} by ext; simp, Submodule.mem_span_singleton] at this
    obtain ⟨a, ha⟩ := this
    have h := congrArg (eval d.point) ha
    rw [smul_eval, he, map_one, mul_one] at h
    rw [← ha, h, one_smul]
  subst hf
  simp only [scalarBasis, lagrangeElement, hl, hp, Option.bind_some, h1, h2, Option.map_some]
  rfl

theorem filter_three {A : Type} (e : A → ℕ × ℕ) {a b c : A} (h0 : e a = (1, 0)) (h1 : e b = (1, 1)) (h2 : e c = (1, 2)) :
    [a, b, c].filter (fun d => e d = (1, 0)) = [a] ∧ [a, b, c].filter (fun d => e d = (1, 1)) = [b] ∧ [a, b, c].filter (fun d => e d = (1, 2)) = [c] := by
  simp [h0, h1, h2]

theorem pairing1_def (c : Cell) (u q : MvPolynomial ℕ ℝ) : pairing1 c u q = cellInt c fun z => eval z (u * q) := rfl

theorem comp_side (i : Fin 3) {v : Field 2} (hv : ∀ c, v c ∈ P 2 2) (z : ℕ → ℝ) :
    eval z (comp (entityDomain .triangle (1, i.val)) (areaVec 2 (entityDomain .triangle (1, i.val)).v) v) =
      ∑ c, sideNormal i c * eval (sidePoint i (z 0)) (v c) := by
  obtain ⟨a0, a1⟩ := edge_area i
  obtain ⟨p0, p1⟩ := side_param i z
  have hz : ∀ c, eval ((entityDomain .triangle (1, i.val)).param z) (v c) = eval (sidePoint i (z 0)) (v c) := fun c =>
    eval_congr_P (hv c) fun l hl => by interval_cases l <;> assumption
  refine (eval_comp (entityDomain .triangle (1, i.val)) (areaVec 2 (entityDomain .triangle (1, i.val)).v) v z).trans ?_
  refine (Fin.sum_univ_two (fun c : Fin 2 => areaVec 2 (entityDomain .triangle (1, i.val)).v c.val *
    eval ((entityDomain .triangle (1, i.val)).param z) (v c))).trans ?_
  rw [Fin.sum_univ_two, hz, hz, ← a0, ← a1]
  rfl

theorem moment_value (i : Fin 3) {v : Field 2} (hv : ∀ c, v c ∈ P 2 2) :
    pairing1 .interval 1 (comp (entityDomain .triangle (1, i.val)) (areaVec 2 (entityDomain .triangle (1, i.val)).v) v) =
      ∫ t in (0 : ℝ)..1, ∑ c, sideNormal i c * eval (sidePoint i t) (v c) := by
  rw [pairing1_def, cellInt_interval]
  refine intervalIntegral.integral_congr fun t _ => ?_
  show eval (Function.update (fun _ => 0) 0 t) (1 * _) = _
  rw [one_mul, comp_side i hv, Function.update_self]

/-- The moments of the normal components on the edges. -/
theorem normal_moments : ∃ ms d0 d1 d2, makeIntegralMomentDofs lagrangeClasses .triangle { facets := some (.single [.cls "NormalIntegralMoment",
      .cls "Lagrange", .int 0, .str "contravariant", .dict [("variant", "equispaced")]]) } = some ms ∧ ms.mapM (momentDof .triangle) = some [d0, d1, d2] ∧
    (∀ i ≤ Cell.triangle.tdim, ∀ v, (entityFunctionals [d0, d1, d2] (Cell.triangle.tdim - 1, i)).map (·.eval v) =
      ([(1 : MvPolynomial ℕ ℝ)].map (pairing1 (facetCell .triangle))).map fun f =>
        f (comp (entityDomain .triangle (Cell.triangle.tdim - 1, i)) (areaVec Cell.triangle.tdim (entityDomain .triangle (Cell.triangle.tdim - 1, i)).v) v)) ∧
    ∀ i : Fin 3, (![d0, d1, d2] i).entity = (1, i.val) ∧ ∀ v : Field 2, (∀ c, v c ∈ P 2 2) →
      (![d0, d1, d2] i).eval v = ∫ t in (0 : ℝ)..1, ∑ c, sideNormal i c * eval (sidePoint i t) (v c) := by
  have hx : subFuns lagrangeClasses ⟨"NormalIntegralMoment", "Lagrange", 0, some "contravariant", [("variant", "equispaced")]⟩ (facetCell .triangle) =
      some ([(1 : MvPolynomial ℕ ℝ)].map .scalar) := lagrange_const
  obtain ⟨mo, m1, m2, m3, m4⟩ := facetOnly_values (c := .triangle) (Or.inl rfl) [1] "contravariant"
  obtain ⟨d0, d1, d2, rfl⟩ := List.length_eq_three.1 (m2.trans rfl)
  have hm := mapM_forall m1
  have hent : ∀ i : Fin 3, (![d0, d1, d2] i).entity = (1, i.val) := by
    have key : ∀ (m : MomentDof Fun) d, momentDof .triangle m = some d → d.entity = m.entity := fun m d h => by
      obtain ⟨w, -, h2⟩ := Option.bind_eq_some_iff.1 h
      obtain ⟨J, -, rfl⟩ := Option.map_eq_some_iff.1 h2
      rfl
    have hm' : List.Forall₂ (fun m d => momentDof .triangle m = some d) [⟨"NormalIntegralMoment", .scalar 1, (Cell.triangle.tdim - 1, 0), some "contravariant"⟩,
      ⟨"NormalIntegralMoment", .scalar 1, (Cell.triangle.tdim - 1, 1), some "contravariant"⟩,
      ⟨"NormalIntegralMoment", .scalar 1, (Cell.triangle.tdim - 1, 2), some "contravariant"⟩] [d0, d1, d2] := hm
    simp only [List.forall₂_cons, List.forall₂_nil_left_iff, and_true] at hm'
    intro i
    fin_cases i
    · exact key _ _ hm'.1
    · exact key _ _ hm'.2.1
    · exact key _ _ hm'.2.2
  refine ⟨_, d0, d1, d2, facetOnly_moments (Or.inl rfl) (dA := ⟨"NormalIntegralMoment", "Lagrange", 0, some "contravariant", [("variant", "equispaced")]⟩) rfl hx,
    m1, m4, fun i => ⟨hent i, fun v hv => ?_⟩⟩
  have h4 := m4 i.val (Nat.lt_succ_iff.1 i.2) v
  have hl : entityFunctionals [d0, d1, d2] (Cell.triangle.tdim - 1, i.val) = [![d0, d1, d2] i] := by
    have e0 : d0.entity = (1, 0) := hent 0
    have e1 : d1.entity = (1, 1) := hent 1
    have e2 : d2.entity = (1, 2) := hent 2
    have key := filter_three (fun d : Dof ℝ (Field Cell.triangle.tdim) => d.entity) e0 e1 e2
    fin_cases i
    · exact key.1
    · exact key.2.1
    · exact key.2.2
  rw [hl] at h4
  have h5 : (![d0, d1, d2] i).eval v = pairing1 .interval 1 (comp (entityDomain .triangle (1, i.val)) (areaVec 2 (entityDomain .triangle (1, i.val)).v) v) := by
    exact (List.cons.inj h4).1
  rw [h5, moment_value i hv]

/-! ### The functions of the Bernardi–Raugel element -/

/-- The functions in `brLast`. -/
noncomputable def brFn : Fin 3 → Field 2 :=
  ![![-3 * (X 0 * X 1), -3 * (X 0 * X 1)], ![-6 * ((1 - X 0 - X 1) * X 1), 0], ![0, 6 * ((1 - X 0 - X 1) * X 0)]]

theorem brFn_space (j : Fin 3) : BRSpace .triangle 1 (brFn j) := by
  refine ⟨0, fun i => if i = j.val then ![-3, -6, 6] j else 0, 0, fun _ => Submodule.zero_mem _, fun _ => rfl, ?_⟩
  have b0 : bary 2 0 = 1 - X 0 - X 1 := by simp [bary, opp_two, sub_sub]
  have b1 : bary 2 1 = X 0 := by simp [bary]
  have b2 : bary 2 2 = X 1 := by simp [bary]
  have e0 : entBub .triangle 1 0 = X 0 * X 1 := by simp [entBub, entVerts, Cell.subEntities, Cell.edges, Cell.tdim, b1, b2]
  have e1 : entBub .triangle 1 1 = (1 - X 0 - X 1) * X 1 := by simp [entBub, entVerts, Cell.subEntities, Cell.edges, Cell.tdim, b0, b2]
  have e2 : entBub .triangle 1 2 = (1 - X 0 - X 1) * X 0 := by simp [entBub, entVerts, Cell.subEntities, Cell.edges, Cell.tdim, b0, b1]
  have hs : ∀ l : Fin 2, brSum .triangle 0 (fun i => if i = j.val then ![-3, -6, 6] j else 0) 0 l =
      C ((if 0 = j.val then ![-3, -6, 6] j else 0) * facetNormal 0 l.val) * (X 0 * X 1) +
      C ((if 1 = j.val then ![-3, -6, 6] j else 0) * facetNormal 1 l.val) * ((1 - X 0 - X 1) * X 1) +
      C ((if 2 = j.val then ![-3, -6, 6] j else 0) * facetNormal 2 l.val) * ((1 - X 0 - X 1) * X 0) := fun l => by
    show (0 : MvPolynomial ℕ ℝ) + ∑ i ∈ Finset.range 3, C ((if i = j.val then ![-3, -6, 6] j else 0) * facetNormal i l.val) * entBub .triangle 1 i +
      C (0 : ℝ) * _ = _
    rw [Finset.sum_range_succ, Finset.sum_range_succ, Finset.sum_range_one, e0, e1, e2]
    simp
  have h3 : (C 3 : MvPolynomial ℕ ℝ) = 3 := rfl
  have h6 : (C 6 : MvPolynomial ℕ ℝ) = 6 := rfl
  funext l
  refine Eq.trans ?_ (hs l).symm
  fin_cases j <;> fin_cases l <;> simp [brFn, facetNormal, h3, h6]

theorem brFn_mem (j : Fin 3) (c : Fin 2) : brFn j c ∈ P 2 2 := by
  have x0 : (X 0 : MvPolynomial ℕ ℝ) ∈ P 2 1 := X_mem (by decide)
  have x1 : (X 1 : MvPolynomial ℕ ℝ) ∈ P 2 1 := X_mem (by decide)
  have o : (1 - X 0 - X 1 : MvPolynomial ℕ ℝ) ∈ P 2 1 := Submodule.sub_mem _ (Submodule.sub_mem _ (Families.one_mem (by norm_num)) x0) x1
  have h : ∀ (a : ℝ) (p q : MvPolynomial ℕ ℝ), p ∈ P 2 1 → q ∈ P 2 1 → C a * (p * q) ∈ P 2 2 := fun a p q hp hq => by
    have := P_mul hp hq
    rw [show (1 : ℤ) + 1 = 2 from rfl] at this
    rw [← smul_eq_C_mul]
    exact Submodule.smul_mem _ _ this
  have h3 : ∀ p : MvPolynomial ℕ ℝ, -3 * p = C (-3) * p := fun p => by rw [C_neg]; rfl
  have h6 : ∀ p : MvPolynomial ℕ ℝ, -6 * p = C (-6) * p := fun p => by rw [C_neg]; rfl
  have h6' : ∀ p : MvPolynomial ℕ ℝ, 6 * p = C 6 * p := fun p => rfl
  fin_cases j <;> fin_cases c
  · show -3 * (X 0 * X 1) ∈ _
    rw [h3]; exact h _ _ _ x0 x1
  · show -3 * (X 0 * X 1) ∈ _
    rw [h3]; exact h _ _ _ x0 x1
  · show -6 * ((1 - X 0 - X 1) * X 1) ∈ _
    rw [h6]; exact h _ _ _ o x1
  · exact Submodule.zero_mem _
  · exact Submodule.zero_mem _
  · show 6 * ((1 - X 0 - X 1) * X 0) ∈ _
    rw [h6']; exact h _ _ _ o x0

theorem brFn_ends (i j : Fin 3) (c : Fin 2) : eval (sidePoint i 0) (brFn j c) = 0 ∧ eval (sidePoint i 1) (brFn j c) = 0 := by
  fin_cases i <;> fin_cases j <;> fin_cases c <;> simp [brFn, sidePoint, coords]

theorem brFn_moment (i j : Fin 3) : ∫ t in (0 : ℝ)..1, ∑ c, sideNormal i c * eval (sidePoint i t) (brFn j c) = if i = j then 1 else 0 := by
  have h : ∀ t : ℝ, ∑ c, sideNormal i c * eval (sidePoint i t) (brFn j c) = (if i = j then 1 else 0) * (6 * t - 6 * t ^ 2) := fun t => by
    rw [Fin.sum_univ_two]
    fin_cases i <;> fin_cases j <;> simp [brFn, sidePoint, coords, sideNormal] <;> ring
  simp only [h]
  have c1 : Continuous fun t : ℝ => 6 * t := by fun_prop
  have c2 : Continuous fun t : ℝ => 6 * t ^ 2 := by fun_prop
  have i1 : ∫ t in (0 : ℝ)..1, 6 * t = 3 := by
    rw [intervalIntegral.integral_const_mul, integral_id]; norm_num
  have i2 : ∫ t in (0 : ℝ)..1, 6 * t ^ 2 = 2 := by
    rw [intervalIntegral.integral_const_mul, integral_pow]; norm_num
  rw [intervalIntegral.integral_const_mul, intervalIntegral.integral_sub (c1.intervalIntegrable 0 1) (c2.intervalIntegrable 0 1), i1, i2]
  norm_num

/-- The last three basis functions of the Bernardi–Raugel element of order 1 on the triangle. -/
theorem br_last : ∃ e fs, bernardiRaugel .triangle 1 = some e ∧ getBasis e = some fs ∧ fs.drop (fs.length - 3) = brLast := by
  have hc : Simp .triangle := Or.inl rfl
  obtain ⟨pl, p1, p2, p3, p4⟩ := poly_vector (d := Cell.triangle.tdim) (by simp [Cell.tdim]) 1
  obtain ⟨el, l1, l2⟩ := lag_hats (c := .triangle) (Or.inl (Or.inr hc))
  obtain ⟨s, s1, s2⟩ := brFacet_eq hc
  obtain ⟨vs, v1, v2⟩ := normalPoints_all hc fun i => (List.range (entVerts .triangle (Cell.triangle.tdim - 1) i).length).map
    (entityDomain .triangle (Cell.triangle.tdim - 1, i)).v
  obtain ⟨ms, d0, d1, d2, m1, m2, m4, m5⟩ := normal_moments
  have hxs : lspan [(1 : MvPolynomial ℕ ℝ)] = P (facetCell .triangle).tdim 0 := by
    obtain ⟨xs, hx, hxs, -⟩ := sub_lagrange (facetCell_simplex .triangle) (classes := lagrangeClasses) rfl "NormalIntegralMoment" 0 (some "contravariant")
    have h : some (xs.map Fun.scalar) = some [Fun.scalar 1] := hx.symm.trans lagrange_const
    have h' : xs.map Fun.scalar = [(1 : MvPolynomial ℕ ℝ)].map Fun.scalar := Option.some.inj h
    rw [← List.map_injective_iff.2 (fun a b hab => Fun.scalar.inj hab) h', hxs]
  have hb := mapM_some_of (brFacet .triangle (hats .triangle)) (fun i => s i • brBub .triangle i) (List.range (Cell.triangle.tdim + 1)) fun i hi =>
    s2 i (Nat.lt_succ_iff.1 (List.mem_range.1 hi))
  obtain ⟨hi, hsp⟩ := br_functions1 hc s1 p2 p3
  set N := normalDofs .triangle (fun i => (List.range (entVerts .triangle (Cell.triangle.tdim - 1) i).length).map
    (entityDomain .triangle (Cell.triangle.tdim - 1, i)).v) with hN
  have key := br_finish hc (k := 1) (Or.inl rfl) hxs (dofs := N ++ [d0, d1, d2]) ?_ (fun h => absurd h (by omega)) (fun h => absurd h (by omega))
  · obtain ⟨hu, -⟩ := key
    have hN6 : N.length = 6 := rfl
    have hlen : (N ++ [d0, d1, d2]).length = 9 := by rw [List.length_append, hN6]; rfl
    have hlen' : (pl.map (denoteVec ℝ Cell.triangle.tdim) ++ (List.range (Cell.triangle.tdim + 1)).map fun i => s i • brBub .triangle i).length = 9 := by
      rw [List.length_append, List.length_map, p4, List.length_map, List.length_range]
      rfl
    obtain ⟨h1, fs, h2, h3, h4⟩ := ciarlet_basis (hlen.trans hlen'.symm) hi fun v hv => hu v ((hsp v).1 hv)
    have hdual := (getBasis_ciarlet_dual _ _ _ h2).2
    have hvert : ∀ d ∈ N, ∀ j, d.eval (brFn j) = 0 := fun d hd j => by
      obtain ⟨i, hi, h⟩ := List.mem_flatMap.1 hd
      obtain ⟨pt, hpt, rfl⟩ := List.mem_map.1 h
      obtain ⟨a, ha, rfl⟩ := List.mem_map.1 hpt
      have hi3 : i < 3 := List.mem_range.1 hi
      have ha2 : a < 2 := by
        have := List.mem_range.1 ha
        interval_cases i <;> exact this
      obtain ⟨e0, e1⟩ := edge_verts ⟨i, hi3⟩
      have hz : ∀ c, eval ((entityDomain .triangle (1, i)).v a) (brFn j c) = 0 := fun c => by
        interval_cases a
        · rw [e0]; exact (brFn_ends _ _ _).1
        · rw [e1]; exact (brFn_ends _ _ _).2
      refine (Families.contraPoint_eval _ _ _ _).trans (Finset.sum_eq_zero fun c _ => ?_)
      rw [mul_eq_zero]
      exact Or.inr (hz c)
    have hfn : ∀ (j : Fin 3) f, fs[6 + j.val]? = some f → f = brFn j := fun j f hf => by
      have hmem : f ∈ lspan fs := Submodule.subset_span (List.mem_of_getElem? hf)
      rw [h3] at hmem
      have hd := Submodule.sub_mem _ hmem ((hsp (brFn j)).2 (brFn_space j))
      refine sub_eq_zero.1 (hu _ ((hsp _).1 hd) fun d hd => ?_)
      refine (d.eval.map_sub f (brFn j)).trans (sub_eq_zero.2 ?_)
      rcases List.mem_append.1 hd with h | h
      · obtain ⟨m, hm, rfl⟩ := List.getElem_of_mem h
        rw [hvert _ h j, hdual (6 + j.val) m f _ hf (by rw [List.getElem?_append_left hm, List.getElem?_eq_getElem hm]), if_neg (by omega)]
      · have hall : ∀ i : Fin 3, (![d0, d1, d2] i).eval f = (![d0, d1, d2] i).eval (brFn j) := fun i => by
          rw [hdual (6 + j.val) (6 + i.val) f (![d0, d1, d2] i) hf (by
            rw [List.getElem?_append_right (by omega), hN6, Nat.add_sub_cancel_left]
            fin_cases i <;> rfl), (m5 i).2 _ (brFn_mem j), brFn_moment]
          refine if_congr ?_ rfl rfl
          rw [Fin.ext_iff]
          omega
        simp only [List.mem_cons, List.not_mem_nil, or_false] at h
        rcases h with rfl | rfl | rfl
        · exact hall 0
        · exact hall 1
        · exact hall 2
    refine ⟨_, fs, ?_, h2, ?_⟩
    · unfold bernardiRaugel
      rw [p1, Option.bind_some, l1, Option.bind_some, l2, Option.bind_some, hb, Option.bind_some, v1, Option.bind_some, m1,
        Option.bind_some, m2, Option.bind_some, if_neg (by omega), v2]
      exact h1
    · have h9 : fs.length = 9 := h4.trans hlen'
      refine List.ext_getElem (by rw [List.length_drop, h9]; rfl) fun n hn _ => ?_
      rw [List.length_drop, h9] at hn
      have hn3 : n < 3 := by omega
      have := hfn ⟨n, hn3⟩ _ (List.getElem?_eq_getElem (by omega))
      rw [List.getElem_drop]
      simp only [h9]
      refine this.trans ?_
      interval_cases n <;> rfl
  · intro i hi v
    rw [functionals_append, List.map_append, m4 i hi, normalDofs_entity _ hi (br_points1 hc), brF, if_neg (by omega), List.append_nil,
      List.map_append, List.map_map, List.map_map, List.map_map]
    rfl

end Verif.Macro
