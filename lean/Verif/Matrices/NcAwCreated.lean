import Verif.Matrices.NcAw
/-!
# The nonconforming Arnold–Winther element: its functionals determine its functions (C149)
-/

namespace Verif.Matrices
open Verif.References Verif.Moments Verif.Functionals Verif.Elements Verif.FiniteElement Verif.Polysets Verif.Orthogonal Verif.Families
open MvPolynomial

theorem quad_moments {q : MvPolynomial ℕ ℝ} {a b c : ℝ} (h : ∀ t : ℕ → ℝ, eval t q = a + b * t 0 + c * t 0 ^ 2) :
    pairing1 .interval q 1 = a + b / 2 + c / 3 ∧ pairing1 .interval q (X 0) = a / 2 + b / 3 + c / 4 := by
  constructor
  · show cellInt .interval (fun z => eval z (q * 1)) = _
    rw [cellInt_interval]
    simp only [mul_one, h, Function.update_self]
    have e : ∀ x : ℝ, HasDerivAt (fun x : ℝ => a * x + b / 2 * x ^ 2 + c / 3 * x ^ 3) (a + b * x + c * x ^ 2) x := fun x => by
      have := (((hasDerivAt_id x).const_mul a).add ((hasDerivAt_pow 2 x).const_mul (b / 2))).add ((hasDerivAt_pow 3 x).const_mul (c / 3))
      refine this.congr_deriv ?_
      norm_num; ring
    rw [intervalIntegral.integral_eq_sub_of_hasDerivAt (fun x _ => e x) (Continuous.intervalIntegrable (by fun_prop) _ _)]
    norm_num
  · show cellInt .interval (fun z => eval z (q * X 0)) = _
    rw [cellInt_interval]
    simp only [map_mul, eval_X, h, Function.update_self]
    have e : ∀ x : ℝ, HasDerivAt (fun x : ℝ => a / 2 * x ^ 2 + b / 3 * x ^ 3 + c / 4 * x ^ 4) ((a + b * x + c * x ^ 2) * x) x := fun x => by
      have := (((hasDerivAt_pow 2 x).const_mul (a / 2)).add ((hasDerivAt_pow 3 x).const_mul (b / 3))).add ((hasDerivAt_pow 4 x).const_mul (c / 4))
      refine this.congr_deriv ?_
      norm_num; ring
    rw [intervalIntegral.integral_eq_sub_of_hasDerivAt (fun x _ => e x) (Continuous.intervalIntegrable (by fun_prop) _ _)]
    norm_num

/-- The normal components. -/
theorem eval_line_normal {k : ℤ} {e : ℕ} (he : e < 3) {u : MField 2} (hu : ∀ i j, u i j ∈ P 2 k) (t : ℕ → ℝ) :
    eval t (line e false u) = edgeNormal e u (edgePoint e (t 0)) := by
  rw [eval_line he false hu]
  have v0 : ((0 : Fin 2) : ℕ) = 0 := rfl
  have v1 : ((1 : Fin 2) : ℕ) = 1 := rfl
  simp only [edgeLeft, edgeNormal, Fin.sum_univ_two, if_false, Bool.false_eq_true, v0, v1, edge_area he 0 (by omega),
    edge_area he 1 (by omega)]
  interval_cases e <;> norm_num [coords, facetNormal] <;> ring

theorem nc_normal_zero {u : MField 2} (hu : NcSpace u) {e : ℕ} (he : e < 3) (h : ∀ p ∈ P 1 1, pairing1 .interval (line e false u) p = 0) (t : ℝ) :
    edgeNormal e u (edgePoint e t) = 0 := by
  obtain ⟨a, b, hab⟩ := hu.2 e he
  have hq : line e false u = C a + C b * X 0 := MvPolynomial.funext fun z => by
    rw [eval_line_normal he hu.1.2, hab]; simp
  have hm : line e false u ∈ P 1 1 := by
    rw [hq]
    exact Submodule.add_mem _ (C_mem _ (by omega)) (C_mul_mem _ (X_mem (by omega)))
  have := eq_zero_of_pairing (c := .interval) (by simp [Solid]) hm (fs := [line e false u]) (Submodule.subset_span (by simp))
    fun f hf => by
      obtain rfl := List.mem_singleton.1 hf
      exact h _ hm
  have h0 := eval_line_normal he hu.1.2 fun _ => t
  rw [this, map_zero] at h0
  exact h0.symm

theorem nc_zero {u : MField 2} (hu : NcSpace u) (h : ∀ e < 3, ∀ b, ∀ p ∈ P 1 1, pairing1 .interval (line e b u) p = 0)
    (h00 : pairing1 .triangle (u 0 0) 1 = 0) (h01 : pairing1 .triangle (u 0 1) 1 = 0) (h11 : pairing1 .triangle (u 1 1) 1 = 0) : u = 0 := by
  have hP : ∀ i j, u i j ∈ P 2 2 := hu.1.2
  have hs : u 1 0 = u 0 1 := hu.1.1 1 0
  have nz : ∀ e < 3, ∀ t, edgeNormal e u (edgePoint e t) = 0 := fun e he t => nc_normal_zero hu he (h e he false) t
  obtain ⟨g, hg⟩ := X_dvd (p := u 0 0) 0 fun z hz => by
    have := nz 1 (by omega) (z 1)
    simp only [edgeNormal, Fin.sum_univ_two] at this
    norm_num [facetNormal] at this
    rw [← this]
    refine eval_congr_P (hP 0 0) fun i hi => ?_
    interval_cases i
    · exact hz
    · rfl
  obtain ⟨f, hf⟩ := X_dvd (p := u 1 1) 1 fun z hz => by
    have := nz 2 (by omega) (z 0)
    simp only [edgeNormal, Fin.sum_univ_two] at this
    norm_num [facetNormal] at this
    rw [← this]
    refine eval_congr_P (hP 1 1) fun i hi => ?_
    interval_cases i
    · rfl
    · exact hz
  obtain ⟨m, hm⟩ := opp_dvd (d := 2) (by omega) (p := u 0 0 + C 2 * u 0 1 + u 1 1) fun z hz => by
    have := nz 0 (by omega) (z 1)
    simp only [edgeNormal, Fin.sum_univ_two, hs] at this
    norm_num [facetNormal] at this
    have e : ∀ i j, eval z (u i j) = eval (edgePoint 0 (z 1)) (u i j) := fun i j => eval_congr_P (hP i j) fun l hl => by
      have hz : z 0 + z 1 = 1 := by
        rw [Fin.sum_univ_two] at hz; exact hz
      interval_cases l
      · show z 0 = 1 - z 1
        linarith
      · rfl
    rw [map_add, map_add, map_mul, eval_C, e, e, e]
    linarith
  have mg := X_cancel (show X 0 * g ∈ P 2 2 by rw [← hg]; exact hP 0 0)
  have mf := X_cancel (show X 1 * f ∈ P 2 2 by rw [← hf]; exact hP 1 1)
  have mm := P_cancel (degree_opp (d := 2) (by omega)) (show opp 2 * m ∈ P 2 2 by
    rw [← hm]; exact Submodule.add_mem _ (Submodule.add_mem _ (hP 0 0) (C_mul_mem _ (hP 0 1))) (hP 1 1))
  obtain ⟨g0, g1, g2, rfl⟩ := P_one (show g ∈ P 2 1 from mg)
  obtain ⟨f0, f1, f2, rfl⟩ := P_one (show f ∈ P 2 1 from mf)
  obtain ⟨m0, m1, m2, rfl⟩ := P_one (show m ∈ P 2 1 from mm)
  have hu01 : u 0 1 = C (1 / 2) * (opp 2 * (C m0 + C m1 * X 0 + C m2 * X 1) - X 0 * (C g0 + C g1 * X 0 + C g2 * X 1) -
      X 1 * (C f0 + C f1 * X 0 + C f2 * X 1)) := by
    rw [← hm, ← hg, ← hf, show u 0 0 + C 2 * u 0 1 + u 1 1 - u 0 0 - u 1 1 = C 2 * u 0 1 by ring, ← mul_assoc, ← C_mul]
    norm_num
  rw [opp2] at hu01
  have v0 : ((0 : Fin 2) : ℕ) = 0 := rfl
  have v1 : ((1 : Fin 2) : ℕ) = 1 := rfl
  have one : (1 : MvPolynomial ℕ ℝ) ∈ P 1 1 := one_mem (by omega)
  have x0 : (X 0 : MvPolynomial ℕ ℝ) ∈ P 1 1 := X_mem (by omega)
  obtain ⟨a1, a2⟩ := quad_moments (q := line 1 true u) (a := -m0 / 2) (b := (m0 - m2 + f0) / 2) (c := (m2 + f2) / 2) fun t => by
    rw [eval_line (by omega) true hP]
    simp only [edgeLeft, Fin.sum_univ_two, if_true, v0, v1, edge_area (e := 1) (by omega) 0 (by omega), edge_area (e := 1) (by omega) 1 (by omega),
      edge_axis (e := 1) (by omega) 0 (by omega), edge_axis (e := 1) (by omega) 1 (by omega), hs, hu01]
    norm_num [coords, edgePoint]
    ring
  obtain ⟨b1, b2⟩ := quad_moments (q := line 2 true u) (a := m0 / 2) (b := (m1 - m0 - g0) / 2) (c := (-m1 - g1) / 2) fun t => by
    rw [eval_line (by omega) true hP]
    simp only [edgeLeft, Fin.sum_univ_two, if_true, v0, v1, edge_area (e := 2) (by omega) 0 (by omega), edge_area (e := 2) (by omega) 1 (by omega),
      edge_axis (e := 2) (by omega) 0 (by omega), edge_axis (e := 2) (by omega) 1 (by omega), hs, hu01]
    norm_num [coords, edgePoint]
    ring
  obtain ⟨c1, c2⟩ := quad_moments (q := line 0 true u) (a := g0 + g1) (b := -g0 - 2 * g1 + g2 - f0 - f1) (c := g1 - g2 + f1 - f2) fun t => by
    rw [eval_line (by omega) true hP]
    simp only [edgeLeft, Fin.sum_univ_two, if_true, v0, v1, edge_area (e := 0) (by omega) 0 (by omega), edge_area (e := 0) (by omega) 1 (by omega),
      edge_axis (e := 0) (by omega) 0 (by omega), edge_axis (e := 0) (by omega) 1 (by omega), hs, hg, hf]
    norm_num [coords, edgePoint]
    ring
  rw [h 1 (by omega) true _ one] at a1
  rw [h 1 (by omega) true _ x0] at a2
  rw [h 2 (by omega) true _ one] at b1
  rw [h 2 (by omega) true _ x0] at b2
  rw [h 0 (by omega) true _ one] at c1
  rw [h 0 (by omega) true _ x0] at c2
  have i00 := integral_eq h00 (hg.trans (show _ = C g0 * (X 0 ^ 1 * X 1 ^ 0) + C g1 * (X 0 ^ 2 * X 1 ^ 0) + C g2 * (X 0 ^ 1 * X 1 ^ 1) by ring))
  have i11 := integral_eq h11 (hf.trans (show _ = C f0 * (X 0 ^ 0 * X 1 ^ 1) + C f1 * (X 0 ^ 1 * X 1 ^ 1) + C f2 * (X 0 ^ 0 * X 1 ^ 2) by ring))
  have i01 := integral_eq h01 (hu01.trans (show _ = C (m0 / 2) * (X 0 ^ 0 * X 1 ^ 0) + C ((m1 - m0 - g0) / 2) * (X 0 ^ 1 * X 1 ^ 0) +
    C ((m2 - m0 - f0) / 2) * (X 0 ^ 0 * X 1 ^ 1) + C ((-m1 - g1) / 2) * (X 0 ^ 2 * X 1 ^ 0) +
    C ((-m1 - m2 - g2 - f1) / 2) * (X 0 ^ 1 * X 1 ^ 1) + C ((-m2 - f2) / 2) * (X 0 ^ 0 * X 1 ^ 2) by
      refine MvPolynomial.funext fun z => ?_
      simp only [map_add, map_sub, map_mul, map_pow, eval_C, eval_X, map_one]
      ring))
  simp only [map_add, integral_term] at i01 i00 i11
  norm_num [Nat.factorial] at i01 i00 i11
  have hz : g0 = 0 ∧ g1 = 0 ∧ g2 = 0 ∧ f0 = 0 ∧ f1 = 0 ∧ f2 = 0 ∧ m0 = 0 ∧ m1 = 0 ∧ m2 = 0 := by
    refine ⟨?_, ?_, ?_, ?_, ?_, ?_, ?_, ?_, ?_⟩ <;> linarith
  obtain ⟨rfl, rfl, rfl, rfl, rfl, rfl, rfl, rfl, rfl⟩ := hz
  simp only [C_0, zero_mul, mul_zero, add_zero, sub_zero] at hg hf hu01
  funext i j
  fin_cases i <;> fin_cases j
  exacts [hg, hu01, hs.trans hu01, hf]

/-- **C149.** The nonconforming Arnold–Winther element is created, has 15 functionals and basis functions, its basis functions span the
symmetric matrices of quadratic polynomials with linear normal components along the edges, and its functionals determine them.  The
functionals of the edges have the double contravariant mapping and the functionals of the cell the identity. -/
theorem nc_aw_created : Created (ncAwElement "equispaced") NcSpace 15 fun dofs =>
    ∀ d ∈ dofs, (d.entity.1 = 1 ∧ d.mapping = some "double_contravariant") ∨ (d.entity = (2, 0) ∧ d.mapping = some "identity") := by
  obtain ⟨l, h1, h2, h3, h4⟩ := nc_poly
  obtain ⟨edges, xs, a1, a2, a3, a4, a5⟩ := aw_edges 1
  obtain ⟨interior, b1, b2, b3, b4⟩ := aw_interior "identity" 0
  have hl : (edges ++ interior).length = 15 := by rw [List.length_append, a2, b2]; rfl
  obtain ⟨basis, dofs, fs, e1, e2, e3, e4, e5, e6, e7⟩ := created_of_unisolvent (S := ncSub) (hl.trans h2.symm) h3 h4 (by
    intro u hu hz
    have hu : NcSpace u := hu
    obtain ⟨i0, i1, i2⟩ := b4 u 2 hu.1.2 (fun d hd => hz d (by simp [hd])) 1 (one_mem (by omega))
    refine nc_zero hu (fun e he b => ?_) i0 i1 i2
    exact pairing_of_map (k := 1) a3 (edge_moments (a5 e he u) (fun d hd _ => hz d (by simp [hd])) b))
  rw [h2] at e3 e4
  refine ⟨basis, dofs, fs, ?_, e2, e3, e4, e5, e6, ?_⟩
  · rw [ncAwElement, h1, Option.bind_some, a1, Option.bind_some, b1, Option.bind_some, e1]
  · rw [e7]
    intro d hd
    rcases List.mem_append.1 hd with hd | hd
    · exact Or.inl (a4 d hd)
    · exact Or.inr (b3 d hd)

end Verif.Matrices
