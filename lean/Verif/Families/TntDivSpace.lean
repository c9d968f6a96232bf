import Verif.Scalar.Tnt
import Verif.Families.Ac
/-!
# The spaces of the tiniest tensor product H(div) elements on quadrilaterals

C154.
-/

namespace Verif.Families
open Verif.References Verif.Moments Verif.Functionals Verif.Elements Verif.FiniteElement Verif.Polysets Verif.Orthogonal
open Verif.Scalar (tntP tntB legQ bQ degree_bQ)
open MvPolynomial

/-! ### Model -/

/-- The field made of `b` and `p` (symfem/elements/tnt.py:354-362); the entries of `ii` are `a` and `b`. -/
noncomputable def tntPair (k : ℕ) (q : ℕ × ℕ) : Field 2 :=
  ![tntB (k + 1) (C (q.1 : ℝ) * X 0) * tntP k (C (q.2 : ℝ) * X 1), tntP k (C (q.1 : ℝ) * X 0) * tntB (k + 1) (C (q.2 : ℝ) * X 1)]

/-- `product([0, 1], repeat=2)` without `(0, 0)` (symfem/elements/tnt.py:352-353). -/
def tntPairs : List (ℕ × ℕ) :=
  ((List.range 2).flatMap fun a => (List.range 2).map fun b => (a, b)).filter fun q => decide (q.1 + q.2 ≠ 0)

/-- `poly` on a quadrilateral (symfem/elements/tnt.py:349-362). -/
noncomputable def tntDivPoly (k : ℕ) : List (Field 2) := (quolySetVector 2 2 k).map (denoteVec ℝ 2) ++ tntPairs.map (tntPair k)

/-! ### The space -/

/-- The Legendre polynomial of the unit interval in a variable. -/
noncomputable def legX (k i : ℕ) : MvPolynomial ℕ ℝ := Polynomial.aeval (X i : MvPolynomial ℕ ℝ) (legQ k)

/-- Fields whose components have degree at most `k` in each variable, with three more fields. -/
noncomputable def TntDiv (k : ℕ) : Submodule ℝ (Field 2) :=
  (Submodule.pi Set.univ fun _ : Fin 2 => QP 2 (k : ℤ)) ⊔
    Submodule.span ℝ {![X 0 ^ (k + 1), 0], ![0, X 1 ^ (k + 1)], ![X 0 ^ (k + 1) * legX k 1, legX k 0 * X 1 ^ (k + 1)]}

theorem mem_TntDiv {k : ℕ} {v : Field 2} : v ∈ TntDiv k ↔ ∃ q : Field 2, (∀ i, q i ∈ QP 2 (k : ℤ)) ∧ ∃ a b c : ℝ,
    v 0 = q 0 + C a * X 0 ^ (k + 1) + C c * (X 0 ^ (k + 1) * legX k 1) ∧
    v 1 = q 1 + C b * X 1 ^ (k + 1) + C c * (legX k 0 * X 1 ^ (k + 1)) := by
  rw [TntDiv, Submodule.mem_sup]
  simp only [Submodule.mem_pi, Set.mem_univ, forall_true_left, Submodule.mem_span_triple]
  constructor
  · rintro ⟨q, hq, _, ⟨a, b, c, rfl⟩, rfl⟩
    exact ⟨q, hq, a, b, c, by simp [smul_eq_C_mul]; ring, by simp [smul_eq_C_mul]; ring⟩
  · rintro ⟨q, hq, a, b, c, h0, h1⟩
    refine ⟨q, hq, _, ⟨a, b, c, rfl⟩, ?_⟩
    funext i
    fin_cases i
    · refine Eq.trans ?_ h0.symm
      simp [smul_eq_C_mul]; ring
    · refine Eq.trans ?_ h1.symm
      simp [smul_eq_C_mul]; ring

/-! ### Coefficients -/

/-- The exponents `a` and `b`. -/
noncomputable def e2 (a b : ℕ) : ℕ →₀ ℕ := Finsupp.single 0 a + Finsupp.single 1 b

theorem e2_zero (a b : ℕ) : e2 a b 0 = a := by simp [e2]
theorem e2_one (a b : ℕ) : e2 a b 1 = b := by simp [e2]

theorem coeff_sep (f g : Polynomial ℚ) (i j : ℕ) :
    coeff (e2 i j) (Polynomial.aeval (X 0 : MvPolynomial ℕ ℝ) f * Polynomial.aeval (X 1 : MvPolynomial ℕ ℝ) g) =
      ((f.coeff i * g.coeff j : ℚ) : ℝ) := by
  induction f using Polynomial.induction_on' with
  | add p q hp hq => rw [map_add, add_mul, coeff_add, hp, hq, Polynomial.coeff_add]; push_cast; ring
  | monomial n a =>
    induction g using Polynomial.induction_on' with
    | add p q hp hq => rw [map_add, mul_add, coeff_add, hp, hq, Polynomial.coeff_add]; push_cast; ring
    | monomial m b =>
      have ha : ∀ a : ℚ, algebraMap ℚ (MvPolynomial ℕ ℝ) a = C (a : ℝ) := fun a => by
        rw [IsScalarTower.algebraMap_apply ℚ ℝ (MvPolynomial ℕ ℝ), algebraMap_eq]
        rfl
      have e : Polynomial.aeval (X 0 : MvPolynomial ℕ ℝ) (Polynomial.monomial n a) * Polynomial.aeval (X 1 : MvPolynomial ℕ ℝ) (Polynomial.monomial m b) =
          monomial (e2 n m) ((a * b : ℚ) : ℝ) := by
        rw [Polynomial.aeval_monomial, Polynomial.aeval_monomial, ha, ha, X_pow_eq_monomial, X_pow_eq_monomial, C_mul_monomial, C_mul_monomial,
          monomial_mul, e2]
        push_cast
        rw [mul_one, mul_one]
      rw [e, coeff_monomial, Polynomial.coeff_monomial, Polynomial.coeff_monomial]
      by_cases h : n = i ∧ m = j
      · obtain ⟨rfl, rfl⟩ := h
        simp
      · rw [if_neg]
        · by_cases h1 : n = i
          · rw [if_neg (fun h2 => h ⟨h1, h2⟩), mul_zero, Rat.cast_zero]
          · rw [if_neg h1, zero_mul, Rat.cast_zero]
        · intro e
          exact h ⟨by rw [← e2_zero n m, e, e2_zero], by rw [← e2_one n m, e, e2_one]⟩

theorem sep_QP {k : ℕ} {f g : Polynomial ℚ} (hf : f.natDegree ≤ k) (hg : g.natDegree ≤ k) :
    Polynomial.aeval (X 0 : MvPolynomial ℕ ℝ) f * Polynomial.aeval (X 1 : MvPolynomial ℕ ℝ) g ∈ QP 2 (k : ℤ) := by
  rw [Polynomial.aeval_eq_sum_range, Polynomial.aeval_eq_sum_range, Finset.sum_mul_sum]
  refine Submodule.sum_mem _ fun n hn => Submodule.sum_mem _ fun m hm => ?_
  rw [Finset.mem_range] at hn hm
  have e : (f.coeff n • X 0 ^ n * g.coeff m • X 1 ^ m : MvPolynomial ℕ ℝ) = ((f.coeff n * g.coeff m : ℚ) : ℝ) • monomial (e2 n m) (1 : ℝ) := by
    rw [smul_mul_smul_comm, X_pow_eq_monomial, X_pow_eq_monomial, monomial_mul, mul_one, Rat.cast_smul_eq_qsmul]
    rfl
  rw [e]
  refine Submodule.smul_mem _ _ (mem_B.2 fun t ht i => ?_)
  rw [support_monomial, if_neg one_ne_zero, Finset.mem_singleton] at ht
  rw [ht]
  rcases i with _ | _ | i
  · rw [e2_zero, if_pos (by omega)]; omega
  · rw [e2_one, if_pos (by omega)]; omega
  · rw [if_neg (by omega)]; simp [e2]

theorem coeff_QP {k : ℕ} {p : MvPolynomial ℕ ℝ} (hp : p ∈ QP 2 (k : ℤ)) {i j : ℕ} (h : k < i ∨ k < j) : coeff (e2 i j) p = 0 := by
  by_contra hn
  have hb := mem_B.1 hp _ (mem_support_iff.2 hn)
  have h0 := hb 0
  have h1 := hb 1
  rw [e2_zero, if_pos (by omega)] at h0
  rw [e2_one, if_pos (by omega)] at h1
  omega

/-! ### Values of the functions of one variable -/

theorem natDegree_legQ (k : ℕ) : (legQ k).natDegree = k := Polynomial.natDegree_eq_of_degree_eq_some (degree_leg k)

theorem lead_legQ (k : ℕ) : (legQ k).coeff k ≠ 0 := by
  have h : (legQ k).leadingCoeff ≠ 0 := by
    rw [Polynomial.leadingCoeff_ne_zero, Ne, ← Polynomial.degree_eq_bot, legQ, degree_leg]
    exact WithBot.natCast_ne_bot _
  rwa [Polynomial.leadingCoeff, natDegree_legQ] at h

theorem natDegree_bQ {k : ℕ} (hk : 1 ≤ k) : (bQ k).natDegree = k + 1 := Polynomial.natDegree_eq_of_degree_eq_some (degree_bQ hk)

theorem lead_bQ {k : ℕ} (hk : 1 ≤ k) : (bQ k).coeff (k + 1) ≠ 0 := by
  have h : (bQ k).leadingCoeff ≠ 0 := by
    rw [Polynomial.leadingCoeff_ne_zero, Ne, ← Polynomial.degree_eq_bot, degree_bQ hk]
    exact WithBot.natCast_ne_bot _
  rwa [Polynomial.leadingCoeff, natDegree_bQ hk] at h

/-- The Legendre polynomials are not zero at the end of the interval. -/
theorem legQ_zero (k : ℕ) : (legQ k).coeff 0 = (-1) ^ k := by
  have h : ∀ n : ℕ, hjac 0 (-1 : ℚ) 1 n = (-1) ^ n := by
    intro n
    induction n using Nat.strong_induction_on with
    | _ n ih =>
      match n with
      | 0 => rfl
      | 1 => simp [hjac, jrcA, jrcB]
      | n + 2 =>
        have hn : ((n : ℚ) + 2) ≠ 0 := by positivity
        have hn1 : ((n : ℚ) + 1) ≠ 0 := by positivity
        have hn2 : (2 * (n : ℚ) + 2) ≠ 0 := by positivity
        simp only [hjac, ih (n + 1) (by omega), ih n (by omega), jrcA, jrcB, jrcC, smul_eq_mul]
        field_simp
        ring
  rw [Polynomial.coeff_zero_eq_aeval_zero, legQ, map_hjac, ← h k]
  simp [map_ofNat (Polynomial.aeval (0 : ℚ))]

theorem tntP_at (k : ℕ) (v : MvPolynomial ℕ ℝ) : tntP k v = Polynomial.aeval v (legQ k) := by
  have h1 := interval_value v (order := k) (derivs := 0) le_rfl
  have h2 : entry (orthogonalInterval v k 0) 0 k = some (tntP k v) := by
    unfold tntP orthogonalInterval listing entry
    simp [List.range_succ]
  rw [h1] at h2
  rw [← Option.some.inj h2, legQ, map_hjac]
  simp [map_ofNat (Polynomial.aeval v)]

theorem tntB_at {k : ℕ} (hk : 1 ≤ k) (v : MvPolynomial ℕ ℝ) : tntB (k + 1) v = Polynomial.aeval v (bQ k) := by
  rw [tntB, if_neg (by omega), tntP_at, tntP_at, bQ, map_mul, map_sub, Polynomial.aeval_C]
  congr 1
  rw [IsScalarTower.algebraMap_apply ℚ ℝ (MvPolynomial ℕ ℝ), algebraMap_eq]
  congr 1
  simp

/-- The polynomial with the variable multiplied by a number. -/
noncomputable def scale (a : ℕ) (f : Polynomial ℚ) : Polynomial ℚ := f.comp (Polynomial.C (a : ℚ) * Polynomial.X)

theorem aeval_scale (a i : ℕ) (f : Polynomial ℚ) :
    Polynomial.aeval (C (a : ℝ) * X i : MvPolynomial ℕ ℝ) f = Polynomial.aeval (X i : MvPolynomial ℕ ℝ) (scale a f) := by
  rw [scale, Polynomial.aeval_comp]
  congr 2
  simp

theorem coeff_scale (a : ℕ) (f : Polynomial ℚ) (n : ℕ) : (scale a f).coeff n = f.coeff n * (a : ℚ) ^ n := by
  rw [scale, Polynomial.comp_C_mul_X_coeff]

theorem pair_zero {k : ℕ} (hk : 1 ≤ k) (q : ℕ × ℕ) : tntPair k q 0 =
    Polynomial.aeval (X 0 : MvPolynomial ℕ ℝ) (scale q.1 (bQ k)) * Polynomial.aeval (X 1 : MvPolynomial ℕ ℝ) (scale q.2 (legQ k)) := by
  rw [← aeval_scale, ← aeval_scale, ← tntB_at hk, ← tntP_at]
  rfl

theorem pair_one {k : ℕ} (hk : 1 ≤ k) (q : ℕ × ℕ) : tntPair k q 1 =
    Polynomial.aeval (X 0 : MvPolynomial ℕ ℝ) (scale q.1 (legQ k)) * Polynomial.aeval (X 1 : MvPolynomial ℕ ℝ) (scale q.2 (bQ k)) := by
  rw [← aeval_scale, ← aeval_scale, ← tntB_at hk, ← tntP_at]
  rfl

/-! ### The polynomials -/

theorem mem_tntPairs {q : ℕ × ℕ} : q ∈ tntPairs ↔ q = (0, 1) ∨ q = (1, 0) ∨ q = (1, 1) := by
  have : tntPairs = [(0, 1), (1, 0), (1, 1)] := by decide
  rw [this]
  simp

/-- Functionals that tell the three fields apart. -/
noncomputable def pairDual (k : ℕ) (q : ℕ × ℕ) : Field 2 →ₗ[ℝ] ℝ :=
  if q = (1, 1) then lcoeff ℝ (e2 (k + 1) k) ∘ₗ LinearMap.proj 0
  else if q = (1, 0) then (lcoeff ℝ (e2 (k + 1) 0) - (((legQ k).coeff 0 / (legQ k).coeff k : ℚ) : ℝ) • lcoeff ℝ (e2 (k + 1) k)) ∘ₗ LinearMap.proj 0
  else (lcoeff ℝ (e2 0 (k + 1)) - (((legQ k).coeff 0 / (legQ k).coeff k : ℚ) : ℝ) • lcoeff ℝ (e2 k (k + 1))) ∘ₗ LinearMap.proj 1

theorem pairDual_fn {k : ℕ} (hk : 1 ≤ k) {q : ℕ × ℕ} (hq : q ∈ tntPairs) {r : ℕ × ℕ} (hr : r ∈ tntPairs) :
    pairDual k q (tntPair k r) ≠ 0 ↔ q = r := by
  have h1 := lead_legQ k
  have h2 := lead_bQ hk
  have h3 : (legQ k).coeff 0 ≠ 0 := by rw [legQ_zero]; positivity
  have hk0 : k ≠ 0 := by omega
  have h4 : (bQ k).coeff 0 * 0 = 0 := mul_zero _
  have c0 : ∀ i j, lcoeff ℝ (e2 i j) (tntPair k r 0) = _ := fun i j => by
    rw [lcoeff_apply, pair_zero hk, coeff_sep, coeff_scale, coeff_scale]
  have c1 : ∀ i j, lcoeff ℝ (e2 i j) (tntPair k r 1) = _ := fun i j => by
    rw [lcoeff_apply, pair_one hk, coeff_sep, coeff_scale, coeff_scale]
  have d11 : pairDual k (1, 1) (tntPair k r) = _ := c0 (k + 1) k
  have d10 : pairDual k (1, 0) (tntPair k r) = _ - (((legQ k).coeff 0 / (legQ k).coeff k : ℚ) : ℝ) * _ :=
    congrArg₂ (fun a b : ℝ => a - (((legQ k).coeff 0 / (legQ k).coeff k : ℚ) : ℝ) * b) (c0 (k + 1) 0) (c0 (k + 1) k)
  have d01 : pairDual k (0, 1) (tntPair k r) = _ - (((legQ k).coeff 0 / (legQ k).coeff k : ℚ) : ℝ) * _ :=
    congrArg₂ (fun a b : ℝ => a - (((legQ k).coeff 0 / (legQ k).coeff k : ℚ) : ℝ) * b) (c1 0 (k + 1)) (c1 k (k + 1))
  rcases mem_tntPairs.1 hq with rfl | rfl | rfl
  · rw [d01]
    rcases mem_tntPairs.1 hr with rfl | rfl | rfl <;> simp [hk0, h1, h2, h3]
    field_simp
    ring
  · rw [d10]
    rcases mem_tntPairs.1 hr with rfl | rfl | rfl <;> simp [hk0, h1, h2, h3]
    field_simp
    ring
  · rw [d11]
    rcases mem_tntPairs.1 hr with rfl | rfl | rfl <;> simp [hk0, h1, h2, h3]

theorem tntDivPoly_independent {k : ℕ} (hk : 1 ≤ k) : Independent ℝ (tntDivPoly k) := by
  refine (enrich_dual (L := pairDual k) (low := Submodule.pi Set.univ fun _ : Fin 2 => QP 2 (k : ℤ)) (by decide) (fun q hq => ?_)
    (fun q hq r hr hne => ?_) (fun q hq v hv => ?_) (base := (quolySetVector 2 2 k).map (denoteVec ℝ 2)) ?_ ?_).1
  · exact (pairDual_fn hk hq hq).2 rfl
  · by_contra h
    exact hne ((pairDual_fn hk hq hr).1 h)
  · have hv' : ∀ i, v i ∈ QP 2 (k : ℤ) := by simpa [Submodule.mem_pi] using hv
    have c : ∀ (l : Fin 2) i j, k < i ∨ k < j → lcoeff ℝ (e2 i j) (v l) = 0 := fun l i j h => coeff_QP (hv' l) h
    unfold pairDual
    split_ifs
    · exact c 0 _ _ (by omega)
    · show lcoeff ℝ (e2 (k + 1) 0) (v 0) - _ * lcoeff ℝ (e2 (k + 1) k) (v 0) = 0
      rw [c 0 _ _ (by omega), c 0 _ _ (by omega), mul_zero, sub_zero]
    · show lcoeff ℝ (e2 0 (k + 1)) (v 1) - _ * lcoeff ℝ (e2 k (k + 1)) (v 1) = 0
      rw [c 1 _ _ (by omega), c 1 _ _ (by omega), mul_zero, sub_zero]
  · intro v hv
    have := (quolyVector_lspan 2 k v).1 hv
    simpa [Submodule.mem_pi] using this
  · exact (vector_sets_independent ℝ 2).2.1 _ _

/-- `b` without the term of the highest degree. -/
theorem b_low {k : ℕ} (hk : 1 ≤ k) : ∃ f : Polynomial ℚ, f.natDegree ≤ k ∧
    bQ k = Polynomial.C ((bQ k).coeff (k + 1)) * Polynomial.X ^ (k + 1) + f := by
  refine ⟨(bQ k).eraseLead, ?_, ?_⟩
  · refine (Polynomial.eraseLead_natDegree_le _).trans ?_
    rw [natDegree_bQ hk]
    omega
  · have := Polynomial.eraseLead_add_C_mul_X_pow (bQ k)
    rw [Polynomial.leadingCoeff, natDegree_bQ hk] at this
    rw [add_comm]
    exact this.symm

theorem scale_zero_degree (f : Polynomial ℚ) (k : ℕ) : (scale 0 f).natDegree ≤ k := by
  refine (Polynomial.natDegree_le_iff_coeff_eq_zero).2 fun n hn => ?_
  rw [coeff_scale, Nat.cast_zero, zero_pow (by omega), mul_zero]

theorem scale_one (f : Polynomial ℚ) : scale 1 f = f := by simp [scale]

theorem scale_zero (f : Polynomial ℚ) : scale 0 f = Polynomial.C (f.coeff 0) := by
  ext n
  rw [coeff_scale, Polynomial.coeff_C]
  rcases n with _ | n <;> simp

theorem algebraMap_C (a : ℚ) : algebraMap ℚ (MvPolynomial ℕ ℝ) a = C (a : ℝ) := by
  rw [IsScalarTower.algebraMap_apply ℚ ℝ (MvPolynomial ℕ ℝ), algebraMap_eq]
  rfl

/-- The three fields are in the space. -/
theorem tntPair_mem {k : ℕ} (hk : 1 ≤ k) {q : ℕ × ℕ} (hq : q ∈ tntPairs) : tntPair k q ∈ TntDiv k := by
  obtain ⟨f, hf, e⟩ := b_low hk
  have hl : (legQ k).natDegree ≤ k := (natDegree_legQ k).le
  rw [mem_TntDiv]
  set β : ℚ := (bQ k).coeff (k + 1)
  rcases mem_tntPairs.1 hq with rfl | rfl | rfl
  · refine ⟨![Polynomial.aeval (X 0 : MvPolynomial ℕ ℝ) (scale 0 (bQ k)) * Polynomial.aeval (X 1 : MvPolynomial ℕ ℝ) (legQ k),
      Polynomial.aeval (X 0 : MvPolynomial ℕ ℝ) (scale 0 (legQ k)) * Polynomial.aeval (X 1 : MvPolynomial ℕ ℝ) f], ?_, 0,
      (((legQ k).coeff 0 * β : ℚ) : ℝ), 0, ?_, ?_⟩
    · intro i
      fin_cases i
      · exact sep_QP (scale_zero_degree _ _) hl
      · exact sep_QP (scale_zero_degree _ _) hf
    · rw [pair_zero hk, scale_one]
      simp
    · rw [pair_one hk, scale_one, scale_zero]
      simp only [Matrix.cons_val_one, Matrix.cons_val_zero, Matrix.cons_val_fin_one]
      conv_lhs => rw [e]
      simp only [map_add, map_mul, Polynomial.aeval_C, Polynomial.aeval_X, map_pow, algebraMap_C]
      push_cast
      rw [C_mul, C_0]
      ring
  · refine ⟨![Polynomial.aeval (X 0 : MvPolynomial ℕ ℝ) f * Polynomial.aeval (X 1 : MvPolynomial ℕ ℝ) (scale 0 (legQ k)),
      Polynomial.aeval (X 0 : MvPolynomial ℕ ℝ) (legQ k) * Polynomial.aeval (X 1 : MvPolynomial ℕ ℝ) (scale 0 (bQ k))], ?_,
      (((legQ k).coeff 0 * β : ℚ) : ℝ), 0, 0, ?_, ?_⟩
    · intro i
      fin_cases i
      · exact sep_QP hf (scale_zero_degree _ _)
      · exact sep_QP hl (scale_zero_degree _ _)
    · rw [pair_zero hk, scale_one, scale_zero]
      simp only [Matrix.cons_val_one, Matrix.cons_val_zero, Matrix.cons_val_fin_one]
      conv_lhs => rw [e]
      simp only [map_add, map_mul, Polynomial.aeval_C, Polynomial.aeval_X, map_pow, algebraMap_C]
      push_cast
      rw [C_mul, C_0]
      ring
    · rw [pair_one hk, scale_one]
      simp
  · refine ⟨![Polynomial.aeval (X 0 : MvPolynomial ℕ ℝ) f * Polynomial.aeval (X 1 : MvPolynomial ℕ ℝ) (legQ k),
      Polynomial.aeval (X 0 : MvPolynomial ℕ ℝ) (legQ k) * Polynomial.aeval (X 1 : MvPolynomial ℕ ℝ) f], ?_, 0, 0, (β : ℝ), ?_, ?_⟩
    · intro i
      fin_cases i
      · exact sep_QP hf hl
      · exact sep_QP hl hf
    · rw [pair_zero hk, scale_one, scale_one, legX]
      simp only [Matrix.cons_val_one, Matrix.cons_val_zero, Matrix.cons_val_fin_one]
      conv_lhs => rw [e]
      simp only [map_add, map_mul, Polynomial.aeval_C, Polynomial.aeval_X, map_pow, algebraMap_C]
      rw [C_0]
      ring
    · rw [pair_one hk, scale_one, scale_one, legX]
      simp only [Matrix.cons_val_one, Matrix.cons_val_zero, Matrix.cons_val_fin_one]
      conv_lhs => rw [e]
      simp only [map_add, map_mul, Polynomial.aeval_C, Polynomial.aeval_X, map_pow, algebraMap_C]
      rw [C_0]
      ring

theorem QP_TntDiv {k : ℕ} {v : Field 2} (h : ∀ i, v i ∈ QP 2 (k : ℤ)) : v ∈ TntDiv k :=
  mem_TntDiv.2 ⟨v, h, 0, 0, 0, by simp, by simp⟩

theorem tntDivPoly_mem {k : ℕ} (hk : 1 ≤ k) {v : Field 2} (hv : v ∈ tntDivPoly k) : v ∈ TntDiv k := by
  rcases List.mem_append.1 hv with h | h
  · exact QP_TntDiv ((quolyVector_lspan 2 k v).1 (Submodule.subset_span h))
  · obtain ⟨q, hq, rfl⟩ := List.mem_map.1 h
    exact tntPair_mem hk hq

theorem tntDivPoly_length (k : ℕ) : (tntDivPoly k).length = 2 * (k + 1) ^ 2 + 3 := by
  rw [tntDivPoly, List.length_append, List.length_map, List.length_map, quolySetVector, vectorSet_length, quolySet_length]
  rw [show tntPairs.length = 3 from rfl]
  ring

/-! ### Unisolvence -/

/-- The highest power of a variable in a field with no divergence whose other component is zero at both ends. -/
theorem top_zero {i j n : ℕ} (hij : i ≠ j) {K : ℤ} {u w : MvPolynomial ℕ ℝ} (hw : w ∈ P 2 K)
    (h : pderiv i u + pderiv j w = 0) (h0 : ∀ z : ℕ → ℝ, z j = 0 ∨ z j = 1 → eval z w = 0)
    (hn : ∀ m, 1 ≤ m → coeff (Finsupp.single i (n + 1) + Finsupp.single j m) u = 0) : coeff (Finsupp.single i (n + 1)) u = 0 := by
  obtain ⟨s, hs, rfl⟩ := P_bub j hw h0
  have hc : ∀ m : ℕ, coeff (Finsupp.single i (n + 1) + Finsupp.single j m) u * ((n : ℝ) + 1) +
      coeff (Finsupp.single i n + Finsupp.single j m + Finsupp.single j 1) (bub j * s) * ((m : ℝ) + 1) = 0 := by
    intro m
    have := congrArg (coeff (Finsupp.single i n + Finsupp.single j m)) h
    rw [coeff_add, coeff_pderiv, coeff_pderiv, coeff_zero] at this
    have e1 : Finsupp.single i n + Finsupp.single j m + Finsupp.single i 1 = Finsupp.single i (n + 1) + Finsupp.single j m := by
      rw [Finsupp.single_add]; abel
    rw [e1] at this
    simpa [Finsupp.single_apply, hij, hij.symm] using this
  have hg : ∀ m : ℕ, coeff (Finsupp.single i n + Finsupp.single j m) s = coeff (Finsupp.single i n) s := by
    intro m
    induction m with
    | zero => simp
    | succ m ih =>
      have h1 := hc (m + 1)
      rw [hn _ (by omega), zero_mul, zero_add, mul_eq_zero] at h1
      have h2 := h1.resolve_right (by positivity)
      have e1 : Finsupp.single i n + Finsupp.single j (m + 1) + Finsupp.single j 1 =
          Finsupp.single i n + Finsupp.single j m + Finsupp.single j 1 + Finsupp.single j 1 := by
        rw [Finsupp.single_add j m 1]; abel
      rw [e1, (Verif.Scalar.coeff_bub j s _).1] at h2
      rw [Finsupp.single_add j m 1, ← add_assoc, ← ih]
      linarith
  have hz : coeff (Finsupp.single i n) s = 0 := by
    rw [← hg (K.toNat + 1)]
    by_contra hne
    have := (mem_P.1 hs _ (mem_support_iff.2 hne)).1
    rw [map_add, Finsupp.degree_single, Finsupp.degree_single] at this
    push_cast at this
    have h3 := Int.self_le_toNat K
    omega
  have h1 := hc 0
  rw [Finsupp.single_zero, add_zero, add_zero] at h1
  rw [((Verif.Scalar.coeff_bub j s (Finsupp.single i n)).2 (by simp [Finsupp.single_apply, hij])).2, hz, zero_mul, add_zero, mul_eq_zero] at h1
  exact h1.resolve_right (by positivity)

theorem X_pow_mul_mem {d j n : ℕ} (hj : j < d) {k : ℤ} {p : MvPolynomial ℕ ℝ} (hp : p ∈ P d k) : X j ^ n * p ∈ P d (k + n) := by
  induction n with
  | zero => simpa using hp
  | succ n ih =>
    rw [pow_succ', mul_assoc]
    exact P_mono (by push_cast; omega) (X_mul_mem hj ih)

theorem one_mem_P2 : (1 : MvPolynomial ℕ ℝ) ∈ P 2 (0 : ℤ) := by
  have := denoteMono_mem (k := (0 : ℤ)) (show ([0, 0] : Mono).length = 2 from rfl) (by simp)
  simpa [denoteMono, monoFrom] using this

theorem legX_P (k : ℕ) {i : ℕ} (hi : i < 2) : legX k i ∈ P 2 (k : ℤ) := by
  rw [legX, Polynomial.aeval_eq_sum_range, natDegree_legQ]
  refine Submodule.sum_mem _ fun n hn => ?_
  rw [Finset.mem_range] at hn
  rw [← Rat.cast_smul_eq_qsmul ℝ, ← mul_one (X i ^ n)]
  refine Submodule.smul_mem _ _ (P_mono (show (0 : ℤ) + n ≤ k by omega) ?_)
  exact X_pow_mul_mem hi one_mem_P2

/-- Only one power of `x` multiplies the highest power of the other variable. -/
theorem coeff_top (k : ℕ) (i j : ℕ) : coeff (e2 i j) (X 0 ^ (k + 1) * legX k 1 : MvPolynomial ℕ ℝ) = (if i = k + 1 then (((legQ k).coeff j : ℚ) : ℝ) else 0) ∧
    coeff (e2 i j) (legX k 0 * X 1 ^ (k + 1) : MvPolynomial ℕ ℝ) = (if j = k + 1 then (((legQ k).coeff i : ℚ) : ℝ) else 0) := by
  have h1 := coeff_sep (Polynomial.X ^ (k + 1)) (legQ k) i j
  have h2 := coeff_sep (legQ k) (Polynomial.X ^ (k + 1)) i j
  simp only [map_pow, Polynomial.aeval_X, Polynomial.coeff_X_pow] at h1 h2
  constructor
  · refine h1.trans ?_
    split_ifs <;> simp
  · refine h2.trans ?_
    split_ifs <;> simp

theorem coeff_pow (k i j : ℕ) : coeff (e2 i j) (X 0 ^ (k + 1) : MvPolynomial ℕ ℝ) = (if i = k + 1 ∧ j = 0 then 1 else 0) ∧
    coeff (e2 i j) (X 1 ^ (k + 1) : MvPolynomial ℕ ℝ) = (if j = k + 1 ∧ i = 0 then 1 else 0) := by
  have h1 := coeff_sep (Polynomial.X ^ (k + 1)) 1 i j
  have h2 := coeff_sep 1 (Polynomial.X ^ (k + 1)) i j
  simp only [map_pow, Polynomial.aeval_X, Polynomial.coeff_X_pow, map_one, mul_one, one_mul, Polynomial.coeff_one] at h1 h2
  constructor
  · refine h1.trans ?_
    split_ifs <;> simp_all
  · refine h2.trans ?_
    split_ifs <;> simp_all

/-- A field of the space with no divergence and no normal components has degree at most `k` in each variable. -/
theorem tntdiv_low {k : ℕ} (hk : 1 ≤ k) {v : Field 2} (hv : v ∈ TntDiv k) {K : ℤ} (hP : ∀ i, v i ∈ P 2 K) (hd : divergence ℝ v = 0)
    (hn : ∀ (i : Fin 2) (z : ℕ → ℝ), z i.val = 0 ∨ z i.val = 1 → eval z (v i) = 0) (i : Fin 2) : v i ∈ QP 2 (k : ℤ) := by
  obtain ⟨q, hq, a, b, c, h0, h1⟩ := mem_TntDiv.1 hv
  rw [divergence, Fin.sum_univ_two] at hd
  have hd : pderiv 0 (v 0) + pderiv 1 (v 1) = 0 := hd
  have c0 : ∀ i j, coeff (e2 i j) (v 0) = coeff (e2 i j) (q 0) + a * (if i = k + 1 ∧ j = 0 then 1 else 0) +
      c * (if i = k + 1 then (((legQ k).coeff j : ℚ) : ℝ) else 0) := fun i j => by
    rw [h0, coeff_add, coeff_add, coeff_C_mul, coeff_C_mul, (coeff_pow k i j).1, (coeff_top k i j).1]
  have c1 : ∀ i j, coeff (e2 i j) (v 1) = coeff (e2 i j) (q 1) + b * (if j = k + 1 ∧ i = 0 then 1 else 0) +
      c * (if j = k + 1 then (((legQ k).coeff i : ℚ) : ℝ) else 0) := fun i j => by
    rw [h1, coeff_add, coeff_add, coeff_C_mul, coeff_C_mul, (coeff_pow k i j).2, (coeff_top k i j).2]
  have hl : (((legQ k).coeff k : ℚ) : ℝ) ≠ 0 := by exact_mod_cast lead_legQ k
  have hc : c = 0 := by
    have := congrArg (coeff (e2 k k)) hd
    rw [coeff_add, coeff_pderiv, coeff_pderiv, coeff_zero] at this
    have e0 : e2 k k + Finsupp.single 0 1 = e2 (k + 1) k := by rw [e2, e2, Finsupp.single_add]; abel
    have e1 : e2 k k + Finsupp.single 1 1 = e2 k (k + 1) := by rw [e2, e2, Finsupp.single_add]; abel
    rw [e0, e1, c0, c1, coeff_QP (hq 0) (by omega), coeff_QP (hq 1) (by omega), e2_zero, e2_one, if_neg (by omega), if_pos rfl] at this
    have h2 : c * (((legQ k).coeff k : ℚ) : ℝ) * (2 * ((k : ℝ) + 1)) = 0 := by linarith
    rw [mul_eq_zero, mul_eq_zero] at h2
    exact (h2.resolve_right (by positivity)).resolve_right hl
  subst hc
  have ha : a = 0 := by
    have := top_zero (i := 0) (j := 1) (n := k) (by omega) (hP 1) hd (hn 1) fun m hm => by
      have := c0 (k + 1) m
      rw [coeff_QP (hq 0) (by omega), if_neg (by omega)] at this
      simpa [e2] using this
    have h2 := c0 (k + 1) 0
    rw [coeff_QP (hq 0) (by omega), if_pos (by omega), e2, Finsupp.single_zero, add_zero, this] at h2
    linarith
  have hb : b = 0 := by
    have := top_zero (i := 1) (j := 0) (n := k) (by omega) (hP 0) (by rw [add_comm]; exact hd) (hn 0) fun m hm => by
      have := c1 m (k + 1)
      rw [coeff_QP (hq 1) (by omega), if_neg (by omega), e2, add_comm] at this
      simpa using this
    have h2 := c1 0 (k + 1)
    rw [coeff_QP (hq 1) (by omega), if_pos (by omega), e2, Finsupp.single_zero, zero_add, this] at h2
    linarith
  subst ha hb
  fin_cases i
  · have : v 0 = q 0 := by rw [h0]; simp
    show v 0 ∈ _
    rw [this]
    exact hq 0
  · have : v 1 = q 1 := by rw [h1]; simp
    show v 1 ∈ _
    rw [this]
    exact hq 1

/-- The degrees of a function with given derivative. -/
theorem degree_of_pderiv {j : ℕ} {r : MvPolynomial ℕ ℝ} {F : ℕ → ℤ} (h0 : ∀ z : ℕ → ℝ, z j = 0 → eval z r = 0) (h : pderiv j r ∈ B F) :
    ∀ t ∈ r.support, ∀ l, l ≠ j → (t l : ℤ) ≤ F l := by
  intro t ht l hl
  have htj : t j ≠ 0 := by
    obtain ⟨s, rfl⟩ := X_dvd (p := r) j h0
    intro hc
    refine mem_support_iff.1 ht ?_
    rw [coeff_X_mul', if_neg]
    rw [Finsupp.mem_support_iff]
    exact fun h => h hc
  have hs : t - Finsupp.single j 1 + Finsupp.single j 1 = t := tsub_add_cancel_of_le (Finsupp.single_le_iff.2 (by omega))
  have hne : coeff (t - Finsupp.single j 1) (pderiv j r) ≠ 0 := by
    rw [coeff_pderiv, hs]
    exact mul_ne_zero (mem_support_iff.1 ht) (by positivity)
  have := mem_B.1 h _ (mem_support_iff.2 hne) l
  rwa [Finsupp.tsub_apply, Finsupp.single_apply, if_neg (Ne.symm hl), Nat.sub_zero] at this

/-- Stream functions of fields of degree at most `k` in each variable. -/
theorem stream_QP {k : ℕ} {v : Field 2} (hv : ∀ i, v i ∈ QP 2 (k : ℤ)) (hd : divergence ℝ v = 0)
    (hn : ∀ (i : Fin 2) (z : ℕ → ℝ), z i.val = 0 ∨ z i.val = 1 → eval z (v i) = 0) :
    ∃ p ∈ QP 2 ((k : ℤ) - 2), v = curl2 (bub 0 * bub 1 * p) := by
  have hP : ∀ i, v i ∈ P 2 (2 * (k : ℤ)) := fun i => by
    have := B_P (d := 2) (k := (k : ℤ)) (fun i hi => by rw [if_pos hi]) (fun i hi => by rw [if_neg (by omega)]) (hv i)
    exact_mod_cast this
  obtain ⟨p, hp, e⟩ := stream hP hd hn
  have g0 : pderiv 1 (bub 0 * bub 1 * p) ∈ QP 2 (k : ℤ) := by
    rw [← curl2_zero, ← e]; exact hv 0
  have g1 : pderiv 0 (bub 0 * bub 1 * p) ∈ QP 2 (k : ℤ) := by
    have := Submodule.neg_mem _ (hv 1)
    rw [e, curl2_one, neg_neg] at this
    exact this
  have d0 := degree_of_pderiv (j := 1) (fun z hz => by simp [bub, hz]) g0
  have d1 := degree_of_pderiv (j := 0) (fun z hz => by simp [bub, hz]) g1
  have hb : bub 0 * bub 1 * p ∈ QP 2 (k : ℤ) := mem_B.2 fun t ht l => by
    by_cases h : l = 1
    · exact d1 t ht l (by omega)
    · exact d0 t ht l h
  rw [mul_assoc] at hb e
  obtain ⟨r, hr, e1⟩ := B_bub 0 hb (fun z hz => by simp [bub, hz]) (fun z hz => by simp [bub, hz])
  obtain ⟨s, hs, rfl⟩ := B_bub 1 hr (bub_cancel (j := 0) (by omega) fun z hz => by rw [← e1]; simp [bub, hz])
    (bub_cancel (j := 0) (by omega) fun z hz => by rw [← e1]; simp [bub, hz])
  refine ⟨s, B_mono (fun l => ?_) hs, ?_⟩
  · split_ifs <;> omega
  · rw [mul_assoc, ← e1]
    exact e

theorem TntDiv_P {k : ℕ} {v : Field 2} (hv : v ∈ TntDiv k) (i : Fin 2) : v i ∈ P 2 (2 * (k : ℤ) + 1) := by
  obtain ⟨q, hq, a, b, c, h0, h1⟩ := mem_TntDiv.1 hv
  have hq' : ∀ i, q i ∈ P 2 (2 * (k : ℤ) + 1) := fun i => by
    have := B_P (d := 2) (k := (k : ℤ)) (fun i hi => by rw [if_pos hi]) (fun i hi => by rw [if_neg (by omega)]) (hq i)
    exact P_mono (by push_cast; omega) this
  have hx : ∀ j < 2, (X j ^ (k + 1) : MvPolynomial ℕ ℝ) ∈ P 2 (2 * (k : ℤ) + 1) := fun j hj => by
    rw [← mul_one (X j ^ (k + 1))]
    exact P_mono (show (0 : ℤ) + ((k + 1 : ℕ) : ℤ) ≤ _ by push_cast; omega) (X_pow_mul_mem hj one_mem_P2)
  have hxl : ∀ j < 2, ∀ l < 2, (X j ^ (k + 1) * legX k l : MvPolynomial ℕ ℝ) ∈ P 2 (2 * (k : ℤ) + 1) := fun j hj l hl =>
    P_mono (show (k : ℤ) + ((k + 1 : ℕ) : ℤ) ≤ _ by push_cast; omega) (X_pow_mul_mem hj (legX_P k hl))
  fin_cases i
  · show v 0 ∈ _
    rw [h0]
    exact Submodule.add_mem _ (Submodule.add_mem _ (hq' 0) (C_mul_mem _ (hx 0 (by omega)))) (C_mul_mem _ (hxl 0 (by omega) 1 (by omega)))
  · show v 1 ∈ _
    rw [h1, mul_comm (legX k 0)]
    exact Submodule.add_mem _ (Submodule.add_mem _ (hq' 1) (C_mul_mem _ (hx 1 (by omega)))) (C_mul_mem _ (hxl 1 (by omega) 0 (by omega)))

end Verif.Families
