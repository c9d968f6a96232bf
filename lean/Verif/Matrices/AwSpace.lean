import Verif.Matrices.AwModel
import Verif.Matrices.Hhj
import Verif.Families.Enrich
import Verif.Smooth.Chain
/-!
# The spaces of the Arnold–Winther elements (C148)
-/

namespace Verif.Matrices
open Verif.References Verif.Moments Verif.Functionals Verif.Elements Verif.FiniteElement Verif.Polysets Verif.Orthogonal Verif.Families
open MvPolynomial

/-! ### Spec -/

/-- The divergence of row `i`. -/
noncomputable def rowDiv (u : MField 2) (i : Fin 2) : MvPolynomial ℕ ℝ := pderiv 0 (u i 0) + pderiv 1 (u i 1)

/-- The symmetric matrices of polynomials of degree at most `k` whose divergences are of degree at most `k - 2`. -/
def AwSpace (k : ℕ) (u : MField 2) : Prop := SymSpace 2 k u ∧ ∀ i, rowDiv u i ∈ P 2 ((k : ℤ) - 2)

/-- The number of functions. -/
def awCount (k : ℕ) : ℕ := (k - 1 + 2).choose 2 * 3 + (k + 3)

/-! ### Coefficients -/

/-- The exponents of `x ^ i * y ^ j`. -/
noncomputable def ex (i j : ℕ) : ℕ →₀ ℕ := Finsupp.single 0 i + Finsupp.single 1 j

theorem ex_inj {i j i' j' : ℕ} : ex i j = ex i' j' ↔ i = i' ∧ j = j' := by
  constructor
  · intro h
    have h0 := DFunLike.congr_fun h 0
    have h1 := DFunLike.congr_fun h 1
    simp [ex] at h0 h1
    exact ⟨h0, h1⟩
  · rintro ⟨rfl, rfl⟩; rfl

theorem ex_degree (i j : ℕ) : (ex i j).degree = i + j := by simp [ex, map_add]

theorem term_eq (c : ℝ) (i j : ℕ) : term c i j = monomial (ex i j) c := by
  rw [term, C_mul_X_pow_eq_monomial, X_pow_eq_monomial, monomial_mul, mul_one, ex]

theorem coeff_term (c : ℝ) (i j a b : ℕ) : coeff (ex a b) (term c i j) = if i = a ∧ j = b then c else 0 := by
  rw [term_eq, coeff_monomial]
  simp only [ex_inj]

theorem term_mem {c : ℝ} {i j : ℕ} {k : ℤ} (h : c ≠ 0 → (i : ℤ) + j ≤ k) : term c i j ∈ P 2 k := by
  by_cases hc : c = 0
  · rw [term_eq, hc, map_zero]; exact Submodule.zero_mem _
  · rw [mem_P]
    intro t ht
    rw [term_eq] at ht
    obtain rfl := Finset.mem_singleton.1 (support_monomial_subset ht)
    refine ⟨by rw [ex_degree]; push_cast; exact h hc, fun l hl => ?_⟩
    by_contra hn
    rw [Finsupp.mem_support_iff] at hl
    apply hl
    simp only [ex, Finsupp.add_apply, Finsupp.single_apply]
    rw [if_neg (by omega), if_neg (by omega), add_zero]

theorem pderiv0_term (c : ℝ) (i j : ℕ) : pderiv 0 (term c i j) = term (c * i) (i - 1) j := by
  simp only [term, Derivation.leibniz, pderiv_C, Derivation.leibniz_pow, pderiv_X_self, smul_eq_mul, nsmul_eq_mul,
    pderiv_X_of_ne (show (1 : ℕ) ≠ 0 by decide), map_mul]
  rw [show (C (i : ℝ) : MvPolynomial ℕ ℝ) = (i : MvPolynomial ℕ ℝ) from map_natCast C i]
  ring

theorem pderiv1_term (c : ℝ) (i j : ℕ) : pderiv 1 (term c i j) = term (c * j) i (j - 1) := by
  simp only [term, Derivation.leibniz, pderiv_C, Derivation.leibniz_pow, pderiv_X_self, smul_eq_mul, nsmul_eq_mul,
    pderiv_X_of_ne (show (0 : ℕ) ≠ 1 by decide), map_mul]
  rw [show (C (j : ℝ) : MvPolynomial ℕ ℝ) = (j : MvPolynomial ℕ ℝ) from map_natCast C j]
  ring

/-- A polynomial of degree `k + 1` without terms of that degree. -/
theorem P_lower {k : ℕ} {p : MvPolynomial ℕ ℝ} (hp : p ∈ P 2 (k + 1 : ℕ)) (h : ∀ j ≤ k + 1, coeff (ex j (k + 1 - j)) p = 0) :
    p ∈ P 2 k := by
  rw [mem_P] at *
  intro t ht
  refine ⟨?_, (hp t ht).2⟩
  by_contra hn
  have h1 := (hp t ht).1
  have e : t = ex (t 0) (t 1) := by
    ext l
    simp only [ex, Finsupp.add_apply, Finsupp.single_apply]
    rcases Nat.lt_or_ge l 2 with hl | hl
    · interval_cases l <;> simp
    · rw [if_neg (by omega), if_neg (by omega)]
      by_contra h0
      have := (hp t ht).2 l (Finsupp.mem_support_iff.2 h0)
      omega
  have hd : t 0 + t 1 = k + 1 := by
    rw [e, ex_degree] at h1 hn
    push_cast at h1 hn
    omega
  rw [mem_support_iff] at ht
  apply ht
  rw [e, show t 1 = k + 1 - t 0 by omega]
  exact h _ (by omega)

/-! ### The functions of the highest degree -/

/-- The functions of degree `k`. -/
noncomputable def topFun (k a : ℕ) : MField 2 :=
  if a ≤ k then awTop k a else if a = k + 1 then symMat 0 (term 1 k 0) (term (-k) (k - 1) 1) else symMat 0 0 (term 1 k 0)

/-- The coefficients that are dual to them. -/
noncomputable def topCoeff (k a : ℕ) : MField 2 →ₗ[ℝ] ℝ :=
  if a ≤ k then lcoeff ℝ (ex a (k - a)) ∘ₗ LinearMap.proj 0 ∘ₗ LinearMap.proj 0
  else if a = k + 1 then lcoeff ℝ (ex k 0) ∘ₗ LinearMap.proj 1 ∘ₗ LinearMap.proj 0
  else lcoeff ℝ (ex k 0) ∘ₗ LinearMap.proj 1 ∘ₗ LinearMap.proj 1

theorem topCoeff_le {k a : ℕ} (h : a ≤ k) (u : MField 2) : topCoeff k a u = coeff (ex a (k - a)) (u 0 0) := by
  rw [topCoeff, if_pos h]; rfl

theorem topCoeff_one (k : ℕ) (u : MField 2) : topCoeff k (k + 1) u = coeff (ex k 0) (u 0 1) := by
  rw [topCoeff, if_neg (by omega), if_pos rfl]; rfl

theorem topCoeff_two (k : ℕ) (u : MField 2) : topCoeff k (k + 2) u = coeff (ex k 0) (u 1 1) := by
  rw [topCoeff, if_neg (by omega), if_neg (by omega)]; rfl

theorem top_list (k : ℕ) : (List.range (k + 1)).map (awTop k) ++ awLast k = (List.range (k + 3)).map (topFun k) := by
  rw [List.range_succ (n := k + 2), List.range_succ (n := k + 1), List.map_append, List.map_append, List.append_assoc]
  congr 1
  · refine List.map_congr_left fun a ha => ?_
    rw [topFun, if_pos (by have := List.mem_range.1 ha; omega)]
  · simp [topFun, awLast]

theorem top_dual_self {k a : ℕ} (ha : a ∈ List.range (k + 3)) : topCoeff k a (topFun k a) ≠ 0 := by
  have ha := List.mem_range.1 ha
  by_cases h : a ≤ k
  · rw [topCoeff_le h, topFun, if_pos h]
    show coeff _ (term _ _ _) ≠ 0
    rw [coeff_term, if_pos ⟨rfl, rfl⟩]
    positivity
  · by_cases h1 : a = k + 1
    · subst h1
      rw [topCoeff_one, topFun, if_neg h, if_pos rfl]
      show coeff _ (term _ _ _) ≠ 0
      rw [coeff_term, if_pos ⟨rfl, rfl⟩]
      exact one_ne_zero
    · obtain rfl : a = k + 2 := by omega
      rw [topCoeff_two, topFun, if_neg h, if_neg h1]
      show coeff _ (term _ _ _) ≠ 0
      rw [coeff_term, if_pos ⟨rfl, rfl⟩]
      exact one_ne_zero

theorem top_dual_ne {k a b : ℕ} (hk : 1 ≤ k) (ha : a ∈ List.range (k + 3)) (hb : b ∈ List.range (k + 3)) (hab : a ≠ b) :
    topCoeff k a (topFun k b) = 0 := by
  have ha := List.mem_range.1 ha
  have hb := List.mem_range.1 hb
  have h0 : ∀ i j, coeff (ex i j) (0 : MvPolynomial ℕ ℝ) = 0 := fun _ _ => coeff_zero _
  by_cases h : a ≤ k
  · rw [topCoeff_le h, topFun]
    split_ifs with h1 h2
    · show coeff _ (term _ _ _) = 0
      rw [coeff_term, if_neg (by omega)]
    · exact h0 _ _
    · exact h0 _ _
  · by_cases h1 : a = k + 1
    · subst h1
      rw [topCoeff_one, topFun]
      split_ifs with h1 h2
      · show coeff _ (term _ _ _) = 0
        rw [coeff_term, if_neg (by omega)]
      · omega
      · exact h0 _ _
    · obtain rfl : a = k + 2 := by omega
      rw [topCoeff_two, topFun]
      split_ifs with h1 h2
      · show coeff _ (term _ _ _) = 0
        rw [coeff_term, if_neg (by omega)]
      · show coeff _ (term _ _ _) = 0
        rw [coeff_term, if_neg (by omega)]
      · omega

theorem symMat_sym (a b c : MvPolynomial ℕ ℝ) (i j : Fin 2) : symMat a b c i j = symMat a b c j i := by
  fin_cases i <;> fin_cases j <;> rfl

theorem symMat_mem {a b c : MvPolynomial ℕ ℝ} {S : Submodule ℝ (MvPolynomial ℕ ℝ)} (ha : a ∈ S) (hb : b ∈ S) (hc : c ∈ S) (i j : Fin 2) :
    symMat a b c i j ∈ S := by
  fin_cases i <;> fin_cases j <;> assumption

/-- They are in the space: their divergences are 0. -/
theorem top_mem {k a : ℕ} (hk : 1 ≤ k) : AwSpace k (topFun k a) := by
  have hz : ∀ v : MField 2, rowDiv v 0 = 0 → rowDiv v 1 = 0 → ∀ i, rowDiv v i ∈ P 2 ((k : ℤ) - 2) := by
    intro v h0 h1 i
    fin_cases i
    · show rowDiv v 0 ∈ _; rw [h0]; exact Submodule.zero_mem _
    · show rowDiv v 1 ∈ _; rw [h1]; exact Submodule.zero_mem _
  have t0 : ∀ i j, term 0 i j = 0 := fun i j => by rw [term, C_0, zero_mul, zero_mul]
  have tadd : ∀ c c' i j, term c i j + term c' i j = term (c + c') i j := fun c c' i j => by simp only [term, C_add]; ring
  rw [topFun]
  split_ifs with h1 h2
  · refine ⟨⟨symMat_sym _ _ _, symMat_mem (term_mem fun _ => by omega) (term_mem fun hc => ?_) (term_mem fun hc => ?_)⟩, hz _ ?_ ?_⟩
    · have : a ≠ 0 := by rintro rfl; simp at hc
      omega
    · have : a ≠ 0 := by rintro rfl; simp at hc
      have : a ≠ 1 := by rintro rfl; simp at hc
      omega
    · show pderiv 0 (term _ _ _) + pderiv 1 (term _ _ _) = 0
      rw [pderiv0_term, pderiv1_term, Nat.add_sub_cancel, tadd]
      convert t0 _ _ using 2
      push_cast
      ring
    · show pderiv 0 (term _ _ _) + pderiv 1 (term _ _ _) = 0
      rw [pderiv0_term, pderiv1_term, show k - a + 2 - 1 = k - a + 1 by omega, show a - 1 - 1 = a - 2 by omega, tadd]
      convert t0 _ _ using 2
      rcases a with _ | a
      · simp
      · push_cast
        ring
  · refine ⟨⟨symMat_sym _ _ _, symMat_mem (Submodule.zero_mem _) (term_mem fun _ => by omega) (term_mem fun hc => by omega)⟩, hz _ ?_ ?_⟩
    · show pderiv 0 0 + pderiv 1 (term _ _ _) = 0
      rw [pderiv1_term, map_zero, zero_add]
      simp [t0]
    · show pderiv 0 (term _ _ _) + pderiv 1 (term _ _ _) = 0
      rw [pderiv0_term, pderiv1_term, tadd]
      simp [t0]
  · refine ⟨⟨symMat_sym _ _ _, symMat_mem (Submodule.zero_mem _) (Submodule.zero_mem _) (term_mem fun _ => by omega)⟩, hz _ ?_ ?_⟩
    · show pderiv 0 0 + pderiv 1 0 = 0
      simp
    · show pderiv 0 0 + pderiv 1 (term _ _ _) = 0
      rw [pderiv1_term, map_zero, zero_add]
      simp [t0]

/-! ### The space -/

/-- The space, as a submodule. -/
def awSub (k : ℕ) : Submodule ℝ (MField 2) where
  carrier := {u | AwSpace k u}
  zero_mem' := ⟨⟨fun _ _ => rfl, fun _ _ => Submodule.zero_mem _⟩, fun i => by
    show pderiv 0 0 + pderiv 1 0 ∈ _
    simp⟩
  add_mem' := by
    rintro u v ⟨⟨h1, h2⟩, h3⟩ ⟨⟨h1', h2'⟩, h3'⟩
    refine ⟨⟨fun i j => by rw [Pi.add_apply, Pi.add_apply, Pi.add_apply, Pi.add_apply, h1, h1'],
      fun i j => Submodule.add_mem _ (h2 i j) (h2' i j)⟩, fun i => ?_⟩
    have : rowDiv (u + v) i = rowDiv u i + rowDiv v i := by
      simp only [rowDiv, Pi.add_apply, map_add]; ring
    rw [this]
    exact Submodule.add_mem _ (h3 i) (h3' i)
  smul_mem' := by
    rintro r u ⟨⟨h1, h2⟩, h3⟩
    refine ⟨⟨fun i j => by rw [Pi.smul_apply, Pi.smul_apply, Pi.smul_apply, Pi.smul_apply, h1],
      fun i j => Submodule.smul_mem _ _ (h2 i j)⟩, fun i => ?_⟩
    have : rowDiv (r • u) i = r • rowDiv u i := by
      simp only [rowDiv, Pi.smul_apply, Derivation.map_smul, smul_add]
    rw [this]
    exact Submodule.smul_mem _ _ (h3 i)

theorem low_mem {k : ℕ} (hk : 1 ≤ k) {u : MField 2} (h : SymSpace 2 (k - 1 : ℕ) u) : AwSpace k u := by
  refine ⟨⟨h.1, fun i j => P_mono (by omega) (h.2 i j)⟩, fun i => Submodule.add_mem _ ?_ ?_⟩
  · exact P_mono (by omega) (Smooth.pderiv_mem (h.2 i 0) 0)
  · exact P_mono (by omega) (Smooth.pderiv_mem (h.2 i 1) 1)

/-- A function of the space without these coefficients is of lower degree. -/
theorem low_of_coeff {k : ℕ} (hk : 1 ≤ k) {u : MField 2} (hu : AwSpace k u) (h : ∀ a ∈ List.range (k + 3), topCoeff k a u = 0) :
    SymSpace 2 (k - 1 : ℕ) u := by
  obtain ⟨m, rfl⟩ : ∃ m, k = m + 1 := ⟨k - 1, by omega⟩
  rw [Nat.add_sub_cancel]
  have step : ∀ p q : MvPolynomial ℕ ℝ, q ∈ P 2 (m + 1 : ℕ) → (∀ j ≤ m + 1, coeff (ex j (m + 1 - j)) p = 0) →
      pderiv 0 p + pderiv 1 q ∈ P 2 (((m + 1 : ℕ) : ℤ) - 2) → coeff (ex (m + 1) 0) q = 0 → ∀ j ≤ m + 1, coeff (ex j (m + 1 - j)) q = 0 := by
    intro p q hq hp hd hl j hj
    rcases Nat.eq_or_lt_of_le hj with rfl | hj
    · rw [Nat.sub_self]; exact hl
    · have h0 := coeff_eq_zero_of_degree hd (t := ex j (m - j)) (by rw [ex_degree]; push_cast; omega)
      rw [coeff_add, coeff_pderiv, coeff_pderiv] at h0
      have e0 : ex j (m - j) + Finsupp.single 0 1 = ex (j + 1) (m + 1 - (j + 1)) := by
        rw [show m + 1 - (j + 1) = m - j by omega, ex, ex, Finsupp.single_add]; abel
      have e1 : ex j (m - j) + Finsupp.single 1 1 = ex j (m + 1 - j) := by
        rw [show m + 1 - j = m - j + 1 by omega, ex, ex, Finsupp.single_add]; abel
      rw [e0, e1, hp _ (by omega), zero_mul, zero_add] at h0
      refine (mul_eq_zero.1 h0).resolve_right ?_
      positivity
  have c0 : ∀ j ≤ m + 1, coeff (ex j (m + 1 - j)) (u 0 0) = 0 := fun j hj => by
    rw [← topCoeff_le hj]; exact h j (List.mem_range.2 (by omega))
  have c1 := step (u 0 0) (u 0 1) (hu.1.2 0 1) c0 (hu.2 0) (by rw [← topCoeff_one]; exact h _ (List.mem_range.2 (by omega)))
  have c2 := step (u 1 0) (u 1 1) (hu.1.2 1 1) (by rw [hu.1.1 1 0]; exact c1) (hu.2 1)
    (by rw [← topCoeff_two]; exact h _ (List.mem_range.2 (by omega)))
  refine ⟨hu.1.1, fun i j => ?_⟩
  fin_cases i <;> fin_cases j
  · exact P_lower (hu.1.2 0 0) c0
  · exact P_lower (hu.1.2 0 1) c1
  · show u 1 0 ∈ _
    rw [hu.1.1 1 0]
    exact P_lower (hu.1.2 0 1) c1
  · exact P_lower (hu.1.2 1 1) c2

/-- **C148.** The polynomials of every order are independent and span the space. -/
theorem aw_poly {k : ℕ} (hk : 1 ≤ k) : ∃ l, awPoly k = some l ∧ l.length = awCount k ∧ Independent ℝ l ∧ ∀ u, u ∈ lspan l ↔ AwSpace k u := by
  obtain ⟨pl, h1, h2, h3, h4⟩ := sym_poly (d := 2) (Or.inr (Or.inl rfl)) index2_sym (k - 1)
  have hbase : lspan (pl.map fun p => matrixOf index2 (denoteVec ℝ 3 p)) ≤ awSub k := fun u hu => low_mem hk ((h4 u).1 hu)
  have hL : ∀ a ∈ List.range (k + 3), ∀ v ∈ lspan (pl.map fun p => matrixOf index2 (denoteVec ℝ 3 p)), topCoeff k a v = 0 := by
    intro a ha v hv
    have ha := List.mem_range.1 ha
    have hv := (h4 v).1 hv
    have hc : ∀ i j : Fin 2, ∀ s t, s + t = k → coeff (ex s t) (v i j) = 0 := fun i j s t hst =>
      coeff_eq_zero_of_degree (hv.2 i j) (by rw [ex_degree]; push_cast; omega)
    by_cases h : a ≤ k
    · rw [topCoeff_le h]; exact hc _ _ _ _ (by omega)
    · by_cases h1 : a = k + 1
      · subst h1; rw [topCoeff_one]; exact hc _ _ _ _ (by omega)
      · obtain rfl : a = k + 2 := by omega
        rw [topCoeff_two]; exact hc _ _ _ _ (by omega)
  obtain ⟨hind, -⟩ := enrich_dual (f := topFun k) (L := topCoeff k) (keys := List.range (k + 3)) List.nodup_range
    (fun a ha => top_dual_self ha) (fun a ha b hb hab => top_dual_ne hk ha hb hab) hL le_rfl h3
  refine ⟨_, by
    rw [awPoly, show ((k : ℤ) - 1) = ((k - 1 : ℕ) : ℤ) by omega, h1, Option.map_some, List.append_assoc, top_list], ?_, hind, fun u => ⟨?_, ?_⟩⟩
  · rw [List.length_append, List.length_map, List.length_map, List.length_range, h2, awCount]
  · intro hu
    refine (Submodule.span_le (p := awSub k)).2 (fun v hv => ?_) hu
    rcases List.mem_append.1 hv with hv | hv
    · exact hbase (Submodule.subset_span hv)
    · obtain ⟨a, -, rfl⟩ := List.mem_map.1 hv
      exact top_mem hk
  · intro hu
    let w : MField 2 := ∑ a ∈ Finset.range (k + 3), (topCoeff k a u / topCoeff k a (topFun k a)) • topFun k a
    have hw : ∀ b ∈ List.range (k + 3), topCoeff k b w = topCoeff k b u := by
      intro b hb
      rw [map_sum, Finset.sum_eq_single b]
      · rw [map_smul, smul_eq_mul, div_mul_cancel₀ _ (top_dual_self hb)]
      · intro a ha hab
        rw [map_smul, top_dual_ne hk hb (List.mem_range.2 (Finset.mem_range.1 ha)) (Ne.symm hab), smul_zero]
      · intro hn
        exact absurd (Finset.mem_range.2 (List.mem_range.1 hb)) hn
    have hws : w ∈ awSub k := Submodule.sum_mem _ fun a _ => Submodule.smul_mem _ _ (top_mem hk)
    have hlow := low_of_coeff hk (u := u - w) ((awSub k).sub_mem hu hws) fun a ha => by rw [map_sub, hw a ha, sub_self]
    have e : u = (u - w) + w := by abel
    rw [e]
    refine Submodule.add_mem _ ?_ ?_
    · refine (Submodule.span_mono fun v hv => ?_) ((h4 _).2 hlow)
      exact List.mem_append_left _ hv
    · refine Submodule.sum_mem _ fun a ha => Submodule.smul_mem _ _ (Submodule.subset_span ?_)
      exact List.mem_append_right _ (List.mem_map.2 ⟨a, List.mem_range.2 (Finset.mem_range.1 ha), rfl⟩)

/-- Order 3: 24 functions. -/
example : awCount 3 = 24 := rfl

end Verif.Matrices
