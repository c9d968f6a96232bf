import Verif.Degrees.Vector
import Verif.Degrees.Scalar
import Verif.Bernstein.Created
import Verif.Elements.PropsPyramid
import Verif.Families.NedelecPrism
import Verif.Families.KmvCreated
import Verif.Degrees.Further
import Verif.Degrees.Trimmed
/-!
# Declared degrees of elements on prisms and pyramids, and of Bernstein and Kong-Mulder-Veldhuizen elements

C158.
-/

namespace Verif.Degrees
open Verif.References Verif.Elements Verif.FiniteElement Verif.Polysets
open Verif.Families Verif.Scalar Verif.Bernstein
open MvPolynomial

/-! ### What the classes declare -/

/-- `Lagrange` and `VectorLagrange` on prisms (symfem/elements/lagrange_prism.py:120-134, 185-199). -/
def declPrism (k : ℕ) : Declared := ⟨k, k, k, (k : ℤ) * 2⟩

/-- `Nedelec` on prisms (symfem/elements/nedelec_prism.py:104-118). -/
def declPrismNedelec (k : ℕ) : Declared := ⟨(k : ℤ) - 1, k, (k : ℤ) - 1, (k : ℤ) * 2⟩

/-! ### Bernstein elements -/

/-- Bernstein elements declare the degrees they have, whenever they can be created. -/
theorem bernstein_degrees {c : Cell} {n : ℕ} (h : Works c n) :
    ElementDegrees (W c) (P c.tdim) (bernsteinElement c n) (declComplete n) := by
  have hc := h.simplex
  have hd : 0 < c.tdim := by rcases hc with rfl | rfl | rfl <;> decide
  rw [W_eq_simplex hc]
  rcases Nat.eq_zero_or_pos n with rfl | hn
  · obtain ⟨basis, dofs, h1, h2⟩ := bernstein_created_zero hc
    refine ⟨_, _, h1, h2, ?_⟩
    have : lspan [(1 : MvPolynomial ℕ ℝ)] = P c.tdim ((0 : ℕ) : ℤ) := by
      refine le_antisymm (Submodule.span_le.2 fun p hp => ?_) fun p hp => ?_
      · rw [List.mem_singleton.1 hp, ← C_1]
        exact C_mem _ (by norm_num)
      · have : p = C (coeff 0 p) := (totalDegree_eq_zero_iff_eq_C).1 (Nat.le_zero.1 (Finset.sup_le fun t ht => by
          have := (mem_P.1 hp t ht).1
          rw [Finsupp.degree_apply] at this
          exact_mod_cast this))
        rw [this, ← mul_one (C _), ← smul_eq_C_mul]
        exact Submodule.smul_mem _ _ (Submodule.subset_span (List.mem_singleton.2 rfl))
    rw [this]
    exact degrees_P hd 0
  · obtain ⟨basis, dofs, fs, h1, h2, h3, -⟩ := bernstein_created h hn.ne'
    refine ⟨_, fs, h1, h2, ?_⟩
    have : lspan fs = P c.tdim n := by
      rw [← bernstein_span (simplex_dim hc)]
      exact congrArg (Submodule.span ℝ) (Set.ext fun v => h3.mem_iff)
    rw [this]
    exact degrees_P hd n

example : ElementDegrees (W .triangle) (P 2) (bernsteinElement .triangle 5) ⟨5, 5, 5, 5⟩ :=
  bernstein_degrees (c := .triangle) (Or.inr (Or.inl rfl))

/-! ### Kong-Mulder-Veldhuizen elements -/

/-- `KongMulderVeldhuizen` (symfem/elements/kmv.py:90, 117, 167, 180, 232-246). -/
def declKmv (k : ℕ) : Declared := ⟨k, if k = 1 then 1 else (k : ℤ) + 1, k, if k = 1 then 1 else (k : ℤ) + 1⟩

/-- Complete polynomials and multiples of y of one degree more. -/
theorem degrees_kmv {k : ℕ} {T : Set (MvPolynomial ℕ ℝ)} (hT : ∀ t ∈ T, t ∈ P 2 ((k : ℤ) + 1) ∧ X 1 ∣ t) {b : MvPolynomial ℕ ℝ} (hb : b ∈ T)
    {s : ℕ →₀ ℕ} (hs : s.degree = k + 1) (hc : coeff s b ≠ 0) :
    HasDegrees (P 2) (P 2) (· ∈ P 2 k ⊔ Submodule.span ℝ T) ⟨k, (k : ℤ) + 1, k, (k : ℤ) + 1⟩ := by
  have h1 : IsGreatest {n | ∀ v ∈ P 2 n, v ∈ P 2 k ⊔ Submodule.span ℝ T} (k : ℤ) := by
    refine greatest_of (P_monotone 2) (fun v hv => Submodule.mem_sup_left hv) (monomial (Finsupp.single 0 (k + 1)) 1)
      ((single_mem_P (by norm_num) (Or.inl (by omega))).2 (by push_cast; rfl)) fun h => ?_
    have hle : P 2 k ⊔ Submodule.span ℝ T ≤ LinearMap.ker (lcoeff ℝ (Finsupp.single 0 (k + 1))) := by
      refine sup_le (fun v hv => ?_) (Submodule.span_le.2 fun t ht => ?_)
      · exact coeff_high hv (by rw [Finsupp.degree_single]; push_cast; omega)
      · exact coeff_dvd (i := 1) (by simp) (hT t ht).2
    have := hle h
    rw [LinearMap.mem_ker, lcoeff_apply, coeff_monomial, if_pos rfl] at this
    exact one_ne_zero this
  have h2 : IsLeast {n | ∀ v, v ∈ P 2 k ⊔ Submodule.span ℝ T → v ∈ P 2 n} ((k : ℤ) + 1) :=
    least_of (P_monotone 2) (fun v hv => (sup_le (P_mono (by omega)) (Submodule.span_le.2 fun t ht => (hT t ht).1) :
      P 2 k ⊔ Submodule.span ℝ T ≤ P 2 ((k : ℤ) + 1)) hv) b (Submodule.mem_sup_right (Submodule.subset_span hb))
      fun h => hc (coeff_high h (by rw [hs]; push_cast; omega))
  exact ⟨h1, h2, h1, h2⟩

theorem triB_mem : triB ∈ P 2 3 :=
  P_mul (k := 2) (l := 1) (P_mul (k := 1) (l := 1) (X_mem (by norm_num)) (X_mem (by norm_num)))
    (Submodule.sub_mem _ (Submodule.sub_mem _ (C_1 (R := ℝ) (σ := ℕ) ▸ C_mem _ (by norm_num)) (X_mem (by norm_num))) (X_mem (by norm_num)))

theorem triB_dvd (q : MvPolynomial ℕ ℝ) : X 1 ∣ q * triB := ⟨q * X 0 * (1 - X 0 - X 1), by rw [triB]; ring⟩

theorem coeff_triB (n : ℕ) : coeff (Finsupp.single 0 (n + 2) + Finsupp.single 1 1) (X 0 ^ n * triB) = -1 := by
  have : X 0 ^ n * triB = X 0 ^ (n + 1) * X 1 ^ 1 - X 0 ^ (n + 1) * X 1 ^ 2 - X 0 ^ (n + 2) * X 1 ^ 1 := by rw [triB]; ring
  rw [this, coeff_sub, coeff_sub, coeff_mono2 (Or.inl (by simp)), coeff_mono2 (Or.inl (by simp)), X_pow_eq_monomial, X_pow_eq_monomial,
    monomial_mul, coeff_monomial, if_pos rfl]
  norm_num

theorem of_createdIn {L P : ℤ → Submodule ℝ (MvPolynomial ℕ ℝ)} {e : Option (Element ℝ (MvPolynomial ℕ ℝ))} {S : Submodule ℝ (MvPolynomial ℕ ℝ)}
    {D : Declared} (h : CreatedIn e S) (hd : HasDegrees L P (· ∈ S) D) : ElementDegrees L P e D := by
  obtain ⟨basis, dofs, fs, h1, h2, rfl⟩ := h
  exact ⟨_, fs, h1, h2, hd⟩

/-- Kong-Mulder-Veldhuizen elements. -/
theorem kmv_degrees : (∀ k : ℕ, 1 ≤ k → k ≤ 3 → ElementDegrees (W .triangle) (P 2) (kmvElement .triangle k) (declKmv k)) ∧
    ElementDegrees (W .tetrahedron) (P 3) (kmvElement .tetrahedron 1) (declKmv 1) := by
  have e2 : W .triangle = P 2 := W_eq_simplex (c := .triangle) (by simp [Simplex])
  have e3 : W .tetrahedron = P 3 := W_eq_simplex (c := .tetrahedron) (by simp [Simplex])
  rw [e2, e3]
  refine ⟨fun k h1 h3 => ?_, of_createdIn kmv_tetrahedron_one_created (degrees_P (by norm_num) 1)⟩
  interval_cases k
  · exact of_createdIn kmv_triangle_one_created (degrees_P (by norm_num) 1)
  · refine of_createdIn kmv_triangle_two_created (degrees_kmv (k := 2) (fun t ht => ?_) (Set.mem_singleton _)
      (s := Finsupp.single 0 2 + Finsupp.single 1 1) (by rw [map_add, Finsupp.degree_single, Finsupp.degree_single]) ?_)
    · rw [Set.mem_singleton_iff.1 ht]
      exact ⟨triB_mem, by simpa using triB_dvd 1⟩
    · have := coeff_triB 0
      rw [pow_zero, one_mul] at this
      rw [this]
      norm_num
  · refine of_createdIn kmv_triangle_three_created (degrees_kmv (k := 3) (fun t ht => ?_) (Set.mem_insert_of_mem _ (Set.mem_singleton _))
      (s := Finsupp.single 0 3 + Finsupp.single 1 1) (by rw [map_add, Finsupp.degree_single, Finsupp.degree_single]) ?_)
    · rcases ht with rfl | ht
      · exact ⟨P_mul (k := 1) (l := 3) (X_mem (by norm_num)) triB_mem, triB_dvd _⟩
      · rw [Set.mem_singleton_iff.1 ht]
        exact ⟨P_mul (k := 1) (l := 3) (X_mem (by norm_num)) triB_mem, triB_dvd _⟩
    · have := coeff_triB 1
      rw [pow_one] at this
      rw [this]
      norm_num

example : declKmv 3 = ⟨3, 4, 3, 4⟩ := rfl

/-! ### Lagrange elements on prisms -/

/-- The exponents of degree at most `n` in the first two variables together, and in the third. -/
def prismExps (n : ℤ) : Set (ℕ →₀ ℕ) := {t | (t 0 : ℤ) + t 1 ≤ n ∧ (t 2 : ℤ) ≤ n ∧ ∀ i, 3 ≤ i → t i = 0}

/-- The polynomials of degree at most `n` in x and y, and in z: those of the Lagrange elements on prisms. -/
noncomputable def PR (n : ℤ) : Submodule ℝ (MvPolynomial ℕ ℝ) := restrictSupport ℝ (prismExps n)

theorem mem_PR {n : ℤ} {p : MvPolynomial ℕ ℝ} : p ∈ PR n ↔ ∀ t ∈ p.support, t ∈ prismExps n := by
  rw [PR, mem_restrictSupport_iff]
  rfl

theorem mono_mem_PR {n : ℤ} {t : ℕ →₀ ℕ} : monomial t (1 : ℝ) ∈ PR n ↔ t ∈ prismExps n := by
  rw [mem_PR]
  simp [support_monomial]

theorem PR_monotone : Monotone PR := fun a b h p hp => mem_PR.2 fun t ht =>
  ⟨(mem_PR.1 hp t ht).1.trans h, (mem_PR.1 hp t ht).2.1.trans h, (mem_PR.1 hp t ht).2.2⟩

theorem degree_three {t : ℕ →₀ ℕ} (h : ∀ i, 3 ≤ i → t i = 0) : t.degree = t 0 + t 1 + t 2 := by
  rw [Finsupp.degree_apply, Finset.sum_subset (s₂ := Finset.range 3)]
  · simp [Finset.sum_range_succ]
  · intro i hi
    rw [Finset.mem_range]
    by_contra h'
    exact Finsupp.mem_support_iff.1 hi (h i (by omega))
  · intro i _ hi
    exact Finsupp.notMem_support_iff.1 hi

theorem P_le_PR (n : ℤ) : P 3 n ≤ PR n := fun p hp => mem_PR.2 fun t ht => by
  obtain ⟨h1, h2⟩ := mem_P.1 hp t ht
  have h3 : ∀ i, 3 ≤ i → t i = 0 := fun i hi => by
    by_contra h
    have := h2 i (Finsupp.mem_support_iff.2 h)
    omega
  rw [degree_three h3] at h1
  push_cast at h1
  exact ⟨by omega, by omega, h3⟩

theorem PR_le_P (n : ℤ) : PR n ≤ P 3 (n * 2) := fun p hp => mem_P.2 fun t ht => by
  obtain ⟨h1, h2, h3⟩ := mem_PR.1 hp t ht
  refine ⟨?_, fun i hi => ?_⟩
  · rw [degree_three h3]
    push_cast
    omega
  · by_contra h
    exact Finsupp.mem_support_iff.1 hi (h3 i (by omega))

theorem degrees_PR (k : ℕ) : HasDegrees PR (P 3) (· ∈ PR k) (declPrism k) := by
  have hx : ∀ (m : ℕ) (n : ℤ), monomial (Finsupp.single 0 m) (1 : ℝ) ∈ PR n ↔ (m : ℤ) ≤ n ∧ 0 ≤ n := fun m n => by
    rw [mono_mem_PR]
    refine ⟨fun h => ⟨by simpa using h.1, by simpa using h.2.1⟩, fun h => ⟨by simpa using h.1, by simpa using h.2, fun i hi => ?_⟩⟩
    rw [Finsupp.single_apply, if_neg (by omega)]
  have hout : monomial (Finsupp.single 0 (k + 1)) (1 : ℝ) ∉ PR k := fun h => by
    have := ((hx _ _).1 h).1
    push_cast at this
    omega
  refine .mk (greatest_of PR_monotone (fun v hv => hv) _ ((hx (k + 1) _).2 (by push_cast; omega)) hout)
    (least_of PR_monotone (fun v hv => hv) (monomial (Finsupp.single 0 k) 1) ((hx k _).2 (by omega)) fun h => ?_)
    (greatest_of (P_monotone 3) (fun v hv => P_le_PR _ hv) _ ((single_mem_P (n := k + 1) (by omega) (Or.inl (by omega))).2 (by push_cast; rfl)) hout)
    (least_of (P_monotone 3) (fun v hv => PR_le_P _ hv) (monomial (Finsupp.single 0 k + Finsupp.single 2 k) 1) ?_ fun h => ?_)
  · have := (hx _ _).1 h
    omega
  · refine mono_mem_PR.2 ⟨by simp, by simp, fun i hi => ?_⟩
    rw [Finsupp.add_apply, Finsupp.single_apply, Finsupp.single_apply, if_neg (by omega), if_neg (by omega), add_zero]
  · have := (mono_mem_P.1 h).1
    rw [map_add, Finsupp.degree_single, Finsupp.degree_single] at this
    push_cast at this
    omega

theorem prism_lspan (k : ℕ) : lspan ((prismSet (k : ℤ)).map (denoteMono ℝ)) = PR k := by
  refine le_antisymm (fun p hp => mem_PR.2 fun t ht => ?_) fun p hp => ?_
  · obtain ⟨h1, h2, h3⟩ := prism_span hp t ht
    exact ⟨by exact_mod_cast h1, by exact_mod_cast h2, h3⟩
  · rw [p.as_sum]
    refine Submodule.sum_mem _ fun t ht => ?_
    obtain ⟨h1, h2, h3⟩ := mem_PR.1 hp t ht
    rw [show monomial t (coeff t p) = coeff t p • monomial t (1 : ℝ) by rw [smul_monomial, smul_eq_mul, mul_one]]
    refine Submodule.smul_mem _ _ (Submodule.subset_span ?_)
    refine List.mem_map.2 ⟨[t 0, t 1, t 2], ((prismSet_spec k).2 _).2 ⟨_, _, _, rfl, h1, h2⟩, ?_⟩
    rw [denoteMono, monoFrom_eq]
    have : expo 0 [t 0, t 1, t 2] = t := by
      refine Finsupp.ext fun i => ?_
      have e := expo_apply 0 [t 0, t 1, t 2] i
      rw [Nat.zero_add] at e
      rw [e]
      match i with
      | 0 => rfl
      | 1 => rfl
      | 2 => rfl
      | i + 3 => simp [h3 (i + 3) (by omega)]
    rw [this]

/-- Lagrange elements on prisms. -/
theorem prism_degrees {variant : String} (hvar : variant ≠ "legendre") (k : ℕ)
    (hr : 0 < k → ∃ points, rulePoints variant k = some points) (hs : 0 < k → SymmRule variant k) :
    ElementDegrees PR (P 3) (prismElement variant k) (declPrism k) := by
  obtain ⟨e, he, hb⟩ := prism_created hvar k hr hs
  obtain ⟨fs, hfs⟩ := Option.isSome_iff_exists.1 hb
  refine ⟨e, fs, he, hfs, ?_⟩
  rw [prismElement] at he
  obtain ⟨l, -, he⟩ := Option.bind_eq_some_iff.1 he
  unfold ciarlet at he
  split_ifs at he
  obtain rfl := Option.some.inj he
  have : lspan fs = PR k := (getBasis_ciarlet_span _ _ _ hfs).trans (prism_lspan k)
  rw [this]
  exact degrees_PR k

example (k : ℕ) : ElementDegrees PR (P 3) (prismElement "equispaced" k) (declPrism k) :=
  prism_degrees (by decide) k (fun hk => (rulePoints_equispaced hk).imp fun _ h => h.1) symm_equispaced

/-! ### Nédélec elements on prisms -/

theorem prismField_PR (c : ℕ → ℝ) (j : Fin 3) : prismField c j ∈ PR 1 := by
  have hC : ∀ r : ℝ, (C r : MvPolynomial ℕ ℝ) ∈ PR 1 := fun r => P_le_PR _ (C_mem _ (by norm_num))
  have hX : ∀ (r : ℝ) (i : ℕ), i < 3 → (C r * X i : MvPolynomial ℕ ℝ) ∈ PR 1 := fun r i hi => P_le_PR _ (C_mul_mem _ (X_mem hi))
  have hXX : ∀ (r s : ℝ) (i : ℕ), i < 2 → ((C r + C s * X 2) * X i : MvPolynomial ℕ ℝ) ∈ PR 1 := fun r s i hi => by
    rw [add_mul]
    refine Submodule.add_mem _ (hX r i (by omega)) ?_
    rw [mul_assoc, ← smul_eq_C_mul]
    refine Submodule.smul_mem _ _ ?_
    rw [X, X, monomial_mul, mul_one]
    refine mono_mem_PR.2 ⟨?_, ?_, fun j hj => ?_⟩
    · interval_cases i <;> simp [Finsupp.single_apply]
    · interval_cases i <;> simp [Finsupp.single_apply]
    · interval_cases i <;> simp [Finsupp.single_apply] <;> omega
  fin_cases j
  · exact Submodule.sub_mem _ (Submodule.add_mem _ (hC _) (hX _ 2 (by norm_num))) (hXX _ _ 1 (by norm_num))
  · exact Submodule.add_mem _ (Submodule.add_mem _ (hC _) (hX _ 2 (by norm_num))) (hXX _ _ 0 (by norm_num))
  · exact Submodule.add_mem _ (Submodule.add_mem _ (hC _) (hX _ 0 (by norm_num))) (hX _ 1 (by norm_num))

theorem degrees_PrismN1 : HasDegrees (vec 3 PR) (vec 3 (P 3)) PrismN1 (declPrismNedelec 1) := by
  have hp := vec_monotone 3 (P_monotone 3)
  have hq := vec_monotone 3 PR_monotone
  have hin : ∀ v ∈ vec 3 PR (((1 : ℕ) : ℤ) - 1), PrismN1 v := fun v hv => by
    have hc : ∀ j, v j = C (coeff 0 (v j)) := fun j =>
      (totalDegree_eq_zero_iff_eq_C).1 (Nat.le_zero.1 (Finset.sup_le fun t ht => by
        have := (mem_P.1 (PR_le_P _ (mem_vec.1 hv j)) t ht).1
        rw [Finsupp.degree_apply] at this
        norm_num at this
        exact_mod_cast this))
    refine ⟨coords [coeff 0 (v 0), 0, coeff 0 (v 1), 0, 0, 0, coeff 0 (v 2)], funext fun j => ?_⟩
    rw [hc j]
    fin_cases j <;> simp [prismField, coords]
  have hout : ¬ PrismN1 (at' (0 : Fin 3) (X 0)) := by
    rintro ⟨c, hc⟩
    have h0 := congrArg (eval (coords [0, 0, 0] : ℕ → ℝ)) (congrFun hc 0)
    have h1 := congrArg (eval (coords [1, 0, 0] : ℕ → ℝ)) (congrFun hc 0)
    rw [at_same] at h0 h1
    simp [prismField, coords] at h0 h1
    linarith
  have hX : (X 0 : MvPolynomial ℕ ℝ) ∈ P 3 1 := X_mem (by norm_num)
  refine .mk (greatest_of hq hin _ (at_mem.2 (P_le_PR _ (by simpa using hX))) hout)
    (least_of hq (fun v ⟨c, hc⟩ => mem_vec.2 fun j => by rw [hc]; exact prismField_PR c j) (at' (2 : Fin 3) (X 0)) ?_ fun h => ?_)
    (greatest_of hp (fun v hv => hin v (mem_vec.2 fun j => P_le_PR _ (mem_vec.1 hv j))) _ (at_mem.2 (by simpa using hX)) hout)
    (least_of hp (fun v ⟨c, hc⟩ => mem_vec.2 fun j => by rw [hc]; exact prismField_mem c j) (prismField (coords [0, 0, 0, 0, 0, 1])) ⟨_, rfl⟩ fun h => ?_)
  · refine ⟨coords [0, 0, 0, 0, 0, 0, 0, 1], funext fun j => ?_⟩
    fin_cases j
    · exact (at_ne (by decide) _).trans (by simp [prismField, coords])
    · exact (at_ne (by decide) _).trans (by simp [prismField, coords])
    · exact (at_same _ _).trans (by simp [prismField, coords])
  · rw [at_mem, X, mono_mem_PR] at h
    have := h.1
    simp at this
  · have h1 := mem_vec.1 h 1
    rw [show prismField (coords [0, 0, 0, 0, 0, 1]) 1 = monomial (Finsupp.single 2 1 + Finsupp.single 0 1) (1 : ℝ) by
      rw [← mul_one (1 : ℝ), ← monomial_mul]
      simp [prismField, coords, X], mono_mem_P] at h1
    have := h1.1
    rw [map_add, Finsupp.degree_single, Finsupp.degree_single] at this
    norm_num at this

/-- Nédélec elements of order 1 on prisms. -/
theorem prismNedelec_degrees : ElementDegrees (vec 3 PR) (vec 3 (P 3)) (prismNedelec "equispaced" 1) (declPrismNedelec 1) :=
  of_created prismNedelec_created_partial degrees_PrismN1

/-! ### Lagrange elements on pyramids -/

/-- The points of the reference pyramid. -/
def InPyramid (x : ℕ → ℝ) : Prop := 0 ≤ x 0 ∧ 0 ≤ x 1 ∧ 0 ≤ x 2 ∧ x 0 + x 2 ≤ 1 ∧ x 1 + x 2 ≤ 1

/-- The function is the polynomial on the pyramid. -/
def IsPoly (f : (ℕ → ℝ) → ℝ) (p : MvPolynomial ℕ ℝ) : Prop := ∀ x, InPyramid x → f x = eval x p

theorem pyramid_mono {k a b c : ℕ} (h : a + b + c ≤ k) : ∃ f ∈ lspan ((pyramidSet (k : ℤ)).map pyramidFn),
    ∀ x, InPyramid x → f x = x 0 ^ a * x 1 ^ b * x 2 ^ c := by
  refine ⟨∑ j ∈ Finset.range (min a b + 1), ((-1) ^ j * ((min a b).choose j : ℝ)) • pyramidFn [a, b, c + j],
    Submodule.sum_mem _ fun j hj => Submodule.smul_mem _ _ (Submodule.subset_span (List.mem_map_of_mem
      (((pyramidSet_spec k).2 _).2 ⟨a, b, c + j, rfl, ?_⟩))), fun x hx => ?_⟩
  · rw [Finset.mem_range] at hj
    push_cast
    omega
  · obtain ⟨h0, h1, h2, h3, h4⟩ := hx
    have hb : (1 - x 2) ^ min a b = ∑ j ∈ Finset.range (min a b + 1), (-1) ^ j * ((min a b).choose j : ℝ) * x 2 ^ j := by
      rw [sub_eq_neg_add, add_pow]
      refine Finset.sum_congr rfl fun j _ => ?_
      rw [neg_pow, one_pow]
      ring
    have hs : (∑ j ∈ Finset.range (min a b + 1), ((-1) ^ j * ((min a b).choose j : ℝ)) • pyramidFn [a, b, c + j]) x =
        x 0 ^ a * x 1 ^ b * x 2 ^ c * ((1 - x 2) ^ min a b / (1 - x 2) ^ min a b) := by
      rw [Finset.sum_apply]
      conv_rhs => rw [mul_div_assoc', hb, Finset.mul_sum, Finset.sum_div]
      refine Finset.sum_congr rfl fun j _ => ?_
      rw [← hb]
      show _ * (x 0 ^ a * x 1 ^ b * x 2 ^ (c + j) / (1 - x 2) ^ min a b) = _
      rw [pow_add]
      ring
    rw [hs]
    by_cases hz : (1 - x 2) ^ min a b = 0
    · have hm : min a b ≠ 0 := fun hm => by
        rw [hm, pow_zero] at hz
        exact one_ne_zero hz
      have hz : 1 - x 2 = 0 := pow_eq_zero_iff hm |>.1 hz
      have : x 0 = 0 := by linarith
      rw [this, zero_pow (by omega)]
      ring
    · rw [div_self hz, mul_one]

theorem pyramid_poly {k : ℕ} {p : MvPolynomial ℕ ℝ} (hp : p ∈ P 3 k) :
    ∃ f ∈ lspan ((pyramidSet (k : ℤ)).map pyramidFn), IsPoly f p := by
  have h : ∀ t : ℕ →₀ ℕ, ∃ f, t ∈ p.support → f ∈ lspan ((pyramidSet (k : ℤ)).map pyramidFn) ∧
      ∀ x, InPyramid x → f x = x 0 ^ t 0 * x 1 ^ t 1 * x 2 ^ t 2 := fun t => by
    by_cases ht : t ∈ p.support
    · obtain ⟨h1, h2⟩ := mem_P.1 hp t ht
      rw [degree_three fun i hi => by
        by_contra h
        have := h2 i (Finsupp.mem_support_iff.2 h)
        omega] at h1
      obtain ⟨f, hf⟩ := pyramid_mono (k := k) (a := t 0) (b := t 1) (c := t 2) (by exact_mod_cast h1)
      exact ⟨f, fun _ => hf⟩
    · exact ⟨0, fun h => absurd h ht⟩
  choose f hf using h
  refine ⟨∑ t ∈ p.support, coeff t p • f t, Submodule.sum_mem _ fun t ht => Submodule.smul_mem _ _ (hf t ht).1, fun x hx => ?_⟩
  rw [Finset.sum_apply, eval_eq]
  refine Finset.sum_congr rfl fun t ht => ?_
  show coeff t p * f t x = _
  rw [(hf t ht).2 x hx, Finset.prod_subset (s₂ := Finset.range 3) (fun i hi => Finset.mem_range.2 ((mem_P.1 hp t ht).2 i hi))
    fun i _ hi => by rw [Finsupp.notMem_support_iff.1 hi, pow_zero], Finset.prod_range_succ, Finset.prod_range_succ, Finset.prod_range_one]

/-- On the first edge the functions are polynomials of degree at most `k`. -/
theorem pyramid_edge {k : ℕ} {f : (ℕ → ℝ) → ℝ} (hf : f ∈ lspan ((pyramidSet (k : ℤ)).map pyramidFn)) :
    ∃ q : Polynomial ℝ, q.natDegree ≤ k ∧ ∀ r : ℝ, f (coords [r, 0, 0]) = q.eval r := by
  induction hf using Submodule.span_induction with
  | mem f hf =>
    obtain ⟨m, hm, rfl⟩ := List.mem_map.1 hf
    obtain ⟨i, j, l, rfl, h⟩ := ((pyramidSet_spec k).2 m).1 hm
    have hi : i ≤ k := by omega
    refine ⟨Polynomial.C (0 ^ j * 0 ^ l) * Polynomial.X ^ i, (Polynomial.natDegree_C_mul_X_pow_le _ _).trans hi, fun r => ?_⟩
    simp [pyramidFn, coords]
    ring
  | zero => exact ⟨0, by simp, fun r => by simp⟩
  | add f g _ _ hf hg =>
    obtain ⟨p, h1, h2⟩ := hf
    obtain ⟨q, h3, h4⟩ := hg
    exact ⟨p + q, (Polynomial.natDegree_add_le _ _).trans (max_le h1 h3), fun r => by simp [h2, h4]⟩
  | smul a f _ hf =>
    obtain ⟨p, h1, h2⟩ := hf
    exact ⟨Polynomial.C a * p, (Polynomial.natDegree_C_mul_le _ _).trans h1, fun r => by simp [h2]⟩

theorem pyramid_not_pow {k n : ℕ} (hn : k < n) {f : (ℕ → ℝ) → ℝ} (hf : f ∈ lspan ((pyramidSet (k : ℤ)).map pyramidFn)) :
    ¬ IsPoly f (X 0 ^ n) := by
  intro h
  obtain ⟨q, h1, h2⟩ := pyramid_edge hf
  have : q = Polynomial.X ^ n := by
    refine Polynomial.eq_of_infinite_eval_eq _ _ (Set.Infinite.mono ?_ (Set.Icc_infinite (show (0 : ℝ) < 1 by norm_num)))
    intro r hr
    have := h (coords [r, 0, 0]) ⟨by simpa [coords] using hr.1, by simp [coords], by simp [coords], by simpa [coords] using hr.2, by simp [coords]⟩
    rw [h2] at this
    simpa [coords] using this
  rw [this, Polynomial.natDegree_X_pow] at h1
  omega

/-- From order 1 there is a function that is not a polynomial of any degree. -/
theorem pyramid_rational {p : MvPolynomial ℕ ℝ} : ¬ IsPoly (pyramidFn [1, 1, 0]) p := by
  intro h
  let g : Polynomial ℝ := aeval (fun i => if i = 2 then 1 - Polynomial.X else Polynomial.C (1 / 2 : ℝ)) p
  have hg : ∀ s : ℝ, g.eval s = eval (fun i => if i = 2 then 1 - s else 1 / 2) p := fun s => by
    have : (Polynomial.evalRingHom s).comp (algebraMap ℝ (Polynomial ℝ)) = RingHom.id ℝ := by ext; simp
    show Polynomial.evalRingHom s (aeval _ p) = _
    rw [aeval_def, hom_eval₂, this]
    refine congrArg (fun F => eval₂ (RingHom.id ℝ) F p) (funext fun i => ?_)
    by_cases hi : i = 2 <;> simp [hi]
  have hpoly : Polynomial.X * g = Polynomial.C (1 / 4 : ℝ) := by
    refine Polynomial.eq_of_infinite_eval_eq _ _ (Set.Infinite.mono ?_ (Set.Icc_infinite (show (1 / 2 : ℝ) < 1 by norm_num)))
    intro s hs
    have hs0 : s ≠ 0 := by have := hs.1; intro h; rw [h] at this; norm_num at this
    have := h (fun i => if i = 2 then 1 - s else 1 / 2) ⟨by norm_num, by norm_num, by simpa using hs.2,
      by have := hs.1; norm_num; linarith, by have := hs.1; norm_num; linarith⟩
    show (Polynomial.X * g).eval s = (Polynomial.C (1 / 4 : ℝ)).eval s
    rw [Polynomial.eval_mul, Polynomial.eval_X, Polynomial.eval_C, hg, ← this]
    simp [pyramidFn]
    field_simp
    norm_num
  have := congrArg (Polynomial.eval 0) hpoly
  simp at this

/-- The functions of the Lagrange elements on pyramids. -/
noncomputable def PY (n : ℤ) : Submodule ℝ ((ℕ → ℝ) → ℝ) := lspan ((pyramidSet n).map pyramidFn)

theorem PY_monotone : Monotone PY := fun a b h => Submodule.span_mono fun f hf => by
  obtain ⟨m, hm, rfl⟩ := List.mem_map.1 hf
  obtain ⟨i, j, l, rfl, h'⟩ := ((pyramidSet_spec a).2 m).1 hm
  exact List.mem_map_of_mem (((pyramidSet_spec b).2 _).2 ⟨i, j, l, rfl, h'.trans h⟩)

theorem PY_pow (k : ℕ) : pyramidFn [k, 0, 0] ∈ PY k ∧ pyramidFn [k, 0, 0] ∉ PY ((k : ℤ) - 1) := by
  refine ⟨Submodule.subset_span (List.mem_map_of_mem (((pyramidSet_spec k).2 _).2 ⟨k, 0, 0, rfl, by simp⟩)), fun h => ?_⟩
  have hp : IsPoly (pyramidFn [k, 0, 0]) (X 0 ^ k) := fun x _ => by simp [pyramidFn]
  rcases Nat.eq_zero_or_pos k with rfl | hk
  · have e0 : pyramidSet (((0 : ℕ) : ℤ) - 1) = [] := rfl
    rw [PY, e0] at h
    have h : pyramidFn [0, 0, 0] ∈ Submodule.span ℝ {v : (ℕ → ℝ) → ℝ | v ∈ ([] : List ((ℕ → ℝ) → ℝ))} := h
    have h : pyramidFn [0, 0, 0] = 0 := by simpa using h
    have := congrFun h 0
    simp [pyramidFn] at this
  · obtain ⟨m, rfl⟩ : ∃ m, k = m + 1 := ⟨k - 1, by omega⟩
    rw [show ((m + 1 : ℕ) : ℤ) - 1 = (m : ℤ) by push_cast; ring] at h
    exact pyramid_not_pow (Nat.lt_succ_self m) h hp

/-- Lagrange elements on pyramids (symfem/elements/lagrange_pyramid.py:115-129): the element of order `k` is the only Lagrange element
with its functions; `order` is the highest degree of complete polynomials on the pyramid that are all functions of the element; and `None` is right for the lowest degree around the
functions exactly from order 1, as at order 0 the functions are constants. -/
theorem pyramid_degrees {variant : String} (hvar : variant ≠ "legendre") (k : ℕ)
    (hr : 0 < k → ∃ points, rulePoints variant k = some points) (hs : 0 < k → SymmRule variant k) :
    ∃ e fs, pyramidElement variant k = some e ∧ getBasis e = some fs ∧
      IsGreatest {n : ℤ | ∀ f ∈ PY n, f ∈ lspan fs} k ∧ IsLeast {n : ℤ | ∀ f, f ∈ lspan fs → f ∈ PY n} k ∧
      IsGreatest {n : ℤ | ∀ p ∈ P 3 n, ∃ f ∈ lspan fs, IsPoly f p} k ∧
      ((¬ ∃ n : ℤ, ∀ f ∈ lspan fs, ∃ p ∈ P 3 n, IsPoly f p) ↔ 1 ≤ k) := by
  obtain ⟨e, he, hb⟩ := pyramid_created hvar k hr hs
  obtain ⟨fs, hfs⟩ := Option.isSome_iff_exists.1 hb
  refine ⟨e, fs, he, hfs, ?_⟩
  rw [pyramidElement] at he
  obtain ⟨l, -, he⟩ := Option.bind_eq_some_iff.1 he
  unfold ciarlet at he
  split_ifs at he
  obtain rfl := Option.some.inj he
  have hsp : lspan fs = lspan ((pyramidSet (k : ℤ)).map pyramidFn) := getBasis_ciarlet_span _ _ _ hfs
  rw [hsp]
  refine ⟨greatest_of PY_monotone (fun f hf => hf) (pyramidFn [k + 1, 0, 0]) (PY_pow (k + 1)).1 fun h => (PY_pow (k + 1)).2 (by
      rw [show ((k + 1 : ℕ) : ℤ) - 1 = (k : ℤ) by push_cast; ring]
      exact h),
    least_of PY_monotone (fun f hf => hf) (pyramidFn [k, 0, 0]) (PY_pow k).1 (PY_pow k).2, ?_⟩
  refine ⟨⟨fun p hp => pyramid_poly hp, fun n hn => ?_⟩, fun h => ?_, fun h ⟨n, hn⟩ => ?_⟩
  · by_contra h
    obtain ⟨f, hf, hp⟩ := hn (X 0 ^ (k + 1)) (X_pow_mem (by omega) (by push_cast; omega))
    exact pyramid_not_pow (Nat.lt_succ_self k) hf hp
  · by_contra hk
    obtain rfl : k = 0 := by omega
    refine h ⟨0, fun f hf => ?_⟩
    have e0 : pyramidSet ((0 : ℕ) : ℤ) = [[0, 0, 0]] := rfl
    rw [e0] at hf
    obtain ⟨a, rfl⟩ := Submodule.mem_span_singleton.1 (show f ∈ Submodule.span ℝ {pyramidFn [0, 0, 0]} by
      have : {v | v ∈ List.map pyramidFn [[0, 0, 0]]} = {pyramidFn [0, 0, 0]} := by ext; simp
      rwa [lspan, this] at hf)
    exact ⟨C a, C_mem _ le_rfl, fun x _ => by simp [pyramidFn]⟩
  · obtain ⟨p, -, hp⟩ := hn (pyramidFn [1, 1, 0]) (Submodule.subset_span (List.mem_map_of_mem
      (((pyramidSet_spec k).2 _).2 ⟨1, 1, 0, rfl, by push_cast; omega⟩)))
    exact pyramid_rational hp

example : ∃ e fs, pyramidElement "equispaced" 2 = some e ∧ getBasis e = some fs ∧
    IsGreatest {n : ℤ | ∀ p ∈ P 3 n, ∃ f ∈ lspan fs, IsPoly f p} 2 := by
  obtain ⟨e, fs, h1, h2, -, -, h3, -⟩ := pyramid_degrees (variant := "equispaced") (by decide) 2
    (fun hk => (rulePoints_equispaced hk).imp fun _ h => h.1) symm_equispaced
  exact ⟨e, fs, h1, h2, h3⟩

end Verif.Degrees
