import Mathlib.Combinatorics.Nullstellensatz
import Mathlib.Data.Real.Basic
import Mathlib.Algebra.BigOperators.Field
import Mathlib.Algebra.Order.BigOperators.Group.List
import Mathlib.Algebra.MvPolynomial.Funext
import Mathlib.RingTheory.MvPolynomial.Basic
import Mathlib.Tactic.FieldSimp
import Mathlib.Tactic.Ring
/-!
# Interpolation

Polynomials are determined by their values at lattice points.
-/

namespace Verif.Elements
open MvPolynomial

section lower
variable {σ K : Type} [Finite σ] [Field K]

/-- A polynomial whose exponents lie in a set closed downwards is determined by its values at the grid
points numbered by the set. -/
theorem eq_zero_of_lower (p : MvPolynomial σ K) (L : Set (σ →₀ ℕ)) (hL : IsLowerSet L)
    (hp : ∀ t ∈ p.support, t ∈ L) (node : σ → ℕ → K)
    (hinj : ∀ t ∈ L, ∀ i, Set.InjOn (node i) (Set.Iic (t i)))
    (hv : ∀ t ∈ L, eval (fun i => node i (t i)) p = 0) : p = 0 := by
  classical
  by_contra hne
  obtain ⟨t, ht, hmax⟩ := Finset.exists_max_image p.support Finsupp.degree (support_nonempty.2 hne)
  have htL := hp t ht
  have hdeg : p.totalDegree = t.degree := by
    apply le_antisymm
    · rw [totalDegree]
      exact Finset.sup_le fun s hs => hmax s hs
    · exact le_totalDegree ht
  obtain ⟨s, hs, hse⟩ := combinatorial_nullstellensatz_exists_eval_nonzero p t (mem_support_iff.1 ht) hdeg
    (fun i => (Finset.range (t i + 1)).image (node i)) (fun i => by
      rw [Finset.card_image_of_injOn, Finset.card_range]
      · omega
      · intro a ha b hb
        simp only [Finset.coe_range, Set.mem_Iio] at ha hb
        exact hinj t htL i (by simp; omega) (by simp; omega))
  have hs' : ∀ i, ∃ u, u ≤ t i ∧ node i u = s i := by
    intro i
    obtain ⟨u, hu, h⟩ := Finset.mem_image.1 (hs i)
    exact ⟨u, by simpa [Nat.lt_succ_iff] using hu, h⟩
  choose u hu hus using hs'
  let _ := Fintype.ofFinite σ
  let U : σ →₀ ℕ := Finsupp.equivFunOnFinite.symm u
  have hU : U ∈ L := hL (show U ≤ t from fun i => hu i) htL
  apply hse
  rw [← hv U hU]
  congr 1
  have : (fun i => node i (U i)) = s := funext hus
  rw [this]
end lower

/-- The same with any set of variables. -/
theorem eq_zero_of_lower' {σ K : Type} [Field K] (p : MvPolynomial σ K) (L : Set (σ →₀ ℕ)) (hL : IsLowerSet L)
    (hp : ∀ t ∈ p.support, t ∈ L) (node : σ → ℕ → K)
    (hinj : ∀ t ∈ L, ∀ i, Set.InjOn (node i) (Set.Iic (t i)))
    (hv : ∀ t ∈ L, eval (fun i => node i (t i)) p = 0) : p = 0 := by
  classical
  obtain ⟨s, q, rfl⟩ := exists_finset_rename p
  have hi : Function.Injective (Subtype.val : {x // x ∈ s} → σ) := Subtype.val_injective
  have hm : ∀ (t : {x // x ∈ s} →₀ ℕ) (i : {x // x ∈ s}), t.mapDomain Subtype.val i.1 = t i := fun t i =>
    Finsupp.mapDomain_apply hi _ _
  rw [eq_zero_of_lower q {t | t.mapDomain Subtype.val ∈ L} (fun a b hab ha => hL ?_ ha) (fun t ht => hp _ ?_)
    (fun i => node i) (fun t ht i => ?_) (fun t ht => ?_), map_zero]
  · intro x
    by_cases hx : x ∈ s
    · rw [hm b ⟨x, hx⟩, hm a ⟨x, hx⟩]; exact hab _
    · rw [Finsupp.mapDomain_of_notMem_range _ _ (by simpa using hx),
        Finsupp.mapDomain_of_notMem_range _ _ (by simpa using hx)]
  · rw [mem_support_iff, coeff_rename_mapDomain _ hi]
    exact mem_support_iff.1 ht
  · rw [← hm t i]
    exact hinj _ ht _
  · have := hv _ ht
    rw [eval_rename] at this
    rw [← this]
    congr 2
    funext i
    rw [Function.comp_apply, hm t i]

/-! ### Restriction to simplices -/

theorem totalDegree_aeval_le {σ τ K : Type} [Field K] (f : σ → MvPolynomial τ K)
    (hf : ∀ i, (f i).totalDegree ≤ 1) (p : MvPolynomial σ K) : (aeval f p).totalDegree ≤ p.totalDegree := by
  classical
  conv_lhs => rw [p.as_sum, map_sum]
  refine (totalDegree_finsetSum _ _).trans (Finset.sup_le fun t ht => ?_)
  rw [aeval_monomial]
  refine (totalDegree_mul _ _).trans ?_
  rw [show algebraMap K (MvPolynomial τ K) = C from rfl, totalDegree_C, zero_add, Finsupp.prod]
  refine (totalDegree_finsetProd _ _).trans ?_
  refine le_trans (Finset.sum_le_sum fun i _ => (totalDegree_pow _ _).trans (Nat.mul_le_mul_left _ (hf i))) ?_
  simp only [mul_one]
  exact le_totalDegree ht

/-- The restriction of a polynomial to the affine span of points, in the coordinates of the points after the
first. -/
noncomputable def restrict {K : Type} [Field K] {m : ℕ} (w : Fin (m + 1) → ℕ → K) (p : MvPolynomial ℕ K) :
    MvPolynomial (Fin m) K :=
  aeval (fun j => C (w 0 j) + ∑ i : Fin m, C (w i.succ j - w 0 j) * X i) p

theorem restrict_degree {K : Type} [Field K] {m : ℕ} (w : Fin (m + 1) → ℕ → K) (p : MvPolynomial ℕ K) :
    (restrict w p).totalDegree ≤ p.totalDegree := by
  refine totalDegree_aeval_le _ (fun j => ?_) p
  refine (totalDegree_add _ _).trans (max_le (by simp) ?_)
  refine (totalDegree_finsetSum _ _).trans (Finset.sup_le fun i _ => ?_)
  refine (totalDegree_mul _ _).trans ?_
  rw [totalDegree_C, totalDegree_X]

theorem eval_restrict {K : Type} [Field K] {m : ℕ} (w : Fin (m + 1) → ℕ → K) (p : MvPolynomial ℕ K)
    (t : Fin m → K) :
    eval t (restrict w p) = eval (fun j => w 0 j + ∑ i : Fin m, (w i.succ j - w 0 j) * t i) p := by
  have e : ∀ {τ : Type} (g : τ → K) (q : MvPolynomial τ K), eval g q = aeval g q := fun g q => by
    rw [← coe_aeval_eq_eval]; rfl
  rw [e, e, restrict, ← AlgHom.comp_apply, comp_aeval]
  simp

/-- **Interpolation on a simplex.** A polynomial of degree at most `k` that vanishes at the points with
barycentric coordinates in `(1/k)ℕ` vanishes on the affine span of the vertices. -/
theorem simplex_interp {K : Type} [Field K] [CharZero K] {m k : ℕ} (hk : 0 < k) (w : Fin (m + 1) → ℕ → K)
    (p : MvPolynomial ℕ K) (hp : p.totalDegree ≤ k)
    (h : ∀ β : Fin (m + 1) → ℕ, ∑ i, β i = k → eval (fun j => ∑ i, (β i : K) / k * w i j) p = 0)
    (lam : Fin (m + 1) → K) (hlam : ∑ i, lam i = 1) : eval (fun j => ∑ i, lam i * w i j) p = 0 := by
  have hkK : (k : K) ≠ 0 := Nat.cast_ne_zero.2 hk.ne'
  have hq : restrict w p = 0 := by
    refine eq_zero_of_lower _ {t | t.degree ≤ k} (fun a b hab ha => ?_) (fun t ht => ?_)
      (fun _ n => (n : K) / k) (fun t _ i a _ b _ hab => ?_) (fun t ht => ?_)
    · exact le_trans (Finsupp.degree_mono hab) ha
    · exact (le_totalDegree ht).trans ((restrict_degree w p).trans hp)
    · have hab : (a : K) / k = (b : K) / k := hab
      exact_mod_cast (div_left_inj' hkK).1 hab
    · have ht : ∑ i, t i ≤ k := by simpa [Finsupp.degree_eq_sum] using ht
      have := h (Fin.cons (k - ∑ i, t i) t) (by rw [Fin.sum_univ_succ]; simp; omega)
      rw [eval_restrict, ← this]
      congr 2
      funext j
      rw [Fin.sum_univ_succ]
      simp only [Fin.cons_zero, Fin.cons_succ]
      rw [Nat.cast_sub ht]
      simp only [sub_mul, Finset.sum_sub_distrib]
      push_cast
      rw [← Finset.mul_sum, ← Finset.sum_div]
      have : ∀ i : Fin m, w i.succ j * ((t i : K) / k) = (t i : K) / k * w i.succ j := fun i => mul_comm _ _
      simp_rw [this]
      field_simp
      ring
  have := eval_restrict w p (fun i => lam i.succ)
  rw [hq, map_zero] at this
  rw [this]
  congr 1
  have h0 : lam 0 = 1 - ∑ i : Fin m, lam i.succ := by
    rw [← hlam, Fin.sum_univ_succ]; ring
  congr 1
  funext j
  rw [Fin.sum_univ_succ, h0]
  simp only [sub_mul, Finset.sum_sub_distrib]
  rw [← Finset.mul_sum, one_mul]
  have : ∀ i : Fin m, w i.succ j * lam i.succ = lam i.succ * w i.succ j := fun i => mul_comm _ _
  simp_rw [this]
  ring

/-! ### Fixing coordinates -/

/-- Some variables are replaced by numbers. -/
noncomputable def fixVars {K : Type} [Field K] (J : ℕ → Option K) (p : MvPolynomial ℕ K) : MvPolynomial ℕ K :=
  aeval (fun j => (J j).elim (X j) C) p

theorem eval_fixVars {K : Type} [Field K] (J : ℕ → Option K) (p : MvPolynomial ℕ K) (y : ℕ → K) :
    eval y (fixVars J p) = eval (fun j => (J j).getD (y j)) p := by
  have e : ∀ {τ : Type} (g : τ → K) (q : MvPolynomial τ K), eval g q = aeval g q := fun g q => by
    rw [← coe_aeval_eq_eval]; rfl
  rw [e, e, fixVars, ← AlgHom.comp_apply, comp_aeval]
  congr 1
  congr 1
  funext j
  cases J j <;> simp

theorem support_fixVars {K : Type} [Field K] (J : ℕ → Option K) {L : Set (ℕ →₀ ℕ)} (hL : IsLowerSet L)
    {p : MvPolynomial ℕ K} (hp : ∀ t ∈ p.support, t ∈ L) : ∀ t ∈ (fixVars J p).support, t ∈ L := by
  classical
  have key : fixVars J p ∈ restrictSupport K L := by
    have hsum : fixVars J p = ∑ t ∈ p.support, aeval (fun j => (J j).elim (X j) C) (monomial t (coeff t p)) := by
      rw [← map_sum, ← p.as_sum]; rfl
    rw [hsum]
    refine Submodule.sum_mem _ fun t ht => ?_
    rw [aeval_monomial]
    have e : (t.prod fun i n => ((J i).elim (X i : MvPolynomial ℕ K) C) ^ n) =
        C (t.prod fun i n => ((J i).getD 1) ^ n) * monomial (t.filter fun i => J i = none) 1 := by
      rw [monomial_eq, C_1, one_mul, Finsupp.prod_filter_index, Finsupp.prod, Finsupp.prod, map_prod,
        Finsupp.support_filter, Finset.prod_filter, ← Finset.prod_mul_distrib]
      refine Finset.prod_congr rfl fun i _ => ?_
      cases h : J i <;> simp
    rw [e, show algebraMap K (MvPolynomial ℕ K) = C from rfl, ← mul_assoc, ← C_mul, C_mul_monomial,
      monomial_mem_restrictSupport]
    refine Or.inl (hL (fun i => ?_) (hp t ht))
    rw [Finsupp.filter_apply]
    split_ifs <;> simp
  exact fun t ht => (mem_restrictSupport_iff K).1 key ht

end Verif.Elements
