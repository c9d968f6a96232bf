import Mathlib.Algebra.MvPolynomial.NoZeroDivisors
import Mathlib.Algebra.MvPolynomial.Division
import Mathlib.Algebra.MvPolynomial.Funext
import Mathlib.RingTheory.MvPolynomial.Basic
import Mathlib.Data.Real.Basic
import Mathlib.Algebra.CharZero.Infinite
import Mathlib.Algebra.MvPolynomial.Variables
import Mathlib.Tactic.Ring
import Mathlib.Tactic.LinearCombination
/-!
# Polynomials of bounded degree in the first `d` variables
-/

namespace Verif.Families
open MvPolynomial

/-- Polynomials in the first `d` variables of degree at most `k`; only 0 for negative `k`. -/
noncomputable def P (d : ℕ) (k : ℤ) : Submodule ℝ (MvPolynomial ℕ ℝ) :=
  restrictSupport ℝ {t | (t.degree : ℤ) ≤ k ∧ ∀ i ∈ t.support, i < d}

variable {d e : ℕ} {k l : ℤ} {p q : MvPolynomial ℕ ℝ}

theorem mem_P : p ∈ P d k ↔ ∀ t ∈ p.support, (t.degree : ℤ) ≤ k ∧ ∀ i ∈ t.support, i < d :=
  mem_restrictSupport_iff ℝ

theorem P_mono (h : k ≤ l) : P d k ≤ P d l := fun _ hp =>
  mem_P.2 fun t ht => ⟨(mem_P.1 hp t ht).1.trans h, (mem_P.1 hp t ht).2⟩

theorem P_neg (h : k < 0) (hp : p ∈ P d k) : p = 0 := by
  rw [← support_eq_empty, Finset.eq_empty_iff_forall_notMem]
  intro t ht
  have := (mem_P.1 hp t ht).1
  omega

theorem mem_P_iff : p ∈ P d k ↔ (p ≠ 0 → (p.totalDegree : ℤ) ≤ k) ∧ ∀ i ∈ p.vars, i < d := by
  rw [mem_P]
  constructor
  · intro h
    refine ⟨fun hp => ?_, fun i hi => ?_⟩
    · obtain ⟨t, ht⟩ := support_nonempty.2 hp
      have h0 : 0 ≤ k := le_trans (Int.natCast_nonneg _) (h t ht).1
      obtain ⟨n, rfl⟩ := Int.eq_ofNat_of_zero_le h0
      have : p.totalDegree ≤ n := Finset.sup_le fun s hs => by
        have := (h s hs).1
        exact_mod_cast this
      exact_mod_cast this
    · obtain ⟨t, ht, hi'⟩ := (mem_vars_iff_mem_support i).1 hi
      exact (h t ht).2 i hi'
  · rintro ⟨h1, h2⟩ t ht
    have hp : p ≠ 0 := support_nonempty.1 ⟨t, ht⟩
    have h3 : t.degree ≤ p.totalDegree := le_totalDegree ht
    refine ⟨?_, fun i hi => h2 i ((mem_vars_iff_mem_support i).2 ⟨t, ht, hi⟩)⟩
    have := h1 hp
    omega

theorem C_mem (r : ℝ) (h : 0 ≤ k) : C r ∈ P d k := by
  rw [mem_P_iff]
  simp [h]

theorem one_mem (h : 0 ≤ k) : (1 : MvPolynomial ℕ ℝ) ∈ P d k := by
  rw [← C_1]; exact C_mem 1 h

theorem X_mem {i : ℕ} (h : i < d) : X i ∈ P d 1 := by
  rw [mem_P_iff]
  simp [h]

theorem P_mul (hp : p ∈ P d k) (hq : q ∈ P d l) : p * q ∈ P d (k + l) := by
  classical
  rw [mem_P] at *
  intro t ht
  obtain ⟨a, ha, b, hb, rfl⟩ := Finset.mem_add.1 (support_mul p q ht)
  refine ⟨?_, fun i hi => ?_⟩
  · rw [map_add, Nat.cast_add]
    exact add_le_add (hp a ha).1 (hq b hb).1
  · rcases Finset.mem_union.1 (Finsupp.support_add hi) with h | h
    · exact (hp a ha).2 i h
    · exact (hq b hb).2 i h

theorem X_mul_mem {i : ℕ} (h : i < d) (hp : p ∈ P d k) : X i * p ∈ P d (k + 1) := by
  rw [add_comm]; exact P_mul (X_mem h) hp

theorem C_mul_mem (r : ℝ) (hp : p ∈ P d k) : C r * p ∈ P d k := by
  rw [C_mul']; exact Submodule.smul_mem _ _ hp

theorem P_pow (hp : p ∈ P d 1) (n : ℕ) : p ^ n ∈ P d n := by
  induction n with
  | zero => simpa using one_mem (d := d) le_rfl
  | succ n ih =>
    rw [pow_succ]
    exact_mod_cast P_mul ih hp

/-- Substituting polynomials of degree 1 does not raise the degree. -/
theorem P_aeval {f : ℕ → MvPolynomial ℕ ℝ} (hf : ∀ i < d, f i ∈ P e 1) (hp : p ∈ P d k) : aeval f p ∈ P e k := by
  rw [mem_P] at hp
  rw [p.as_sum, map_sum]
  refine Submodule.sum_mem _ fun t ht => ?_
  rw [aeval_monomial, algebraMap_eq]
  refine C_mul_mem _ (P_mono (hp t ht).1 ?_)
  have key : ∀ s : Finset ℕ, (∀ i ∈ s, i < d) → ∏ i ∈ s, f i ^ t i ∈ P e ((∑ i ∈ s, t i : ℕ) : ℤ) := by
    classical
    intro s
    induction s using Finset.induction_on with
    | empty => intro _; simpa using one_mem (d := e) le_rfl
    | insert a s ha ih =>
      intro hs
      rw [Finset.prod_insert ha, Finset.sum_insert ha, Nat.cast_add]
      exact P_mul (P_pow (hf a (hs a (by simp))) _) (ih fun i hi => hs i (by simp [hi]))
  exact key t.support (hp t ht).2

/-- Division by a polynomial of degree 1. -/
theorem P_cancel {a : MvPolynomial ℕ ℝ} (ha : a.totalDegree = 1) (h : a * p ∈ P d k) : p ∈ P d (k - 1) := by
  classical
  have ha0 : a ≠ 0 := by rintro rfl; simp at ha
  by_cases hp : p = 0
  · rw [hp]; exact Submodule.zero_mem _
  rw [mem_P_iff] at *
  refine ⟨fun _ => ?_, fun i hi => h.2 i ?_⟩
  · have := h.1 (mul_ne_zero ha0 hp)
    rw [totalDegree_mul_of_isDomain ha0 hp, ha] at this
    push_cast at this
    omega
  · rw [vars_def, Multiset.mem_toFinset] at hi ⊢
    rw [degrees_mul_eq ha0 hp]
    exact Multiset.mem_add.2 (Or.inr hi)

theorem degree_X (i : ℕ) : (X i : MvPolynomial ℕ ℝ).totalDegree = 1 := totalDegree_X i

theorem X_cancel {i : ℕ} (h : X i * p ∈ P d k) : p ∈ P d (k - 1) := P_cancel (degree_X i) h

/-- A polynomial of degree 1 that is not constant. -/
theorem degree_one {a : MvPolynomial ℕ ℝ} (h : a ∈ P d 1) {i : ℕ} (hi : coeff (Finsupp.single i 1) a ≠ 0) :
    a.totalDegree = 1 := by
  have ha : a ≠ 0 := by rintro rfl; simp at hi
  have h1 := (mem_P_iff.1 h).1 ha
  have h2 : (Finsupp.single i 1 : ℕ →₀ ℕ).degree ≤ a.totalDegree := le_totalDegree (mem_support_iff.2 hi)
  simp at h2
  omega

theorem coeff_X_single (i j : ℕ) : coeff (Finsupp.single i 1) (X j : MvPolynomial ℕ ℝ) = if j = i then 1 else 0 := by
  rw [coeff_X]
  by_cases h : j = i
  · subst h; simp
  · rw [if_neg h, if_neg]
    intro e
    exact h ((Finsupp.single_left_inj one_ne_zero).1 e)

/-! ### Divisibility -/

/-- Two substitutions that agree modulo `a`. -/
theorem dvd_aeval_sub {a : MvPolynomial ℕ ℝ} {f g : ℕ → MvPolynomial ℕ ℝ} (h : ∀ i, a ∣ f i - g i)
    (p : MvPolynomial ℕ ℝ) : a ∣ aeval f p - aeval g p := by
  induction p using MvPolynomial.induction_on with
  | C r => simp
  | add p q hp hq =>
    rw [map_add, map_add, add_sub_add_comm]
    exact dvd_add hp hq
  | mul_X p i hp =>
    rw [map_mul, map_mul, aeval_X, aeval_X]
    have e : aeval f p * f i - aeval g p * g i = (aeval f p - aeval g p) * f i + aeval g p * (f i - g i) := by ring
    rw [e]
    exact dvd_add (hp.mul_right _) ((h i).mul_left _)

/-- The remainder on division by `X i - L`. -/
theorem dvd_sub_subst (i : ℕ) (L p : MvPolynomial ℕ ℝ) :
    X i - L ∣ p - aeval (fun j => if j = i then L else X j) p := by
  have := dvd_aeval_sub (a := X i - L) (f := X) (g := fun j => if j = i then L else X j) (fun j => ?_) p
  · rwa [aeval_X_left_apply] at this
  · by_cases h : j = i
    · subst h; simp
    · simp [h]

/-- A polynomial that vanishes where `X i = L` is divisible by `X i - L`. -/
theorem dvd_of_vanish (i : ℕ) (L : MvPolynomial ℕ ℝ)
    (h : ∀ z : ℕ → ℝ, eval (fun j => if j = i then eval z L else z j) p = 0) : X i - L ∣ p := by
  have h1 := dvd_sub_subst i L p
  have h2 : aeval (fun j => if j = i then L else X j) p = 0 := by
    apply MvPolynomial.funext
    intro z
    rw [map_zero, ← h z, ← coe_aeval_eq_eval, ← coe_aeval_eq_eval]
    simp only [RingHom.coe_coe]
    rw [← AlgHom.comp_apply, comp_aeval]
    congr 2
    funext j
    split_ifs <;> simp
  rwa [h2, sub_zero] at h1

/-- A polynomial that vanishes where `X i = 0`. -/
theorem X_dvd (i : ℕ) (h : ∀ z : ℕ → ℝ, z i = 0 → eval z p = 0) : X i ∣ p := by
  have := dvd_of_vanish (p := p) i 0 fun z => h _ (by simp)
  rwa [sub_zero] at this

/-- The value only depends on the first `d` variables. -/
theorem eval_congr_P (hp : p ∈ P d k) {y z : ℕ → ℝ} (h : ∀ i < d, y i = z i) : eval y p = eval z p := by
  refine hom_congr_vars (by ext; simp) (fun i hi _ => ?_) rfl
  simpa using h i ((mem_P_iff.1 hp).2 i hi)

theorem aeval_eval (f : ℕ → MvPolynomial ℕ ℝ) (z : ℕ → ℝ) (p : MvPolynomial ℕ ℝ) :
    eval z (aeval f p) = eval (fun i => eval z (f i)) p := by
  rw [← coe_aeval_eq_eval, ← coe_aeval_eq_eval]
  simp only [RingHom.coe_coe]
  rw [← AlgHom.comp_apply, comp_aeval]

end Verif.Families
