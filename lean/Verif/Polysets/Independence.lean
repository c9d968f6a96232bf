import Verif.Polysets.Lemmas
import Mathlib.Algebra.CharZero.Defs
import Mathlib.RingTheory.MvPolynomial.Basic
import Mathlib.Algebra.MvPolynomial.Coeff
/-!
# Linear independence of lists of vector polynomials from pivots
-/

namespace Verif.Polysets

open MvPolynomial

/-- Exponents as a finitely supported function, with variables numbered from `s`. -/
noncomputable def expo : ℕ → Mono → (ℕ →₀ ℕ)
  | _, [] => 0
  | s, a :: t => Finsupp.single s a + expo (s + 1) t

theorem monoFrom_eq (K : Type) [CommSemiring K] (s : ℕ) (m : Mono) :
    monoFrom K s m = monomial (expo s m) 1 := by
  induction m generalizing s with
  | nil => simp [monoFrom, expo]
  | cons a t ih => simp [monoFrom, expo, ih, X_pow_eq_monomial, monomial_mul]

theorem expo_apply_lt {s i : ℕ} {m : Mono} (h : i < s) : expo s m i = 0 := by
  induction m generalizing s with
  | nil => simp [expo]
  | cons a t ih =>
    simp only [expo, Finsupp.add_apply]
    rw [ih (by omega), Finsupp.single_apply, if_neg (by omega)]

theorem expo_inj {s : ℕ} {m m' : Mono} (hl : m.length = m'.length) (h : expo s m = expo s m') :
    m = m' := by
  induction m generalizing s m' with
  | nil => exact (List.length_eq_zero_iff.1 hl.symm).symm
  | cons a t ih =>
    cases m' with
    | nil => simp at hl
    | cons b t' =>
      have h0 := DFunLike.congr_fun h s
      simp only [expo, Finsupp.add_apply, Finsupp.single_eq_same,
        expo_apply_lt (Nat.lt_succ_self s)] at h0
      have hab : a = b := by omega
      subst hab
      have := ih (by simpa using hl) (add_left_cancel (show _ + expo (s + 1) t = _ from h))
      rw [this]

/-- The coefficient of a monomial in a list of terms. -/
def termCoeff (p : Poly) (m : Mono) : ℤ := (p.map fun t => if t.2 = m then t.1 else 0).sum

/-- The coefficient of a monomial in one component of a vector. -/
def vcoeff (v : VecPoly) (i : ℕ) (m : Mono) : ℤ := termCoeff (v[i]?.getD []) m

theorem coeff_denoteMono (K : Type) [CommSemiring K] {m m' : Mono} (hl : m.length = m'.length) :
    coeff (expo 0 m') (denoteMono K m) = if m = m' then 1 else 0 := by
  rw [denoteMono, monoFrom_eq, coeff_monomial]
  by_cases h : m = m'
  · subst h; simp
  · rw [if_neg h, if_neg (fun e => h (expo_inj hl e))]

theorem coeff_denotePoly (K : Type) [CommRing K] {p : Poly} {m : Mono}
    (hl : ∀ t ∈ p, t.2.length = m.length) :
    coeff (expo 0 m) (denotePoly K p) = (termCoeff p m : K) := by
  unfold denotePoly termCoeff
  induction p with
  | nil => simp
  | cons t p ih =>
    simp only [List.map_cons, List.sum_cons, coeff_add, coeff_C_mul, Int.cast_add]
    rw [ih (fun t ht => hl t (by simp [ht])), coeff_denoteMono K (hl t (by simp))]
    split <;> simp

/-- Triangular systems of functionals prove independence. -/
theorem linearIndependent_of_triangular {K V ι : Type} [Field K] [AddCommGroup V] [Module K V]
    [Fintype ι] (F : ι → V) (g : ι → V →ₗ[K] K) (ρ : ι → ℕ) (h1 : ∀ a, g a (F a) ≠ 0)
    (h2 : ∀ a b, a ≠ b → g a (F b) ≠ 0 → ρ b < ρ a) : LinearIndependent K F := by
  rw [Fintype.linearIndependent_iff]
  intro c hc
  have key : ∀ n : ℕ, ∀ a, ρ a = n → c a = 0 := by
    intro n
    induction n using Nat.strong_induction_on with
    | _ n ih =>
      intro a ha
      have h := congrArg (g a) hc
      rw [map_sum, map_zero, Finset.sum_eq_single a] at h
      · rw [map_smul, smul_eq_mul] at h
        exact (mul_eq_zero.1 h).resolve_right (h1 a)
      · intro b _ hb
        rw [map_smul, smul_eq_mul]
        by_cases hz : g a (F b) = 0
        · rw [hz, mul_zero]
        · have hlt := h2 a b (Ne.symm hb) hz
          rw [ih (ρ b) (by omega) b rfl, zero_mul]
      · intro h; exact absurd (Finset.mem_univ a) h
  exact fun a => key _ a rfl

/-- Independence of a list given by keys, from pivot components and monomials. -/
theorem independent_of_pivots {κ : Type} (K : Type) [Field K] [CharZero K] (r d : ℕ)
    (keys : List κ) (f : κ → VecPoly) (pi : κ → ℕ) (pm : κ → Mono) (ρ : κ → ℕ)
    (hn : keys.Nodup)
    (hlen : ∀ a ∈ keys, ∀ p ∈ f a, ∀ t ∈ p, t.2.length = d)
    (hpi : ∀ a ∈ keys, pi a < r) (hpm : ∀ a ∈ keys, (pm a).length = d)
    (h1 : ∀ a ∈ keys, vcoeff (f a) (pi a) (pm a) ≠ 0)
    (h2 : ∀ a ∈ keys, ∀ b ∈ keys, a ≠ b → vcoeff (f b) (pi a) (pm a) ≠ 0 → ρ b < ρ a) :
    Independent K ((keys.map f).map (denoteVec K r)) := by
  unfold Independent
  have hk : ((keys.map f).map (denoteVec K r)).length = keys.length := by simp
  have hmem : ∀ i : Fin ((keys.map f).map (denoteVec K r)).length,
      keys[(i : ℕ)]'(hk ▸ i.2) ∈ keys := fun i => List.getElem_mem _
  let key : Fin ((keys.map f).map (denoteVec K r)).length → κ :=
    fun i => keys[(i : ℕ)]'(hk ▸ i.2)
  have hF : ∀ i, ((keys.map f).map (denoteVec K r))[i] = denoteVec K r (f (key i)) := by
    intro i; simp [key]
  have hco : ∀ i j : Fin ((keys.map f).map (denoteVec K r)).length,
      coeff (expo 0 (pm (key i))) (denoteVec K r (f (key j)) ⟨pi (key i), hpi _ (hmem i)⟩) =
        (vcoeff (f (key j)) (pi (key i)) (pm (key i)) : K) := by
    intro i j
    unfold denoteVec vcoeff
    apply coeff_denotePoly
    intro t ht
    rw [hpm _ (hmem i)]
    cases hq : (f (key j))[pi (key i)]? with
    | none => simp [hq] at ht
    | some p =>
      simp only [hq, Option.getD_some] at ht
      exact hlen _ (hmem j) p (List.mem_of_getElem? hq) t ht
  refine linearIndependent_of_triangular _
    (fun i => (lcoeff K (expo 0 (pm (key i)))) ∘ₗ
      (LinearMap.proj (⟨pi (key i), hpi _ (hmem i)⟩ : Fin r)))
    (fun i => ρ (key i)) ?_ ?_
  · intro i
    rw [hF]
    show coeff _ (denoteVec K r (f (key i)) _) ≠ 0
    rw [hco]
    exact_mod_cast h1 _ (hmem i)
  · intro i j hij hne
    rw [hF] at hne
    change coeff _ (denoteVec K r (f (key j)) _) ≠ 0 at hne
    rw [hco] at hne
    refine h2 _ (hmem i) _ (hmem j) ?_ (by exact_mod_cast hne)
    intro e
    apply hij
    have := (List.Nodup.getElem_inj_iff hn).1 e
    exact Fin.ext this

/-- Distinct monomials of one length are independent. -/
theorem independent_monos (K : Type) [Field K] {l : List Mono} {d : ℕ} (hn : l.Nodup)
    (hl : ∀ m ∈ l, m.length = d) : Independent K (l.map (denoteMono K)) := by
  unfold Independent
  have hk : (l.map (denoteMono K)).length = l.length := by simp
  have h := (basisMonomials ℕ K).linearIndependent.comp
    (fun i : Fin (l.map (denoteMono K)).length => expo 0 (l[(i : ℕ)]'(hk ▸ i.2))) ?_
  · have e : (fun i : Fin (l.map (denoteMono K)).length => (l.map (denoteMono K))[i]) =
        (basisMonomials ℕ K) ∘
          fun i : Fin (l.map (denoteMono K)).length => expo 0 (l[(i : ℕ)]'(hk ▸ i.2)) := by
      funext i
      simp [denoteMono, monoFrom_eq]
    rw [e]
    exact h
  · intro i j hij
    have h1 := expo_inj (by rw [hl _ (List.getElem_mem _), hl _ (List.getElem_mem _)]) hij
    exact Fin.ext ((List.Nodup.getElem_inj_iff hn).1 h1)

end Verif.Polysets
