import Verif.Families.Core
import Verif.Elements.Creation
import Verif.Polysets.PropsVec
/-!
# The spans of the polynomial sets
-/

namespace Verif.Families
open Verif.Polysets Verif.Elements
open MvPolynomial

/-- The span of a list. -/
abbrev lspan {V : Type} [AddCommGroup V] [Module ℝ V] (l : List V) : Submodule ℝ V := Submodule.span ℝ {v | v ∈ l}

theorem mem_lspan {V : Type} [AddCommGroup V] [Module ℝ V] {l : List V} {v : V} (h : v ∈ l) : v ∈ lspan l :=
  Submodule.subset_span h

theorem lspan_append {V : Type} [AddCommGroup V] [Module ℝ V] (a b : List V) : lspan (a ++ b) = lspan a ⊔ lspan b := by
  rw [lspan, lspan, lspan, ← Submodule.span_union]
  congr 1
  ext v
  simp

/-- A monomial of the right degree is a member of the list. -/
theorem denoteMono_eq (d : ℕ) {t : ℕ →₀ ℕ} (h : ∀ i ∈ t.support, i < d) :
    ∃ m : Mono, m.length = d ∧ m.sum = t.degree ∧ monomial t 1 = denoteMono ℝ m := by
  have e : expo 0 ((List.range d).map fun i : ℕ => t i) = t := by
    ext i
    have := expo_apply 0 ((List.range d).map fun i : ℕ => t i) i
    rw [Nat.zero_add] at this
    rw [this]
    by_cases hi : i < d
    · simp [List.getD_eq_getElem?_getD, hi]
    · rw [List.getD_eq_default (hn := by simpa using hi)]
      by_contra hc
      exact hi (h i (Finsupp.mem_support_iff.2 fun h => hc h.symm))
  refine ⟨(List.range d).map fun i : ℕ => t i, by simp, ?_, ?_⟩
  · rw [← expo_sum 0, e]
  · rw [denoteMono, monoFrom_eq, e]

theorem denoteMono_mem {d : ℕ} {k : ℤ} {m : Mono} (hl : m.length = d) (hs : (m.sum : ℤ) ≤ k) : denoteMono ℝ m ∈ P d k := by
  rw [denoteMono, monoFrom_eq]
  show _ ∈ restrictSupport _ _
  rw [monomial_mem_restrictSupport]
  left
  refine ⟨by rw [expo_sum]; exact hs, fun i hi => ?_⟩
  by_contra hc
  have e := expo_apply 0 m i
  rw [Nat.zero_add, List.getD_eq_default (hn := by omega)] at e
  exact Finsupp.mem_support_iff.1 hi e

/-- Linear statements about polynomials need only be checked for the monomials. -/
theorem P_le {d : ℕ} {k : ℤ} {V : Type} [AddCommGroup V] [Module ℝ V] (f : MvPolynomial ℕ ℝ →ₗ[ℝ] V) (S : Submodule ℝ V)
    (h : ∀ m : Mono, m.length = d → (m.sum : ℤ) ≤ k → f (denoteMono ℝ m) ∈ S) {p : MvPolynomial ℕ ℝ} (hp : p ∈ P d k) :
    f p ∈ S := by
  rw [p.as_sum, map_sum]
  refine Submodule.sum_mem _ fun t ht => ?_
  obtain ⟨h1, h2⟩ := mem_P.1 hp t ht
  obtain ⟨m, hl, hs, e⟩ := denoteMono_eq d h2
  rw [← mul_one (coeff t p), ← smul_eq_mul, ← smul_monomial, map_smul, e]
  exact Submodule.smul_mem _ _ (h m hl (by rw [hs]; exact h1))

theorem P_le' {d : ℕ} {k : ℤ} (S : Submodule ℝ (MvPolynomial ℕ ℝ))
    (h : ∀ m : Mono, m.length = d → (m.sum : ℤ) ≤ k → denoteMono ℝ m ∈ S) : P d k ≤ S := fun _ hp =>
  P_le (LinearMap.id (R := ℝ) (M := MvPolynomial ℕ ℝ)) S h hp

/-- The span of `polynomial_set_1d`. -/
theorem polySet_lspan {d : ℕ} (hd : d = 1 ∨ d = 2 ∨ d = 3) (k : ℤ) :
    ∃ l, polySet d k = some l ∧ lspan (l.map (denoteMono ℝ)) = P d k := by
  obtain ⟨l, h1, -, h3⟩ := polySet_spec d hd k
  refine ⟨l, h1, le_antisymm ?_ ?_⟩
  · rw [Submodule.span_le]
    intro q hq
    obtain ⟨m, hm, rfl⟩ := List.mem_map.1 hq
    obtain ⟨a, b⟩ := (h3 m).1 hm
    exact denoteMono_mem a b
  · exact P_le' _ fun m hl hs => mem_lspan (List.mem_map_of_mem ((h3 m).2 ⟨hl, hs⟩))

/-- Vectors of polynomials. -/
noncomputable abbrev PV (d r : ℕ) (k : ℤ) : Submodule ℝ (Fin r → MvPolynomial ℕ ℝ) := Submodule.pi Set.univ fun _ => P d k

theorem mem_PV {d r : ℕ} {k : ℤ} {v : Fin r → MvPolynomial ℕ ℝ} : v ∈ PV d r k ↔ ∀ i, v i ∈ P d k := by
  simp [PV, Submodule.mem_pi]

/-- The span of `polynomial_set_vector`. -/
theorem polySetVector_lspan {d : ℕ} (hd : d = 1 ∨ d = 2 ∨ d = 3) (r : ℕ) (k : ℤ) :
    ∃ l, polySetVector d r k = some l ∧ lspan (l.map (denoteVec ℝ r)) = PV d r k := by
  obtain ⟨l, h1, -, h3⟩ := polySet_spec d hd k
  refine ⟨vectorSet r l, by rw [polySetVector, h1]; rfl, ?_⟩
  rw [vectorSet_spec]
  refine le_antisymm ?_ fun v hv => ?_
  · rw [Submodule.span_le]
    intro q hq
    obtain ⟨m, hm, hq⟩ := List.mem_flatMap.1 hq
    obtain ⟨i, -, rfl⟩ := List.mem_map.1 hq
    obtain ⟨a, b⟩ := (h3 m).1 hm
    refine mem_PV.2 fun j => ?_
    by_cases hj : j = i
    · subst hj; rw [Pi.single_eq_same]; exact denoteMono_mem a b
    · rw [Pi.single_eq_of_ne hj]; exact Submodule.zero_mem _
  · rw [← Finset.univ_sum_single v]
    refine Submodule.sum_mem _ fun i _ => ?_
    refine P_le (LinearMap.single ℝ (fun _ => MvPolynomial ℕ ℝ) i) _ (fun m hl hs => ?_) (mem_PV.1 hv i)
    exact mem_lspan (List.mem_flatMap.2 ⟨m, (h3 m).2 ⟨hl, hs⟩, List.mem_map.2 ⟨i, List.mem_finRange i, rfl⟩⟩)

/-! ### The Raviart–Thomas space -/

/-- The span of the polynomials of a Raviart–Thomas element. -/
theorem rt_lspan {d : ℕ} (hd : d = 2 ∨ d = 3) (k : ℕ) {a b : List VecPoly} (ha : polySetVector d d ((k : ℤ) - 1) = some a)
    (hb : hdivSet d k = some b) {v : Fin d → MvPolynomial ℕ ℝ} :
    v ∈ lspan ((a ++ b).map (denoteVec ℝ d)) ↔ RTSpace d k v := by
  obtain ⟨a', h1, h2⟩ := polySetVector_lspan (d := d) (by omega) d ((k : ℤ) - 1)
  obtain rfl : a = a' := Option.some.inj (ha.symm.trans h1)
  obtain ⟨b', ms, h3, -, h4, h5⟩ := hdivSet_spec ℝ d hd k
  obtain rfl : b = b' := Option.some.inj (hb.symm.trans h3)
  rw [List.map_append, lspan_append, h2, h5]
  let pos : MvPolynomial ℕ ℝ →ₗ[ℝ] (Fin d → MvPolynomial ℕ ℝ) :=
    LinearMap.pi fun i => LinearMap.mulLeft ℝ (X i.val)
  constructor
  · intro h
    obtain ⟨u, hu, w, hw, rfl⟩ := Submodule.mem_sup.1 h
    have : lspan (ms.map fun m => positionTimes ℝ d (denoteMono ℝ m)) ≤ (P d ((k : ℤ) - 1)).map pos := by
      rw [Submodule.span_le]
      intro q hq
      obtain ⟨m, hm, rfl⟩ := List.mem_map.1 hq
      obtain ⟨hl, hs⟩ := (h4 m).1 hm
      exact ⟨denoteMono ℝ m, denoteMono_mem hl (by omega), rfl⟩
    obtain ⟨r, hr, rfl⟩ := this hw
    refine ⟨r, hr, fun i => ?_⟩
    show u i + X i.val * r - X i.val * r ∈ _
    rw [add_sub_cancel_right]
    exact mem_PV.1 hu i
  · rintro ⟨r, hr, hv⟩
    rw [show v = (fun i => v i - X i.val * r) + pos r by funext i; show v i = v i - X i.val * r + X i.val * r; ring]
    refine Submodule.add_mem _ (Submodule.mem_sup_left (mem_PV.2 hv)) (P_le pos _ (fun m hl hs => ?_) hr)
    by_cases he : m.sum + 1 = k
    · exact Submodule.mem_sup_right (mem_lspan (List.mem_map.2 ⟨m, (h4 m).2 ⟨hl, he⟩, rfl⟩))
    · refine Submodule.mem_sup_left (mem_PV.2 fun i => ?_)
      exact P_mono (by omega) (X_mul_mem i.2 (denoteMono_mem (k := m.sum) hl le_rfl))

/-! ### The Nédélec space -/

/-- Euler's decomposition: a polynomial is a constant and multiples of the variables. -/
theorem P_split {d : ℕ} {k : ℤ} {p : MvPolynomial ℕ ℝ} (hp : p ∈ P d k) :
    ∃ (c : ℝ) (u : Fin d → MvPolynomial ℕ ℝ), (∀ i, u i ∈ P d (k - 1)) ∧ p = C c + ∑ i : Fin d, X i.val * u i := by
  let S : Submodule ℝ (MvPolynomial ℕ ℝ) :=
    (LinearMap.range (Algebra.linearMap ℝ (MvPolynomial ℕ ℝ))) ⊔
      (PV d d (k - 1)).map (∑ i : Fin d, LinearMap.mulLeft ℝ (X i.val) ∘ₗ LinearMap.proj i)
  have : p ∈ S := by
    have key : p ∈ S := by
      refine P_le' (d := d) (k := k) S (fun m hl hs => ?_) hp
      by_cases h0 : expo 0 m = 0
      · refine Submodule.mem_sup_left ⟨1, ?_⟩
        simp [denoteMono, monoFrom_eq, h0]
      · obtain ⟨i, hi⟩ := Finsupp.support_nonempty_iff.2 h0
        have hid := ((mem_P.1 (denoteMono_mem (k := k) hl hs)) (expo 0 m) (by
          rw [denoteMono, monoFrom_eq, mem_support_iff, coeff_monomial, if_pos rfl]; exact one_ne_zero)).2 i hi
        obtain ⟨t, ht⟩ : ∃ t, expo 0 m = Finsupp.single i 1 + t := by
          refine ⟨expo 0 m - Finsupp.single i 1, ?_⟩
          rw [add_tsub_cancel_of_le]
          rw [Finsupp.single_le_iff]
          exact Nat.one_le_iff_ne_zero.2 (Finsupp.mem_support_iff.1 hi)
        refine Submodule.mem_sup_right ⟨Pi.single ⟨i, hid⟩ (monomial t 1), ?_, ?_⟩
        · refine mem_PV.2 fun j => ?_
          by_cases hj : j = ⟨i, hid⟩
          · subst hj
            rw [Pi.single_eq_same]
            refine X_cancel (i := i) ?_
            have : X i * monomial t 1 = denoteMono ℝ m := by
              rw [denoteMono, monoFrom_eq, ht, X, monomial_mul, one_mul]
            rw [this]
            exact denoteMono_mem hl hs
          · rw [Pi.single_eq_of_ne hj]; exact Submodule.zero_mem _
        · rw [LinearMap.sum_apply]
          rw [Finset.sum_eq_single (⟨i, hid⟩ : Fin d)]
          · show X i * (Pi.single (⟨i, hid⟩ : Fin d) (monomial t (1 : ℝ)) : Fin d → MvPolynomial ℕ ℝ) ⟨i, hid⟩ = _
            rw [Pi.single_eq_same, denoteMono, monoFrom_eq, ht, X, monomial_mul, one_mul]
          · intro j _ hj
            show X j.val * (Pi.single (⟨i, hid⟩ : Fin d) (monomial t (1 : ℝ)) : Fin d → MvPolynomial ℕ ℝ) j = _
            rw [Pi.single_eq_of_ne hj, mul_zero]
          · intro h; exact absurd (Finset.mem_univ _) h
    exact key
  obtain ⟨_, ⟨c, rfl⟩, _, ⟨u, hu, rfl⟩, rfl⟩ := Submodule.mem_sup.1 this
  refine ⟨c, u, mem_PV.1 hu, ?_⟩
  rw [LinearMap.sum_apply]
  rfl

/-- A Nédélec function is a polynomial of lower degree plus a field that is orthogonal to the position. -/
theorem n1_split {d : ℕ} {k : ℤ} {v : Fin d → MvPolynomial ℕ ℝ} (hv : N1Space d k v) :
    ∃ u ∈ PV d d (k - 1), ∃ w : Fin d → MvPolynomial ℕ ℝ, v = u + w ∧ (∀ i, w i ∈ P d k) ∧ ∑ i : Fin d, X i.val * w i = 0 := by
  obtain ⟨c, u, hu, e⟩ := P_split hv.2
  have hc : c = 0 := by
    have := congrArg (eval fun _ => (0 : ℝ)) e
    simpa using this.symm
  refine ⟨u, mem_PV.2 hu, v - u, by rw [add_sub_cancel], fun i => Submodule.sub_mem _ (hv.1 i) (P_mono (by omega) (hu i)), ?_⟩
  rw [hc, map_zero, zero_add] at e
  simp only [Pi.sub_apply, mul_sub, Finset.sum_sub_distrib]
  rw [e, sub_self]

theorem X_mul_inj {i : ℕ} {p q : MvPolynomial ℕ ℝ} (h : X i * p = X i * q) : p = q := mul_left_cancel₀ (X_ne_zero i) h

theorem perp2 {k : ℤ} {w : Fin 2 → MvPolynomial ℕ ℝ} (hw : ∀ i, w i ∈ P 2 k) (h : X 0 * w 0 + X 1 * w 1 = 0) :
    ∃ q ∈ P 2 (k - 1), w = ![X 1 * q, -(X 0 * q)] := by
  have h1 : (X 1 : MvPolynomial ℕ ℝ) ∣ w 0 := by
    have : (X 1 : MvPolynomial ℕ ℝ) ∣ X 0 * w 0 := ⟨-w 1, by linear_combination h⟩
    rcases X_dvd_mul_iff.1 this with h | h
    · exact absurd (X_dvd_X.1 h) (by decide)
    · exact h
  obtain ⟨q, hq⟩ := h1
  refine ⟨q, X_cancel (i := 1) (by rw [← hq]; exact hw 0), ?_⟩
  have h2 : w 1 = -(X 0 * q) := X_mul_inj (i := 1) (by rw [hq] at h; linear_combination h)
  funext i
  fin_cases i
  · exact hq
  · exact h2

/-- Setting a variable to 0. -/
noncomputable def kill (i : ℕ) (p : MvPolynomial ℕ ℝ) : MvPolynomial ℕ ℝ := aeval (fun j => if j = i then 0 else X j) p

theorem kill_mem {d : ℕ} {k : ℤ} {i : ℕ} {p : MvPolynomial ℕ ℝ} (hp : p ∈ P d k) : kill i p ∈ P d k := by
  refine P_aeval (fun j hj => ?_) hp
  split_ifs
  · exact Submodule.zero_mem _
  · exact X_mem hj

theorem kill_last {d : ℕ} {k : ℤ} {p : MvPolynomial ℕ ℝ} (hp : p ∈ P (d + 1) k) : kill d p ∈ P d k := by
  refine P_aeval (fun j hj => ?_) hp
  split_ifs with h
  · exact Submodule.zero_mem _
  · exact X_mem (by omega)

theorem kill_dvd (i : ℕ) (p : MvPolynomial ℕ ℝ) : ∃ q, p = kill i p + X i * q := by
  obtain ⟨q, hq⟩ := dvd_sub_subst i 0 p
  refine ⟨q, ?_⟩
  rw [sub_zero] at hq
  rw [← hq]
  unfold kill
  ring

theorem perp3 {k : ℤ} {w : Fin 3 → MvPolynomial ℕ ℝ} (hw : ∀ i, w i ∈ P 3 k)
    (h : X 0 * w 0 + X 1 * w 1 + X 2 * w 2 = 0) :
    ∃ a ∈ P 3 (k - 1), ∃ b ∈ P 3 (k - 1), ∃ q ∈ P 2 (k - 1),
      w = ![X 2 * a, 0, -(X 0 * a)] + ![0, X 2 * b, -(X 1 * b)] + ![X 1 * q, -(X 0 * q), 0] := by
  have hk : X 0 * kill 2 (w 0) + X 1 * kill 2 (w 1) = 0 := by
    have := congrArg (kill 2) h
    simpa [kill] using this
  obtain ⟨q, hq, e⟩ := perp2 (k := k) (w := ![kill 2 (w 0), kill 2 (w 1)])
    (fun i => by fin_cases i; exacts [kill_last (hw 0), kill_last (hw 1)]) hk
  have e0 : kill 2 (w 0) = X 1 * q := congrFun e 0
  have e1 : kill 2 (w 1) = -(X 0 * q) := congrFun e 1
  obtain ⟨a, ha⟩ := kill_dvd 2 (w 0)
  obtain ⟨b, hb⟩ := kill_dvd 2 (w 1)
  have e2 : w 2 = -(X 0 * a) - X 1 * b := X_mul_inj (i := 2) (by
    rw [ha, hb, e0, e1] at h; linear_combination h)
  refine ⟨a, X_cancel (i := 2) ?_, b, X_cancel (i := 2) ?_, q, hq, ?_⟩
  · rw [show X 2 * a = w 0 - kill 2 (w 0) by linear_combination -ha]
    exact Submodule.sub_mem _ (hw 0) (kill_mem (hw 0))
  · rw [show X 2 * b = w 1 - kill 2 (w 1) by linear_combination -hb]
    exact Submodule.sub_mem _ (hw 1) (kill_mem (hw 1))
  · funext i
    fin_cases i
    · show w 0 = X 2 * a + 0 + X 1 * q
      rw [ha, e0]; ring
    · show w 1 = 0 + X 2 * b + -(X 0 * q)
      rw [hb, e1]; ring
    · show w 2 = -(X 0 * a) + -(X 1 * b) + 0
      rw [e2]; ring

/-- The members of `Hcurl_polynomials` in 2D. -/
theorem mem_hcurl2 {k : ℕ} {b : List VecPoly} (hb : hcurlSet 2 k = some b) (v : Fin 2 → MvPolynomial ℕ ℝ) :
    v ∈ b.map (denoteVec ℝ 2) ↔ ∃ m : Mono, m.length = 2 ∧ m.sum + 1 = k ∧
      v = ![X 1 * denoteMono ℝ m, -(X 0 * denoteMono ℝ m)] := by
  cases hb
  have key : ∀ j < k, denoteVec ℝ 2 [[(1, [k - 1 - j, j + 1])], [(-1, [k - j, j])]] =
      ![X 1 * denoteMono ℝ [k - 1 - j, j], -(X 0 * denoteMono ℝ [k - 1 - j, j])] := by
    intro j hj
    rw [show k - j = k - 1 - j + 1 by omega]
    funext i
    fin_cases i <;> simp [denoteVec, denotePoly, denoteMono, monoFrom, pow_succ] <;> ring
  simp only [List.map_map, List.mem_map, List.mem_range, Function.comp]
  constructor
  · rintro ⟨j, hj, rfl⟩
    exact ⟨[k - 1 - j, j], rfl, by simp; omega, key j hj⟩
  · rintro ⟨m, hl, hs, rfl⟩
    obtain ⟨a, b, rfl⟩ := List.length_eq_two.1 hl
    simp at hs
    refine ⟨b, by omega, ?_⟩
    rw [key b (by omega), show k - 1 - b = a by omega]

/-- The members of `Hcurl_polynomials` in 3D. -/
theorem mem_hcurl3 {k : ℕ} {b : List VecPoly} (hb : hcurlSet 3 k = some b) (v : Fin 3 → MvPolynomial ℕ ℝ) :
    v ∈ b.map (denoteVec ℝ 3) ↔ ∃ m : Mono, m.length = 3 ∧ m.sum + 1 = k ∧
      (v = ![X 2 * denoteMono ℝ m, 0, -(X 0 * denoteMono ℝ m)] ∨ v = ![0, X 2 * denoteMono ℝ m, -(X 1 * denoteMono ℝ m)] ∨
        (m.getD 2 0 = 0 ∧ v = ![X 1 * denoteMono ℝ m, -(X 0 * denoteMono ℝ m), 0])) := by
  cases hb
  have kA : ∀ n m, n + (m + 1) ≤ k → denoteVec ℝ 3 [[(1, [m + 1 - 1, n, k - (m + 1) - n + 1])], [], [(-1, [m + 1, n, k - (m + 1) - n])]] =
      ![X 2 * denoteMono ℝ [m, n, k - (m + 1) - n], 0, -(X 0 * denoteMono ℝ [m, n, k - (m + 1) - n])] := by
    intro n m _
    funext i
    fin_cases i <;> simp [denoteVec, denotePoly, denoteMono, monoFrom, pow_succ] <;> ring
  have kB : ∀ m n, m + (n + 1) ≤ k → denoteVec ℝ 3 [[], [(1, [m, n + 1 - 1, k - m - (n + 1) + 1])], [(-1, [m, n + 1, k - m - (n + 1)])]] =
      ![0, X 2 * denoteMono ℝ [m, n, k - m - (n + 1)], -(X 1 * denoteMono ℝ [m, n, k - m - (n + 1)])] := by
    intro n m _
    funext i
    fin_cases i <;> simp [denoteVec, denotePoly, denoteMono, monoFrom, pow_succ] <;> ring
  have kC : ∀ n, n + 1 ≤ k → denoteVec ℝ 3 [[(1, [k - (n + 1), n + 1, 0])], [(-1, [k + 1 - (n + 1), n + 1 - 1, 0])], []] =
      ![X 1 * denoteMono ℝ [k - (n + 1), n, 0], -(X 0 * denoteMono ℝ [k - (n + 1), n, 0]), 0] := by
    intro n h
    rw [show k + 1 - (n + 1) = k - (n + 1) + 1 by omega]
    funext i
    fin_cases i <;> simp [denoteVec, denotePoly, denoteMono, monoFrom, pow_succ] <;> ring
  simp only [List.map_append, List.mem_append, List.mem_map, List.mem_flatMap, List.mem_range, List.mem_range'_1]
  constructor
  · rintro ((⟨_, ⟨n, hn, m, hm, rfl⟩, rfl⟩ | ⟨_, ⟨m, hm, n, hn, rfl⟩, rfl⟩) | ⟨_, ⟨n, hn, rfl⟩, rfl⟩)
    · obtain ⟨m, rfl⟩ : ∃ m', m = m' + 1 := ⟨m - 1, by omega⟩
      exact ⟨[m, n, k - (m + 1) - n], rfl, by simp; omega, Or.inl (kA n m (by omega))⟩
    · obtain ⟨n, rfl⟩ : ∃ m', n = m' + 1 := ⟨n - 1, by omega⟩
      exact ⟨[m, n, k - m - (n + 1)], rfl, by simp; omega, Or.inr (Or.inl (kB m n (by omega)))⟩
    · obtain ⟨n, rfl⟩ : ∃ m', n = m' + 1 := ⟨n - 1, by omega⟩
      exact ⟨[k - (n + 1), n, 0], rfl, by simp; omega, Or.inr (Or.inr ⟨rfl, kC n (by omega)⟩)⟩
  · rintro ⟨m, hl, hs, h⟩
    obtain ⟨a, b, c, rfl⟩ := List.length_eq_three.1 hl
    simp at hs
    rcases h with rfl | rfl | ⟨h0, rfl⟩
    · left; left
      refine ⟨_, ⟨b, by omega, a + 1, by omega, rfl⟩, ?_⟩
      rw [kA b a (by omega), show k - (a + 1) - b = c by omega]
    · left; right
      refine ⟨_, ⟨a, by omega, b + 1, by omega, rfl⟩, ?_⟩
      rw [kB a b (by omega), show k - a - (b + 1) = c by omega]
    · right
      simp at h0
      subst h0
      refine ⟨_, ⟨b + 1, by omega, rfl⟩, ?_⟩
      rw [kC b (by omega), show k - (b + 1) = a by omega]

/-- The sum of a lower degree part and a field. -/
theorem n1_submodule (d : ℕ) (k : ℤ) : ∃ S : Submodule ℝ (Fin d → MvPolynomial ℕ ℝ), ∀ v, v ∈ S ↔ N1Space d k v := by
  refine ⟨PV d d k ⊓ (P d k).comap (∑ i : Fin d, LinearMap.mulLeft ℝ (X i.val) ∘ₗ LinearMap.proj i), fun v => ?_⟩
  rw [Submodule.mem_inf, mem_PV, Submodule.mem_comap, LinearMap.sum_apply]
  rfl

/-- The span of the polynomials of a Nédélec element of the first kind. -/
theorem n1_lspan {d : ℕ} (hd : d = 2 ∨ d = 3) (k : ℕ) {a b : List VecPoly} (ha : polySetVector d d ((k : ℤ) - 1) = some a)
    (hb : hcurlSet d k = some b) {v : Fin d → MvPolynomial ℕ ℝ} :
    v ∈ lspan ((a ++ b).map (denoteVec ℝ d)) ↔ N1Space d k v := by
  obtain ⟨a', h1, h2⟩ := polySetVector_lspan (d := d) (by omega) d ((k : ℤ) - 1)
  obtain rfl : a = a' := Option.some.inj (ha.symm.trans h1)
  rw [List.map_append, lspan_append, h2]
  have hlow : ∀ u ∈ PV d d ((k : ℤ) - 1), N1Space d k u := fun u hu =>
    ⟨fun i => P_mono (by omega) (mem_PV.1 hu i), Submodule.sum_mem _ fun i _ => by
      have := X_mul_mem i.2 (mem_PV.1 hu i)
      rwa [sub_add_cancel] at this⟩
  constructor
  · intro h
    obtain ⟨S, hS⟩ := n1_submodule d k
    rw [← hS]
    have hle : PV d d ((k : ℤ) - 1) ≤ S := fun u hu => (hS u).2 (hlow u hu)
    refine (sup_le hle ?_ : PV d d ((k : ℤ) - 1) ⊔ lspan (b.map (denoteVec ℝ d)) ≤ S) h
    rw [Submodule.span_le]
    intro w hw
    refine (hS w).2 ?_
    have hx : ∀ (i : ℕ) (hi : i < d) (m : Mono), m.length = d → m.sum + 1 = k → X i * denoteMono ℝ m ∈ P d k := by
      intro i hi m hl hs
      exact P_mono (by omega) (X_mul_mem hi (denoteMono_mem (k := m.sum) hl le_rfl))
    rcases hd with rfl | rfl
    · obtain ⟨m, hl, hs, rfl⟩ := (mem_hcurl2 hb w).1 hw
      refine ⟨fun i => ?_, ?_⟩
      · fin_cases i
        exacts [hx 1 (by omega) m hl hs, Submodule.neg_mem _ (hx 0 (by omega) m hl hs)]
      · rw [Fin.sum_univ_two]
        show X 0 * (X 1 * denoteMono ℝ m) + X 1 * (-(X 0 * denoteMono ℝ m)) ∈ _
        rw [show X 0 * (X 1 * denoteMono ℝ m) + X 1 * (-(X 0 * denoteMono ℝ m)) = 0 by ring]
        exact Submodule.zero_mem _
    · obtain ⟨m, hl, hs, h⟩ := (mem_hcurl3 hb w).1 hw
      have h0 := hx 0 (by omega) m hl hs
      have h1 := hx 1 (by omega) m hl hs
      have h2 := hx 2 (by omega) m hl hs
      have hz : (0 : MvPolynomial ℕ ℝ) ∈ P 3 k := Submodule.zero_mem _
      rcases h with rfl | rfl | ⟨-, rfl⟩ <;> refine ⟨fun i => ?_, ?_⟩
      · fin_cases i
        exacts [h2, hz, Submodule.neg_mem _ h0]
      · rw [Fin.sum_univ_three]
        show X 0 * (X 2 * denoteMono ℝ m) + X 1 * 0 + X 2 * (-(X 0 * denoteMono ℝ m)) ∈ _
        rw [show X 0 * (X 2 * denoteMono ℝ m) + X 1 * 0 + X 2 * (-(X 0 * denoteMono ℝ m)) = 0 by ring]
        exact hz
      · fin_cases i
        exacts [hz, h2, Submodule.neg_mem _ h1]
      · rw [Fin.sum_univ_three]
        show X 0 * 0 + X 1 * (X 2 * denoteMono ℝ m) + X 2 * (-(X 1 * denoteMono ℝ m)) ∈ _
        rw [show X 0 * 0 + X 1 * (X 2 * denoteMono ℝ m) + X 2 * (-(X 1 * denoteMono ℝ m)) = 0 by ring]
        exact hz
      · fin_cases i
        exacts [h1, Submodule.neg_mem _ h0, hz]
      · rw [Fin.sum_univ_three]
        show X 0 * (X 1 * denoteMono ℝ m) + X 1 * (-(X 0 * denoteMono ℝ m)) + X 2 * 0 ∈ _
        rw [show X 0 * (X 1 * denoteMono ℝ m) + X 1 * (-(X 0 * denoteMono ℝ m)) + X 2 * 0 = 0 by ring]
        exact hz
  · intro hv
    obtain ⟨u, hu, w, rfl, hw, h0⟩ := n1_split hv
    refine Submodule.add_mem _ (Submodule.mem_sup_left hu) ?_
    have hlow' : ∀ (i : ℕ) (hi : i < d) (m : Mono), m.length = d → (m.sum : ℤ) ≤ (k : ℤ) - 1 → m.sum + 1 ≠ k →
        X i * denoteMono ℝ m ∈ P d ((k : ℤ) - 1) := fun i hi m hl hs hne =>
      P_mono (by omega) (X_mul_mem hi (denoteMono_mem (k := m.sum) hl le_rfl))
    rcases hd with rfl | rfl
    · rw [Fin.sum_univ_two] at h0
      obtain ⟨q, hq, rfl⟩ := perp2 hw h0
      let f : MvPolynomial ℕ ℝ →ₗ[ℝ] (Fin 2 → MvPolynomial ℕ ℝ) :=
        LinearMap.pi ![LinearMap.mulLeft ℝ (X 1), LinearMap.mulLeft ℝ (-X 0 : MvPolynomial ℕ ℝ)]
      have e : ∀ p, f p = ![X 1 * p, -(X 0 * p)] := fun p => by funext i; fin_cases i <;> simp [f]
      rw [← e]
      refine P_le f _ (fun m hl hs => ?_) hq
      rw [e]
      by_cases he : m.sum + 1 = k
      · exact Submodule.mem_sup_right (mem_lspan ((mem_hcurl2 hb _).2 ⟨m, hl, he, rfl⟩))
      · refine Submodule.mem_sup_left (mem_PV.2 fun i => ?_)
        fin_cases i
        exacts [hlow' 1 (by omega) m hl hs he, Submodule.neg_mem _ (hlow' 0 (by omega) m hl hs he)]
    · rw [Fin.sum_univ_three] at h0
      obtain ⟨x, hx, y, hy, q, hq, rfl⟩ := perp3 hw h0
      have hz : (0 : MvPolynomial ℕ ℝ) ∈ P 3 ((k : ℤ) - 1) := Submodule.zero_mem _
      refine Submodule.add_mem _ (Submodule.add_mem _ ?_ ?_) ?_
      · let f : MvPolynomial ℕ ℝ →ₗ[ℝ] (Fin 3 → MvPolynomial ℕ ℝ) :=
          LinearMap.pi ![LinearMap.mulLeft ℝ (X 2), 0, LinearMap.mulLeft ℝ (-X 0 : MvPolynomial ℕ ℝ)]
        have e : ∀ p, f p = ![X 2 * p, 0, -(X 0 * p)] := fun p => by funext i; fin_cases i <;> simp [f]
        rw [← e]
        refine P_le f _ (fun m hl hs => ?_) hx
        rw [e]
        by_cases he : m.sum + 1 = k
        · exact Submodule.mem_sup_right (mem_lspan ((mem_hcurl3 hb _).2 ⟨m, hl, he, Or.inl rfl⟩))
        · refine Submodule.mem_sup_left (mem_PV.2 fun i => ?_)
          fin_cases i
          exacts [hlow' 2 (by omega) m hl hs he, hz, Submodule.neg_mem _ (hlow' 0 (by omega) m hl hs he)]
      · let f : MvPolynomial ℕ ℝ →ₗ[ℝ] (Fin 3 → MvPolynomial ℕ ℝ) :=
          LinearMap.pi ![0, LinearMap.mulLeft ℝ (X 2), LinearMap.mulLeft ℝ (-X 1 : MvPolynomial ℕ ℝ)]
        have e : ∀ p, f p = ![0, X 2 * p, -(X 1 * p)] := fun p => by funext i; fin_cases i <;> simp [f]
        rw [← e]
        refine P_le f _ (fun m hl hs => ?_) hy
        rw [e]
        by_cases he : m.sum + 1 = k
        · exact Submodule.mem_sup_right (mem_lspan ((mem_hcurl3 hb _).2 ⟨m, hl, he, Or.inr (Or.inl rfl)⟩))
        · refine Submodule.mem_sup_left (mem_PV.2 fun i => ?_)
          fin_cases i
          exacts [hz, hlow' 2 (by omega) m hl hs he, Submodule.neg_mem _ (hlow' 1 (by omega) m hl hs he)]
      · let f : MvPolynomial ℕ ℝ →ₗ[ℝ] (Fin 3 → MvPolynomial ℕ ℝ) :=
          LinearMap.pi ![LinearMap.mulLeft ℝ (X 1), LinearMap.mulLeft ℝ (-X 0 : MvPolynomial ℕ ℝ), 0]
        have e : ∀ p, f p = ![X 1 * p, -(X 0 * p), 0] := fun p => by funext i; fin_cases i <;> simp [f]
        rw [← e]
        refine P_le f _ (fun m hl hs => ?_) hq
        have em : denoteMono ℝ m = denoteMono ℝ (m ++ [0]) := by
          obtain ⟨a, b, rfl⟩ := List.length_eq_two.1 hl
          simp [denoteMono, monoFrom]
        rw [e, em]
        have hl' : (m ++ [0]).length = 3 := by simp [hl]
        have hs' : (m ++ [0]).sum = m.sum := by simp
        by_cases he : m.sum + 1 = k
        · refine Submodule.mem_sup_right (mem_lspan ((mem_hcurl3 hb _).2 ⟨m ++ [0], hl', by omega, Or.inr (Or.inr ⟨?_, rfl⟩)⟩))
          obtain ⟨a, b, rfl⟩ := List.length_eq_two.1 hl
          rfl
        · refine Submodule.mem_sup_left (mem_PV.2 fun i => ?_)
          fin_cases i
          exacts [hlow' 1 (by omega) _ hl' (by omega) (by omega), Submodule.neg_mem _ (hlow' 0 (by omega) _ hl' (by omega) (by omega)), hz]

end Verif.Families
