import Verif.Polysets.PropsVec
import Verif.Polysets.SerendipityModel
import Mathlib.Algebra.MvPolynomial.PDeriv
import Mathlib.RingTheory.Derivation.Lie
/-!
# Properties of the H(div) and H(curl) serendipity sets (C67, C68)
-/

namespace Verif.Polysets

open MvPolynomial

/-! ## Specification -/

/-- The divergence of a vector of polynomials. -/
noncomputable def divergence (K : Type) [CommRing K] {d : ℕ} (q : Fin d → MvPolynomial ℕ K) :
    MvPolynomial ℕ K := ∑ i : Fin d, pderiv (i : ℕ) (q i)

/-- The gradient of a polynomial in `d` variables. -/
noncomputable def gradient (K : Type) [CommRing K] (d : ℕ) (p : MvPolynomial ℕ K) :
    Fin d → MvPolynomial ℕ K := fun i => pderiv (i : ℕ) p

/-! ## Lemmas -/

theorem pderiv_monoFrom (K : Type) [CommRing K] (s i : ℕ) (m : Mono) :
    pderiv (s + i) (monoFrom K s m) =
      C ((m.getD i 0 : ℕ) : K) * monoFrom K s (m.set i (m.getD i 0 - 1)) := by
  induction m generalizing s i with
  | nil => simp [monoFrom]
  | cons a t ih =>
    have h0 : ∀ (s' : ℕ) (t : Mono), s < s' → pderiv s (monoFrom K s' t) = 0 := by
      intro s' t
      induction t generalizing s' with
      | nil => intro _; simp [monoFrom]
      | cons b t ih' =>
        intro h
        have hX : pderiv s (X s' : MvPolynomial ℕ K) = 0 := pderiv_X_of_ne (by omega)
        simp [monoFrom, ih' _ (Nat.lt_succ_of_lt h), hX]
    cases i with
    | zero =>
      simp only [monoFrom, add_zero, Derivation.leibniz, smul_eq_mul, h0 _ _ (Nat.lt_succ_self s),
        pderiv_pow, pderiv_X_self]
      simp [monoFrom]
      ring
    | succ i =>
      have hX : pderiv (s + (i + 1)) (X s : MvPolynomial ℕ K) = 0 := pderiv_X_of_ne (by omega)
      have h := ih (s + 1) i
      rw [show s + 1 + i = s + (i + 1) by omega] at h
      simp only [monoFrom, Derivation.leibniz, smul_eq_mul, h, pderiv_pow, hX]
      simp [monoFrom]
      ring

theorem denotePoly_diff (K : Type) [CommRing K] (i : ℕ) (p : Poly) :
    denotePoly K (diffPoly i p) = pderiv i (denotePoly K p) := by
  unfold denotePoly diffPoly
  induction p with
  | nil => simp
  | cons t p ih =>
    simp only [List.map_cons, List.sum_cons, map_add]
    rw [ih]
    congr 1
    have := pderiv_monoFrom K 0 i t.2
    rw [zero_add] at this
    simp only [denoteMono, pderiv_C_mul, this, diffTerm]
    push_cast
    rw [C_mul]
    ring

theorem denotePoly_neg (K : Type) [CommRing K] (p : Poly) :
    denotePoly K (negPoly p) = - denotePoly K p := by
  unfold denotePoly negPoly
  induction p with
  | nil => simp
  | cons t p ih =>
    simp only [List.map_cons, List.sum_cons] at ih ⊢
    rw [ih]; simp; ring

theorem denotePoly_append (K : Type) [CommRing K] (p q : Poly) :
    denotePoly K (p ++ q) = denotePoly K p + denotePoly K q := by
  simp [denotePoly]

theorem pderiv_comm (K : Type) [CommRing K] (i j : ℕ) (p : MvPolynomial ℕ K) :
    pderiv i (pderiv j p) = pderiv j (pderiv i p) := by
  have h : ⁅(pderiv i : Derivation K (MvPolynomial ℕ K) (MvPolynomial ℕ K)),
      (pderiv j : Derivation K (MvPolynomial ℕ K) (MvPolynomial ℕ K))⁆ = 0 := by
    apply MvPolynomial.derivation_ext
    intro k
    rw [Derivation.commutator_apply]
    simp only [pderiv_X]
    have key : ∀ a b : ℕ, (pderiv b : Derivation K _ _) ((Pi.single a 1 : ℕ → MvPolynomial ℕ K) k) = 0 := by
      intro a b
      rw [Pi.single_apply]
      split <;> simp
    rw [key, key, sub_zero]
    rfl
  have := congrArg (fun D => D p) h
  simp only [Derivation.commutator_apply, Derivation.zero_apply] at this
  exact sub_eq_zero.1 this

/-- The model's divergence is the divergence. -/
theorem denote_divVec (K : Type) [CommRing K] (a b c : Poly) :
    denotePoly K (divVec [a, b, c]) = divergence K (denoteVec K 3 [a, b, c]) := by
  simp [divVec, divergence, Fin.sum_univ_three, denoteVec, denotePoly_append, denotePoly_diff,
    List.zipIdx]
  ring

/-- The divergence of a curl vanishes. -/
theorem divergence_curl (K : Type) [CommRing K] (v : VecPoly) :
    divergence K (denoteVec K 3 (curlVec v)) = 0 := by
  simp only [divergence, Fin.sum_univ_three, denoteVec, curlVec]
  simp only [Fin.isValue, Fin.val_zero, Fin.val_one, Fin.val_two, List.getElem?_cons_zero,
    List.getElem?_cons_succ, Option.getD_some, denotePoly_append, denotePoly_neg, denotePoly_diff,
    map_add, map_neg]
  rw [pderiv_comm K 0 1, pderiv_comm K 0 2, pderiv_comm K 1 2]
  ring

theorem denote_gradPoly (K : Type) [CommRing K] (d : ℕ) (p : Poly) :
    denoteVec K d (gradPoly d p) = gradient K d (denotePoly K p) := by
  funext i
  simp [denoteVec, gradPoly, gradient, denotePoly_diff]

/-! ## C67: H(div) serendipity -/

/-- **C67, 3D.** Every member of `Hdiv_serendipity(3, 3, k)` is divergence free. -/
theorem hdivSer_divergence_free_3d_partial (K : Type) [CommRing K] (order : ℕ) :
    ∃ l, hdivSerSet 3 order = some l ∧ l ≠ [] ∧
      ∀ v ∈ l, divergence K (denoteVec K 3 v) = 0 := by
  refine ⟨_, rfl, ?_, ?_⟩
  · simp only [ne_eq, List.map_eq_nil_iff, hdivSerPotentials]
    split
    · simp
    · simp [List.range_succ]
  · intro v hv
    obtain ⟨w, _, rfl⟩ := List.mem_map.1 hv
    exact divergence_curl K w

/-- **C67 fails in 2D.** No member of `Hdiv_serendipity(2, 2, k)` is divergence free: the divergences
are `2 (k+1) x^k` and `2 (k+1) y^k`. (The code has the sign of a gradient-like vector where the curl
of `x^(k+1) y` would have the opposite sign.) -/
theorem hdivSer_2d_not_divergence_free (K : Type) [Field K] [CharZero K] (order : ℕ) :
    ∃ v w, hdivSerSet 2 order = some [v, w] ∧
      divergence K (denoteVec K 2 v) = C (2 * ((order : K) + 1)) * X 0 ^ order ∧
      divergence K (denoteVec K 2 w) = C (2 * ((order : K) + 1)) * X 1 ^ order ∧
      divergence K (denoteVec K 2 v) ≠ 0 ∧ divergence K (denoteVec K 2 w) ≠ 0 := by
  have hX : pderiv 1 (X 0 : MvPolynomial ℕ K) = 0 := pderiv_X_of_ne (by omega)
  have hX' : pderiv 0 (X 1 : MvPolynomial ℕ K) = 0 := pderiv_X_of_ne (by omega)
  have h1 : divergence K (denoteVec K 2 [[(1, [order + 1, 0])], [((order : ℤ) + 1, [order, 1])]]) =
      C (2 * ((order : K) + 1)) * X 0 ^ order := by
    simp [divergence, Fin.sum_univ_two, denoteVec, denotePoly, denoteMono, monoFrom, hX]
    rw [show (C 2 : MvPolynomial ℕ K) = 2 from map_ofNat C 2]
    ring
  have h2 : divergence K (denoteVec K 2 [[((order : ℤ) + 1, [1, order])], [(1, [0, order + 1])]]) =
      C (2 * ((order : K) + 1)) * X 1 ^ order := by
    simp [divergence, Fin.sum_univ_two, denoteVec, denotePoly, denoteMono, monoFrom, hX']
    rw [show (C 2 : MvPolynomial ℕ K) = 2 from map_ofNat C 2]
    ring
  have hne : ∀ i : ℕ, C (2 * ((order : K) + 1)) * (X i : MvPolynomial ℕ K) ^ order ≠ 0 := by
    intro i
    refine mul_ne_zero ?_ (pow_ne_zero _ (X_ne_zero i))
    rw [Ne, C_eq_zero]
    have : ((order : K) + 1) ≠ 0 := by exact_mod_cast Nat.succ_ne_zero order
    exact mul_ne_zero two_ne_zero this
  exact ⟨_, _, rfl, h1, h2, h1 ▸ hne 0, h2 ▸ hne 1⟩

/-! ## C68: H(curl) serendipity contains the gradients -/

/-- The span of a list of model vectors. -/
noncomputable def spanOf (K : Type) [Field K] (d : ℕ) (l : List VecPoly) :
    Submodule K (Fin d → MvPolynomial ℕ K) :=
  Submodule.span K {q | q ∈ l.map (denoteVec K d)}

/-- **C68, 3D.** The gradient of every member of the scalar serendipity list of order `k + 1` lies in
the span of the H(curl) serendipity list of order `k`. -/
theorem hcurlSer_contains_gradients_3d_partial (K : Type) [Field K] [CharZero K] (order : ℕ) :
    ∃ s l l', polySet 3 ((order : ℤ) + 1) = some s ∧ polySetVector 3 3 order = some l ∧
      hcurlSerSet 3 order = some l' ∧
      ∀ m ∈ s ++ serSet 3 (order + 1),
        gradient K 3 (denoteMono K m) ∈ spanOf K 3 (l ++ l') := by
  obtain ⟨s, hs, -, hsm⟩ := polySet_spec 3 (by omega) ((order : ℤ) + 1)
  obtain ⟨ps, hl, -, hpm⟩ := polySetVector_eq (dim := 3) (r := 3) (by omega)
    (order := (order : ℤ)) rfl
  refine ⟨s, _, _, hs, rfl, rfl, ?_⟩
  intro m hm
  rw [hl]
  rw [List.mem_append] at hm
  rcases hm with hm | hm
  · -- a polynomial of degree at most `order + 1`: each component is a multiple of a monomial
    obtain ⟨hlen, hsum⟩ := (hsm m).1 hm
    have hcomp : ∀ i : Fin 3, (Pi.single i (gradient K 3 (denoteMono K m) i) :
        Fin 3 → MvPolynomial ℕ K) ∈ spanOf K 3 (vectorSet 3 ps ++
          (hcurlSerFirst order ++ (serSet 3 (order + 1)).map fun p => gradPoly 3 (monoPoly p))) := by
      intro i
      have hp := pderiv_monoFrom K 0 (i : ℕ) m
      rw [zero_add] at hp
      simp only [gradient, denoteMono, hp]
      by_cases h0 : m.getD i 0 = 0
      · rw [h0]
        simp
      · have hin : m.set i (m.getD i 0 - 1) ∈ ps := by
          rw [hpm]
          refine ⟨by simpa using hlen, ?_⟩
          obtain ⟨a, b, c, rfl⟩ := List.length_eq_three.1 hlen
          fin_cases i <;> simp at h0 hsum ⊢ <;> omega
        have hmem : (Pi.single i (monoFrom K 0 (m.set i (m.getD i 0 - 1))) :
            Fin 3 → MvPolynomial ℕ K) ∈ spanOf K 3 (vectorSet 3 ps ++
              (hcurlSerFirst order ++
                (serSet 3 (order + 1)).map fun p => gradPoly 3 (monoPoly p))) := by
          apply Submodule.subset_span
          simp only [Set.mem_ofPred_eq, List.map_append, List.mem_append]
          left
          rw [vectorSet_spec]
          simp only [List.mem_flatMap, List.mem_map]
          exact ⟨_, hin, i, List.mem_finRange i, rfl⟩
        have := Submodule.smul_mem _ ((m.getD i 0 : ℕ) : K) hmem
        rw [← Pi.single_smul, smul_eq_C_mul] at this
        exact this
    have hsumv : gradient K 3 (denoteMono K m) =
        ∑ i : Fin 3, Pi.single i (gradient K 3 (denoteMono K m) i) := by
      rw [Finset.univ_sum_single]
    rw [hsumv]
    exact Submodule.sum_mem _ fun i _ => hcomp i
  · apply Submodule.subset_span
    simp only [Set.mem_ofPred_eq, List.map_append, List.mem_append]
    right; right
    rw [List.map_map, List.mem_map]
    exact ⟨m, hm, by
      rw [Function.comp_apply, denote_gradPoly, denotePoly_monoPoly]⟩

/-- **C68 fails in 2D.** For every order `k ≥ 1` the gradient of the scalar serendipity function
`x^(k+1) y` of order `k + 1` is not in the span of the H(curl) serendipity list of order `k`. -/
theorem hcurlSer_2d_misses_gradient (K : Type) [Field K] [CharZero K] (order : ℕ) (h : 1 ≤ order) :
    ∃ l l', polySetVector 2 2 order = some l ∧ hcurlSerSet 2 order = some l' ∧
      [order + 1, 1] ∈ serSet 2 (order + 1) ∧
      gradient K 2 (denoteMono K [order + 1, 1]) ∉ spanOf K 2 (l ++ l') := by
  obtain ⟨ps, hl, -, hpm⟩ := polySetVector_eq (dim := 2) (r := 2) (by omega)
    (order := (order : ℤ)) rfl
  refine ⟨_, _, rfl, rfl, ?_, ?_⟩
  · rw [mem_serSet (by omega)]
    have hne : order ≠ 0 := by omega
    simp [superlinearDegree, hne]
  · rw [hl]
    -- a functional that vanishes on the span but not on the gradient
    let φ : (Fin 2 → MvPolynomial ℕ K) →ₗ[K] K :=
      ((order : K) + 1) • ((lcoeff K (expo 0 [order + 1, 0])) ∘ₗ LinearMap.proj (1 : Fin 2)) +
        ((lcoeff K (expo 0 [order, 1])) ∘ₗ LinearMap.proj (0 : Fin 2))
    have hφ : ∀ q, φ q = ((order : K) + 1) * coeff (expo 0 [order + 1, 0]) (q 1) +
        coeff (expo 0 [order, 1]) (q 0) := fun q => rfl
    intro hmem
    have hker : spanOf K 2 (vectorSet 2 ps ++
        [[[((order : ℤ) + 1, [order, 1])], [(-1, [order + 1, 0])]],
          [[(1, [0, order + 1])], [((order : ℤ) + 1, [1, order])]]]) ≤ LinearMap.ker φ := by
      apply Submodule.span_le.2
      intro q hq
      simp only [Set.mem_ofPred_eq, List.map_append, List.mem_append] at hq
      rw [SetLike.mem_coe, LinearMap.mem_ker, hφ]
      rcases hq with hq | hq
      · rw [vectorSet_spec] at hq
        simp only [List.mem_flatMap, List.mem_map] at hq
        obtain ⟨m, hm, i, -, rfl⟩ := hq
        obtain ⟨hlen, hsum⟩ := (hpm m).1 hm
        have h1 : coeff (expo 0 [order + 1, 0]) (denoteMono K m) = 0 := by
          rw [coeff_denoteMono K (by simpa using hlen), if_neg]
          rintro rfl; simp at hsum
        have h2 : coeff (expo 0 [order, 1]) (denoteMono K m) = 0 := by
          rw [coeff_denoteMono K (by simpa using hlen), if_neg]
          rintro rfl; simp at hsum
        fin_cases i <;> simp [h1, h2]
      · simp only [List.map_cons, List.map_nil, List.mem_cons, List.not_mem_nil, or_false] at hq
        rcases hq with rfl | rfl
        · simp only [denoteVec, Fin.val_zero, Fin.val_one, List.getElem?_cons_zero,
            List.getElem?_cons_succ, Option.getD_some]
          rw [coeff_denotePoly K (by simp), coeff_denotePoly K (by simp)]
          simp [termCoeff]
        · simp only [denoteVec, Fin.val_zero, Fin.val_one, List.getElem?_cons_zero,
            List.getElem?_cons_succ, Option.getD_some]
          rw [coeff_denotePoly K (by simp), coeff_denotePoly K (by simp)]
          have e1 : ¬ (0 = order) := by omega
          have e2 : ¬ (order = 0) := by omega
          simp [termCoeff, e1, e2]
    have hz := LinearMap.mem_ker.1 (hker hmem)
    rw [hφ] at hz
    have g0 := pderiv_monoFrom K 0 0 [order + 1, 1]
    have g1 := pderiv_monoFrom K 0 1 [order + 1, 1]
    rw [zero_add] at g0 g1
    simp only [gradient, denoteMono, Fin.val_zero, Fin.val_one, g0, g1] at hz
    simp only [coeff_C_mul] at hz
    have c0 := coeff_denoteMono K (m := [order, 1]) (m' := [order, 1]) rfl
    have c1 := coeff_denoteMono K (m := [order + 1, 0]) (m' := [order + 1, 0]) rfl
    simp only [denoteMono, if_true] at c0 c1
    simp [c0, c1] at hz
    have : ((order : K) + 1) ≠ 0 := by exact_mod_cast Nat.succ_ne_zero order
    exact this hz

example : hdivSerSet 2 1 = some
    [[[(1, [2, 0])], [(2, [1, 1])]], [[(2, [1, 1])], [(1, [0, 2])]]] := by decide
example : (hcurlSerSet 3 1).map List.length = some 12 := by decide

end Verif.Polysets
