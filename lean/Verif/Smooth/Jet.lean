import Verif.Scalar.Simplex
import Mathlib.Algebra.MvPolynomial.PDeriv
import Mathlib.Data.Nat.Factorial.Basic
/-!
# Point evaluations of derivatives

`DerivativePointEvaluation`, `PointDirectionalDerivativeEvaluation` and `PointComponentSecondDerivativeEvaluation`
(symfem/functionals.py:377-480, 480-600, 606-675) applied to polynomials, their values on monomials, and a criterion for sets of
functionals to determine the polynomials of a space: the matrix of the values has a left inverse.
-/

namespace Verif.Smooth
open Verif.References Verif.Moments Verif.Functionals Verif.Elements Verif.FiniteElement Verif.Polysets Verif.Orthogonal
open Verif.Families Verif.Scalar
open MvPolynomial

/-! ### Model -/

/-- `for i, j in zip(x, self.derivative): for k in range(j): function = function.diff(i)` (symfem/functionals.py:411-413), from the
variable with number `i` on. -/
noncomputable def multiDeriv : List ℕ → ℕ → (MvPolynomial ℕ ℝ →ₗ[ℝ] MvPolynomial ℕ ℝ)
  | [], _ => LinearMap.id
  | j :: s, i => multiDeriv s (i + 1) ∘ₗ (pderiv (R := ℝ) i).toLinearMap ^ j

/-- `DerivativePointEvaluation(reference, point, derivative, entity, mapping)` (symfem/functionals.py:377-414). -/
noncomputable def derivDof (p : ℕ → ℝ) (s : List ℕ) (e : ℕ × ℕ) (mapping : Option String) : Dof ℝ (MvPolynomial ℕ ℝ) :=
  ⟨2, e, mapping, (aeval p).toLinearMap ∘ₗ multiDeriv s 0⟩

/-- `ScalarFunction.directional_derivative` (symfem/functions.py:553-568): the sum over `zip(x, direction)`. -/
noncomputable def directional (d : ℕ) (dir : ℕ → ℝ) : MvPolynomial ℕ ℝ →ₗ[ℝ] MvPolynomial ℕ ℝ :=
  ∑ i ∈ Finset.range d, dir i • (pderiv (R := ℝ) i).toLinearMap

/-- `PointDirectionalDerivativeEvaluation(reference, point, direction, entity)` in `d` coordinates
(symfem/functionals.py:477-514). -/
noncomputable def directionalDof (d : ℕ) (p dir : ℕ → ℝ) (e : ℕ × ℕ) : Dof ℝ (MvPolynomial ℕ ℝ) :=
  ⟨3, e, some "identity", (aeval p).toLinearMap ∘ₗ directional d dir⟩

/-- `PointComponentSecondDerivativeEvaluation(reference, point, (i, j), entity)` (symfem/functionals.py:606-641). -/
noncomputable def secondDof (p : ℕ → ℝ) (i j : ℕ) (e : ℕ × ℕ) : Dof ℝ (MvPolynomial ℕ ℝ) :=
  ⟨5, e, some "identity", (aeval p).toLinearMap ∘ₗ (pderiv (R := ℝ) j).toLinearMap ∘ₗ (pderiv (R := ℝ) i).toLinearMap⟩

/-! ### Values on monomials -/

/-- The value of a derivative of a monomial at a point. -/
def monoVal : List ℕ → List ℚ → List ℕ → ℚ
  | s, _, [] => if s.all (· = 0) then 1 else 0
  | s, p, a :: m => (a.descFactorial (s.headD 0) : ℚ) * p.headD 0 ^ (a - s.headD 0) * monoVal s.tail p.tail m

/-- The point with these coordinates. -/
noncomputable def pt (p : List ℚ) (i : ℕ) : ℝ := ((p.getD i 0 : ℚ) : ℝ)

theorem multiDeriv_mul {s : List ℕ} {i : ℕ} {g : MvPolynomial ℕ ℝ} (hg : ∀ l, i ≤ l → pderiv l g = 0) (r : MvPolynomial ℕ ℝ) :
    multiDeriv s i (g * r) = g * multiDeriv s i r := by
  induction s generalizing i r with
  | nil => rfl
  | cons j s ih =>
    have h1 : ∀ j r, ((pderiv (R := ℝ) i).toLinearMap ^ j) (g * r) = g * ((pderiv (R := ℝ) i).toLinearMap ^ j) r := by
      intro j
      induction j with
      | zero => intro r; rfl
      | succ j ihj =>
        intro r
        rw [pow_succ, Module.End.mul_apply, Module.End.mul_apply]
        have : (pderiv (R := ℝ) i).toLinearMap (g * r) = g * (pderiv (R := ℝ) i).toLinearMap r := by
          show pderiv i (g * r) = g * pderiv i r
          rw [Derivation.leibniz, hg i le_rfl, smul_zero, add_zero, smul_eq_mul]
        rw [this, ihj]
    show multiDeriv s (i + 1) (((pderiv (R := ℝ) i).toLinearMap ^ j) (g * r)) = _
    rw [h1, ih fun l hl => hg l (by omega)]
    rfl

theorem pderiv_pow_X (i j a : ℕ) {r : MvPolynomial ℕ ℝ} (hr : pderiv i r = 0) :
    ((pderiv (R := ℝ) i).toLinearMap ^ j) (X i ^ a * r) = C (a.descFactorial j : ℝ) * X i ^ (a - j) * r := by
  induction j with
  | zero => simp
  | succ j ih =>
    rw [pow_succ', Module.End.mul_apply, ih]
    show pderiv i (C (a.descFactorial j : ℝ) * X i ^ (a - j) * r) = _
    rw [Derivation.leibniz, hr, smul_zero, zero_add, Derivation.leibniz, pderiv_C, smul_zero, add_zero, Derivation.leibniz_pow, pderiv_X_self,
      Nat.descFactorial_succ]
    simp only [smul_eq_mul, nsmul_eq_mul, mul_one, Nat.cast_mul, map_mul, map_natCast]
    rw [show a - (j + 1) = a - j - 1 by omega]
    ring

theorem multiDeriv_zero {s : List ℕ} {i : ℕ} {g : MvPolynomial ℕ ℝ} (hg : ∀ l, i ≤ l → pderiv l g = 0) :
    multiDeriv s i g = if s.all (· = 0) then g else 0 := by
  have h1 := multiDeriv_mul (s := s) hg 1
  rw [mul_one] at h1
  rw [h1]
  clear h1 hg
  induction s generalizing i with
  | nil => simp [multiDeriv]
  | cons j s ih =>
    show g * multiDeriv s (i + 1) (((pderiv (R := ℝ) i).toLinearMap ^ j) 1) = _
    rcases j with _ | j
    · rw [pow_zero, Module.End.one_apply, ih]
      simp
    · rw [pow_succ, Module.End.mul_apply]
      have : (pderiv (R := ℝ) i).toLinearMap 1 = 0 := Derivation.map_one_eq_zero _
      rw [this, map_zero, map_zero, mul_zero]
      simp

theorem monoFrom_pderiv (m : List ℕ) {i l : ℕ} (h : l < i) : pderiv l (monoFrom ℝ i m) = 0 := by
  induction m generalizing i with
  | nil => simp [monoFrom]
  | cons a m ih =>
    rw [monoFrom, Derivation.leibniz, ih (by omega), smul_zero, zero_add, Derivation.leibniz_pow, pderiv_X_of_ne (by omega)]
    simp

theorem eval_multiDeriv_mono (s : List ℕ) (p : List ℚ) (m : List ℕ) (i : ℕ) (q : ℕ → ℝ) (hq : ∀ k, q (i + k) = pt p k) :
    eval q (multiDeriv s i (monoFrom ℝ i m)) = (monoVal s p m : ℝ) := by
  induction m generalizing s p i with
  | nil =>
    rw [monoFrom, multiDeriv_zero fun l _ => by simp, monoVal]
    split_ifs <;> simp
  | cons a m ih =>
    have hp : p.headD 0 = p.getD 0 0 := by cases p <;> rfl
    have hs : multiDeriv s i (monoFrom ℝ i (a :: m)) =
        multiDeriv s.tail (i + 1) (((pderiv (R := ℝ) i).toLinearMap ^ s.headD 0) (X i ^ a * monoFrom ℝ (i + 1) m)) := by
      cases s <;> rfl
    rw [hs, pderiv_pow_X _ _ _ (monoFrom_pderiv m (by omega)), multiDeriv_mul fun l hl => by
      rw [Derivation.leibniz, Derivation.leibniz_pow, pderiv_X_of_ne (by omega), pderiv_C]; simp]
    rw [map_mul, ih s.tail p.tail (i + 1) fun k => by
      rw [show i + 1 + k = i + (k + 1) by ring, hq, pt, pt]; cases p <;> rfl]
    have h0 := hq 0
    rw [add_zero, pt] at h0
    rw [monoVal, map_mul, eval_C, map_pow, eval_X, h0, hp]
    push_cast
    ring

/-! ### Functionals with rational data -/

/-- A sum of derivatives at points, with weights. -/
abbrev Jet := List (ℚ × List ℕ × List ℚ)

/-- Its value on polynomials. -/
noncomputable def jetMap (g : Jet) : MvPolynomial ℕ ℝ →ₗ[ℝ] ℝ :=
  (g.map fun t => (t.1 : ℝ) • (aeval (pt t.2.2)).toLinearMap ∘ₗ multiDeriv t.2.1 0).sum

theorem jetMap_apply (g : Jet) (f : MvPolynomial ℕ ℝ) :
    jetMap g f = (g.map fun t => (t.1 : ℝ) * eval (pt t.2.2) (multiDeriv t.2.1 0 f)).sum := by
  induction g with
  | nil => simp [jetMap]
  | cons t g ih =>
    rw [jetMap, List.map_cons, List.sum_cons, LinearMap.add_apply, List.map_cons, List.sum_cons, ← ih]
    rfl

/-- The value on a polynomial that is given by its terms. -/
def jetVal (g : Jet) (p : Poly) : ℚ :=
  (g.map fun t => t.1 * (p.map fun u => (u.1 : ℚ) * monoVal t.2.1 t.2.2 u.2).sum).sum

theorem jetMap_poly (g : Jet) (p : Poly) : jetMap g (denotePoly ℝ p) = (jetVal g p : ℝ) := by
  rw [jetMap_apply, jetVal]
  have h : ∀ t : ℚ × List ℕ × List ℚ, eval (pt t.2.2) (multiDeriv t.2.1 0 (denotePoly ℝ p)) =
      (((p.map fun u => (u.1 : ℚ) * monoVal t.2.1 t.2.2 u.2).sum : ℚ) : ℝ) := by
    intro t
    rw [denotePoly]
    induction p with
    | nil => simp
    | cons u p ih =>
      rw [List.map_cons, List.sum_cons, map_add, map_add, ih, List.map_cons, List.sum_cons, ← smul_eq_C_mul, map_smul, smul_eval, denoteMono,
        eval_multiDeriv_mono _ t.2.2 _ _ _ fun k => by rw [zero_add]]
      push_cast
      ring
  induction g with
  | nil => simp
  | cons t g ih =>
    rw [List.map_cons, List.sum_cons, ih, h, List.map_cons, List.sum_cons]
    push_cast
    ring

/-! ### The criterion -/

/-- The sum of products. -/
def dotp : List ℚ → List ℚ → ℚ
  | a :: l, b :: m => a * b + dotp l m
  | _, _ => 0

/-- `N` is a left inverse of the matrix of the values of the functionals. -/
def leftInverse (B : List Poly) (G : List Jet) (N : List (List ℚ)) : Bool :=
  decide (∀ k < B.length, ∀ i < B.length, dotp (N.getD i []) (G.map fun g => jetVal g (B.getD k [])) = if i = k then 1 else 0)

theorem dotp_cast (n : List ℚ) (G : List Jet) (p : Poly) :
    ((dotp n (G.map fun g => jetVal g p) : ℚ) : ℝ) = ∑ j ∈ Finset.range G.length, ((n.getD j 0 : ℚ) : ℝ) * jetMap (G.getD j []) (denotePoly ℝ p) := by
  induction G generalizing n with
  | nil => cases n <;> simp [dotp]
  | cons g G ih =>
    cases n with
    | nil => simp [dotp]
    | cons a n =>
      rw [List.map_cons, dotp, List.length_cons, Finset.sum_range_succ']
      simp only [List.getD_cons_succ, List.getD_cons_zero]
      rw [← ih, jetMap_poly]
      push_cast
      ring

theorem certified {B : List Poly} {G : List Jet} (N : List (List ℚ)) (h : leftInverse B G N = true) :
    Independent ℝ (B.map (denotePoly ℝ)) ∧
      ∀ f ∈ lspan (B.map (denotePoly ℝ)), (∀ g ∈ G, jetMap g f = 0) → f = 0 := by
  have hlen : (B.map (denotePoly ℝ)).length = B.length := List.length_map ..
  have key : ∀ cf : Fin (B.map (denotePoly ℝ)).length → ℝ, (∀ g ∈ G, jetMap g (∑ k, cf k • (B.map (denotePoly ℝ))[k]) = 0) → ∀ k, cf k = 0 := by
    intro cf hz i
    have h1 : ∀ j ∈ Finset.range G.length, ((((N.getD i []).getD j 0 : ℚ)) : ℝ) * jetMap (G.getD j []) (∑ k, cf k • (B.map (denotePoly ℝ))[k]) = 0 := by
      intro j hj
      have hj' := Finset.mem_range.1 hj
      rw [List.getD_eq_getElem _ _ hj', hz _ (List.getElem_mem _), mul_zero]
    have h2 := Finset.sum_eq_zero h1
    simp only [map_sum, map_smul, smul_eq_mul, Finset.mul_sum] at h2
    rw [Finset.sum_comm] at h2
    have h3 : ∀ k : Fin (B.map (denotePoly ℝ)).length, ∑ j ∈ Finset.range G.length,
        ((((N.getD i []).getD j 0 : ℚ)) : ℝ) * (cf k * jetMap (G.getD j []) (B.map (denotePoly ℝ))[k]) = if i = k then cf k else 0 := by
      intro k
      have hk : k.val < B.length := by rw [← hlen]; exact k.2
      have hi : i.val < B.length := by rw [← hlen]; exact i.2
      have h4 := dotp_cast (N.getD i []) G (B.getD k [])
      rw [of_decide_eq_true h k.val hk i.val hi, List.getD_eq_getElem _ _ hk] at h4
      have h5 : (B.map (denotePoly ℝ))[k] = denotePoly ℝ B[k.val] := List.getElem_map ..
      have h6 : ∀ j, ((((N.getD i []).getD j 0 : ℚ)) : ℝ) * (cf k * jetMap (G.getD j []) (B.map (denotePoly ℝ))[k]) =
          cf k * (((((N.getD i []).getD j 0 : ℚ)) : ℝ) * jetMap (G.getD j []) (denotePoly ℝ B[k.val])) := fun j => by rw [h5]; ring
      simp only [h6]
      rw [← Finset.mul_sum, ← h4]
      by_cases hik : i = k
      · rw [if_pos hik, if_pos (congrArg Fin.val hik)]; simp
      · rw [if_neg hik, if_neg fun hv => hik (Fin.ext hv)]; simp
    rw [Finset.sum_congr rfl fun k _ => h3 k] at h2
    simpa using h2
  refine ⟨Fintype.linearIndependent_iff.2 fun cf h0 k => key cf (fun g _ => ?_) k, fun f hf hz => ?_⟩
  · have : ∑ k, cf k • (B.map (denotePoly ℝ))[k] = 0 := h0
    rw [this, map_zero]
  · have hr : {p | p ∈ B.map (denotePoly ℝ)} = Set.range fun i : Fin (B.map (denotePoly ℝ)).length => (B.map (denotePoly ℝ))[i] := by
      ext x
      simp only [Set.mem_ofPred_eq, Set.mem_range]
      exact ⟨fun hx => by obtain ⟨i, hi, rfl⟩ := List.getElem_of_mem hx; exact ⟨⟨i, hi⟩, rfl⟩, by rintro ⟨i, rfl⟩; exact List.getElem_mem _⟩
    have hf' : f ∈ Submodule.span ℝ {p | p ∈ B.map (denotePoly ℝ)} := hf
    rw [hr, Submodule.mem_span_range_iff_exists_fun] at hf'
    obtain ⟨cf, rfl⟩ := hf'
    have := key cf hz
    exact Finset.sum_eq_zero fun k _ => by rw [this k, zero_smul]

end Verif.Smooth
