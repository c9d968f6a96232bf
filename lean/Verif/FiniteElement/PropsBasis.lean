import Verif.FiniteElement.Model
import Mathlib.LinearAlgebra.LinearIndependent.Basic
import Mathlib.LinearAlgebra.Matrix.ToLinearEquiv
import Mathlib.Algebra.BigOperators.Fin
import Mathlib.Data.Rat.Defs
import Mathlib.Tactic.FinCases
/-!
# Duality and span of the basis functions (C47, C48)
-/

set_option linter.unusedSectionVars false

namespace Verif.FiniteElement
open scoped Classical

variable {K V : Type} [Field K] [AddCommGroup V] [Module K V]

theorem foldl_combine (l : List (K × V)) (a : V) :
    l.foldl (fun sf cd => sf + cd.1 • cd.2) a = a + (l.map fun cd => cd.1 • cd.2).sum := by
  induction l generalizing a with
  | nil => simp
  | cons h t ih => simp [ih, add_assoc]

theorem combine_finRange {n : ℕ} (hn : n ≠ 0) (c : Fin n → K) (p : Fin n → V) :
    combine ((List.finRange n).map c) ((List.finRange n).map p) = some (∑ k, c k • p k) := by
  obtain ⟨m, rfl⟩ := Nat.exists_eq_succ_of_ne_zero hn
  rw [List.finRange_succ, List.map_cons, List.map_cons, combine, foldl_combine, Fin.sum_univ_succ]
  congr 2
  rw [List.map_map, List.map_map, List.zip_map', List.map_map, List.sum_ofFn.symm]
  simp [Function.comp_def, List.ofFn_eq_map]

theorem mapM_some_of {α β : Type} (f : α → Option β) (g : α → β) (l : List α)
    (h : ∀ a ∈ l, f a = some (g a)) : l.mapM f = some (l.map g) := by
  induction l with
  | nil => rfl
  | cons a t ih =>
    rw [List.mapM_cons, h a (by simp), ih (fun b hb => h b (by simp [hb]))]
    rfl

/-- The list returned is the list of the combinations given by the rows of the inverse. -/
theorem basisFunctions_eq {n : ℕ} (basis : Fin n → V) (dofs : Fin n → V →ₗ[K] K) :
    basisFunctions basis dofs = if IsUnit (dualMatrix basis dofs).det then
      some (List.ofFn fun i => ∑ k, (dualMatrix basis dofs)⁻¹ i k • basis k) else none := by
  unfold basisFunctions invLU
  split_ifs with h
  · simp only
    rw [mapM_some_of _ (fun i => ∑ k, (dualMatrix basis dofs)⁻¹ i k • basis k), List.ofFn_eq_map]
    intro i _
    exact combine_finRange (by have := i.2; omega) _ _
  · rfl

/-- **C47** Functional `j` applied to basis function `i` is 1 if `i = j` and 0 otherwise. -/
theorem basisFunctions_dual {n : ℕ} (basis : Fin n → V) (dofs : Fin n → V →ₗ[K] K) (fs : List V)
    (h : basisFunctions basis dofs = some fs) :
    ∃ hl : fs.length = n, ∀ i j : Fin n,
      dofs j (fs[i.1]'(by rw [hl]; exact i.2)) = if i = j then 1 else 0 := by
  rw [basisFunctions_eq] at h
  split_ifs at h with hu
  injection h with h
  subst h
  refine ⟨List.length_ofFn, fun i j => ?_⟩
  rw [List.getElem_ofFn, map_sum]
  have := Matrix.nonsing_inv_mul (dualMatrix basis dofs) hu
  have := congrFun (congrFun this i) j
  rw [Matrix.mul_apply, Matrix.one_apply] at this
  simpa [dualMatrix] using this

/-- **C47** The basis functions can be computed exactly when no combination of the polynomials
other than the trivial one is annihilated by all the functionals. -/
theorem basisFunctions_isSome_iff {n : ℕ} (basis : Fin n → V) (dofs : Fin n → V →ₗ[K] K) :
    (basisFunctions basis dofs).isSome ↔
      ∀ c : Fin n → K, (∀ j, dofs j (∑ k, c k • basis k) = 0) → c = 0 := by
  rw [basisFunctions_eq]
  have key : ∀ c : Fin n → K, (∀ j, dofs j (∑ k, c k • basis k) = 0) ↔
      Matrix.vecMul c (dualMatrix basis dofs) = 0 := by
    intro c
    rw [funext_iff]
    refine forall_congr' fun j => ?_
    simp [Matrix.vecMul, dotProduct, dualMatrix]
  simp_rw [key]
  have h2 := Matrix.exists_vecMul_eq_zero_iff (M := dualMatrix basis dofs)
  constructor
  · intro hs c hc
    by_contra hne
    have : (dualMatrix basis dofs).det = 0 := h2.1 ⟨c, hne, hc⟩
    simp [this] at hs
  · intro hall
    have : (dualMatrix basis dofs).det ≠ 0 := by
      intro h0
      obtain ⟨c, hne, hc⟩ := h2.2 h0
      exact hne (hall c hc)
    simp [this]

/-- **C48** Every member of the span of the polynomial set is the combination of the basis functions
weighted by the values of the functionals. -/
theorem basisFunctions_interpolate {n : ℕ} (basis : Fin n → V) (dofs : Fin n → V →ₗ[K] K)
    (fs : List V) (h : basisFunctions basis dofs = some fs) (f : V)
    (hf : f ∈ Submodule.span K (Set.range basis)) :
    ∃ hl : fs.length = n, f = ∑ i : Fin n, dofs i f • fs[i.1]'(by rw [hl]; exact i.2) := by
  rw [basisFunctions_eq] at h
  split_ifs at h with hu
  injection h with h
  subst h
  refine ⟨List.length_ofFn, ?_⟩
  obtain ⟨c, rfl⟩ := (Submodule.mem_span_range_iff_exists_fun K).1 hf
  simp only [List.getElem_ofFn]
  simp_rw [Finset.smul_sum, smul_smul]
  rw [Finset.sum_comm]
  refine Finset.sum_congr rfl fun k _ => ?_
  rw [← Finset.sum_smul]
  congr 1
  have h1 : Matrix.vecMul (Matrix.vecMul c (dualMatrix basis dofs)) (dualMatrix basis dofs)⁻¹ = c := by
    rw [Matrix.vecMul_vecMul, Matrix.mul_nonsing_inv _ hu, Matrix.vecMul_one]
  have h2 := congrFun h1 k
  rw [← h2]
  simp [Matrix.vecMul, dotProduct, dualMatrix]

/-- **C48** The basis functions span the same space as the polynomial set. -/
theorem basisFunctions_span {n : ℕ} (basis : Fin n → V) (dofs : Fin n → V →ₗ[K] K)
    (fs : List V) (h : basisFunctions basis dofs = some fs) :
    Submodule.span K {f | f ∈ fs} = Submodule.span K (Set.range basis) := by
  apply le_antisymm
  · rw [Submodule.span_le]
    rw [basisFunctions_eq] at h
    split_ifs at h with hu
    injection h with h
    subst h
    intro f hf
    obtain ⟨i, rfl⟩ := List.mem_ofFn.1 hf
    exact Submodule.sum_mem _ fun k _ =>
      Submodule.smul_mem _ _ (Submodule.subset_span ⟨k, rfl⟩)
  · intro f hf
    obtain ⟨hl, hsum⟩ := basisFunctions_interpolate basis dofs fs h f hf
    rw [hsum]
    exact Submodule.sum_mem _ fun i _ =>
      Submodule.smul_mem _ _ (Submodule.subset_span (List.getElem_mem _))

/-- **C48** The basis functions are linearly independent. -/
theorem basisFunctions_independent {n : ℕ} (basis : Fin n → V) (dofs : Fin n → V →ₗ[K] K)
    (fs : List V) (h : basisFunctions basis dofs = some fs) :
    LinearIndependent K (fun i : Fin fs.length => fs[i]) := by
  obtain ⟨hl, hd⟩ := basisFunctions_dual basis dofs fs h
  subst hl
  rw [Fintype.linearIndependent_iff]
  intro g hg i
  have := congrArg (dofs i) hg
  rw [map_sum, map_zero] at this
  rw [← this]
  symm
  rw [Finset.sum_eq_single i]
  · rw [map_smul]
    have := hd i i
    rw [if_pos rfl] at this
    simp [this]
  · intro b _ hb
    rw [map_smul]
    have := hd b i
    rw [if_neg hb] at this
    simpa using Or.inr this
  · simp

/-- The statements hold for a case with a non-diagonal dual matrix: functionals `v 0` and
`v 0 + v 1` on `ℚ²` with the unit vectors as polynomials. -/
example : (basisFunctions (K := ℚ) (V := Fin 2 → ℚ) (fun i => Pi.single i 1)
    ![(LinearMap.proj 0 : (Fin 2 → ℚ) →ₗ[ℚ] ℚ),
      (LinearMap.proj 0 : (Fin 2 → ℚ) →ₗ[ℚ] ℚ) + (LinearMap.proj 1 : (Fin 2 → ℚ) →ₗ[ℚ] ℚ)]).isSome := by
  rw [basisFunctions_isSome_iff]
  intro c hc
  have h0 := hc 0
  have h1 := hc 1
  simp [Fin.sum_univ_two] at h0 h1
  rw [h0] at h1
  funext i
  fin_cases i
  · exact h0
  · simpa using h1

/-! ### The elements -/

/-- **C47** for the public function: `get_basis_functions` of a Ciarlet element. -/
theorem getBasis_ciarlet_dual (basis : List V) (dofs : List (Dof K V)) (fs : List V)
    (h : getBasis (.ciarlet basis dofs) = some fs) :
    fs.length = dofs.length ∧ ∀ (i j : ℕ) (f : V) (d : Dof K V), fs[i]? = some f →
      dofs[j]? = some d → d.eval f = if i = j then 1 else 0 := by
  rw [getBasis] at h
  split_ifs at h with hlen
  obtain ⟨hl, hd⟩ := basisFunctions_dual _ _ _ h
  refine ⟨by omega, fun i j f d hi hj => ?_⟩
  obtain ⟨hi', rfl⟩ := List.getElem?_eq_some_iff.1 hi
  obtain ⟨hj', rfl⟩ := List.getElem?_eq_some_iff.1 hj
  have := hd ⟨i, by omega⟩ ⟨j, by omega⟩
  simpa using this

/-- **C48** for the public function. -/
theorem getBasis_ciarlet_span (basis : List V) (dofs : List (Dof K V)) (fs : List V)
    (h : getBasis (.ciarlet basis dofs) = some fs) :
    Submodule.span K {f | f ∈ fs} = Submodule.span K {f | f ∈ basis} := by
  rw [getBasis] at h
  split_ifs at h with hlen
  rw [basisFunctions_span _ _ _ h]
  congr 1
  ext f
  constructor
  · rintro ⟨i, rfl⟩; exact List.getElem_mem _
  · intro hf
    obtain ⟨i, hi, rfl⟩ := List.mem_iff_getElem.1 hf
    exact ⟨⟨i, hi⟩, rfl⟩

mutual
/-- An enriched element and all its parts have as many functions as `space_dim` says. -/
theorem getBasis_length : ∀ (e : Element K V) (fs : List V), getBasis e = some fs →
    fs.length = spaceDim e
  | .ciarlet basis dofs, fs, h => (getBasis_ciarlet_dual basis dofs fs h).1
  | .direct gs ents, fs, h => by
    rw [getBasis] at h
    injection h with h
    rw [← h, spaceDim]
  | .enriched subs, fs, h => by
    rw [getBasis] at h
    rw [spaceDim]
    exact getBases_length subs fs h
theorem getBases_length : ∀ (es : List (Element K V)) (fs : List V), getBases es = some fs →
    fs.length = spaceDims es
  | [], fs, h => by
    rw [getBases] at h
    injection h with h
    rw [← h, spaceDims]; rfl
  | e :: es, fs, h => by
    rw [getBases] at h
    split at h
    · rename_i a b ha hb
      injection h with h
      rw [← h, List.length_append, spaceDims, getBasis_length e a ha, getBases_length es b hb]
    · cases h
end

/-! ### Repeated calls -/

/-- The calls on one element object all return the value that the first call computed. -/
theorem callsBasis_constant (tensor direct : List V) (b : Bool) (bs : List Bool) :
    ∀ r ∈ callsBasis tensor direct none (b :: bs), r = if b then tensor else direct := by
  have aux : ∀ (fs : List V) (bs : List Bool), ∀ r ∈ callsBasis tensor direct (some fs) bs,
      r = fs := by
    intro fs bs
    induction bs with
    | nil => intro r hr; cases hr
    | cons b bs ih =>
      intro r hr
      rw [callsBasis] at hr
      rcases List.mem_cons.1 hr with rfl | hr
      · rfl
      · exact ih r hr
  intro r hr
  rw [callsBasis] at hr
  rcases List.mem_cons.1 hr with rfl | hr
  · cases b <;> rfl
  · exact aux _ _ r hr

/-- If the two ways of computing the functions differ, the value of a call depends on the calls made
before it. -/
theorem callsBasis_order_dependent (tensor direct : List V) (h : tensor ≠ direct) :
    (callsBasis tensor direct none [true, false])[1]? ≠
      (callsBasis tensor direct none [false])[0]? := by
  simpa [callsBasis, callBasis] using h

end Verif.FiniteElement
