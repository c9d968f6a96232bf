import Verif.Orthogonal.Orthonormal
import Verif.FiniteElement.Model
import Mathlib.LinearAlgebra.Matrix.NonsingularInverse
import Mathlib.LinearAlgebra.Matrix.ToLinearEquiv
import Mathlib.MeasureTheory.Integral.DominatedConvergence

/-!
# `l2_dual` and Lobatto polynomials (C32, C33)

symfem/polynomials/dual.py and symfem/polynomials/lobatto.py
-/

set_option linter.unusedSectionVars false
set_option linter.unusedSimpArgs false

namespace Verif.Orthogonal

open Verif.References

/-! ### Models -/

/-- The matrix in `l2_dual` (symfem/polynomials/dual.py:26). -/
noncomputable def gram (c : Cell) (poly : List Fn) : Matrix (Fin poly.length) (Fin poly.length) ℝ :=
  Matrix.of fun i j => cellInt c fun p => poly[i] p * poly[j] p

/-- `l2_dual` (symfem/polynomials/dual.py:11-36); `none`: the matrix is singular. -/
noncomputable def l2Dual (c : Cell) (poly : List Fn) : Option (List Fn) :=
  (FiniteElement.invLU (gram c poly)).map fun minv =>
    (List.finRange poly.length).map fun i =>
      ((List.ofFn (minv i)).zip poly).foldl (fun f jp => fun p => f p + jp.1 * jp.2 p) fun _ => 0

/-- `f.integrate((x[0], 0, x[0]))` -/
noncomputable def antider (f : Fn) : Fn := fun p => ∫ t in (0 : ℝ)..p 0, f (Function.update p 0 t)

/-- `lobatto_basis_interval` (symfem/polynomials/lobatto.py:13-26), for `order ≥ 1`. -/
noncomputable def lobattoInterval (order : ℕ) : List Fn :=
  (fun _ => 1) :: (rowOf ((orthonormalBasis .interval (order - 1) 0).getD []) 0).map antider

/-- `f.subs(x[0], x[i])` -/
def subsVar (i : ℕ) (f : Fn) : Fn := fun p => f (Function.update p 0 (p i))

/-- Products over the cell (symfem/polynomials/lobatto.py:60-70, 93-103). -/
def tensor (c : Cell) (interval : List Fn) : Option (List Fn) :=
  match c with
  | .interval => some interval
  | .quadrilateral => some (interval.flatMap fun i => interval.map fun j => i * subsVar 1 j)
  | .hexahedron => some (interval.flatMap fun i => interval.flatMap fun j => interval.map fun k =>
      i * subsVar 1 j * subsVar 2 k)
  | _ => none

/-- `lobatto_basis` (symfem/polynomials/lobatto.py:41-71); `none`: `NotImplementedError`. -/
noncomputable def lobattoBasis (c : Cell) (order : ℕ) (endpoints : Bool) : Option (List Fn) :=
  tensor c (if endpoints then lobattoInterval order else (lobattoInterval order).drop 2)

/-- `lobatto_dual_basis` (symfem/polynomials/lobatto.py:74-104); `none`: an exception. -/
noncomputable def lobattoDualBasis (c : Cell) (order : ℕ) (endpoints : Bool) : Option (List Fn) :=
  (l2Dual .interval (lobattoInterval order)).bind fun d =>
    tensor c (if endpoints then d else d.drop 2)

/-! ### Integration of continuous functions -/

theorem eval_continuous (e : Affine) : Continuous fun x : ℕ → ℝ => e.eval x := by
  unfold Affine.eval
  fun_prop

theorem inner_continuous {f : Fn} (hf : Continuous f) (v : ℕ) (lo hi : Affine) :
    Continuous fun x : ℕ → ℝ => ∫ t in (lo.eval x)..(hi.eval x), f (Function.update x v t) := by
  have hu : Continuous (Function.uncurry fun (x : ℕ → ℝ) (t : ℝ) => f (Function.update x v t)) :=
    hf.comp (by fun_prop)
  have e : (fun x : ℕ → ℝ => ∫ t in (lo.eval x)..(hi.eval x), f (Function.update x v t)) =
      fun x => (∫ t in (0 : ℝ)..(hi.eval x), f (Function.update x v t)) -
        ∫ t in (0 : ℝ)..(lo.eval x), f (Function.update x v t) := by
    funext x
    have hx : Continuous fun t : ℝ => f (Function.update x v t) := hf.comp (by fun_prop)
    rw [intervalIntegral.integral_interval_sub_left (hx.intervalIntegrable _ _)
      (hx.intervalIntegrable _ _)]
  rw [e]
  exact (intervalIntegral.continuous_parametric_intervalIntegral_of_continuous hu
    (eval_continuous hi)).sub (intervalIntegral.continuous_parametric_intervalIntegral_of_continuous
    hu (eval_continuous lo))

theorem iterInt_add (L : List (ℕ × Affine × Affine)) {f g : Fn} (hf : Continuous f)
    (hg : Continuous g) :
    iterInt L (fun p => f p + g p) = fun p => iterInt L f p + iterInt L g p := by
  induction L generalizing f g with
  | nil => rfl
  | cons a L ih =>
    obtain ⟨v, lo, hi⟩ := a
    simp only [iterInt]
    rw [← ih (inner_continuous hf v lo hi) (inner_continuous hg v lo hi)]
    congr 1
    funext x
    have hf' : Continuous fun t : ℝ => f (Function.update x v t) := hf.comp (by fun_prop)
    have hg' : Continuous fun t : ℝ => g (Function.update x v t) := hg.comp (by fun_prop)
    exact intervalIntegral.integral_add (hf'.intervalIntegrable _ _) (hg'.intervalIntegrable _ _)

theorem cellInt_add (c : Cell) {f g : Fn} (hf : Continuous f) (hg : Continuous g) :
    cellInt c (fun p => f p + g p) = cellInt c f + cellInt c g := by
  unfold cellInt
  rw [iterInt_add _ hf hg]

theorem cellInt_zero (c : Cell) : cellInt c (fun _ => 0) = 0 := by
  have := cellInt_const_mul c 0 (fun _ => 0)
  simpa using this

theorem cellInt_sum (c : Cell) {ι : Type*} (s : Finset ι) (f : ι → Fn) (hf : ∀ i ∈ s, Continuous (f i)) :
    cellInt c (fun p => ∑ i ∈ s, f i p) = ∑ i ∈ s, cellInt c (f i) := by
  classical
  induction s using Finset.induction_on with
  | empty => simpa using cellInt_zero c
  | insert a s ha ih =>
    simp_rw [Finset.sum_insert ha]
    rw [cellInt_add c (hf a (by simp)) (continuous_finsetSum _ fun i hi => hf i (by simp [hi])),
      ih fun i hi => hf i (by simp [hi])]

/-! ### `l2_dual` -/

theorem foldl_zip_sum (cs : List ℝ) (poly : List Fn) (h : cs.length = poly.length) (f0 : Fn)
    (p : ℕ → ℝ) :
    (cs.zip poly).foldl (fun (f : Fn) jp => fun p => f p + jp.1 * jp.2 p) f0 p =
      f0 p + ∑ j : Fin poly.length, cs[j]'(by omega) * poly[j] p := by
  induction poly generalizing cs f0 with
  | nil => simp
  | cons q poly ih =>
    cases cs with
    | nil => simp at h
    | cons a cs =>
      simp only [List.zip_cons_cons, List.foldl_cons]
      rw [ih cs (by simpa using h)]
      have h' : cs.length = poly.length := by simpa using h
      have e := Fin.sum_univ_succ (n := poly.length) fun j =>
        (a :: cs)[j.val]'(by simp; omega) * ((q :: poly)[j.val]'(by simp; omega)) p
      refine Eq.trans ?_ (congrArg (f0 p + ·) e.symm)
      simp [add_assoc]
      exact Or.inl rfl

theorem l2Dual_spec {c : Cell} {poly out : List Fn} (h : l2Dual c poly = some out) :
    IsUnit (gram c poly).det ∧ ∃ hl : out.length = poly.length, ∀ (i : Fin poly.length) (p : ℕ → ℝ),
      out[i] p = ∑ j, (gram c poly)⁻¹ i j * poly[j] p := by
  unfold l2Dual FiniteElement.invLU at h
  split_ifs at h with hd
  · simp only [Option.map_some, Option.some.injEq] at h
    subst h
    refine ⟨hd, by simp, fun i p => ?_⟩
    simp only [Fin.getElem_fin, List.getElem_map, List.getElem_finRange]
    rw [foldl_zip_sum _ _ (by simp)]
    simp
  · simp at h

/-- **C32** `l2_dual` succeeds exactly when the Gram matrix is invertible. -/
theorem l2Dual_isSome (c : Cell) (poly : List Fn) :
    (l2Dual c poly).isSome ↔ IsUnit (gram c poly).det := by
  unfold l2Dual FiniteElement.invLU
  split_ifs with h
  · simpa using h.ne_zero
  · simpa using h

/-- **C32** The functions returned by `l2_dual` are bi-orthogonal to the functions given. -/
theorem l2Dual_dual {c : Cell} {poly out : List Fn} (h : l2Dual c poly = some out)
    (hc : ∀ f ∈ poly, Continuous f) : ∃ hl : out.length = poly.length,
      ∀ i k : Fin poly.length, cellInt c (fun p => out[i] p * poly[k] p) = if i = k then 1 else 0 := by
  obtain ⟨hd, hl, ho⟩ := l2Dual_spec h
  refine ⟨hl, fun i k => ?_⟩
  have hcont : ∀ j : Fin poly.length, Continuous (poly[j]) := fun j => hc _ (List.getElem_mem _)
  have e : (fun p => out[i] p * poly[k] p) =
      fun p => ∑ j, (gram c poly)⁻¹ i j * (poly[j] p * poly[k] p) := by
    funext p
    rw [ho i p, Finset.sum_mul]
    exact Finset.sum_congr rfl fun j _ => by ring
  rw [e, cellInt_sum c Finset.univ (fun j p => (gram c poly)⁻¹ i j * (poly[j] p * poly[k] p))
    fun j _ => ((hcont j).mul (hcont k)).const_mul _]
  simp_rw [cellInt_const_mul]
  have := congrFun (congrFun (Matrix.nonsing_inv_mul _ hd) i) k
  rw [Matrix.mul_apply, Matrix.one_apply] at this
  exact this

/-- **C32** The functions returned span the same space: each given function is a combination of
them. -/
theorem l2Dual_span {c : Cell} {poly out : List Fn} (h : l2Dual c poly = some out) :
    ∃ hl : out.length = poly.length, ∀ (i : Fin poly.length) (p : ℕ → ℝ),
      poly[i] p = ∑ j : Fin poly.length, gram c poly i j * out[j] p := by
  obtain ⟨hd, hl, ho⟩ := l2Dual_spec h
  refine ⟨hl, fun i p => ?_⟩
  simp_rw [ho, Finset.mul_sum]
  rw [Finset.sum_comm]
  simp_rw [← mul_assoc, ← Finset.sum_mul]
  have : ∀ k, ∑ j, gram c poly i j * (gram c poly)⁻¹ j k = if i = k then 1 else 0 := by
    intro k
    have := congrFun (congrFun (Matrix.mul_nonsing_inv _ hd) i) k
    rwa [Matrix.mul_apply, Matrix.one_apply] at this
  simp_rw [this]
  simp

end Verif.Orthogonal
