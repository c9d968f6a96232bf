import Verif.Families.Trace
/-!
# The moments of polynomials are the values of the functionals

The functionals of `Verif.Functionals` act on expressions, those of this model on polynomials.  They agree on expressions
that represent polynomials.
-/

namespace Verif.Families
open Verif.References Verif.Functionals Verif.Functions Verif.Orthogonal
open MvPolynomial

/-- An expression in x, y, z represents a polynomial. -/
def Represents (e : Expr) (p : MvPolynomial ℕ ℝ) : Prop :=
  NoDummy e ∧ ∀ env : String → ℝ, e.eval env = eval (fun i => env (x.getD i "")) p

variable {D : Domain} (hg : D.g ≤ 3) (hc : D.cell ≠ .point) {J : ℝ} (hJ : jacobian D.cell D.g D.v = some J)
include hg hc hJ

omit hc hJ in
theorem eval_represents {k : ℤ} {e : Expr} {p : MvPolynomial ℕ ℝ} (he : Represents e p) (hp : p ∈ P D.g k) (env : String → ℝ)
    (z : ℕ → ℝ) : e.eval (D.env env z) = eval (D.param z) p := by
  rw [he.2]
  refine eval_congr_P hp fun i hi => ?_
  have : i = 0 ∨ i = 1 ∨ i = 2 := by omega
  rcases this with rfl | rfl | rfl <;> simp [Domain.env, x] <;> omega

omit hc hJ hg in
theorem eval_represents_x {d : ℕ} (hd : d ≤ 3) {k : ℤ} {e : Expr} {p : MvPolynomial ℕ ℝ} (he : Represents e p) (hp : p ∈ P d k)
    (env : String → ℝ) (z : ℕ → ℝ) : e.eval (xEnv env z) = eval z p := by
  rw [he.2]
  refine eval_congr_P hp fun i hi => ?_
  have : i = 0 ∨ i = 1 ∨ i = 2 := by omega
  rcases this with rfl | rfl | rfl <;> simp [xEnv, x]

theorem directed_bridge {f : List Expr} {v : Field D.g} (hl : f.length = D.g) {k m : ℤ}
    (hf : ∀ i : Fin D.g, Represents (f.getD i (Expr.num 0)) (v i)) (hv : ∀ i, v i ∈ P D.g k) {e : Expr} {p : MvPolynomial ℕ ℝ}
    (he : Represents e p) {d : ℕ} (hd : d ≤ 3) (hp : p ∈ P d m) (n : ℕ → ℝ) (env : String → ℝ) :
    (cellInt D.cell fun z => (∑ i ∈ Finset.range D.g, (f.getD i (Expr.num 0)).eval (D.env env z) * n i) * e.eval (xEnv env z) * J) =
      momentMap D J (fun i => C (n i) * p) v := by
  show _ = momentValue D J _ v
  unfold momentValue
  congr 1
  funext z
  rw [eval_represents_x hd he hp, ← Fin.sum_univ_eq_sum_range (fun i => (f.getD i (Expr.num 0)).eval (D.env env z) * n i),
    Finset.sum_mul]
  congr 1
  refine Finset.sum_congr rfl fun i _ => ?_
  rw [eval_represents hg (hf i) (hv i), map_mul, eval_C]
  ring

/-- **C80, C84.** Normal moments. -/
theorem normal_bridge {f : List Expr} {v : Field D.g} (hl : f.length = D.g) {k m : ℤ}
    (hf : ∀ i : Fin D.g, Represents (f.getD i (Expr.num 0)) (v i)) (hv : ∀ i, v i ∈ P D.g k) {e : Expr} {p : MvPolynomial ℕ ℝ}
    (he : Represents e p) {d : ℕ} (hd : d ≤ 3) (hp : p ∈ P d m) {n : ℕ → ℝ} (hn : normal D.cell D.g D.v = some n) :
    ((normalIntegralMoment D e).bind fun F => value F (.vector f)) = some fun _ => momentMap D J (fun i => C (n i) * p) v := by
  rw [normalIntegralMoment_value hg hc hJ hn hl (fun e he => ?_) he.1]
  · exact congrArg some (funext fun env => directed_bridge hg hc hJ hl hf hv he hd hp n env)
  · obtain ⟨i, hi, rfl⟩ := List.mem_iff_getElem.1 he
    have := (hf ⟨i, hl ▸ hi⟩).1
    rwa [List.getD_eq_getElem (hn := hi)] at this

/-- **C80, C85.** Tangential moments. -/
theorem tangent_bridge {f : List Expr} {v : Field D.g} (hl : f.length = D.g) {k m : ℤ}
    (hf : ∀ i : Fin D.g, Represents (f.getD i (Expr.num 0)) (v i)) (hv : ∀ i, v i ∈ P D.g k) {e : Expr} {p : MvPolynomial ℕ ℝ}
    (he : Represents e p) {d : ℕ} (hd : d ≤ 3) (hp : p ∈ P d m) {n : ℕ → ℝ} (hn : tangent D.cell D.g D.v = some n) :
    ((tangentIntegralMoment D e).bind fun F => value F (.vector f)) = some fun _ => momentMap D J (fun i => C (n i) * p) v := by
  rw [tangentIntegralMoment_value hg hc hJ hn hl (fun e he => ?_) he.1]
  · exact congrArg some (funext fun env => directed_bridge hg hc hJ hl hf hv he hd hp n env)
  · obtain ⟨i, hi, rfl⟩ := List.mem_iff_getElem.1 he
    have := (hf ⟨i, hl ▸ hi⟩).1
    rwa [List.getD_eq_getElem (hn := hi)] at this

/-- **C80, C84.** Moments against vector functions. -/
theorem vector_bridge {f g : List Expr} {v w : Field D.g} (hl : f.length = D.g) (hl' : g.length = D.g) {k m : ℤ}
    (hf : ∀ i : Fin D.g, Represents (f.getD i (Expr.num 0)) (v i)) (hv : ∀ i, v i ∈ P D.g k)
    (hw : ∀ i : Fin D.g, Represents (g.getD i (Expr.num 0)) (w i)) (hwm : ∀ i, w i ∈ P D.g m) :
    ((newIntegralMoment D (.vector g)).bind fun F => value F (.vector f)) = some fun _ => momentMap D J w v := by
  have key : ∀ {f : List Expr} {v : Field D.g}, f.length = D.g → (∀ i : Fin D.g, Represents (f.getD i (Expr.num 0)) (v i)) →
      ∀ e ∈ f, NoDummy e := by
    intro f v hl hf e he
    obtain ⟨i, hi, rfl⟩ := List.mem_iff_getElem.1 he
    have := (hf ⟨i, hl ▸ hi⟩).1
    rwa [List.getD_eq_getElem (hn := hi)] at this
  rw [newIntegralMoment_vector hg hc hJ (hl.trans hl'.symm) (key hl hf) (key hl' hw)]
  refine congrArg some (funext fun env => ?_)
  show _ = momentValue D J _ v
  unfold momentValue
  congr 1
  funext z
  rw [hl, ← Fin.sum_univ_eq_sum_range (fun i => (f.getD i (Expr.num 0)).eval (D.env env z) * (g.getD i (Expr.num 0)).eval (xEnv env z))]
  congr 1
  refine Finset.sum_congr rfl fun i _ => ?_
  rw [eval_represents hg (hf i) (hv i), eval_represents_x hg (hw i) (hwm i)]

/-- The first coordinate represents a polynomial. -/
example : Represents (Expr.mul (Expr.sym "x") (Expr.num 2)) (X 0 * C 2) := by
  refine ⟨fun i => ?_, fun env => ?_⟩
  · simp only [Expr.Has, or_false]
    exact fun h => dummySym_ne i "x" (by decide) h
  · simp [Expr.eval, x]

end Verif.Families
