import Verif.Functionals.PropsMoment
/-!
# Integral functionals of piecewise functions

The functionals that are integrals substitute the points of their domain into the function and then integrate
(symfem/functionals.py:990-1004, 1280-1296). For a `PiecewiseFunction` both steps are done piece by piece
(symfem/piecewise_functions.py:304-330, 443-465).
-/

namespace Verif.Functionals

open Verif.Functions Verif.Functions.Expr Verif.References Verif.Orthogonal

/-! ### Model -/

/-- One term of `PiecewiseFunction.integral` in the `_eval_symbolic` of an integral functional `F`: the integrand is made from the piece by
`F`, and integrated over the intersection of the cell of the piece and the domain (symfem/piecewise_functions.py:459-464). The cells here
are subsets of the domain, where `intersection` returns the cell (symfem/references.py:269-275). -/
noncomputable def pieceValue (F : Functional) (p : Domain × FnObj) : Option Value := do
  match ← step F p.2 with
  | .integrate _ e => integral p.1 e
  | .done _ => none

/-- `_eval_symbolic` of an integral functional for a piecewise function: `result += …` (symfem/piecewise_functions.py:459-465). -/
noncomputable def piecesValue (F : Functional) (pieces : List (Domain × FnObj)) : Option Value := do
  let vs ← pieces.mapM (pieceValue F)
  pure fun env => (vs.map fun v => v env).sum

/-! ### Specification -/

/-- The integral of a function that is given by a function on each of several cells, with the same multiplier everywhere. -/
noncomputable def trueIntegral (pieces : List (Domain × ℝ × Expr)) (a : ℝ) (env : String → ℝ) : ℝ :=
  (pieces.map fun p => cellInt p.1.cell fun z => p.2.2.eval (p.1.env env z) * a * p.2.1).sum

/-! ### Theorems -/

section
variable {D : Domain} (hg : D.g ≤ 3) {J : ℝ} (hJ : References.jacobian D.cell D.g D.v = some J)
include hg hJ

/-- One piece: the function is taken at the points of the domain of the functional, not at the points of its cell. Only the size of the cell counts. -/
theorem pieceValue_moment {f k : Expr} (hf : NoDummy f) (hk : NoX k) {Dp : Domain} (hgp : Dp.g = D.g) (hc : Dp.cell = D.cell) (h0 : D.cell ≠ .point) {Jp : ℝ}
    (hJp : References.jacobian Dp.cell Dp.g Dp.v = some Jp) :
    pieceValue (.integralMoment D (.scalar k)) (Dp, .scalar f) = some fun env => cellInt D.cell fun z =>
      f.eval (D.env env z) * k.eval (tEnv env z) * Jp := by
  obtain ⟨h1, h2⟩ := jacobian_dims hJ
  have key := integral_of_agrees Dp (by rw [hc]; exact h0) hJp (mul (subsList f x D.point) k)
    (fun env z => f.eval (D.env env z) * k.eval (tEnv env z)) fun env z env' h => by
      have h' : Agrees D env z env' := by
        unfold Agrees at h ⊢
        rwa [hgp] at h
      simp only [eval]
      rw [eval_subs_point D hg h1 h2 hf env env' z h', eval_noX D hk h']
  rw [hc] at key
  exact key

/-- **C144** The value of an integral functional for a piecewise function is the sum of the integrals of the pieces over the *whole* domain, each divided
by the ratio of the sizes of the domain and the cell of the piece. -/
theorem piecesValue_moment {k : Expr} (hk : NoX k) (h0 : D.cell ≠ .point) (hJ0 : J ≠ 0) (l : List (Domain × ℝ × Expr))
    (hl : ∀ p ∈ l, p.1.g = D.g ∧ p.1.cell = D.cell ∧ References.jacobian p.1.cell p.1.g p.1.v = some p.2.1 ∧ NoDummy p.2.2) :
    ∃ vs, l.mapM (fun p => value (.integralMoment D (.scalar k)) (.scalar p.2.2)) = some vs ∧
    piecesValue (.integralMoment D (.scalar k)) (l.map fun p => (p.1, .scalar p.2.2)) =
      some fun env => (List.zipWith (fun p v => p.2.1 / J * v env) l vs).sum := by
  obtain ⟨h1, h2⟩ := jacobian_dims hJ
  induction l with
  | nil => exact ⟨[], rfl, rfl⟩
  | cons p l ih =>
    obtain ⟨vs, e1, e2⟩ := ih fun q hq => hl q (List.mem_cons_of_mem _ hq)
    obtain ⟨a1, a2, a3, a4⟩ := hl p (by simp)
    have hv := integralMoment_scalar hg h0 hJ a4 hk
    have hp := pieceValue_moment hg hJ a4 hk a1 a2 h0 a3
    refine ⟨_ :: vs, by rw [List.mapM_cons, hv, e1]; rfl, ?_⟩
    have e3 : ∃ ws, (l.map fun p => (p.1, FnObj.scalar p.2.2)).mapM (pieceValue (.integralMoment D (.scalar k))) = some ws ∧
        ∀ env, (ws.map fun v => v env).sum = (List.zipWith (fun p v => p.2.1 / J * v env) l vs).sum := by
      unfold piecesValue at e2
      cases hws : (l.map fun p => (p.1, FnObj.scalar p.2.2)).mapM (pieceValue (.integralMoment D (.scalar k))) with
      | none => simp [hws] at e2
      | some ws =>
        refine ⟨ws, rfl, fun env => ?_⟩
        simp only [hws, Option.bind_eq_bind, Option.bind_some, Option.pure_def, Option.some.injEq] at e2
        exact congrFun e2 env
    obtain ⟨ws, w1, w2⟩ := e3
    unfold piecesValue
    rw [List.map_cons, List.mapM_cons, hp, w1]
    simp only [Option.bind_eq_bind, Option.bind_some, Option.pure_def, Option.some.injEq]
    funext env
    rw [List.map_cons, List.sum_cons, w2, List.zipWith_cons_cons, List.sum_cons]
    congr 1
    rw [← cellInt_const_mul]
    refine congrArg (cellInt D.cell) (funext fun z => ?_)
    field_simp

end

/-! ### A case: the hat function on an interval -/

/-- A part of the unit interval. -/
noncomputable def segment (a b : ℝ) : Domain := ⟨.interval, 1, fun i _ => if i = 0 then a else b⟩

theorem segment_jacobian {a b : ℝ} (h : a ≤ b) : References.jacobian (segment a b).cell (segment a b).g (segment a b).v = some (b - a) := by
  simp [segment, References.jacobian, axisVertices, Cell.tdim, axis, psub, Finset.sum_range_succ]
  rw [Real.sqrt_sq (by linarith)]

/-- The hat function with the value 1 at the midpoint. -/
noncomputable def hat : List (Domain × ℝ × Expr) :=
  [(segment 0 (1 / 2), 1 / 2, mul (num 2) (sym "x")), (segment (1 / 2) 1, 1 / 2, add (num 2) (mul (num (-2)) (sym "x")))]

/-- Its integral is 1/2. -/
theorem hat_integral (env : String → ℝ) : trueIntegral hat 1 env = 1 / 2 := by
  have h1 : ∫ t in (0 : ℝ)..1, t = 1 / 2 := by simp
  simp only [trueIntegral, hat, List.map_cons, List.map_nil, List.sum_cons, List.sum_nil]
  simp only [show ∀ a b, (segment a b).cell = .interval from fun _ _ => rfl, cellInt_interval]
  simp [eval, Domain.env, segment, Domain.param, Cell.tdim, axisVertices]
  have e2 : (∫ t in (0 : ℝ)..1, 2 + -(2 * (2⁻¹ + (1 - 2⁻¹) * t))) = 1 / 2 := by
    have : (∫ t in (0 : ℝ)..1, 2 + -(2 * (2⁻¹ + (1 - 2⁻¹) * t))) = ∫ t in (0 : ℝ)..1, (1 - t) :=
      intervalIntegral.integral_congr fun t _ => by ring
    rw [this, intervalIntegral.integral_sub (by simp) (by simp), h1]
    norm_num
  rw [e2]
  norm_num

/-- **C144** The integral of the hat function against 1, as computed by the functional, is 1. -/
theorem hat_moment : ∃ v, piecesValue (.integralMoment (segment 0 1) (.scalar (num 1))) (hat.map fun p => (p.1, .scalar p.2.2)) = some v ∧
    ∀ env, v env = 1 := by
  have nd : ∀ a b : ℝ, NoDummy (add (num a) (mul (num b) (sym "x"))) ∧ NoDummy (mul (num b) (sym "x")) := fun a b =>
    ⟨fun i h => dummySym_notMem_x i (by
        simp only [Expr.Has, false_or] at h
        rw [show dummySym i = "x" from h]
        simp [Functions.x]),
      fun i h => dummySym_notMem_x i (by
        simp only [Expr.Has, false_or] at h
        rw [show dummySym i = "x" from h]
        simp [Functions.x])⟩
  have hJ : References.jacobian (segment 0 1).cell (segment 0 1).g (segment 0 1).v = some 1 := by
    rw [segment_jacobian (by norm_num)]
    norm_num
  have hk : NoX (num 1) := fun s _ h => h
  obtain ⟨vs, e1, e2⟩ := piecesValue_moment (D := segment 0 1) (by simp [segment]) hJ hk (by simp [segment]) one_ne_zero hat (by
    simp only [hat, List.mem_cons, List.not_mem_nil, or_false, forall_eq_or_imp, forall_eq]
    refine ⟨⟨rfl, rfl, ?_, (nd 0 2).2⟩, rfl, rfl, ?_, (nd 2 (-2)).1⟩
    · rw [segment_jacobian (by norm_num)]
      norm_num
    · rw [segment_jacobian (by norm_num)]
      norm_num)
  refine ⟨_, e2, fun env => ?_⟩
  have h1 := integralMoment_scalar (D := segment 0 1) (f := mul (num 2) (sym "x")) (k := num 1) (by simp [segment]) (by simp [segment]) hJ (nd 0 2).2 hk
  have h2 := integralMoment_scalar (D := segment 0 1) (f := add (num 2) (mul (num (-2)) (sym "x"))) (k := num 1) (by simp [segment]) (by simp [segment]) hJ
    (nd 2 (-2)).1 hk
  simp only [hat, List.mapM_cons, List.mapM_nil, h1, h2, Option.bind_eq_bind, Option.bind_some, Option.pure_def, Option.some.injEq] at e1
  subst e1
  have i1 : ∫ t in (0 : ℝ)..1, t = 1 / 2 := by simp
  have c1 : cellInt (segment 0 1).cell (fun z => (mul (num 2) (sym "x")).eval ((segment 0 1).env env z) * (num 1).eval (tEnv env z) * 1) = 1 := by
    rw [show (segment 0 1).cell = .interval from rfl, cellInt_interval]
    simp [eval, Domain.env, segment, Domain.param, Cell.tdim, axisVertices]
    rw [intervalIntegral.integral_const_mul, i1]
    norm_num
  have c2 : cellInt (segment 0 1).cell (fun z => (add (num 2) (mul (num (-2)) (sym "x"))).eval ((segment 0 1).env env z) * (num 1).eval (tEnv env z) * 1) = 1 := by
    rw [show (segment 0 1).cell = .interval from rfl, cellInt_interval]
    simp [eval, Domain.env, segment, Domain.param, Cell.tdim, axisVertices]
    have : (∫ t in (0 : ℝ)..1, 2 + -(2 * t)) = ∫ t in (0 : ℝ)..1, (2 - 2 * t) :=
      intervalIntegral.integral_congr fun t _ => by ring
    rw [this, intervalIntegral.integral_sub (by simp) (by apply Continuous.intervalIntegrable; fun_prop), intervalIntegral.integral_const_mul, i1]
    norm_num
  simp only [hat, List.zipWith_cons_cons, List.zipWith_nil_right, List.sum_cons, List.sum_nil, c1, c2]
  norm_num

end Verif.Functionals
