import Verif.Functionals.PropsLinear
import Verif.Orthogonal.Lobatto
import Mathlib.Tactic.FunProp

/-!
# Functionals of polynomials are linear (C53)

The integrals in `value_linear` exist when all functions are polynomials.
-/

namespace Verif.Functionals

open Verif.Functions Verif.Functions.Expr Verif.References Verif.Orthogonal MeasureTheory

/-! ### Spec -/

/-- The expression is written without division and roots. -/
def IsPoly : Expr → Prop
  | num _ | sym _ => True
  | add a b | sub a b | mul a b => IsPoly a ∧ IsPoly b
  | neg a | pow a _ => IsPoly a
  | div _ _ | sqrt _ => False

/-- All components are polynomials. -/
def FnObj.IsPoly : FnObj → Prop
  | .scalar f => Functionals.IsPoly f
  | .vector v => ∀ e ∈ v, Functionals.IsPoly e
  | .matrix m => ∀ r ∈ m, ∀ e ∈ r, Functionals.IsPoly e

/-- The functions in a functional that ends with an integral are polynomials. -/
def Functional.IsPoly : Functional → Prop
  | .integralAgainst _ f | .integralMoment _ f => f.IsPoly
  | .integralOfDivergenceAgainst _ f | .divergenceIntegralMoment _ f => Functionals.IsPoly f
  | .derivativeIntegralMoment _ f d => Functionals.IsPoly f ∧ ∀ e ∈ d, Functionals.IsPoly e
  | .innerProductIntegralMoment _ f l r => Functionals.IsPoly f ∧ (∀ e ∈ l, Functionals.IsPoly e) ∧
      ∀ e ∈ r, Functionals.IsPoly e
  | _ => True

/-! ### Closure -/

theorem isPoly_subst {e v : Expr} (he : IsPoly e) (hv : IsPoly v) (s : String) : IsPoly (e.subst s v) := by
  induction e with
  | num => trivial
  | sym s' =>
    unfold subst
    split_ifs
    · exact hv
    · trivial
  | add a b iha ihb => exact ⟨iha he.1, ihb he.2⟩
  | sub a b iha ihb => exact ⟨iha he.1, ihb he.2⟩
  | mul a b iha ihb => exact ⟨iha he.1, ihb he.2⟩
  | neg a ih => exact ih he
  | pow a n ih => exact ih (show IsPoly a from he)
  | div => exact he.elim
  | sqrt => exact he.elim

theorem isPoly_diff {e : Expr} (he : IsPoly e) (s : String) : IsPoly (e.diff s) := by
  induction e with
  | num => trivial
  | sym s' =>
    unfold diff
    split_ifs <;> trivial
  | add a b iha ihb => exact ⟨iha he.1, ihb he.2⟩
  | sub a b iha ihb => exact ⟨iha he.1, ihb he.2⟩
  | mul a b iha ihb => exact ⟨⟨iha he.1, he.2⟩, he.1, ihb he.2⟩
  | neg a ih => exact ih he
  | pow a n ih => exact ⟨⟨trivial, he⟩, ih (show IsPoly a from he)⟩
  | div => exact he.elim
  | sqrt => exact he.elim

theorem isPoly_foldl {α : Type} (l : List α) (F : Expr → α → Expr) (e : Expr) (he : IsPoly e)
    (h : ∀ e, IsPoly e → ∀ i ∈ l, IsPoly (F e i)) : IsPoly (l.foldl F e) := by
  induction l generalizing e with
  | nil => exact he
  | cons i l ih => exact ih _ (h e he i (by simp)) fun e he i hi => h e he i (by simp [hi])

theorem isPoly_subsList {e : Expr} (he : IsPoly e) (vars : List String) (values : List Expr)
    (hv : ∀ v ∈ values, IsPoly v) : IsPoly (subsList e vars values) := by
  unfold subsList
  refine isPoly_foldl _ _ _ (isPoly_foldl _ _ _ he ?_) ?_
  · intro e he i _
    exact isPoly_subst he (show IsPoly (sym _) from trivial) _
  · intro e he i hi
    exact isPoly_subst he (hv _ (List.of_mem_zip hi).2) _

theorem isPoly_point (D : Domain) : ∀ e ∈ D.point, IsPoly e := by
  intro e he
  obtain ⟨i, -, rfl⟩ := List.mem_map.1 he
  exact isPoly_foldl _ _ _ trivial fun e he _ _ => ⟨he, trivial, trivial⟩

theorem isPoly_integralPoint (D : Domain) : ∀ e ∈ D.integralPoint, IsPoly e := by
  intro e he
  obtain ⟨i, -, rfl⟩ := List.mem_map.1 he
  exact isPoly_foldl _ _ _ trivial fun e he _ _ => ⟨he, trivial, trivial⟩

theorem isPoly_vdot {v w : List Expr} {e : Expr} (hv : ∀ e ∈ v, IsPoly e) (hw : ∀ e ∈ w, IsPoly e)
    (h : vdot v w = some e) : IsPoly e := by
  unfold vdot at h
  split_ifs at h
  rw [← Option.some.inj h]
  refine isPoly_foldl _ _ _ trivial fun e he i hi => ⟨he, hv _ (List.of_mem_zip hi).1, hw _ (List.of_mem_zip hi).2⟩

theorem isPoly_entry {m : List (List Expr)} (hm : ∀ r ∈ m, ∀ e ∈ r, IsPoly e) (i j : ℕ) :
    IsPoly (Functions.entry m i j) := by
  unfold Functions.entry
  cases hr : m[i]? with
  | none => simp [IsPoly]
  | some r =>
    cases he : r[j]? with
    | none => simp [he, IsPoly]
    | some e =>
      simp only [Option.getD_some, he]
      exact hm r (List.mem_of_getElem? hr) e (List.mem_of_getElem? he)

theorem isPoly_mdot {v w : List (List Expr)} {e : Expr} (hv : ∀ r ∈ v, ∀ e ∈ r, IsPoly e)
    (hw : ∀ r ∈ w, ∀ e ∈ r, IsPoly e) (h : mdot v w = some e) : IsPoly e := by
  unfold mdot at h
  split_ifs at h
  rw [← Option.some.inj h]
  exact isPoly_foldl _ _ _ trivial fun e he i _ => isPoly_foldl _ _ _ he fun e he j _ =>
    ⟨he, isPoly_entry hv i j, isPoly_entry hw i j⟩

theorem isPoly_dot {f g : FnObj} {e : Expr} (hf : f.IsPoly) (hg : g.IsPoly) (h : f.dot g = some e) :
    IsPoly e := by
  unfold FnObj.dot at h
  split at h
  · rw [← Option.some.inj h]; exact ⟨hf, hg⟩
  · exact isPoly_vdot hf hg h
  · exact isPoly_mdot hf hg h
  · simp at h

theorem mkMat_eq {m m' : List (List Expr)} (h : mkMat m = some m') : m' = m := by
  unfold mkMat at h
  split_ifs at h
  exact (Option.some.inj h).symm

theorem isPoly_subs {f f' : FnObj} (hf : f.IsPoly) (vars : List String) (values : List Expr)
    (hv : ∀ v ∈ values, IsPoly v) (h : f.subs vars values = some f') : f'.IsPoly := by
  cases f with
  | scalar f => rw [← Option.some.inj h]; exact isPoly_subsList hf _ _ hv
  | vector v =>
    rw [← Option.some.inj h]
    intro e he
    obtain ⟨e, he', rfl⟩ := List.mem_map.1 he
    exact isPoly_subsList (hf e he') _ _ hv
  | matrix m =>
    simp only [FnObj.subs, Option.map_eq_some_iff] at h
    obtain ⟨m', hm, rfl⟩ := h
    rw [mkMat_eq hm]
    intro r hr e he
    obtain ⟨r, hr', rfl⟩ := List.mem_map.1 hr
    obtain ⟨e, he', rfl⟩ := List.mem_map.1 he
    exact isPoly_subsList (hf r hr' e he') _ _ hv

theorem isPoly_divergence {f : FnObj} {e : Expr} (hf : f.IsPoly) (h : f.divergence = some e) : IsPoly e := by
  cases f with
  | vector v =>
    rw [← Option.some.inj h]
    exact isPoly_foldl _ _ _ trivial fun e he i hi => ⟨he, isPoly_diff (hf _ (List.of_mem_zip hi).1) _⟩
  | scalar => simp [FnObj.divergence] at h
  | matrix => simp [FnObj.divergence] at h

theorem isPoly_gradient {f : FnObj} {v : List Expr} (d : ℕ) (hf : f.IsPoly) (h : f.gradient d = some v) :
    ∀ e ∈ v, IsPoly e := by
  cases f with
  | scalar f =>
    rw [← Option.some.inj h]
    intro e he
    obtain ⟨i, -, rfl⟩ := List.mem_map.1 he
    exact isPoly_diff hf _
  | vector => simp [FnObj.gradient] at h
  | matrix => simp [FnObj.gradient] at h

theorem isPoly_multiDirectional {f f' : FnObj} (dirs : List (List ℝ)) (orders : List ℕ) (hf : f.IsPoly)
    (h : multiDirectional dirs orders f = some f') : f'.IsPoly := by
  unfold multiDirectional at h
  generalize (dirs.zip orders).flatMap (fun ij => List.replicate ij.2 ij.1) = L at h
  induction L generalizing f with
  | nil =>
    simp only [List.foldlM_nil, Option.pure_def, Option.some.injEq] at h
    rwa [← h]
  | cons d L ih =>
    simp only [List.foldlM_cons, Option.bind_eq_bind, Option.bind_eq_some_iff, Option.pure_def,
      Option.some.injEq] at h
    obtain ⟨f1, ⟨v, hv, p, hp, rfl⟩, h⟩ := h
    refine ih (f := .scalar p) (isPoly_vdot (isPoly_gradient _ hf hv) ?_ hp) h
    intro e he
    obtain ⟨c, -, rfl⟩ := List.mem_map.1 he
    trivial

theorem isPoly_mapM {α : Type} (L : List α) (φ : α → Option Expr) (v : List Expr) (hv : L.mapM φ = some v)
    (h : ∀ i e, φ i = some e → IsPoly e) : ∀ e ∈ v, IsPoly e := by
  induction L generalizing v with
  | nil =>
    simp only [List.mapM_nil, Option.pure_def, Option.some.injEq] at hv
    subst hv
    simp
  | cons i L ih =>
    rw [List.mapM_cons] at hv
    simp only [Option.bind_eq_bind, Option.bind_eq_some_iff, Option.pure_def, Option.some.injEq] at hv
    obtain ⟨p, hp, v', hv', rfl⟩ := hv
    intro e he
    rcases List.mem_cons.1 he with rfl | he
    · exact h _ _ hp
    · exact ih v' hv' e he

theorem isPoly_mvec {m : List (List Expr)} {v w : List Expr} (hm : ∀ r ∈ m, ∀ e ∈ r, IsPoly e)
    (hv : ∀ e ∈ v, IsPoly e) (h : mvec m v = some w) : ∀ e ∈ w, IsPoly e := by
  unfold mvec at h
  split_ifs at h
  refine isPoly_mapM _ _ _ h fun i e he => isPoly_vdot ?_ hv he
  intro e he
  obtain ⟨j, -, rfl⟩ := List.mem_map.1 he
  exact isPoly_entry hm i j

theorem step_isPoly {F : Functional} {f : FnObj} {D : Domain} {e : Expr} (hF : F.IsPoly) (hf : f.IsPoly)
    (h : step F f = some (.integrate D e)) : IsPoly e := by
  cases F with
  | pointEvaluation p => simp [step, Option.bind_eq_some_iff] at h
  | weightedPointEvaluation p w => simp [step, Option.bind_eq_some_iff] at h
  | derivativePointEvaluation p d => simp [step, Option.bind_eq_some_iff] at h
  | pointDirectionalDerivative p d => simp [step, Option.bind_eq_some_iff] at h
  | pointSecondDerivative p i j => simp [step, Option.bind_eq_some_iff] at h
  | pointInnerProduct p l r =>
    simp only [step, Option.bind_eq_bind, Option.bind_eq_some_iff, Option.pure_def] at h
    obtain ⟨v, hv, h⟩ := h
    cases v <;> simp [Option.bind_eq_some_iff] at h
  | dotPointEvaluation p vec => simp [step, Option.bind_eq_some_iff] at h
  | pointDivergence p => simp [step, Option.bind_eq_some_iff] at h
  | integralAgainst D' k =>
    simp only [step, Option.bind_eq_bind, Option.bind_eq_some_iff, Option.pure_def, Option.some.injEq,
      Step.integrate.injEq] at h
    obtain ⟨v, hv, e, he, rfl, rfl⟩ := h
    exact isPoly_dot (isPoly_subs hf _ _ (isPoly_point _) hv) hF he
  | integralOfDivergenceAgainst D' k =>
    simp only [step, Option.bind_eq_bind, Option.bind_eq_some_iff, Option.pure_def, Option.some.injEq,
      Step.integrate.injEq] at h
    obtain ⟨v, hv, rfl, rfl⟩ := h
    exact ⟨isPoly_subsList (isPoly_divergence hf hv) _ _ (isPoly_point _), hF⟩
  | integralOfDirectionalMultiderivative D' dirs orders scale =>
    simp only [step, Option.bind_eq_bind, Option.bind_eq_some_iff, Option.pure_def, Option.some.injEq,
      Step.integrate.injEq] at h
    obtain ⟨v, hv, w, hw, e, he, rfl, rfl⟩ := h
    have := isPoly_subs (isPoly_multiDirectional _ _ hf hv) _ _ (isPoly_point _) hw
    cases w with
    | scalar w => rw [← Option.some.inj he]; exact ⟨trivial, this⟩
    | vector => simp [asScalar] at he
    | matrix => simp [asScalar] at he
  | integralMoment D' k =>
    simp only [step, Option.bind_eq_bind, Option.bind_eq_some_iff, Option.pure_def, Option.some.injEq,
      Step.integrate.injEq] at h
    obtain ⟨v, hv, e, he, rfl, rfl⟩ := h
    exact isPoly_dot (isPoly_subs hf _ _ (isPoly_point _) hv) hF he
  | derivativeIntegralMoment D' k dw =>
    simp only [step, Option.bind_eq_bind, Option.bind_eq_some_iff, Option.pure_def, Option.some.injEq,
      Step.integrate.injEq] at h
    obtain ⟨v, hv, e, he, rfl, rfl⟩ := h
    refine ⟨isPoly_vdot ?_ hF.2 he, hF.1⟩
    intro e he
    obtain ⟨e, he', rfl⟩ := List.mem_map.1 he
    exact isPoly_subsList (isPoly_gradient _ hf hv e he') _ _ (isPoly_point _)
  | divergenceIntegralMoment D' k =>
    simp only [step, Option.bind_eq_bind, Option.bind_eq_some_iff, Option.pure_def, Option.some.injEq,
      Step.integrate.injEq] at h
    obtain ⟨v, hv, rfl, rfl⟩ := h
    exact ⟨isPoly_subsList (isPoly_divergence hf hv) _ _ (isPoly_point _), hF⟩
  | innerProductIntegralMoment D' k l r =>
    simp only [step, Option.bind_eq_bind, Option.bind_eq_some_iff, Option.pure_def] at h
    obtain ⟨v, hv, h⟩ := h
    have hv' := isPoly_subs hf _ _ (isPoly_point _) hv
    cases v with
    | scalar => simp at h
    | vector => simp at h
    | matrix m =>
      simp only [Option.bind_eq_some_iff, Option.some.injEq, Step.integrate.injEq] at h
      obtain ⟨w, hw, e, he, J, hJ, rfl, rfl⟩ := h
      exact ⟨⟨isPoly_vdot hF.2.1 (isPoly_mvec hv' hF.2.2 hw) he, hF.1⟩, trivial⟩

/-! ### Integrals of polynomials exist -/

theorem iterIntegrable_of_continuous (L : List (ℕ × Affine × Affine)) {f : (ℕ → ℝ) → ℝ} (hf : Continuous f) :
    IterIntegrable L f := by
  induction L generalizing f with
  | nil => trivial
  | cons s L ih =>
    obtain ⟨v, lo, hi⟩ := s
    refine ⟨fun p => ?_, ih (inner_continuous hf v lo hi)⟩
    have : Continuous fun s : ℝ => f (Function.update p v s) := hf.comp (by fun_prop)
    exact this.intervalIntegrable _ _

theorem continuous_eval {e : Expr} (he : IsPoly e) (env : String → ℝ) :
    Continuous fun z : ℕ → ℝ => e.eval (tEnv env z) := by
  induction e with
  | num => exact continuous_const
  | sym s =>
    simp only [eval, tEnv]
    split_ifs
    · exact continuous_apply 0
    · exact continuous_apply 1
    · exact continuous_apply 2
    · exact continuous_const
  | add a b iha ihb => exact (iha he.1).add (ihb he.2)
  | sub a b iha ihb => exact (iha he.1).sub (ihb he.2)
  | mul a b iha ihb => exact (iha he.1).mul (ihb he.2)
  | neg a ih => exact (ih he).neg
  | pow a n ih => exact (ih (show IsPoly a from he)).pow n
  | div => exact he.elim
  | sqrt => exact he.elim

theorem step_exists {F : Functional} {f : FnObj} (hF : F.IsPoly) (hf : f.IsPoly) (st : Step)
    (h : step F f = some st) : st.Exists := by
  cases st with
  | done => trivial
  | integrate D e =>
    intro env
    refine iterIntegrable_of_continuous _ (continuous_eval ?_ env)
    refine isPoly_foldl _ _ _ (step_isPoly hF hf h) fun e he i hi => isPoly_subst he ?_ _
    exact isPoly_integralPoint D _ (List.of_mem_zip hi).2

/-! ### Theorem -/

/-- **C53** For polynomials, nothing has to be assumed about integrals. -/
theorem evalSymbolic_linear_poly (F : Functional) (hF : F.IsPoly) (a b : ℝ) {f g h : FnObj} (hf : f.IsPoly)
    (hg : g.IsPoly) (hc : combination a b f g = some h) {r s : ℝ} (hr : evalSymbolic F f = some r)
    (hs : evalSymbolic F g = some s) : evalSymbolic F h = some (a * r + b * s) :=
  evalSymbolic_linear F a b hc hr hs (step_exists hF hf) (step_exists hF hg)

end Verif.Functionals
