import Verif.Functions.Model
import Mathlib.Data.List.Basic
import Mathlib.Logic.Function.Basic

/-!
# Substitution is simultaneous (C42)
-/

namespace Verif.Functions

open Expr

/-! ### Spec -/

/-- The values of the symbols after replacing variables, all at once, by values: the first variable
of the name counts. -/
noncomputable def replaced (env : String → ℝ) (vars : List String) (values : List Expr) (s : String) : ℝ :=
  match (vars.zip values).find? (fun vv => vv.1 = s) with
  | some vv => vv.2.eval env
  | none => env s

/-! ### Lemmas -/

theorem dummySym_injective : Function.Injective dummySym := by
  intro i j h
  unfold dummySym at h
  have h1 : (toString i : String) = toString j := by
    have := congrArg String.toList h
    simp only [String.toList_append, List.append_cancel_left_eq] at this
    exact String.ext_iff.2 this
  rw [Nat.toString_eq_ofList_toDigits, Nat.toString_eq_ofList_toDigits] at h1
  have h2 : Nat.toDigits 10 i = Nat.toDigits 10 j := by
    have := congrArg String.toList h1
    simpa using this
  rw [← Nat.ofDigitChars_ten_toDigits (n := i), h2, Nat.ofDigitChars_ten_toDigits]

/-- The values of the symbols seen by an expression to which substitutions are applied in order. -/
noncomputable def updates : List (String × Expr) → (String → ℝ) → String → ℝ
  | [], env => env
  | sv :: L, env => Function.update (updates L env) sv.1 (sv.2.eval (updates L env))

theorem eval_foldl_subst (L : List (String × Expr)) (f : Expr) (env : String → ℝ) :
    (L.foldl (fun e sv => e.subst sv.1 sv.2) f).eval env = f.eval (updates L env) := by
  induction L generalizing f with
  | nil => rfl
  | cons a L ih => rw [List.foldl_cons, ih, eval_subst]; rfl

theorem updates_of_notMem (L : List (String × Expr)) (env : String → ℝ) (s : String)
    (h : ∀ sv ∈ L, sv.1 ≠ s) : updates L env s = env s := by
  induction L with
  | nil => rfl
  | cons a L ih =>
    rw [updates, Function.update_of_ne (h a (by simp)).symm, ih fun sv hsv => h sv (by simp [hsv])]

/-- Substitutions that do not see each other. -/
theorem updates_eq (L : List (String × Expr)) (env : String → ℝ)
    (h : ∀ sv ∈ L, ∀ sv' ∈ L, ¬ sv.2.Has sv'.1) (s : String) :
    updates L env s = match L.find? (fun sv => sv.1 = s) with
      | some sv => sv.2.eval env
      | none => env s := by
  induction L with
  | nil => rfl
  | cons a L ih =>
    by_cases hs : a.1 = s
    · rw [List.find?_cons_of_pos (by simpa using hs), updates, hs, Function.update_self]
      refine eval_congr fun s' hs' => updates_of_notMem L env s' fun sv hsv he => ?_
      exact h a (by simp) sv (by simp [hsv]) (he ▸ hs')
    · rw [List.find?_cons_of_neg (by simpa using hs), updates,
        Function.update_of_ne (fun e => hs e.symm)]
      exact ih fun sv hsv sv' hsv' => h sv (by simp [hsv]) sv' (by simp [hsv'])

theorem find?_zip_dummy (l : List String) (hl : l.Nodup) (values : List Expr) (h : values.length = l.length)
    (i : ℕ) (hi : i < values.length) :
    (l.zip values).find? (fun sv => sv.1 = l[i]'(by omega)) = some (l[i]'(by omega), values[i]) := by
  induction l generalizing values i with
  | nil => rw [h] at hi; simp at hi
  | cons d l ih =>
    cases values with
    | nil => simp at hi
    | cons v values =>
      rw [List.zip_cons_cons]
      cases i with
      | zero => simp
      | succ i =>
        have hi' : i < values.length := by simpa using hi
        have hne : d ≠ l[i]'(by simp at h; omega) := by
          intro he
          exact (List.nodup_cons.1 hl).1 (he ▸ List.getElem_mem _)
        rw [List.find?_cons_of_neg (by simpa using hne)]
        simpa using ih (List.nodup_cons.1 hl).2 values (by simpa using h) i hi'

/-! ### Theorems -/

/-- **C42** `subs(vars, values)` evaluates as if the variables were replaced all at once, if the
private symbols are not used. -/
theorem subsList_eval (f : Expr) (vars : List String) (values : List Expr) (env : String → ℝ)
    (hf : ∀ i < values.length, ¬ f.Has (dummySym i))
    (hvars : ∀ i < values.length, dummySym i ∉ vars)
    (hvalues : ∀ i < values.length, ∀ v ∈ values, ¬ v.Has (dummySym i)) :
    (subsList f vars values).eval env = f.eval (replaced env vars values) := by
  unfold subsList
  set dummy := (List.range values.length).map dummySym with hd
  have hlen : dummy.length = values.length := by simp [hd]
  have hdn : dummy.Nodup := List.Nodup.map dummySym_injective List.nodup_range
  have hmem : ∀ s, s ∈ dummy ↔ ∃ i < values.length, dummySym i = s := by simp [hd]
  simp only
  rw [eval_foldl_subst]
  -- the second loop
  have h2 : ∀ s, updates (dummy.zip values) env s =
      match (dummy.zip values).find? (fun sv => sv.1 = s) with
      | some sv => sv.2.eval env
      | none => env s := by
    refine updates_eq _ env ?_
    rintro ⟨s, v⟩ hsv ⟨s', v'⟩ hsv' hhas
    obtain ⟨i, hi, rfl⟩ := (hmem s').1 (List.of_mem_zip hsv').1
    exact hvalues i hi v (List.of_mem_zip hsv).2 hhas
  have h2d : ∀ i (hi : i < values.length), updates (dummy.zip values) env dummy[i] =
      values[i].eval env := by
    intro i hi
    rw [h2, find?_zip_dummy dummy hdn values hlen.symm i hi]
  have h2n : ∀ s, s ∉ dummy → updates (dummy.zip values) env s = env s := by
    intro s hs
    refine updates_of_notMem _ _ _ ?_
    rintro ⟨s', v⟩ hsv rfl
    exact hs (List.of_mem_zip hsv).1
  -- the first loop
  have e1 : ∀ (L : List (String × String)) (g : Expr), L.foldl (fun subbed ij => subbed.subst ij.1 (sym ij.2)) g =
      (L.map fun ij => (ij.1, sym ij.2)).foldl (fun e sv => e.subst sv.1 sv.2) g := by
    intro L g; rw [List.foldl_map]
  rw [e1, eval_foldl_subst]
  refine eval_congr fun s hs => ?_
  have hsd : s ∉ dummy := by
    intro h
    obtain ⟨i, hi, rfl⟩ := (hmem s).1 h
    exact hf i hi hs
  rw [updates_eq]
  · -- compare the two searches
    have hidx : ∀ (vars dummy' : List String) (values' : List Expr) (hdv : dummy'.length = values'.length),
        (∀ i (hi : i < values'.length), updates (dummy.zip values) env (dummy'[i]'(by omega)) = values'[i].eval env) →
        (match ((vars.zip dummy').map fun ij => (ij.1, sym ij.2)).find? (fun sv => sv.1 = s) with
          | some sv => sv.2.eval (updates (dummy.zip values) env)
          | none => updates (dummy.zip values) env s) = replaced env vars values' s := by
      intro vars
      induction vars with
      | nil => intro d v _ _; simpa [replaced] using h2n s hsd
      | cons a vars ih =>
        intro d v hdv hu
        cases d with
        | nil =>
          cases v with
          | nil => simpa [replaced] using h2n s hsd
          | cons _ _ => simp at hdv
        | cons d0 d =>
          cases v with
          | nil => simp at hdv
          | cons v0 v =>
            by_cases ha : a = s
            · have := hu 0 (by simp)
              simp only [List.getElem_cons_zero] at this
              simp [replaced, ha, eval, this]
            · have := ih d v (by simpa using hdv) fun i hi => by
                exact hu (i + 1) (by simpa using hi)
              simpa [replaced, ha] using this
    exact hidx vars dummy values hlen h2d
  · rintro ⟨a, b⟩ hab ⟨a', b'⟩ hab' hhas
    simp only [List.mem_map, Prod.mk.injEq, Prod.exists] at hab hab'
    obtain ⟨v, d, hvd, rfl, rfl⟩ := hab
    obtain ⟨v', d', hvd', rfl, rfl⟩ := hab'
    have : v' = d := hhas
    subst this
    obtain ⟨i, hi, hid⟩ := (hmem v').1 (List.of_mem_zip hvd).2
    exact hvars i hi (hid ▸ (List.of_mem_zip hvd').1)

/-- Swapping two variables: the result is not that of replacing one after the other. -/
example (env : String → ℝ) : (subsList (sub (sym "x") (mul (num 2) (sym "y"))) ["x", "y"] [sym "y", sym "x"]).eval env =
    env "y" - 2 * env "x" := by
  rw [subsList_eval]
  · simp [eval, replaced]
  all_goals
    intro i hi
    have : i = 0 ∨ i = 1 := by simp at hi; omega
    rcases this with rfl | rfl <;> simp [Has, dummySym] <;> decide

/-- **C42** Vectors and matrices are substituted component by component. -/
theorem vsubs_eval (v : List Expr) (vars : List String) (values : List Expr) (env : String → ℝ)
    (hf : ∀ i < values.length, ∀ f ∈ v, ¬ f.Has (dummySym i))
    (hvars : ∀ i < values.length, dummySym i ∉ vars)
    (hvalues : ∀ i < values.length, ∀ v ∈ values, ¬ v.Has (dummySym i)) :
    (vsubs v vars values).map (·.eval env) = v.map (·.eval (replaced env vars values)) := by
  unfold vsubs
  rw [List.map_map]
  exact List.map_congr_left fun f hfv => subsList_eval f vars values env (fun i hi => hf i hi f hfv) hvars hvalues

/-- **C42** With one variable. -/
theorem subsOne_eval (f : Expr) (var : String) (value : Expr) (env : String → ℝ) :
    (subsOne f var value).eval env = f.eval (Function.update env var (value.eval env)) :=
  eval_subst env var value f

end Verif.Functions
