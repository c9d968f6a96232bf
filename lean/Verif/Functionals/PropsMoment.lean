import Verif.Functionals.PropsPoly
import Verif.Functions.PropsSubs
import Mathlib.Analysis.SpecialFunctions.Integrals.Basic
import Mathlib.Tactic.NormNum

/-!
# What the integral functionals compute (C61, C80)
-/

namespace Verif.Functionals

open Verif.Functions Verif.Functions.Expr Verif.References Verif.Orthogonal MeasureTheory

/-! ### Spec -/

/-- The point of the domain with parameters `z`. -/
noncomputable def Domain.param (D : Domain) (z : ℕ → ℝ) (i : ℕ) : ℝ :=
  D.v 0 i + ∑ k ∈ Finset.range D.cell.tdim, (D.v ((axisVertices D.cell).getD k 0) i - D.v 0 i) * z k

/-- The values of the symbols at the point with parameters `z`. -/
noncomputable def Domain.env (D : Domain) (env : String → ℝ) (z : ℕ → ℝ) (s : String) : ℝ :=
  if s = "x" ∧ 0 < D.g then D.param z 0 else if s = "y" ∧ 1 < D.g then D.param z 1
  else if s = "z" ∧ 2 < D.g then D.param z 2 else tEnv env z s

/-- The values of the symbols when the coordinates are the parameters. -/
noncomputable def xEnv (env : String → ℝ) (z : ℕ → ℝ) (s : String) : ℝ :=
  if s = "x" then z 0 else if s = "y" then z 1 else if s = "z" then z 2 else tEnv env z s

/-- No private symbols of `subs`. -/
def NoDummy (f : Expr) : Prop := ∀ i, ¬ f.Has (dummySym i)

/-- Does not depend on the coordinates. -/
def NoX (f : Expr) : Prop := ∀ s ∈ x, ¬ f.Has s

/-! ### Lemmas -/

theorem eval_point (D : Domain) (h : (axisVertices D.cell).length = D.cell.tdim) (ht : D.cell.tdim ≤ 3)
    (env : String → ℝ) (z : ℕ → ℝ) (hz : ∀ k < 3, ∀ s, t[k]? = some s → env s = z k) :
    D.point.map (·.eval env) = (List.range D.g).map (D.param z) := by
  unfold Domain.point Domain.param
  rw [List.map_map]
  refine List.map_congr_left fun i _ => ?_
  simp only [Function.comp]
  rw [eval_foldl_add, h]
  have h0 := hz 0 (by omega) "t0" rfl
  have h1 := hz 1 (by omega) "t1" rfl
  have h2 := hz 2 (by omega) "t2" rfl
  generalize D.cell.tdim = n at ht
  have : n = 0 ∨ n = 1 ∨ n = 2 ∨ n = 3 := by omega
  rcases this with rfl | rfl | rfl | rfl <;>
    simp [List.range_succ, Functions.t, eval, Finset.sum_range_succ, axis, psub, h0, h1, h2, add_assoc]

theorem dummySym_ne (i : ℕ) (s : String) (h : s.toList.head? ≠ some 'D') : dummySym i ≠ s := by
  intro e
  apply h
  rw [← e]
  unfold dummySym
  rw [String.toList_append]
  rfl

theorem dummySym_notMem_x (i : ℕ) : dummySym i ∉ x := by
  intro h
  have : ∀ s ∈ x, s.toList.head? ≠ some 'D' := by decide
  exact dummySym_ne i _ (this _ h) rfl

theorem dummySym_notMem_t (i : ℕ) : dummySym i ∉ t := by
  intro h
  have : ∀ s ∈ t, s.toList.head? ≠ some 'D' := by decide
  exact dummySym_ne i _ (this _ h) rfl

theorem has_foldl_add {α : Type} (l : List α) (g : α → Expr) (e : Expr) (s : String)
    (h : (l.foldl (fun e i => add e (g i)) e).Has s) : e.Has s ∨ ∃ i ∈ l, (g i).Has s := by
  induction l generalizing e with
  | nil => exact .inl h
  | cons i l ih =>
    rcases ih _ h with (h | h) | ⟨j, hj, h⟩
    · exact .inl h
    · exact .inr ⟨i, by simp, h⟩
    · exact .inr ⟨j, by simp [hj], h⟩

theorem has_point {D : Domain} {e : Expr} (he : e ∈ D.point) {s : String} (h : e.Has s) : s ∈ t := by
  obtain ⟨i, -, rfl⟩ := List.mem_map.1 he
  rcases has_foldl_add _ _ _ _ h with h | ⟨k, hk, h⟩
  · exact h.elim
  · rcases h with h | h
    · exact h.elim
    · have : s = k.2 := h
      rw [this]
      exact (List.of_mem_zip hk).2

/-- The values of the coordinates seen by a function after `subs(x, point)`. -/
theorem eval_subs_point (D : Domain) (hg : D.g ≤ 3) (h : (axisVertices D.cell).length = D.cell.tdim)
    (ht : D.cell.tdim ≤ 3) {f : Expr} (hf : NoDummy f) (env env' : String → ℝ) (z : ℕ → ℝ)
    (he : ∀ s, (s = "x" → D.g = 0) → (s = "y" → D.g ≤ 1) → (s = "z" → D.g ≤ 2) → env' s = tEnv env z s) :
    (subsList f x D.point).eval env' = f.eval (D.env env z) := by
  rw [subsList_eval f x D.point env' (fun i _ => hf i) (fun i _ => dummySym_notMem_x i)
    (fun i _ v hv hh => dummySym_notMem_t i (has_point hv hh))]
  have hp := eval_point D h ht env' z (by
    intro k hk s hs
    have : k = 0 ∨ k = 1 ∨ k = 2 := by omega
    rcases this with rfl | rfl | rfl <;> (simp [Functions.t] at hs; subst hs) <;>
      (rw [he _ (by simp) (by simp) (by simp)]; simp [tEnv]))
  congr 1
  funext s
  unfold replaced Domain.env
  have hl : D.point.length = D.g := by simp [Domain.point]
  revert hp hl
  generalize D.point = P
  intro hp hl
  have : D.g = 0 ∨ D.g = 1 ∨ D.g = 2 ∨ D.g = 3 := by omega
  by_cases hx : s = "x"
  · subst hx
    cases P with
    | nil => simp at hl; simp [Functions.x, ← hl]; exact he _ (by simp [← hl]) (by simp) (by simp)
    | cons p P =>
      rcases this with hg | hg | hg | hg <;> rw [hg] at hp hl <;> simp [List.range_succ] at hp hl <;>
        simp [Functions.x, hg, hp.1]
  by_cases hy : s = "y"
  · subst hy
    rcases P with _ | ⟨p, _ | ⟨q, P⟩⟩
    · simp at hl; simp [Functions.x, ← hl]; exact he _ (by simp) (by simp [← hl]) (by simp)
    · simp at hl; simp [Functions.x, ← hl]; exact he _ (by simp) (by simp [← hl]) (by simp)
    · rcases this with hg | hg | hg | hg <;> rw [hg] at hp hl <;> simp [List.range_succ] at hp hl <;>
        simp [Functions.x, hg, hp.2.1]
  by_cases hz : s = "z"
  · subst hz
    rcases P with _ | ⟨p, _ | ⟨q, _ | ⟨r, P⟩⟩⟩
    · simp at hl; simp [Functions.x, ← hl]; exact he _ (by simp) (by simp) (by simp [← hl])
    · simp at hl; simp [Functions.x, ← hl]; exact he _ (by simp) (by simp) (by simp [← hl])
    · simp at hl; simp [Functions.x, ← hl]; exact he _ (by simp) (by simp) (by simp [← hl])
    · rcases this with hg | hg | hg | hg <;> rw [hg] at hp hl <;> simp [List.range_succ] at hp hl <;>
        simp [Functions.x, hg, hp.2.2.1]
  · have : (x.zip P).find? (fun vv => vv.1 = s) = none := by
      rw [List.find?_eq_none]
      intro vv hvv
      have := (List.of_mem_zip hvv).1
      simp [Functions.x] at this
      rcases this with h | h | h <;> simp [h, Ne.symm hx, Ne.symm hy, Ne.symm hz]
    rw [this]
    simp [hx, hy, hz]
    exact he s (by simp [hx]) (by simp [hy]) (by simp [hz])

/-- Agrees with the parameters, away from the coordinates. -/
def Agrees (D : Domain) (env : String → ℝ) (z : ℕ → ℝ) (env' : String → ℝ) : Prop :=
  ∀ s, (s = "x" → D.g = 0) → (s = "y" → D.g ≤ 1) → (s = "z" → D.g ≤ 2) → env' s = tEnv env z s

theorem agrees_updates (D : Domain) (env : String → ℝ) (z : ℕ → ℝ) :
    Agrees D env z (updates (x.zip D.integralPoint) (tEnv env z)) := by
  intro s hx hy hz
  refine updates_of_notMem _ _ _ ?_
  rintro ⟨a, p⟩ hm rfl
  have hl : D.integralPoint.length = D.g := by simp [Domain.integralPoint]
  obtain ⟨i, hi⟩ := List.mem_iff_getElem?.1 hm
  rw [List.getElem?_zip_eq_some] at hi
  have hlt : i < D.g := by
    rw [← hl]
    exact (List.getElem?_eq_some_iff.1 hi.2).1
  have h3 : i < 3 := by
    have := (List.getElem?_eq_some_iff.1 hi.1).1
    simpa [Functions.x] using this
  have : i = 0 ∨ i = 1 ∨ i = 2 := by omega
  rcases this with rfl | rfl | rfl <;> simp [Functions.x] at hi
  · have := hx hi.1.symm; omega
  · have := hy hi.1.symm; omega
  · have := hz hi.1.symm; omega

/-- The value of an integrand that is known on the domain. -/
theorem integral_of_agrees (D : Domain) (hc : D.cell ≠ .point) {J : ℝ}
    (hJ : References.jacobian D.cell D.g D.v = some J) (e : Expr) (E : (String → ℝ) → (ℕ → ℝ) → ℝ)
    (h : ∀ env z env', Agrees D env z env' → e.eval env' = E env z) :
    integral D e = some fun env => cellInt D.cell fun z => E env z * J := by
  rw [integral_eq_some]
  refine ⟨hc, J, hJ, ?_⟩
  funext env
  congr 1
  funext z
  rw [eval_foldl_subst, h env z _ (agrees_updates D env z)]

theorem jacobian_dims {D : Domain} {J : ℝ} (hJ : References.jacobian D.cell D.g D.v = some J) :
    (axisVertices D.cell).length = D.cell.tdim ∧ D.cell.tdim ≤ 3 := by
  unfold References.jacobian at hJ
  split_ifs at hJ <;> simp_all

theorem eval_noX (D : Domain) {k : Expr} (hk : NoX k) {env env' : String → ℝ} {z : ℕ → ℝ}
    (h : Agrees D env z env') : k.eval env' = k.eval (tEnv env z) := by
  refine eval_congr fun s hs => h s ?_ ?_ ?_ <;> rintro rfl
  · exact absurd hs (hk _ (by simp [Functions.x]))
  · exact absurd hs (hk _ (by simp [Functions.x]))
  · exact absurd hs (hk _ (by simp [Functions.x]))

theorem vdot_sum {v w : List Expr} (h : v.length = w.length) : ∃ e, vdot v w = some e ∧
    ∀ env, e.eval env = ∑ i ∈ Finset.range v.length,
      (v.getD i (num 0)).eval env * (w.getD i (num 0)).eval env := by
  unfold vdot
  rw [if_pos h]
  refine ⟨_, rfl, fun env => ?_⟩
  rw [eval_foldl_add]
  simp only [eval, zero_add]
  induction v generalizing w with
  | nil => simp
  | cons a v ih =>
    cases w with
    | nil => simp at h
    | cons b w =>
      rw [List.length_cons, Finset.sum_range_succ']
      simp only [List.zip_cons_cons, List.map_cons, List.sum_cons, List.getD_cons_succ, List.getD_cons_zero]
      rw [ih (by simpa using h)]
      ring

theorem eval_subs_t (D : Domain) {k : Expr} (hk : NoDummy k) {env env' : String → ℝ} {z : ℕ → ℝ}
    (h : Agrees D env z env') : (subsList k x (t.map sym)).eval env' = k.eval (xEnv env z) := by
  have hh : ∀ i, ∀ v ∈ t.map sym, ¬ v.Has (dummySym i) := by
    intro i v hv hs
    obtain ⟨s, hs', rfl⟩ := List.mem_map.1 hv
    have e : dummySym i = s := hs
    exact dummySym_notMem_t i (e ▸ hs')
  rw [subsList_eval k x (t.map sym) env' (fun i _ => hk i) (fun i _ => dummySym_notMem_x i)
    (fun i _ v hv => hh i v hv)]
  congr 1
  funext s
  have h0 := h "t0" (by simp) (by simp) (by simp)
  have h1 := h "t1" (by simp) (by simp) (by simp)
  have h2 := h "t2" (by simp) (by simp) (by simp)
  simp only [tEnv] at h0 h1 h2
  unfold replaced xEnv
  by_cases hx : s = "x"
  · subst hx; simpa [Functions.x, Functions.t, eval] using h0
  by_cases hy : s = "y"
  · subst hy; simpa [Functions.x, Functions.t, eval] using h1
  by_cases hz : s = "z"
  · subst hz; simpa [Functions.x, Functions.t, eval] using h2
  have e : (x.zip (t.map sym)).find? (fun vv => vv.1 = s) = none := by
    simp [Functions.x, Functions.t, Ne.symm hx, Ne.symm hy, Ne.symm hz]
  rw [e]
  simp only [hx, hy, hz, if_false]
  exact h s (by simp [hx]) (by simp [hy]) (by simp [hz])

theorem has_of_diff {e : Expr} {s r : String} (h : (e.diff s).Has r) : e.Has r := by
  induction e with
  | num => exact h.elim
  | sym s' =>
    unfold diff at h
    split_ifs at h <;> exact h.elim
  | add a b iha ihb => exact h.imp iha ihb
  | sub a b iha ihb => exact h.imp iha ihb
  | mul a b iha ihb =>
    rcases h with (h | h) | (h | h)
    exacts [.inl (iha h), .inr h, .inl h, .inr (ihb h)]
  | neg a ih => exact ih h
  | pow a n ih =>
    rcases h with (h | h) | h
    exacts [h.elim, h, ih h]
  | div a b iha ihb =>
    rcases h with ((h | h) | (h | h)) | h
    exacts [.inl (iha h), .inr h, .inl h, .inr (ihb h), .inr h]
  | sqrt a ih =>
    rcases h with h | (h | h)
    exacts [ih h, h.elim, h]

theorem NoDummy.diff {f : Expr} (hf : NoDummy f) (s : String) : NoDummy (f.diff s) := fun i h => hf i (has_of_diff h)

theorem noDummy_divergence {f : List Expr} (hf : ∀ e ∈ f, NoDummy e) : NoDummy (vdivergence f) := by
  intro i h
  rcases has_foldl_add _ (fun ij : Expr × String => ij.1.diff ij.2) _ _ h with h | ⟨j, hj, h⟩
  · exact h.elim
  · exact (hf _ (List.of_mem_zip hj).1).diff _ i h

theorem eval_vdivergence (f : List Expr) (hl : f.length ≤ 3) (env : String → ℝ) :
    (vdivergence f).eval env = ∑ i ∈ Finset.range f.length, ((f.getD i (num 0)).diff (x.getD i "")).eval env := by
  rcases f with _ | ⟨a, _ | ⟨b, _ | ⟨c, _ | ⟨d, f⟩⟩⟩⟩
  case cons.cons.cons.cons => simp at hl; omega
  all_goals simp [vdivergence, Functions.x, eval, Finset.sum_range_succ]

theorem noDummy_directional {f : Expr} (hf : NoDummy f) (d : List ℝ) :
    NoDummy (directionalDerivative f (d.map num)) := by
  intro i h
  unfold directionalDerivative at h
  rcases has_foldl_add _ (fun ij : String × Expr => mul ij.2 (f.diff ij.1)) _ _ h with h | ⟨j, hj, h⟩
  · exact h.elim
  · rcases h with h | h
    · obtain ⟨c, -, e⟩ := List.mem_map.1 (List.of_mem_zip hj).2
      rw [← e] at h
      exact h.elim
    · exact hf.diff _ i h

theorem eval_subs_num {f : Expr} (hf : NoDummy f) (p : List ℝ) (env : String → ℝ) :
    (subsList f x (p.map num)).eval env = f.eval (replaced env x (p.map num)) := by
  refine subsList_eval f x _ env (fun i _ => hf i) (fun i _ => dummySym_notMem_x i) fun i _ v hv => ?_
  obtain ⟨c, -, rfl⟩ := List.mem_map.1 hv
  exact id

theorem multiDiff_scalar (d : List ℕ) (f : Expr) : multiDiff d (.scalar f) = some (.scalar
    (((x.zip d).flatMap fun ij => List.replicate ij.2 ij.1).foldl (fun e s => e.diff s) f)) := by
  unfold multiDiff
  generalize (x.zip d).flatMap (fun ij => List.replicate ij.2 ij.1) = L
  induction L generalizing f with
  | nil => rfl
  | cons s L ih => exact ih (f.diff s)

theorem NoDummy.diffs {f : Expr} (hf : NoDummy f) (L : List String) :
    NoDummy (L.foldl (fun e s => e.diff s) f) := by
  induction L generalizing f with
  | nil => exact hf
  | cons s L ih => exact ih (hf.diff s)

/-! ### Theorems -/

section
variable {D : Domain} (hg : D.g ≤ 3) (hc : D.cell ≠ .point) {J : ℝ}
  (hJ : References.jacobian D.cell D.g D.v = some J)
include hg hc hJ

/-- **C80** The integral moment of a scalar function is the integral over the domain of the function
times the moment function, which is a function of the parameters. -/
theorem integralMoment_scalar {f k : Expr} (hf : NoDummy f) (hk : NoX k) :
    value (.integralMoment D (.scalar k)) (.scalar f) = some fun env => cellInt D.cell fun z =>
      f.eval (D.env env z) * k.eval (tEnv env z) * J := by
  obtain ⟨h1, h2⟩ := jacobian_dims hJ
  refine integral_of_agrees D hc hJ _ _ fun env z env' h => ?_
  simp only [eval]
  rw [eval_subs_point D hg h1 h2 hf env env' z h, eval_noX D hk h]

/-- **C80** The integral moment of a vector function is the integral of the dot product. -/
theorem integralMoment_vector {f k : List Expr} (hl : f.length = k.length) (hf : ∀ e ∈ f, NoDummy e)
    (hk : ∀ e ∈ k, NoX e) :
    value (.integralMoment D (.vector k)) (.vector f) = some fun env => cellInt D.cell fun z =>
      (∑ i ∈ Finset.range f.length, (f.getD i (num 0)).eval (D.env env z) *
        (k.getD i (num 0)).eval (tEnv env z)) * J := by
  obtain ⟨h1, h2⟩ := jacobian_dims hJ
  obtain ⟨e, he, hv⟩ := vdot_sum (v := vsubs f x D.point) (w := k) (by simp [vsubs, hl])
  simp only [value, step, FnObj.subs, FnObj.dot, Option.bind_eq_bind, Option.bind_some, he, Step.value,
    Option.pure_def]
  refine integral_of_agrees D hc hJ _ _ fun env z env' h => ?_
  rw [hv]
  simp only [vsubs, List.length_map]
  refine Finset.sum_congr rfl fun i hi => ?_
  have hi' : i < f.length := Finset.mem_range.1 hi
  rw [List.getD_eq_getElem (hn := by simpa using hi'), List.getElem_map,
    eval_subs_point D hg h1 h2 (hf _ (List.getElem_mem hi')) env env' z h,
    List.getD_eq_getElem (hn := hi'), List.getD_eq_getElem (hn := hl ▸ hi'),
    eval_noX D (hk _ (List.getElem_mem _)) h]

omit hg hc hJ in
/-- The same with the wrong number of components: an exception. -/
theorem integralMoment_vector_none {f k : List Expr} (hl : f.length ≠ k.length) :
    value (.integralMoment D (.vector k)) (.vector f) = none := by
  have : vdot (vsubs f x D.point) k = none := if_neg (by simpa [vsubs] using hl)
  simp [value, step, FnObj.subs, FnObj.dot, this]

/-- The moment against a vector whose components are known on the domain. -/
theorem integralMoment_of_agrees {f k : List Expr} (hl : f.length = k.length) (hf : ∀ e ∈ f, NoDummy e)
    (K : (String → ℝ) → (ℕ → ℝ) → ℕ → ℝ)
    (hk : ∀ env z env', Agrees D env z env' → ∀ i < k.length, (k.getD i (num 0)).eval env' = K env z i) :
    value (.integralMoment D (.vector k)) (.vector f) = some fun env => cellInt D.cell fun z =>
      (∑ i ∈ Finset.range f.length, (f.getD i (num 0)).eval (D.env env z) * K env z i) * J := by
  obtain ⟨h1, h2⟩ := jacobian_dims hJ
  obtain ⟨e, he, hv⟩ := vdot_sum (v := vsubs f x D.point) (w := k) (by simp [vsubs, hl])
  simp only [value, step, FnObj.subs, FnObj.dot, Option.bind_eq_bind, Option.bind_some, he, Step.value,
    Option.pure_def]
  refine integral_of_agrees D hc hJ _ _ fun env z env' h => ?_
  rw [hv]
  simp only [vsubs, List.length_map]
  refine Finset.sum_congr rfl fun i hi => ?_
  have hi' : i < f.length := Finset.mem_range.1 hi
  rw [hk env z env' h i (hl ▸ hi'), List.getD_eq_getElem (hn := by simpa using hi'), List.getElem_map,
    eval_subs_point D hg h1 h2 (hf _ (List.getElem_mem hi')) env env' z h,
    List.getD_eq_getElem (hn := hi')]

/-- **C80** A new integral moment of a scalar function is the integral over the domain of the function
times the moment function of the parameters. -/
theorem newIntegralMoment_scalar {f k : Expr} (hf : NoDummy f) (hk : NoDummy k) :
    ((newIntegralMoment D (.scalar k)).bind fun F => value F (.scalar f)) = some fun env =>
      cellInt D.cell fun z => f.eval (D.env env z) * k.eval (xEnv env z) * J := by
  obtain ⟨h1, h2⟩ := jacobian_dims hJ
  refine integral_of_agrees D hc hJ _ _ fun env z env' h => ?_
  simp only [eval]
  rw [eval_subs_point D hg h1 h2 hf env env' z h, eval_subs_t D hk h]

/-- **C80** The same for vector functions, with the dot product. -/
theorem newIntegralMoment_vector {f k : List Expr} (hl : f.length = k.length) (hf : ∀ e ∈ f, NoDummy e)
    (hk : ∀ e ∈ k, NoDummy e) :
    ((newIntegralMoment D (.vector k)).bind fun F => value F (.vector f)) = some fun env =>
      cellInt D.cell fun z => (∑ i ∈ Finset.range f.length, (f.getD i (num 0)).eval (D.env env z) *
        (k.getD i (num 0)).eval (xEnv env z)) * J := by
  refine integralMoment_of_agrees hg hc hJ (k := vsubs k x (t.map sym)) (by simpa [vsubs] using hl) hf _
    fun env z env' h i hi => ?_
  have hi' : i < k.length := by simpa [vsubs] using hi
  rw [List.getD_eq_getElem (hn := hi), List.getD_eq_getElem (hn := hi')]
  simp only [vsubs, List.getElem_map]
  exact eval_subs_t D (hk _ (List.getElem_mem hi')) h

theorem directed_value {f : List Expr} {k : Expr} (d : ℕ → ℝ) (hl : f.length = D.g)
    (hf : ∀ e ∈ f, NoDummy e) (hk : NoDummy k) :
    value (.integralMoment D (.vector ((List.range D.g).map fun i => mul (subsList k x (t.map sym)) (num (d i)))))
      (.vector f) = some fun env => cellInt D.cell fun z =>
        (∑ i ∈ Finset.range D.g, (f.getD i (num 0)).eval (D.env env z) * d i) * k.eval (xEnv env z) * J := by
  rw [integralMoment_of_agrees hg hc hJ (by simpa using hl) hf
    (fun env z i => k.eval (xEnv env z) * d i) fun env z env' h i hi => ?_]
  · congr 1
    funext env
    congr 1
    funext z
    rw [hl]
    congr 1
    rw [Finset.sum_mul]
    exact Finset.sum_congr rfl fun i _ => by ring
  · rw [List.getD_eq_getElem (hn := hi), List.getElem_map]
    simp only [eval, List.getElem_range]
    rw [eval_subs_t D hk h]

/-- **C80** The tangential integral moment on an edge is the integral of the tangential component times
the moment function. -/
theorem tangentIntegralMoment_value {f : List Expr} {k : Expr} {tg : ℕ → ℝ}
    (htg : tangent D.cell D.g D.v = some tg) (hl : f.length = D.g) (hf : ∀ e ∈ f, NoDummy e) (hk : NoDummy k) :
    ((tangentIntegralMoment D k).bind fun F => value F (.vector f)) = some fun env => cellInt D.cell fun z =>
      (∑ i ∈ Finset.range D.g, (f.getD i (num 0)).eval (D.env env z) * tg i) * k.eval (xEnv env z) * J := by
  rw [← directed_value hg hc hJ tg hl hf hk]
  simp [tangentIntegralMoment, htg]

/-- **C80** The normal integral moment on a facet is the integral of the normal component times the
moment function. -/
theorem normalIntegralMoment_value {f : List Expr} {k : Expr} {n : ℕ → ℝ}
    (hn : normal D.cell D.g D.v = some n) (hl : f.length = D.g) (hf : ∀ e ∈ f, NoDummy e) (hk : NoDummy k) :
    ((normalIntegralMoment D k).bind fun F => value F (.vector f)) = some fun env => cellInt D.cell fun z =>
      (∑ i ∈ Finset.range D.g, (f.getD i (num 0)).eval (D.env env z) * n i) * k.eval (xEnv env z) * J := by
  rw [← directed_value hg hc hJ n hl hf hk]
  simp [normalIntegralMoment, hn]

/-- **C80** The integral moment of the divergence. -/
theorem divergenceMoment_value {f : List Expr} {k : Expr} (hl : f.length ≤ 3) (hf : ∀ e ∈ f, NoDummy e)
    (hk : NoX k) :
    value (.divergenceIntegralMoment D k) (.vector f) = some (fun env => cellInt D.cell fun z =>
      (∑ i ∈ Finset.range f.length, ((f.getD i (num 0)).diff (x.getD i "")).eval (D.env env z)) *
        k.eval (tEnv env z) * J) ∧
    value (.integralOfDivergenceAgainst D k) (.vector f) = value (.divergenceIntegralMoment D k) (.vector f) := by
  obtain ⟨h1, h2⟩ := jacobian_dims hJ
  refine ⟨integral_of_agrees D hc hJ _ _ fun env z env' h => ?_, rfl⟩
  simp only [eval]
  rw [eval_subs_point D hg h1 h2 (noDummy_divergence hf) env env' z h, eval_noX D hk h, eval_vdivergence f hl]

/-- **C80** The integral moment of a directional derivative, with one entry of the direction per
coordinate. -/
theorem derivativeMoment_value {f k : Expr} (d : List ℝ) (hd : d.length = D.g) (hf : NoDummy f) (hk : NoX k) :
    value (.derivativeIntegralMoment D k (d.map num)) (.scalar f) = some fun env => cellInt D.cell fun z =>
      (∑ i ∈ Finset.range D.g, (f.diff (x.getD i "")).eval (D.env env z) * d.getD i 0) *
        k.eval (tEnv env z) * J := by
  obtain ⟨h1, h2⟩ := jacobian_dims hJ
  obtain ⟨e, he, hv⟩ := vdot_sum (v := vsubs (grad f D.g) x D.point) (w := d.map num)
    (by simp [vsubs, Functions.grad, hd])
  simp only [value, step, FnObj.gradient, Option.bind_eq_bind, Option.bind_some, he, Step.value, Option.pure_def]
  refine integral_of_agrees D hc hJ _ _ fun env z env' h => ?_
  simp only [eval]
  rw [hv, eval_noX D hk h]
  congr 1
  simp only [vsubs, Functions.grad, List.length_map, List.length_range]
  refine Finset.sum_congr rfl fun i hi => ?_
  have hi' : i < D.g := Finset.mem_range.1 hi
  have hid : i < d.length := hd ▸ hi'
  rw [List.getD_eq_getElem (hn := by simpa using hi'), List.getElem_map, List.getElem_map,
    List.getD_eq_getElem (l := d.map num) (hn := by simpa using hid), List.getElem_map, List.getElem_range,
    eval_subs_point D hg h1 h2 (hf.diff _) env env' z h, List.getD_eq_getElem (l := d) (hn := hid)]
  rfl

end

/-- **C80** Point evaluations are the values at the point. -/
theorem pointEvaluation_value {f : Expr} (hf : NoDummy f) (p : List ℝ) (w : Expr) :
    value (.pointEvaluation (p.map num)) (.scalar f) =
      some (fun env => f.eval (replaced env x (p.map num))) ∧
    value (.weightedPointEvaluation (p.map num) w) (.scalar f) =
      some (fun env => f.eval (replaced env x (p.map num)) * w.eval env) := by
  refine ⟨congrArg some ?_, congrArg some ?_⟩ <;> funext env
  · exact eval_subs_num hf p env
  · show (subsList f x (p.map num)).eval env * w.eval env = _
    rw [eval_subs_num hf p env]

/-- **C80** Evaluations of derivatives are the values of the derivatives at the point; the derivative is
taken before the point is inserted. -/
theorem derivativeEvaluation_value {f : Expr} (hf : NoDummy f) (p : List ℝ) :
    (∀ n : List ℕ, value (.derivativePointEvaluation (p.map num) n) (.scalar f) = some fun env =>
      (((x.zip n).flatMap fun ij => List.replicate ij.2 ij.1).foldl (fun e s => e.diff s) f).eval
        (replaced env x (p.map num))) ∧
    (∀ d : List ℝ, d.length ≤ 3 → value (.pointDirectionalDerivative (p.map num) (d.map num)) (.scalar f) =
      some fun env => ∑ i ∈ Finset.range d.length,
        d.getD i 0 * (f.diff (x.getD i "")).eval (replaced env x (p.map num))) ∧
    (∀ i j, value (.pointSecondDerivative (p.map num) i j) (.scalar f) =
      some fun env => ((f.diff (x.getD i "")).diff (x.getD j "")).eval (replaced env x (p.map num))) ∧
    ∀ v : List Expr, v.length ≤ 3 → (∀ e ∈ v, NoDummy e) →
      value (.pointDivergence (p.map num)) (.vector v) = some fun env => ∑ i ∈ Finset.range v.length,
        ((v.getD i (num 0)).diff (x.getD i "")).eval (replaced env x (p.map num)) := by
  refine ⟨fun n => ?_, fun d hd => congrArg some ?_, fun i j => congrArg some ?_, fun v hv hn => congrArg some ?_⟩
  · simp only [value, step, multiDiff_scalar, Option.bind_eq_bind, Option.bind_some, FnObj.subs, asScalar,
      Option.pure_def, Step.value]
    congr 1
    funext env
    exact eval_subs_num (hf.diffs _) p env
  · funext env
    rw [eval_subs_num (noDummy_directional hf d) p env]
    rcases d with _ | ⟨a, _ | ⟨b, _ | ⟨c, _ | ⟨d, f⟩⟩⟩⟩
    case cons.cons.cons.cons => simp at hd; omega
    all_goals simp [directionalDerivative, Functions.x, eval, Finset.sum_range_succ]
  · funext env
    exact eval_subs_num ((hf.diff _).diff _) p env
  · funext env
    rw [eval_subs_num (noDummy_divergence hn) p env, eval_vdivergence v hv]

/-- **C80** Dot products at a point. -/
theorem dotPointEvaluation_value {f w : List Expr} (hl : f.length = w.length) (hf : ∀ e ∈ f, NoDummy e)
    (hw : ∀ e ∈ w, NoDummy e) (p : List ℝ) :
    value (.dotPointEvaluation (p.map num) (.vector w)) (.vector f) = some fun env =>
      ∑ i ∈ Finset.range f.length, (f.getD i (num 0)).eval (replaced env x (p.map num)) *
        (w.getD i (num 0)).eval (replaced env x (p.map num)) := by
  obtain ⟨e, he, hv⟩ := vdot_sum (v := vsubs f x (p.map num)) (w := vsubs w x (p.map num))
    (by simp [vsubs, hl])
  simp only [value, step, FnObj.subs, FnObj.dot, Option.bind_eq_bind, Option.bind_some, he, Step.value,
    Option.pure_def]
  congr 1
  funext env
  rw [hv]
  simp only [vsubs, List.length_map]
  refine Finset.sum_congr rfl fun i hi => ?_
  have hi' : i < f.length := Finset.mem_range.1 hi
  have hiw : i < w.length := hl ▸ hi'
  rw [List.getD_eq_getElem (hn := by simpa using hi'), List.getElem_map,
    List.getD_eq_getElem (hn := by simpa using hiw), List.getElem_map,
    eval_subs_num (hf _ (List.getElem_mem hi')), eval_subs_num (hw _ (List.getElem_mem hiw)),
    List.getD_eq_getElem (hn := hi'), List.getD_eq_getElem (hn := hiw)]

/-! ### A case: the edge from (1, 0) to (0, 1) -/

/-- The edge from (1, 0) to (0, 1) -/
noncomputable def hypotenuse : Domain := ⟨.interval, 2, fun i j => if i = j then 1 else 0⟩

theorem hypotenuse_jacobian : References.jacobian hypotenuse.cell hypotenuse.g hypotenuse.v = some √2 := by
  simp only [hypotenuse, References.jacobian, axisVertices, List.length_singleton, Cell.tdim, if_true]
  congr 2
  simp [Finset.sum_range_succ, axis, axisVertices, psub]
  norm_num

/-- The moment of `x` against 1 is half the length. -/
theorem hypotenuse_moment : evalSymbolic (.integralMoment hypotenuse (.scalar (num 1))) (.scalar (sym "x")) =
    some (√2 / 2) := by
  have h := integralMoment_scalar (D := hypotenuse) (f := sym "x") (k := num 1) (by simp [hypotenuse])
    (by simp [hypotenuse]) hypotenuse_jacobian
    (fun i h => dummySym_notMem_x i (by rw [show dummySym i = "x" from h]; simp [Functions.x]))
    (fun s _ h => h)
  have e : ∀ env, (cellInt hypotenuse.cell fun z =>
      (sym "x").eval (hypotenuse.env env z) * (num 1).eval (tEnv env z) * √2) = √2 / 2 := by
    intro env
    show cellInt .interval _ = _
    rw [cellInt_interval]
    simp [eval, Domain.env, hypotenuse, Domain.param, Cell.tdim, axisVertices]
    rw [intervalIntegral.integral_add (by simp) (by simp)]
    simp
    ring
  unfold evalSymbolic
  rw [h]
  simp only [e]
  simp

/-- Linearity applies: the moment of `3x - 2x²` from those of `x` and `x²`. -/
example (r : ℝ) (h : evalSymbolic (.integralMoment hypotenuse (.scalar (num 1))) (.scalar (mul (sym "x") (sym "x"))) =
    some r) : evalSymbolic (.integralMoment hypotenuse (.scalar (num 1)))
      (.scalar (add (mul (num 3) (sym "x")) (mul (num (-2)) (mul (sym "x") (sym "x"))))) =
    some (3 * (√2 / 2) + -2 * r) :=
  evalSymbolic_linear_poly (.integralMoment hypotenuse (.scalar (num 1))) trivial 3 (-2) (f := .scalar (sym "x")) (g := .scalar (mul (sym "x") (sym "x")))
    trivial ⟨trivial, trivial⟩ rfl hypotenuse_moment h

end Verif.Functionals
