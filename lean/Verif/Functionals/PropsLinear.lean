import Verif.Functionals.Model
import Verif.Functions.PropsArith
import Mathlib.Tactic.Ring
import Mathlib.Tactic.Linarith

/-!
# Functionals are linear (C53)
-/

namespace Verif.Functionals

open Verif.Functions Verif.Functions.Expr Verif.References Verif.Orthogonal MeasureTheory

/-! ### Spec -/

/-- `a * f + b * g` -/
noncomputable def combination (a b : ℝ) : FnObj → FnObj → Option FnObj
  | .scalar f, .scalar g => some (.scalar (add (mul (num a) f) (mul (num b) g)))
  | .vector v, .vector w => (vadd (vrmul (num a) v) (vrmul (num b) w)).map .vector
  | .matrix m, .matrix n => do
    let m' ← mscale m (num a)
    let n' ← mscale n (num b)
    let r ← madd m' n'
    pure (.matrix r)
  | _, _ => none

/-- A function that can be integrated with these limits, one variable after the other. -/
def IterIntegrable : List (ℕ × Affine × Affine) → ((ℕ → ℝ) → ℝ) → Prop
  | [], _ => True
  | (v, lo, hi) :: L, f =>
    (∀ p, IntervalIntegrable (fun s => f (Function.update p v s)) volume (lo.eval p) (hi.eval p)) ∧
      IterIntegrable L fun p => ∫ s in (lo.eval p)..(hi.eval p), f (Function.update p v s)

/-- The integral at the end of an evaluation exists. -/
def Step.Exists : Step → Prop
  | .done _ => True
  | .integrate D e => ∀ env, IterIntegrable ((integrationLimits D.cell).getD []) fun z =>
      ((x.zip D.integralPoint).foldl (fun out vp => out.subst vp.1 vp.2) e).eval (tEnv env z)

/-! ### Relations between three expressions -/

/-- The values of `h` are those of `a * f + b * g`. -/
def Lin (a b : ℝ) (f g h : Expr) : Prop := ∀ env, h.eval env = a * f.eval env + b * g.eval env

/-- The same for all derivatives. -/
def DLin (a b : ℝ) (f g h : Expr) : Prop :=
  ∀ l : List String, Lin a b (l.foldl (fun e s => e.diff s) f) (l.foldl (fun e s => e.diff s) g)
    (l.foldl (fun e s => e.diff s) h)

section
variable {a b : ℝ} {f g h : Expr}

theorem DLin.lin (H : DLin a b f g h) : Lin a b f g h := H []

theorem DLin.diff (H : DLin a b f g h) (s : String) : DLin a b (f.diff s) (g.diff s) (h.diff s) :=
  fun l => H (s :: l)

theorem foldl_diff_add (l : List String) (p q : Expr) :
    l.foldl (fun e s => e.diff s) (add p q) =
      add (l.foldl (fun e s => e.diff s) p) (l.foldl (fun e s => e.diff s) q) := by
  induction l generalizing p q with
  | nil => rfl
  | cons s l ih => exact ih (p.diff s) (q.diff s)

theorem foldl_diff_num_mul (l : List String) (c : ℝ) (p : Expr) (env : String → ℝ) :
    (l.foldl (fun e s => e.diff s) (mul (num c) p)).eval env =
      c * (l.foldl (fun e s => e.diff s) p).eval env := by
  induction l generalizing c p with
  | nil => rfl
  | cons s l ih =>
    have e : (mul (num c) p).diff s = add (mul (num 0) p) (mul (num c) (p.diff s)) := rfl
    rw [List.foldl_cons, List.foldl_cons, e, foldl_diff_add, eval, ih, ih]
    ring

theorem foldl_diff_mul_num (l : List String) (c : ℝ) (p : Expr) (env : String → ℝ) :
    (l.foldl (fun e s => e.diff s) (mul p (num c))).eval env =
      c * (l.foldl (fun e s => e.diff s) p).eval env := by
  induction l generalizing c p with
  | nil => exact mul_comm _ _
  | cons s l ih =>
    have e : (mul p (num c)).diff s = add (mul (p.diff s) (num c)) (mul p (num 0)) := rfl
    rw [List.foldl_cons, List.foldl_cons, e, foldl_diff_add, eval, ih, ih]
    ring

theorem foldl_diff_zero (l : List String) : l.foldl (fun e s => e.diff s) (num 0) = num 0 := by
  induction l with
  | nil => rfl
  | cons s l ih => exact ih

theorem dlin_combination (a b : ℝ) (f g : Expr) : DLin a b f g (add (mul (num a) f) (mul (num b) g)) := by
  intro l env
  rw [foldl_diff_add, eval, foldl_diff_num_mul, foldl_diff_num_mul]

theorem dlin_combination' (a b : ℝ) (f g : Expr) : DLin a b f g (add (mul f (num a)) (mul g (num b))) := by
  intro l env
  rw [foldl_diff_add, eval, foldl_diff_mul_num, foldl_diff_mul_num]

theorem dlin_zero (a b : ℝ) : DLin a b (num 0) (num 0) (num 0) := by
  intro l env
  rw [foldl_diff_zero]
  simp [eval]

theorem DLin.add {f' g' h' : Expr} (H : DLin a b f g h) (H' : DLin a b f' g' h') :
    DLin a b (add f f') (add g g') (add h h') := by
  intro l env
  rw [foldl_diff_add, foldl_diff_add, foldl_diff_add, eval, eval, eval, H l, H' l]
  ring

theorem DLin.mul_num (H : DLin a b f g h) (c : ℝ) : DLin a b (mul f (num c)) (mul g (num c)) (mul h (num c)) := by
  intro l env
  rw [foldl_diff_mul_num, foldl_diff_mul_num, foldl_diff_mul_num, H l]
  ring

theorem lin_zero (a b : ℝ) : Lin a b (num 0) (num 0) (num 0) := (dlin_zero a b).lin

theorem Lin.add {f' g' h' : Expr} (H : Lin a b f g h) (H' : Lin a b f' g' h') :
    Lin a b (add f f') (add g g') (add h h') := by
  intro env
  simp only [eval]
  rw [H, H']
  ring

theorem Lin.mul_right (H : Lin a b f g h) (e : Expr) : Lin a b (mul f e) (mul g e) (mul h e) := by
  intro env
  simp only [eval]
  rw [H]
  ring

theorem Lin.mul_left (H : Lin a b f g h) (e : Expr) : Lin a b (mul e f) (mul e g) (mul e h) := by
  intro env
  simp only [eval]
  rw [H]
  ring

theorem Lin.substs (H : Lin a b f g h) (l : List (String × Expr)) :
    Lin a b (l.foldl (fun e vp => e.subst vp.1 vp.2) f) (l.foldl (fun e vp => e.subst vp.1 vp.2) g)
      (l.foldl (fun e vp => e.subst vp.1 vp.2) h) := by
  induction l generalizing f g h with
  | nil => exact H
  | cons s l ih =>
    refine ih fun env => ?_
    rw [eval_subst, eval_subst, eval_subst, H]

theorem Lin.subsList (H : Lin a b f g h) (vars : List String) (values : List Expr) :
    Lin a b (subsList f vars values) (subsList g vars values) (subsList h vars values) := by
  unfold Functions.subsList
  refine Lin.substs ?_ _
  have := H.substs ((vars.zip ((List.range values.length).map dummySym)).map fun ij => (ij.1, sym ij.2))
  simpa only [List.foldl_map] using this

end

/-! ### Lists -/

/-- The relation holds for the members of three lists. -/
inductive Rel3 {α : Type} (R : α → α → α → Prop) : List α → List α → List α → Prop
  | nil : Rel3 R [] [] []
  | cons {a b c l m n} : R a b c → Rel3 R l m n → Rel3 R (a :: l) (b :: m) (c :: n)

section
variable {α β : Type} {R : α → α → α → Prop} {S : β → β → β → Prop} {l m n : List α}

theorem Rel3.imp {R' : α → α → α → Prop} (h : ∀ a b c, R a b c → R' a b c) (H : Rel3 R l m n) : Rel3 R' l m n := by
  induction H with
  | nil => exact .nil
  | cons h0 _ ih => exact .cons (h _ _ _ h0) ih

theorem Rel3.map (φ : α → β) (h : ∀ a b c, R a b c → S (φ a) (φ b) (φ c)) (H : Rel3 R l m n) :
    Rel3 S (l.map φ) (m.map φ) (n.map φ) := by
  induction H with
  | nil => exact .nil
  | cons h0 _ ih => exact .cons (h _ _ _ h0) ih

theorem Rel3.length (H : Rel3 R l m n) : l.length = n.length ∧ m.length = n.length := by
  induction H with
  | nil => exact ⟨rfl, rfl⟩
  | cons _ _ ih => simp [ih.1, ih.2]

theorem Rel3.getD {d : α} (hd : R d d d) (H : Rel3 R l m n) (i : ℕ) :
    R ((l[i]?).getD d) ((m[i]?).getD d) ((n[i]?).getD d) := by
  induction H generalizing i with
  | nil => simpa using hd
  | cons h0 _ ih =>
    cases i with
    | zero => simpa using h0
    | succ i => simpa using ih i

theorem rel3_of_zipWith (φ : α → α → α) (h : ∀ a b, R a b (φ a b)) (hl : l.length = m.length) :
    Rel3 R l m (List.zipWith φ l m) := by
  induction l generalizing m with
  | nil =>
    cases m with
    | nil => exact .nil
    | cons _ _ => simp at hl
  | cons a l ih =>
    cases m with
    | nil => simp at hl
    | cons b m => exact .cons (h a b) (ih (by simpa using hl))

theorem rel3_map_range (N : ℕ) (φ ψ χ : ℕ → α) (h : ∀ i, R (φ i) (ψ i) (χ i)) :
    Rel3 R ((List.range N).map φ) ((List.range N).map ψ) ((List.range N).map χ) := by
  induction List.range N with
  | nil => exact .nil
  | cons i l ih => exact .cons (h i) ih

end

/-- The relation holds for the entries of three functions of the same kind and shape; matrices have
rows of one length. -/
inductive RelF (R : Expr → Expr → Expr → Prop) : FnObj → FnObj → FnObj → Prop
  | scalar {f g h} : R f g h → RelF R (.scalar f) (.scalar g) (.scalar h)
  | vector {v w u} : Rel3 R v w u → RelF R (.vector v) (.vector w) (.vector u)
  | matrix {l m n} : Rel3 (Rel3 R) l m n → RelF R (.matrix l) (.matrix m) (.matrix n)

theorem RelF.imp {R R' : Expr → Expr → Expr → Prop} (h : ∀ f g k, R f g k → R' f g k) {f g k : FnObj}
    (H : RelF R f g k) : RelF R' f g k := by
  cases H with
  | scalar H => exact .scalar (h _ _ _ H)
  | vector H => exact .vector (H.imp h)
  | matrix H => exact .matrix (H.imp fun _ _ _ H => H.imp h)

section
variable {R : Expr → Expr → Expr → Prop} {l m n : List (List Expr)}

theorem Rel3.entry (h0 : R (num 0) (num 0) (num 0)) (H : Rel3 (Rel3 R) l m n) (i j : ℕ) :
    R (entry l i j) (entry m i j) (entry n i j) := by
  unfold Functions.entry
  exact (H.getD (d := []) .nil i).getD h0 j

theorem Rel3.shape (H : Rel3 (Rel3 R) l m n) : shape l = shape n ∧ shape m = shape n := by
  unfold Functions.shape
  have h0 := (H.getD (d := []) .nil 0).length
  rw [H.length.1, H.length.2, h0.1, h0.2]
  exact ⟨rfl, rfl⟩

theorem Rel3.mkMat (H : Rel3 (Rel3 R) l m n) {l' m' : List (List Expr)} (hl : mkMat l = some l')
    (_hm : mkMat m = some m') : l' = l ∧ m' = m ∧ mkMat n = some n := by
  have e1 : l' = l := by
    unfold Functions.mkMat at hl
    split_ifs at hl
    exact (Option.some.inj hl).symm
  have e2 : m' = m := by
    unfold Functions.mkMat at _hm
    split_ifs at _hm
    exact (Option.some.inj _hm).symm
  refine ⟨e1, e2, ?_⟩
  have hex : ∃ c, ∀ r ∈ l, r.length = c := (mkMat_isSome l).1 (by simp [hl])
  obtain ⟨c, hc⟩ := hex
  have hn : ∀ r ∈ n, r.length = c := by
    clear hl _hm e1 e2
    induction H with
    | nil => simp
    | cons h0 _ ih =>
      intro r hr
      rcases List.mem_cons.1 hr with rfl | hr
      · rw [← h0.length.1]; exact hc _ (by simp)
      · exact ih (fun r hr => hc r (by simp [hr])) r hr
  have := (mkMat_isSome n).2 ⟨c, hn⟩
  unfold Functions.mkMat at this ⊢
  split_ifs at this ⊢ with h
  · rfl
  · simp at this

end

section
variable {a b : ℝ}

theorem lin_foldl {α : Type} (L : List α) (φ ψ χ : α → Expr) (f g h : Expr)
    (h0 : Lin a b f g h) (hs : ∀ i, Lin a b (φ i) (ψ i) (χ i)) :
    Lin a b (L.foldl (fun e i => add e (φ i)) f) (L.foldl (fun e i => add e (ψ i)) g)
      (L.foldl (fun e i => add e (χ i)) h) := by
  induction L generalizing f g h with
  | nil => exact h0
  | cons i L ih => exact ih _ _ _ (h0.add (hs i))

theorem lin_vdot_right {v w u d : List Expr} {p q : Expr} (H : Rel3 (Lin a b) v w u) (hp : vdot v d = some p)
    (hq : vdot w d = some q) : ∃ r, vdot u d = some r ∧ Lin a b p q r := by
  unfold vdot at hp hq ⊢
  split_ifs at hp hq with h1 h2
  rw [if_pos (by rw [← H.length.1, h1])]
  refine ⟨_, rfl, ?_⟩
  rw [← Option.some.inj hp, ← Option.some.inj hq]
  clear h1 h2 hp hq
  have : ∀ e1 e2 e3, Lin a b e1 e2 e3 → Lin a b
      ((v.zip d).foldl (fun out ij => add out (mul ij.1 ij.2)) e1)
      ((w.zip d).foldl (fun out ij => add out (mul ij.1 ij.2)) e2)
      ((u.zip d).foldl (fun out ij => add out (mul ij.1 ij.2)) e3) := by
    induction H generalizing d with
    | nil => intro e1 e2 e3 h; simpa using h
    | cons h0 _ ih =>
      intro e1 e2 e3 h
      cases d with
      | nil => simpa using h
      | cons y d => exact ih (d := d) _ _ _ (h.add (h0.mul_right y))
  exact this _ _ _ (lin_zero a b)

theorem lin_vdot_left {v w u d : List Expr} {p q : Expr} (H : Rel3 (Lin a b) v w u) (hp : vdot d v = some p)
    (hq : vdot d w = some q) : ∃ r, vdot d u = some r ∧ Lin a b p q r := by
  unfold vdot at hp hq ⊢
  split_ifs at hp hq with h1 h2
  rw [if_pos (by rw [h1, H.length.1])]
  refine ⟨_, rfl, ?_⟩
  rw [← Option.some.inj hp, ← Option.some.inj hq]
  clear h1 h2 hp hq
  have : ∀ e1 e2 e3, Lin a b e1 e2 e3 → Lin a b
      ((d.zip v).foldl (fun out ij => add out (mul ij.1 ij.2)) e1)
      ((d.zip w).foldl (fun out ij => add out (mul ij.1 ij.2)) e2)
      ((d.zip u).foldl (fun out ij => add out (mul ij.1 ij.2)) e3) := by
    induction H generalizing d with
    | nil => intro e1 e2 e3 h; simpa using h
    | cons h0 _ ih =>
      intro e1 e2 e3 h
      cases d with
      | nil => simpa using h
      | cons y d => exact ih (d := d) _ _ _ (h.add (h0.mul_left y))
  exact this _ _ _ (lin_zero a b)

theorem dlin_vdot_num {v w u : List Expr} {d : List ℝ} {p q : Expr} (H : Rel3 (DLin a b) v w u)
    (hp : vdot v (d.map num) = some p) (hq : vdot w (d.map num) = some q) :
    ∃ r, vdot u (d.map num) = some r ∧ DLin a b p q r := by
  unfold vdot at hp hq ⊢
  split_ifs at hp hq with h1 h2
  rw [if_pos (by rw [← H.length.1, h1])]
  refine ⟨_, rfl, ?_⟩
  rw [← Option.some.inj hp, ← Option.some.inj hq]
  clear h1 h2 hp hq
  have : ∀ e1 e2 e3, DLin a b e1 e2 e3 → DLin a b
      ((v.zip (d.map num)).foldl (fun out ij => add out (mul ij.1 ij.2)) e1)
      ((w.zip (d.map num)).foldl (fun out ij => add out (mul ij.1 ij.2)) e2)
      ((u.zip (d.map num)).foldl (fun out ij => add out (mul ij.1 ij.2)) e3) := by
    induction H generalizing d with
    | nil => intro e1 e2 e3 h; simpa using h
    | cons h0 _ ih =>
      intro e1 e2 e3 h
      cases d with
      | nil => simpa using h
      | cons y d => exact ih (d := d) _ _ _ (h.add (h0.mul_num y))
  exact this _ _ _ (dlin_zero a b)

theorem lin_mdot {l m n d : List (List Expr)} {p q : Expr} (H : Rel3 (Rel3 (Lin a b)) l m n)
    (hp : mdot l d = some p) (hq : mdot m d = some q) : ∃ r, mdot n d = some r ∧ Lin a b p q r := by
  unfold mdot at hp hq ⊢
  rw [H.shape.1] at hp
  rw [H.shape.2] at hq
  split_ifs at hp hq ⊢ with h1 h2
  refine ⟨_, rfl, ?_⟩
  rw [← Option.some.inj hp, ← Option.some.inj hq]
  have : ∀ (L : List ℕ) e1 e2 e3, Lin a b e1 e2 e3 → Lin a b
      (L.foldl (fun out i => (List.range (shape n).1).foldl
        (fun out j => add out (mul (entry l i j) (entry d i j))) out) e1)
      (L.foldl (fun out i => (List.range (shape n).1).foldl
        (fun out j => add out (mul (entry m i j) (entry d i j))) out) e2)
      (L.foldl (fun out i => (List.range (shape n).1).foldl
        (fun out j => add out (mul (entry n i j) (entry d i j))) out) e3) := by
    intro L
    induction L with
    | nil => intro _ _ _ h; exact h
    | cons i L ih =>
      intro e1 e2 e3 h
      exact ih _ _ _ (lin_foldl _ _ _ _ _ _ _ h fun j => (H.entry (lin_zero a b) i j).mul_right _)
  exact this _ _ _ _ (lin_zero a b)

theorem rel3_row {l m n : List (List Expr)} (H : Rel3 (Rel3 (Lin a b)) l m n) (i : ℕ) :
    Rel3 (Lin a b) (row l i) (row m i) (row n i) := by
  unfold row
  rw [H.shape.1, H.shape.2]
  exact rel3_map_range _ _ _ _ fun j => H.entry (lin_zero a b) i j

theorem lin_mapM {α : Type} (L : List α) (φ ψ χ : α → Option Expr) (v w : List Expr)
    (hv : L.mapM φ = some v) (hw : L.mapM ψ = some w)
    (h : ∀ i p q, φ i = some p → ψ i = some q → ∃ r, χ i = some r ∧ Lin a b p q r) :
    ∃ u, L.mapM χ = some u ∧ Rel3 (Lin a b) v w u := by
  induction L generalizing v w with
  | nil =>
    simp only [List.mapM_nil, Option.pure_def, Option.some.injEq] at hv hw
    subst hv; subst hw
    exact ⟨[], rfl, .nil⟩
  | cons i L ih =>
    rw [List.mapM_cons] at hv hw
    simp only [Option.bind_eq_bind, Option.bind_eq_some_iff, Option.pure_def, Option.some.injEq] at hv hw
    obtain ⟨p, hp, v', hv', rfl⟩ := hv
    obtain ⟨q, hq, w', hw', rfl⟩ := hw
    obtain ⟨r, hr, hl⟩ := h i p q hp hq
    obtain ⟨u, hu, hU⟩ := ih v' w' hv' hw'
    exact ⟨r :: u, by rw [List.mapM_cons, hr, hu]; rfl, .cons hl hU⟩

theorem lin_mvec {l m n : List (List Expr)} {d v w : List Expr} (H : Rel3 (Rel3 (Lin a b)) l m n)
    (hv : mvec l d = some v) (hw : mvec m d = some w) : ∃ u, mvec n d = some u ∧ Rel3 (Lin a b) v w u := by
  unfold mvec at hv hw ⊢
  rw [H.shape.1] at hv
  rw [H.shape.2] at hw
  split_ifs at hv hw ⊢
  exact lin_mapM _ _ _ _ _ _ hv hw fun i p q hp hq => lin_vdot_right (rel3_row H i) hp hq

theorem lin_subs {f g h f' g' : FnObj} (H : RelF (Lin a b) f g h) (vars : List String) (values : List Expr)
    (hf : f.subs vars values = some f') (hg : g.subs vars values = some g') :
    ∃ h', h.subs vars values = some h' ∧ RelF (Lin a b) f' g' h' := by
  cases H with
  | scalar H =>
    rw [← Option.some.inj hf, ← Option.some.inj hg]
    exact ⟨_, rfl, .scalar (H.subsList _ _)⟩
  | vector H =>
    rw [← Option.some.inj hf, ← Option.some.inj hg]
    exact ⟨_, rfl, .vector (H.map _ fun _ _ _ h => h.subsList _ _)⟩
  | matrix H =>
    have H' := H.map (S := Rel3 (Lin a b)) (fun r => r.map fun j => subsList j vars values)
      fun _ _ _ h => h.map _ fun _ _ _ h => h.subsList _ _
    simp only [FnObj.subs, msubs, Option.map_eq_some_iff] at hf hg ⊢
    obtain ⟨l', hl, rfl⟩ := hf
    obtain ⟨m', hm, rfl⟩ := hg
    obtain ⟨e1, e2, e3⟩ := H'.mkMat hl hm
    exact ⟨_, ⟨_, e3, rfl⟩, by rw [e1, e2]; exact .matrix H'⟩

theorem dlin_diff {f g h f' g' : FnObj} (H : RelF (DLin a b) f g h) (s : String)
    (hf : f.diff s = some f') (hg : g.diff s = some g') :
    ∃ h', h.diff s = some h' ∧ RelF (DLin a b) f' g' h' := by
  cases H with
  | scalar H =>
    rw [← Option.some.inj hf, ← Option.some.inj hg]
    exact ⟨_, rfl, .scalar (H.diff s)⟩
  | vector H =>
    rw [← Option.some.inj hf, ← Option.some.inj hg]
    exact ⟨_, rfl, .vector (H.map _ fun _ _ _ h => h.diff s)⟩
  | @matrix l m n H =>
    simp only [FnObj.diff, mdiff, Option.map_eq_some_iff] at hf hg ⊢
    rw [H.shape.1] at hf
    rw [H.shape.2] at hg
    obtain ⟨l', hl, rfl⟩ := hf
    obtain ⟨m', hm, rfl⟩ := hg
    have H' : Rel3 (Rel3 (DLin a b))
        ((List.range (shape n).1).map fun i => (List.range (shape n).2).map fun j => (Functions.entry l i j).diff s)
        ((List.range (shape n).1).map fun i => (List.range (shape n).2).map fun j => (Functions.entry m i j).diff s)
        ((List.range (shape n).1).map fun i => (List.range (shape n).2).map fun j => (Functions.entry n i j).diff s) :=
      rel3_map_range _ _ _ _ fun i => rel3_map_range _ _ _ _ fun j => (H.entry (dlin_zero a b) i j).diff s
    obtain ⟨e1, e2, e3⟩ := H'.mkMat hl hm
    exact ⟨_, ⟨_, e3, rfl⟩, by rw [e1, e2]; exact .matrix H'⟩

theorem lin_asScalar {f g h : FnObj} {p q : Expr} (H : RelF (Lin a b) f g h) (hf : asScalar f = some p)
    (hg : asScalar g = some q) : ∃ r, asScalar h = some r ∧ Lin a b p q r := by
  cases H with
  | scalar H =>
    rw [← Option.some.inj hf, ← Option.some.inj hg]
    exact ⟨_, rfl, H⟩
  | vector H => simp [asScalar] at hf
  | matrix H => simp [asScalar] at hf

theorem lin_dot {f g h k : FnObj} {p q : Expr} (H : RelF (Lin a b) f g h) (hf : f.dot k = some p)
    (hg : g.dot k = some q) : ∃ r, h.dot k = some r ∧ Lin a b p q r := by
  cases H with
  | scalar H =>
    cases k with
    | scalar e =>
      rw [← Option.some.inj hf, ← Option.some.inj hg]
      exact ⟨_, rfl, H.mul_right e⟩
    | vector => simp [FnObj.dot] at hf
    | matrix => simp [FnObj.dot] at hf
  | vector H =>
    cases k with
    | vector e => exact lin_vdot_right H hf hg
    | scalar => simp [FnObj.dot] at hf
    | matrix => simp [FnObj.dot] at hf
  | matrix H =>
    cases k with
    | matrix e => exact lin_mdot H hf hg
    | scalar => simp [FnObj.dot] at hf
    | vector => simp [FnObj.dot] at hf

theorem lin_directional {f g h : FnObj} {p q : Expr} (d : List Expr) (H : RelF (DLin a b) f g h)
    (hf : f.directional d = some p) (hg : g.directional d = some q) :
    ∃ r, h.directional d = some r ∧ Lin a b p q r := by
  cases H with
  | scalar H =>
    rw [← Option.some.inj hf, ← Option.some.inj hg]
    exact ⟨_, rfl, lin_foldl _ _ _ _ _ _ _ (lin_zero a b) fun ij => ((H.diff ij.1).lin).mul_left _⟩
  | vector H => simp [FnObj.directional] at hf
  | matrix H => simp [FnObj.directional] at hf

theorem lin_second {f g h : FnObj} {p q : Expr} (i j : ℕ) (H : RelF (DLin a b) f g h)
    (hf : f.second i j = some p) (hg : g.second i j = some q) :
    ∃ r, h.second i j = some r ∧ Lin a b p q r := by
  cases H with
  | scalar H =>
    rw [← Option.some.inj hf, ← Option.some.inj hg]
    exact ⟨_, rfl, ((H.diff _).diff _).lin⟩
  | vector H => simp [FnObj.second] at hf
  | matrix H => simp [FnObj.second] at hf

theorem lin_divergence {f g h : FnObj} {p q : Expr} (H : RelF (DLin a b) f g h)
    (hf : f.divergence = some p) (hg : g.divergence = some q) :
    ∃ r, h.divergence = some r ∧ Lin a b p q r := by
  cases H with
  | @vector v w u H =>
    rw [← Option.some.inj hf, ← Option.some.inj hg]
    refine ⟨_, rfl, ?_⟩
    have : ∀ (xs : List String) e1 e2 e3, Lin a b e1 e2 e3 → Lin a b
        ((v.zip xs).foldl (fun out ij => add out (ij.1.diff ij.2)) e1)
        ((w.zip xs).foldl (fun out ij => add out (ij.1.diff ij.2)) e2)
        ((u.zip xs).foldl (fun out ij => add out (ij.1.diff ij.2)) e3) := by
      clear hf hg
      induction H with
      | nil => intro xs e1 e2 e3 h; simpa using h
      | cons h0 _ ih =>
        intro xs e1 e2 e3 h
        cases xs with
        | nil => simpa using h
        | cons y xs => exact ih xs _ _ _ (h.add (h0.diff y).lin)
    exact this _ _ _ _ (lin_zero a b)
  | scalar H => simp [FnObj.divergence] at hf
  | matrix H => simp [FnObj.divergence] at hf

theorem dlin_gradient {f g h : FnObj} {v w : List Expr} (d : ℕ) (H : RelF (DLin a b) f g h)
    (hf : f.gradient d = some v) (hg : g.gradient d = some w) :
    ∃ u, h.gradient d = some u ∧ Rel3 (DLin a b) v w u := by
  cases H with
  | scalar H =>
    rw [← Option.some.inj hf, ← Option.some.inj hg]
    exact ⟨_, rfl, rel3_map_range _ _ _ _ fun i => H.diff _⟩
  | vector H => simp [FnObj.gradient] at hf
  | matrix H => simp [FnObj.gradient] at hf

theorem dlin_multiDiff {f g h f' g' : FnObj} (H : RelF (DLin a b) f g h) (d : List ℕ)
    (hf : multiDiff d f = some f') (hg : multiDiff d g = some g') :
    ∃ h', multiDiff d h = some h' ∧ RelF (DLin a b) f' g' h' := by
  unfold multiDiff at *
  generalize (x.zip d).flatMap (fun ij => List.replicate ij.2 ij.1) = L at *
  induction L generalizing f g h with
  | nil =>
    simp only [List.foldlM_nil, Option.pure_def, Option.some.injEq] at hf hg
    subst hf; subst hg
    exact ⟨h, rfl, H⟩
  | cons s L ih =>
    simp only [List.foldlM_cons, Option.bind_eq_bind, Option.bind_eq_some_iff] at hf hg
    obtain ⟨f1, hf1, hf⟩ := hf
    obtain ⟨g1, hg1, hg⟩ := hg
    obtain ⟨h1, hh1, H1⟩ := dlin_diff H s hf1 hg1
    obtain ⟨h', hh', H'⟩ := ih H1 hf hg
    exact ⟨h', by rw [List.foldlM_cons, hh1]; exact hh', H'⟩

theorem dlin_multiDirectional {f g h f' g' : FnObj} (H : RelF (DLin a b) f g h) (dirs : List (List ℝ))
    (orders : List ℕ) (hf : multiDirectional dirs orders f = some f')
    (hg : multiDirectional dirs orders g = some g') :
    ∃ h', multiDirectional dirs orders h = some h' ∧ RelF (DLin a b) f' g' h' := by
  unfold multiDirectional at *
  generalize (dirs.zip orders).flatMap (fun ij => List.replicate ij.2 ij.1) = L at *
  induction L generalizing f g h with
  | nil =>
    simp only [List.foldlM_nil, Option.pure_def, Option.some.injEq] at hf hg
    subst hf; subst hg
    exact ⟨h, rfl, H⟩
  | cons s L ih =>
    simp only [List.foldlM_cons, Option.bind_eq_bind, Option.bind_eq_some_iff, Option.pure_def,
      Option.some.injEq] at hf hg
    obtain ⟨f1, ⟨v, hv, p, hp, rfl⟩, hf⟩ := hf
    obtain ⟨g1, ⟨w, hw, q, hq, rfl⟩, hg⟩ := hg
    obtain ⟨u, hu, Hu⟩ := dlin_gradient s.length H hv hw
    obtain ⟨r, hr, Hr⟩ := dlin_vdot_num Hu hp hq
    obtain ⟨h', hh', H'⟩ := ih (.scalar Hr) hf hg
    refine ⟨h', ?_, H'⟩
    rw [List.foldlM_cons]
    simp only [Option.bind_eq_bind, hu, hr, Option.bind_some, Option.pure_def] at hh' ⊢
    exact hh'

/-! ### Steps -/

/-- The last steps have the same kind and domain, and related expressions. -/
inductive StepLin (a b : ℝ) : Step → Step → Step → Prop
  | done {p q r} : Lin a b p q r → StepLin a b (.done p) (.done q) (.done r)
  | integrate {D p q r} : Lin a b p q r → StepLin a b (.integrate D p) (.integrate D q) (.integrate D r)

theorem step_lin (F : Functional) {f g h : FnObj} (H : RelF (DLin a b) f g h) {s s' : Step}
    (hf : step F f = some s) (hg : step F g = some s') : ∃ s'', step F h = some s'' ∧ StepLin a b s s' s'' := by
  have HL : RelF (Lin a b) f g h := H.imp fun _ _ _ h => h.lin
  cases F with
  | pointEvaluation p =>
    simp only [step, Option.bind_eq_bind, Option.bind_eq_some_iff, Option.pure_def, Option.some.injEq] at hf hg ⊢
    obtain ⟨v, hv, e, he, rfl⟩ := hf
    obtain ⟨v', hv', e', he', rfl⟩ := hg
    obtain ⟨v'', hv'', H1⟩ := lin_subs HL _ _ hv hv'
    obtain ⟨e'', he'', H2⟩ := lin_asScalar H1 he he'
    exact ⟨_, ⟨v'', hv'', e'', he'', rfl⟩, .done H2⟩
  | weightedPointEvaluation p w =>
    simp only [step, Option.bind_eq_bind, Option.bind_eq_some_iff, Option.pure_def, Option.some.injEq] at hf hg ⊢
    obtain ⟨v, hv, e, he, rfl⟩ := hf
    obtain ⟨v', hv', e', he', rfl⟩ := hg
    obtain ⟨v'', hv'', H1⟩ := lin_subs HL _ _ hv hv'
    obtain ⟨e'', he'', H2⟩ := lin_asScalar H1 he he'
    exact ⟨_, ⟨v'', hv'', e'', he'', rfl⟩, .done (H2.mul_right w)⟩
  | derivativePointEvaluation p d =>
    simp only [step, Option.bind_eq_bind, Option.bind_eq_some_iff, Option.pure_def, Option.some.injEq] at hf hg ⊢
    obtain ⟨k, hk, v, hv, e, he, rfl⟩ := hf
    obtain ⟨k', hk', v', hv', e', he', rfl⟩ := hg
    obtain ⟨k'', hk'', H0⟩ := dlin_multiDiff H d hk hk'
    obtain ⟨v'', hv'', H1⟩ := lin_subs (H0.imp fun _ _ _ h => h.lin) _ _ hv hv'
    obtain ⟨e'', he'', H2⟩ := lin_asScalar H1 he he'
    exact ⟨_, ⟨k'', hk'', v'', hv'', e'', he'', rfl⟩, .done H2⟩
  | pointDirectionalDerivative p d =>
    simp only [step, Option.bind_eq_bind, Option.bind_eq_some_iff, Option.pure_def, Option.some.injEq] at hf hg ⊢
    obtain ⟨e, he, rfl⟩ := hf
    obtain ⟨e', he', rfl⟩ := hg
    obtain ⟨e'', he'', H2⟩ := lin_directional d H he he'
    exact ⟨_, ⟨e'', he'', rfl⟩, .done (H2.subsList _ _)⟩
  | pointSecondDerivative p i j =>
    simp only [step, Option.bind_eq_bind, Option.bind_eq_some_iff, Option.pure_def, Option.some.injEq] at hf hg ⊢
    obtain ⟨e, he, rfl⟩ := hf
    obtain ⟨e', he', rfl⟩ := hg
    obtain ⟨e'', he'', H2⟩ := lin_second i j H he he'
    exact ⟨_, ⟨e'', he'', rfl⟩, .done (H2.subsList _ _)⟩
  | pointInnerProduct p l r =>
    simp only [step, Option.bind_eq_bind, Option.bind_eq_some_iff, Option.pure_def] at hf hg ⊢
    obtain ⟨v, hv, hf⟩ := hf
    obtain ⟨v', hv', hg⟩ := hg
    obtain ⟨v'', hv'', H1⟩ := lin_subs HL _ _ hv hv'
    cases H1 with
    | scalar => simp at hf
    | vector => simp at hf
    | matrix H1 =>
      simp only [Option.bind_eq_some_iff, Option.some.injEq] at hf hg
      obtain ⟨w, hw, e, he, rfl⟩ := hf
      obtain ⟨w', hw', e', he', rfl⟩ := hg
      obtain ⟨w'', hw'', H2⟩ := lin_mvec H1 hw hw'
      obtain ⟨e'', he'', H3⟩ := lin_vdot_left H2 he he'
      exact ⟨_, ⟨_, hv'', by simp only [hw'', he'', Option.bind_some]⟩, .done H3⟩
  | dotPointEvaluation p vec =>
    simp only [step, Option.bind_eq_bind, Option.bind_eq_some_iff, Option.pure_def, Option.some.injEq] at hf hg ⊢
    obtain ⟨v, hv, k, hk, e, he, rfl⟩ := hf
    obtain ⟨v', hv', k', hk', e', he', rfl⟩ := hg
    obtain ⟨v'', hv'', H1⟩ := lin_subs HL _ _ hv hv'
    rw [hk, Option.some.injEq] at hk'
    subst hk'
    obtain ⟨e'', he'', H2⟩ := lin_dot H1 he he'
    exact ⟨_, ⟨v'', hv'', k, hk, e'', he'', rfl⟩, .done H2⟩
  | pointDivergence p =>
    simp only [step, Option.bind_eq_bind, Option.bind_eq_some_iff, Option.pure_def, Option.some.injEq] at hf hg ⊢
    obtain ⟨e, he, rfl⟩ := hf
    obtain ⟨e', he', rfl⟩ := hg
    obtain ⟨e'', he'', H2⟩ := lin_divergence H he he'
    exact ⟨_, ⟨e'', he'', rfl⟩, .done (H2.subsList _ _)⟩
  | integralAgainst D k =>
    simp only [step, Option.bind_eq_bind, Option.bind_eq_some_iff, Option.pure_def, Option.some.injEq] at hf hg ⊢
    obtain ⟨v, hv, e, he, rfl⟩ := hf
    obtain ⟨v', hv', e', he', rfl⟩ := hg
    obtain ⟨v'', hv'', H1⟩ := lin_subs HL _ _ hv hv'
    obtain ⟨e'', he'', H2⟩ := lin_dot H1 he he'
    exact ⟨_, ⟨v'', hv'', e'', he'', rfl⟩, .integrate H2⟩
  | integralOfDivergenceAgainst D k =>
    simp only [step, Option.bind_eq_bind, Option.bind_eq_some_iff, Option.pure_def, Option.some.injEq] at hf hg ⊢
    obtain ⟨e, he, rfl⟩ := hf
    obtain ⟨e', he', rfl⟩ := hg
    obtain ⟨e'', he'', H2⟩ := lin_divergence H he he'
    exact ⟨_, ⟨e'', he'', rfl⟩, .integrate ((H2.subsList _ _).mul_right _)⟩
  | integralOfDirectionalMultiderivative D dirs orders scale =>
    simp only [step, Option.bind_eq_bind, Option.bind_eq_some_iff, Option.pure_def, Option.some.injEq] at hf hg ⊢
    obtain ⟨k, hk, v, hv, e, he, rfl⟩ := hf
    obtain ⟨k', hk', v', hv', e', he', rfl⟩ := hg
    obtain ⟨k'', hk'', H0⟩ := dlin_multiDirectional H dirs orders hk hk'
    obtain ⟨v'', hv'', H1⟩ := lin_subs (H0.imp fun _ _ _ h => h.lin) _ _ hv hv'
    obtain ⟨e'', he'', H2⟩ := lin_asScalar H1 he he'
    exact ⟨_, ⟨k'', hk'', v'', hv'', e'', he'', rfl⟩, .integrate (H2.mul_left _)⟩
  | integralMoment D k =>
    simp only [step, Option.bind_eq_bind, Option.bind_eq_some_iff, Option.pure_def, Option.some.injEq] at hf hg ⊢
    obtain ⟨v, hv, e, he, rfl⟩ := hf
    obtain ⟨v', hv', e', he', rfl⟩ := hg
    obtain ⟨v'', hv'', H1⟩ := lin_subs HL _ _ hv hv'
    obtain ⟨e'', he'', H2⟩ := lin_dot H1 he he'
    exact ⟨_, ⟨v'', hv'', e'', he'', rfl⟩, .integrate H2⟩
  | derivativeIntegralMoment D k dw =>
    simp only [step, Option.bind_eq_bind, Option.bind_eq_some_iff, Option.pure_def, Option.some.injEq] at hf hg ⊢
    obtain ⟨v, hv, e, he, rfl⟩ := hf
    obtain ⟨v', hv', e', he', rfl⟩ := hg
    obtain ⟨v'', hv'', H1⟩ := dlin_gradient _ H hv hv'
    have H1' : Rel3 (Lin a b) (vsubs v x D.point) (vsubs v' x D.point) (vsubs v'' x D.point) :=
      H1.map _ fun _ _ _ h => h.lin.subsList _ _
    obtain ⟨e'', he'', H2⟩ := lin_vdot_right H1' he he'
    exact ⟨_, ⟨v'', hv'', e'', he'', rfl⟩, .integrate (H2.mul_right _)⟩
  | divergenceIntegralMoment D k =>
    simp only [step, Option.bind_eq_bind, Option.bind_eq_some_iff, Option.pure_def, Option.some.injEq] at hf hg ⊢
    obtain ⟨e, he, rfl⟩ := hf
    obtain ⟨e', he', rfl⟩ := hg
    obtain ⟨e'', he'', H2⟩ := lin_divergence H he he'
    exact ⟨_, ⟨e'', he'', rfl⟩, .integrate ((H2.subsList _ _).mul_right _)⟩
  | innerProductIntegralMoment D k l r =>
    simp only [step, Option.bind_eq_bind, Option.bind_eq_some_iff, Option.pure_def] at hf hg ⊢
    obtain ⟨v, hv, hf⟩ := hf
    obtain ⟨v', hv', hg⟩ := hg
    obtain ⟨v'', hv'', H1⟩ := lin_subs HL _ _ hv hv'
    cases H1 with
    | scalar => simp at hf
    | vector => simp at hf
    | matrix H1 =>
      simp only [Option.bind_eq_some_iff, Option.some.injEq] at hf hg
      obtain ⟨w, hw, e, he, J, hJ, rfl⟩ := hf
      obtain ⟨w', hw', e', he', J', hJ', rfl⟩ := hg
      rw [hJ, Option.some.injEq] at hJ'
      subst hJ'
      obtain ⟨w'', hw'', H2⟩ := lin_mvec H1 hw hw'
      obtain ⟨e'', he'', H3⟩ := lin_vdot_left H2 he he'
      exact ⟨_, ⟨_, hv'', by simp only [hw'', he'', hJ, Option.bind_some]⟩,
        .integrate ((H3.mul_right _).mul_right _)⟩

end

/-! ### Integrals -/

theorem iterInt_lin (L : List (ℕ × Affine × Affine)) {f g : (ℕ → ℝ) → ℝ} (hf : IterIntegrable L f)
    (hg : IterIntegrable L g) (a b : ℝ) :
    iterInt L (fun p => a * f p + b * g p) = fun p => a * iterInt L f p + b * iterInt L g p := by
  induction L generalizing f g with
  | nil => rfl
  | cons s L ih =>
    obtain ⟨v, lo, hi⟩ := s
    simp only [iterInt]
    rw [← ih hf.2 hg.2]
    congr 1
    funext p
    rw [intervalIntegral.integral_add ((hf.1 p).const_mul a) ((hg.1 p).const_mul b),
      intervalIntegral.integral_const_mul, intervalIntegral.integral_const_mul]

theorem iterIntegrable_mul_const (L : List (ℕ × Affine × Affine)) {f : (ℕ → ℝ) → ℝ} (hf : IterIntegrable L f)
    (c : ℝ) : IterIntegrable L fun p => f p * c := by
  induction L generalizing f with
  | nil => trivial
  | cons s L ih =>
    obtain ⟨v, lo, hi⟩ := s
    refine ⟨fun p => (hf.1 p).mul_const c, ?_⟩
    have := ih hf.2
    simpa only [intervalIntegral.integral_mul_const] using this

theorem integral_eq_some {D : Domain} {f : Expr} {u : Value} :
    integral D f = some u ↔ D.cell ≠ .point ∧ ∃ J, References.jacobian D.cell D.g D.v = some J ∧
      u = fun env => cellInt D.cell fun z =>
        ((x.zip D.integralPoint).foldl (fun out vp => out.subst vp.1 vp.2) f).eval (tEnv env z) * J := by
  unfold integral
  split
  · rename_i h; simp [h]
  · rename_i h _; simp [h]
  · rename_i J hJ hne
    rw [hJ]
    constructor
    · intro h
      exact ⟨hne, J, rfl, (Option.some.inj h).symm⟩
    · rintro ⟨-, J', hJ', rfl⟩
      rw [Option.some.inj hJ']
      rfl

theorem integral_lin (D : Domain) {a b : ℝ} {p q r : Expr} (H : Lin a b p q r) {u w : Value}
    (hu : integral D p = some u) (hw : integral D q = some w)
    (hp : (Step.integrate D p).Exists) (hq : (Step.integrate D q).Exists) :
    ∃ y, integral D r = some y ∧ ∀ env, y env = a * u env + b * w env := by
  obtain ⟨hne, J, hJ, rfl⟩ := integral_eq_some.1 hu
  obtain ⟨-, J', hJ', rfl⟩ := integral_eq_some.1 hw
  rw [hJ, Option.some.injEq] at hJ'
  subst hJ'
  refine ⟨_, integral_eq_some.2 ⟨hne, J, hJ, rfl⟩, fun env => ?_⟩
  have := iterInt_lin ((integrationLimits D.cell).getD []) (iterIntegrable_mul_const _ (hp env) J)
    (iterIntegrable_mul_const _ (hq env) J) a b
  have e := congrFun this fun _ => 0
  refine Eq.trans ?_ e
  unfold cellInt
  congr 1
  funext z
  rw [H.substs (x.zip D.integralPoint) (tEnv env z)]
  ring

/-! ### Theorems -/

theorem combination_rel {a b : ℝ} {f g h : FnObj} (hc : combination a b f g = some h) :
    RelF (DLin a b) f g h := by
  unfold combination at hc
  split at hc
  · rw [← Option.some.inj hc]
    exact .scalar (dlin_combination a b _ _)
  · rename_i v w
    simp only [Option.map_eq_some_iff] at hc
    obtain ⟨u, hu, rfl⟩ := hc
    unfold vadd vrmul at hu
    split_ifs at hu with hl
    rw [← Option.some.inj hu, List.zipWith_map]
    exact .vector (rel3_of_zipWith _ (fun p q => dlin_combination a b p q) (by simpa using hl))
  · rename_i m n
    simp only [Option.bind_eq_bind, Option.bind_eq_some_iff, Option.pure_def, Option.some.injEq] at hc
    obtain ⟨m', hm', n', hn', r, hr, rfl⟩ := hc
    have aux : ∀ m m' : List (List Expr), mkMat m = some m' → m' = m ∧ ∃ c, ∀ l ∈ m, l.length = c := by
      intro m m' h
      refine ⟨?_, (mkMat_isSome m).1 (by simp [h])⟩
      unfold mkMat at h
      split_ifs at h
      exact (Option.some.inj h).symm
    unfold mscale at hm' hn'
    obtain ⟨rfl, c, hcm⟩ := aux _ _ hm'
    obtain ⟨rfl, c', hcn⟩ := aux _ _ hn'
    unfold madd at hr
    split_ifs at hr with hs
    obtain ⟨rfl, -⟩ := aux _ _ hr
    have hlen : m.length = n.length := by
      have := congrArg Prod.fst hs
      simpa [shape] using this
    rw [List.zipWith_map]
    have hcm' : ∀ l ∈ m, l.length = c := by
      intro l hl
      have := hcm _ (List.mem_map.2 ⟨l, hl, rfl⟩)
      simpa using this
    have hcn' : ∀ l ∈ n, l.length = c' := by
      intro l hl
      have := hcn _ (List.mem_map.2 ⟨l, hl, rfl⟩)
      simpa using this
    have hcc : m ≠ [] → c = c' := by
      intro hne
      have := congrArg Prod.snd hs
      cases m with
      | nil => exact absurd rfl hne
      | cons l m =>
        cases n with
        | nil => simp at hlen
        | cons k n =>
          simp [shape] at this
          rw [← hcm' l (by simp), ← hcn' k (by simp), this]
    refine .matrix ?_
    clear hm' hn' hcm hcn hr hs
    induction m generalizing n with
    | nil =>
      cases n with
      | nil => exact .nil
      | cons _ _ => simp at hlen
    | cons l m ih =>
      cases n with
      | nil => simp at hlen
      | cons k n =>
        refine .cons ?_ (ih n (by simpa using hlen) (fun l hl => hcm' l (by simp [hl]))
          (fun l hl => hcn' l (by simp [hl])) fun _ => hcc (by simp))
        show Rel3 (DLin a b) l k (List.zipWith add (l.map fun j => mul j (num a)) (k.map fun j => mul j (num b)))
        rw [List.zipWith_map]
        exact rel3_of_zipWith _ (fun p q => dlin_combination' a b p q)
          (by rw [hcm' l (by simp), hcn' k (by simp), hcc (by simp)])
  · simp at hc

/-- **C53** Functionals are linear: where they can be applied to `f` and to `g`, and the integrals exist,
they can be applied to `a * f + b * g`, with the value `a F(f) + b F(g)`. -/
theorem value_linear (F : Functional) (a b : ℝ) {f g h : FnObj} (hc : combination a b f g = some h)
    {r s : Value} (hr : value F f = some r) (hs : value F g = some s)
    (hf : ∀ st, step F f = some st → st.Exists) (hg : ∀ st, step F g = some st → st.Exists) :
    ∃ q, value F h = some q ∧ ∀ env, q env = a * r env + b * s env := by
  simp only [value, Option.bind_eq_bind, Option.bind_eq_some_iff] at hr hs ⊢
  obtain ⟨st, hst, hr⟩ := hr
  obtain ⟨st', hst', hs⟩ := hs
  obtain ⟨st'', hst'', H⟩ := step_lin F (combination_rel hc) hst hst'
  cases H with
  | done H =>
    rw [← Option.some.inj hr, ← Option.some.inj hs]
    exact ⟨_, ⟨_, hst'', rfl⟩, H⟩
  | integrate H =>
    obtain ⟨y, hy, he⟩ := integral_lin _ H hr hs (hf _ hst) (hg _ hst')
    exact ⟨y, ⟨_, hst'', hy⟩, he⟩

/-- **C53** The same for the constants that `eval` returns. -/
theorem evalSymbolic_linear (F : Functional) (a b : ℝ) {f g h : FnObj} (hc : combination a b f g = some h)
    {r s : ℝ} (hr : evalSymbolic F f = some r) (hs : evalSymbolic F g = some s)
    (hf : ∀ st, step F f = some st → st.Exists) (hg : ∀ st, step F g = some st → st.Exists) :
    evalSymbolic F h = some (a * r + b * s) := by
  simp only [evalSymbolic, Option.bind_eq_bind, Option.bind_eq_some_iff] at hr hs ⊢
  obtain ⟨u, hu, hr⟩ := hr
  obtain ⟨w, hw, hs⟩ := hs
  split_ifs at hr hs with h1 h2
  obtain ⟨q, hq, he⟩ := value_linear F a b hc hu hw hf hg
  refine ⟨q, hq, ?_⟩
  rw [if_pos (by intro env env'; rw [he, he, h1 env env', h2 env env']), he, ← Option.some.inj hr, ← Option.some.inj hs]
  rfl

end Verif.Functionals
