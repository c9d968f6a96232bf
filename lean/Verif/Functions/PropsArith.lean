import Verif.Functions.Model
import Mathlib.LinearAlgebra.Matrix.Determinant.Basic
import Mathlib.LinearAlgebra.CrossProduct
import Mathlib.Data.Matrix.Mul
import Mathlib.Data.List.OfFn
import Mathlib.Tactic.Linarith

/-!
# Arithmetic of vectors and matrices is pointwise (C44)
-/

namespace Verif.Functions

open Expr Matrix

/-! ### Spec -/

/-- The vector function has these values. -/
def VIs (env : String → ℝ) (v : List Expr) {n : ℕ} (V : Fin n → ℝ) : Prop :=
  v.map (·.eval env) = List.ofFn V

/-- The matrix function has these values. -/
def MIs (env : String → ℝ) (m : List (List Expr)) {r c : ℕ} (M : Matrix (Fin r) (Fin c) ℝ) : Prop :=
  m.map (·.map (·.eval env)) = List.ofFn fun i => List.ofFn (M i)

/-! ### Vectors -/

section Vectors

variable {env : String → ℝ} {n : ℕ} {v w : List Expr} {V W : Fin n → ℝ}

theorem VIs.length (h : VIs env v V) : v.length = n := by
  have := congrArg List.length h
  simpa using this

theorem VIs.get (h : VIs env v V) (i : Fin n) : ∃ e, v[(i : ℕ)]? = some e ∧ e.eval env = V i := by
  have hi : (i : ℕ) < v.length := by rw [h.length]; exact i.2
  refine ⟨v[(i : ℕ)], List.getElem?_eq_getElem hi, ?_⟩
  have := congrArg (fun l : List ℝ => l[(i : ℕ)]?) h
  simpa [hi] using this

theorem VIs.of_get (hl : v.length = n) (h : ∀ i : Fin n, ∃ e, v[(i : ℕ)]? = some e ∧ e.eval env = V i) :
    VIs env v V := by
  apply List.ext_getElem?
  intro i
  by_cases hi : i < n
  · obtain ⟨e, he, hv⟩ := h ⟨i, hi⟩
    rw [List.getElem?_map, he, List.getElem?_ofFn, dif_pos hi]
    simp [hv]
  · rw [List.getElem?_eq_none, List.getElem?_eq_none] <;> simp <;> omega

theorem VIs.zipWith (hv : VIs env v V) (hw : VIs env w W) (op : Expr → Expr → Expr) (f : ℝ → ℝ → ℝ)
    (h : ∀ a b, (op a b).eval env = f (a.eval env) (b.eval env)) :
    VIs env (List.zipWith op v w) fun i => f (V i) (W i) := by
  refine VIs.of_get (by simp [hv.length, hw.length]) fun i => ?_
  obtain ⟨a, ha, ea⟩ := hv.get i
  obtain ⟨b, hb, eb⟩ := hw.get i
  exact ⟨op a b, by simp [List.getElem?_zipWith, ha, hb], by rw [h, ea, eb]⟩

theorem VIs.map (hv : VIs env v V) (op : Expr → Expr) (f : ℝ → ℝ)
    (h : ∀ a, (op a).eval env = f (a.eval env)) : VIs env (v.map op) fun i => f (V i) := by
  refine VIs.of_get (by simp [hv.length]) fun i => ?_
  obtain ⟨a, ha, ea⟩ := hv.get i
  exact ⟨op a, by simp [ha], by rw [h, ea]⟩

/-- **C44** Sums of vectors. -/
theorem vadd_eval (hv : VIs env v V) (hw : VIs env w W) : ∃ u, vadd v w = some u ∧ VIs env u (V + W) := by
  refine ⟨_, if_pos (by rw [hv.length, hw.length]), hv.zipWith hw _ _ fun _ _ => rfl⟩

/-- **C44** Differences of vectors. -/
theorem vsub_eval (hv : VIs env v V) (hw : VIs env w W) : ∃ u, vsub v w = some u ∧ VIs env u (V - W) := by
  exact ⟨_, if_pos (by rw [hv.length, hw.length]), hv.zipWith hw _ (· - ·) fun _ _ => rfl⟩

/-- **C44** `w - v`, computed by the right operand. -/
theorem vrsub_eval (hv : VIs env v V) (hw : VIs env w W) : ∃ u, vrsub v w = some u ∧ VIs env u (W - V) := by
  exact ⟨_, if_pos (by rw [hv.length, hw.length]), hw.zipWith hv _ (· - ·) fun _ _ => rfl⟩

/-- **C44** Operands of different lengths are rejected. -/
theorem vadd_none (h : v.length ≠ w.length) : vadd v w = none ∧ vsub v w = none ∧ vrsub v w = none ∧
    vdot v w = none :=
  ⟨if_neg h, if_neg h, if_neg h, if_neg h⟩

/-- **C44** is false for lists: whenever the lengths differ, adding a list gives a shorter vector instead
of raising. -/
theorem vaddList_truncates (h : w.length < v.length) : (vaddList v w).length = w.length ∧
    (vaddList v w).length < v.length := by
  have : (vaddList v w).length = w.length := by simp [vaddList]; omega
  exact ⟨this, by omega⟩

example : (vaddList [sym "x", sym "y"] [num 1]).length = 1 := rfl

/-- **C44** Adding a list of the same length. -/
theorem vaddList_eval_partial (hv : VIs env v V) (hw : VIs env w W) : VIs env (vaddList v w) (V + W) :=
  hv.zipWith hw _ _ fun _ _ => rfl

/-- **C44** Negation. -/
theorem vneg_eval (hv : VIs env v V) : VIs env (vneg v) (-V) := hv.map _ _ fun _ => rfl

/-- **C44** Products with scalars. -/
theorem vmul_eval (hv : VIs env v V) (f : Expr) : VIs env (vmul v f) fun i => V i * f.eval env :=
  hv.map _ (fun a => a * f.eval env) fun _ => rfl

/-- **C44** Products with scalars. -/
theorem vrmul_eval (hv : VIs env v V) (f : Expr) : VIs env (vrmul f v) (f.eval env • V) :=
  hv.map _ (fun a => f.eval env * a) fun _ => rfl

/-- **C44** Quotients by scalars. -/
theorem vdiv_eval (hv : VIs env v V) (f : Expr) : VIs env (vdiv v f) fun i => V i / f.eval env :=
  hv.map _ (fun a => a / f.eval env) fun _ => rfl

theorem eval_foldl_add {α : Type} (l : List α) (g : α → Expr) (e0 : Expr) :
    (l.foldl (fun out i => add out (g i)) e0).eval env = e0.eval env + (l.map fun i => (g i).eval env).sum := by
  induction l generalizing e0 with
  | nil => simp
  | cons a l ih => rw [List.foldl_cons, ih, List.map_cons, List.sum_cons, eval, add_assoc]

theorem map_zip_eq {α β γ : Type} (l : List α) (l' : List β) (f : α → β → γ) :
    (l.zip l').map (fun ij => f ij.1 ij.2) = List.zipWith f l l' := by
  rw [List.zip, List.map_zipWith]

/-- **C44** Dot products. -/
theorem vdot_eval (hv : VIs env v V) (hw : VIs env w W) : ∃ e, vdot v w = some e ∧ e.eval env = V ⬝ᵥ W := by
  refine ⟨_, if_pos (by rw [hv.length, hw.length]), ?_⟩
  rw [eval_foldl_add _ (fun ij : Expr × Expr => mul ij.1 ij.2)]
  have h := hv.zipWith hw mul (· * ·) fun _ _ => rfl
  have e : ((v.zip w).map fun i => (mul i.1 i.2).eval env) = (List.zipWith mul v w).map (·.eval env) := by
    rw [← map_zip_eq v w, List.map_map]; rfl
  rw [e, h, List.sum_ofFn]
  simp [eval, dotProduct]

/-- **C44** Norms. -/
theorem vnorm_eval (hv : VIs env v V) : (vnorm v).eval env = √(∑ i, V i ^ 2) := by
  unfold vnorm
  rw [eval, eval_foldl_add v (fun i => pow i 2)]
  have h := hv.map (fun i => pow i 2) (fun a => a ^ 2) fun _ => rfl
  have e : (v.map fun i => (pow i 2).eval env) = (v.map fun i => pow i 2).map (·.eval env) := by
    rw [List.map_map]; rfl
  rw [e, h, List.sum_ofFn]
  simp [eval]

/-- **C44** Norms of scalars. -/
theorem snorm_eval (f : Expr) : (snorm f).eval env = |f.eval env| := by
  simp [snorm, eval, Real.sqrt_sq_eq_abs]

end Vectors

/-- **C44** Cross products in two dimensions. -/
theorem vcross_two {env : String → ℝ} {v w : List Expr} {V W : Fin 2 → ℝ} (hv : VIs env v V)
    (hw : VIs env w W) : ∃ e, vcross v w = some (.scalar e) ∧ e.eval env = V 0 * W 1 - V 1 * W 0 := by
  obtain ⟨a, b, rfl⟩ := List.length_eq_two.1 hv.length
  obtain ⟨c, d, rfl⟩ := List.length_eq_two.1 hw.length
  simp only [VIs, List.map_cons, List.map_nil, List.ofFn_succ, List.ofFn_zero, List.cons.injEq,
    and_true] at hv hw
  refine ⟨_, rfl, ?_⟩
  simp only [eval, hv, hw]
  rfl

/-- **C44** Cross products in three dimensions. -/
theorem vcross_three {env : String → ℝ} {v w : List Expr} {V W : Fin 3 → ℝ} (hv : VIs env v V)
    (hw : VIs env w W) : ∃ u, vcross v w = some (.vector u) ∧ VIs env u (crossProduct V W) := by
  obtain ⟨a, b, c, rfl⟩ := List.length_eq_three.1 hv.length
  obtain ⟨d, e, f, rfl⟩ := List.length_eq_three.1 hw.length
  simp only [VIs, List.map_cons, List.map_nil, List.ofFn_succ, List.ofFn_zero, List.cons.injEq,
    and_true] at hv hw
  refine ⟨_, rfl, ?_⟩
  simp only [VIs, List.map_cons, List.map_nil, eval, hv, hw, cross_apply]
  simp [List.ofFn_succ]

/-- Cross products exist in two and three dimensions only. -/
theorem vcross_isSome (v w : List Expr) :
    (vcross v w).isSome ↔ (v.length = 2 ∨ v.length = 3) ∧ v.length = w.length := by
  unfold vcross
  split
  · simp
  · simp
  · rename_i h1 h2
    simp only [Option.isSome_none, Bool.false_eq_true, false_iff]
    rintro ⟨hv | hv, hl⟩
    · obtain ⟨a, b, rfl⟩ := List.length_eq_two.1 hv
      obtain ⟨c, d, rfl⟩ := List.length_eq_two.1 (hl ▸ hv)
      exact h1 _ _ _ _ rfl rfl
    · obtain ⟨a, b, c, rfl⟩ := List.length_eq_three.1 hv
      obtain ⟨d, e, f, rfl⟩ := List.length_eq_three.1 (hl ▸ hv)
      exact h2 _ _ _ _ _ _ rfl rfl

/-! ### Matrices -/

section Matrices

variable {env : String → ℝ} {r c : ℕ} {m m' : List (List Expr)} {M M' : Matrix (Fin r) (Fin c) ℝ}

theorem MIs.length (h : MIs env m M) : m.length = r := by
  have := congrArg List.length h
  simpa using this

theorem MIs.get (h : MIs env m M) (i : Fin r) : ∃ l, m[(i : ℕ)]? = some l ∧ VIs env l (M i) := by
  have hi : (i : ℕ) < m.length := by rw [h.length]; exact i.2
  refine ⟨m[(i : ℕ)], List.getElem?_eq_getElem hi, ?_⟩
  have := congrArg (fun l : List (List ℝ) => l[(i : ℕ)]?) h
  simpa [hi, VIs] using this

theorem MIs.of_get (hl : m.length = r) (h : ∀ i : Fin r, ∃ l, m[(i : ℕ)]? = some l ∧ VIs env l (M i)) :
    MIs env m M := by
  apply List.ext_getElem?
  intro i
  by_cases hi : i < r
  · obtain ⟨e, he, hv⟩ := h ⟨i, hi⟩
    rw [List.getElem?_map, he, List.getElem?_ofFn, dif_pos hi]
    simpa [VIs] using hv
  · rw [List.getElem?_eq_none, List.getElem?_eq_none] <;> simp <;> omega

theorem MIs.row_length (h : MIs env m M) {l : List Expr} (hl : l ∈ m) : l.length = c := by
  obtain ⟨i, hi, rfl⟩ := List.getElem_of_mem hl
  have hr : i < r := by rw [← h.length]; exact hi
  obtain ⟨l, hl, hV⟩ := h.get ⟨i, hr⟩
  rw [List.getElem?_eq_getElem hi, Option.some.injEq] at hl
  rw [hl]
  exact hV.length

theorem MIs.shape_fst (h : MIs env m M) : (shape m).1 = r := h.length

theorem MIs.shape_snd (h : MIs env m M) (hr : 0 < r) : (shape m).2 = c := by
  have hl : 0 < m.length := by rw [h.length]; exact hr
  simp only [shape, List.getElem?_eq_getElem hl, Option.getD_some]
  exact h.row_length (List.getElem_mem _)

theorem MIs.entry (h : MIs env m M) (i : Fin r) (j : Fin c) : (entry m i j).eval env = M i j := by
  obtain ⟨l, hl, hV⟩ := h.get i
  obtain ⟨e, he, hv⟩ := hV.get j
  simp [Functions.entry, hl, he, hv]

/-- The constructor accepts matrices. -/
theorem MIs.mkMat (h : MIs env m M) : mkMat m = some m := by
  unfold Functions.mkMat
  rw [if_pos]
  intro l hl
  have h0 : 0 < m.length := List.length_pos_of_mem hl
  rw [h.row_length hl, List.getElem?_eq_getElem h0, Option.getD_some, h.row_length (List.getElem_mem _)]

/-- The constructor rejects lists that are no matrices. -/
theorem mkMat_isSome (m : List (List Expr)) : (mkMat m).isSome ↔ ∃ c, ∀ l ∈ m, l.length = c := by
  unfold mkMat
  split_ifs with h
  · simpa using ⟨_, h⟩
  · simp only [Option.isSome_none, Bool.false_eq_true, false_iff]
    rintro ⟨c, hc⟩
    apply h
    intro l hl
    have h0 : 0 < m.length := List.length_pos_of_mem hl
    rw [hc l hl, List.getElem?_eq_getElem h0, Option.getD_some, hc _ (List.getElem_mem _)]

theorem MIs.row (h : MIs env m M) (hr : 0 < r) (i : Fin r) : VIs env (row m i) (M i) := by
  refine VIs.of_get (by simp [Functions.row, h.shape_snd hr]) fun j => ?_
  refine ⟨Functions.entry m i j, ?_, h.entry i j⟩
  simp [Functions.row, h.shape_snd hr]

theorem MIs.col (h : MIs env m M) (j : Fin c) : VIs env (col m j) (fun i => M i j) := by
  refine VIs.of_get (by simp [Functions.col, h.shape_fst]) fun i => ?_
  refine ⟨Functions.entry m i j, ?_, h.entry i j⟩
  simp [Functions.col, h.shape_fst]

theorem MIs.zipWith (h : MIs env m M) (h' : MIs env m' M') (op : Expr → Expr → Expr) (f : ℝ → ℝ → ℝ)
    (hop : ∀ a b, (op a b).eval env = f (a.eval env) (b.eval env)) :
    MIs env (List.zipWith (List.zipWith op) m m') (Matrix.of fun i j => f (M i j) (M' i j)) := by
  refine MIs.of_get (by simp [h.length, h'.length]) fun i => ?_
  obtain ⟨a, ha, ea⟩ := h.get i
  obtain ⟨b, hb, eb⟩ := h'.get i
  exact ⟨List.zipWith op a b, by simp [List.getElem?_zipWith, ha, hb], ea.zipWith eb op f hop⟩

theorem MIs.map (h : MIs env m M) (op : Expr → Expr) (f : ℝ → ℝ)
    (hop : ∀ a, (op a).eval env = f (a.eval env)) : MIs env (m.map (·.map op)) (M.map f) := by
  refine MIs.of_get (by simp [h.length]) fun i => ?_
  obtain ⟨a, ha, ea⟩ := h.get i
  exact ⟨a.map op, by simp [ha], ea.map op f hop⟩

theorem MIs.shape_eq (h : MIs env m M) (h' : MIs env m' M') : shape m = shape m' := by
  rcases Nat.eq_zero_or_pos r with hr | hr
  · have e1 : m = [] := List.length_eq_zero_iff.1 (by rw [h.length, hr])
    have e2 : m' = [] := List.length_eq_zero_iff.1 (by rw [h'.length, hr])
    rw [e1, e2]
  · exact Prod.ext (by rw [h.shape_fst, h'.shape_fst]) (by rw [h.shape_snd hr, h'.shape_snd hr])

/-- **C44** Sums of matrices. -/
theorem madd_eval (h : MIs env m M) (h' : MIs env m' M') : ∃ n, madd m m' = some n ∧ MIs env n (M + M') := by
  have := h.zipWith h' add (· + ·) fun _ _ => rfl
  exact ⟨_, by rw [madd, if_pos (h.shape_eq h'), this.mkMat], this⟩

/-- **C44** Differences of matrices. -/
theorem msub_eval (h : MIs env m M) (h' : MIs env m' M') : ∃ n, msub m m' = some n ∧ MIs env n (M - M') := by
  have := h.zipWith h' sub (· - ·) fun _ _ => rfl
  exact ⟨_, by rw [msub, if_pos (h.shape_eq h'), this.mkMat], this⟩

/-- **C44** Negation. -/
theorem mneg_eval (h : MIs env m M) : ∃ n, mneg m = some n ∧ MIs env n (-M) := by
  have := h.map neg (fun a => -a) fun _ => rfl
  exact ⟨_, by rw [mneg, this.mkMat], this⟩

/-- **C44** Products with scalars. -/
theorem mscale_eval (h : MIs env m M) (f : Expr) : ∃ n, mscale m f = some n ∧ MIs env n (f.eval env • M) := by
  have := h.map (fun j => mul j f) (fun a => f.eval env * a) fun a => by rw [eval, mul_comm]
  exact ⟨_, by rw [mscale, this.mkMat], this⟩

/-- **C44** Operands of different shapes are rejected. -/
theorem madd_none (h : shape m ≠ shape m') : madd m m' = none ∧ msub m m' = none ∧ mdot m m' = none :=
  ⟨if_neg h, if_neg h, if_neg h⟩

theorem mapM_range {α : Type} (n : ℕ) (f : ℕ → Option α) (g : ℕ → α) (h : ∀ i < n, f i = some (g i)) :
    (List.range n).mapM f = some ((List.range n).map g) := by
  have : ∀ l : List ℕ, (∀ i ∈ l, i < n) → l.mapM f = some (l.map g) := by
    intro l
    induction l with
    | nil => intro _; rfl
    | cons a l ih =>
      intro hl
      rw [List.mapM_cons, h a (hl a (by simp)), ih fun i hi => hl i (by simp [hi])]
      rfl
  exact this _ fun i hi => List.mem_range.1 hi

/-- **C44** Products of a matrix and a vector. -/
theorem mvec_eval (h : MIs env m M) (hr : 0 < r) {v : List Expr} {V : Fin c → ℝ} (hv : VIs env v V) :
    ∃ u, mvec m v = some u ∧ VIs env u (M *ᵥ V) := by
  choose e he hev using fun i : Fin r => vdot_eval (h.row hr i) hv
  refine ⟨(List.range r).map fun i => if hi : i < r then e ⟨i, hi⟩ else num 0, ?_, ?_⟩
  · rw [mvec, if_pos (by rw [h.shape_snd hr, hv.length]), h.shape_fst]
    refine mapM_range r _ _ fun i hi => ?_
    rw [dif_pos hi, ← he ⟨i, hi⟩]
  · refine VIs.of_get (by simp) fun i => ?_
    refine ⟨e i, by simp, ?_⟩
    rw [hev]
    rfl

/-- **C44** Products of matrices. -/
theorem mmatmul_eval {k : ℕ} (h : MIs env m M) {n : List (List Expr)} {N : Matrix (Fin c) (Fin k) ℝ}
    (hn : MIs env n N) (hr : 0 < r) (hc : 0 < c) :
    ∃ u, mmatmul m n = some u ∧ MIs env u (M * N) := by
  choose e he hev using fun (i : Fin r) (j : Fin k) => vdot_eval (h.row hr i) (hn.col j)
  set u := (List.range r).map fun i => (List.range k).map fun j =>
    if hi : i < r ∧ j < k then e ⟨i, hi.1⟩ ⟨j, hi.2⟩ else num 0 with hu
  have hU : MIs env u (M * N) := by
    refine MIs.of_get (by simp [hu]) fun i => ⟨_, by simp [hu]; rfl, ?_⟩
    refine VIs.of_get (by simp) fun j => ⟨e i j, by simp, ?_⟩
    rw [hev]
    rfl
  refine ⟨u, ?_, hU⟩
  rw [mmatmul, if_pos (by rw [h.shape_snd hr, hn.shape_fst]), h.shape_fst, hn.shape_snd hc]
  rw [mapM_range r _ (fun i => (List.range k).map fun j =>
    if hi : i < r ∧ j < k then e ⟨i, hi.1⟩ ⟨j, hi.2⟩ else num 0)]
  · exact hU.mkMat
  · intro i hi
    refine mapM_range k _ _ fun j hj => ?_
    rw [dif_pos ⟨hi, hj⟩, ← he ⟨i, hi⟩ ⟨j, hj⟩]

/-- **C44** The sizes of a matrix product must match. -/
theorem mmatmul_none {n : List (List Expr)} (h : (shape n).1 ≠ (shape m).2) : mmatmul m n = none := if_neg h

/-- **C44** Transposes. -/
theorem mtranspose_eval (h : MIs env m M) (hr : 0 < r) : ∃ u, mtranspose m = some u ∧ MIs env u Mᵀ := by
  have : MIs env ((List.range (shape m).2).map fun j => (List.range (shape m).1).map fun i =>
      entry m i j) Mᵀ := by
    rw [h.shape_snd hr, h.shape_fst]
    refine MIs.of_get (by simp) fun j => ⟨_, by simp; rfl, ?_⟩
    exact VIs.of_get (by simp) fun i => ⟨_, by simp, h.entry i j⟩
  exact ⟨_, this.mkMat, this⟩

/-- **C44** Derivatives of matrices. -/
theorem mdiff_eval (h : MIs env m M) (hr : 0 < r) (s : String) : ∃ u, mdiff m s = some u ∧
    MIs env u (Matrix.of fun (i : Fin r) (j : Fin c) => ((entry m i j).diff s).eval env) := by
  have : MIs env ((List.range (shape m).1).map fun i => (List.range (shape m).2).map fun j =>
    (entry m i j).diff s) (Matrix.of fun (i : Fin r) (j : Fin c) => ((entry m i j).diff s).eval env) := by
    rw [h.shape_snd hr, h.shape_fst]
    refine MIs.of_get (by simp) fun j => ⟨_, by simp; rfl, ?_⟩
    exact VIs.of_get (by simp) fun i => ⟨_, by simp, rfl⟩
  exact ⟨_, this.mkMat, this⟩

/-! ### Determinants -/

theorem sympyDet_eval (n : ℕ) (a : ℕ → ℕ → Expr) :
    (sympyDet n a).eval env = (Matrix.of fun i j : Fin n => (a i j).eval env).det := by
  induction n generalizing a with
  | zero => simp [sympyDet, eval]
  | succ n ih =>
    rw [sympyDet, eval_foldl_add (List.range (n + 1)) (fun j => mul (mul (num ((-1) ^ j)) (a 0 j))
        (sympyDet n fun r c => a (r + 1) (if c < j then c else c + 1))), det_succ_row_zero]
    have e : ∀ f : ℕ → ℝ, ((List.range (n + 1)).map f).sum = ∑ j : Fin (n + 1), f j := by
      intro f
      rw [Fin.sum_univ_def, ← List.map_coe_finRange_eq_range, List.map_map]
      rfl
    rw [e]
    simp only [eval, zero_add, ih]
    refine Finset.sum_congr rfl fun j _ => ?_
    congr 2
    ext i k
    simp only [Matrix.of_apply, Matrix.submatrix_apply, Fin.val_succ]
    congr 3
    unfold Fin.succAbove
    simp only [Fin.lt_def, Fin.val_castSucc]
    split_ifs <;> simp

/-- **C44** Determinants of square matrices. -/
theorem mdet_eval {n : ℕ} {m : List (List Expr)} {M : Matrix (Fin n) (Fin n) ℝ} (h : MIs env m M) :
    ∃ e, mdet m = some e ∧ e.eval env = M.det := by
  have hs : (shape m).1 = (shape m).2 := by
    rcases Nat.eq_zero_or_pos n with hn | hn
    · have e1 : m = [] := List.length_eq_zero_iff.1 (by rw [h.length, hn])
      rw [e1]; rfl
    · rw [h.shape_fst, h.shape_snd hn]
  refine ⟨_, if_pos hs, ?_⟩
  rw [sympyDet_eval, h.shape_fst]
  congr 1
  ext i j
  exact h.entry i j

/-- **C44** The determinant of a matrix with three rows and two columns is the factor by which it scales
areas. -/
theorem mdet_surface {m : List (List Expr)} {M : Matrix (Fin 3) (Fin 2) ℝ} (h : MIs env m M) :
    ∃ e, mdet m = some e ∧ e.eval env = √((Mᵀ * M).det) := by
  obtain ⟨u, hu, hU⟩ := vcross_three (h.col 0) (h.col 1)
  have h1 := h.shape_fst
  have h2 := h.shape_snd (by norm_num)
  refine ⟨vnorm u, ?_, ?_⟩
  · unfold mdet
    rw [if_neg (by omega), if_pos ⟨h1, h2⟩]
    simp only [Fin.val_zero, Fin.val_one] at hu
    rw [hu]
  · rw [vnorm_eval hU]
    congr 1
    rw [det_fin_two]
    simp only [Matrix.mul_apply, Matrix.transpose_apply, Fin.sum_univ_three, cross_apply]
    simp
    ring

/-- **C44** Other matrices have no determinant. -/
theorem mdet_none {m : List (List Expr)} (h : (shape m).1 ≠ (shape m).2)
    (h' : ¬ ((shape m).1 = 3 ∧ (shape m).2 = 2)) : mdet m = none := by
  rw [mdet, if_neg h, if_neg h']

/-! ### Dot products of matrices -/

theorem sum_range_fin (n : ℕ) (f : ℕ → ℝ) : ((List.range n).map f).sum = ∑ j : Fin n, f j := by
  rw [Fin.sum_univ_def, ← List.map_coe_finRange_eq_range, List.map_map]
  rfl

theorem mdot_value (h : shape m = shape m') (h' : (shape m).1 ≤ (shape m).2) : ∃ e, mdot m m' = some e ∧
    e.eval env = ∑ i : Fin (shape m).1, ∑ j : Fin (shape m).1,
      (entry m i j).eval env * (entry m' i j).eval env := by
  refine ⟨_, by rw [mdot, if_pos h, if_pos h'], ?_⟩
  have key : ∀ (l : List ℕ) (e0 : Expr), (l.foldl (fun out i => (List.range (shape m).1).foldl
        (fun out j => add out (mul (entry m i j) (entry m' i j))) out) e0).eval env =
      e0.eval env + (l.map fun i => ∑ j : Fin (shape m).1,
        (entry m i j).eval env * (entry m' i j).eval env).sum := by
    intro l
    induction l with
    | nil => simp
    | cons a l ih =>
      intro e0
      rw [List.foldl_cons, ih, eval_foldl_add (List.range (shape m).1)
        (fun j => mul (entry m a j) (entry m' a j)), List.map_cons, List.sum_cons,
        sum_range_fin]
      simp only [eval]
      ring
  rw [key, sum_range_fin]
  simp [eval]

/-- **C44** Dot products of square matrices. -/
theorem mdot_eval_partial {n : ℕ} {m m' : List (List Expr)} {M M' : Matrix (Fin n) (Fin n) ℝ}
    (h : MIs env m M) (h' : MIs env m' M') : ∃ e, mdot m m' = some e ∧
      e.eval env = ∑ i, ∑ j, M i j * M' i j := by
  have hs : (shape m).1 = (shape m).2 := by
    rcases Nat.eq_zero_or_pos n with hn | hn
    · have e1 : m = [] := List.length_eq_zero_iff.1 (by rw [h.length, hn])
      rw [e1]; rfl
    · rw [h.shape_fst, h.shape_snd hn]
  obtain ⟨e, he, hv⟩ := mdot_value (env := env) (h.shape_eq h') hs.le
  refine ⟨e, he, ?_⟩
  rw [hv]
  have h1 := h.shape_fst
  have := fun i j => h.entry i j
  have := fun i j => h'.entry i j
  rw [h1]
  simp only [h.entry, h'.entry]

/-- The matrix of ones. -/
def ones (r c : ℕ) : List (List Expr) := List.replicate r (List.replicate c (num 1))

theorem ones_is (r c : ℕ) : MIs env (ones r c) (Matrix.of fun (_ : Fin r) (_ : Fin c) => 1) := by
  refine MIs.of_get (by simp [ones]) fun i =>
    ⟨List.replicate c (num 1), by simp [ones], ?_⟩
  exact VIs.of_get (by simp) fun j => ⟨num 1, by simp, rfl⟩

/-- **C44** is false for dot products of matrices that are not square: for every such shape there are
matrices of that shape for which the result is not the sum of the products of the entries. -/
theorem mdot_wrong (r c : ℕ) (hr : 0 < r) (h : r ≠ c) :
    MIs env (ones r c) (Matrix.of fun (_ : Fin r) (_ : Fin c) => (1 : ℝ)) ∧
    ∀ e, mdot (ones r c) (ones r c) = some e →
      e.eval env ≠ ∑ _i : Fin r, ∑ _j : Fin c, (1 : ℝ) * 1 := by
  have hi := ones_is (env := env) r c
  refine ⟨hi, fun e he => ?_⟩
  by_cases hle : (shape (ones r c)).1 ≤ (shape (ones r c)).2
  · obtain ⟨e', he', hv⟩ := mdot_value (env := env) (rfl : shape (ones r c) = shape (ones r c)) hle
    rw [he, Option.some.injEq] at he'
    rw [he', hv]
    rw [hi.shape_fst, hi.shape_snd hr] at hle
    have e1 : ∀ i j : Fin (shape (ones r c)).1, (entry (ones r c) i j).eval env = 1 := by
      intro i j
      have h1 : (i : ℕ) < r := i.2.trans_eq hi.shape_fst
      have h2 : (j : ℕ) < r := j.2.trans_eq hi.shape_fst
      exact hi.entry ⟨i, h1⟩ ⟨j, by omega⟩
    simp only [e1, mul_one, Finset.sum_const, Finset.card_univ, Fintype.card_fin, hi.shape_fst,
      nsmul_eq_mul]
    have hr' : (r : ℝ) ≠ 0 := by exact_mod_cast hr.ne'
    intro hh
    have := mul_left_cancel₀ hr' hh
    exact h (by exact_mod_cast this)
  · rw [mdot, if_pos rfl, if_neg hle] at he
    exact absurd he (by simp)

/-- With more rows than columns there is an exception. -/
theorem mdot_raises (h : MIs env m M) (h' : MIs env m' M') (hrc : c < r) : mdot m m' = none := by
  rw [mdot, if_pos (h.shape_eq h'), if_neg]
  rw [h.shape_fst, h.shape_snd (by omega)]
  omega

/-! ### Products of a vector and a matrix -/

/-- **C44** Products of a vector and a square matrix. -/
theorem vecm_eval_partial {n : ℕ} {m : List (List Expr)} {M : Matrix (Fin n) (Fin n) ℝ} (h : MIs env m M)
    (hn : 0 < n) {v : List Expr} {V : Fin n → ℝ} (hv : VIs env v V) :
    ∃ u, vecm v m = some u ∧ VIs env u (V ᵥ* M) := by
  choose e he hev using fun j : Fin n => vdot_eval (h.col j) hv
  refine ⟨(List.range n).map fun i => if hi : i < n then e ⟨i, hi⟩ else num 0, ?_, ?_⟩
  · rw [vecm, if_pos (by rw [h.shape_snd hn, hv.length]), h.shape_fst]
    refine mapM_range n _ _ fun i hi => ?_
    rw [dif_pos hi, ← he ⟨i, hi⟩, if_pos (by rw [h.shape_snd hn]; exact hi)]
  · refine VIs.of_get (by simp) fun i => ⟨e i, by simp, ?_⟩
    rw [hev, Matrix.vecMul, dotProduct_comm]

/-- **C44** is false for products of a vector and a matrix that is not square: they raise an exception,
whatever the vector. -/
theorem vecm_raises (h : MIs env m M) (hr : 0 < r) (hrc : r ≠ c) (v : List Expr) : vecm v m = none := by
  unfold vecm
  split_ifs with hv
  · rw [h.shape_fst]
    obtain ⟨r, rfl⟩ : ∃ k, r = k + 1 := ⟨r - 1, by omega⟩
    rw [List.range_succ_eq_map, List.mapM_cons]
    have : (if 0 < (shape m).2 then vdot (col m 0) v else none) = none := by
      split_ifs with h0
      · rw [vdot, if_neg]
        rw [← hv, h.shape_snd hr]
        simp only [col, List.length_map, List.length_range, h.shape_fst]
        exact hrc
      · rfl
    rw [this]
    rfl
  · rfl

end Matrices

/-! ### Concrete cases -/

example : VIs (fun s => if s = "x" then 2 else 3) [mul (sym "x") (sym "y"), sym "y"] ![6, 3] := by
  simp [VIs, eval]; norm_num

example : MIs (fun s => if s = "x" then 2 else 3) [[sym "x", sym "y", num 1], [num 0, num 5, sym "x"]]
    (Matrix.of ![![2, 3, 1], ![0, 5, 2]]) := by
  simp [MIs, eval]

example (env : String → ℝ) : MIs env (ones 2 3) (Matrix.of fun (_ : Fin 2) (_ : Fin 3) => 1) ∧
    vecm [num 1, num 1] (ones 2 3) = none :=
  ⟨ones_is 2 3, vecm_raises (env := env) (ones_is 2 3) (by norm_num) (by norm_num) _⟩

end Verif.Functions
