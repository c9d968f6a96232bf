import Verif.Functionals.Map
import Verif.Functionals.PropsMoment
import Mathlib.LinearAlgebra.Matrix.NonsingularInverse
import Mathlib.Tactic.FieldSimp

/-!
# Moments do not change when cells and functions are mapped (C81)
-/

namespace Verif.Functionals

open Verif.Functions Verif.Functions.Expr Verif.References Verif.Orthogonal Matrix

/-! ### Spec -/

/-- The expressions are the components of the affine map `p ↦ A p + b`. -/
structure IsAffine {n : ℕ} (map : List Expr) (A : Matrix (Fin n) (Fin n) ℝ) (b : Fin n → ℝ) : Prop where
  value : ∀ env, VIs env map fun i => ∑ j, A i j * env (x.getD j "") + b i
  deriv : ∀ env (j : Fin n), VIs env (map.map (diff (x.getD j ""))) fun i => A i j
  noDummy : ∀ e ∈ map, NoDummy e

/-- The maps between the default cell and a cell, and a pair of entities with the same number. -/
structure MappedPair {n : ℕ} (D D' : Domain) (map inv : List Expr) (A B : Matrix (Fin n) (Fin n) ℝ)
    (b c : Fin n → ℝ) : Prop where
  dim : n ≤ 3
  pos : 0 < n
  map : IsAffine map A b
  inv : IsAffine inv B c
  inverse : B * A = 1
  inverse_shift : ∀ i, ∑ j, B i j * b j + c i = 0
  g : D.g = n
  g' : D'.g = n
  cell : D'.cell = D.cell
  not_point : D.cell ≠ .point
  vertices : ∀ k, ∀ i : Fin n, D'.v k i = ∑ j, A i j * D.v k j + b i

section
variable {n : ℕ} {D D' : Domain} {map inv : List Expr} {A B : Matrix (Fin n) (Fin n) ℝ} {b c : Fin n → ℝ}

theorem IsAffine.length {map : List Expr} (h : IsAffine map A b) : map.length = n := (h.value fun _ => 0).length

theorem IsAffine.jacobian (h : IsAffine map A b) : ∃ m, jacobianMatrix map n = some m ∧ ∀ env, MIs env m A := by
  have H : ∀ env, MIs env (map.map fun i => (List.range n).map fun j => i.diff (x.getD j "")) A := by
    intro env
    refine MIs.of_get (by simpa using h.length) fun i => ?_
    have hi : (i : ℕ) < map.length := by rw [h.length]; exact i.2
    refine ⟨_, by rw [List.getElem?_map, List.getElem?_eq_getElem hi]; rfl, ?_⟩
    refine VIs.of_get (by simp) fun j => ?_
    refine ⟨_, by rw [List.getElem?_map, List.getElem?_range j.2]; rfl, ?_⟩
    obtain ⟨e, he, hv⟩ := (h.deriv env j).get i
    rw [List.getElem?_map, List.getElem?_eq_getElem hi] at he
    rw [← hv, ← Option.some.inj he]
  exact ⟨_, (H fun _ => 0).mkMat, H⟩

theorem IsAffine.inverseJacobian (h : IsAffine map A b) : ∃ m, inverseJacobianMatrix map n = some m ∧
    ∀ env, MIs env m Aᵀ := by
  have H : ∀ env, MIs env ((List.range n).map fun j => map.map fun i => i.diff (x.getD j "")) Aᵀ := by
    intro env
    refine MIs.of_get (by simp) fun j => ?_
    refine ⟨_, by rw [List.getElem?_map, List.getElem?_range j.2]; rfl, ?_⟩
    exact h.deriv env j
  exact ⟨_, (H fun _ => 0).mkMat, H⟩

theorem mdiv_eval {env : String → ℝ} {m : List (List Expr)} {M : Matrix (Fin n) (Fin n) ℝ} (h : MIs env m M)
    (f : Expr) : mdiv m f = some (m.map (·.map fun j => div j f)) ∧
      MIs env (m.map (·.map fun j => div j f)) (Matrix.of fun i j => M i j / f.eval env) := by
  have := h.map (fun j => div j f) (fun a => a / f.eval env) fun _ => rfl
  exact ⟨this.mkMat, this⟩

theorem replaced_x {env : String → ℝ} {vals : List Expr} {P : ℕ → ℝ}
    (hv : VIs env vals fun i : Fin n => P i) (s : String) :
    replaced env x vals s = if s = "x" ∧ 0 < n then P 0 else if s = "y" ∧ 1 < n then P 1
      else if s = "z" ∧ 2 < n then P 2 else env s := by
  have hl := hv.length
  have hget : ∀ i, i < n → ∃ e, vals[i]? = some e ∧ e.eval env = P i := fun i hi => hv.get ⟨i, hi⟩
  unfold replaced
  by_cases hx : s = "x"
  · subst hx
    rcases vals with _ | ⟨p, vals⟩
    · simp at hl; simp [Functions.x, ← hl]
    · obtain ⟨e, he, h⟩ := hget 0 (by rw [← hl]; simp)
      simp at he
      simp [Functions.x, ← hl, ← h, he]
  by_cases hy : s = "y"
  · subst hy
    rcases vals with _ | ⟨p, _ | ⟨q, vals⟩⟩
    · simp at hl; simp [Functions.x, ← hl]
    · simp at hl; simp [Functions.x, ← hl]
    · obtain ⟨e, he, h⟩ := hget 1 (by rw [← hl]; simp)
      simp at he
      simp [Functions.x, ← hl, ← h, he]
  by_cases hz : s = "z"
  · subst hz
    rcases vals with _ | ⟨p, _ | ⟨q, _ | ⟨r, vals⟩⟩⟩
    · simp at hl; simp [Functions.x, ← hl]
    · simp at hl; simp [Functions.x, ← hl]
    · simp at hl; simp [Functions.x, ← hl]
    · obtain ⟨e, he, h⟩ := hget 2 (by rw [← hl]; simp)
      simp at he
      simp [Functions.x, ← hl, ← h, he]
  · have : (x.zip vals).find? (fun vv => vv.1 = s) = none := by
      rw [List.find?_eq_none]
      intro vv hvv
      have := (List.of_mem_zip hvv).1
      simp [Functions.x] at this
      rcases this with h | h | h <;> simp [h, Ne.symm hx, Ne.symm hy, Ne.symm hz]
    rw [this]
    simp [hx, hy, hz]

/-! ### No private symbols -/

theorem has_subst {e v : Expr} {s r : String} (h : (e.subst s v).Has r) : (e.Has r ∧ r ≠ s) ∨ v.Has r := by
  induction e with
  | num => exact h.elim
  | sym s' =>
    unfold subst at h
    split_ifs at h with hs
    · exact .inr h
    · have : r = s' := h
      exact .inl ⟨h, by rw [this]; exact hs⟩
  | add a b iha ihb | sub a b iha ihb | mul a b iha ihb | div a b iha ihb =>
    rcases h with h | h
    · exact (iha h).imp_left fun h => ⟨.inl h.1, h.2⟩
    · exact (ihb h).imp_left fun h => ⟨.inr h.1, h.2⟩
  | neg a ih | pow a _ ih | sqrt a ih => exact ih h

theorem has_substs (L : List (String × Expr)) {e : Expr} {r : String}
    (h : (L.foldl (fun e sv => e.subst sv.1 sv.2) e).Has r) :
    (e.Has r ∧ ∀ sv ∈ L, r ≠ sv.1) ∨ ∃ sv ∈ L, sv.2.Has r := by
  induction L generalizing e with
  | nil => exact .inl ⟨h, by simp⟩
  | cons a L ih =>
    rcases ih h with ⟨h1, h2⟩ | ⟨sv, hsv, h1⟩
    · rcases has_subst h1 with h3 | h3
      · refine .inl ⟨h3.1, ?_⟩
        intro sv hsv
        rcases List.mem_cons.1 hsv with rfl | hsv
        exacts [h3.2, h2 _ hsv]
      · exact .inr ⟨a, by simp, h3⟩
    · exact .inr ⟨sv, by simp [hsv], h1⟩

theorem NoDummy.subsList {f : Expr} (hf : NoDummy f) (vars : List String) (values : List Expr)
    (hv : ∀ e ∈ values, NoDummy e) : NoDummy (subsList f vars values) := by
  intro j h
  unfold Functions.subsList at h
  rcases has_substs _ h with ⟨h1, h2⟩ | ⟨sv, hsv, h1⟩
  · have h1' : (((vars.zip ((List.range values.length).map dummySym)).map fun ij => (ij.1, sym ij.2)).foldl
        (fun e sv => e.subst sv.1 sv.2) f).Has (dummySym j) := by
      rw [List.foldl_map]
      exact h1
    rcases has_substs _ h1' with ⟨h3, -⟩ | ⟨sv, hsv, h3⟩
    · exact hf j h3
    · obtain ⟨ij, hij, rfl⟩ := List.mem_map.1 hsv
      have e : dummySym j = ij.2 := h3
      obtain ⟨i, hi⟩ := List.mem_iff_getElem?.1 (List.of_mem_zip hij).2
      have hi' : i < values.length := by
        have := (List.getElem?_eq_some_iff.1 hi).1
        simpa using this
      refine h2 (ij.2, values[i]) ?_ e
      refine List.mem_iff_getElem?.2 ⟨i, ?_⟩
      rw [List.getElem?_zip_eq_some]
      exact ⟨hi, List.getElem?_eq_getElem hi'⟩
  · exact hv _ (List.of_mem_zip hsv).2 j h1

theorem NoDummy.foldl {α : Type} (l : List α) (F : Expr → α → Expr) {e : Expr} (he : NoDummy e)
    (h : ∀ e, NoDummy e → ∀ i ∈ l, NoDummy (F e i)) : NoDummy (l.foldl F e) := by
  induction l generalizing e with
  | nil => exact he
  | cons i l ih => exact ih (h e he i (by simp)) fun e he i hi => h e he i (by simp [hi])

theorem NoDummy.add {f g : Expr} (hf : NoDummy f) (hg : NoDummy g) : NoDummy (add f g) :=
  fun i h => h.elim (hf i) (hg i)

theorem NoDummy.mul {f g : Expr} (hf : NoDummy f) (hg : NoDummy g) : NoDummy (mul f g) :=
  fun i h => h.elim (hf i) (hg i)

theorem NoDummy.div {f g : Expr} (hf : NoDummy f) (hg : NoDummy g) : NoDummy (div f g) :=
  fun i h => h.elim (hf i) (hg i)

theorem noDummy_num (a : ℝ) : NoDummy (num a) := fun _ h => h

theorem noDummy_vdot {v w : List Expr} {e : Expr} (hv : ∀ e ∈ v, NoDummy e) (hw : ∀ e ∈ w, NoDummy e)
    (h : vdot v w = some e) : NoDummy e := by
  unfold vdot at h
  split_ifs at h
  rw [← Option.some.inj h]
  refine NoDummy.foldl _ _ (noDummy_num 0) fun e he i hi => ?_
  exact he.add ((hv _ (List.of_mem_zip hi).1).mul (hw _ (List.of_mem_zip hi).2))

theorem noDummy_entry {m : List (List Expr)} (hm : ∀ r ∈ m, ∀ e ∈ r, NoDummy e) (i j : ℕ) :
    NoDummy (Functions.entry m i j) := by
  unfold Functions.entry
  cases hr : m[i]? with
  | none => simpa using noDummy_num 0
  | some r =>
    cases he : r[j]? with
    | none => simpa [he] using noDummy_num 0
    | some e =>
      simp only [Option.getD_some, he]
      exact hm r (List.mem_of_getElem? hr) e (List.mem_of_getElem? he)

theorem noDummy_mvec {m : List (List Expr)} {v w : List Expr} (hm : ∀ r ∈ m, ∀ e ∈ r, NoDummy e)
    (hv : ∀ e ∈ v, NoDummy e) (h : mvec m v = some w) : ∀ e ∈ w, NoDummy e := by
  unfold mvec at h
  split_ifs at h
  have aux : ∀ (L : List ℕ) w, L.mapM (fun i => vdot (row m i) v) = some w → ∀ e ∈ w, NoDummy e := by
    intro L
    induction L with
    | nil =>
      intro w h
      simp only [List.mapM_nil, Option.pure_def, Option.some.injEq] at h
      subst h
      simp
    | cons i L ih =>
      intro w h
      rw [List.mapM_cons] at h
      simp only [Option.bind_eq_bind, Option.bind_eq_some_iff, Option.pure_def, Option.some.injEq] at h
      obtain ⟨p, hp, w', hw', rfl⟩ := h
      intro e he
      rcases List.mem_cons.1 he with rfl | he
      · refine noDummy_vdot ?_ hv hp
        intro e he
        obtain ⟨j, -, rfl⟩ := List.mem_map.1 he
        exact noDummy_entry hm i j
      · exact ih w' hw' e he
  exact aux _ _ h

theorem noDummy_sympyDet (n : ℕ) (a : ℕ → ℕ → Expr) (ha : ∀ i j, NoDummy (a i j)) : NoDummy (sympyDet n a) := by
  induction n generalizing a with
  | zero => exact noDummy_num 1
  | succ n ih =>
    refine NoDummy.foldl _ _ (noDummy_num 0) fun e he j _ => ?_
    exact he.add (((noDummy_num _).mul (ha 0 j)).mul (ih _ fun r c => ha _ _))

theorem noDummy_jacobian {map : List Expr} {m : List (List Expr)} {k : ℕ} (hm : ∀ e ∈ map, NoDummy e)
    (h : jacobianMatrix map k = some m) : ∀ r ∈ m, ∀ e ∈ r, NoDummy e := by
  rw [mkMat_eq h]
  intro r hr e he
  obtain ⟨i, hi, rfl⟩ := List.mem_map.1 hr
  obtain ⟨j, -, rfl⟩ := List.mem_map.1 he
  exact (hm i hi).diff _

theorem noDummy_inverseJacobian {map : List Expr} {m : List (List Expr)} {k : ℕ} (hm : ∀ e ∈ map, NoDummy e)
    (h : inverseJacobianMatrix map k = some m) : ∀ r ∈ m, ∀ e ∈ r, NoDummy e := by
  rw [mkMat_eq h]
  intro r hr e he
  obtain ⟨j, -, rfl⟩ := List.mem_map.1 hr
  obtain ⟨i, hi, rfl⟩ := List.mem_map.1 he
  exact (hm i hi).diff _

theorem noDummy_vsubs {v : List Expr} (hf : ∀ e ∈ v, NoDummy e) (vars : List String) (values : List Expr)
    (hv : ∀ e ∈ values, NoDummy e) : ∀ e ∈ vsubs v vars values, NoDummy e := by
  intro e he
  obtain ⟨f, hfm, rfl⟩ := List.mem_map.1 he
  exact (hf f hfm).subsList _ _ hv

/-! ### Values -/

theorem vis_getD {env : String → ℝ} {v : List Expr} (h : v.length = n) :
    VIs env v fun i : Fin n => (v.getD i (num 0)).eval env := by
  refine VIs.of_get h fun i => ?_
  have hi : (i : ℕ) < v.length := by rw [h]; exact i.2
  refine ⟨v[(i : ℕ)], List.getElem?_eq_getElem hi, ?_⟩
  rw [List.getD_eq_getElem (hn := hi)]

theorem getD_of_vis {env : String → ℝ} {v : List Expr} {V : Fin n → ℝ} (h : VIs env v V) (i : Fin n) :
    (v.getD i (num 0)).eval env = V i := by
  obtain ⟨e, he, hv⟩ := h.get i
  rw [← hv, List.getD_eq_getElem?_getD, he]
  rfl

/-- Volumes are multiples of Jacobians. -/
theorem volume_ratio {D D' : Domain} (hcell : D'.cell = D.cell) (hp : D.cell ≠ .point) {J J' : ℝ}
    (hJ : References.jacobian D.cell D.g D.v = some J) (hJ' : References.jacobian D'.cell D'.g D'.v = some J')
    (hne : J' ≠ 0) : ∃ vol vol', volume D.cell D.g D.v = some vol ∧ volume D'.cell D'.g D'.v = some vol' ∧
      vol / vol' * J' = J := by
  rw [hcell] at hJ' ⊢
  cases hc : D.cell with
  | point => exact absurd hc hp
  | dualPolygon k =>
    rw [hc] at hJ
    simp [References.jacobian, axisVertices, Cell.tdim] at hJ
  | interval | quadrilateral | hexahedron =>
    rw [hc] at hJ hJ'
    exact ⟨J, J', hJ, hJ', by field_simp⟩
  | triangle | prism | tetrahedron | pyramid =>
    rw [hc] at hJ hJ'
    simp only [volume, hJ, hJ', Option.map_some]
    exact ⟨_, _, rfl, rfl, by field_simp⟩

namespace MappedPair
variable (h : MappedPair D D' map inv A B b c)
include h

theorem inv_length : inv.length = n := h.inv.length

theorem det_mul : B.det * A.det = 1 := by rw [← Matrix.det_mul, h.inverse, Matrix.det_one]

theorem det_ne : A.det ≠ 0 := right_ne_zero_of_mul_eq_one h.det_mul

theorem param (z : ℕ → ℝ) (i : Fin n) : D'.param z i = ∑ j : Fin n, A i j * D.param z j + b i := by
  unfold Domain.param
  rw [h.cell]
  simp only [h.vertices]
  simp_rw [mul_add, Finset.sum_add_distrib, Finset.mul_sum]
  rw [Finset.sum_comm]
  have : ∀ k, (∑ j, A i j * D.v ((axisVertices D.cell).getD k 0) j + b i - (∑ j, A i j * D.v 0 j + b i)) * z k =
      ∑ j : Fin n, A i j * ((D.v ((axisVertices D.cell).getD k 0) j - D.v 0 j) * z k) := by
    intro k
    rw [add_sub_add_right_eq_sub, ← Finset.sum_sub_distrib, Finset.sum_mul]
    exact Finset.sum_congr rfl fun j _ => by ring
  simp_rw [this]
  ring

/-- Functions that were mapped see the point of the default entity. -/
theorem replaced_env (env : String → ℝ) (z : ℕ → ℝ) : replaced (D'.env env z) x inv = D.env env z := by
  have hp := h.param z
  have hi : ∀ i : Fin n, ∑ j, B i j * D'.param z j + c i = D.param z i := by
    intro i
    simp_rw [hp, mul_add, Finset.sum_add_distrib, Finset.mul_sum]
    rw [Finset.sum_comm, add_assoc, h.inverse_shift, add_zero]
    have : ∀ k : Fin n, ∑ j, B i j * (A j k * D.param z k) = (1 : Matrix (Fin n) (Fin n) ℝ) i k * D.param z k := by
      intro k
      rw [← h.inverse, Matrix.mul_apply, Finset.sum_mul]
      exact Finset.sum_congr rfl fun j _ => by ring
    simp_rw [this, Matrix.one_apply]
    simp
  have hv := h.inv.value (D'.env env z)
  have henv : ∀ j : Fin n, D'.env env z (x.getD j "") = D'.param z j := by
    intro j
    have h3 := h.dim
    have hj := j.2
    have : (j : ℕ) = 0 ∨ (j : ℕ) = 1 ∨ (j : ℕ) = 2 := by omega
    unfold Domain.env
    rw [h.g']
    rcases this with e | e | e <;> rw [e] <;> rw [e] at hj <;> simp [Functions.x, hj]
  simp only [henv, hi] at hv
  funext s
  rw [replaced_x hv s]
  unfold Domain.env
  rw [h.g, h.g']
  split_ifs <;> simp_all

/-- Values of a function after the inverse map is inserted. -/
theorem vsubs_inv {f : List Expr} (hl : f.length = n) (hf : ∀ e ∈ f, NoDummy e) (env : String → ℝ) (z : ℕ → ℝ) :
    VIs (D'.env env z) (vsubs f x inv) fun i : Fin n => (f.getD i (num 0)).eval (D.env env z) := by
  have := vis_getD (env := D'.env env z) (v := vsubs f x inv) (n := n) (by simpa [vsubs] using hl)
  convert this using 2 with i
  have hi : (i : ℕ) < f.length := by rw [hl]; exact i.2
  rw [List.getD_eq_getElem (hn := hi), List.getD_eq_getElem (hn := by simpa [vsubs] using hi)]
  simp only [vsubs, List.getElem_map]
  rw [subsList_eval _ x inv _ (fun i _ => hf _ (List.getElem_mem hi) i) (fun i _ => dummySym_notMem_x i)
    (fun i _ v hv => h.inv.noDummy v hv i), h.replaced_env]

/-- **C81** The covariant mapping multiplies the value by the inverse transpose. -/
theorem covariant_value {f : List Expr} (hl : f.length = n) (hf : ∀ e ∈ f, NoDummy e) :
    ∃ f', covariant f map inv true = some f' ∧ f'.length = n ∧ (∀ e ∈ f', NoDummy e) ∧
      ∀ env z, VIs (D'.env env z) f' (Bᵀ *ᵥ fun i => (f.getD i (num 0)).eval (D.env env z)) := by
  obtain ⟨m, hm, hM⟩ := h.inv.inverseJacobian
  obtain ⟨f', hf', -⟩ := mvec_eval (hM _) h.pos (h.vsubs_inv hl hf (fun _ => 0) fun _ => 0)
  have key : ∀ env z, VIs (D'.env env z) f' (Bᵀ *ᵥ fun i => (f.getD i (num 0)).eval (D.env env z)) := by
    intro env z
    obtain ⟨f'', hf'', hV⟩ := mvec_eval (hM _) h.pos (h.vsubs_inv hl hf env z)
    rw [hf', Option.some.injEq] at hf''
    rwa [hf'']
  refine ⟨f', ?_, (key (fun _ => 0) fun _ => 0).length, ?_, key⟩
  · simp only [covariant, h.inv_length, hm, Option.bind_eq_bind, Option.bind_some, if_true, hf']
  · exact noDummy_mvec (noDummy_inverseJacobian h.inv.noDummy hm) (noDummy_vsubs hf _ _ h.inv.noDummy) hf'

/-- **C81** The contravariant mapping multiplies the value by the matrix, divided by its determinant. -/
theorem contravariant_value {f : List Expr} (hl : f.length = n) (hf : ∀ e ∈ f, NoDummy e) :
    ∃ f', contravariant f map inv true = some f' ∧ f'.length = n ∧ (∀ e ∈ f', NoDummy e) ∧
      ∀ env z, VIs (D'.env env z) f'
        ((Matrix.of fun i j => A i j / A.det) *ᵥ fun i => (f.getD i (num 0)).eval (D.env env z)) := by
  obtain ⟨m, hm, hM⟩ := h.map.jacobian
  obtain ⟨d, hd, -⟩ := mdet_eval (hM fun _ => 0)
  have hdv : ∀ env, d.eval env = A.det := by
    intro env
    obtain ⟨d', hd', e⟩ := mdet_eval (hM env)
    rw [hd, Option.some.injEq] at hd'
    rw [hd', e]
  have hM' : ∀ env, MIs env (m.map (·.map fun j => div j d)) (Matrix.of fun i j => A i j / A.det) := by
    intro env
    have := (mdiv_eval (hM env) d).2
    rwa [hdv] at this
  obtain ⟨f', hf', -⟩ := mvec_eval (hM' _) h.pos (h.vsubs_inv hl hf (fun _ => 0) fun _ => 0)
  have key : ∀ env z, VIs (D'.env env z) f' ((Matrix.of fun i j => A i j / A.det) *ᵥ
      fun i => (f.getD i (num 0)).eval (D.env env z)) := by
    intro env z
    obtain ⟨f'', hf'', hV⟩ := mvec_eval (hM' _) h.pos (h.vsubs_inv hl hf env z)
    rw [hf', Option.some.injEq] at hf''
    rwa [hf'']
  refine ⟨f', ?_, (key (fun _ => 0) fun _ => 0).length, ?_, key⟩
  · simp only [contravariant, h.inv_length, hm, hd, (mdiv_eval (hM fun _ => 0) d).1, Option.bind_eq_bind,
      Option.bind_some, if_true, hf']
  · have hmd := noDummy_jacobian h.map.noDummy hm
    refine noDummy_mvec ?_ (noDummy_vsubs hf _ _ h.inv.noDummy) hf'
    intro r hr e he
    obtain ⟨r, hr', rfl⟩ := List.mem_map.1 hr
    obtain ⟨e, he', rfl⟩ := List.mem_map.1 he
    refine (hmd r hr' e he').div ?_
    unfold mdet at hd
    have hs : (shape m).1 = (shape m).2 := by
      rw [(hM fun _ => 0).shape_fst, (hM fun _ => 0).shape_snd h.pos]
    rw [if_pos hs] at hd
    rw [← Option.some.inj hd]
    exact noDummy_sympyDet _ _ fun i j => noDummy_entry hmd i j

theorem jacobian_isSome {J : ℝ} (hJ : References.jacobian D.cell D.g D.v = some J) :
    ∃ J', References.jacobian D'.cell D'.g D'.v = some J' := by
  rw [h.cell, h.g', ← h.g]
  unfold References.jacobian at hJ ⊢
  split_ifs at hJ ⊢ <;> exact ⟨_, rfl⟩

omit h in
/-- Values of the moment function. -/
theorem vsubs_t {k : List Expr} (hl : k.length = n) (hk : ∀ e ∈ k, NoDummy e) {env env' : String → ℝ}
    {z : ℕ → ℝ} (ha : Agrees D' env z env') :
    VIs env' (vsubs k x (t.map sym)) fun i : Fin n => (k.getD i (num 0)).eval (xEnv env z) := by
  have := vis_getD (env := env') (v := vsubs k x (t.map sym)) (n := n) (by simpa [vsubs] using hl)
  convert this using 2 with i
  have hi : (i : ℕ) < k.length := by rw [hl]; exact i.2
  rw [List.getD_eq_getElem (hn := hi), List.getD_eq_getElem (hn := by simpa [vsubs] using hi)]
  simp only [vsubs, List.getElem_map]
  rw [eval_subs_t D' (hk _ (List.getElem_mem hi)) ha]

/-- The moments agree if the dot products do. -/
theorem moment_eq {J J' : ℝ} (hJ : References.jacobian D.cell D.g D.v = some J)
    (hJ' : References.jacobian D'.cell D'.g D'.v = some J') {r : ℝ} (hr : r * J' = J)
    {f f' k k' : List Expr} (hl : f.length = n) (hf : ∀ e ∈ f, NoDummy e) (hkl : k.length = n)
    (hk : ∀ e ∈ k, NoDummy e) (hl' : f'.length = n) (hf' : ∀ e ∈ f', NoDummy e) (hkl' : k'.length = n)
    (M N : Matrix (Fin n) (Fin n) ℝ)
    (hM : ∀ env z, VIs (D'.env env z) f' (M *ᵥ fun i => (f.getD i (num 0)).eval (D.env env z)))
    (hN : ∀ env z env', Agrees D' env z env' →
      VIs env' k' (N *ᵥ fun i => (k.getD i (num 0)).eval (xEnv env z)))
    (hMN : Mᵀ * N = 1) :
    value (.integralMoment D' (.vector (vmul k' (num r)))) (.vector f') =
      (newIntegralMoment D (.vector k)).bind fun F => value F (.vector f) := by
  have hg : D.g ≤ 3 := by rw [h.g]; exact h.dim
  have hg' : D'.g ≤ 3 := by rw [h.g']; exact h.dim
  have hc' : D'.cell ≠ .point := by rw [h.cell]; exact h.not_point
  rw [newIntegralMoment_vector hg h.not_point hJ (by rw [hl, hkl]) hf hk]
  rw [integralMoment_of_agrees hg' hc' hJ' (k := vmul k' (num r)) (by simp [vmul, hl', hkl']) hf'
    (fun env z i => (if hi : i < n then (N *ᵥ fun i => (k.getD i (num 0)).eval (xEnv env z)) ⟨i, hi⟩ else 0) * r)
    ?_]
  · congr 1
    funext env
    rw [h.cell]
    congr 1
    funext z
    rw [hl, hl', ← hr, ← mul_assoc]
    congr 1
    rw [Finset.sum_range, Finset.sum_range, Finset.sum_mul]
    have e1 : ∀ i : Fin n, (f'.getD i (num 0)).eval (D'.env env z) = _ := fun i => getD_of_vis (hM env z) i
    have e2 : (M *ᵥ fun i : Fin n => (f.getD i (num 0)).eval (D.env env z)) ⬝ᵥ
        (N *ᵥ fun i : Fin n => (k.getD i (num 0)).eval (xEnv env z)) =
        (fun i : Fin n => (f.getD i (num 0)).eval (D.env env z)) ⬝ᵥ
        fun i : Fin n => (k.getD i (num 0)).eval (xEnv env z) := by
      rw [← Matrix.vecMul_transpose, ← Matrix.dotProduct_mulVec, Matrix.mulVec_mulVec, hMN, Matrix.one_mulVec]
    rw [← Finset.sum_mul]
    refine Eq.trans ?_ (congrArg (· * r) e2)
    simp only [dotProduct]
    rw [Finset.sum_mul]
    refine Finset.sum_congr rfl fun i _ => ?_
    rw [e1, dif_pos i.2]
    ring
  · intro env z env' ha i hi
    have hi' : i < n := by simpa [vmul, hkl'] using hi
    rw [dif_pos hi', List.getD_eq_getElem (hn := hi)]
    simp only [vmul, List.getElem_map, eval]
    congr 1
    have := getD_of_vis (hN env z env' ha) ⟨i, hi'⟩
    rwa [List.getD_eq_getElem (hn := by rw [hkl']; exact hi')] at this

/-- **C81** Covariant functions: the moment of the mapped function on the mapped cell is the moment of the
function on the default cell. -/
theorem covariant_invariant {J J' : ℝ} (hJ : References.jacobian D.cell D.g D.v = some J)
    (hJ' : References.jacobian D'.cell D'.g D'.v = some J') (hne : J' ≠ 0)
    {f k : List Expr} (hl : f.length = n) (hf : ∀ e ∈ f, NoDummy e) (hkl : k.length = n)
    (hk : ∀ e ∈ k, NoDummy e) :
    ((mappedIntegralMoment .covariant D D' map inv (.vector k)).bind fun F =>
      (covariant f map inv true).bind fun f' => value F (.vector f')) =
    (newIntegralMoment D (.vector k)).bind fun F => value F (.vector f) := by
  obtain ⟨f', hf1, hf2, hf3, hf4⟩ := h.covariant_value hl hf
  obtain ⟨m, hm, hM⟩ := h.map.jacobian
  obtain ⟨vol, vol', hv, hv', hr⟩ := volume_ratio h.cell h.not_point hJ hJ' hne
  have hag : ∃ env', Agrees D' (fun _ => 0) (fun _ => 0) env' := ⟨_, agrees_updates D' _ _⟩
  obtain ⟨env0, hag⟩ := hag
  obtain ⟨k', hk', hk0⟩ := mvec_eval (hM env0) h.pos (vsubs_t (D' := D') hkl hk hag)
  simp only [mappedIntegralMoment, FnObj.subs, inverseTranspose, h.inv_length, hm, hk', hv, hv', FnObj.scale,
    Option.bind_eq_bind, Option.bind_some, Option.pure_def, hf1]
  refine h.moment_eq hJ hJ' hr hl hf hkl hk hf2 hf3 hk0.length Bᵀ A hf4 ?_ ?_
  · intro env z env' ha
    obtain ⟨k'', hk'', hV⟩ := mvec_eval (hM env') h.pos (vsubs_t (D' := D') hkl hk ha)
    rw [hk', Option.some.injEq] at hk''
    rwa [hk'']
  · rw [Matrix.transpose_transpose, h.inverse]

/-- **C81** Contravariant functions. -/
theorem contravariant_invariant {J J' : ℝ} (hJ : References.jacobian D.cell D.g D.v = some J)
    (hJ' : References.jacobian D'.cell D'.g D'.v = some J') (hne : J' ≠ 0)
    {f k : List Expr} (hl : f.length = n) (hf : ∀ e ∈ f, NoDummy e) (hkl : k.length = n)
    (hk : ∀ e ∈ k, NoDummy e) :
    ((mappedIntegralMoment .contravariant D D' map inv (.vector k)).bind fun F =>
      (contravariant f map inv true).bind fun f' => value F (.vector f')) =
    (newIntegralMoment D (.vector k)).bind fun F => value F (.vector f) := by
  obtain ⟨f', hf1, hf2, hf3, hf4⟩ := h.contravariant_value hl hf
  obtain ⟨m, hm, hM⟩ := h.inv.inverseJacobian
  obtain ⟨vol, vol', hv, hv', hr⟩ := volume_ratio h.cell h.not_point hJ hJ' hne
  have hag : ∃ env', Agrees D' (fun _ => 0) (fun _ => 0) env' := ⟨_, agrees_updates D' _ _⟩
  obtain ⟨env0, hag⟩ := hag
  obtain ⟨d, hd, -⟩ := mdet_eval (hM fun _ => 0)
  have hdv : ∀ env, d.eval env = B.det := by
    intro env
    obtain ⟨d', hd', e⟩ := mdet_eval (hM env)
    rw [hd, Option.some.injEq] at hd'
    rw [hd', e, Matrix.det_transpose]
  have hM' : ∀ env, MIs env (m.map (·.map fun j => div j d)) (Matrix.of fun i j => Bᵀ i j / B.det) := by
    intro env
    have := (mdiv_eval (hM env) d).2
    rwa [hdv] at this
  obtain ⟨k', hk', hk0⟩ := mvec_eval (hM' env0) h.pos (vsubs_t (D' := D') hkl hk hag)
  simp only [mappedIntegralMoment, FnObj.subs, inverseTranspose, h.inv_length, hm, hd,
    (mdiv_eval (hM fun _ => 0) d).1, hk', hv, hv', FnObj.scale,
    Option.bind_eq_bind, Option.bind_some, Option.pure_def, hf1]
  refine h.moment_eq hJ hJ' hr hl hf hkl hk hf2 hf3 hk0.length (Matrix.of fun i j => A i j / A.det)
    (Matrix.of fun i j => Bᵀ i j / B.det) hf4 ?_ ?_
  · intro env z env' ha
    obtain ⟨k'', hk'', hV⟩ := mvec_eval (hM' env') h.pos (vsubs_t (D' := D') hkl hk ha)
    rw [hk', Option.some.injEq] at hk''
    rwa [hk'']
  · have e1 : (Matrix.of fun i j => A i j / A.det) = (A.det)⁻¹ • A := by
      ext i j; simp [div_eq_inv_mul]
    have e2 : (Matrix.of fun i j => Bᵀ i j / B.det) = (B.det)⁻¹ • Bᵀ := by
      ext i j; simp [div_eq_inv_mul]
    rw [e1, e2, Matrix.transpose_smul, Matrix.smul_mul, Matrix.mul_smul, ← Matrix.transpose_mul, h.inverse,
      Matrix.transpose_one, smul_smul, ← mul_inv, mul_comm, h.det_mul]
    simp

/-- **C81** Scalar functions that are not scaled. -/
theorem identity_invariant {J J' : ℝ} (hJ : References.jacobian D.cell D.g D.v = some J)
    (hJ' : References.jacobian D'.cell D'.g D'.v = some J') (hne : J' ≠ 0) {f k : Expr} (hf : NoDummy f)
    (hk : NoDummy k) :
    ((mappedIntegralMoment .identity D D' map inv (.scalar k)).bind fun F =>
      (identity (.scalar f) map inv true).bind fun f' => value F f') =
    (newIntegralMoment D (.scalar k)).bind fun F => value F (.scalar f) := by
  have hg : D.g ≤ 3 := by rw [h.g]; exact h.dim
  have hg' : D'.g ≤ 3 := by rw [h.g']; exact h.dim
  have hc' : D'.cell ≠ .point := by rw [h.cell]; exact h.not_point
  obtain ⟨vol, vol', hv, hv', hr⟩ := volume_ratio h.cell h.not_point hJ hJ' hne
  obtain ⟨h1, h2⟩ := jacobian_dims hJ'
  rw [newIntegralMoment_scalar hg h.not_point hJ hf hk]
  simp only [mappedIntegralMoment, FnObj.subs, inverseTranspose, hv, hv', FnObj.scale,
    Option.bind_eq_bind, Option.bind_some, Option.pure_def, identity, if_true]
  refine (integral_of_agrees D' hc' hJ' _ (fun env z => f.eval (D.env env z) * (k.eval (xEnv env z) * (vol / vol')))
    fun env z env' ha => ?_).trans ?_
  · simp only [eval]
    rw [eval_subs_point D' hg' h1 h2 (hf.subsList _ _ h.inv.noDummy) env env' z ha, eval_subs_t D' hk ha,
      subsList_eval _ x inv _ (fun i _ => hf i) (fun i _ => dummySym_notMem_x i)
      (fun i _ v hv => h.inv.noDummy v hv i), h.replaced_env]
  · congr 1
    funext env
    rw [h.cell]
    congr 1
    funext z
    rw [← hr]
    ring

/-- **C81** Scalar functions that are divided by the determinant. -/
theorem l2_invariant {J J' : ℝ} (hJ : References.jacobian D.cell D.g D.v = some J)
    (hJ' : References.jacobian D'.cell D'.g D'.v = some J') (hne : J' ≠ 0) {f k : Expr} (hf : NoDummy f)
    (hk : NoDummy k) :
    ((mappedIntegralMoment .l2 D D' map inv (.scalar k)).bind fun F =>
      (l2 f map inv true).bind fun f' => value F (.scalar f')) =
    (newIntegralMoment D (.scalar k)).bind fun F => value F (.scalar f) := by
  have hg : D.g ≤ 3 := by rw [h.g]; exact h.dim
  have hg' : D'.g ≤ 3 := by rw [h.g']; exact h.dim
  have hc' : D'.cell ≠ .point := by rw [h.cell]; exact h.not_point
  obtain ⟨vol, vol', hv, hv', hr⟩ := volume_ratio h.cell h.not_point hJ hJ' hne
  obtain ⟨h1, h2⟩ := jacobian_dims hJ'
  obtain ⟨m, hm, hM⟩ := h.map.jacobian
  obtain ⟨d, hd, -⟩ := mdet_eval (hM fun _ => 0)
  have hdv : ∀ env, d.eval env = A.det := by
    intro env
    obtain ⟨d', hd', e⟩ := mdet_eval (hM env)
    rw [hd, Option.some.injEq] at hd'
    rw [hd', e]
  have hdn : NoDummy (snorm d) := by
    have hs : (shape m).1 = (shape m).2 := by
      rw [(hM fun _ => 0).shape_fst, (hM fun _ => 0).shape_snd h.pos]
    have hd2 := hd
    unfold mdet at hd2
    rw [if_pos hs] at hd2
    intro i hi
    have hi' : d.Has (dummySym i) := hi
    rw [← Option.some.inj hd2] at hi'
    exact noDummy_sympyDet _ _ (fun i j => noDummy_entry (noDummy_jacobian h.map.noDummy hm) i j) i hi'
  rw [newIntegralMoment_scalar hg h.not_point hJ hf hk]
  simp only [mappedIntegralMoment, FnObj.subs, inverseTranspose, hv, hv', FnObj.scale, l2, h.inv_length, hm, hd,
    Option.bind_eq_bind, Option.bind_some, Option.pure_def, if_true]
  refine (integral_of_agrees D' hc' hJ' _ (fun env z => f.eval (D.env env z) * (k.eval (xEnv env z) * (vol / vol')))
    fun env z env' ha => ?_).trans ?_
  · simp only [eval]
    rw [eval_subs_point D' hg' h1 h2 ((hf.subsList _ _ h.inv.noDummy).div hdn) env env' z ha, eval_subs_t D' hk ha]
    simp only [eval]
    rw [subsList_eval _ x inv _ (fun i _ => hf i) (fun i _ => dummySym_notMem_x i)
      (fun i _ v hv => h.inv.noDummy v hv i), h.replaced_env, snorm_eval, snorm_eval, hdv, hdv]
    have := abs_ne_zero.2 h.det_ne
    field_simp
  · congr 1
    funext env
    rw [h.cell]
    congr 1
    funext z
    rw [← hr]
    ring

theorem axis_map (k : ℕ) (i : Fin n) : axis D'.cell D'.v k i = ∑ j : Fin n, A i j * axis D.cell D.v k j := by
  simp only [axis, psub, h.cell, h.vertices]
  rw [add_sub_add_right_eq_sub, ← Finset.sum_sub_distrib]
  exact Finset.sum_congr rfl fun j _ => by ring

/-- Moments against a fixed direction agree if the products with the direction do. -/
theorem directed_eq {J J' : ℝ} (hJ : References.jacobian D.cell D.g D.v = some J)
    (hJ' : References.jacobian D'.cell D'.g D'.v = some J') {d d' : ℕ → ℝ} {f f' : List Expr} {k : Expr}
    (hl : f.length = n) (hf : ∀ e ∈ f, NoDummy e) (hk : NoDummy k) (hl' : f'.length = n)
    (hf' : ∀ e ∈ f', NoDummy e) (M : Matrix (Fin n) (Fin n) ℝ)
    (hM : ∀ env z, VIs (D'.env env z) f' (M *ᵥ fun i => (f.getD i (num 0)).eval (D.env env z)))
    (hd : ∀ v : Fin n → ℝ, (∑ i : Fin n, (M *ᵥ v) i * d' i) * J' = (∑ i : Fin n, v i * d i) * J) :
    value (.integralMoment D' (.vector ((List.range D'.g).map fun i => mul (subsList k x (t.map sym)) (num (d' i)))))
      (.vector f') =
    value (.integralMoment D (.vector ((List.range D.g).map fun i => mul (subsList k x (t.map sym)) (num (d i)))))
      (.vector f) := by
  have hg : D.g ≤ 3 := by rw [h.g]; exact h.dim
  have hg' : D'.g ≤ 3 := by rw [h.g']; exact h.dim
  have hc' : D'.cell ≠ .point := by rw [h.cell]; exact h.not_point
  rw [directed_value hg' hc' hJ' d' (by rw [hl', h.g']) hf' hk,
    directed_value hg h.not_point hJ d (by rw [hl, h.g]) hf hk]
  congr 1
  funext env
  rw [h.cell]
  congr 1
  funext z
  rw [h.g, h.g', Finset.sum_range, Finset.sum_range]
  have e1 : ∀ i : Fin n, (f'.getD i (num 0)).eval (D'.env env z) = _ := fun i => getD_of_vis (hM env z) i
  simp_rw [e1]
  rw [mul_right_comm, hd, mul_right_comm]

end MappedPair

theorem tangent_mul {D : Domain} {J : ℝ} (hc : D.cell = .interval)
    (hJ : References.jacobian D.cell D.g D.v = some J) (hne : J ≠ 0) :
    ∃ tg, tangent D.cell D.g D.v = some tg ∧ ∀ j, tg j * J = axis D.cell D.v 0 j := by
  rw [hc] at hJ ⊢
  have hJe : J = √(∑ j ∈ Finset.range D.g, axis .interval D.v 0 j ^ 2) := by
    simpa [References.jacobian, axisVertices, Cell.tdim] using hJ.symm
  refine ⟨_, if_pos rfl, fun j => ?_⟩
  rw [← hJe]
  have hpos : 0 ≤ ∑ j ∈ Finset.range D.g, axis .interval D.v 0 j ^ 2 := Finset.sum_nonneg fun _ _ => sq_nonneg _
  have hsq : J ^ 2 = ∑ j ∈ Finset.range D.g, axis .interval D.v 0 j ^ 2 := by rw [hJe, Real.sq_sqrt hpos]
  have hone : pdot D.g (fun j => axis .interval D.v 0 j / J) (fun j => axis .interval D.v 0 j / J) = 1 := by
    simp only [pdot, ← pow_two, div_pow]
    rw [← Finset.sum_div, ← hsq]
    field_simp
  simp only [vnormalise, hone, Real.sqrt_one, div_one]
  field_simp

theorem normal_mul {D : Domain} {J : ℝ} (hJ : References.jacobian D.cell D.g D.v = some J) (hne : J ≠ 0) :
    (D.cell = .interval → D.g = 2 → ∃ n, normal D.cell D.g D.v = some n ∧
      n 0 * J = -(axis D.cell D.v 0 1) ∧ n 1 * J = axis D.cell D.v 0 0) ∧
    ((D.cell = .triangle ∨ D.cell = .quadrilateral) → D.g = 3 → ∃ n, normal D.cell D.g D.v = some n ∧
      ∀ j, n j * J = pcross (axis D.cell D.v 0) (axis D.cell D.v 1) j) := by
  constructor
  · intro hc hg
    have hJe : J = √(axis D.cell D.v 0 0 ^ 2 + axis D.cell D.v 0 1 ^ 2) := by
      have := hJ
      rw [hc, hg] at this
      simp [References.jacobian, axisVertices, Cell.tdim, Finset.sum_range_succ] at this
      rw [← this, hc]
    refine ⟨vnormalise 2 (coords [-axis D.cell D.v 0 1, axis D.cell D.v 0 0]), ?_, ?_, ?_⟩
    · unfold normal
      rw [if_pos ⟨by rw [hc]; rfl, hg⟩]
    all_goals
      have e : √(pdot 2 (coords [-axis D.cell D.v 0 1, axis D.cell D.v 0 0])
          (coords [-axis D.cell D.v 0 1, axis D.cell D.v 0 0])) = J := by
        rw [hJe]
        congr 1
        simp only [pdot, Finset.sum_range_succ, Finset.sum_range_zero, coords, List.getD_cons_zero,
          List.getD_cons_succ]
        ring
      simp only [vnormalise, e]
      rw [div_mul_cancel₀ _ hne]
      rfl
  · intro hc hg
    have ht : D.cell.tdim = 2 := by rcases hc with hc | hc <;> rw [hc] <;> rfl
    have hax : (axisVertices D.cell).length = 2 := by rcases hc with hc | hc <;> rw [hc] <;> rfl
    have hJe : J = √(pcross (axis D.cell D.v 0) (axis D.cell D.v 1) 0 ^ 2 +
        pcross (axis D.cell D.v 0) (axis D.cell D.v 1) 1 ^ 2 +
        pcross (axis D.cell D.v 0) (axis D.cell D.v 1) 2 ^ 2) := by
      unfold References.jacobian at hJ
      rw [if_pos (by rw [hax, ht]), if_neg (by omega), if_pos ht, if_neg (by omega), if_pos hg] at hJ
      exact (Option.some.inj hJ).symm
    refine ⟨vnormalise 3 (pcross (axis D.cell D.v 0) (axis D.cell D.v 1)), ?_, ?_⟩
    · unfold normal
      rw [if_neg (by omega), if_pos ⟨ht, hg, hax⟩]
    · intro j
      have e : √(pdot 3 (pcross (axis D.cell D.v 0) (axis D.cell D.v 1))
          (pcross (axis D.cell D.v 0) (axis D.cell D.v 1))) = J := by
        rw [hJe]
        congr 1
        simp only [pdot, Finset.sum_range_succ, Finset.sum_range_zero]
        ring
      simp only [vnormalise, e]
      rw [div_mul_cancel₀ _ hne]

/-- **C81** Tangential moments of covariant functions. -/
theorem MappedPair.tangent_invariant (h : MappedPair D D' map inv A B b c) (hc : D.cell = .interval) {J J' : ℝ}
    (hJ : References.jacobian D.cell D.g D.v = some J) (hne : J ≠ 0)
    (hJ' : References.jacobian D'.cell D'.g D'.v = some J') (hne' : J' ≠ 0)
    {f : List Expr} {k : Expr} (hl : f.length = n) (hf : ∀ e ∈ f, NoDummy e) (hk : NoDummy k) :
    ((tangentIntegralMoment D' k).bind fun F =>
      (covariant f map inv true).bind fun f' => value F (.vector f')) =
    (tangentIntegralMoment D k).bind fun F => value F (.vector f) := by
  obtain ⟨f', hf1, hf2, hf3, hf4⟩ := h.covariant_value hl hf
  obtain ⟨tg, ht, htJ⟩ := tangent_mul hc hJ hne
  obtain ⟨tg', ht', htJ'⟩ := tangent_mul (h.cell.trans hc) hJ' hne'
  simp only [tangentIntegralMoment, ht, ht', Option.bind_eq_bind, Option.bind_some, Option.pure_def, hf1]
  refine h.directed_eq hJ hJ' hl hf hk hf2 hf3 Bᵀ hf4 fun v => ?_
  rw [Finset.sum_mul, Finset.sum_mul]
  simp_rw [mul_assoc, htJ, htJ', h.axis_map]
  have : (Bᵀ *ᵥ v) ⬝ᵥ (A *ᵥ fun j => axis D.cell D.v 0 j) = v ⬝ᵥ fun j : Fin n => axis D.cell D.v 0 j := by
    rw [← Matrix.vecMul_transpose, ← Matrix.dotProduct_mulVec, Matrix.mulVec_mulVec, Matrix.transpose_transpose,
      h.inverse, Matrix.one_mulVec]
  exact this

/-- **C81** Normal moments of contravariant functions on the edges of cells in the plane. -/
theorem normal_invariant_edge {A B : Matrix (Fin 2) (Fin 2) ℝ} {b c : Fin 2 → ℝ}
    (h : MappedPair D D' map inv A B b c) (hc : D.cell = .interval) {J J' : ℝ}
    (hJ : References.jacobian D.cell D.g D.v = some J) (hne : J ≠ 0)
    (hJ' : References.jacobian D'.cell D'.g D'.v = some J') (hne' : J' ≠ 0)
    {f : List Expr} {k : Expr} (hl : f.length = 2) (hf : ∀ e ∈ f, NoDummy e) (hk : NoDummy k) :
    ((normalIntegralMoment D' k).bind fun F =>
      (contravariant f map inv true).bind fun f' => value F (.vector f')) =
    (normalIntegralMoment D k).bind fun F => value F (.vector f) := by
  obtain ⟨f', hf1, hf2, hf3, hf4⟩ := h.contravariant_value hl hf
  obtain ⟨n, hn, h0, h1⟩ := (normal_mul hJ hne).1 hc h.g
  obtain ⟨n', hn', h0', h1'⟩ := (normal_mul hJ' hne').1 (h.cell.trans hc) h.g'
  simp only [normalIntegralMoment, hn, hn', Option.bind_eq_bind, Option.bind_some, Option.pure_def, hf1]
  refine h.directed_eq hJ hJ' hl hf hk hf2 hf3 _ hf4 fun v => ?_
  have a0 := h.axis_map 0 0
  have a1 := h.axis_map 0 1
  simp only [Fin.val_zero, Fin.val_one, Fin.sum_univ_two] at a0 a1
  rw [Finset.sum_mul, Finset.sum_mul]
  simp only [mul_assoc, Fin.sum_univ_two, Fin.val_zero, Fin.val_one, h0, h1, h0', h1', a0, a1, Matrix.mulVec,
    dotProduct, Matrix.of_apply]
  have hd := h.det_ne
  rw [Matrix.det_fin_two] at hd ⊢
  field_simp
  ring

/-- **C81** Normal moments of contravariant functions on the faces of cells in space. -/
theorem normal_invariant_face {A B : Matrix (Fin 3) (Fin 3) ℝ} {b c : Fin 3 → ℝ}
    (h : MappedPair D D' map inv A B b c) (hc : D.cell = .triangle ∨ D.cell = .quadrilateral) {J J' : ℝ}
    (hJ : References.jacobian D.cell D.g D.v = some J) (hne : J ≠ 0)
    (hJ' : References.jacobian D'.cell D'.g D'.v = some J') (hne' : J' ≠ 0)
    {f : List Expr} {k : Expr} (hl : f.length = 3) (hf : ∀ e ∈ f, NoDummy e) (hk : NoDummy k) :
    ((normalIntegralMoment D' k).bind fun F =>
      (contravariant f map inv true).bind fun f' => value F (.vector f')) =
    (normalIntegralMoment D k).bind fun F => value F (.vector f) := by
  obtain ⟨f', hf1, hf2, hf3, hf4⟩ := h.contravariant_value hl hf
  obtain ⟨n, hn, hv⟩ := (normal_mul hJ hne).2 hc h.g
  obtain ⟨n', hn', hv'⟩ := (normal_mul hJ' hne').2 (by rw [h.cell]; exact hc) h.g'
  simp only [normalIntegralMoment, hn, hn', Option.bind_eq_bind, Option.bind_some, Option.pure_def, hf1]
  refine h.directed_eq hJ hJ' hl hf hk hf2 hf3 _ hf4 fun v => ?_
  have a0 := h.axis_map 0 0
  have a1 := h.axis_map 0 1
  have a2 := h.axis_map 0 2
  have b0 := h.axis_map 1 0
  have b1 := h.axis_map 1 1
  have b2 := h.axis_map 1 2
  simp only [Fin.val_zero, Fin.val_one, Fin.val_two, Fin.sum_univ_three] at a0 a1 a2 b0 b1 b2
  rw [Finset.sum_mul, Finset.sum_mul]
  simp only [mul_assoc, hv, hv', Fin.sum_univ_three, Fin.val_zero, Fin.val_one, Fin.val_two, Matrix.mulVec,
    dotProduct, Matrix.of_apply]
  have c0 : ∀ u w : ℕ → ℝ, pcross u w 0 = u 1 * w 2 - u 2 * w 1 := fun _ _ => rfl
  have c1 : ∀ u w : ℕ → ℝ, pcross u w 1 = u 2 * w 0 - u 0 * w 2 := fun _ _ => rfl
  have c2 : ∀ u w : ℕ → ℝ, pcross u w 2 = u 0 * w 1 - u 1 * w 0 := fun _ _ => rfl
  simp only [c0, c1, c2, a0, a1, a2, b0, b1, b2]
  have hd := h.det_ne
  have hdet := Matrix.det_fin_three A
  generalize A.det = δ at hd hdet
  field_simp
  rw [hdet]
  ring

end

/-! ### A case meeting the hypotheses -/

/-- The image of the hypotenuse under `(x, y) ↦ (2x + y + 1, 3y)`: the edge from (3, 0) to (2, 3) -/
noncomputable def slanted : Domain :=
  ⟨.interval, 2, fun i j => if j = 0 then 2 * hypotenuse.v i 0 + hypotenuse.v i 1 + 1 else 3 * hypotenuse.v i 1⟩

noncomputable def slantMap : List Expr :=
  [add (add (mul (num 2) (sym "x")) (sym "y")) (num 1), mul (num 3) (sym "y")]

noncomputable def slantInv : List Expr :=
  [sub (sub (mul (num (1 / 2)) (sym "x")) (mul (num (1 / 6)) (sym "y"))) (num (1 / 2)), mul (num (1 / 3)) (sym "y")]

theorem slanted_pair : MappedPair hypotenuse slanted slantMap slantInv !![2, 1; 0, 3] !![1 / 2, -1 / 6; 0, 1 / 3]
    ![1, 0] ![-1 / 2, 0] where
  dim := by norm_num
  pos := by norm_num
  map := by
    refine ⟨fun env => ?_, fun env j => ?_, fun e he i hi => ?_⟩
    · simp [VIs, slantMap, eval, Functions.x, List.ofFn_succ]
    · fin_cases j <;> simp [VIs, slantMap, eval, diff, Functions.x, List.ofFn_succ]
    · simp only [slantMap, List.mem_cons, List.not_mem_nil, or_false] at he
      have hx := dummySym_notMem_x i
      simp only [Functions.x, List.mem_cons, List.not_mem_nil, or_false, not_or] at hx
      rcases he with rfl | rfl <;> simp [Has] at hi <;> simp_all
  inv := by
    refine ⟨fun env => ?_, fun env j => ?_, fun e he i hi => ?_⟩
    · simp [VIs, slantInv, eval, Functions.x, List.ofFn_succ]; ring
    · fin_cases j <;> simp [VIs, slantInv, eval, diff, Functions.x, List.ofFn_succ]; ring
    · simp only [slantInv, List.mem_cons, List.not_mem_nil, or_false] at he
      have hx := dummySym_notMem_x i
      simp only [Functions.x, List.mem_cons, List.not_mem_nil, or_false, not_or] at hx
      rcases he with rfl | rfl <;> simp [Has] at hi <;> simp_all
  inverse := by
    ext i j
    fin_cases i <;> fin_cases j <;> norm_num [Matrix.mul_apply, Fin.sum_univ_two]
  inverse_shift := by
    intro i
    fin_cases i <;> norm_num [Fin.sum_univ_two]
  g := rfl
  g' := rfl
  cell := rfl
  not_point := by simp [hypotenuse]
  vertices := by
    intro k i
    fin_cases i <;> simp [slanted, Fin.sum_univ_two]

theorem slanted_jacobian : References.jacobian slanted.cell slanted.g slanted.v = some √10 := by
  simp only [slanted, References.jacobian, axisVertices, List.length_singleton, Cell.tdim, if_true]
  congr 2
  simp [Finset.sum_range_succ, axis, axisVertices, psub, hypotenuse]
  norm_num

/-- The tangential moment of the covariantly mapped Nédélec function (-y, x) is that of the function. -/
example (k : Expr) (hk : NoDummy k) :
    ((tangentIntegralMoment slanted k).bind fun F =>
      (covariant [neg (sym "y"), sym "x"] slantMap slantInv true).bind fun f' => value F (.vector f')) =
    (tangentIntegralMoment hypotenuse k).bind fun F => value F (.vector [neg (sym "y"), sym "x"]) :=
  slanted_pair.tangent_invariant rfl hypotenuse_jacobian (by positivity) slanted_jacobian (by positivity) rfl
    (fun e he i hi => by
      simp only [List.mem_cons, List.not_mem_nil, or_false] at he
      have hx := dummySym_notMem_x i
      simp only [Functions.x, List.mem_cons, List.not_mem_nil, or_false, not_or] at hx
      rcases he with rfl | rfl <;> simp [Has] at hi <;> simp_all) hk

/-- The normal moment of the contravariantly mapped Raviart-Thomas function (x, y) is that of the function. -/
example (k : Expr) (hk : NoDummy k) :
    ((normalIntegralMoment slanted k).bind fun F =>
      (contravariant [sym "x", sym "y"] slantMap slantInv true).bind fun f' => value F (.vector f')) =
    (normalIntegralMoment hypotenuse k).bind fun F => value F (.vector [sym "x", sym "y"]) :=
  normal_invariant_edge slanted_pair rfl hypotenuse_jacobian (by positivity) slanted_jacobian (by positivity) rfl
    (fun e he i hi => by
      simp only [List.mem_cons, List.not_mem_nil, or_false] at he
      have hx := dummySym_notMem_x i
      simp only [Functions.x, List.mem_cons, List.not_mem_nil, or_false, not_or] at hx
      rcases he with rfl | rfl <;> simp [Has] at hi <;> simp_all) hk

end Verif.Functionals
