import Verif.Smooth.Argyris
import Verif.Families.QSub
/-!
# Bogner-Fox-Schmit elements

symfem/elements/bfs.py, on quadrilaterals with any vertices.
-/

namespace Verif.Smooth
open Verif.References Verif.Moments Verif.Functionals Verif.Elements Verif.FiniteElement Verif.Polysets Verif.Orthogonal
open Verif.Families Verif.Scalar
open MvPolynomial

/-! ### Model -/

/-- The functionals of a vertex (symfem/elements/bfs.py:31-47). -/
noncomputable def bfsVertex (v : ℕ → ℕ → ℝ) (n : ℕ) : List (Dof ℝ (MvPolynomial ℕ ℝ)) :=
  PointDof.functional ⟨v n, (0, n)⟩ :: ((List.range 2).map fun i => derivDof (v n) (unitIndex 2 i) (0, n) none) ++
    [derivDof (v n) [1, 1] (0, n) (some "identity")]

/-- `BognerFoxSchmit(reference, order)` (symfem/elements/bfs.py:20-52) on a quadrilateral with vertices `v`. -/
noncomputable def bfs (v : ℕ → ℕ → ℝ) (k : ℕ) : Option (Element ℝ (MvPolynomial ℕ ℝ)) :=
  if k = 3 then ciarlet ((quolySet 2 3).map (denoteMono ℝ)) ((List.range 4).flatMap (bfsVertex v)) else none

/-! ### The functionals -/

/-- The value, the first derivatives and the mixed derivative vanish. -/
def FlatQ (p : ℕ → ℝ) (f : MvPolynomial ℕ ℝ) : Prop :=
  eval p f = 0 ∧ eval p (pderiv 0 f) = 0 ∧ eval p (pderiv 1 f) = 0 ∧ eval p (pderiv 1 (pderiv 0 f)) = 0

theorem bfs_flat {v : ℕ → ℕ → ℝ} {n : ℕ} {f : MvPolynomial ℕ ℝ} : (∀ d ∈ bfsVertex v n, d.eval f = 0) ↔ FlatQ (v n) f := by
  have hd : ∀ s m, (derivDof (v n) s (0, n) m).eval f = eval (v n) (multiDeriv s 0 f) := fun _ _ => rfl
  have e10 : multiDeriv (unitIndex 2 0) 0 f = pderiv 0 f := rfl
  have e01 : multiDeriv (unitIndex 2 1) 0 f = pderiv 1 f := rfl
  have e11 : multiDeriv [1, 1] 0 f = pderiv 1 (pderiv 0 f) := rfl
  have hr : List.range 2 = [0, 1] := rfl
  simp only [bfsVertex, hr, List.cons_append, List.nil_append, List.forall_mem_cons, List.map_cons, List.map_nil, hd, e10, e01, e11, eval_functional,
    List.not_mem_nil, false_implies, implies_true, and_true, FlatQ]

theorem bfsVertex_entity {v : ℕ → ℕ → ℝ} {n : ℕ} : ∀ d ∈ bfsVertex v n, d.entity = (0, n) := by
  intro d hd
  have hr : List.range 2 = [0, 1] := rfl
  simp only [bfsVertex, hr, List.cons_append, List.nil_append, List.map_cons, List.map_nil, List.mem_cons, List.not_mem_nil, or_false] at hd
  rcases hd with rfl | rfl | rfl | rfl <;> rfl

def bfsInv : List (List ℚ) := [
    [1, 0, 0, 0, 0, 0, 0, 0, 0, 0, 0, 0, 0, 0, 0, 0],
    [0, 0, 1, 0, 0, 0, 0, 0, 0, 0, 0, 0, 0, 0, 0, 0],
    [-3, 0, -2, 0, 0, 0, 0, 0, 3, 0, -1, 0, 0, 0, 0, 0],
    [2, 0, 1, 0, 0, 0, 0, 0, -2, 0, 1, 0, 0, 0, 0, 0],
    [0, 1, 0, 0, 0, 0, 0, 0, 0, 0, 0, 0, 0, 0, 0, 0],
    [0, 0, 0, 1, 0, 0, 0, 0, 0, 0, 0, 0, 0, 0, 0, 0],
    [0, -3, 0, -2, 0, 0, 0, 0, 0, 3, 0, -1, 0, 0, 0, 0],
    [0, 2, 0, 1, 0, 0, 0, 0, 0, -2, 0, 1, 0, 0, 0, 0],
    [-3, -2, 0, 0, 3, -1, 0, 0, 0, 0, 0, 0, 0, 0, 0, 0],
    [0, 0, -3, -2, 0, 0, 3, -1, 0, 0, 0, 0, 0, 0, 0, 0],
    [9, 6, 6, 4, -9, 3, -6, 2, -9, -6, 3, 2, 9, -3, -3, 1],
    [-6, -4, -3, -2, 6, -2, 3, -1, 6, 4, -3, -2, -6, 2, 3, -1],
    [2, 1, 0, 0, -2, 1, 0, 0, 0, 0, 0, 0, 0, 0, 0, 0],
    [0, 0, 2, 1, 0, 0, -2, 1, 0, 0, 0, 0, 0, 0, 0, 0],
    [-6, -3, -4, -2, 6, -3, 4, -2, 6, 3, -2, -1, -6, 3, 2, -1],
    [4, 2, 2, 1, -4, 2, -2, 1, -4, -2, 2, 1, 4, -2, -2, 1]]

/-- The corners of the square. -/
def corner (n : ℕ) : List ℚ := [(n % 2 : ℕ), (n / 2 : ℕ)]

theorem bfs_ref {g : MvPolynomial ℕ ℝ} (hg : g ∈ QP 2 3) (h : ∀ n < 4, FlatQ (pt (corner n)) g) : g = 0 := by
  have hs : lspan (((quolySet 2 3).map fun m => [(1, m)]).map (denotePoly ℝ)) = QP 2 3 := by
    rw [← quolySet_lspan, List.map_map]
    congr 1
    exact List.map_congr_left fun m _ => by simp [denotePoly]
  rw [← hs] at hg
  refine (certified (G := (List.range 4).flatMap fun n => [[], [1, 0], [0, 1], [1, 1]].map fun s => [(1, s, corner n)]) bfsInv (by decide +kernel)).2 g hg
    fun j hj => ?_
  obtain ⟨n, hn, hj⟩ := List.mem_flatMap.1 hj
  obtain ⟨s, hs, rfl⟩ := List.mem_map.1 hj
  obtain ⟨h0, h1, h2, h3⟩ := h n (List.mem_range.1 hn)
  rw [jetMap_apply]
  simp only [List.map_cons, List.map_nil, List.sum_cons, List.sum_nil, add_zero, Rat.cast_one, one_mul]
  simp only [List.mem_cons, List.not_mem_nil, or_false] at hs
  rcases hs with rfl | rfl | rfl | rfl
  · exact h0
  · exact h1
  · exact h2
  · exact h3

/-! ### Rectangles -/

/-- The rectangle with a vertex `(a, b)` and sides `h` and `k` along the axes. -/
noncomputable def rect (a b h k : ℝ) (n : ℕ) : ℕ → ℝ := coords [a + (n % 2 : ℕ) * h, b + (n / 2 : ℕ) * k]

theorem QP_P {k : ℤ} : QP 2 k ≤ P 2 (2 * k) := B_P (fun i hi => by rw [if_pos hi]) fun i hi => by rw [if_neg (by omega)]

theorem pderiv_QP {k : ℤ} {f : MvPolynomial ℕ ℝ} (hf : f ∈ QP 2 k) (j : ℕ) : pderiv j f ∈ QP 2 k := by
  rw [QP, mem_B] at hf ⊢
  intro s hs i
  have h : coeff (s + Finsupp.single j 1) f ≠ 0 := by
    intro h
    rw [mem_support_iff, coeff_pderiv, h, zero_mul] at hs
    exact hs rfl
  have := hf _ (mem_support_iff.2 h) i
  rw [Finsupp.add_apply] at this
  push_cast at this
  omega

/-- The restriction to a line along an axis is cubic. -/
theorem line_cubic {f : MvPolynomial ℕ ℝ} (hf : f ∈ QP 2 3) {V : ℕ → ℕ → ℝ} {o : ℕ} (ho : o < 2) (hV : V 1 o = V 0 o) :
    pull ⟨.interval, 2, V⟩ f ∈ P 1 3 := by
  have hc : ∀ j, coordPoly ⟨.interval, 2, V⟩ j = C (V 0 j) + C (V 1 j - V 0 j) * X 0 := by
    intro j
    refine MvPolynomial.funext fun z => ?_
    rw [eval_coordPoly, interval_param]
    simp
    ring
  refine B_le (d := 2) (aeval (coordPoly ⟨.interval, 2, V⟩)).toLinearMap (P 1 3) (fun j hj => by rw [if_neg (by omega)]) (fun m hl hm => ?_) hf
  obtain ⟨i, j, rfl⟩ : ∃ i j, m = [i, j] := by
    match m, hl with
    | [i, j], _ => exact ⟨i, j, rfl⟩
  have hi : i ≤ 3 := by have := hm 0 (by omega); simp at this; omega
  have hj : j ≤ 3 := by have := hm 1 (by omega); simp at this; omega
  have hlin : ∀ j, coordPoly ⟨.interval, 2, V⟩ j ∈ P 1 1 := fun j => by
    rw [hc]
    exact Submodule.add_mem _ (C_mem _ (by norm_num)) (C_mul_mem _ (X_mem (by omega)))
  show aeval _ (denoteMono ℝ [i, j]) ∈ _
  have e : denoteMono ℝ [i, j] = X 0 ^ i * X 1 ^ j := by simp [denoteMono, monoFrom]
  rw [e, map_mul, map_pow, map_pow, aeval_X, aeval_X]
  have hconst : coordPoly ⟨.interval, 2, V⟩ o = C (V 0 o) := by rw [hc, hV]; simp
  interval_cases o
  · rw [hconst, ← C_pow]
    refine C_mul_mem _ (P_mono ?_ (P_pow (hlin 1) j))
    push_cast
    omega
  · rw [hconst, ← C_pow, mul_comm]
    refine C_mul_mem _ (P_mono ?_ (P_pow (hlin 0) i))
    push_cast
    omega

/-- The values and the first derivatives on a line along an axis. -/
theorem line_flat {f : MvPolynomial ℕ ℝ} (hf : f ∈ QP 2 3) {V : ℕ → ℕ → ℝ} {o : ℕ} (ho : o < 2) (hV : V 1 o = V 0 o) (hV' : V 1 (1 - o) ≠ V 0 (1 - o))
    (h : ∀ n ≤ 1, FlatQ (V n) f) (z : ℕ → ℝ) :
    eval ((⟨.interval, 2, V⟩ : Domain).param z) f = 0 ∧ ∀ j < 2, eval ((⟨.interval, 2, V⟩ : Domain).param z) (pderiv j f) = 0 := by
  have hend : ∀ n ≤ 1, (⟨.interval, 2, V⟩ : Domain).param (pt (vert 1 n)) = V n := by
    intro n hn
    rw [interval_param, vert_cast (by omega)]
    funext j
    interval_cases n <;> simp
  have hx : ∀ j, axis (⟨.interval, 2, V⟩ : Domain).cell (⟨.interval, 2, V⟩ : Domain).v 0 j = V 1 j - V 0 j := fun j => by simp [axis, psub, axisVertices]
  have hd : ∀ {g : MvPolynomial ℕ ℝ}, g ∈ QP 2 3 → pderiv 0 (pull ⟨.interval, 2, V⟩ g) = C (V 1 (1 - o) - V 0 (1 - o)) * pull ⟨.interval, 2, V⟩ (pderiv (1 - o) g) := by
    intro g hg
    rw [pderiv_pull (QP_P hg) _ (by decide : 0 < Cell.interval.tdim), Finset.sum_range_succ, Finset.sum_range_one, hx, hx]
    interval_cases o
    · rw [hV]; simp
    · rw [hV]; simp
  have h0 : pull ⟨.interval, 2, V⟩ f = 0 := by
    refine cubic (line_cubic hf ho hV) fun n hn => ?_
    obtain ⟨a1, a2, a3, a4⟩ := h n hn
    rw [eval_pull, hd hf, map_mul, eval_pull, hend n hn]
    refine ⟨a1, ?_⟩
    interval_cases o
    · rw [a3, mul_zero]
    · rw [a2, mul_zero]
  have h1 : pull ⟨.interval, 2, V⟩ (pderiv o f) = 0 := by
    refine cubic (line_cubic (pderiv_QP hf o) ho hV) fun n hn => ?_
    obtain ⟨a1, a2, a3, a4⟩ := h n hn
    rw [eval_pull, hd (pderiv_QP hf o), map_mul, eval_pull, hend n hn]
    interval_cases o
    · exact ⟨a2, by rw [a4, mul_zero]⟩
    · exact ⟨a3, by rw [pderiv_comm, a4, mul_zero]⟩
  have h2 : pull ⟨.interval, 2, V⟩ (pderiv (1 - o) f) = 0 := by
    have := hd hf
    rw [h0, map_zero] at this
    refine (mul_eq_zero.1 this.symm).resolve_left ?_
    rw [C_eq_zero]
    exact sub_ne_zero.2 hV'
  refine ⟨by rw [← eval_pull, h0, map_zero], fun j hj => ?_⟩
  rw [← eval_pull]
  have : j = o ∨ j = 1 - o := by omega
  rcases this with rfl | rfl
  · rw [h1, map_zero]
  · rw [h2, map_zero]

theorem rect_coord (a b h k : ℝ) (j : ℕ) (hj : j < 2) : coordPoly ⟨.quadrilateral, 2, rect a b h k⟩ j =
    C (if j = 0 then a else b) + C (if j = 0 then h else k) * X j := by
  refine MvPolynomial.funext fun z => ?_
  rw [eval_coordPoly]
  interval_cases j <;> simp [Domain.param, Cell.tdim, Finset.sum_range_succ, axis, psub, axisVertices, rect, coords]

theorem degree_pow_le (c e : ℝ) (i n m : ℕ) : ((C c + C e * X i : MvPolynomial ℕ ℝ) ^ n).degreeOf m ≤ if m = i then n else 0 := by
  refine (degreeOf_pow_le ..).trans ?_
  have h1 : (C c + C e * X i : MvPolynomial ℕ ℝ).degreeOf m ≤ if m = i then 1 else 0 := by
    refine (degreeOf_add_le ..).trans (max_le (by rw [degreeOf_C]; exact Nat.zero_le _) ?_)
    refine (degreeOf_C_mul_le ..).trans ?_
    rw [degreeOf_X]
  by_cases hm : m = i
  · rw [if_pos hm] at h1 ⊢
    calc n * _ ≤ n * 1 := Nat.mul_le_mul_left _ h1
      _ = n := mul_one n
  · rw [if_neg hm] at h1 ⊢
    rw [Nat.le_zero.1 h1, mul_zero]

theorem rect_pull {a b h k : ℝ} {f : MvPolynomial ℕ ℝ} (hf : f ∈ QP 2 3) : pull ⟨.quadrilateral, 2, rect a b h k⟩ f ∈ QP 2 3 := by
  refine B_le (d := 2) (aeval (coordPoly ⟨.quadrilateral, 2, rect a b h k⟩)).toLinearMap (QP 2 3) (fun j hj => by rw [if_neg (by omega)])
    (fun m hl hm => ?_) hf
  obtain ⟨i, j, rfl⟩ : ∃ i j, m = [i, j] := by
    match m, hl with
    | [i, j], _ => exact ⟨i, j, rfl⟩
  have hi : i ≤ 3 := by have := hm 0 (by omega); simp at this; omega
  have hj : j ≤ 3 := by have := hm 1 (by omega); simp at this; omega
  show aeval _ (denoteMono ℝ [i, j]) ∈ _
  have e : denoteMono ℝ [i, j] = X 0 ^ i * X 1 ^ j := by simp [denoteMono, monoFrom]
  rw [e, map_mul, map_pow, map_pow, aeval_X, aeval_X, rect_coord a b h k 0 (by omega), rect_coord a b h k 1 (by omega), QP, mem_B_iff]
  intro _ m
  have h1 := (degreeOf_mul_le m ((C (if 0 = 0 then a else b) + C (if 0 = 0 then h else k) * X 0 : MvPolynomial ℕ ℝ) ^ i)
    ((C (if 1 = 0 then a else b) + C (if 1 = 0 then h else k) * X 1) ^ j)).trans (Nat.add_le_add (degree_pow_le _ _ 0 i m) (degree_pow_le _ _ 1 j m))
  have h2 : (if m = 0 then i else 0) + (if m = 1 then j else 0) ≤ if m < 2 then 3 else 0 := by
    split_ifs <;> omega
  have h3 := h1.trans h2
  by_cases hm : m < 2
  · rw [if_pos hm] at h3 ⊢
    exact_mod_cast h3
  · rw [if_neg hm] at h3 ⊢
    exact_mod_cast h3

theorem rect_flat {a b h k : ℝ} {f : MvPolynomial ℕ ℝ} (hf : f ∈ QP 2 3) {z : ℕ → ℝ} (hz : FlatQ ((⟨.quadrilateral, 2, rect a b h k⟩ : Domain).param z) f) :
    FlatQ z (pull ⟨.quadrilateral, 2, rect a b h k⟩ f) := by
  have hx : ∀ l < 2, ∀ j < 2, axis (⟨.quadrilateral, 2, rect a b h k⟩ : Domain).cell (⟨.quadrilateral, 2, rect a b h k⟩ : Domain).v l j =
      if l = j then (if j = 0 then h else k) else 0 := by
    intro l hl j hj
    interval_cases l <;> interval_cases j <;> simp [axis, psub, axisVertices, rect, coords]
  have hd : ∀ {g : MvPolynomial ℕ ℝ}, g ∈ QP 2 3 → ∀ j < 2, pderiv j (pull ⟨.quadrilateral, 2, rect a b h k⟩ g) =
      C (if j = 0 then h else k) * pull ⟨.quadrilateral, 2, rect a b h k⟩ (pderiv j g) := by
    intro g hg j hj
    rw [pderiv_pull (QP_P hg) _ (show j < Cell.quadrilateral.tdim from hj), Finset.sum_range_succ, Finset.sum_range_one, hx j hj 0 (by omega),
      hx j hj 1 (by omega)]
    interval_cases j <;> simp
  obtain ⟨h0, h1, h2, h3⟩ := hz
  refine ⟨by rw [eval_pull]; exact h0, ?_, ?_, ?_⟩
  · rw [hd hf 0 (by omega), map_mul, eval_pull, h1, mul_zero]
  · rw [hd hf 1 (by omega), map_mul, eval_pull, h2, mul_zero]
  · rw [hd hf 0 (by omega), Derivation.leibniz, pderiv_C, smul_zero, add_zero, smul_eq_mul, hd (pderiv_QP hf 0) 1 (by omega), map_mul, map_mul,
      eval_pull, h3, mul_zero, mul_zero]

theorem bfs_zero {a b h k : ℝ} (hh : h ≠ 0) (hk : k ≠ 0) {f : MvPolynomial ℕ ℝ} (hf : f ∈ QP 2 3) (hz : ∀ n < 4, FlatQ (rect a b h k n) f) : f = 0 := by
  have hp : ∀ z, (⟨.quadrilateral, 2, rect a b h k⟩ : Domain).param z = coords [a + h * z 0, b + k * z 1] := by
    intro z
    funext j
    match j with
    | 0 => simp [Domain.param, Cell.tdim, Finset.sum_range_succ, axis, psub, axisVertices, rect, coords]
    | 1 => simp [Domain.param, Cell.tdim, Finset.sum_range_succ, axis, psub, axisVertices, rect, coords]
    | j + 2 => simp [Domain.param, Cell.tdim, Finset.sum_range_succ, axis, psub, axisVertices, rect, coords]
  have h0 := bfs_ref (rect_pull (a := a) (b := b) (h := h) (k := k) hf) fun n hn => rect_flat hf (by
    have : (⟨.quadrilateral, 2, rect a b h k⟩ : Domain).param (pt (corner n)) = rect a b h k n := by
      rw [hp]
      funext j
      simp [rect, pt, corner, mul_comm]
    rw [this]
    exact hz n hn)
  refine MvPolynomial.funext fun y => ?_
  have h1 : eval (coords [(y 0 - a) / h, (y 1 - b) / k]) (pull ⟨.quadrilateral, 2, rect a b h k⟩ f) = 0 := by rw [h0, map_zero]
  rw [eval_pull, hp] at h1
  rw [map_zero, ← h1]
  refine eval_congr_P (QP_P hf) fun j hj => ?_
  interval_cases j
  · simp [coords]
    field_simp
    ring
  · simp [coords]
    field_simp
    ring

/-- **C120.** On all rectangles with sides along the axes the Bogner-Fox-Schmit element can be created. Its functions are all polynomials of
degree at most 3 in each variable, and the values and the first derivatives on each vertex and edge are determined by the functionals of
the closure. -/
theorem bfs_created_partial (a b : ℝ) {h k : ℝ} (hh : h ≠ 0) (hk : k ≠ 0) :
    Created (bfs (rect a b h k) 3) (· ∈ QP 2 3) 16 (C1Trace .quadrilateral (rect a b h k) (· ∈ QP 2 3)) := by
  have hfl : ∀ n < 4, ∀ f, (∀ d ∈ (List.range 4).flatMap (bfsVertex (rect a b h k)), d.entity = (0, n) → d.eval f = 0) → FlatQ (rect a b h k n) f :=
    fun n hn f h => bfs_flat.1 fun d hd => h d (List.mem_flatMap.2 ⟨n, List.mem_range.2 hn, hd⟩) (bfsVertex_entity d hd)
  have hu : ∀ f, f ∈ QP 2 3 → (∀ d ∈ (List.range 4).flatMap (bfsVertex (rect a b h k)), d.eval f = 0) → f = 0 := fun f hf hz =>
    bfs_zero hh hk hf fun n hn => hfl n hn f fun d hd _ => hz d hd
  refine created_of (basis := (quolySet 2 3).map (denoteMono ℝ)) (dofs := (List.range 4).flatMap (bfsVertex (rect a b h k))) (if_pos rfl) ?_ ?_
    ((scalar_sets_independent ℝ).2.1 _ _) (fun f => by rw [quolySet_lspan]) hu fun m hm i hi f hf hz z => ?_
  · rw [List.length_flatMap]
    simp [bfsVertex, List.range_succ]
  · rw [List.length_map]
    decide
  · have hvv : ∀ n < 4, n ∈ entVerts .quadrilateral m i → FlatQ (rect a b h k n) f := fun n hn hmem =>
      hfl n hn f fun d hd he => hz d hd (by
        rw [he]
        have : entVerts .quadrilateral 0 n = [n] := by interval_cases n <;> rfl
        show entVerts .quadrilateral 0 n ⊆ _
        rw [this]
        simpa using hmem)
    have hm2 : m ≤ 2 := hm
    interval_cases m
    · have hi4 : i < 4 := hi
      have hv : entVerts .quadrilateral 0 i = [i] := by interval_cases i <;> rfl
      have := hvv i hi4 (by rw [hv]; simp)
      have hp : (physDomain .quadrilateral (rect a b h k) (0, i)).param z = rect a b h k i := by
        funext j
        interval_cases i <;> simp [physDomain, Domain.param, entType, Cell.subEntityType, Cell.subEntityTypes, entityVerts, hv, Cell.tdim]
      rw [hp]
      refine ⟨this.1, fun j hj => ?_⟩
      have hj2 : j < 2 := hj
      interval_cases j
      · exact this.2.1
      · exact this.2.2.1
    · have hi4 : i < 4 := hi
      have hE : ∃ p q o, p < 4 ∧ q < 4 ∧ o < 2 ∧ rect a b h k q o = rect a b h k p o ∧ rect a b h k q (1 - o) ≠ rect a b h k p (1 - o) ∧
          entVerts .quadrilateral 1 i = [p, q] ∧ physDomain .quadrilateral (rect a b h k) (1, i) = ⟨.interval, 2, entityVerts (rect a b h k) [p, q]⟩ := by
        interval_cases i
        · exact ⟨0, 1, 1, by omega, by omega, by omega, by simp [rect, coords], by simpa [rect, coords] using hh, rfl, rfl⟩
        · exact ⟨0, 2, 0, by omega, by omega, by omega, by simp [rect, coords], by simpa [rect, coords] using hk, rfl, rfl⟩
        · exact ⟨1, 3, 0, by omega, by omega, by omega, by simp [rect, coords], by simpa [rect, coords] using hk, rfl, rfl⟩
        · exact ⟨2, 3, 1, by omega, by omega, by omega, by simp [rect, coords], by simpa [rect, coords] using hh, rfl, rfl⟩
      obtain ⟨p, q, o, hp, hq, ho, e1, e2, e3, e4⟩ := hE
      rw [e4]
      refine line_flat hf ho e1 e2 (fun n hn => ?_) z
      interval_cases n
      · exact hvv p hp (by rw [e3]; simp)
      · exact hvv q hq (by rw [e3]; simp)
    · obtain rfl : i = 0 := by have : i < 1 := hi; omega
      rw [hu f hf fun d hd => hz d hd (by
        obtain ⟨n, hn, hd⟩ := List.mem_flatMap.1 hd
        rw [bfsVertex_entity d hd]
        have := List.mem_range.1 hn
        interval_cases n <;> decide)]
      simp

/-- The default quadrilateral is such a rectangle. -/
example : Created (bfs (rect 0 0 1 1) 3) (· ∈ QP 2 3) 16 (C1Trace .quadrilateral (rect 0 0 1 1) (· ∈ QP 2 3)) :=
  bfs_created_partial 0 0 one_ne_zero one_ne_zero

/-! ### Other quadrilaterals -/

/-- The parallelogram with centre `(a, b)` whose diagonals are along the axes. -/
noncomputable def diamond (a b h k : ℝ) : ℕ → ℕ → ℝ
  | 0 => coords [a, b - k]
  | 1 => coords [a + h, b]
  | 2 => coords [a - h, b]
  | _ => coords [a, b + k]

/-- **C120.** On the parallelograms of this shape the element can be created, but it has no basis functions. -/
theorem bfs_diamond (a b h k : ℝ) : ∃ basis dofs, bfs (diamond a b h k) 3 = some (.ciarlet basis dofs) ∧ getBasis (.ciarlet basis dofs) = none := by
  refine ⟨(quolySet 2 3).map (denoteMono ℝ), (List.range 4).flatMap (bfsVertex (diamond a b h k)), ?_, ?_⟩
  · rw [bfs, if_pos rfl, ciarlet, if_pos]
    rw [List.length_flatMap]
    simp [bfsVertex, List.range_succ]
    decide
  · refine getBasis_none (p := (C (-a) + C 1 * X 0) ^ 2 * (C (-b) + C 1 * X 1) ^ 2) ?_ ?_ ?_
    · have : (C (-a) + C 1 * X 0) ^ 2 * (C (-b) + C 1 * X 1) ^ 2 ∈ QP 2 3 := by
        rw [QP, mem_B_iff]
        intro _ m
        have h1 := (degreeOf_mul_le m ((C (-a) + C 1 * X 0 : MvPolynomial ℕ ℝ) ^ 2) ((C (-b) + C 1 * X 1) ^ 2)).trans
          (Nat.add_le_add (degree_pow_le _ _ 0 2 m) (degree_pow_le _ _ 1 2 m))
        have h2 : (if m = 0 then 2 else 0) + (if m = 1 then 2 else 0) ≤ if m < 2 then 3 else 0 := by
          split_ifs <;> omega
        have h3 := h1.trans h2
        by_cases hm : m < 2
        · rw [if_pos hm] at h3 ⊢
          exact_mod_cast h3
        · rw [if_neg hm] at h3 ⊢
          exact_mod_cast h3
      rw [← quolySet_lspan] at this
      exact this
    · intro d hd
      obtain ⟨n, hn, hd⟩ := List.mem_flatMap.1 hd
      have hn' := List.mem_range.1 hn
      refine bfs_flat.2 ?_ d hd
      refine ⟨?_, ?_, ?_, ?_⟩ <;> interval_cases n <;> simp [diamond, coords, Derivation.leibniz, pderiv_X]
    · intro h0
      have := congrArg (eval (coords [a + 1, b + 1])) h0
      simp [coords] at this

theorem diamond_nonDegenerate (a b : ℝ) {h k : ℝ} (hh : h ≠ 0) (hk : k ≠ 0) : NonDegenerate .quadrilateral (diamond a b h k) := by
  intro t ht
  have h0 := ht 0 (by decide)
  have h1 := ht 1 (by decide)
  simp [Cell.tdim, Finset.sum_range_succ, axis, psub, axisVertices, diamond, coords] at h0 h1
  have e0 : t 0 = t 1 := by
    have : (t 0 - t 1) * h = 0 := by linear_combination h0
    have := (mul_eq_zero.1 this).resolve_right hh
    linarith
  have e1 : t 1 = 0 := by
    rw [e0] at h1
    have : t 1 * k = 0 := by linarith
    exact (mul_eq_zero.1 this).resolve_right hk
  intro l hl
  have hl2 : l < 2 := hl
  interval_cases l
  · rw [e0, e1]
  · exact e1

example : NonDegenerate .quadrilateral (diamond 0 1 1 1) := diamond_nonDegenerate 0 1 one_ne_zero one_ne_zero

end Verif.Smooth
