import Verif.Macro.Hct
import Verif.Families.KmvCreated
/-!
# Functions in pieces with values at points
-/

namespace Verif.Macro
open Verif.References Verif.Elements Verif.FiniteElement Verif.Polysets Verif.Moments Verif.Geometry Verif.Functions
open Verif.Families Verif.Scalar
open MvPolynomial

variable {d m n : ℕ}

/-! ### Model -/

/-- The keys of the dictionary of a `PiecewiseFunction`, for cells with these corners. -/
noncomputable def cellList (c : Fin n → Fin m → Fin d → ℝ) : List (List (Point ℝ)) := List.ofFn fun i => cellOf (c i)

/-- `PointEvaluation(reference, z, entity=e)` applied to functions in pieces (symfem/functionals.py:267-277,
symfem/piecewise_functions.py:304-330). -/
noncomputable def nodalDof (c : Fin n → Fin m → Fin d → ℝ) (z : ℕ → ℝ) (e : ℕ × ℕ) : Option (Dof ℝ (Fin n → MvPolynomial ℕ ℝ)) :=
  onPiece n d (cellList c) z (PointDof.functional ⟨z, e⟩)

/-- A function given by the terms of its pieces. -/
noncomputable def ofTerms (n : ℕ) (t : List (List (ℤ × Mono))) : Fin n → MvPolynomial ℕ ℝ := fun i => denotePoly ℝ (t.getD i.val [])

/-! ### Specification -/

/-- A point is in a cell. -/
def Inside (v : Fin m → Fin d → ℝ) (z : ℕ → ℝ) : Prop := InHull (fun j : Fin d => z j.val) v

/-- Pieces from a space of polynomials that have the same values where their cells meet: a continuous function. -/
def Continuous0 (S : Submodule ℝ (MvPolynomial ℕ ℝ)) (c : Fin n → Fin m → Fin d → ℝ) (f : Fin n → MvPolynomial ℕ ℝ) : Prop :=
  (∀ i, f i ∈ S) ∧ ∀ i j z, Inside (c i) z → Inside (c j) z → eval z (f i) = eval z (f j)

/-- The functionals of the closure of a facet determine the function on the facet. -/
def C0Macro (t : Cell) (c : Fin n → Fin m → Fin d → ℝ) (S : (Fin n → MvPolynomial ℕ ℝ) → Prop) (dofs : List (Dof ℝ (Fin n → MvPolynomial ℕ ℝ))) : Prop :=
  ∀ i < (t.subEntityCount (t.tdim - 1)).getD 0, ∀ f, S f →
    (∀ d ∈ dofs, entVerts t d.entity.1 d.entity.2 ⊆ entVerts t (t.tdim - 1) i → d.eval f = 0) →
    ∀ z j, Inside (c j) ((entityDomain t (t.tdim - 1, i)).param z) → eval ((entityDomain t (t.tdim - 1, i)).param z) (f j) = 0

/-! ### Lemmas -/

/-- The functions form a space. -/
def c0Sub (S : Submodule ℝ (MvPolynomial ℕ ℝ)) (c : Fin n → Fin m → Fin d → ℝ) : Submodule ℝ (Fin n → MvPolynomial ℕ ℝ) where
  carrier := {f | Continuous0 S c f}
  zero_mem' := ⟨fun _ => Submodule.zero_mem _, fun i j z _ _ => by simp⟩
  add_mem' := by
    rintro f g ⟨f1, f2⟩ ⟨g1, g2⟩
    refine ⟨fun i => Submodule.add_mem _ (f1 i) (g1 i), fun i j z hi hj => ?_⟩
    simp [f2 i j z hi hj, g2 i j z hi hj]
  smul_mem' := by
    rintro a f ⟨f1, f2⟩
    refine ⟨fun i => Submodule.smul_mem _ _ (f1 i), fun i j z hi hj => ?_⟩
    simp [f2 i j z hi hj, smul_eval]

theorem loop_piece (l : List (Fin m → Fin d → ℝ)) (hl : ∀ v ∈ l, Proper d v) (k : ℕ) (z : Fin d → ℝ) (h : ∃ v ∈ l, InHull z v) :
    ∃ i, ∃ hi : i < l.length, getPieceLoop d (tup z) ((l.map cellOf).zipIdx k) = .ok (k + i) ∧ InHull z l[i] := by
  induction l generalizing k with
  | nil => simp at h
  | cons v l ih =>
    obtain ⟨b, hb, he⟩ := inPiece_iff (hl v (by simp)) z
    simp only [List.map_cons, List.zipIdx_cons, getPieceLoop, hb]
    cases b with
    | true => exact ⟨0, by simp, rfl, he.1 rfl⟩
    | false =>
      have hv : ¬ InHull z v := fun h' => Bool.false_ne_true (he.2 h')
      obtain ⟨w, hw, hz⟩ := h
      have hw' : w ∈ l := by
        rcases List.mem_cons.1 hw with rfl | h'
        · exact absurd hz hv
        · exact h'
      obtain ⟨i, hi, h1, h2⟩ := ih (fun v hv => hl v (List.mem_cons_of_mem _ hv)) (k + 1) ⟨w, hw', hz⟩
      refine ⟨i + 1, by simpa using hi, ?_, by simpa using h2⟩
      simp only [h1]
      congr 1
      omega

/-- The value of a continuous function is that of each piece at the point. -/
theorem nodalDof_eq {c : Fin n → Fin m → Fin d → ℝ} (hd : d = 1 ∨ d = 2 ∨ d = 3) (hc : ∀ i, Proper d (c i)) (z : ℕ → ℝ) (e : ℕ × ℕ) {j : Fin n}
    (hj : Inside (c j) z) : ∃ D, nodalDof c z e = some D ∧ D.entity = e ∧
      ∀ S f, Continuous0 S c f → ∀ i, Inside (c i) z → D.eval f = eval z (f i) := by
  have hz : (List.range d).map z = tup fun j : Fin d => z j.val := by
    rw [tup, List.ofFn_eq_map, ← List.map_coe_finRange_eq_range, List.map_map]
    rfl
  obtain ⟨i, hi, h1, h2⟩ := loop_piece (List.ofFn c) (fun v hv => by obtain ⟨i, rfl⟩ := (List.mem_ofFn' _ _).1 hv; exact hc i) 0 (fun j : Fin d => z j.val)
    ⟨c j, (List.mem_ofFn' _ _).2 ⟨j, rfl⟩, hj⟩
  have hi' : i < n := by simpa using hi
  have hp : pieceAt d (cellList c) ((List.range d).map z) = some i := by
    rw [pieceAt, Piecewise.getPiece, if_pos hd, hz]
    have : cellList c = (List.ofFn c).map cellOf := by
      rw [cellList, List.map_ofFn]
      rfl
    simp only [this, h1, zero_add]
  refine ⟨_, onPiece_of hp hi' _, rfl, fun S f hf k hk => ?_⟩
  refine Eq.trans (b := eval z (f ⟨i, hi'⟩)) rfl (hf.2 _ _ z ?_ hk)
  rw [List.getElem_ofFn] at h2
  exact h2

/-- The corners are in their cell. -/
theorem inside_corner (v : Fin m → Fin d → ℝ) (k : Fin m) {z : ℕ → ℝ} (h : ∀ j : Fin d, z j.val = v k j) : Inside v z := by
  refine ⟨Pi.single k 1, fun i => ?_, by simp, fun j => ?_⟩
  · by_cases hi : i = k
    · subst hi; simp
    · simp [hi]
  · show z j.val = _
    rw [h j]
    simp [Pi.single_apply]

/-- Affine functions and convex combinations. -/
theorem affine_hull {p : MvPolynomial ℕ ℝ} (hp : p ∈ P 2 1) {l : Fin m → ℝ} (h1 : ∑ k, l k = 1) {v : Fin m → Fin 2 → ℝ} {z : ℕ → ℝ}
    (hz : ∀ j : Fin 2, z j.val = ∑ k, l k * v k j) : eval z p = ∑ k, l k * eval (coords [v k 0, v k 1]) p := by
  obtain ⟨a, b, c, rfl⟩ := P_one hp
  have h0 := hz 0
  have h2 := hz 1
  simp only [Fin.val_zero, Fin.val_one] at h0 h2
  simp only [map_add, map_mul, eval_C, eval_X, h0, h2, coords, List.getD_cons_zero, List.getD_cons_succ, mul_add, Finset.sum_add_distrib]
  rw [← Finset.sum_mul, h1, Finset.mul_sum, Finset.mul_sum]
  congr 1
  · congr 1
    · ring
    · exact Finset.sum_congr rfl fun _ _ => by ring
  · exact Finset.sum_congr rfl fun _ _ => by ring

/-- An affine function without values at the corners of a triangle. -/
theorem affine_zero {p : MvPolynomial ℕ ℝ} (hp : p ∈ P 2 1) {v : Fin 3 → Fin 2 → ℝ} (hv : area2 (v 0) (v 1) (v 2) ≠ 0)
    (h : ∀ k, eval (coords [v k 0, v k 1]) p = 0) : p = 0 := by
  obtain ⟨a, b, c, rfl⟩ := P_one hp
  have h0 := h 0
  have h1 := h 1
  have h2 := h 2
  simp only [map_add, map_mul, eval_C, eval_X, coords, List.getD_cons_zero, List.getD_cons_succ] at h0 h1 h2
  unfold area2 at hv
  have hc : c = 0 := by
    refine (mul_eq_zero.1 ?_).resolve_left hv
    linear_combination (v 1 0 - v 0 0) * (h2 - h0) - (v 2 0 - v 0 0) * (h1 - h0)
  have hb : b = 0 := by
    refine (mul_eq_zero.1 ?_).resolve_left hv
    linear_combination (v 2 1 - v 0 1) * (h1 - h0) - (v 1 1 - v 0 1) * (h2 - h0)
  have ha : a = 0 := by
    rw [hb, hc] at h0
    linarith
  rw [ha, hb, hc]
  simp

/-- Affine pieces on a line: a point of a cell on an edge of the triangle is a combination of the corners of the cell on the edge. -/
theorem side_zero {p : MvPolynomial ℕ ℝ} (hp : p ∈ P 2 1) {v : Fin m → Fin 2 → ℝ} {a b c : ℝ} (hs : ∀ k, 0 ≤ a + b * v k 0 + c * v k 1)
    (h0 : ∀ k, a + b * v k 0 + c * v k 1 = 0 → eval (coords [v k 0, v k 1]) p = 0) {z : ℕ → ℝ} (hz : Inside v z) (hl : a + b * z 0 + c * z 1 = 0) :
    eval z p = 0 := by
  obtain ⟨l, l1, l2, l3⟩ := hz
  rw [affine_hull hp l2 l3]
  have e0 := l3 0
  have e1 := l3 1
  simp only [Fin.val_zero, Fin.val_one] at e0 e1
  have hsum : ∑ k, l k * (a + b * v k 0 + c * v k 1) = 0 := by
    rw [← hl, e0, e1]
    simp only [mul_add, Finset.sum_add_distrib]
    rw [← Finset.sum_mul, l2, Finset.mul_sum, Finset.mul_sum]
    congr 1
    · congr 1
      · ring
      · exact Finset.sum_congr rfl fun _ _ => by ring
    · exact Finset.sum_congr rfl fun _ _ => by ring
  rw [Finset.sum_eq_zero_iff_of_nonneg fun k _ => mul_nonneg (l1 k) (hs k)] at hsum
  refine Finset.sum_eq_zero fun k hk => ?_
  rcases mul_eq_zero.1 (hsum k hk) with h | h
  · rw [h, zero_mul]
  · rw [h0 k h, mul_zero]

end Verif.Macro
