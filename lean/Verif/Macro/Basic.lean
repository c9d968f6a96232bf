import Verif.Families.Mtw
import Verif.Functions.Piecewise
import Verif.Smooth.Argyris
/-!
# Functions in pieces

Elements whose functions are piecewise functions (symfem/piecewise_functions.py): a function is given by one polynomial for
every cell of a subdivision. All functions of an element have the same cells, so that sums and multiples of them are those of the
polynomials (`Verif.Functions.Piecewise`).
-/

namespace Verif.Macro
open Verif.References Verif.Elements Verif.FiniteElement Verif.Polysets Verif.Moments Verif.Geometry Verif.Functions
open Verif.Families Verif.Scalar
open MvPolynomial

/-! ### Model -/

/-- The number of the piece that `get_piece` returns at a point (symfem/piecewise_functions.py:129-155). -/
noncomputable def pieceAt (tdim : ℕ) (cells : List (List (Point ℝ))) (point : Point ℝ) : Option ℕ :=
  match (Piecewise.mk tdim cells.zipIdx).getPiece point with
  | .ok i => some i
  | .error _ => none

/-- A functional at a point, applied to functions in pieces: values are those of the piece that `get_piece` returns at the point, also
for derivatives, which are taken piece by piece before (symfem/functionals.py:276, 411-414, 513, 804, 889-896,
symfem/piecewise_functions.py:319-355). -/
noncomputable def onPiece {W : Type} [AddCommGroup W] [Module ℝ W] (n tdim : ℕ) (cells : List (List (Point ℝ))) (point : ℕ → ℝ) (d : Dof ℝ W) :
    Option (Dof ℝ (Fin n → W)) :=
  (pieceAt tdim cells ((List.range tdim).map point)).bind fun i =>
    if h : i < n then some ⟨d.kind, d.entity, d.mapping, d.eval ∘ₗ LinearMap.proj ⟨i, h⟩⟩ else none

/-- The vertex of the default triangle, as a tuple. -/
noncomputable def triVertex (n : ℕ) : Point ℝ := (List.range 2).map (refVertex .triangle n)

/-- `mid` (symfem/elements/hct.py:53, rhct.py:43, alfeld_sorokina.py:48). -/
noncomputable def triMid : Point ℝ := (List.range 2).map fun j => (∑ n ∈ Finset.range 3, refVertex .triangle n j) / 3

/-- `subs` (symfem/elements/hct.py:55-59, rhct.py:45-49, alfeld_sorokina.py:50-54). -/
noncomputable def splitCells : List (List (Point ℝ)) :=
  [[triVertex 0, triVertex 1, triMid], [triVertex 1, triVertex 2, triMid], [triVertex 2, triVertex 0, triMid]]

/-! ### Specification -/

/-- The corners of the three triangles between an edge and the centre of the default triangle. -/
noncomputable def corner : Fin 3 → Fin 3 → Fin 2 → ℝ
  | 0 => ![![0, 0], ![1, 0], ![1 / 3, 1 / 3]]
  | 1 => ![![1, 0], ![0, 1], ![1 / 3, 1 / 3]]
  | 2 => ![![0, 1], ![0, 0], ![1 / 3, 1 / 3]]

/-- A point is in the cell. -/
def InCell (i : Fin 3) (z : ℕ → ℝ) : Prop := InHull (fun j : Fin 2 => z j.val) (corner i)

theorem inCell_zero {z : ℕ → ℝ} : InCell 0 z ↔ 0 ≤ z 1 ∧ z 1 ≤ z 0 ∧ z 0 + 2 * z 1 ≤ 1 := by
  constructor
  · rintro ⟨l, h0, h1, h2⟩
    have a := h2 0
    have b := h2 1
    simp [corner, Fin.sum_univ_three] at a b h1
    have := h0 0
    have := h0 1
    have := h0 2
    exact ⟨by linarith, by linarith, by linarith⟩
  · rintro ⟨h0, h1, h2⟩
    refine ⟨![1 - z 0 - 2 * z 1, z 0 - z 1, 3 * z 1], fun i => ?_, ?_, fun j => ?_⟩
    · fin_cases i <;> simp <;> linarith
    · simp [Fin.sum_univ_three]; ring
    · fin_cases j <;> simp [Fin.sum_univ_three, corner] <;> ring

theorem inCell_one {z : ℕ → ℝ} : InCell 1 z ↔ z 0 + z 1 ≤ 1 ∧ 1 ≤ z 0 + 2 * z 1 ∧ 1 ≤ 2 * z 0 + z 1 := by
  constructor
  · rintro ⟨l, h0, h1, h2⟩
    have a := h2 0
    have b := h2 1
    simp [corner, Fin.sum_univ_three] at a b h1
    have := h0 0
    have := h0 1
    have := h0 2
    exact ⟨by linarith, by linarith, by linarith⟩
  · rintro ⟨h0, h1, h2⟩
    refine ⟨![2 * z 0 + z 1 - 1, z 0 + 2 * z 1 - 1, 3 * (1 - z 0 - z 1)], fun i => ?_, ?_, fun j => ?_⟩
    · fin_cases i <;> simp <;> linarith
    · simp [Fin.sum_univ_three]; ring
    · fin_cases j <;> simp [Fin.sum_univ_three, corner] <;> ring

theorem inCell_two {z : ℕ → ℝ} : InCell 2 z ↔ 0 ≤ z 0 ∧ z 0 ≤ z 1 ∧ 2 * z 0 + z 1 ≤ 1 := by
  constructor
  · rintro ⟨l, h0, h1, h2⟩
    have a := h2 0
    have b := h2 1
    simp [corner, Fin.sum_univ_three] at a b h1
    have := h0 0
    have := h0 1
    have := h0 2
    exact ⟨by linarith, by linarith, by linarith⟩
  · rintro ⟨h0, h1, h2⟩
    refine ⟨![z 1 - z 0, 1 - 2 * z 0 - z 1, 3 * z 0], fun i => ?_, ?_, fun j => ?_⟩
    · fin_cases i <;> simp <;> linarith
    · simp [Fin.sum_univ_three]; ring
    · fin_cases j <;> simp [Fin.sum_univ_three, corner] <;> ring

/-! ### The pieces at points -/

theorem splitCells_eq : splitCells = [cellOf (corner 0), cellOf (corner 1), cellOf (corner 2)] := by
  have h : ∀ n, triVertex n = [refVertex .triangle n 0, refVertex .triangle n 1] := fun _ => rfl
  have hm : triMid = [1 / 3, 1 / 3] := by
    norm_num [triMid, List.range_succ, Finset.sum_range_succ, refVertex, refVerts, coords]
  simp [splitCells, h, hm, cellOf, tup, corner, List.ofFn_succ, refVertex, refVerts, coords]

theorem corner_proper (i : Fin 3) : Proper 2 (corner i) := by
  fin_cases i
  · exact Proper.triangle _ _ _ (by norm_num [area2])
  · exact Proper.triangle _ _ _ (by norm_num [area2])
  · exact Proper.triangle _ _ _ (by norm_num [area2])

/-- The piece at a point is that of the first cell that the point is in. -/
theorem pieceAt_split (z : ℕ → ℝ) : (InCell 0 z → pieceAt 2 splitCells ((List.range 2).map z) = some 0) ∧
    (¬ InCell 0 z → InCell 1 z → pieceAt 2 splitCells ((List.range 2).map z) = some 1) ∧
    (¬ InCell 0 z → ¬ InCell 1 z → InCell 2 z → pieceAt 2 splitCells ((List.range 2).map z) = some 2) ∧
    (¬ InCell 0 z → ¬ InCell 1 z → ¬ InCell 2 z → pieceAt 2 splitCells ((List.range 2).map z) = none) := by
  have hz : (List.range 2).map z = tup fun j : Fin 2 => z j.val := rfl
  obtain ⟨b0, h0, e0⟩ := inPiece_iff (corner_proper 0) fun j : Fin 2 => z j.val
  obtain ⟨b1, h1, e1⟩ := inPiece_iff (corner_proper 1) fun j : Fin 2 => z j.val
  obtain ⟨b2, h2, e2⟩ := inPiece_iff (corner_proper 2) fun j : Fin 2 => z j.val
  have hp : pieceAt 2 splitCells ((List.range 2).map z) = if b0 then some 0 else if b1 then some 1 else if b2 then some 2 else none := by
    rw [hz, pieceAt, splitCells_eq, Piecewise.getPiece, if_pos (by simp)]
    simp only [List.zipIdx_cons, List.zipIdx_nil, getPieceLoop, h0, h1, h2]
    cases b0 <;> cases b1 <;> cases b2 <;> rfl
  rw [hp]
  change (InHull _ _ → _) ∧ (¬ InHull _ _ → InHull _ _ → _) ∧ (¬ InHull _ _ → ¬ InHull _ _ → InHull _ _ → _) ∧
    (¬ InHull _ _ → ¬ InHull _ _ → ¬ InHull _ _ → _)
  rw [← e0, ← e1, ← e2]
  cases b0 <;> cases b1 <;> cases b2 <;> simp

/-- The functional on a known piece. -/
theorem onPiece_of {W : Type} [AddCommGroup W] [Module ℝ W] {n tdim : ℕ} {cells : List (List (Point ℝ))} {point : ℕ → ℝ} {i : ℕ}
    (h : pieceAt tdim cells ((List.range tdim).map point) = some i) (hi : i < n) (d : Dof ℝ W) :
    onPiece n tdim cells point d = some ⟨d.kind, d.entity, d.mapping, d.eval ∘ₗ LinearMap.proj ⟨i, hi⟩⟩ := by
  rw [onPiece, h, Option.bind_some, dif_pos hi]

/-! ### Cubic polynomials -/

theorem pderiv_num (i n : ℕ) [n.AtLeastTwo] : pderiv i (ofNat(n) : MvPolynomial ℕ ℝ) = 0 := (pderiv i).map_natCast n

theorem P_two_three {p : MvPolynomial ℕ ℝ} (hp : p ∈ P 2 3) : ∃ a : ℕ → ℝ,
    p = C (a 0) + C (a 1) * X 0 + C (a 2) * X 0 ^ 2 + C (a 3) * X 0 ^ 3 + C (a 4) * X 1 + C (a 5) * (X 0 * X 1) + C (a 6) * (X 0 ^ 2 * X 1) +
      C (a 7) * X 1 ^ 2 + C (a 8) * (X 0 * X 1 ^ 2) + C (a 9) * X 1 ^ 3 := by
  obtain ⟨l, l1, l2⟩ := polySet_lspan (d := 2) (by simp) ((3 : ℕ) : ℤ)
  have hl : l = [[0, 0], [1, 0], [2, 0], [3, 0], [0, 1], [1, 1], [2, 1], [0, 2], [1, 2], [0, 3]] := by
    have : polySet 2 ((3 : ℕ) : ℤ) = some [[0, 0], [1, 0], [2, 0], [3, 0], [0, 1], [1, 1], [2, 1], [0, 2], [1, 2], [0, 3]] := by decide
    exact Option.some.inj (l1.symm.trans this)
  have hp' : p ∈ lspan (l.map (denoteMono ℝ)) := by
    rw [l2]
    exact hp
  rw [list_eq_range (l.map (denoteMono ℝ)), mem_lspan_range] at hp'
  obtain ⟨a, rfl⟩ := hp'
  refine ⟨a, ?_⟩
  rw [hl]
  simp [Finset.sum_range_succ, denoteMono, monoFrom, smul_eq_C_mul]

/-- The value of a cubic polynomial. -/
def cub (a : ℕ → ℝ) (x y : ℝ) : ℝ :=
  a 0 + a 1 * x + a 2 * x ^ 2 + a 3 * x ^ 3 + a 4 * y + a 5 * (x * y) + a 6 * (x ^ 2 * y) + a 7 * y ^ 2 + a 8 * (x * y ^ 2) + a 9 * y ^ 3

/-- Its derivatives. -/
def cubx (a : ℕ → ℝ) (x y : ℝ) : ℝ := a 1 + 2 * a 2 * x + 3 * a 3 * x ^ 2 + a 5 * y + 2 * a 6 * (x * y) + a 8 * y ^ 2

/-- Its derivatives. -/
def cuby (a : ℕ → ℝ) (x y : ℝ) : ℝ := a 4 + a 5 * x + a 6 * x ^ 2 + 2 * a 7 * y + 2 * a 8 * (x * y) + 3 * a 9 * y ^ 2

theorem cubic {p : MvPolynomial ℕ ℝ} (hp : p ∈ P 2 3) : ∃ a : ℕ → ℝ, (∀ z, eval z p = cub a (z 0) (z 1)) ∧
    (∀ z, eval z (pderiv 0 p) = cubx a (z 0) (z 1)) ∧ (∀ z, eval z (pderiv 1 p) = cuby a (z 0) (z 1)) ∧ ((∀ i < 10, a i = 0) → p = 0) := by
  obtain ⟨a, rfl⟩ := P_two_three hp
  refine ⟨a, fun z => ?_, fun z => ?_, fun z => ?_, fun h => ?_⟩
  · simp [cub]
  · simp [cubx, Derivation.leibniz_pow]
    ring
  · simp [cuby, Derivation.leibniz_pow]
    ring
  · simp [h]

end Verif.Macro
