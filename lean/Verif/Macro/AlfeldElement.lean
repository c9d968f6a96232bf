import Verif.Macro.Alfeld
import Verif.FiniteElement.PropsTabulate
/-!
# Creation of Alfeld–Sorokina elements
-/

namespace Verif.Macro
open Verif.References Verif.Elements Verif.FiniteElement Verif.Polysets Verif.Moments Verif.Geometry Verif.Functions
open Verif.Families Verif.Scalar Verif.Smooth
open MvPolynomial

theorem dotDof_unit (d : PointDof) (c : Fin 2) (v : Field 2) : (dotDof d (unitDir c)).eval v = eval d.point (v c) := by
  fin_cases c <;> simp [dotDof, unitDir, LinearMap.sum_apply, Fin.sum_univ_two, aeval_eq_eval]

theorem divDof_apply (d : PointDof) (v : Field 2) : (divDof d).eval v = divAt v d.point := by
  simp [divDof, divL, divAt, Fin.sum_univ_two, aeval_eq_eval]

theorem asVertex_eq {n : ℕ} (hn : n < 3) : ∃ l, asVertex n = some l ∧ l.length = 3 ∧ (∀ d ∈ l, d.entity = (0, n)) ∧
    ∀ f, (∀ d ∈ l, d.eval f = 0) ↔ NoDiv (f (vpiece n)) (refVertex .triangle n) := by
  have h := fun d => onPiece_of (W := Field 2) (n := 3) (vertex_piece hn) (vpiece n).2 d
  refine ⟨_, by rw [asVertex]; simp only [List.mapM_cons, List.mapM_nil, h]; rfl, rfl, ?_, fun f => ?_⟩
  · intro d hd
    simp only [List.mem_cons, List.not_mem_nil, or_false] at hd
    rcases hd with rfl | rfl | rfl <;> rfl
  · simp only [List.mem_cons, List.not_mem_nil, or_false, forall_eq_or_imp, forall_eq, LinearMap.comp_apply, LinearMap.proj_apply, dotDof_unit,
      divDof_apply, NoDiv, Fin.forall_fin_two, and_assoc]

theorem asEdge_eq {i : ℕ} (hi : i < 3) : ∃ l, asEdge i = some l ∧ l.length = 2 ∧ (∀ d ∈ l, d.entity = (1, i)) ∧
    ∀ f, (∀ d ∈ l, d.eval f = 0) ↔ ∀ c, eval ((entityDomain .triangle (1, i)).param (pt [1 / 2])) (f (epiece i) c) = 0 := by
  have h := fun d => onPiece_of (W := Field 2) (n := 3) (edge_piece hi) (epiece i).2 d
  refine ⟨_, by rw [asEdge]; simp only [List.mapM_cons, List.mapM_nil, edgeMid, h]; rfl, rfl, ?_, fun f => ?_⟩
  · intro d hd
    simp only [List.mem_cons, List.not_mem_nil, or_false] at hd
    rcases hd with rfl | rfl <;> rfl
  · rw [← edge_mid hi]
    simp only [List.mem_cons, List.not_mem_nil, or_false, forall_eq_or_imp, forall_eq, LinearMap.comp_apply, LinearMap.proj_apply, dotDof_unit,
      Fin.forall_fin_two]

/-- The functionals. -/
theorem as_dofs : ∃ dofs, alfeldSorokina 2 = ciarlet asBasis dofs ∧ dofs.length = 15 ∧
    (∀ n < 3, ∀ f, (∀ d ∈ dofs, d.entity = (0, n) → d.eval f = 0) → NoDiv (f (vpiece n)) (refVertex .triangle n)) ∧
    (∀ i < 3, ∀ f, (∀ d ∈ dofs, d.entity = (1, i) → d.eval f = 0) →
      ∀ c, eval ((entityDomain .triangle (1, i)).param (pt [1 / 2])) (f (epiece i) c) = 0) := by
  obtain ⟨l0, a0, b0, c0, d0⟩ := asVertex_eq (n := 0) (by norm_num)
  obtain ⟨l1, a1, b1, c1, d1⟩ := asVertex_eq (n := 1) (by norm_num)
  obtain ⟨l2, a2, b2, c2, d2⟩ := asVertex_eq (n := 2) (by norm_num)
  obtain ⟨e0, p0, s0, q0, r0⟩ := asEdge_eq (i := 0) (by norm_num)
  obtain ⟨e1, p1, s1, q1, r1⟩ := asEdge_eq (i := 1) (by norm_num)
  obtain ⟨e2, p2, s2, q2, r2⟩ := asEdge_eq (i := 2) (by norm_num)
  refine ⟨[l0, l1, l2].flatten ++ [e0, e1, e2].flatten, ?_, by simp [b0, b1, b2, s0, s1, s2], fun n hn f h => ?_, fun i hi f h => ?_⟩
  · rw [alfeldSorokina, if_pos rfl]
    have r : List.range 3 = [0, 1, 2] := rfl
    simp only [r, List.mapM_cons, List.mapM_nil, a0, a1, a2, p0, p1, p2]
    rfl
  · interval_cases n
    · exact (d0 f).1 fun d hd => h d (by simp [hd]) (c0 d hd)
    · exact (d1 f).1 fun d hd => h d (by simp [hd]) (c1 d hd)
    · exact (d2 f).1 fun d hd => h d (by simp [hd]) (c2 d hd)
  · interval_cases i
    · exact (r0 f).1 fun d hd => h d (by simp [hd]) (q0 d hd)
    · exact (r1 f).1 fun d hd => h d (by simp [hd]) (q1 d hd)
    · exact (r2 f).1 fun d hd => h d (by simp [hd]) (q2 d hd)

/-! ### Edges -/

theorem nodiv_pieces {f : Fin 3 → Field 2} (hf : DivSplit f) {z : ℕ → ℝ} {i j : Fin 3} (hi : InCell i z) (hj : InCell j z) (h : NoDiv (f i) z) :
    NoDiv (f j) z := by
  obtain ⟨h0, h1⟩ := hf.2 i j z hi hj
  exact ⟨fun c => h0 c ▸ h.1 c, h1 ▸ h.2⟩

theorem nodiv_edge {v : Field 2} (hp : ∀ c, v c ∈ P 2 2) {i : ℕ} (hi : i < 3) (h : ∀ n ∈ entVerts .triangle 1 i, NoDiv v (refVertex .triangle n))
    (hm : ∀ c, eval ((entityDomain .triangle (1, i)).param (pt [1 / 2])) (v c) = 0) (t : ℕ → ℝ) :
    NoDiv v ((entityDomain .triangle (1, i)).param t) := by
  obtain ⟨a, a1, a2, a3, -⟩ := quadratic (hp 0)
  obtain ⟨b, b1, b2, b3, -⟩ := quadratic (hp 1)
  have hpt : pt [1 / 2] 0 = 1 / 2 := by norm_num [pt]
  have hE : entVerts .triangle 1 0 = [1, 2] ∧ entVerts .triangle 1 1 = [0, 2] ∧ entVerts .triangle 1 2 = [0, 1] := ⟨rfl, rfl, rfl⟩
  unfold NoDiv divAt at h ⊢
  simp only [Fin.forall_fin_two, a1, a2, a3, b1, b2, b3] at h hm ⊢
  rcases edge_coords hi t with ⟨rfl, e0, e1⟩ | ⟨rfl, e0, e1⟩ | ⟨rfl, e0, e1⟩ <;> rw [e0, e1] <;>
    rcases edge_coords hi (pt [1 / 2]) with ⟨h', m0, m1⟩ | ⟨h', m0, m1⟩ | ⟨h', m0, m1⟩ <;> first | cases h' | skip
  all_goals
    rw [m0, m1, hpt] at hm
    simp only [hE, List.mem_cons, List.not_mem_nil, or_false, forall_eq_or_imp, forall_eq, refVertex, refVerts, coords, List.getD_cons_zero,
      List.getD_cons_succ, qua, quax, quay] at h hm ⊢
    obtain ⟨⟨⟨x0, y0⟩, d0⟩, ⟨x1, y1⟩, d1⟩ := h
    obtain ⟨mx, my⟩ := hm
    generalize t 0 = t
    refine ⟨⟨?_, ?_⟩, ?_⟩
    · linear_combination (1 - t) * (1 - 2 * t) * x0 + 4 * t * (1 - t) * mx + t * (2 * t - 1) * x1
    · linear_combination (1 - t) * (1 - 2 * t) * y0 + 4 * t * (1 - t) * my + t * (2 * t - 1) * y1
    · linear_combination (1 - t) * d0 + t * d1

theorem nodiv_edges {f : Fin 3 → Field 2} (hf : DivSplit f) {i : ℕ} (hi : i < 3)
    (hv : ∀ n ∈ entVerts .triangle 1 i, NoDiv (f (vpiece n)) (refVertex .triangle n))
    (hm : ∀ c, eval ((entityDomain .triangle (1, i)).param (pt [1 / 2])) (f (epiece i) c) = 0) (t : ℕ → ℝ) {j : Fin 3}
    (hj : InCell j ((entityDomain .triangle (1, i)).param t)) : NoDiv (f j) ((entityDomain .triangle (1, i)).param t) := by
  have hE : entVerts .triangle 1 0 = [1, 2] ∧ entVerts .triangle 1 1 = [0, 2] ∧ entVerts .triangle 1 2 = [0, 1] := ⟨rfl, rfl, rfl⟩
  have hv' : ∀ n ∈ entVerts .triangle 1 i, NoDiv (f (epiece i)) (refVertex .triangle n) := by
    intro n hn
    have hn3 : n < 3 := by interval_cases i <;> simp [hE] at hn <;> omega
    refine nodiv_pieces hf (vertex_in hn3 _ ?_) (vertex_in hn3 _ ?_) (hv n hn)
    · interval_cases n <;> decide
    · interval_cases i <;> simp [hE] at hn <;> rcases hn with rfl | rfl <;> decide
  exact nodiv_pieces hf (edge_in hi t hj) hj (nodiv_edge (fun c => hf.1 _ c) hi hv' hm t)

theorem as_zero' {f : Fin 3 → Field 2} (hf : DivSplit f) (hv : ∀ n < 3, NoDiv (f (vpiece n)) (refVertex .triangle n))
    (hm : ∀ i < 3, ∀ c, eval ((entityDomain .triangle (1, i)).param (pt [1 / 2])) (f (epiece i) c) = 0) : f = 0 := by
  have hpt : pt [1 / 2] 0 = 1 / 2 := by norm_num [pt]
  have ev : ∀ (j : Fin 3) (c : Fin 2) {z w : ℕ → ℝ}, z 0 = w 0 → z 1 = w 1 → eval z (f j c) = 0 → eval w (f j c) = 0 := by
    intro j c z w h0 h1 h
    obtain ⟨a, a1, -⟩ := quadratic (hf.1 j c)
    rw [a1, h0, h1] at h
    rw [a1, h]
  have c0 := edge_coords (i := 0) (by norm_num) (pt [1 / 2])
  have c1 := edge_coords (i := 1) (by norm_num) (pt [1 / 2])
  have c2 := edge_coords (i := 2) (by norm_num) (pt [1 / 2])
  simp only [hpt, true_and, false_and, or_false, false_or, OfNat.ofNat_ne_zero, OfNat.ofNat_ne_one, OfNat.zero_ne_ofNat, one_ne_zero, zero_ne_one, OfNat.one_ne_ofNat] at c0 c1 c2
  refine as_zero hf (hv 0 (by norm_num)) (hv 1 (by norm_num)) (hv 2 (by norm_num)) (fun c => ?_) (fun c => ?_) fun c => ?_
  · exact ev 1 c (by rw [c0.1]; norm_num [coords]) (by rw [c0.2]; norm_num [coords]) (hm 0 (by norm_num) c)
  · exact ev 2 c (by rw [c1.1]; norm_num [coords]) (by rw [c1.2]; norm_num [coords]) (hm 1 (by norm_num) c)
  · exact ev 0 c (by rw [c2.1]; norm_num [coords]) (by rw [c2.2]; norm_num [coords]) (hm 2 (by norm_num) c)

/-- **C142** Alfeld–Sorokina elements. -/
theorem as_created : Created (alfeldSorokina 2) DivSplit 15 DivMacro := by
  have hE : entVerts .triangle 1 0 = [1, 2] ∧ entVerts .triangle 1 1 = [0, 2] ∧ entVerts .triangle 1 2 = [0, 1] := ⟨rfl, rfl, rfl⟩
  obtain ⟨dofs, h1, h2, h3, h4⟩ := as_dofs
  have key := created_of_unisolvent (S := divSub) (basis := asBasis) (dofs := dofs) (by rw [h2]; rfl) as_independent as_mem
    (fun f hf hz => as_zero' hf (fun n hn => h3 n hn f fun d hd _ => hz d hd) fun i hi => h4 i hi f fun d hd _ => hz d hd)
  obtain ⟨basis, ds, fs, k1, k2, k3, k4, k5, k6, rfl⟩ := key
  refine ⟨basis, _, fs, h1.trans k1, k2, k3, k4, k5, k6, fun i hi f hf hz t j hj => ?_⟩
  refine nodiv_edges hf hi (fun n hn => ?_) (h4 i hi f fun d hd he => hz d hd ?_) t hj
  · have hn3 : n < 3 := by interval_cases i <;> simp [hE] at hn <;> omega
    refine h3 n hn3 f fun d hd he => hz d hd ?_
    rw [he]
    have : entVerts .triangle 0 n = [n] := by interval_cases n <;> rfl
    rw [this]
    intro m hm
    rw [List.mem_singleton.1 hm]
    exact hn
  · rw [he]
    exact fun _ h => h

/-! ### Tabulation -/

/-- `tabulate_basis` on one row of values that are tuples, for an element that declares this `range_dim` (symfem/finite_element.py:252-276): when
`range_dim` is 1 the row is returned as it is. (`tabulateRow` is about values that have as many components as `range_dim` says.) -/
def tabulateTuples (rangeDim : ℕ) (order : String) (row : List (List ℝ)) : Option (Row ℝ) :=
  if rangeDim = 1 then some (.nested row) else tabulateRow rangeDim order row

/-- `range_dim` in the call of the constructor (symfem/elements/alfeld_sorokina.py:126). -/
def asRangeDim : ℕ := 1

/-- The components of a function at a point of the default triangle: `b.subs(x, p).as_sympy()`. -/
noncomputable def asValue (f : Fin 3 → Field 2) (z : ℕ → ℝ) : Option (List ℝ) :=
  (pieceAt 2 splitCells ((List.range 2).map z)).bind fun i => if h : i < 3 then some [eval z (f ⟨i, h⟩ 0), eval z (f ⟨i, h⟩ 1)] else none

/-- One row of `tabulate_basis`. -/
noncomputable def asTabulate (order : String) (fs : List (Fin 3 → Field 2)) (z : ℕ → ℝ) : Option (Row ℝ) :=
  (fs.mapM (asValue · z)).bind (tabulateTuples asRangeDim order)

theorem asValue_eq (z : ℕ → ℝ) (h : ∃ i, InCell i z) : ∃ i : Fin 3, InCell i z ∧ ∀ f, asValue f z = some [eval z (f i 0), eval z (f i 1)] := by
  obtain ⟨h0, h1, h2, -⟩ := pieceAt_split z
  by_cases c0 : InCell 0 z
  · exact ⟨0, c0, fun f => by rw [asValue, h0 c0]; rfl⟩
  by_cases c1 : InCell 1 z
  · exact ⟨1, c1, fun f => by rw [asValue, h1 c0 c1]; rfl⟩
  have c2 : InCell 2 z := by
    obtain ⟨i, hi⟩ := h
    fin_cases i
    · exact absurd hi c0
    · exact absurd hi c1
    · exact hi
  exact ⟨2, c2, fun f => by rw [asValue, h2 c0 c1 c2]; rfl⟩

/-- **C143** `tabulate_basis` of Alfeld–Sorokina elements: whatever the order asked for, also the default one that is to be flat and names of
orders that do not exist, the result is one tuple for each function. -/
theorem as_tabulate (order : String) (fs : List (Fin 3 → Field 2)) (z : ℕ → ℝ) (h : ∃ i, InCell i z) :
    ∃ i, InCell i z ∧ asTabulate order fs z = some (.nested (fs.map fun f => [eval z (f i 0), eval z (f i 1)])) := by
  obtain ⟨i, hi, hv⟩ := asValue_eq z h
  refine ⟨i, hi, ?_⟩
  have : fs.mapM (asValue · z) = some (fs.map fun f => [eval z (f i 0), eval z (f i 1)]) := by
    simp only [hv]
    induction fs with
    | nil => rfl
    | cons f fs ih => simp [ih]
  rw [asTabulate, this]
  rfl

/-- **C143** The default order is not respected: the result is not flat. -/
theorem as_tabulate_not_flat (fs : List (Fin 3 → Field 2)) (z : ℕ → ℝ) (h : ∃ i, InCell i z) : ¬ ∃ l, asTabulate "xyzxyz" fs z = some (.flat l) := by
  obtain ⟨i, -, h1⟩ := as_tabulate "xyzxyz" fs z h
  rintro ⟨l, hl⟩
  rw [h1] at hl
  cases hl

/-- **C143** An order that does not exist is accepted. -/
theorem as_tabulate_unknown (fs : List (Fin 3 → Field 2)) (z : ℕ → ℝ) (h : ∃ i, InCell i z) : asTabulate "unknown" fs z ≠ none := by
  obtain ⟨i, -, h1⟩ := as_tabulate "unknown" fs z h
  rw [h1]
  exact Option.some_ne_none _

/-- **C143** With the dimension of the values the result is flat. -/
theorem tabulateTuples_flat (row : List (List ℝ)) : tabulateTuples 2 "xyzxyz" row = some (.flat row.flatten) := by
  simp [tabulateTuples, tabulateRow]

theorem tabulateTuples_unknown {dim : ℕ} (h : dim ≠ 1) (row : List (List ℝ)) : tabulateTuples dim "unknown" row = none := by
  simp [tabulateTuples, tabulateRow, h]

example : ∃ i, InCell i (coords [1 / 2, 0]) := ⟨0, inCell_zero.2 (by norm_num [coords])⟩

theorem as_none {k : ℕ} (h : k ≠ 2) : alfeldSorokina k = none := if_neg h

end Verif.Macro
