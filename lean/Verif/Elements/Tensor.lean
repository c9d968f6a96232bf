import Verif.Elements.PropsQ
/-!
# Tensor factorisation of Q elements

Model of `Q.get_tensor_factorisation` (symfem/elements/q.py:92-137) and of
`FiniteElement._get_basis_functions_tensor` (symfem/finite_element.py:543-563); C52.
-/

namespace Verif.Elements
open Verif.References Verif.Quadrature Verif.Polysets Verif.FiniteElement
open MvPolynomial

/-- The permutation on a quadrilateral (symfem/elements/q.py:110-115). -/
def quadPerm (n : ℕ) : List ℕ :=
  [0, 2] ++ (List.range n).map (fun i => 4 + n + i) ++
  ([1, 3] ++ (List.range n).map (fun i => 4 + 2 * n + i)) ++
  (List.range n).flatMap fun i => [4 + i, 4 + 3 * n + i] ++ (List.range n).map fun j => 4 + i + (4 + j) * n

/-- The permutation on a hexahedron (symfem/elements/q.py:116-135). -/
def hexPerm (n : ℕ) : List ℕ :=
  [0, 4] ++ (List.range n).map (fun i => 8 + 2 * n + i) ++
  ([2, 6] ++ (List.range n).map (fun i => 8 + 6 * n + i)) ++
  ((List.range n).flatMap fun i => [8 + n + i, 8 + 9 * n + i] ++
    (List.range n).map fun j => 8 + 12 * n + 2 * n ^ 2 + i + n * j) ++
  ([1, 5] ++ (List.range n).map (fun i => 8 + 4 * n + i)) ++
  ([3, 7] ++ (List.range n).map (fun i => 8 + 7 * n + i)) ++
  ((List.range n).flatMap fun i => [8 + 3 * n + i, 8 + 10 * n + i] ++
    (List.range n).map fun j => 8 + 12 * n + 3 * n ^ 2 + i + n * j) ++
  (List.range n).flatMap fun i =>
    [8 + i, 8 + 8 * n + i] ++ ((List.range n).map fun j => 8 + 12 * n + n ^ 2 + i + n * j) ++
    ([8 + 5 * n + i, 8 + 11 * n + i] ++ (List.range n).map fun j => 8 + 12 * n + 4 * n ^ 2 + i + n * j) ++
    (List.range n).flatMap fun j => [8 + 12 * n + i + n * j, 8 + 12 * n + 5 * n ^ 2 + i + n * j] ++
      (List.range n).map fun k => 8 + 12 * n + 6 * n ^ 2 + i + n * j + n ^ 2 * k

/-- The permutation of `Q.get_tensor_factorisation`, for variants other than "lobatto"; the names of the cell other
than quadrilateral and hexahedron leave `perm` undefined. -/
def qPerm (c : Cell) (k : ℕ) : Option (List ℕ) :=
  if k = 0 then some [0]
  else match c with
    | .quadrilateral => some (quadPerm (k - 1))
    | .hexahedron => some (hexPerm (k - 1))
    | _ => none

/-- `product(*lists)`. -/
def products {A : Type} : List (List A) → List (List A)
  | [] => [[]]
  | l :: ls => l.flatMap fun a => (products ls).map fun t => a :: t

/-- A dictionary built by assigning in turn: the last assignment counts. -/
def dictGet {A : Type} (d : List (ℕ × A)) (i : ℕ) : Option A := (d.reverse.find? fun e => e.1 = i).map Prod.snd

/-- `_get_basis_functions_tensor` for one factorisation of type "scalar" with the same factor `fs` (functions of
`x[0]`) in each of the `d` directions; `len(basis)` is the number of keys. -/
noncomputable def tensorBasis (perm : List ℕ) (fs : List (MvPolynomial ℕ ℝ)) (d : ℕ) :
    Option (List (MvPolynomial ℕ ℝ)) :=
  let bases := (List.range d).map fun x => fs.map fun f => rename (fun i => if i = 0 then x else i) f
  let dict := perm.zip ((products bases).map fun t => t.foldl (· * ·) 1)
  (List.range (dict.map Prod.fst).dedup.length).mapM (dictGet dict)

/-- `get_basis_functions(use_tensor_factorisation=True)` of a Q element: the factor is
`create_element("interval", "Lagrange", self.order)`. -/
noncomputable def qTensorBasis (c : Cell) (k : ℕ) : Option (List (MvPolynomial ℕ ℝ)) :=
  (qPerm c k).bind fun perm =>
    (lagrangeElement "equispaced" .interval (refVertex .interval) k).bind fun e =>
      (getBasis e).bind fun fs => tensorBasis perm fs c.tdim

/-- The node of an interval DOF: the ends come first. -/
def intervalNode (k a : ℕ) : ℕ := if a = 0 then 0 else if a = 1 then k else a - 1

theorem range_two (n : ℕ) : List.range (n + 2) = 0 :: 1 :: (List.range n).map (· + 2) := by
  rw [List.range_succ_eq_map, List.range_succ_eq_map]
  simp [Function.comp_def]

/-- The grid point of a list of interval DOFs. -/
def gridOf (k : ℕ) (t : List ℕ) : ℕ → ℕ := fun j => intervalNode k (t.getD j 0)

theorem code (n a : ℕ) (h : a < n + 2) : (if intervalNode (n + 1) a = 0 then 0
    else if intervalNode (n + 1) a = n + 1 then 1 else 2) = min a 2 := by
  rcases a with _ | _ | a
  · simp [intervalNode]
  · simp [intervalNode]
  · have e : intervalNode (n + 1) (a + 1 + 1) = a + 1 := by simp [intervalNode]
    rw [e, if_neg (by omega), if_neg (by omega)]
    omega

/-- The number of the evaluation at a grid point given by interval DOFs. -/
theorem qIndex_grid (c : Cell) (n : ℕ) (t : List ℕ) (ht : ∀ j, t.getD j 0 < n + 2) (pat : List ℕ)
    (hpat : (List.range 3).map (fun j => min (t.getD j 0) 2) = pat) :
    qIndex c (n + 1) (gridOf (n + 1) t) = if free pat = [] then faceNumber c pat
      else offset c n (free pat).length + (faceNumber c pat * n ^ (free pat).length +
        digits n ((free pat).reverse.map fun j => t.getD j 0 - 2)) := by
  have hp : patternOf (n + 1) (gridOf (n + 1) t) = pat := by
    rw [← hpat]
    unfold patternOf
    refine List.map_congr_left fun j _ => ?_
    exact code n _ (ht j)
  unfold qIndex
  simp only [hp, Nat.add_sub_cancel]
  congr 4
  refine List.map_congr_left fun j hj => ?_
  have hj := mem_free.1 (List.mem_reverse.1 hj)
  rw [← hpat, List.getD_eq_getElem?_getD, List.getElem?_map, List.getElem?_range hj.1] at hj
  have := ht j
  have h2 : min (t.getD j 0) 2 = 2 := hj.2
  simp only [gridOf, intervalNode]
  split_ifs <;> omega

set_option linter.unusedSimpArgs false

/-- The entries of `quadPerm`. -/
def quadEntry (n : ℕ) : ℕ → ℕ → ℕ
  | 0, 0 => 0 | 0, 1 => 2 | 0, i + 2 => 4 + n + i
  | 1, 0 => 1 | 1, 1 => 3 | 1, i + 2 => 4 + 2 * n + i
  | i + 2, 0 => 4 + i | i + 2, 1 => 4 + 3 * n + i | i + 2, j + 2 => 4 + i + (4 + j) * n

theorem quadPerm_eq (n : ℕ) : quadPerm n =
    (List.range (n + 2)).flatMap fun a => (List.range (n + 2)).map fun b => quadEntry n a b := by
  rw [range_two]
  simp [quadPerm, quadEntry, List.flatMap_map, Function.comp_def]

/-- The entries of `hexPerm`. -/
def hexEntry (n : ℕ) : ℕ → ℕ → ℕ → ℕ
  | 0, 0, 0 => 0 | 0, 0, 1 => 4 | 0, 0, i + 2 => 8 + 2 * n + i
  | 0, 1, 0 => 2 | 0, 1, 1 => 6 | 0, 1, i + 2 => 8 + 6 * n + i
  | 0, i + 2, 0 => 8 + n + i | 0, i + 2, 1 => 8 + 9 * n + i | 0, i + 2, j + 2 => 8 + 12 * n + 2 * n ^ 2 + i + n * j
  | 1, 0, 0 => 1 | 1, 0, 1 => 5 | 1, 0, i + 2 => 8 + 4 * n + i
  | 1, 1, 0 => 3 | 1, 1, 1 => 7 | 1, 1, i + 2 => 8 + 7 * n + i
  | 1, i + 2, 0 => 8 + 3 * n + i | 1, i + 2, 1 => 8 + 10 * n + i
  | 1, i + 2, j + 2 => 8 + 12 * n + 3 * n ^ 2 + i + n * j
  | i + 2, 0, 0 => 8 + i | i + 2, 0, 1 => 8 + 8 * n + i | i + 2, 0, j + 2 => 8 + 12 * n + n ^ 2 + i + n * j
  | i + 2, 1, 0 => 8 + 5 * n + i | i + 2, 1, 1 => 8 + 11 * n + i | i + 2, 1, j + 2 => 8 + 12 * n + 4 * n ^ 2 + i + n * j
  | i + 2, j + 2, 0 => 8 + 12 * n + i + n * j | i + 2, j + 2, 1 => 8 + 12 * n + 5 * n ^ 2 + i + n * j
  | i + 2, j + 2, k + 2 => 8 + 12 * n + 6 * n ^ 2 + i + n * j + n ^ 2 * k

theorem hexPerm_eq (n : ℕ) : hexPerm n =
    (List.range (n + 2)).flatMap fun a => (List.range (n + 2)).flatMap fun b => (List.range (n + 2)).map fun d =>
      hexEntry n a b d := by
  rw [range_two]
  simp [hexPerm, hexEntry, List.flatMap_map, Function.comp_def]

theorem quadEntry_eq (n a b : ℕ) (ha : a < n + 2) (hb : b < n + 2) :
    quadEntry n a b = qIndex .quadrilateral (n + 1) (gridOf (n + 1) [a, b]) := by
  have ht : ∀ j, [a, b].getD j 0 < n + 2 := by
    intro j
    match j with
    | 0 => exact ha
    | 1 => exact hb
    | j + 2 => simp
  rcases a with _ | _ | a <;> rcases b with _ | _ | b
  · rw [qIndex_grid _ _ _ ht [0, 0, 0] (by simp [List.range_succ]), show faceNumber Cell.quadrilateral [0, 0, 0] = 0 by decide +kernel,
      show free [0, 0, 0] = [] from rfl]
    rfl
  · rw [qIndex_grid _ _ _ ht [0, 1, 0] (by simp [List.range_succ]), show faceNumber Cell.quadrilateral [0, 1, 0] = 2 by decide +kernel,
      show free [0, 1, 0] = [] from rfl]
    rfl
  · rw [qIndex_grid _ _ _ ht [0, 2, 0] (by simp [List.range_succ]), show faceNumber Cell.quadrilateral [0, 2, 0] = 1 by decide +kernel,
      show free [0, 2, 0] = [1] from rfl]
    simp [offset, digits, show Finset.Ico 1 2 = {1} from rfl, show Finset.Ico 1 3 = {1, 2} from rfl,
      show count Cell.quadrilateral 1 = 4 from rfl, show count Cell.quadrilateral 2 = 1 from rfl, show Cell.quadrilateral.nverts = 4 from rfl, quadEntry]
    try ring
  · rw [qIndex_grid _ _ _ ht [1, 0, 0] (by simp [List.range_succ]), show faceNumber Cell.quadrilateral [1, 0, 0] = 1 by decide +kernel,
      show free [1, 0, 0] = [] from rfl]
    rfl
  · rw [qIndex_grid _ _ _ ht [1, 1, 0] (by simp [List.range_succ]), show faceNumber Cell.quadrilateral [1, 1, 0] = 3 by decide +kernel,
      show free [1, 1, 0] = [] from rfl]
    rfl
  · rw [qIndex_grid _ _ _ ht [1, 2, 0] (by simp [List.range_succ]), show faceNumber Cell.quadrilateral [1, 2, 0] = 2 by decide +kernel,
      show free [1, 2, 0] = [1] from rfl]
    simp [offset, digits, show Finset.Ico 1 2 = {1} from rfl, show Finset.Ico 1 3 = {1, 2} from rfl,
      show count Cell.quadrilateral 1 = 4 from rfl, show count Cell.quadrilateral 2 = 1 from rfl, show Cell.quadrilateral.nverts = 4 from rfl, quadEntry]
    try ring
  · rw [qIndex_grid _ _ _ ht [2, 0, 0] (by simp [List.range_succ]), show faceNumber Cell.quadrilateral [2, 0, 0] = 0 by decide +kernel,
      show free [2, 0, 0] = [0] from rfl]
    simp [offset, digits, show Finset.Ico 1 2 = {1} from rfl, show Finset.Ico 1 3 = {1, 2} from rfl,
      show count Cell.quadrilateral 1 = 4 from rfl, show count Cell.quadrilateral 2 = 1 from rfl, show Cell.quadrilateral.nverts = 4 from rfl, quadEntry]
    try ring
  · rw [qIndex_grid _ _ _ ht [2, 1, 0] (by simp [List.range_succ]), show faceNumber Cell.quadrilateral [2, 1, 0] = 3 by decide +kernel,
      show free [2, 1, 0] = [0] from rfl]
    simp [offset, digits, show Finset.Ico 1 2 = {1} from rfl, show Finset.Ico 1 3 = {1, 2} from rfl,
      show count Cell.quadrilateral 1 = 4 from rfl, show count Cell.quadrilateral 2 = 1 from rfl, show Cell.quadrilateral.nverts = 4 from rfl, quadEntry]
    try ring
  · rw [qIndex_grid _ _ _ ht [2, 2, 0] (by simp [List.range_succ]), show faceNumber Cell.quadrilateral [2, 2, 0] = 0 by decide +kernel,
      show free [2, 2, 0] = [0, 1] from rfl]
    simp [offset, digits, show Finset.Ico 1 2 = {1} from rfl, show Finset.Ico 1 3 = {1, 2} from rfl,
      show count Cell.quadrilateral 1 = 4 from rfl, show count Cell.quadrilateral 2 = 1 from rfl, show Cell.quadrilateral.nverts = 4 from rfl, quadEntry]
    try ring

theorem hexEntry_eq (n a b d : ℕ) (ha : a < n + 2) (hb : b < n + 2) (hd : d < n + 2) :
    hexEntry n a b d = qIndex .hexahedron (n + 1) (gridOf (n + 1) [a, b, d]) := by
  have ht : ∀ j, [a, b, d].getD j 0 < n + 2 := by
    intro j
    match j with
    | 0 => exact ha
    | 1 => exact hb
    | 2 => exact hd
    | j + 3 => simp
  rcases a with _ | _ | a <;> rcases b with _ | _ | b <;> rcases d with _ | _ | d
  · rw [qIndex_grid _ _ _ ht [0, 0, 0] (by simp [List.range_succ]), show faceNumber Cell.hexahedron [0, 0, 0] = 0 by decide +kernel,
      show free [0, 0, 0] = [] from rfl]
    rfl
  · rw [qIndex_grid _ _ _ ht [0, 0, 1] (by simp [List.range_succ]), show faceNumber Cell.hexahedron [0, 0, 1] = 4 by decide +kernel,
      show free [0, 0, 1] = [] from rfl]
    rfl
  · rw [qIndex_grid _ _ _ ht [0, 0, 2] (by simp [List.range_succ]), show faceNumber Cell.hexahedron [0, 0, 2] = 2 by decide +kernel,
      show free [0, 0, 2] = [2] from rfl]
    simp [offset, digits, show Finset.Ico 1 2 = {1} from rfl, show Finset.Ico 1 3 = {1, 2} from rfl,
      show count Cell.hexahedron 1 = 12 from rfl, show count Cell.hexahedron 2 = 6 from rfl, show Cell.hexahedron.nverts = 8 from rfl, hexEntry]
    try ring
  · rw [qIndex_grid _ _ _ ht [0, 1, 0] (by simp [List.range_succ]), show faceNumber Cell.hexahedron [0, 1, 0] = 2 by decide +kernel,
      show free [0, 1, 0] = [] from rfl]
    rfl
  · rw [qIndex_grid _ _ _ ht [0, 1, 1] (by simp [List.range_succ]), show faceNumber Cell.hexahedron [0, 1, 1] = 6 by decide +kernel,
      show free [0, 1, 1] = [] from rfl]
    rfl
  · rw [qIndex_grid _ _ _ ht [0, 1, 2] (by simp [List.range_succ]), show faceNumber Cell.hexahedron [0, 1, 2] = 6 by decide +kernel,
      show free [0, 1, 2] = [2] from rfl]
    simp [offset, digits, show Finset.Ico 1 2 = {1} from rfl, show Finset.Ico 1 3 = {1, 2} from rfl,
      show count Cell.hexahedron 1 = 12 from rfl, show count Cell.hexahedron 2 = 6 from rfl, show Cell.hexahedron.nverts = 8 from rfl, hexEntry]
    try ring
  · rw [qIndex_grid _ _ _ ht [0, 2, 0] (by simp [List.range_succ]), show faceNumber Cell.hexahedron [0, 2, 0] = 1 by decide +kernel,
      show free [0, 2, 0] = [1] from rfl]
    simp [offset, digits, show Finset.Ico 1 2 = {1} from rfl, show Finset.Ico 1 3 = {1, 2} from rfl,
      show count Cell.hexahedron 1 = 12 from rfl, show count Cell.hexahedron 2 = 6 from rfl, show Cell.hexahedron.nverts = 8 from rfl, hexEntry]
    try ring
  · rw [qIndex_grid _ _ _ ht [0, 2, 1] (by simp [List.range_succ]), show faceNumber Cell.hexahedron [0, 2, 1] = 9 by decide +kernel,
      show free [0, 2, 1] = [1] from rfl]
    simp [offset, digits, show Finset.Ico 1 2 = {1} from rfl, show Finset.Ico 1 3 = {1, 2} from rfl,
      show count Cell.hexahedron 1 = 12 from rfl, show count Cell.hexahedron 2 = 6 from rfl, show Cell.hexahedron.nverts = 8 from rfl, hexEntry]
    try ring
  · rw [qIndex_grid _ _ _ ht [0, 2, 2] (by simp [List.range_succ]), show faceNumber Cell.hexahedron [0, 2, 2] = 2 by decide +kernel,
      show free [0, 2, 2] = [1, 2] from rfl]
    simp [offset, digits, show Finset.Ico 1 2 = {1} from rfl, show Finset.Ico 1 3 = {1, 2} from rfl,
      show count Cell.hexahedron 1 = 12 from rfl, show count Cell.hexahedron 2 = 6 from rfl, show Cell.hexahedron.nverts = 8 from rfl, hexEntry]
    try ring
  · rw [qIndex_grid _ _ _ ht [1, 0, 0] (by simp [List.range_succ]), show faceNumber Cell.hexahedron [1, 0, 0] = 1 by decide +kernel,
      show free [1, 0, 0] = [] from rfl]
    rfl
  · rw [qIndex_grid _ _ _ ht [1, 0, 1] (by simp [List.range_succ]), show faceNumber Cell.hexahedron [1, 0, 1] = 5 by decide +kernel,
      show free [1, 0, 1] = [] from rfl]
    rfl
  · rw [qIndex_grid _ _ _ ht [1, 0, 2] (by simp [List.range_succ]), show faceNumber Cell.hexahedron [1, 0, 2] = 4 by decide +kernel,
      show free [1, 0, 2] = [2] from rfl]
    simp [offset, digits, show Finset.Ico 1 2 = {1} from rfl, show Finset.Ico 1 3 = {1, 2} from rfl,
      show count Cell.hexahedron 1 = 12 from rfl, show count Cell.hexahedron 2 = 6 from rfl, show Cell.hexahedron.nverts = 8 from rfl, hexEntry]
    try ring
  · rw [qIndex_grid _ _ _ ht [1, 1, 0] (by simp [List.range_succ]), show faceNumber Cell.hexahedron [1, 1, 0] = 3 by decide +kernel,
      show free [1, 1, 0] = [] from rfl]
    rfl
  · rw [qIndex_grid _ _ _ ht [1, 1, 1] (by simp [List.range_succ]), show faceNumber Cell.hexahedron [1, 1, 1] = 7 by decide +kernel,
      show free [1, 1, 1] = [] from rfl]
    rfl
  · rw [qIndex_grid _ _ _ ht [1, 1, 2] (by simp [List.range_succ]), show faceNumber Cell.hexahedron [1, 1, 2] = 7 by decide +kernel,
      show free [1, 1, 2] = [2] from rfl]
    simp [offset, digits, show Finset.Ico 1 2 = {1} from rfl, show Finset.Ico 1 3 = {1, 2} from rfl,
      show count Cell.hexahedron 1 = 12 from rfl, show count Cell.hexahedron 2 = 6 from rfl, show Cell.hexahedron.nverts = 8 from rfl, hexEntry]
    try ring
  · rw [qIndex_grid _ _ _ ht [1, 2, 0] (by simp [List.range_succ]), show faceNumber Cell.hexahedron [1, 2, 0] = 3 by decide +kernel,
      show free [1, 2, 0] = [1] from rfl]
    simp [offset, digits, show Finset.Ico 1 2 = {1} from rfl, show Finset.Ico 1 3 = {1, 2} from rfl,
      show count Cell.hexahedron 1 = 12 from rfl, show count Cell.hexahedron 2 = 6 from rfl, show Cell.hexahedron.nverts = 8 from rfl, hexEntry]
    try ring
  · rw [qIndex_grid _ _ _ ht [1, 2, 1] (by simp [List.range_succ]), show faceNumber Cell.hexahedron [1, 2, 1] = 10 by decide +kernel,
      show free [1, 2, 1] = [1] from rfl]
    simp [offset, digits, show Finset.Ico 1 2 = {1} from rfl, show Finset.Ico 1 3 = {1, 2} from rfl,
      show count Cell.hexahedron 1 = 12 from rfl, show count Cell.hexahedron 2 = 6 from rfl, show Cell.hexahedron.nverts = 8 from rfl, hexEntry]
    try ring
  · rw [qIndex_grid _ _ _ ht [1, 2, 2] (by simp [List.range_succ]), show faceNumber Cell.hexahedron [1, 2, 2] = 3 by decide +kernel,
      show free [1, 2, 2] = [1, 2] from rfl]
    simp [offset, digits, show Finset.Ico 1 2 = {1} from rfl, show Finset.Ico 1 3 = {1, 2} from rfl,
      show count Cell.hexahedron 1 = 12 from rfl, show count Cell.hexahedron 2 = 6 from rfl, show Cell.hexahedron.nverts = 8 from rfl, hexEntry]
    try ring
  · rw [qIndex_grid _ _ _ ht [2, 0, 0] (by simp [List.range_succ]), show faceNumber Cell.hexahedron [2, 0, 0] = 0 by decide +kernel,
      show free [2, 0, 0] = [0] from rfl]
    simp [offset, digits, show Finset.Ico 1 2 = {1} from rfl, show Finset.Ico 1 3 = {1, 2} from rfl,
      show count Cell.hexahedron 1 = 12 from rfl, show count Cell.hexahedron 2 = 6 from rfl, show Cell.hexahedron.nverts = 8 from rfl, hexEntry]
    try ring
  · rw [qIndex_grid _ _ _ ht [2, 0, 1] (by simp [List.range_succ]), show faceNumber Cell.hexahedron [2, 0, 1] = 8 by decide +kernel,
      show free [2, 0, 1] = [0] from rfl]
    simp [offset, digits, show Finset.Ico 1 2 = {1} from rfl, show Finset.Ico 1 3 = {1, 2} from rfl,
      show count Cell.hexahedron 1 = 12 from rfl, show count Cell.hexahedron 2 = 6 from rfl, show Cell.hexahedron.nverts = 8 from rfl, hexEntry]
    try ring
  · rw [qIndex_grid _ _ _ ht [2, 0, 2] (by simp [List.range_succ]), show faceNumber Cell.hexahedron [2, 0, 2] = 1 by decide +kernel,
      show free [2, 0, 2] = [0, 2] from rfl]
    simp [offset, digits, show Finset.Ico 1 2 = {1} from rfl, show Finset.Ico 1 3 = {1, 2} from rfl,
      show count Cell.hexahedron 1 = 12 from rfl, show count Cell.hexahedron 2 = 6 from rfl, show Cell.hexahedron.nverts = 8 from rfl, hexEntry]
    try ring
  · rw [qIndex_grid _ _ _ ht [2, 1, 0] (by simp [List.range_succ]), show faceNumber Cell.hexahedron [2, 1, 0] = 5 by decide +kernel,
      show free [2, 1, 0] = [0] from rfl]
    simp [offset, digits, show Finset.Ico 1 2 = {1} from rfl, show Finset.Ico 1 3 = {1, 2} from rfl,
      show count Cell.hexahedron 1 = 12 from rfl, show count Cell.hexahedron 2 = 6 from rfl, show Cell.hexahedron.nverts = 8 from rfl, hexEntry]
    try ring
  · rw [qIndex_grid _ _ _ ht [2, 1, 1] (by simp [List.range_succ]), show faceNumber Cell.hexahedron [2, 1, 1] = 11 by decide +kernel,
      show free [2, 1, 1] = [0] from rfl]
    simp [offset, digits, show Finset.Ico 1 2 = {1} from rfl, show Finset.Ico 1 3 = {1, 2} from rfl,
      show count Cell.hexahedron 1 = 12 from rfl, show count Cell.hexahedron 2 = 6 from rfl, show Cell.hexahedron.nverts = 8 from rfl, hexEntry]
    try ring
  · rw [qIndex_grid _ _ _ ht [2, 1, 2] (by simp [List.range_succ]), show faceNumber Cell.hexahedron [2, 1, 2] = 4 by decide +kernel,
      show free [2, 1, 2] = [0, 2] from rfl]
    simp [offset, digits, show Finset.Ico 1 2 = {1} from rfl, show Finset.Ico 1 3 = {1, 2} from rfl,
      show count Cell.hexahedron 1 = 12 from rfl, show count Cell.hexahedron 2 = 6 from rfl, show Cell.hexahedron.nverts = 8 from rfl, hexEntry]
    try ring
  · rw [qIndex_grid _ _ _ ht [2, 2, 0] (by simp [List.range_succ]), show faceNumber Cell.hexahedron [2, 2, 0] = 0 by decide +kernel,
      show free [2, 2, 0] = [0, 1] from rfl]
    simp [offset, digits, show Finset.Ico 1 2 = {1} from rfl, show Finset.Ico 1 3 = {1, 2} from rfl,
      show count Cell.hexahedron 1 = 12 from rfl, show count Cell.hexahedron 2 = 6 from rfl, show Cell.hexahedron.nverts = 8 from rfl, hexEntry]
    try ring
  · rw [qIndex_grid _ _ _ ht [2, 2, 1] (by simp [List.range_succ]), show faceNumber Cell.hexahedron [2, 2, 1] = 5 by decide +kernel,
      show free [2, 2, 1] = [0, 1] from rfl]
    simp [offset, digits, show Finset.Ico 1 2 = {1} from rfl, show Finset.Ico 1 3 = {1, 2} from rfl,
      show count Cell.hexahedron 1 = 12 from rfl, show count Cell.hexahedron 2 = 6 from rfl, show Cell.hexahedron.nverts = 8 from rfl, hexEntry]
    try ring
  · rw [qIndex_grid _ _ _ ht [2, 2, 2] (by simp [List.range_succ]), show faceNumber Cell.hexahedron [2, 2, 2] = 0 by decide +kernel,
      show free [2, 2, 2] = [0, 1, 2] from rfl]
    simp [offset, digits, show Finset.Ico 1 2 = {1} from rfl, show Finset.Ico 1 3 = {1, 2} from rfl,
      show count Cell.hexahedron 1 = 12 from rfl, show count Cell.hexahedron 2 = 6 from rfl, show Cell.hexahedron.nverts = 8 from rfl, hexEntry]
    try ring

theorem intervalEntry_eq (n a : ℕ) (ha : a < n + 2) : a = qIndex .interval (n + 1) (gridOf (n + 1) [a]) := by
  have ht : ∀ j, [a].getD j 0 < n + 2 := by
    intro j
    match j with
    | 0 => exact ha
    | j + 1 => simp
  rcases a with _ | _ | a
  · rw [qIndex_grid _ _ _ ht [0, 0, 0] (by simp [List.range_succ]), show faceNumber Cell.interval [0, 0, 0] = 0 by decide +kernel]
    rfl
  · rw [qIndex_grid _ _ _ ht [1, 0, 0] (by simp [List.range_succ]), show faceNumber Cell.interval [1, 0, 0] = 1 by decide +kernel]
    rfl
  · rw [qIndex_grid _ _ _ ht [2, 0, 0] (by simp [List.range_succ]), show faceNumber Cell.interval [2, 0, 0] = 0 by decide +kernel,
      show free [2, 0, 0] = [0] from rfl]
    simp [offset, digits, show Cell.interval.nverts = 2 from rfl]
    omega

/-- The permutation lists the numbers of the evaluations at the points of the grid, in the order of the product. -/
theorem qPerm_eq {c : Cell} {n : ℕ} {perm : List ℕ} (h : qPerm c (n + 1) = some perm) :
    Tensor c ∧ perm = (product (List.range (n + 2)) c.tdim).map fun t => qIndex c (n + 1) (gridOf (n + 1) t) := by
  unfold qPerm at h
  rw [if_neg (by omega)] at h
  cases c with
  | quadrilateral =>
    refine ⟨Or.inr (Or.inl rfl), ?_⟩
    cases h
    rw [Nat.add_sub_cancel, quadPerm_eq]
    simp only [Cell.tdim, product, List.map_cons, List.map_nil, List.flatMap_singleton', List.map_flatMap, List.map_map,
      List.flatMap_map, List.flatMap_assoc, Function.comp_def]
    refine List.flatMap_congr fun a ha => ?_
    rw [← List.map_eq_flatMap]
    refine List.map_congr_left fun b hb => ?_
    exact quadEntry_eq n a b (List.mem_range.1 ha) (List.mem_range.1 hb)
  | hexahedron =>
    refine ⟨Or.inr (Or.inr rfl), ?_⟩
    cases h
    rw [Nat.add_sub_cancel, hexPerm_eq]
    simp only [Cell.tdim, product, List.map_cons, List.map_nil, List.flatMap_singleton', List.map_flatMap, List.map_map,
      List.flatMap_map, List.flatMap_assoc, Function.comp_def]
    refine List.flatMap_congr fun a ha => ?_
    refine List.flatMap_congr fun b hb => ?_
    rw [← List.map_eq_flatMap]
    refine List.map_congr_left fun d hd => ?_
    exact hexEntry_eq n a b d (List.mem_range.1 ha) (List.mem_range.1 hb) (List.mem_range.1 hd)
  | _ => cases h

/-! ### C52 -/

theorem gridOf_le {k d : ℕ} {t : List ℕ} (ht : t ∈ product (List.range (k + 1)) d) (j : ℕ) : gridOf k t j ≤ k := by
  have : t.getD j 0 < k + 1 := by
    by_cases hj : j < t.length
    · rw [List.getD_eq_getElem?_getD, List.getElem?_eq_getElem hj]
      exact List.mem_range.1 ((mem_product.1 ht).2 _ (List.getElem_mem hj))
    · rw [List.getD_eq_default (hn := by omega)]; omega
  unfold gridOf intervalNode
  split_ifs <;> omega

theorem gridOf_ge {k d : ℕ} {t : List ℕ} (ht : t ∈ product (List.range (k + 1)) d) (j : ℕ) (hj : d ≤ j) :
    gridOf k t j = 0 := by
  unfold gridOf
  rw [List.getD_eq_default (hn := by rw [(mem_product.1 ht).1]; exact hj)]
  rfl

theorem intervalNode_inj {k a b : ℕ} (hk : 0 < k) (ha : a ≤ k) (hb : b ≤ k) (h : intervalNode k a = intervalNode k b) :
    a = b := by
  unfold intervalNode at h
  split_ifs at h <;> omega

theorem gridOf_inj {k d : ℕ} (hk : 0 < k) {s t : List ℕ} (hs : s ∈ product (List.range (k + 1)) d)
    (ht : t ∈ product (List.range (k + 1)) d) (h : ∀ j < d, gridOf k s j = gridOf k t j) : s = t := by
  rw [mem_product] at hs ht
  refine List.ext_getElem (by omega) fun j h1 h2 => ?_
  have := h j (by omega)
  unfold gridOf at this
  rw [List.getD_eq_getElem?_getD, List.getD_eq_getElem?_getD, List.getElem?_eq_getElem h1,
    List.getElem?_eq_getElem h2] at this
  have e1 := List.mem_range.1 (hs.2 _ (List.getElem_mem h1))
  have e2 := List.mem_range.1 (ht.2 _ (List.getElem_mem h2))
  exact intervalNode_inj hk (by omega) (by omega) this

theorem nodup_product {l : List ℕ} (hl : l.Nodup) (d : ℕ) : (product l d).Nodup := by
  induction d with
  | zero => simp [product]
  | succ d ih =>
    rw [product, List.nodup_flatMap]
    refine ⟨fun a _ => ih.map fun s t h => by simpa using h, ?_⟩
    refine hl.imp fun {a b} hab => ?_
    intro x hx hy
    obtain ⟨s, -, rfl⟩ := List.mem_map.1 hx
    obtain ⟨t, -, h⟩ := List.mem_map.1 hy
    exact hab (List.cons.inj h).1.symm

/-- The evaluations on the interval. -/
theorem interval_points {variant : String} {k : ℕ} (hk : 0 < k) {l : List PointDof}
    (hl : lagrangeDofs variant .interval (refVertex .interval) k = some l) :
    ∃ points, rulePoints variant k = some points ∧ l.length = k + 1 ∧
      ∀ a ≤ k, ∃ d, l[a]? = some d ∧ d.point = fun j => if j = 0 then nodeOf points k (intervalNode k a) else 0 := by
  unfold lagrangeDofs at hl
  split at hl
  · cases hl
  rw [if_neg hk.ne'] at hl
  cases hr : rulePoints variant k with
  | none => rw [hr] at hl; cases hl
  | some points =>
    rw [hr, Option.bind_some, if_neg (by simp), joined_eq (Tensor.fixed (Or.inl rfl))] at hl
    have e : allPoints .interval (refVertex .interval) points k (fun _ i => decide (i.sum < k)) =
        allPoints .interval (refVertex .interval) points k fun _ _ => true := by
      unfold allPoints
      congr 1
      refine List.flatMap_congr fun edim he => List.flatMap_congr fun n hn => ?_
      unfold entityList
      congr 1
      refine List.filter_congr fun i hi => ?_
      rw [List.mem_range] at hn
      have h1 : edim = 1 := by
        rw [List.mem_range'_1] at he
        have : edim = 1 ∨ edim = 2 ∨ edim = 3 := by omega
        rcases this with rfl | rfl | rfl
        · rfl
        · exact absurd hn (Nat.not_lt_zero n)
        · exact absurd hn (Nat.not_lt_zero n)
      subst h1
      obtain ⟨h1, h2⟩ := mem_product.1 hi
      match i, h1 with
      | [a], _ =>
        have := mem_innerRange.1 (h2 a (by simp))
        simpa using this.2
    rw [e] at hl
    cases hl
    refine ⟨points, rfl, ?_, fun a ha => ?_⟩
    · rw [length_allPoints _ _ _ _ _ _ (length_entityList_q _ _ points k)]
      show 2 + (1 * (k - 1) ^ 1 + 0 * _ + 0 * _) = _
      rw [pow_one]; omega
    · obtain ⟨n, rfl⟩ : ∃ n, k = n + 1 := ⟨k - 1, by omega⟩
      have hmem : [a] ∈ product (List.range (n + 1 + 1)) 1 := mem_product.2 ⟨rfl, by simpa using (by omega)⟩
      have := q_index (c := .interval) (Or.inl rfl) (points := points) hk (gridOf (n + 1) [a])
        (gridOf_le hmem) (gridOf_ge hmem)
      rw [← intervalEntry_eq n a (by omega)] at this
      refine ⟨_, this, ?_⟩
      funext j
      rcases j with _ | j
      · rfl
      · show nodeOf points (n + 1) (intervalNode (n + 1) 0) = _
        simp [intervalNode, nodeOf]

/-- **C52** The permutation of the tensor factorisation is a permutation of the DOF numbers, and sends the number of a
product of interval DOFs to the number of the DOF at the product of their points. -/
theorem qPerm_spec {variant : String} {c : Cell} {k : ℕ} (hk : 0 < k) {perm : List ℕ} (hp : qPerm c k = some perm)
    {l l₁ : List PointDof} (hl : qDofs variant c (refVertex c) k = some l)
    (hl₁ : lagrangeDofs variant .interval (refVertex .interval) k = some l₁) :
    perm.Perm (List.range l.length) ∧
    ∀ (i : ℕ) (t : List ℕ), (product (List.range l₁.length) c.tdim)[i]? = some t → ∃ (N : ℕ) (d : PointDof), perm[i]? = some N ∧ l[N]? = some d ∧
      (∀ j < c.tdim, ∃ d₁ : PointDof, (t[j]?.bind fun a => l₁[a]?) = some d₁ ∧ d.point j = d₁.point 0) ∧
      ∀ j, c.tdim ≤ j → d.point j = 0 := by
  obtain ⟨n, rfl⟩ : ∃ n, k = n + 1 := ⟨k - 1, by omega⟩
  obtain ⟨hc, rfl⟩ := qPerm_eq hp
  have hcount := q_count hc _ _ hl
  obtain ⟨points, hr, rfl⟩ := qDofs_eq hc.fixed _ hk hl
  obtain ⟨w, hw⟩ := rulePoints_wf hk hr
  obtain ⟨points', hr', hlen₁, h₁⟩ := interval_points hk hl₁
  obtain rfl : points = points' := Option.some.inj (hr.symm.trans hr')
  have hidx : ∀ t ∈ product (List.range (n + 2)) c.tdim, _ := fun t ht =>
    q_index hc (points := points) hk (gridOf (n + 1) t) (gridOf_le ht) (gridOf_ge ht)
  refine ⟨?_, fun i t ht => ?_⟩
  · have hnd : ((product (List.range (n + 2)) c.tdim).map fun t => qIndex c (n + 1) (gridOf (n + 1) t)).Nodup := by
      refine (nodup_product List.nodup_range _).map_on fun s hs t ht h => ?_
      have e1 := hidx s hs
      rw [h, hidx t ht] at e1
      have e2 := congrArg PointDof.point (Option.some.inj e1)
      refine gridOf_inj hk hs ht fun j _ => ?_
      exact node_injOn hw (Set.mem_Iic.2 (gridOf_le hs j)) (Set.mem_Iic.2 (gridOf_le ht j)) (congrFun e2 j).symm
    refine (List.perm_ext_iff_of_nodup hnd List.nodup_range).2 ?_
    have hsub : ((product (List.range (n + 2)) c.tdim).map fun t => qIndex c (n + 1) (gridOf (n + 1) t)) ⊆
        List.range (allPoints c (refVertex c) points (n + 1) fun _ _ => true).length := by
      intro N hN
      obtain ⟨t, ht, rfl⟩ := List.mem_map.1 hN
      exact List.mem_range.2 (List.getElem?_eq_some_iff.1 (hidx t ht)).1
    have hperm := List.Subperm.perm_of_length_le (hnd.subperm hsub) (by
      rw [List.length_range, hcount, List.length_map, length_product, List.length_range])
    exact fun N => hperm.mem_iff
  · rw [hlen₁] at ht
    have hmem := List.mem_of_getElem? ht
    refine ⟨_, _, by rw [List.getElem?_map, ht]; rfl, hidx t hmem, fun j hj => ?_, fun j hj => ?_⟩
    · have hj' : j < t.length := by rw [(mem_product.1 hmem).1]; exact hj
      have := List.mem_range.1 ((mem_product.1 hmem).2 _ (List.getElem_mem hj'))
      obtain ⟨d, hd, hdp⟩ := h₁ t[j] (by omega)
      refine ⟨d, by rw [List.getElem?_eq_getElem hj', Option.bind_some, hd], ?_⟩
      rw [hdp]
      simp only [gridOf, List.getD_eq_getElem?_getD, List.getElem?_eq_getElem hj', Option.getD_some, if_pos]
    · show nodeOf points (n + 1) (gridOf (n + 1) t j) = 0
      rw [gridOf_ge hmem j hj]
      rfl

end Verif.Elements
