import Verif.Smooth.Mwx
/-!
# Wu-Xu elements

symfem/elements/wu_xu.py on the default simplices.
-/

namespace Verif.Smooth
open Verif.References Verif.Moments Verif.Functionals Verif.Elements Verif.FiniteElement Verif.Polysets Verif.Orthogonal
open Verif.Families Verif.Scalar
open MvPolynomial

/-! ### Model -/

/-- `derivatives(dim, order)` (symfem/elements/wu_xu.py:23-39). -/
def derivatives : ℕ → ℕ → List (List ℕ)
  | 0, _ => []
  | 1, order => [[order]]
  | dim + 2, order => (List.range (order + 1)).flatMap fun i => (derivatives (dim + 1) (order - i)).map fun j => i :: j

/-- `bubble` (symfem/elements/wu_xu.py:60-65); `invmap` is the identity on the default simplices. -/
noncomputable def wuXuBubble : Cell → MvPolynomial ℕ ℝ
  | .interval => X 0 * (1 - X 0)
  | .triangle => X 0 * X 1 * (1 - X 0 - X 1)
  | _ => X 0 * X 1 * X 2 * (1 - X 0 - X 1 - X 2)

/-- The functionals of vertex `n` (symfem/elements/wu_xu.py:70-80). -/
noncomputable def wuXuVertex (c : Cell) (n : ℕ) : List (Dof ℝ (MvPolynomial ℕ ℝ)) :=
  PointDof.functional ⟨refVertex c n, (0, n)⟩ ::
    (List.range c.tdim).map fun i => derivDof (refVertex c n) (unitIndex c.tdim i) (0, n) none

/-- The edges and orders of the derivatives on tetrahedra (symfem/elements/wu_xu.py:83, 104). -/
def wuXuEdges : List (ℕ × List ℕ) := (List.range 6).flatMap fun i => (derivatives 2 2).map fun o => (i, o)

/-- The functionals of codimension 1 and 2 (symfem/elements/wu_xu.py:81-110); `derivatives(1, 1)` is `[(1,)]`. -/
noncomputable def wuXuParts (c : Cell) : Option (List (Dof ℝ (MvPolynomial ℕ ℝ))) :=
  if c.tdim = 1 then some []
  else if c.tdim = 2 then (List.range 3).mapM (facetDof c 1)
  else ((List.range 4).mapM (facetDof c 1)).bind fun a => (wuXuEdges.mapM fun p => edgeDof p.2 p.1).map fun b => a ++ b

/-- `WuXu(reference, order)` (symfem/elements/wu_xu.py:45-112) on the default simplices. -/
noncomputable def wuXu (c : Cell) (k : ℕ) : Option (Element ℝ (MvPolynomial ℕ ℝ)) :=
  if k = c.tdim + 1 then
    (polySet c.tdim k).bind fun p => (polySet c.tdim 1).bind fun q => (wuXuParts c).bind fun dofs =>
      ciarlet (p.map (denoteMono ℝ) ++ q.tail.map fun s => wuXuBubble c * denoteMono ℝ s) ((List.range (c.tdim + 1)).flatMap (wuXuVertex c) ++ dofs)
  else none

/-! ### Specification -/

/-- The product of the coordinates and of 1 minus their sum. -/
noncomputable def simplexBubble (d : ℕ) : MvPolynomial ℕ ℝ := (∏ i ∈ Finset.range d, X i) * (1 - ∑ i ∈ Finset.range d, X i)

/-- The polynomials of degree at most one more than the dimension, and the products of the bubble with linear functions without constant. -/
noncomputable def wuXuSpace (d : ℕ) : Submodule ℝ (MvPolynomial ℕ ℝ) :=
  P d (d + 1) ⊔ Submodule.span ℝ {f | ∃ i < d, f = simplexBubble d * X i}

/-! ### Computations -/

/-- A row of a matrix from its nonzero entries. -/
def sparse (n : ℕ) (l : List (ℕ × ℤ × ℕ)) : List ℚ :=
  (List.range n).map fun j => match l.find? fun t => t.1 == j with
    | some t => (t.2.1 : ℚ) / t.2.2
    | none => 0

def wuXuInv1 : List (List ℚ) := [
    [1, 0, 0, 0],
    [0, 1, 0, 0],
    [-1, -1, 1, 0],
    [-2, -1, 2, -1]]

def wuXuInv2 : List (List ℚ) := [
    [1, 0, 0, 0, 0, 0, 0, 0, 0, 0, 0, 0],
    [0, 1, 0, 0, 0, 0, 0, 0, 0, 0, 0, 0],
    [-3, -2, 0, 3, -1, 0, 0, 0, 0, 0, 0, 0],
    [2, 1, 0, -2, 1, 0, 0, 0, 0, 0, 0, 0],
    [0, 0, 1, 0, 0, 0, 0, 0, 0, 0, 0, 0],
    [6, -2, -2, -3, 0, -4, -3, -4, 0, 3, 6, 6],
    [-6, 2, 1, 3, 0, 5, 3, 4, 0, -3, -6, -6],
    [-3, 0, -2, 0, 0, 0, 3, 0, -1, 0, 0, 0],
    [-6, 1, 2, 3, 0, 4, 3, 5, 0, -3, -6, -6],
    [2, 0, 1, 0, 0, 0, -2, 0, 1, 0, 0, 0],
    [-12, 4, -4, 6, 0, 4, 6, 8, 0, -6, -12, 0],
    [-12, -4, 4, 6, 0, 8, 6, 4, 0, -6, 0, -12]]

def wuXuInv3_0 : List (ℕ × ℤ × ℕ) := [(0, 1, 1)]

def wuXuInv3_1 : List (ℕ × ℤ × ℕ) := [(1, 1, 1)]

def wuXuInv3_2 : List (ℕ × ℤ × ℕ) := [(0, -24, 7), (1, -845, 308), (2, 65, 308), (3, 65, 308), (4, 8, 7), (5, -7, 33), (6, 283, 1848), (7, 283, 1848), (8, 8, 7), (9, -515, 1848), (10, -19, 132), (11, 661, 1848), (12, 8, 7), (13, -515, 1848), (14, 661, 1848), (15, -19, 132), (16, -20, 7), (17, 585, 77), (18, -45, 77), (19, -45, 77), (20, -149, 616), (21, 13, 88), (22, -31, 924), (23, 47, 616), (24, -1, 88), (25, 8, 231), (26, 47, 616), (27, -1, 88), (28, 8, 231), (29, 17, 154), (30, -23, 77), (31, 26, 77), (32, 17, 154), (33, -23, 77), (34, 26, 77), (35, -25, 154), (36, 59, 154), (37, -25, 154)]

def wuXuInv3_3 : List (ℕ × ℤ × ℕ) := [(0, 20, 7), (1, 383, 154), (2, -65, 154), (3, -65, 154), (4, 12, 7), (5, -19, 33), (6, -283, 924), (7, -283, 924), (8, -16, 7), (9, 515, 924), (10, 19, 66), (11, -661, 924), (12, -16, 7), (13, 515, 924), (14, -661, 924), (15, 19, 66), (16, 40, 7), (17, -1170, 77), (18, 90, 77), (19, 90, 77), (20, 149, 308), (21, -13, 44), (22, 31, 462), (23, -47, 308), (24, 1, 44), (25, -16, 231), (26, -47, 308), (27, 1, 44), (28, -16, 231), (29, -17, 77), (30, 46, 77), (31, -52, 77), (32, -17, 77), (33, 46, 77), (34, -52, 77), (35, 25, 77), (36, -59, 77), (37, 25, 77)]

def wuXuInv3_4 : List (ℕ × ℤ × ℕ) := [(0, -3, 7), (1, -229, 308), (2, 65, 308), (3, 65, 308), (4, -13, 7), (5, 26, 33), (6, 283, 1848), (7, 283, 1848), (8, 8, 7), (9, -515, 1848), (10, -19, 132), (11, 661, 1848), (12, 8, 7), (13, -515, 1848), (14, 661, 1848), (15, -19, 132), (16, -20, 7), (17, 585, 77), (18, -45, 77), (19, -45, 77), (20, -149, 616), (21, 13, 88), (22, -31, 924), (23, 47, 616), (24, -1, 88), (25, 8, 231), (26, 47, 616), (27, -1, 88), (28, 8, 231), (29, 17, 154), (30, -23, 77), (31, 26, 77), (32, 17, 154), (33, -23, 77), (34, 26, 77), (35, -25, 154), (36, 59, 154), (37, -25, 154)]

def wuXuInv3_5 : List (ℕ × ℤ × ℕ) := [(2, 1, 1)]

def wuXuInv3_6 : List (ℕ × ℤ × ℕ) := [(0, -36, 7), (1, -260, 77), (2, -260, 77), (3, 69, 77), (4, 12, 7), (5, -4, 11), (6, -30, 77), (7, 45, 154), (8, 12, 7), (9, -30, 77), (10, -4, 11), (11, 45, 154), (12, 12, 7), (13, -9, 77), (14, -9, 77), (15, -3, 11), (16, -30, 7), (17, 720, 77), (18, 720, 77), (19, -120, 77), (20, 43, 154), (21, -3, 44), (22, 9, 308), (23, 43, 154), (24, -3, 44), (25, 9, 308), (26, -10, 77), (27, -5, 44), (28, 37, 308), (29, 15, 154), (30, -10, 77), (31, 15, 154), (32, 15, 154), (33, -17, 77), (34, -41, 154), (35, 15, 154), (36, -17, 77), (37, -41, 154)]

def wuXuInv3_7 : List (ℕ × ℤ × ℕ) := [(0, 12, 1), (1, 173, 22), (2, 43, 22), (3, -29, 22), (4, -4, 1), (5, 137, 132), (6, 5, 6), (7, -79, 132), (8, -4, 1), (9, 56, 33), (10, 119, 132), (11, -133, 132), (12, -4, 1), (13, 89, 132), (14, -79, 132), (15, 37, 66), (16, 10, 1), (17, -270, 11), (18, -90, 11), (19, 30, 11), (20, 9, 44), (21, -5, 22), (22, 5, 132), (23, -19, 44), (24, 1, 11), (25, -13, 132), (26, -3, 11), (27, 7, 11), (28, -29, 66), (29, -7, 22), (30, 8, 11), (31, -17, 22), (32, -7, 22), (33, 9, 11), (34, 13, 22), (35, 5, 22), (36, -6, 11), (37, 13, 22)]

def wuXuInv3_8 : List (ℕ × ℤ × ℕ) := [(0, -48, 7), (1, -691, 154), (2, 65, 154), (3, 65, 154), (4, 16, 7), (5, -89, 132), (6, 257, 462), (7, 283, 924), (8, 16, 7), (9, -302, 231), (10, -71, 132), (11, 661, 924), (12, 16, 7), (13, -515, 924), (14, 661, 924), (15, -19, 66), (16, -40, 7), (17, 1170, 77), (18, -90, 77), (19, -90, 77), (20, -149, 308), (21, 13, 44), (22, -31, 462), (23, 47, 308), (24, -1, 44), (25, 16, 231), (26, 31, 77), (27, -23, 44), (28, 295, 924), (29, 17, 77), (30, -46, 77), (31, 52, 77), (32, 17, 77), (33, -46, 77), (34, -25, 77), (35, -25, 77), (36, 59, 77), (37, -25, 77)]

def wuXuInv3_9 : List (ℕ × ℤ × ℕ) := [(0, -24, 7), (1, 65, 308), (2, -845, 308), (3, 65, 308), (4, 8, 7), (5, -19, 132), (6, -515, 1848), (7, 661, 1848), (8, 8, 7), (9, 283, 1848), (10, -7, 33), (11, 283, 1848), (12, 8, 7), (13, 661, 1848), (14, -515, 1848), (15, -19, 132), (16, -20, 7), (17, -45, 77), (18, 585, 77), (19, -45, 77), (20, 47, 616), (21, -1, 88), (22, 8, 231), (23, -149, 616), (24, 13, 88), (25, -31, 924), (26, 47, 616), (27, -1, 88), (28, 8, 231), (29, 26, 77), (30, -23, 77), (31, 17, 154), (32, -25, 154), (33, 59, 154), (34, -25, 154), (35, 17, 154), (36, -23, 77), (37, 26, 77)]

def wuXuInv3_10 : List (ℕ × ℤ × ℕ) := [(0, 12, 1), (1, 43, 22), (2, 173, 22), (3, -29, 22), (4, -4, 1), (5, 119, 132), (6, 56, 33), (7, -133, 132), (8, -4, 1), (9, 5, 6), (10, 137, 132), (11, -79, 132), (12, -4, 1), (13, -79, 132), (14, 89, 132), (15, 37, 66), (16, 10, 1), (17, -90, 11), (18, -270, 11), (19, 30, 11), (20, -19, 44), (21, 1, 11), (22, -13, 132), (23, 9, 44), (24, -5, 22), (25, 5, 132), (26, -3, 11), (27, 7, 11), (28, -29, 66), (29, -17, 22), (30, 8, 11), (31, -7, 22), (32, 5, 22), (33, -6, 11), (34, 13, 22), (35, -7, 22), (36, 9, 11), (37, 13, 22)]

def wuXuInv3_11 : List (ℕ × ℤ × ℕ) := [(0, -54, 7), (1, -549, 154), (2, -549, 154), (3, 207, 154), (4, 18, 7), (5, -81, 88), (6, -1053, 616), (7, 135, 308), (8, 18, 7), (9, -1053, 616), (10, -81, 88), (11, 135, 308), (12, 18, 7), (13, -27, 154), (14, -27, 154), (15, -9, 22), (16, -45, 7), (17, 1080, 77), (18, 1080, 77), (19, -180, 77), (20, 129, 308), (21, -9, 88), (22, 27, 616), (23, 129, 308), (24, -9, 88), (25, 27, 616), (26, 111, 616), (27, -81, 88), (28, 171, 308), (29, 45, 308), (30, -15, 77), (31, 45, 308), (32, 45, 308), (33, -51, 154), (34, -123, 308), (35, 45, 308), (36, -51, 154), (37, -123, 308)]

def wuXuInv3_12 : List (ℕ × ℤ × ℕ) := [(0, 20, 7), (1, -65, 154), (2, 383, 154), (3, -65, 154), (4, -16, 7), (5, 19, 66), (6, 515, 924), (7, -661, 924), (8, 12, 7), (9, -283, 924), (10, -19, 33), (11, -283, 924), (12, -16, 7), (13, -661, 924), (14, 515, 924), (15, 19, 66), (16, 40, 7), (17, 90, 77), (18, -1170, 77), (19, 90, 77), (20, -47, 308), (21, 1, 44), (22, -16, 231), (23, 149, 308), (24, -13, 44), (25, 31, 462), (26, -47, 308), (27, 1, 44), (28, -16, 231), (29, -52, 77), (30, 46, 77), (31, -17, 77), (32, 25, 77), (33, -59, 77), (34, 25, 77), (35, -17, 77), (36, 46, 77), (37, -52, 77)]

def wuXuInv3_13 : List (ℕ × ℤ × ℕ) := [(0, -48, 7), (1, 65, 154), (2, -691, 154), (3, 65, 154), (4, 16, 7), (5, -71, 132), (6, -302, 231), (7, 661, 924), (8, 16, 7), (9, 257, 462), (10, -89, 132), (11, 283, 924), (12, 16, 7), (13, 661, 924), (14, -515, 924), (15, -19, 66), (16, -40, 7), (17, -90, 77), (18, 1170, 77), (19, -90, 77), (20, 47, 308), (21, -1, 44), (22, 16, 231), (23, -149, 308), (24, 13, 44), (25, -31, 462), (26, 31, 77), (27, -23, 44), (28, 295, 924), (29, 52, 77), (30, -46, 77), (31, 17, 77), (32, -25, 77), (33, 59, 77), (34, -25, 77), (35, 17, 77), (36, -46, 77), (37, -25, 77)]

def wuXuInv3_14 : List (ℕ × ℤ × ℕ) := [(0, -3, 7), (1, 65, 308), (2, -229, 308), (3, 65, 308), (4, 8, 7), (5, -19, 132), (6, -515, 1848), (7, 661, 1848), (8, -13, 7), (9, 283, 1848), (10, 26, 33), (11, 283, 1848), (12, 8, 7), (13, 661, 1848), (14, -515, 1848), (15, -19, 132), (16, -20, 7), (17, -45, 77), (18, 585, 77), (19, -45, 77), (20, 47, 616), (21, -1, 88), (22, 8, 231), (23, -149, 616), (24, 13, 88), (25, -31, 924), (26, 47, 616), (27, -1, 88), (28, 8, 231), (29, 26, 77), (30, -23, 77), (31, 17, 154), (32, -25, 154), (33, 59, 154), (34, -25, 154), (35, 17, 154), (36, -23, 77), (37, 26, 77)]

def wuXuInv3_15 : List (ℕ × ℤ × ℕ) := [(3, 1, 1)]

def wuXuInv3_16 : List (ℕ × ℤ × ℕ) := [(0, -36, 7), (1, -260, 77), (2, 69, 77), (3, -260, 77), (4, 12, 7), (5, -4, 11), (6, 45, 154), (7, -30, 77), (8, 12, 7), (9, -9, 77), (10, -3, 11), (11, -9, 77), (12, 12, 7), (13, -30, 77), (14, 45, 154), (15, -4, 11), (16, -30, 7), (17, 720, 77), (18, -120, 77), (19, 720, 77), (20, 43, 154), (21, -3, 44), (22, 9, 308), (23, -10, 77), (24, -5, 44), (25, 37, 308), (26, 43, 154), (27, -3, 44), (28, 9, 308), (29, 15, 154), (30, -17, 77), (31, -41, 154), (32, 15, 154), (33, -10, 77), (34, 15, 154), (35, -41, 154), (36, -17, 77), (37, 15, 154)]

def wuXuInv3_17 : List (ℕ × ℤ × ℕ) := [(0, 12, 1), (1, 173, 22), (2, -29, 22), (3, 43, 22), (4, -4, 1), (5, 137, 132), (6, -79, 132), (7, 5, 6), (8, -4, 1), (9, 89, 132), (10, 37, 66), (11, -79, 132), (12, -4, 1), (13, 56, 33), (14, -133, 132), (15, 119, 132), (16, 10, 1), (17, -270, 11), (18, 30, 11), (19, -90, 11), (20, 9, 44), (21, -5, 22), (22, 5, 132), (23, -3, 11), (24, 7, 11), (25, -29, 66), (26, -19, 44), (27, 1, 11), (28, -13, 132), (29, -7, 22), (30, 9, 11), (31, 13, 22), (32, -7, 22), (33, 8, 11), (34, -17, 22), (35, 13, 22), (36, -6, 11), (37, 5, 22)]

def wuXuInv3_18 : List (ℕ × ℤ × ℕ) := [(0, -48, 7), (1, -691, 154), (2, 65, 154), (3, 65, 154), (4, 16, 7), (5, -89, 132), (6, 283, 924), (7, 257, 462), (8, 16, 7), (9, -515, 924), (10, -19, 66), (11, 661, 924), (12, 16, 7), (13, -302, 231), (14, 661, 924), (15, -71, 132), (16, -40, 7), (17, 1170, 77), (18, -90, 77), (19, -90, 77), (20, -149, 308), (21, 13, 44), (22, -31, 462), (23, 31, 77), (24, -23, 44), (25, 295, 924), (26, 47, 308), (27, -1, 44), (28, 16, 231), (29, 17, 77), (30, -46, 77), (31, -25, 77), (32, 17, 77), (33, -46, 77), (34, 52, 77), (35, -25, 77), (36, 59, 77), (37, -25, 77)]

def wuXuInv3_19 : List (ℕ × ℤ × ℕ) := [(0, -36, 7), (1, 69, 77), (2, -260, 77), (3, -260, 77), (4, 12, 7), (5, -3, 11), (6, -9, 77), (7, -9, 77), (8, 12, 7), (9, 45, 154), (10, -4, 11), (11, -30, 77), (12, 12, 7), (13, 45, 154), (14, -30, 77), (15, -4, 11), (16, -30, 7), (17, -120, 77), (18, 720, 77), (19, 720, 77), (20, -10, 77), (21, -5, 44), (22, 37, 308), (23, 43, 154), (24, -3, 44), (25, 9, 308), (26, 43, 154), (27, -3, 44), (28, 9, 308), (29, -41, 154), (30, -17, 77), (31, 15, 154), (32, -41, 154), (33, -17, 77), (34, 15, 154), (35, 15, 154), (36, -10, 77), (37, 15, 154)]

def wuXuInv3_20 : List (ℕ × ℤ × ℕ) := [(0, 48, 7), (1, 54, 7), (2, 54, 7), (3, 54, 7), (4, -16, 7), (5, 4, 3), (6, 79, 21), (7, 79, 21), (8, -16, 7), (9, 79, 21), (10, 4, 3), (11, 79, 21), (12, -16, 7), (13, 79, 21), (14, 79, 21), (15, 4, 3), (16, 40, 7), (17, -240, 7), (18, -240, 7), (19, -240, 7), (20, 15, 7), (22, -11, 21), (23, 15, 7), (25, -11, 21), (26, 15, 7), (28, -11, 21), (29, -6, 7), (30, 36, 7), (31, -6, 7), (32, -6, 7), (33, 36, 7), (34, -6, 7), (35, -6, 7), (36, 36, 7), (37, -6, 7)]

def wuXuInv3_21 : List (ℕ × ℤ × ℕ) := [(1, -237, 22), (2, -63, 22), (3, -63, 22), (5, -12, 11), (6, -195, 44), (7, -195, 44), (9, -189, 44), (10, -21, 22), (11, -177, 44), (13, -189, 44), (14, -177, 44), (15, -21, 22), (17, 450, 11), (18, 270, 11), (19, 270, 11), (20, -81, 44), (21, -9, 44), (22, 9, 22), (23, -141, 44), (24, 21, 44), (25, 6, 11), (26, -141, 44), (27, 21, 44), (28, 6, 11), (29, 15, 11), (30, -60, 11), (31, 9, 11), (32, 15, 11), (33, -60, 11), (34, 9, 11), (35, 9, 11), (36, -45, 11), (37, 9, 11)]

def wuXuInv3_22 : List (ℕ × ℤ × ℕ) := [(0, 12, 1), (1, -29, 22), (2, 173, 22), (3, 43, 22), (4, -4, 1), (5, 37, 66), (6, 89, 132), (7, -79, 132), (8, -4, 1), (9, -79, 132), (10, 137, 132), (11, 5, 6), (12, -4, 1), (13, -133, 132), (14, 56, 33), (15, 119, 132), (16, 10, 1), (17, 30, 11), (18, -270, 11), (19, -90, 11), (20, -3, 11), (21, 7, 11), (22, -29, 66), (23, 9, 44), (24, -5, 22), (25, 5, 132), (26, -19, 44), (27, 1, 11), (28, -13, 132), (29, 13, 22), (30, 9, 11), (31, -7, 22), (32, 13, 22), (33, -6, 11), (34, 5, 22), (35, -7, 22), (36, 8, 11), (37, -17, 22)]

def wuXuInv3_23 : List (ℕ × ℤ × ℕ) := [(1, -63, 22), (2, -237, 22), (3, -63, 22), (5, -21, 22), (6, -189, 44), (7, -177, 44), (9, -195, 44), (10, -12, 11), (11, -195, 44), (13, -177, 44), (14, -189, 44), (15, -21, 22), (17, 270, 11), (18, 450, 11), (19, 270, 11), (20, -141, 44), (21, 21, 44), (22, 6, 11), (23, -81, 44), (24, -9, 44), (25, 9, 22), (26, -141, 44), (27, 21, 44), (28, 6, 11), (29, 9, 11), (30, -60, 11), (31, 15, 11), (32, 9, 11), (33, -45, 11), (34, 9, 11), (35, 15, 11), (36, -60, 11), (37, 9, 11)]

def wuXuInv3_24 : List (ℕ × ℤ × ℕ) := [(0, -48, 7), (1, 65, 154), (2, -691, 154), (3, 65, 154), (4, 16, 7), (5, -19, 66), (6, -515, 924), (7, 661, 924), (8, 16, 7), (9, 283, 924), (10, -89, 132), (11, 257, 462), (12, 16, 7), (13, 661, 924), (14, -302, 231), (15, -71, 132), (16, -40, 7), (17, -90, 77), (18, 1170, 77), (19, -90, 77), (20, 31, 77), (21, -23, 44), (22, 295, 924), (23, -149, 308), (24, 13, 44), (25, -31, 462), (26, 47, 308), (27, -1, 44), (28, 16, 231), (29, -25, 77), (30, -46, 77), (31, 17, 77), (32, -25, 77), (33, 59, 77), (34, -25, 77), (35, 17, 77), (36, -46, 77), (37, 52, 77)]

def wuXuInv3_25 : List (ℕ × ℤ × ℕ) := [(0, -24, 7), (1, 65, 308), (2, 65, 308), (3, -845, 308), (4, 8, 7), (5, -19, 132), (6, 661, 1848), (7, -515, 1848), (8, 8, 7), (9, 661, 1848), (10, -19, 132), (11, -515, 1848), (12, 8, 7), (13, 283, 1848), (14, 283, 1848), (15, -7, 33), (16, -20, 7), (17, -45, 77), (18, -45, 77), (19, 585, 77), (20, 47, 616), (21, -1, 88), (22, 8, 231), (23, 47, 616), (24, -1, 88), (25, 8, 231), (26, -149, 616), (27, 13, 88), (28, -31, 924), (29, -25, 154), (30, 59, 154), (31, -25, 154), (32, 26, 77), (33, -23, 77), (34, 17, 154), (35, 26, 77), (36, -23, 77), (37, 17, 154)]

def wuXuInv3_26 : List (ℕ × ℤ × ℕ) := [(0, 12, 1), (1, 43, 22), (2, -29, 22), (3, 173, 22), (4, -4, 1), (5, 119, 132), (6, -133, 132), (7, 56, 33), (8, -4, 1), (9, -79, 132), (10, 37, 66), (11, 89, 132), (12, -4, 1), (13, 5, 6), (14, -79, 132), (15, 137, 132), (16, 10, 1), (17, -90, 11), (18, 30, 11), (19, -270, 11), (20, -19, 44), (21, 1, 11), (22, -13, 132), (23, -3, 11), (24, 7, 11), (25, -29, 66), (26, 9, 44), (27, -5, 22), (28, 5, 132), (29, 5, 22), (30, -6, 11), (31, 13, 22), (32, -17, 22), (33, 8, 11), (34, -7, 22), (35, 13, 22), (36, 9, 11), (37, -7, 22)]

def wuXuInv3_27 : List (ℕ × ℤ × ℕ) := [(0, -54, 7), (1, -549, 154), (2, 207, 154), (3, -549, 154), (4, 18, 7), (5, -81, 88), (6, 135, 308), (7, -1053, 616), (8, 18, 7), (9, -27, 154), (10, -9, 22), (11, -27, 154), (12, 18, 7), (13, -1053, 616), (14, 135, 308), (15, -81, 88), (16, -45, 7), (17, 1080, 77), (18, -180, 77), (19, 1080, 77), (20, 129, 308), (21, -9, 88), (22, 27, 616), (23, 111, 616), (24, -81, 88), (25, 171, 308), (26, 129, 308), (27, -9, 88), (28, 27, 616), (29, 45, 308), (30, -51, 154), (31, -123, 308), (32, 45, 308), (33, -15, 77), (34, 45, 308), (35, -123, 308), (36, -51, 154), (37, 45, 308)]

def wuXuInv3_28 : List (ℕ × ℤ × ℕ) := [(0, 12, 1), (1, -29, 22), (2, 43, 22), (3, 173, 22), (4, -4, 1), (5, 37, 66), (6, -79, 132), (7, 89, 132), (8, -4, 1), (9, -133, 132), (10, 119, 132), (11, 56, 33), (12, -4, 1), (13, -79, 132), (14, 5, 6), (15, 137, 132), (16, 10, 1), (17, 30, 11), (18, -90, 11), (19, -270, 11), (20, -3, 11), (21, 7, 11), (22, -29, 66), (23, -19, 44), (24, 1, 11), (25, -13, 132), (26, 9, 44), (27, -5, 22), (28, 5, 132), (29, 13, 22), (30, -6, 11), (31, 5, 22), (32, 13, 22), (33, 9, 11), (34, -7, 22), (35, -17, 22), (36, 8, 11), (37, -7, 22)]

def wuXuInv3_29 : List (ℕ × ℤ × ℕ) := [(1, -63, 22), (2, -63, 22), (3, -237, 22), (5, -21, 22), (6, -177, 44), (7, -189, 44), (9, -177, 44), (10, -21, 22), (11, -189, 44), (13, -195, 44), (14, -195, 44), (15, -12, 11), (17, 270, 11), (18, 270, 11), (19, 450, 11), (20, -141, 44), (21, 21, 44), (22, 6, 11), (23, -141, 44), (24, 21, 44), (25, 6, 11), (26, -81, 44), (27, -9, 44), (28, 9, 22), (29, 9, 11), (30, -45, 11), (31, 9, 11), (32, 9, 11), (33, -60, 11), (34, 15, 11), (35, 9, 11), (36, -60, 11), (37, 15, 11)]

def wuXuInv3_30 : List (ℕ × ℤ × ℕ) := [(0, -54, 7), (1, 207, 154), (2, -549, 154), (3, -549, 154), (4, 18, 7), (5, -9, 22), (6, -27, 154), (7, -27, 154), (8, 18, 7), (9, 135, 308), (10, -81, 88), (11, -1053, 616), (12, 18, 7), (13, 135, 308), (14, -1053, 616), (15, -81, 88), (16, -45, 7), (17, -180, 77), (18, 1080, 77), (19, 1080, 77), (20, 111, 616), (21, -81, 88), (22, 171, 308), (23, 129, 308), (24, -9, 88), (25, 27, 616), (26, 129, 308), (27, -9, 88), (28, 27, 616), (29, -123, 308), (30, -51, 154), (31, 45, 308), (32, -123, 308), (33, -51, 154), (34, 45, 308), (35, 45, 308), (36, -15, 77), (37, 45, 308)]

def wuXuInv3_31 : List (ℕ × ℤ × ℕ) := [(0, 20, 7), (1, -65, 154), (2, -65, 154), (3, 383, 154), (4, -16, 7), (5, 19, 66), (6, -661, 924), (7, 515, 924), (8, -16, 7), (9, -661, 924), (10, 19, 66), (11, 515, 924), (12, 12, 7), (13, -283, 924), (14, -283, 924), (15, -19, 33), (16, 40, 7), (17, 90, 77), (18, 90, 77), (19, -1170, 77), (20, -47, 308), (21, 1, 44), (22, -16, 231), (23, -47, 308), (24, 1, 44), (25, -16, 231), (26, 149, 308), (27, -13, 44), (28, 31, 462), (29, 25, 77), (30, -59, 77), (31, 25, 77), (32, -52, 77), (33, 46, 77), (34, -17, 77), (35, -52, 77), (36, 46, 77), (37, -17, 77)]

def wuXuInv3_32 : List (ℕ × ℤ × ℕ) := [(0, -48, 7), (1, 65, 154), (2, 65, 154), (3, -691, 154), (4, 16, 7), (5, -71, 132), (6, 661, 924), (7, -302, 231), (8, 16, 7), (9, 661, 924), (10, -19, 66), (11, -515, 924), (12, 16, 7), (13, 257, 462), (14, 283, 924), (15, -89, 132), (16, -40, 7), (17, -90, 77), (18, -90, 77), (19, 1170, 77), (20, 47, 308), (21, -1, 44), (22, 16, 231), (23, 31, 77), (24, -23, 44), (25, 295, 924), (26, -149, 308), (27, 13, 44), (28, -31, 462), (29, -25, 77), (30, 59, 77), (31, -25, 77), (32, 52, 77), (33, -46, 77), (34, 17, 77), (35, -25, 77), (36, -46, 77), (37, 17, 77)]

def wuXuInv3_33 : List (ℕ × ℤ × ℕ) := [(0, -48, 7), (1, 65, 154), (2, 65, 154), (3, -691, 154), (4, 16, 7), (5, -19, 66), (6, 661, 924), (7, -515, 924), (8, 16, 7), (9, 661, 924), (10, -71, 132), (11, -302, 231), (12, 16, 7), (13, 283, 924), (14, 257, 462), (15, -89, 132), (16, -40, 7), (17, -90, 77), (18, -90, 77), (19, 1170, 77), (20, 31, 77), (21, -23, 44), (22, 295, 924), (23, 47, 308), (24, -1, 44), (25, 16, 231), (26, -149, 308), (27, 13, 44), (28, -31, 462), (29, -25, 77), (30, 59, 77), (31, -25, 77), (32, -25, 77), (33, -46, 77), (34, 17, 77), (35, 52, 77), (36, -46, 77), (37, 17, 77)]

def wuXuInv3_34 : List (ℕ × ℤ × ℕ) := [(0, -3, 7), (1, 65, 308), (2, 65, 308), (3, -229, 308), (4, 8, 7), (5, -19, 132), (6, 661, 1848), (7, -515, 1848), (8, 8, 7), (9, 661, 1848), (10, -19, 132), (11, -515, 1848), (12, -13, 7), (13, 283, 1848), (14, 283, 1848), (15, 26, 33), (16, -20, 7), (17, -45, 77), (18, -45, 77), (19, 585, 77), (20, 47, 616), (21, -1, 88), (22, 8, 231), (23, 47, 616), (24, -1, 88), (25, 8, 231), (26, -149, 616), (27, 13, 88), (28, -31, 924), (29, -25, 154), (30, 59, 154), (31, -25, 154), (32, 26, 77), (33, -23, 77), (34, 17, 154), (35, 26, 77), (36, -23, 77), (37, 17, 154)]

def wuXuInv3_35 : List (ℕ × ℤ × ℕ) := [(0, 144, 7), (1, -1074, 77), (2, 438, 77), (3, 438, 77), (4, -48, 7), (5, -4, 11), (6, -265, 77), (7, -265, 77), (8, -48, 7), (9, -685, 77), (10, 2, 11), (11, -139, 77), (12, -48, 7), (13, -685, 77), (14, -139, 77), (15, 2, 11), (16, 120, 7), (17, 4680, 77), (18, -360, 77), (19, -360, 77), (20, -303, 77), (21, 24, 11), (22, 5, 77), (23, -261, 77), (24, -12, 11), (25, 47, 77), (26, -261, 77), (27, -12, 11), (28, 47, 77), (29, 222, 77), (30, -492, 77), (31, 54, 77), (32, 222, 77), (33, -492, 77), (34, 54, 77), (35, 54, 77), (36, -72, 77), (37, 54, 77)]

def wuXuInv3_36 : List (ℕ × ℤ × ℕ) := [(0, 144, 7), (1, 438, 77), (2, -1074, 77), (3, 438, 77), (4, -48, 7), (5, 2, 11), (6, -685, 77), (7, -139, 77), (8, -48, 7), (9, -265, 77), (10, -4, 11), (11, -265, 77), (12, -48, 7), (13, -139, 77), (14, -685, 77), (15, 2, 11), (16, 120, 7), (17, -360, 77), (18, 4680, 77), (19, -360, 77), (20, -261, 77), (21, -12, 11), (22, 47, 77), (23, -303, 77), (24, 24, 11), (25, 5, 77), (26, -261, 77), (27, -12, 11), (28, 47, 77), (29, 54, 77), (30, -492, 77), (31, 222, 77), (32, 54, 77), (33, -72, 77), (34, 54, 77), (35, 222, 77), (36, -492, 77), (37, 54, 77)]

def wuXuInv3_37 : List (ℕ × ℤ × ℕ) := [(0, 144, 7), (1, 438, 77), (2, 438, 77), (3, -1074, 77), (4, -48, 7), (5, 2, 11), (6, -139, 77), (7, -685, 77), (8, -48, 7), (9, -139, 77), (10, 2, 11), (11, -685, 77), (12, -48, 7), (13, -265, 77), (14, -265, 77), (15, -4, 11), (16, 120, 7), (17, -360, 77), (18, -360, 77), (19, 4680, 77), (20, -261, 77), (21, -12, 11), (22, 47, 77), (23, -261, 77), (24, -12, 11), (25, 47, 77), (26, -303, 77), (27, 24, 11), (28, 5, 77), (29, 54, 77), (30, -72, 77), (31, 54, 77), (32, 54, 77), (33, -492, 77), (34, 222, 77), (35, 54, 77), (36, -492, 77), (37, 222, 77)]

def wuXuInv3 : List (List ℚ) := [wuXuInv3_0, wuXuInv3_1, wuXuInv3_2, wuXuInv3_3, wuXuInv3_4, wuXuInv3_5, wuXuInv3_6, wuXuInv3_7, wuXuInv3_8, wuXuInv3_9, wuXuInv3_10, wuXuInv3_11, wuXuInv3_12, wuXuInv3_13, wuXuInv3_14, wuXuInv3_15, wuXuInv3_16, wuXuInv3_17, wuXuInv3_18, wuXuInv3_19, wuXuInv3_20, wuXuInv3_21, wuXuInv3_22, wuXuInv3_23, wuXuInv3_24, wuXuInv3_25, wuXuInv3_26, wuXuInv3_27, wuXuInv3_28, wuXuInv3_29, wuXuInv3_30, wuXuInv3_31, wuXuInv3_32, wuXuInv3_33, wuXuInv3_34, wuXuInv3_35, wuXuInv3_36, wuXuInv3_37].map (sparse 38)

def wuXuVal3_0 : List (ℕ × ℤ × ℕ) := [(0, 1, 1), (4, 1, 1), (8, 1, 1), (12, 1, 1)]

def wuXuVal3_1 : List (ℕ × ℤ × ℕ) := [(1, 1, 1), (4, 1, 1), (5, 1, 1), (9, 1, 1), (13, 1, 1), (16, 1, 2), (17, 1, 2)]

def wuXuVal3_2 : List (ℕ × ℤ × ℕ) := [(4, 1, 1), (5, 2, 1), (16, 1, 3), (20, 2, 1), (21, 2, 1), (22, 2, 1), (25, 2, 1), (28, 2, 1), (31, 2, 1), (34, 2, 1)]

def wuXuVal3_3 : List (ℕ × ℤ × ℕ) := [(4, 1, 1), (5, 3, 1), (16, 1, 4), (25, 3, 1), (28, 3, 1)]

def wuXuVal3_4 : List (ℕ × ℤ × ℕ) := [(4, 1, 1), (5, 4, 1), (16, 1, 5), (25, 4, 1), (28, 4, 1)]

def wuXuVal3_5 : List (ℕ × ℤ × ℕ) := [(2, 1, 1), (6, 1, 1), (8, 1, 1), (10, 1, 1), (14, 1, 1), (16, 1, 2), (18, 1, 2)]

def wuXuVal3_6 : List (ℕ × ℤ × ℕ) := [(6, 1, 1), (9, 1, 1), (16, 1, 3), (17, 1, 6), (18, 1, 6), (21, 1, 1), (22, 2, 1), (24, 1, 1), (25, 2, 1), (28, 2, 1), (30, 1, 1)]

def wuXuVal3_7 : List (ℕ × ℤ × ℕ) := [(6, 1, 1), (16, 1, 6), (18, 1, 12), (20, 1, 1), (21, 1, 1), (22, 1, 1), (24, 1, 1), (25, 2, 1), (28, 3, 1), (34, 1, 1)]

def wuXuVal3_8 : List (ℕ × ℤ × ℕ) := [(6, 1, 1), (16, 1, 10), (18, 1, 20), (24, 1, 1), (25, 2, 1), (28, 3, 1)]

def wuXuVal3_9 : List (ℕ × ℤ × ℕ) := [(8, 1, 1), (10, 2, 1), (16, 1, 3), (22, 2, 1), (23, 2, 1), (24, 2, 1), (25, 2, 1), (28, 2, 1), (29, 2, 1), (37, 2, 1)]

def wuXuVal3_10 : List (ℕ × ℤ × ℕ) := [(9, 1, 1), (16, 1, 6), (17, 1, 12), (21, 1, 1), (22, 2, 1), (23, 1, 1), (24, 1, 1), (25, 1, 1), (28, 3, 1), (37, 1, 1)]

def wuXuVal3_11 : List (ℕ × ℤ × ℕ) := [(16, 1, 15), (20, 2, 3), (21, 2, 3), (22, 2, 3), (23, 2, 3), (24, 2, 3), (25, 2, 3), (28, 8, 3), (34, 2, 3), (37, 2, 3)]

def wuXuVal3_12 : List (ℕ × ℤ × ℕ) := [(8, 1, 1), (10, 3, 1), (16, 1, 4), (22, 3, 1), (28, 3, 1)]

def wuXuVal3_13 : List (ℕ × ℤ × ℕ) := [(9, 1, 1), (16, 1, 10), (17, 1, 20), (21, 1, 1), (22, 2, 1), (28, 3, 1)]

def wuXuVal3_14 : List (ℕ × ℤ × ℕ) := [(8, 1, 1), (10, 4, 1), (16, 1, 5), (22, 4, 1), (28, 4, 1)]

def wuXuVal3_15 : List (ℕ × ℤ × ℕ) := [(3, 1, 1), (7, 1, 1), (11, 1, 1), (12, 1, 1), (15, 1, 1), (16, 1, 2), (19, 1, 2)]

def wuXuVal3_16 : List (ℕ × ℤ × ℕ) := [(7, 1, 1), (13, 1, 1), (16, 1, 3), (17, 1, 6), (19, 1, 6), (21, 1, 1), (22, 2, 1), (25, 2, 1), (27, 1, 1), (28, 2, 1), (33, 1, 1)]

def wuXuVal3_17 : List (ℕ × ℤ × ℕ) := [(7, 1, 1), (16, 1, 6), (19, 1, 12), (20, 1, 1), (21, 1, 1), (22, 1, 1), (25, 3, 1), (27, 1, 1), (28, 2, 1), (31, 1, 1)]

def wuXuVal3_18 : List (ℕ × ℤ × ℕ) := [(7, 1, 1), (16, 1, 10), (19, 1, 20), (25, 3, 1), (27, 1, 1), (28, 2, 1)]

def wuXuVal3_19 : List (ℕ × ℤ × ℕ) := [(11, 1, 1), (14, 1, 1), (16, 1, 3), (18, 1, 6), (19, 1, 6), (22, 2, 1), (24, 1, 1), (25, 2, 1), (27, 1, 1), (28, 2, 1), (36, 1, 1)]

def wuXuVal3_20 : List (ℕ × ℤ × ℕ) := [(16, 1, 8), (17, 1, 24), (18, 1, 24), (19, 1, 24), (21, 1, 1), (22, 2, 1), (24, 1, 1), (25, 2, 1), (27, 1, 1), (28, 2, 1), (30, 1, 2), (33, 1, 2), (36, 1, 2)]

def wuXuVal3_21 : List (ℕ × ℤ × ℕ) := [(16, 1, 20), (18, 1, 60), (19, 1, 60), (20, 1, 3), (21, 1, 3), (22, 1, 3), (24, 2, 3), (25, 4, 3), (27, 2, 3), (28, 4, 3), (36, 1, 3)]

def wuXuVal3_22 : List (ℕ × ℤ × ℕ) := [(11, 1, 1), (16, 1, 6), (19, 1, 12), (22, 3, 1), (23, 1, 1), (24, 1, 1), (25, 1, 1), (27, 1, 1), (28, 2, 1), (29, 1, 1)]

def wuXuVal3_23 : List (ℕ × ℤ × ℕ) := [(16, 1, 20), (17, 1, 60), (19, 1, 60), (21, 2, 3), (22, 4, 3), (23, 1, 3), (24, 1, 3), (25, 1, 3), (27, 2, 3), (28, 4, 3), (33, 1, 3)]

def wuXuVal3_24 : List (ℕ × ℤ × ℕ) := [(11, 1, 1), (16, 1, 10), (19, 1, 20), (22, 3, 1), (27, 1, 1), (28, 2, 1)]

def wuXuVal3_25 : List (ℕ × ℤ × ℕ) := [(12, 1, 1), (15, 2, 1), (16, 1, 3), (22, 2, 1), (25, 2, 1), (26, 2, 1), (27, 2, 1), (28, 2, 1), (32, 2, 1), (35, 2, 1)]

def wuXuVal3_26 : List (ℕ × ℤ × ℕ) := [(13, 1, 1), (16, 1, 6), (17, 1, 12), (21, 1, 1), (22, 2, 1), (25, 3, 1), (26, 1, 1), (27, 1, 1), (28, 1, 1), (35, 1, 1)]

def wuXuVal3_27 : List (ℕ × ℤ × ℕ) := [(16, 1, 15), (20, 2, 3), (21, 2, 3), (22, 2, 3), (25, 8, 3), (26, 2, 3), (27, 2, 3), (28, 2, 3), (31, 2, 3), (35, 2, 3)]

def wuXuVal3_28 : List (ℕ × ℤ × ℕ) := [(14, 1, 1), (16, 1, 6), (18, 1, 12), (22, 3, 1), (24, 1, 1), (25, 2, 1), (26, 1, 1), (27, 1, 1), (28, 1, 1), (32, 1, 1)]

def wuXuVal3_29 : List (ℕ × ℤ × ℕ) := [(16, 1, 20), (17, 1, 60), (18, 1, 60), (21, 2, 3), (22, 4, 3), (24, 2, 3), (25, 4, 3), (26, 1, 3), (27, 1, 3), (28, 1, 3), (30, 1, 3)]

def wuXuVal3_30 : List (ℕ × ℤ × ℕ) := [(16, 1, 15), (22, 8, 3), (23, 2, 3), (24, 2, 3), (25, 2, 3), (26, 2, 3), (27, 2, 3), (28, 2, 3), (29, 2, 3), (32, 2, 3)]

def wuXuVal3_31 : List (ℕ × ℤ × ℕ) := [(12, 1, 1), (15, 3, 1), (16, 1, 4), (22, 3, 1), (25, 3, 1)]

def wuXuVal3_32 : List (ℕ × ℤ × ℕ) := [(13, 1, 1), (16, 1, 10), (17, 1, 20), (21, 1, 1), (22, 2, 1), (25, 3, 1)]

def wuXuVal3_33 : List (ℕ × ℤ × ℕ) := [(14, 1, 1), (16, 1, 10), (18, 1, 20), (22, 3, 1), (24, 1, 1), (25, 2, 1)]

def wuXuVal3_34 : List (ℕ × ℤ × ℕ) := [(12, 1, 1), (15, 4, 1), (16, 1, 5), (22, 4, 1), (25, 4, 1)]

def wuXuVal3_35 : List (ℕ × ℤ × ℕ) := [(16, -1, 120), (18, 1, 360), (19, 1, 360), (23, -1, 6), (24, -1, 3), (25, -1, 2), (26, -1, 6), (27, -1, 3), (28, -1, 2), (36, 1, 12)]

def wuXuVal3_36 : List (ℕ × ℤ × ℕ) := [(16, -1, 120), (17, 1, 360), (19, 1, 360), (20, -1, 6), (21, -1, 3), (22, -1, 2), (26, -1, 6), (27, -1, 3), (28, -1, 2), (33, 1, 12)]

def wuXuVal3_37 : List (ℕ × ℤ × ℕ) := [(16, -1, 120), (17, 1, 360), (18, 1, 360), (20, -1, 6), (21, -1, 3), (22, -1, 2), (23, -1, 6), (24, -1, 3), (25, -1, 2), (30, 1, 12)]

def wuXuVal3 : List (List ℚ) := [wuXuVal3_0, wuXuVal3_1, wuXuVal3_2, wuXuVal3_3, wuXuVal3_4, wuXuVal3_5, wuXuVal3_6, wuXuVal3_7, wuXuVal3_8, wuXuVal3_9, wuXuVal3_10, wuXuVal3_11, wuXuVal3_12, wuXuVal3_13, wuXuVal3_14, wuXuVal3_15, wuXuVal3_16, wuXuVal3_17, wuXuVal3_18, wuXuVal3_19, wuXuVal3_20, wuXuVal3_21, wuXuVal3_22, wuXuVal3_23, wuXuVal3_24, wuXuVal3_25, wuXuVal3_26, wuXuVal3_27, wuXuVal3_28, wuXuVal3_29, wuXuVal3_30, wuXuVal3_31, wuXuVal3_32, wuXuVal3_33, wuXuVal3_34, wuXuVal3_35, wuXuVal3_36, wuXuVal3_37].map (sparse 38)


/-- The terms of the bubble. -/
def bubbleTerms : ℕ → Poly
  | 1 => [(1, [1]), (-1, [2])]
  | 2 => [(1, [1, 1]), (-1, [2, 1]), (-1, [1, 2])]
  | _ => [(1, [1, 1, 1]), (-1, [2, 1, 1]), (-1, [1, 2, 1]), (-1, [1, 1, 2])]

/-- The functions. -/
def wuXuPolys (d : ℕ) : List Poly :=
  monoPolys d (d + 1) ++ (List.range d).map fun i => (bubbleTerms d).map fun t => (t.1, t.2.modify i (· + 1))

/-- The functionals as sums of derivatives at points. -/
def wuXuJets (c : Cell) : List ((ℕ × ℕ) × Jet) :=
  ((List.range (c.tdim + 1)).flatMap fun n => ((0, n), [(1, [], vert c.tdim n)]) :: (List.range c.tdim).map fun i => ((0, n), [(1, unitIndex c.tdim i, vert c.tdim n)])) ++
  (if c.tdim = 1 then [] else if c.tdim = 2 then (List.range 3).map fun i => entityJet c (c.tdim - 1, i) [i]
   else ((List.range 4).map fun i => entityJet c (c.tdim - 1, i) [i]) ++ (wuXuEdges.map fun p => entityJet .tetrahedron (1, p.1)
      (List.replicate (p.2.getD 0 0) ((edgeFaces p.1).getD 0 0) ++ List.replicate (p.2.getD 1 0) ((edgeFaces p.1).getD 1 0))))

theorem wuXuEdges_mem : ∀ p ∈ wuXuEdges, p.1 < 6 ∧ (p.2 = [0, 2] ∨ p.2 = [1, 1] ∨ p.2 = [2, 0]) := by decide

theorem flatMap_jets {A : Type} {l : List A} {F : A → List (Dof ℝ (MvPolynomial ℕ ℝ))} {g : A → List ((ℕ × ℕ) × Jet)} {m : ℕ} {k : ℤ}
    (h : ∀ a ∈ l, List.Forall₂ (IsJet m k) (F a) (g a)) : List.Forall₂ (IsJet m k) (l.flatMap F) (l.flatMap g) := by
  induction l with
  | nil => exact .nil
  | cons a l ih => exact append_jets (h a List.mem_cons_self) (ih fun b hb => h b (List.mem_cons_of_mem _ hb))

theorem wuXu_jets {c : Cell} (hc : Simplex c) : ∃ dofs, wuXuParts c = some dofs ∧
    List.Forall₂ (IsJet c.tdim (c.tdim + 2)) ((List.range (c.tdim + 1)).flatMap (wuXuVertex c) ++ dofs) (wuXuJets c) := by
  have hv : List.Forall₂ (IsJet c.tdim (c.tdim + 2)) ((List.range (c.tdim + 1)).flatMap (wuXuVertex c))
      ((List.range (c.tdim + 1)).flatMap fun n => ((0, n), [(1, [], vert c.tdim n)]) :: (List.range c.tdim).map fun i => ((0, n), [(1, unitIndex c.tdim i, vert c.tdim n)])) :=
    flatMap_jets fun n hn => .cons (point_jet hc (by have := List.mem_range.1 hn; omega) _)
      (map_jets fun i _ => deriv_jet hc (by have := List.mem_range.1 hn; omega) _ _ _)
  rcases hc with rfl | rfl | rfl
  · exact ⟨[], rfl, append_jets hv .nil⟩
  · obtain ⟨b, b1, b2⟩ := mapM_jets (l := List.range 3) (F := facetDof .triangle 1) (m := 2) (k := 4) fun i hi =>
      facet_jet (c := .triangle) (Or.inl rfl) (by have := List.mem_range.1 hi; show i ≤ 2; omega) (Or.inl ⟨rfl, rfl, List.mem_range.1 hi⟩) 1
        (by show (4 : ℤ) - 1 ≤ 3; norm_num)
    exact ⟨b, b1, append_jets hv b2⟩
  · obtain ⟨a, a1, a2⟩ := mapM_jets (l := List.range 4) (F := facetDof .tetrahedron 1) (m := 3) (k := 5) fun i hi =>
      facet_jet (c := .tetrahedron) (Or.inr rfl) (by have := List.mem_range.1 hi; show i ≤ 3; omega) (Or.inr (Or.inr ⟨rfl, rfl, List.mem_range.1 hi⟩)) 1
        (by show (5 : ℤ) - 1 ≤ 4; norm_num)
    obtain ⟨b, b1, b2⟩ := mapM_jets (l := wuXuEdges) (F := fun p => edgeDof p.2 p.1) (m := 3) (k := 5)
      (g := fun p => entityJet .tetrahedron (1, p.1)
        (List.replicate (p.2.getD 0 0) ((edgeFaces p.1).getD 0 0) ++ List.replicate (p.2.getD 1 0) ((edgeFaces p.1).getD 1 0))) fun p hp => by
      obtain ⟨h1, h2 | h2 | h2⟩ := wuXuEdges_mem p hp
      · rw [h2]; exact edge_jet h1 0 2 (by norm_num)
      · rw [h2]; exact edge_jet h1 1 1 (by norm_num)
      · rw [h2]; exact edge_jet h1 2 0 (by norm_num)
    refine ⟨a ++ b, ?_, append_jets hv (append_jets a2 b2)⟩
    rw [wuXuParts, if_neg (by decide), if_neg (by decide), a1, b1]
    rfl

theorem wuXuBubble_eq {c : Cell} (hc : Simplex c) : wuXuBubble c = simplexBubble c.tdim := by
  rcases hc with rfl | rfl | rfl <;> simp [wuXuBubble, simplexBubble, Finset.prod_range_succ, Finset.sum_range_succ, Cell.tdim] <;> ring

theorem bubbleTerms_eq {c : Cell} (hc : Simplex c) :
    ((List.range c.tdim).map fun i => (bubbleTerms c.tdim).map fun t => (t.1, t.2.modify i (· + 1))).map (denotePoly ℝ) =
      (List.range c.tdim).map fun i => simplexBubble c.tdim * X i := by
  rcases hc with rfl | rfl | rfl
  · simp [Cell.tdim, bubbleTerms, List.range_succ, denotePoly, denoteMono, monoFrom, simplexBubble]
    ring
  · simp [Cell.tdim, bubbleTerms, List.range_succ, denotePoly, denoteMono, monoFrom, simplexBubble, Finset.prod_range_succ, Finset.sum_range_succ]
    exact ⟨by ring, by ring⟩
  · simp [Cell.tdim, bubbleTerms, List.range_succ, denotePoly, denoteMono, monoFrom, simplexBubble, Finset.prod_range_succ, Finset.sum_range_succ]
    exact ⟨by ring, by ring, by ring⟩

theorem linear_tail {c : Cell} (hc : Simplex c) : ∃ q, polySet c.tdim 1 = some q ∧ (q.tail.map fun s => wuXuBubble c * denoteMono ℝ s) =
    (List.range c.tdim).map fun i => simplexBubble c.tdim * X i := by
  rw [wuXuBubble_eq hc]
  rcases hc with rfl | rfl | rfl
  · exact ⟨[[0], [1]], by decide, by simp [Cell.tdim, denoteMono, monoFrom, List.range_succ]⟩
  · exact ⟨[[0, 0], [1, 0], [0, 1]], by decide, by simp [Cell.tdim, denoteMono, monoFrom, List.range_succ]⟩
  · exact ⟨[[0, 0, 0], [1, 0, 0], [0, 1, 0], [0, 0, 1]], by decide, by simp [Cell.tdim, denoteMono, monoFrom, List.range_succ]⟩

theorem wuXu_lspan {c : Cell} (hc : Simplex c) : lspan ((wuXuPolys c.tdim).map (denotePoly ℝ)) = wuXuSpace c.tdim := by
  have hd : c.tdim = 1 ∨ c.tdim = 2 ∨ c.tdim = 3 := by rcases hc with rfl | rfl | rfl <;> decide
  rw [wuXuPolys, List.map_append, bubbleTerms_eq hc, wuXuSpace, ← monoPolys_lspan hd]
  unfold lspan
  rw [← Submodule.span_union]
  congr 1
  ext x
  simp only [List.mem_append, Set.mem_union, Set.mem_ofPred_eq, List.mem_map (l := List.range _), List.mem_range]
  constructor
  · rintro (h | ⟨i, hi, rfl⟩)
    · exact Or.inl h
    · exact Or.inr ⟨i, hi, rfl⟩
  · rintro (h | ⟨i, hi, rfl⟩)
    · exact Or.inl h
    · exact Or.inr ⟨i, hi, rfl⟩

set_option maxHeartbeats 20000000 in
theorem wuXu_cert : certificate (wuXuPolys 3) ((wuXuJets .tetrahedron).map Prod.snd) wuXuVal3 wuXuInv3 = true := by decide +kernel

theorem wuXu_mem {c : Cell} (hc : Simplex c) : ∀ b ∈ wuXuPolys c.tdim, denotePoly ℝ b ∈ P c.tdim (c.tdim + 2) := by
  intro b hb
  refine denotePoly_mem ?_
  revert b
  rcases hc with rfl | rfl | rfl <;> decide +kernel

/-- **C146.** The Wu-Xu elements can be created. Their functions are the polynomials of degree at most one more than the dimension and the
products of the bubble with linear functions without constant, and these are determined by the functionals. -/
theorem wuXu_created {c : Cell} (hc : Simplex c) : Created (wuXu c (c.tdim + 1)) (· ∈ wuXuSpace c.tdim) (wuXuPolys c.tdim).length
    fun dofs => List.Forall₂ (IsJet c.tdim (c.tdim + 2)) dofs (wuXuJets c) := by
  obtain ⟨dofs, h1, h2⟩ := wuXu_jets hc
  obtain ⟨q, q1, q2⟩ := linear_tail hc
  have hd : c.tdim = 1 ∨ c.tdim = 2 ∨ c.tdim = 3 := by rcases hc with rfl | rfl | rfl <;> decide
  obtain ⟨p, hp, -⟩ := polySet_lspan hd ((c.tdim + 1 : ℕ) : ℤ)
  have he : wuXu c (c.tdim + 1) = ciarlet ((wuXuPolys c.tdim).map (denotePoly ℝ)) ((List.range (c.tdim + 1)).flatMap (wuXuVertex c) ++ dofs) := by
    have hp' : polySet c.tdim ((c.tdim : ℤ) + 1) = some p := by rw [← hp]; push_cast; rfl
    rw [wuXu, if_pos rfl, hp, q1, h1, wuXuPolys, List.map_append, bubbleTerms_eq hc, ← q2, monoPolys_map, hp', Option.getD_some]
    rfl
  have hB := wuXu_mem hc
  have key : ∃ N, leftInverse (wuXuPolys c.tdim) ((wuXuJets c).map Prod.snd) N = true ∧ (wuXuJets c).length = (wuXuPolys c.tdim).length := by
    clear he hB hp h1 h2 q1 q2
    rcases hc with rfl | rfl | rfl
    · exact ⟨wuXuInv1, by decide +kernel, by decide +kernel⟩
    · exact ⟨wuXuInv2, by decide +kernel, by decide +kernel⟩
    · exact ⟨wuXuInv3, leftInverse_of wuXu_cert, by decide +kernel⟩
  obtain ⟨N, hN, hl⟩ := key
  have := jets_created he h2 hB hl N hN
  rwa [wuXu_lspan hc] at this

theorem wuXu_none {c : Cell} {k : ℕ} (h : k ≠ c.tdim + 1) : wuXu c k = none := if_neg h

/-- The numbers of functionals. -/
example : (wuXuPolys 1).length = 4 ∧ (wuXuPolys 2).length = 12 ∧ (wuXuPolys 3).length = 38 := by decide

/-! ### Continuity -/

/-- A functional that is a combination of others. -/
theorem implied {B : List Poly} {G : List Jet} {n : List ℚ} {T : Jet} (h : ∀ b ∈ B, jetVal T b = dotp n (G.map fun g => jetVal g b))
    {f : MvPolynomial ℕ ℝ} (hf : f ∈ lspan (B.map (denotePoly ℝ))) (hz : ∀ g ∈ G, jetMap g f = 0) : jetMap T f = 0 := by
  have hL : ∀ f ∈ lspan (B.map (denotePoly ℝ)), jetMap T f = ∑ j ∈ Finset.range G.length, ((n.getD j 0 : ℚ) : ℝ) * jetMap (G.getD j []) f := by
    intro f hf
    induction hf using Submodule.span_induction with
    | mem x hx =>
      obtain ⟨b, hb, rfl⟩ := List.mem_map.1 hx
      rw [jetMap_poly, h b hb, dotp_cast]
    | zero => simp
    | add x y _ _ hx hy => simp only [map_add, hx, hy, mul_add, Finset.sum_add_distrib]
    | smul a x _ hx =>
      rw [map_smul, hx, smul_eq_mul, Finset.mul_sum]
      exact Finset.sum_congr rfl fun j _ => by rw [map_smul, smul_eq_mul]; ring
  rw [hL f hf]
  refine Finset.sum_eq_zero fun j hj => ?_
  rw [List.getD_eq_getElem _ _ (Finset.mem_range.1 hj), hz _ (List.getElem_mem _), mul_zero]

def lineInv : List (List ℚ) := [
    [1, 0, 0, 0, 0],
    [-25/3, 16, -12, 16/3, -1],
    [70/3, -208/3, 76, -112/3, 22/3],
    [-80/3, 96, -128, 224/3, -16],
    [32/3, -128/3, 64, -128/3, 32/3]]

/-- A polynomial of degree 4 on an interval is determined by its values at 5 points. -/
theorem line_zero {q : MvPolynomial ℕ ℝ} (hq : q ∈ P 1 4) (h : ∀ j : ℕ, j < 5 → eval (pt [(j : ℚ) / 4]) q = 0) : q = 0 := by
  rw [← monoPolys_lspan (Or.inl rfl)] at hq
  refine (certified (G := (List.range 5).map fun j : ℕ => [(1, [], [(j : ℚ) / 4])]) lineInv (by decide +kernel)).2 q hq fun g hg => ?_
  obtain ⟨j, hj, rfl⟩ := List.mem_map.1 hg
  rw [jetMap_apply]
  simpa [multiDeriv] using h j (List.mem_range.1 hj)

/-- The functionals of the closure of an edge. -/
def edgeJets (i : ℕ) : List ((ℕ × ℕ) × Jet) := (wuXuJets .triangle).filter fun g => decide (entVerts .triangle g.1.1 g.1.2 ⊆ entVerts .triangle 1 i)

/-- The cubic with given values and derivatives at the ends of an edge. -/
def edgeCoef (i : ℕ) (z : ℚ) : List ℚ :=
  let t := (List.range 2).map fun j => (vert 2 ((entVerts .triangle 1 i).getD 1 0)).getD j 0 - (vert 2 ((entVerts .triangle 1 i).getD 0 0)).getD j 0
  [1 - 3 * z ^ 2 + 2 * z ^ 3, (z - 2 * z ^ 2 + z ^ 3) * t.getD 0 0, (z - 2 * z ^ 2 + z ^ 3) * t.getD 1 0,
    3 * z ^ 2 - 2 * z ^ 3, (z ^ 3 - z ^ 2) * t.getD 0 0, (z ^ 3 - z ^ 2) * t.getD 1 0, 0]

theorem edge_cert : ∀ i < 3, ∀ j : ℕ, j < 5 → ∀ b ∈ wuXuPolys 2, jetVal [(1, [], place 2 (entVerts .triangle 1 i) [(j : ℚ) / 4])] b =
    dotp (edgeCoef i ((j : ℚ) / 4)) ((edgeJets i).map fun g => jetVal g.2 b) := by decide +kernel

theorem vertex_values {c : Cell} (hc : Simplex c) {dofs : List (Dof ℝ (MvPolynomial ℕ ℝ))} {k : ℤ} {G : List ((ℕ × ℕ) × Jet)}
    (hG : List.Forall₂ (IsJet c.tdim k) dofs G) {n : ℕ} (hn : n < entityCount c 0) (hg : ((0, n), [(1, [], vert c.tdim n)]) ∈ G) {f : MvPolynomial ℕ ℝ}
    (hf : f ∈ P c.tdim k) (hz : ∀ d ∈ dofs, entVerts c d.entity.1 d.entity.2 ⊆ entVerts c 0 n → d.eval f = 0) (z : ℕ → ℝ) :
    eval ((entityDomain c (0, n)).param z) f = 0 := by
  obtain ⟨d, hd, hj⟩ := forall₂_mem_left hG hg
  obtain ⟨j1, t, ht, hj⟩ := hj
  have h0 := hz d hd (by rw [j1]; exact List.Subset.refl _)
  rw [hj f hf] at h0
  have h5 := (mul_eq_zero.1 h0).resolve_left ht
  rw [jetMap_apply] at h5
  simp only [List.map_cons, List.map_nil, List.sum_cons, List.sum_nil, add_zero, Rat.cast_one, one_mul, multiDeriv, LinearMap.id_apply] at h5
  have h7 : (entityDomain c (0, n)).param z = refVertex c n := phys_zero hc (refVertex c) hn z
  rw [h7, refVertex_pt hc (by have := entityCount_zero hc; omega), h5]

theorem wuXu_sub {c : Cell} (hc : Simplex c) : ∀ f ∈ wuXuSpace c.tdim, f ∈ P c.tdim (c.tdim + 2) := by
  intro f hf
  rw [← wuXu_lspan hc] at hf
  refine (Submodule.span_le.2 fun x hx => ?_ : lspan ((wuXuPolys c.tdim).map (denotePoly ℝ)) ≤ P c.tdim (c.tdim + 2)) hf
  obtain ⟨b, hb, rfl⟩ := List.mem_map.1 hx
  exact wuXu_mem hc b hb

/-- **C147.** The functionals of the entities of the Wu-Xu elements determine the values on the entities on intervals and triangles, and not on
tetrahedra, although all these elements are labelled C0. -/
theorem wuXu_C0_iff {c : Cell} (hc : Simplex c) {basis : List (MvPolynomial ℕ ℝ)} {dofs : List (Dof ℝ (MvPolynomial ℕ ℝ))}
    (he : wuXu c (c.tdim + 1) = some (.ciarlet basis dofs)) : C0Trace c (· ∈ wuXuSpace c.tdim) dofs ↔ c ≠ .tetrahedron := by
  obtain ⟨basis', dofs', fs, e1, -, -, -, -, e5, e6⟩ := wuXu_created hc
  obtain ⟨rfl, rfl⟩ : basis' = basis ∧ dofs' = dofs := by
    have := e1.symm.trans he
    simp only [Option.some.injEq, Element.ciarlet.injEq] at this
    exact this
  have hsub := wuXu_sub hc
  have hlsp := wuXu_lspan hc
  have hs := hc
  rcases hc with rfl | rfl | rfl
  · refine ⟨fun _ => by decide, fun _ => ?_⟩
    intro dim hdim i hi f hf hz z
    have hdim' : dim ≤ 1 := hdim
    interval_cases dim
    · have hi' : i < 2 := hi
      exact vertex_values hs e6 hi (by interval_cases i <;> decide +kernel) (hsub f hf) hz z
    · obtain rfl : i = 0 := by have : i < 1 := hi; omega
      rw [e5 f hf fun d hd => hz d hd ?_, map_zero]
      obtain ⟨g, hg, j1, -⟩ := forall₂_mem_right e6 hd
      rw [j1]
      have : ∀ g ∈ wuXuJets .interval, entVerts .interval g.1.1 g.1.2 ⊆ entVerts .interval 1 0 := by decide +kernel
      exact this g hg
  · refine ⟨fun _ => by decide, fun _ => ?_⟩
    intro dim hdim i hi f hf hz z
    have hdim' : dim ≤ 2 := hdim
    interval_cases dim
    · have hi' : i < 3 := hi
      exact vertex_values hs e6 hi (by interval_cases i <;> decide +kernel) (hsub f hf) hz z
    · have hi' : i < 3 := hi
      have hpart : Part .triangle (1, i) := Or.inl ⟨rfl, rfl, hi'⟩
      obtain ⟨-, -, a3, a4, a5⟩ := part_cell hpart
      have hzero : ∀ g ∈ (edgeJets i).map Prod.snd, jetMap g f = 0 := by
        intro g hg
        obtain ⟨g, hg', rfl⟩ := List.mem_map.1 hg
        obtain ⟨hg1, hg2⟩ := List.mem_filter.1 hg'
        obtain ⟨d, hd, j1, t, ht, hj⟩ := forall₂_mem_left e6 hg1
        have h0 := hz d hd (by rw [j1]; exact of_decide_eq_true hg2)
        rw [hj f (hsub f hf)] at h0
        exact (mul_eq_zero.1 h0).resolve_left ht
      have hq : pull (entityDomain .triangle (1, i)) f = 0 := by
        refine line_zero ?_ fun j hj => ?_
        · have := pull_mem (entityDomain .triangle (1, i)) (hsub f hf)
          exact this
        · rw [eval_pull, param_place hs a3 a4 (z := [(j : ℚ) / 4]) rfl a5]
          have h9 := implied (B := wuXuPolys 2) (T := [(1, [], place 2 (entVerts .triangle 1 i) [(j : ℚ) / 4])]) (n := edgeCoef i (j / 4))
            (fun b hb => by rw [edge_cert i hi' j hj b hb, List.map_map]; rfl) (f := f) (by rw [show lspan ((wuXuPolys 2).map (denotePoly ℝ)) = wuXuSpace 2 from hlsp]; exact hf) hzero
          rw [jetMap_apply] at h9
          have h10 : eval (pt (place 2 (entVerts .triangle 1 i) [(j : ℚ) / 4])) f = 0 := by simpa [multiDeriv] using h9
          exact h10
      rw [← eval_pull, hq, map_zero]
    · obtain rfl : i = 0 := by have : i < 1 := hi; omega
      rw [e5 f hf fun d hd => hz d hd ?_, map_zero]
      obtain ⟨g, hg, j1, -⟩ := forall₂_mem_right e6 hd
      rw [j1]
      have : ∀ g ∈ wuXuJets .triangle, entVerts .triangle g.1.1 g.1.2 ⊆ entVerts .triangle 2 0 := by decide +kernel
      exact this g hg
  · refine ⟨fun ht => absurd ht ?_, fun h => absurd rfl h⟩
    have hw : denotePoly ℝ [(1, [0, 2, 0]), (-2, [1, 2, 0]), (-2, [0, 3, 0]), (2, [1, 3, 0]), (1, [0, 4, 0])] ∈ P 3 4 := denotePoly_mem (by decide)
    exact not_C0Trace (e := (2, 3)) (Or.inr (Or.inr ⟨rfl, rfl, by decide⟩)) e6 [0, 1 / 2] _ (P_mono (by decide) hw) (Submodule.mem_sup_left hw) rfl
      (by decide +kernel)

end Verif.Smooth
