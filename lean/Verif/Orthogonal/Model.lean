import Mathlib.Algebra.Algebra.Rat
import Mathlib.Data.Rat.Defs
import Mathlib.Algebra.Order.Ring.Nat
import Mathlib.Tactic.Ring

/-!
# Orthogonal polynomials (symfem/polynomials/legendre.py)

The functions of `symfem/polynomials/legendre.py` fill tables with assignments inside nested loops;
an entry is computed from entries filled before. Functions are elements of an arbitrary commutative
`ℚ`-algebra `A` (polynomials, rational functions, numbers, functions on a set), and the variables are
elements of `A`. A table is a map from a row (derivative index) and a column to `A`.

Simplifications: several `+=` to one entry in a row are one assignment of the sum; the entries that
Python would refuse to write (index out of range) are written here, and
`Verif.Orthogonal.PropsIndex` proves that there are none.
-/

namespace Verif.Orthogonal

variable {A : Type*} [CommRing A] [Algebra ℚ A]

/-- One assignment `poly[row][col] = val`, with `val` computed from the current table. -/
structure Step (A : Type*) where
  row : ℕ
  col : ℕ
  val : (ℕ → ℕ → A) → A

/-- Execute an assignment. -/
def Step.run (T : ℕ → ℕ → A) (s : Step A) : ℕ → ℕ → A :=
  fun d i => if d = s.row ∧ i = s.col then s.val T else T d i

/-- Execute assignments in order. -/
def fill (T : ℕ → ℕ → A) (steps : List (Step A)) : ℕ → ℕ → A :=
  steps.foldl Step.run T

/-- The table as a Python list of lists with `D` rows of length `N`. -/
def listing (D N : ℕ) (T : ℕ → ℕ → A) : List (List A) :=
  (List.range D).map fun d => (List.range N).map fun i => T d i

/-- `if c: out += a` -/
def addIf (c : Prop) [Decidable c] (a : A) : A := if c then a else 0

/-- `_jrc` (symfem/polynomials/legendre.py:13-33), first component. -/
def jrcA (a n : ℚ) : ℚ := (a + 2 * n + 1) * (a + 2 * n + 2) / (2 * (n + 1) * (a + n + 1))

/-- `_jrc` (symfem/polynomials/legendre.py:13-33), second component. -/
def jrcB (a n : ℚ) : ℚ :=
  a * a * (a + 2 * n + 1) / (2 * (n + 1) * (a + n + 1) * (a + 2 * n))

/-- `_jrc` (symfem/polynomials/legendre.py:13-33), third component. -/
def jrcC (a n : ℚ) : ℚ :=
  n * (a + n) * (a + 2 * n + 2) / ((n + 1) * (a + n + 1) * (a + 2 * n))

/-! ### Interval -/

/-- The values of the loop variables in `orthogonal_basis_interval`
(symfem/polynomials/legendre.py:54-55): `(dx, i)`. -/
def intervalLoop (order derivs : ℕ) : List (ℕ × ℕ) :=
  (List.range (derivs + 1)).flatMap fun dx =>
    (List.range order).map fun i => (dx, i + 1)

/-- The value assigned in `orthogonal_basis_interval` (symfem/polynomials/legendre.py:56-60). -/
def intervalVal (x : A) (T : ℕ → ℕ → A) (dx i : ℕ) : A :=
  ((2 * i - 1 : ℚ) / i) • (T dx (i - 1) * (2 * x - 1))
    + addIf (dx > 0) ((2 * dx * (2 * i - 1 : ℚ) / i) • T (dx - 1) (i - 1))
    - addIf (i > 1) (((i - 1 : ℚ) / i) • T dx (i - 2))

/-- The table at the start (symfem/polynomials/legendre.py:51-53). -/
def intervalInit : ℕ → ℕ → A := fun d _ => if d = 0 then 1 else 0

/-- `orthogonal_basis_interval` (symfem/polynomials/legendre.py:36-61), as a table. -/
def intervalTable (x : A) (order derivs : ℕ) : ℕ → ℕ → A :=
  fill intervalInit ((intervalLoop order derivs).map fun s =>
    ⟨s.1, s.2, fun T => intervalVal x T s.1 s.2⟩)

/-- `orthogonal_basis_interval` (symfem/polynomials/legendre.py:36-61). -/
def orthogonalInterval (x : A) (order derivs : ℕ) : List (List A) :=
  listing (derivs + 1) (order + 1) (intervalTable x order derivs)

/-! ### Triangle -/

/-- `index` in `orthogonal_basis_triangle` (symfem/polynomials/legendre.py:79-81), also `d_index`
(164-166) and `d_index_tri` (386-388). -/
def triIndex (p q : ℕ) : ℕ := (p + q + 1) * (p + q) / 2 + q

/-- The values of the loop variables in `orthogonal_basis_triangle`
(symfem/polynomials/legendre.py:90-92,133): `(dx, dy, p, q)`; `q = 0` stands for lines 93-131. -/
def triLoop (order derivs : ℕ) : List (ℕ × ℕ × ℕ × ℕ) :=
  (List.range (derivs + 1)).flatMap fun dx =>
    (List.range (derivs + 1 - dx)).flatMap fun dy =>
      (List.range (order + 1)).flatMap fun p =>
        (List.range (order - p + 1)).map fun q => (dx, dy, p, q)

/-- The value assigned to `poly[d_index(dx, dy)][index(0, p)]` in `orthogonal_basis_triangle`
(symfem/polynomials/legendre.py:93-131). `R dx dy q p` reads `poly[d_index(dx, dy)][index(q, p)]`. -/
def triVal0 (x y : A) (R : ℕ → ℕ → ℕ → ℕ → A) (dx dy p : ℕ) : A :=
  if p = 0 then (if dx = 0 ∧ dy = 0 then 1 else 0)
  else
    (2 - 1 / p : ℚ) • (R dx dy 0 (p - 1) * (2 * x + y - 1))
      + addIf (dy > 0) ((dy * (2 - 1 / p : ℚ)) • R dx (dy - 1) 0 (p - 1))
      + addIf (dx > 0) ((2 * dx * (2 - 1 / p : ℚ)) • R (dx - 1) dy 0 (p - 1))
      - addIf (p > 1) ((1 - 1 / p : ℚ) • (R dx dy 0 (p - 2) * (1 - y) ^ 2))
      + addIf (p > 1 ∧ dy > 0)
        ((2 * dy * (1 - 1 / p : ℚ)) • ((1 - y) * R dx (dy - 1) 0 (p - 2)))
      - addIf (p > 1 ∧ dy > 1)
        ((dy * (dy - 1 : ℚ) * (1 - 1 / p : ℚ)) • R dx (dy - 2) 0 (p - 2))

/-- The value assigned to `poly[d_index(dx, dy)][index(q, p)]` for `q > 0` in
`orthogonal_basis_triangle` (symfem/polynomials/legendre.py:133-145). -/
def triVal1 (y : A) (R : ℕ → ℕ → ℕ → ℕ → A) (dx dy p q : ℕ) : A :=
  R dx dy (q - 1) p * (jrcA (2 * p + 1) (q - 1) • (2 * y - 1)
      + algebraMap ℚ A (jrcB (2 * p + 1) (q - 1)))
    - addIf (q > 1) (jrcC (2 * p + 1) (q - 1) • R dx dy (q - 2) p)
    + addIf (dy > 0) ((2 * dy * jrcA (2 * p + 1) (q - 1)) • R dx (dy - 1) (q - 1) p)

/-- Read an entry of the triangle table. -/
def triRead (T : ℕ → ℕ → A) (dx dy q p : ℕ) : A := T (triIndex dx dy) (triIndex q p)

/-- The assignment made for given values of the loop variables. -/
def triStep (x y : A) (s : ℕ × ℕ × ℕ × ℕ) : Step A :=
  ⟨triIndex s.1 s.2.1, triIndex s.2.2.2 s.2.2.1, fun T =>
    if s.2.2.2 = 0 then triVal0 x y (triRead T) s.1 s.2.1 s.2.2.1
    else triVal1 y (triRead T) s.1 s.2.1 s.2.2.1 s.2.2.2⟩

/-- `orthogonal_basis_triangle` (symfem/polynomials/legendre.py:64-146), as a table. -/
def triTable (x y : A) (order derivs : ℕ) : ℕ → ℕ → A :=
  fill (fun _ _ => 0) ((triLoop order derivs).map (triStep x y))

/-- `orthogonal_basis_triangle` (symfem/polynomials/legendre.py:64-146). -/
def orthogonalTriangle (x y : A) (order derivs : ℕ) : List (List A) :=
  listing ((derivs + 1) * (derivs + 2) / 2) ((order + 1) * (order + 2) / 2)
    (triTable x y order derivs)

/-! ### Tetrahedron -/

/-- `index` in `orthogonal_basis_tetrahedron` (symfem/polynomials/legendre.py:195-197), also
`d_index` (351-353, 390-392, 431-433). -/
def tetIndex (p q r : ℕ) : ℕ :=
  (p + q + r) * (p + q + r + 1) * (p + q + r + 2) / 6 + (q + r) * (q + r + 1) / 2 + r

/-- The values of the loop variables in `orthogonal_basis_tetrahedron`
(symfem/polynomials/legendre.py:205-208,281,317): `(dx, dy, dz, p, q, r)`; `q = r = 0` stands for
lines 209-279 and `q > 0`, `r = 0` for lines 282-315. -/
def tetLoop (order derivs : ℕ) : List (ℕ × ℕ × ℕ × ℕ × ℕ × ℕ) :=
  (List.range (derivs + 1)).flatMap fun dx =>
    (List.range (derivs + 1 - dx)).flatMap fun dy =>
      (List.range (derivs + 1 - dx - dy)).flatMap fun dz =>
        (List.range (order + 1)).flatMap fun p =>
          (List.range (order - p + 1)).flatMap fun q =>
            (List.range (order - p - q + 1)).map fun r => (dx, dy, dz, p, q, r)

/-- The value assigned to `poly[d_index(dx, dy, dz)][index(0, 0, p)]` in
`orthogonal_basis_tetrahedron` (symfem/polynomials/legendre.py:209-279).
`R dx dy dz r q p` reads `poly[d_index(dx, dy, dz)][index(r, q, p)]`. -/
def tetVal0 (x y z : A) (R : ℕ → ℕ → ℕ → ℕ → ℕ → ℕ → A) (dx dy dz p : ℕ) : A :=
  if p = 0 then (if dx = 0 ∧ dy = 0 ∧ dz = 0 then 1 else 0)
  else
    (2 - 1 / p : ℚ) • (R dx dy dz 0 0 (p - 1) * (2 * x + y + z - 1))
      + addIf (dx > 0) ((2 * dx * (2 - 1 / p : ℚ)) • R (dx - 1) dy dz 0 0 (p - 1))
      + addIf (dy > 0) ((dy * (2 - 1 / p : ℚ)) • R dx (dy - 1) dz 0 0 (p - 1))
      + addIf (dz > 0) ((dz * (2 - 1 / p : ℚ)) • R dx dy (dz - 1) 0 0 (p - 1))
      - addIf (p > 1) ((1 - 1 / p : ℚ) • (R dx dy dz 0 0 (p - 2) * (y + z - 1) ^ 2))
      - addIf (p > 1 ∧ dy > 0)
        ((2 * dy * (1 - 1 / p : ℚ)) • (R dx (dy - 1) dz 0 0 (p - 2) * (y + z - 1)))
      - addIf (p > 1 ∧ dy > 1)
        ((dy * (dy - 1 : ℚ) * (1 - 1 / p : ℚ)) • R dx (dy - 2) dz 0 0 (p - 2))
      - addIf (p > 1 ∧ dz > 0)
        ((2 * dz * (1 - 1 / p : ℚ)) • (R dx dy (dz - 1) 0 0 (p - 2) * (y + z - 1)))
      - addIf (p > 1 ∧ dz > 1)
        ((dz * (dz - 1 : ℚ) * (1 - 1 / p : ℚ)) • R dx dy (dz - 2) 0 0 (p - 2))
      - addIf (p > 1 ∧ dz > 0 ∧ dy > 0)
        ((2 * dz * dy * (1 - 1 / p : ℚ)) • R dx (dy - 1) (dz - 1) 0 0 (p - 2))

/-- The value assigned to `poly[d_index(dx, dy, dz)][index(0, q, p)]` for `q > 0` in
`orthogonal_basis_tetrahedron` (symfem/polynomials/legendre.py:282-315). -/
def tetVal1 (y z : A) (R : ℕ → ℕ → ℕ → ℕ → ℕ → ℕ → A) (dx dy dz p q : ℕ) : A :=
  R dx dy dz 0 (q - 1) p * (jrcA (2 * p + 1) (q - 1) • (2 * y + z - 1)
      + jrcB (2 * p + 1) (q - 1) • (1 - z))
    + addIf (dy > 0) ((2 * jrcA (2 * p + 1) (q - 1) * dy) • R dx (dy - 1) dz 0 (q - 1) p)
    + addIf (dz > 0) (((jrcA (2 * p + 1) (q - 1) - jrcB (2 * p + 1) (q - 1)) * dz) •
        R dx dy (dz - 1) 0 (q - 1) p)
    - addIf (q > 1) (jrcC (2 * p + 1) (q - 1) • (R dx dy dz 0 (q - 2) p * (1 - z) ^ 2))
    + addIf (q > 1 ∧ dz > 0)
        ((2 * dz * jrcC (2 * p + 1) (q - 1)) • (R dx dy (dz - 1) 0 (q - 2) p * (1 - z)))
    - addIf (q > 1 ∧ dz > 1)
        ((dz * (dz - 1 : ℚ) * jrcC (2 * p + 1) (q - 1)) • R dx dy (dz - 2) 0 (q - 2) p)

/-- The value assigned to `poly[d_index(dx, dy, dz)][index(r, q, p)]` for `r > 0` in
`orthogonal_basis_tetrahedron` (symfem/polynomials/legendre.py:317-329). -/
def tetVal2 (z : A) (R : ℕ → ℕ → ℕ → ℕ → ℕ → ℕ → A) (dx dy dz p q r : ℕ) : A :=
  R dx dy dz (r - 1) q p * (jrcA (2 * p + 2 * q + 2) (r - 1) • (2 * z - 1)
      + algebraMap ℚ A (jrcB (2 * p + 2 * q + 2) (r - 1)))
    + addIf (dz > 0)
        ((2 * jrcA (2 * p + 2 * q + 2) (r - 1) * dz) • R dx dy (dz - 1) (r - 1) q p)
    - addIf (r > 1) (jrcC (2 * p + 2 * q + 2) (r - 1) • R dx dy dz (r - 2) q p)

/-- Read an entry of the tetrahedron table. -/
def tetRead (T : ℕ → ℕ → A) (dx dy dz r q p : ℕ) : A := T (tetIndex dx dy dz) (tetIndex r q p)

/-- The assignment made for given values of the loop variables. -/
def tetStep (x y z : A) : ℕ × ℕ × ℕ × ℕ × ℕ × ℕ → Step A
  | (dx, dy, dz, p, q, r) => ⟨tetIndex dx dy dz, tetIndex r q p, fun T =>
    if r = 0 then
      if q = 0 then tetVal0 x y z (tetRead T) dx dy dz p
      else tetVal1 y z (tetRead T) dx dy dz p q
    else tetVal2 z (tetRead T) dx dy dz p q r⟩

/-- `orthogonal_basis_tetrahedron` (symfem/polynomials/legendre.py:180-331), as a table. -/
def tetTable (x y z : A) (order derivs : ℕ) : ℕ → ℕ → A :=
  fill (fun _ _ => 0) ((tetLoop order derivs).map (tetStep x y z))

/-- `orthogonal_basis_tetrahedron` (symfem/polynomials/legendre.py:180-331). -/
def orthogonalTetrahedron (x y z : A) (order derivs : ℕ) : List (List A) :=
  listing ((derivs + 1) * (derivs + 2) * (derivs + 3) / 6)
    ((order + 1) * (order + 2) * (order + 3) / 6) (tetTable x y z order derivs)

/-! ### Quadrilateral, hexahedron, prism -/

/-- `[a * b for a in l for b in l']` -/
def products (l l' : List A) : List A := l.flatMap fun a => l'.map fun b => a * b

/-- Row `i` of a list of lists (the empty row if there is none). -/
def rowOf (l : List (List A)) (i : ℕ) : List A := (l[i]?).getD []

/-- Set rows of a table of `D` rows of zeros of length `N`, in order. -/
def setRows (D N : ℕ) (rows : List (ℕ × List A)) : List (List A) :=
  rows.foldl (fun t r => t.set r.1 r.2) (List.replicate D (List.replicate N 0))

/-- `orthogonal_basis_quadrilateral` (symfem/polynomials/legendre.py:149-177). -/
def orthogonalQuadrilateral (x y : A) (order derivs : ℕ) : List (List A) :=
  let p0 := orthogonalInterval x order derivs
  let p1 := orthogonalInterval y order derivs
  setRows ((derivs + 1) * (derivs + 2) / 2) ((order + 1) ^ 2)
    ((List.range (derivs + 1)).flatMap fun i => (List.range (derivs + 1 - i)).map fun j =>
      (triIndex i j, products (rowOf p0 i) (rowOf p1 j)))

/-- `orthogonal_basis_hexahedron` (symfem/polynomials/legendre.py:334-366). -/
def orthogonalHexahedron (x y z : A) (order derivs : ℕ) : List (List A) :=
  let p0 := orthogonalInterval x order derivs
  let p1 := orthogonalInterval y order derivs
  let p2 := orthogonalInterval z order derivs
  setRows ((derivs + 1) * (derivs + 2) * (derivs + 3) / 6) ((order + 1) ^ 3)
    ((List.range (derivs + 1)).flatMap fun i => (List.range (derivs + 1 - i)).flatMap fun j =>
      (List.range (derivs + 1 - i - j)).map fun k =>
        (tetIndex i j k, products (products (rowOf p0 i) (rowOf p1 j)) (rowOf p2 k)))

/-- `orthogonal_basis_prism` (symfem/polynomials/legendre.py:369-404). -/
def orthogonalPrism (x y z : A) (order derivs : ℕ) : List (List A) :=
  let p01 := orthogonalTriangle x y order derivs
  let p2 := orthogonalInterval z order derivs
  setRows ((derivs + 1) * (derivs + 2) * (derivs + 3) / 6) ((order + 1) * (order + 1) * (order + 2) / 2)
    ((List.range (derivs + 1)).flatMap fun i => (List.range (derivs + 1 - i)).flatMap fun j =>
      (List.range (derivs + 1 - i - j)).map fun k =>
        (tetIndex i j k, products (rowOf p01 (triIndex i j)) (rowOf p2 k)))

/-! ### Pyramid -/

/-- `index` in `orthogonal_basis_pyramid` (symfem/polynomials/legendre.py:422-429). -/
def pyrIndexInt (order i j k : ℤ) : ℤ :=
  let out := k + j * (order + 1) + i * (order + 1) * (order + 2) / 2 - i * (i ^ 2 + 5) / 6
  if i > j then out - i * (j - 1)
  else out - (j * (j - 1) / 2 + i * (i - 1) / 2)

/-- The index as a natural number (it is never negative, `pyrIndex_cast`). -/
def pyrIndex (order i j k : ℕ) : ℕ := (pyrIndexInt order i j k).toNat

/-- `combinations` in `orthogonal_basis_pyramid` (symfem/polynomials/legendre.py:435-440):
`n * (n-1) * … * (n-k+1)`, for `k ≤ n`. -/
def combinations (n k : ℕ) : ℕ := ((List.range k).map fun i => n - i).prod

/-- The values of the loop variables in `orthogonal_basis_pyramid`
(symfem/polynomials/legendre.py:446-448,451,499,603): `(dx, dy, dz, i, j, k)`; `k = 0` stands for line
449, lines 452-497 and lines 500-601. -/
def pyrLoop (order derivs : ℕ) : List (ℕ × ℕ × ℕ × ℕ × ℕ × ℕ) :=
  (List.range (derivs + 1)).flatMap fun dx =>
    (List.range (derivs + 1 - dx)).flatMap fun dy =>
      (List.range (derivs + 1 - dx - dy)).flatMap fun dz =>
        (List.range (order + 1)).flatMap fun i =>
          (List.range (order + 1)).flatMap fun j =>
            (List.range (order + 1 - max i j)).map fun k => (dx, dy, dz, i, j, k)

/-- The value assigned to `poly[d_index(dx, dy, dz)][index(i, 0, 0)]` in `orthogonal_basis_pyramid`
(symfem/polynomials/legendre.py:449-497). `R dx dy dz i j k` reads
`poly[d_index(dx, dy, dz)][index(i, j, k)]`. -/
def pyrVal0 (x z : A) (R : ℕ → ℕ → ℕ → ℕ → ℕ → ℕ → A) (dx dy dz i : ℕ) : A :=
  if i = 0 then (if dx = 0 ∧ dy = 0 ∧ dz = 0 then 1 else 0)
  else
    ((2 * i - 1 : ℚ) / i) • (R dx dy dz (i - 1) 0 0 * (2 * x + z - 1))
      + addIf (dx > 0) ((2 * dx * (2 * i - 1 : ℚ) / i) • R (dx - 1) dy dz (i - 1) 0 0)
      + addIf (dz > 0) ((dz * (2 * i - 1 : ℚ) / i) • R dx dy (dz - 1) (i - 1) 0 0)
      - addIf (i > 1) (((i - 1 : ℚ) / i) • (R dx dy dz (i - 2) 0 0 * (1 - z) ^ 2))
      + addIf (i > 1 ∧ dz > 0)
        ((2 * dz * (i - 1 : ℚ) / i) • (R dx dy (dz - 1) (i - 2) 0 0 * (1 - z)))
      - addIf (i > 1 ∧ dz > 1)
        ((dz * (dz - 1 : ℚ) * (i - 1 : ℚ) / i) • R dx dy (dz - 2) (i - 2) 0 0)

/-- The value assigned to `poly[d_index(dx, dy, dz)][index(i, j, 0)]` for `0 < j ≤ i` in
`orthogonal_basis_pyramid` (symfem/polynomials/legendre.py:501-536,559-563). `w` stands for
`1 / (1 - z)`. -/
def pyrVal1 (y w : A) (R : ℕ → ℕ → ℕ → ℕ → ℕ → ℕ → A) (dx dy dz i j : ℕ) : A :=
  ((2 * j - 1 : ℚ) / j) • (R dx dy dz i (j - 1) 0 * (2 * y * w - 1))
    + addIf (dy > 0)
        ((2 * dy * (2 * j - 1 : ℚ) / j) • (R dx (dy - 1) dz i (j - 1) 0 * w))
    + ((List.range dz).map fun e =>
        ((combinations dz (e + 1) * 2 * (2 * j - 1 : ℚ) / j) •
          (R dx dy (dz - (e + 1)) i (j - 1) 0 * y * w ^ (e + 2)))
        + addIf (dy > 0) ((combinations dz (e + 1) * dy * 2 * (2 * j - 1 : ℚ) / j) •
          (R dx (dy - 1) (dz - (e + 1)) i (j - 1) 0 * w ^ (e + 2)))).sum
    - addIf (j > 1) (((j - 1 : ℚ) / j) • R dx dy dz i (j - 2) 0)

/-- The value assigned to `poly[d_index(dx, dy, dz)][index(i, j, 0)]` for `i < j` in
`orthogonal_basis_pyramid` (symfem/polynomials/legendre.py:537-558,559,564-601). -/
def pyrVal2 (y z : A) (R : ℕ → ℕ → ℕ → ℕ → ℕ → ℕ → A) (dx dy dz i j : ℕ) : A :=
  ((2 * j - 1 : ℚ) / j) • (R dx dy dz i (j - 1) 0 * (2 * y + z - 1))
    + addIf (dy > 0) ((2 * dy * (2 * j - 1 : ℚ) / j) • R dx (dy - 1) dz i (j - 1) 0)
    + addIf (dz > 0) ((dz * (2 * j - 1 : ℚ) / j) • R dx dy (dz - 1) i (j - 1) 0)
    - addIf (j > 1 ∧ i + 1 = j) (((j - 1 : ℚ) / j) • (R dx dy dz i (j - 2) 0 * (1 - z)))
    + addIf (j > 1 ∧ i + 1 = j ∧ dz > 0)
        ((dz * (j - 1 : ℚ) / j) • R dx dy (dz - 1) i (j - 2) 0)
    - addIf (j > 1 ∧ i + 1 ≠ j) (((j - 1 : ℚ) / j) • (R dx dy dz i (j - 2) 0 * (1 - z) ^ 2))
    + addIf (j > 1 ∧ i + 1 ≠ j ∧ dz > 0)
        ((2 * dz * (j - 1 : ℚ) / j) • (R dx dy (dz - 1) i (j - 2) 0 * (1 - z)))
    - addIf (j > 1 ∧ i + 1 ≠ j ∧ dz > 1)
        ((dz * (dz - 1 : ℚ) * (j - 1 : ℚ) / j) • R dx dy (dz - 2) i (j - 2) 0)

/-- The value assigned to `poly[d_index(dx, dy, dz)][index(i, j, k)]` for `k > 0` in
`orthogonal_basis_pyramid` (symfem/polynomials/legendre.py:603-620). -/
def pyrVal3 (z : A) (R : ℕ → ℕ → ℕ → ℕ → ℕ → ℕ → A) (dx dy dz i j k : ℕ) : A :=
  jrcA (2 * (max i j : ℕ) + 2) (k - 1) • (R dx dy dz i j (k - 1) * (2 * z - 1))
    + addIf (dz > 0)
        ((jrcA (2 * (max i j : ℕ) + 2) (k - 1) * 2 * dz) • R dx dy (dz - 1) i j (k - 1))
    + jrcB (2 * (max i j : ℕ) + 2) (k - 1) • R dx dy dz i j (k - 1)
    - addIf (k > 1) (jrcC (2 * (max i j : ℕ) + 2) (k - 1) • R dx dy dz i j (k - 2))

/-- Read an entry of the pyramid table. -/
def pyrRead (order : ℕ) (T : ℕ → ℕ → A) (dx dy dz i j k : ℕ) : A :=
  T (tetIndex dx dy dz) (pyrIndex order i j k)

/-- The assignment made for given values of the loop variables. -/
def pyrStep (x y z w : A) (order : ℕ) : ℕ × ℕ × ℕ × ℕ × ℕ × ℕ → Step A
  | (dx, dy, dz, i, j, k) => ⟨tetIndex dx dy dz, pyrIndex order i j k, fun T =>
    if k = 0 then
      if j = 0 then pyrVal0 x z (pyrRead order T) dx dy dz i
      else if i ≥ j then pyrVal1 y w (pyrRead order T) dx dy dz i j
      else pyrVal2 y z (pyrRead order T) dx dy dz i j
    else pyrVal3 z (pyrRead order T) dx dy dz i j k⟩

/-- `orthogonal_basis_pyramid` (symfem/polynomials/legendre.py:407-622), as a table. -/
def pyrTable (x y z w : A) (order derivs : ℕ) : ℕ → ℕ → A :=
  fill (fun _ _ => 0) ((pyrLoop order derivs).map (pyrStep x y z w order))

/-- `orthogonal_basis_pyramid` (symfem/polynomials/legendre.py:407-622). -/
def orthogonalPyramid (x y z w : A) (order derivs : ℕ) : List (List A) :=
  listing ((derivs + 1) * (derivs + 2) * (derivs + 3) / 6)
    ((2 * order + 3) * (order + 2) * (order + 1) / 6) (pyrTable x y z w order derivs)

end Verif.Orthogonal
