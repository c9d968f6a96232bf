import Mathlib.Data.Int.Notation
import Mathlib.Data.List.Basic
/-!
# Model of `symfem/polynomials/polysets.py`

A monomial `x^a y^b z^c` is the list `[a, b, c]` of its exponents (its length is the dimension).
A polynomial is a list of terms (coefficient, monomial), and a vector function a list of
polynomials.  The optional argument `variables` (always the tuple `x` in the callers modelled here)
is not modelled.  Orders are integers because callers pass `order - 1` etc., for which Python's
`range` is empty when negative.
-/

namespace Verif.Polysets

/-- Exponents of a monomial. -/
abbrev Mono := List ℕ

/-- A polynomial as a sum of terms. -/
abbrev Poly := List (ℤ × Mono)

/-- A vector function. -/
abbrev VecPoly := List Poly

/-- Python `range(n)`: empty for `n ≤ 0`. -/
def pyRange (n : ℤ) : List ℕ := List.range n.toNat

/-- `polynomial_set_1d` (`symfem/polynomials/polysets.py:12-40`); `none` is `ValueError`. -/
def polySet (dim : ℕ) (order : ℤ) : Option (List Mono) :=
  match dim with
  | 1 => some ((pyRange (order + 1)).map fun i : ℕ => [i])
  | 2 => some ((pyRange (order + 1)).flatMap fun j : ℕ =>
      (pyRange (order + 1 - j)).map fun i : ℕ => [i, j])
  | 3 => some ((pyRange (order + 1)).flatMap fun k : ℕ =>
      (pyRange (order + 1 - k)).flatMap fun j : ℕ =>
        (pyRange (order + 1 - k - j)).map fun i : ℕ => [i, j, k])
  | _ => none

/-- `itertools.product(range(n), repeat=d)`. -/
def prodRange (n : ℤ) : ℕ → List (List ℕ)
  | 0 => [[]]
  | d + 1 => (pyRange n).flatMap fun i : ℕ => (prodRange n d).map fun t => i :: t

/-- `quolynomial_set_1d` (`symfem/polynomials/polysets.py:168-187`). The Python code multiplies the
variables with `zip`, so it is only meaningful for `dim ≤ 3`. -/
def quolySet (dim : ℕ) (order : ℤ) : List Mono := prodRange (order + 1) dim

/-- `serendipity_indices` (`symfem/polynomials/polysets.py:266-290`), with the number of missing
entries `dim - len(done)` as recursion argument. -/
def serIndices (total linear : ℕ) : ℕ → List ℕ → List Mono
  | 0, done => if done.count 1 ≥ linear then [done] else []
  | 1, done =>
    let d := done ++ [total - done.sum]
    if d.count 1 ≥ linear then [d] else []
  | r + 2, done =>
    (List.range (total - done.sum + 1)).flatMap fun i : ℕ =>
      serIndices total linear (r + 1) (done ++ [i])

/-- `serendipity_set_1d` (`symfem/polynomials/polysets.py:293-313`). -/
def serSet (dim order : ℕ) : List Mono :=
  (List.range' (order + 1) dim).flatMap fun s : ℕ => serIndices s (s - order) dim []

/-- `prism_polynomial_set_1d` (`symfem/polynomials/polysets.py:456-475`), for `dim = 3`. -/
def prismSet (order : ℤ) : List Mono :=
  (pyRange (order + 1)).flatMap fun k : ℕ =>
    (pyRange (order + 1)).flatMap fun j : ℕ =>
      (pyRange (order + 1 - j)).map fun i : ℕ => [i, j, k]

/-- The index triples of `pyramid_polynomial_set_1d` (`symfem/polynomials/polysets.py:500-519`), for
`dim = 3`; the triple `[i, j, k]` stands for `x^i y^j z^k / (1-z)^min(i,j)`. -/
def pyramidSet (order : ℤ) : List Mono :=
  (pyRange (order + 1)).flatMap fun k : ℕ =>
    (pyRange (order + 1 - k)).flatMap fun i : ℕ =>
      (pyRange (order + 1 - k)).map fun j : ℕ => [i, j, k]

/-- The polynomial that is one monomial. -/
def monoPoly (m : Mono) : Poly := [(1, m)]

/-- `VectorFunction([p if i == j else 0 for j in range(range_dim)])`: the vector with `p` in
component `i`. -/
def unitVec (rangeDim : ℕ) (i : ℕ) (p : Poly) : VecPoly :=
  (List.range rangeDim).map fun j : ℕ => if i = j then p else []

/-- The comprehension shared by the vector-valued sets (`symfem/polynomials/polysets.py:58-62`,
`205-209`, `331-335`, `493-497`). -/
def vectorSet (rangeDim : ℕ) (set1d : List Mono) : List VecPoly :=
  set1d.flatMap fun p => (List.range rangeDim).map fun i : ℕ => unitVec rangeDim i (monoPoly p)

/-- `polynomial_set_vector` (`symfem/polynomials/polysets.py:43-62`). -/
def polySetVector (domainDim rangeDim : ℕ) (order : ℤ) : Option (List VecPoly) :=
  (polySet domainDim order).map (vectorSet rangeDim)

/-- `quolynomial_set_vector` (`symfem/polynomials/polysets.py:190-209`). -/
def quolySetVector (domainDim rangeDim : ℕ) (order : ℤ) : List VecPoly :=
  vectorSet rangeDim (quolySet domainDim order)

/-- `serendipity_set_vector` (`symfem/polynomials/polysets.py:316-335`). -/
def serSetVector (domainDim rangeDim order : ℕ) : List VecPoly :=
  vectorSet rangeDim (serSet domainDim order)

/-- `prism_polynomial_set_vector` (`symfem/polynomials/polysets.py:478-497`). -/
def prismSetVector (rangeDim : ℕ) (order : ℤ) : List VecPoly :=
  vectorSet rangeDim (prismSet order)

/-- `Hdiv_polynomials` (`symfem/polynomials/polysets.py:65-98`); `none` is `ValueError`. The
exponents `order - 1 - j` are never negative in the loops, so `order` is a natural number. -/
def hdivSet (dim order : ℕ) : Option (List VecPoly) :=
  match dim with
  | 2 => some ((List.range order).map fun j : ℕ =>
      [[(1, [order - 1 - j + 1, j])], [(1, [order - 1 - j, j + 1])]])
  | 3 => some ((List.range order).flatMap fun j : ℕ => (List.range (order - j)).map fun k : ℕ =>
      [[(1, [order - 1 - j - k + 1, j, k])], [(1, [order - 1 - j - k, j + 1, k])],
        [(1, [order - 1 - j - k, j, k + 1])]])
  | _ => none

/-- `Hcurl_polynomials` (`symfem/polynomials/polysets.py:101-165`); `none` is `ValueError`.
`range(1, n)` is `List.range' 1 (n - 1)`. -/
def hcurlSet (dim order : ℕ) : Option (List VecPoly) :=
  match dim with
  | 2 => some ((List.range order).map fun j : ℕ =>
      [[(1, [order - 1 - j, j + 1])], [(-1, [order - j, j])]])
  | 3 => some (
      ((List.range order).flatMap fun n : ℕ => (List.range' 1 (order - n)).map fun m : ℕ =>
        [[(1, [m - 1, n, order - m - n + 1])], [], [(-1, [m, n, order - m - n])]]) ++
      ((List.range order).flatMap fun m : ℕ => (List.range' 1 (order - m)).map fun n : ℕ =>
        [[], [(1, [m, n - 1, order - m - n + 1])], [(-1, [m, n, order - m - n])]]) ++
      ((List.range' 1 order).map fun n : ℕ =>
        [[(1, [order - n, n, 0])], [(-1, [order + 1 - n, n - 1, 0])], []]))
  | _ => none

/-- `Hdiv_quolynomials` (`symfem/polynomials/polysets.py:212-234`). -/
def hdivQuolySet (dim : ℕ) (order : ℕ) : List VecPoly :=
  (List.range dim).flatMap fun d : ℕ =>
    (prodRange order (dim - 1)).map fun j =>
      unitVec dim d (monoPoly (j.take d ++ [order] ++ j.drop d))

/-- `itertools.product(*ranges)` for ranges given by their bounds. -/
def prodRanges : List ℕ → List (List ℕ)
  | [] => [[]]
  | n :: ns => (List.range n).flatMap fun i : ℕ => (prodRanges ns).map fun t => i :: t

/-- `Hcurl_quolynomials` (`symfem/polynomials/polysets.py:237-263`). -/
def hcurlQuolySet (dim : ℕ) (order : ℕ) : List VecPoly :=
  (List.range dim).flatMap fun d : ℕ =>
    ((prodRanges ((List.range dim).map fun i : ℕ => if i = d then order else order + 1)).filter
      fun j => j.contains order).map fun j => unitVec dim d (monoPoly j)

/-- `polynomial_set` (`symfem/polynomials/polysets.py:544-572`); `none` is `ValueError`. For the
pyramid the list holds index triples, see `pyramidSet`. -/
def polynomialSet (cell : String) (order : ℤ) : Option (List Mono) :=
  if cell = "interval" then polySet 1 order
  else if cell = "triangle" then polySet 2 order
  else if cell = "tetrahedron" then polySet 3 order
  else if cell = "quadrilateral" then some (quolySet 2 order)
  else if cell = "hexahedron" then some (quolySet 3 order)
  else if cell = "pyramid" then some (pyramidSet order)
  else if cell = "prism" then some (prismSet order)
  else none

end Verif.Polysets
