import Verif.Polysets.Model
/-!
# Model of the H(div) and H(curl) serendipity sets in `symfem/polynomials/polysets.py`
-/

namespace Verif.Polysets

/-- The derivative of one term. -/
def diffTerm (i : ℕ) (t : ℤ × Mono) : ℤ × Mono :=
  (t.1 * (t.2.getD i 0 : ℕ), t.2.set i (t.2.getD i 0 - 1))

/-- `ScalarFunction.diff` (`symfem/functions.py:674-683`) on a polynomial, with sympy's derivative
taken term by term. -/
def diffPoly (i : ℕ) (p : Poly) : Poly := p.map (diffTerm i)

/-- The negative of a polynomial. -/
def negPoly (p : Poly) : Poly := p.map fun t => (-t.1, t.2)

/-- `VectorFunction.curl` (`symfem/functions.py:1225-1238`). -/
def curlVec (v : VecPoly) : VecPoly :=
  let c (i : ℕ) : Poly := v[i]?.getD []
  [diffPoly 1 (c 2) ++ negPoly (diffPoly 2 (c 1)),
   diffPoly 2 (c 0) ++ negPoly (diffPoly 0 (c 2)),
   diffPoly 0 (c 1) ++ negPoly (diffPoly 1 (c 0))]

/-- `VectorFunction.div` (`symfem/functions.py:1206-1215`). -/
def divVec (v : VecPoly) : Poly := (v.zipIdx.map fun pi => diffPoly pi.2 pi.1).flatten

/-- `tuple(p.diff(i) for i in variables)` (`symfem/polynomials/polysets.py:450`) and
`ScalarFunction.grad` (`symfem/functions.py:760-766`). -/
def gradPoly (dim : ℕ) (p : Poly) : VecPoly := (List.range dim).map fun i : ℕ => diffPoly i p

/-- The list `a` whose curls make up `Hdiv_serendipity` in 3D
(`symfem/polynomials/polysets.py:365-389`). The products with `p` are written out. -/
def hdivSerPotentials (order : ℕ) : List VecPoly :=
  if order = 0 then
    [[[], [(1, [1, 0, 1])], [(-1, [1, 1, 0])]], [[(1, [0, 1, 1])], [], [(-1, [1, 1, 0])]]]
  else
    (List.range (order + 1)).flatMap fun i : ℕ =>
      [ -- p = y^i z^(order-i)
        [[], [(1, [1, i, order - i + 1])], [(-1, [1, i + 1, order - i])]],
        -- p = x^i z^(order-i)
        [[(1, [i, 1, order - i + 1])], [], [(-1, [i + 1, 1, order - i])]],
        -- p = x^i y^(order-i)
        [[(1, [i, order - i + 1, 1])], [(-1, [i + 1, order - i, 1])], []]]

/-- `Hdiv_serendipity` (`symfem/polynomials/polysets.py:338-392`); `none` is
`NotImplementedError`. -/
def hdivSerSet (dim order : ℕ) : Option (List VecPoly) :=
  match dim with
  | 2 => some
      [[[(1, [order + 1, 0])], [((order : ℤ) + 1, [order, 1])]],
       [[((order : ℤ) + 1, [1, order])], [(1, [0, order + 1])]]]
  | 3 => some ((hdivSerPotentials order).map curlVec)
  | _ => none

/-- The first part of `Hcurl_serendipity` in 3D (`symfem/polynomials/polysets.py:420-447`). -/
def hcurlSerFirst (order : ℕ) : List VecPoly :=
  if order = 1 then
    [[[], [(1, [1, 0, 1])], [(-1, [1, 1, 0])]], [[(1, [0, 1, 1])], [], [(-1, [1, 1, 0])]]]
  else
    (List.range order).flatMap fun i : ℕ =>
      [ -- p = x^i z^(order-1-i)
        [[(1, [i, 1, order - 1 - i + 1])], [], [(-1, [i + 1, 1, order - 1 - i])]],
        -- p = y^i z^(order-1-i)
        [[], [(1, [1, i, order - 1 - i + 1])], [(-1, [1, i + 1, order - 1 - i])]],
        -- p = x^i y^(order-1-i)
        [[(1, [i, order - 1 - i + 1, 1])], [(-1, [i + 1, order - 1 - i, 1])], []]]

/-- `Hcurl_serendipity` (`symfem/polynomials/polysets.py:395-453`); `none` is
`NotImplementedError`. -/
def hcurlSerSet (dim order : ℕ) : Option (List VecPoly) :=
  match dim with
  | 2 => some
      [[[((order : ℤ) + 1, [order, 1])], [(-1, [order + 1, 0])]],
       [[(1, [0, order + 1])], [((order : ℤ) + 1, [1, order])]]]
  | 3 => some (hcurlSerFirst order ++
      (serSet 3 (order + 1)).map fun p => gradPoly 3 (monoPoly p))
  | _ => none

end Verif.Polysets
