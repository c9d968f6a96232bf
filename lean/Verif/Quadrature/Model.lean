import Mathlib.Analysis.Real.Sqrt
/-!
# Model of `symfem/quadrature.py`

sympy's exact scalars are real numbers. A rule is a list of points and a list of weights.
-/

namespace Verif.Quadrature

/-- Points and weights. -/
abbrev Rule := List ℝ × List ℝ

/-- How a call can fail. -/
inductive Err where
  /-- `NotImplementedError` -/
  | notImplemented
  /-- `ValueError` (unknown rule name) -/
  | valueError
  /-- no exception, but the result has `nan`/`zoo` in it instead of numbers -/
  | notANumber
  deriving DecidableEq

/-- `equispaced` (`symfem/quadrature.py:12-27`). For `n = 1` Python computes `Rational(0, 0)` and
`Rational(1, 0)`, which are `nan` and `zoo`. -/
noncomputable def equispaced (n : ℕ) : Except Err Rule :=
  if n = 1 then .error .notANumber
  else .ok (
    (List.range n).map (fun i : ℕ => (i : ℝ) / ((n : ℝ) - 1)),
    (List.range n).map (fun i : ℕ =>
      if i = 0 ∨ i = n - 1 then 1 / (2 * ((n : ℝ) - 1)) else 1 / ((n : ℝ) - 1)))

/-- `lobatto` (`symfem/quadrature.py:30-113`). -/
noncomputable def lobatto (n : ℕ) : Except Err Rule :=
  if n = 2 then .ok ([0, 1], [1 / 2, 1 / 2])
  else if n = 3 then .ok ([0, 1 / 2, 1], [1 / 6, 2 / 3, 1 / 6])
  else if n = 4 then
    .ok ([0, (1 - 1 / √5) / 2, (1 + 1 / √5) / 2, 1], [1 / 12, 5 / 12, 5 / 12, 1 / 12])
  else if n = 5 then
    .ok ([0, (1 - √3 / √7) / 2, 1 / 2, (1 + √3 / √7) / 2, 1],
      [1 / 20, 49 / 180, 16 / 45, 49 / 180, 1 / 20])
  else if n = 6 then
    .ok ([0,
        (1 - √(1 / 3 + 2 * √7 / 21)) / 2,
        (1 - √(1 / 3 - 2 * √7 / 21)) / 2,
        (1 + √(1 / 3 - 2 * √7 / 21)) / 2,
        (1 + √(1 / 3 + 2 * √7 / 21)) / 2,
        1],
      [1 / 30, (14 - √7) / 60, (14 + √7) / 60, (14 + √7) / 60, (14 - √7) / 60, 1 / 30])
  else if n = 7 then
    .ok ([0,
        (1 - √((5 + 2 * √5 / √3) / 11)) / 2,
        (1 - √((5 - 2 * √5 / √3) / 11)) / 2,
        1 / 2,
        (1 + √((5 - 2 * √5 / √3) / 11)) / 2,
        (1 + √((5 + 2 * √5 / √3) / 11)) / 2,
        1],
      [1 / 42, (124 - 7 * √15) / 700, (124 + 7 * √15) / 700, 128 / 525,
        (124 + 7 * √15) / 700, (124 - 7 * √15) / 700, 1 / 42])
  else .error .notImplemented

/-- `radau` (`symfem/quadrature.py:116-132`). -/
noncomputable def radau (n : ℕ) : Except Err Rule :=
  if n = 2 then .ok ([0, 2 / 3], [1 / 4, 3 / 4])
  else if n = 3 then
    .ok ([0, (6 - √6) / 10, (6 + √6) / 10], [1 / 9, (16 + √6) / 36, (16 - √6) / 36])
  else .error .notImplemented

/-- `legendre` (`symfem/quadrature.py:135-157`). -/
noncomputable def legendre (n : ℕ) : Except Err Rule :=
  if n = 1 then .ok ([1 / 2], [1])
  else if n = 2 then .ok ([(3 - √3) / 6, (3 + √3) / 6], [1 / 2, 1 / 2])
  else if n = 3 then
    .ok ([(5 - √15) / 10, 1 / 2, (5 + √15) / 10], [5 / 18, 4 / 9, 5 / 18])
  else .error .notImplemented

/-- `get_quadrature` (`symfem/quadrature.py:160-181`). -/
noncomputable def getQuadrature (rule : String) (n : ℕ) : Except Err Rule :=
  if rule = "equispaced" then equispaced n
  else if rule = "lobatto" then lobatto n
  else if rule = "gll" then lobatto n
  else if rule = "radau" then radau n
  else if rule = "legendre" then legendre n
  else .error .valueError

end Verif.Quadrature
