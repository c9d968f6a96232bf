import Verif.Families.CR
import Mathlib.Analysis.SpecialFunctions.Integrals.Basic
/-!
# Kong–Mulder–Veldhuizen elements

`symfem/elements/kmv.py`.  The functionals are weighted point evaluations whose points and weights are meant to be a
quadrature rule.
-/

namespace Verif.Families
open Verif.References Verif.Quadrature Verif.Polysets Verif.Elements Verif.FiniteElement Verif.Orthogonal MvPolynomial

/-- A `WeightedPointEvaluation` functional (symfem/functionals.py:308-342). -/
structure WeightedDof where
  point : ℕ → ℝ
  weight : ℝ
  entity : ℕ × ℕ

/-- Its action on polynomials: `function.subs(x, self.point) * self.weight`. -/
noncomputable def WeightedDof.functional (d : WeightedDof) : Dof ℝ (MvPolynomial ℕ ℝ) :=
  ⟨0, d.entity, some "identity", (aeval d.point).toLinearMap.smulRight d.weight⟩

/-- `kmv_tri_polyset` (symfem/elements/kmv.py:21-37). -/
noncomputable def kmvTriPolyset (m mf : ℕ) : Option (List (MvPolynomial ℕ ℝ)) :=
  (polySet 2 m).map fun l => l.map (denoteMono ℝ) ++
    (List.range (mf - 2)).map fun p => X 0 ^ p * X 1 ^ (mf - 3 - p) * (X 0 * X 1 * (1 - X 0 - X 1))

/-- `kmv_tet_polyset` (symfem/elements/kmv.py:40-66); for the parameters of the calls, for which no exponent is
negative. -/
noncomputable def kmvTetPolyset (m mf mi : ℕ) : Option (List (MvPolynomial ℕ ℝ)) :=
  (polySet 3 m).map fun l => l.map (denoteMono ℝ) ++
    ([(X 0, X 1), (X 0, X 2), (X 1, X 2), (X 1 - X 0, X 2 - X 0)].flatMap fun axes =>
      (List.range (mf - 2)).flatMap fun i => (List.range (mf - 2 - i)).map fun j =>
        X 0 ^ i * X 1 ^ j * X 2 ^ (mf - 3 - i - j) * (axes.1 * axes.2 * (1 - axes.1 - axes.2))) ++
    (List.range (mi - 3)).flatMap fun i => (List.range (mi - 3 - i)).map fun j =>
      X 0 ^ i * X 1 ^ j * X 2 ^ (mf - 4 - i - j) * (X 0 * X 1 * X 2 * (1 - X 0 - X 1 - X 2))

/-- The loop over the vertices (symfem/elements/kmv.py:85-88). -/
noncomputable def kmvVertices (c : Cell) (w : ℝ) : List WeightedDof :=
  (List.range c.nverts).map fun n => ⟨refVertex c n, w, (0, n)⟩

/-- The point evaluations at the points of a list of combinations of three vertices (symfem/elements/kmv.py:158-169). -/
noncomputable def kmvThree (c : Cell) (verts : List ℕ) (beta w : ℝ) (entity : ℕ × ℕ) : List WeightedDof :=
  [(0, 1, 2), (1, 2, 0), (2, 0, 1)].map fun i =>
    let a : ℕ → ℝ := refVertex c (verts.getD i.1 0)
    let b : ℕ → ℝ := refVertex c (verts.getD i.2.1 0)
    let d : ℕ → ℝ := refVertex c (verts.getD i.2.2 0)
    ⟨fun j => a j + beta * (b j - a j) + beta * (d j - a j), w, entity⟩

/-- The loop over the edges with one point at the middle (symfem/elements/kmv.py:98-108). -/
noncomputable def kmvMid (c : Cell) (w : ℝ) : List WeightedDof :=
  ((c.subEntities 1).getD []).zipIdx.map fun e =>
    ⟨fun j => (refVertex c (e.1.getD 0 0) j + refVertex c (e.1.getD 1 0) j) / 2, w, (1, e.2)⟩

/-- The loop over the edges with two points (symfem/elements/kmv.py:131-156). -/
noncomputable def kmvTwo (c : Cell) (alpha w : ℝ) : List WeightedDof :=
  ((c.subEntities 1).getD []).zipIdx.flatMap fun e =>
    let a : ℕ → ℝ := refVertex c (e.1.getD 0 0)
    let b : ℕ → ℝ := refVertex c (e.1.getD 1 0)
    [⟨fun j => a j + (b j - a j) * alpha, w, (1, e.2)⟩, ⟨fun j => b j + (a j - b j) * alpha, w, (1, e.2)⟩]

/-- The functionals and the polynomial set of `KongMulderVeldhuizen.__init__` on a triangle
(symfem/elements/kmv.py:83-174). -/
noncomputable def kmvTriangle (order : ℕ) : Option (List WeightedDof × List (MvPolynomial ℕ ℝ)) :=
  let c := Cell.triangle
  if order = 1 then (kmvTriPolyset 1 1).map fun poly => (kmvVertices c (1 / 6), poly)
  else if order = 2 then (kmvTriPolyset 2 3).map fun poly =>
    (kmvVertices c (1 / 40) ++ kmvMid c (1 / 15) ++ [⟨fun _ => 1 / 3, 9 / 40, (2, 0)⟩], poly)
  else if order = 3 then (kmvTriPolyset 3 4).map fun poly =>
    (kmvVertices c (1 / 90 - √7 / 720) ++
      kmvTwo c (1 / 2 - √(411 - 84 * (7 - √7)) / 42) (7 / 720 - √7 / 180) ++
      kmvThree c [0, 1, 2] ((1 - 1 / √7) / 3) (49 / 360 - 7 * √7 / 720) (2, 0), poly)
  else none

/-- The functionals and the polynomial set on a tetrahedron (symfem/elements/kmv.py:176-229). -/
noncomputable def kmvTetrahedron (order : ℕ) : Option (List WeightedDof × List (MvPolynomial ℕ ℝ)) :=
  let c := Cell.tetrahedron
  if order = 1 then (kmvTetPolyset 1 1 1).map fun poly => (kmvVertices c (1 / 24), poly)
  else if order = 2 then (kmvTetPolyset 2 4 4).map fun poly =>
    (kmvVertices c ((13 - 3 * √13) / 10080) ++ kmvMid c ((4 - √13) / 315) ++
      (((c.subEntities 2).getD []).zipIdx.flatMap fun f =>
        kmvThree c f.1 ((7 - √13) / 18) ((29 + 17 * √13) / 10080) (2, f.2)) ++
      [⟨fun _ => 1 / 4, 16 / 315, (3, 0)⟩], poly)
  else none

/-- `KongMulderVeldhuizen.__init__` (symfem/elements/kmv.py:69-236). -/
noncomputable def kmvElement (c : Cell) (order : ℕ) : Option (Element ℝ (MvPolynomial ℕ ℝ)) :=
  (match c with
  | .triangle => kmvTriangle order
  | .tetrahedron => kmvTetrahedron order
  | _ => none).bind fun r => ciarlet r.2 (r.1.map WeightedDof.functional)

theorem weighted_eval (d : WeightedDof) (p : MvPolynomial ℕ ℝ) : d.functional.eval p = eval d.point p * d.weight := by
  show aeval d.point p * d.weight = _
  rw [← coe_aeval_eq_eval]
  rfl

/-! ### Integrals of monomials -/

theorem beta_zero (a b : ℕ) : ∫ x in (0 : ℝ)..1, x ^ a * (1 - x) ^ b =
    (a.factorial : ℝ) * b.factorial / (a + b + 1).factorial := by
  induction b generalizing a with
  | zero =>
    have h : ((a + 1).factorial : ℝ) = (a + 1) * a.factorial := by push_cast [Nat.factorial_succ]; ring
    have h0 : (a.factorial : ℝ) ≠ 0 := by exact_mod_cast a.factorial_ne_zero
    simp only [pow_zero, mul_one, integral_pow, add_zero, h, Nat.factorial_zero, Nat.cast_one]
    have : (a : ℝ) + 1 ≠ 0 := by positivity
    field_simp
    simp
  | succ b ih =>
    have e : ∀ x : ℝ, x ^ a * (1 - x) ^ (b + 1) = x ^ a * (1 - x) ^ b - x ^ (a + 1) * (1 - x) ^ b := fun x => by ring
    simp only [e]
    rw [intervalIntegral.integral_sub, ih, ih]
    · have h1 : ((a + (b + 1) + 1).factorial : ℝ) = (a + b + 2) * (a + b + 1).factorial := by
        rw [show a + (b + 1) + 1 = (a + b + 1) + 1 by ring, Nat.factorial_succ]
        push_cast
        ring
      have h2 : ((a + 1 + b + 1).factorial : ℝ) = (a + b + 2) * (a + b + 1).factorial := by
        rw [show a + 1 + b + 1 = (a + b + 1) + 1 by ring, Nat.factorial_succ]
        push_cast
        ring
      have h3 : ((a + 1).factorial : ℝ) = (a + 1) * a.factorial := by push_cast [Nat.factorial_succ]; ring
      have h4 : ((b + 1).factorial : ℝ) = (b + 1) * b.factorial := by push_cast [Nat.factorial_succ]; ring
      have h0 : ((a + b + 1).factorial : ℝ) ≠ 0 := by exact_mod_cast (a + b + 1).factorial_ne_zero
      have h5 : (a : ℝ) + b + 2 ≠ 0 := by positivity
      rw [h1, h2, h3, h4]
      field_simp
      ring
    · exact (Continuous.intervalIntegrable (by fun_prop) _ _)
    · exact (Continuous.intervalIntegrable (by fun_prop) _ _)

/-- The scaled beta integral. -/
theorem beta_scaled (s : ℝ) (a b : ℕ) : ∫ x in (0 : ℝ)..s, x ^ a * (s - x) ^ b =
    s ^ (a + b + 1) * ((a.factorial : ℝ) * b.factorial / (a + b + 1).factorial) := by
  have := intervalIntegral.smul_integral_comp_mul_left (a := 0) (b := 1) (f := fun x : ℝ => x ^ a * (s - x) ^ b) s
  rw [mul_zero, mul_one, smul_eq_mul] at this
  rw [← this, ← beta_zero, ← intervalIntegral.integral_const_mul, ← intervalIntegral.integral_const_mul]
  refine intervalIntegral.integral_congr fun x _ => ?_
  have e : s - s * x = s * (1 - x) := by ring
  simp only [e, mul_pow]
  ring

theorem cellInt_tri_mono (a b : ℕ) : cellInt .triangle (fun z => eval z (denoteMono ℝ [a, b])) =
    (a.factorial : ℝ) * b.factorial / (a + b + 2).factorial := by
  have e : (fun z : ℕ → ℝ => eval z (denoteMono ℝ [a, b])) = fun z => z 0 ^ a * z 1 ^ b := by
    funext z
    simp [denoteMono, monoFrom]
  rw [e, cellInt_triangle (fun x y => x ^ a * y ^ b)]
  have h1 : ∀ x : ℝ, ∫ y in (0 : ℝ)..1 - x, x ^ a * y ^ b = x ^ a * (1 - x) ^ (b + 1) * ((b.factorial : ℝ) / (b + 1).factorial) := by
    intro x
    have := beta_scaled (1 - x) b 0
    simp only [pow_zero, mul_one, add_zero, Nat.factorial_zero, Nat.cast_one] at this
    rw [intervalIntegral.integral_const_mul, this]
    ring
  simp only [h1]
  rw [intervalIntegral.integral_mul_const, beta_zero]
  have h0 : ((b + 1).factorial : ℝ) ≠ 0 := by exact_mod_cast (b + 1).factorial_ne_zero
  rw [show a + (b + 1) + 1 = a + b + 2 by ring]
  field_simp

theorem cellInt_tet_mono (a b d : ℕ) : cellInt .tetrahedron (fun z => eval z (denoteMono ℝ [a, b, d])) =
    (a.factorial : ℝ) * b.factorial * d.factorial / (a + b + d + 3).factorial := by
  have e : (fun z : ℕ → ℝ => eval z (denoteMono ℝ [a, b, d])) = fun z => z 0 ^ a * z 1 ^ b * z 2 ^ d := by
    funext z
    simp [denoteMono, monoFrom, mul_assoc]
  rw [e, cellInt_tetrahedron (fun x y z => x ^ a * y ^ b * z ^ d)]
  have h1 : ∀ y z : ℝ, ∫ x in (0 : ℝ)..1 - y - z, x ^ a * y ^ b * z ^ d =
      y ^ b * ((1 - z) - y) ^ (a + 1) * (z ^ d * ((a.factorial : ℝ) / (a + 1).factorial)) := by
    intro y z
    have := beta_scaled (1 - y - z) a 0
    simp only [pow_zero, mul_one, add_zero, Nat.factorial_zero, Nat.cast_one] at this
    rw [intervalIntegral.integral_mul_const, intervalIntegral.integral_mul_const, this]
    ring
  simp only [h1]
  have h2 : ∀ z : ℝ, ∫ y in (0 : ℝ)..1 - z, y ^ b * ((1 - z) - y) ^ (a + 1) * (z ^ d * ((a.factorial : ℝ) / (a + 1).factorial)) =
      z ^ d * (1 - z) ^ (a + b + 2) * ((b.factorial : ℝ) * a.factorial / (a + b + 2).factorial) := by
    intro z
    rw [intervalIntegral.integral_mul_const, beta_scaled]
    have h0 : ((a + 1).factorial : ℝ) ≠ 0 := by exact_mod_cast (a + 1).factorial_ne_zero
    rw [show b + (a + 1) + 1 = a + b + 2 by ring]
    field_simp
  simp only [h2]
  rw [intervalIntegral.integral_mul_const, beta_zero]
  have h0 : ((a + b + 2).factorial : ℝ) ≠ 0 := by exact_mod_cast (a + b + 2).factorial_ne_zero
  rw [show d + (a + b + 2) + 1 = a + b + d + 3 by ring]
  field_simp

/-! ### The functionals are quadrature rules -/

/-- The sum of the values of the functionals. -/
noncomputable def rule (l : List WeightedDof) : MvPolynomial ℕ ℝ →ₗ[ℝ] ℝ := (l.map fun d => d.functional.eval).sum

theorem rule_apply (l : List WeightedDof) (p : MvPolynomial ℕ ℝ) :
    rule l p = (l.map fun d => d.functional.eval p).sum := by
  induction l with
  | nil => rfl
  | cons d l ih =>
    rw [List.map_cons, List.sum_cons, ← ih]
    rfl

/-- A rule that is exact for monomials is exact. -/
theorem rule_exact {c : Cell} (hd : c.tdim = 1 ∨ c.tdim = 2 ∨ c.tdim = 3) {k : ℤ} {l : List WeightedDof}
    (h : ∀ m : List ℕ, m.length = c.tdim → (m.sum : ℤ) ≤ k →
      (l.map fun d => eval d.point (denoteMono ℝ m) * d.weight).sum = cellInt c fun z => eval z (denoteMono ℝ m))
    {p : MvPolynomial ℕ ℝ} (hp : p ∈ P c.tdim k) :
    (l.map fun d => d.functional.eval p).sum = cellInt c fun z => eval z p := by
  obtain ⟨L, l1, l2⟩ := polySet_lspan hd k
  obtain ⟨L', l3, -, l5⟩ := polySet_spec c.tdim hd k
  obtain rfl : L = L' := Option.some.inj (l1.symm.trans l3)
  have key : ∀ q ∈ lspan (L.map (denoteMono ℝ)), rule l q = pairing1 c 1 q := by
    intro q hq
    have : rule l - pairing1 c 1 = 0 ∨ True := Or.inr trivial
    refine Submodule.span_induction (p := fun q _ => rule l q = pairing1 c 1 q) (fun q hq => ?_) (by simp)
      (fun a b _ _ ha hb => by rw [map_add, map_add, ha, hb]) (fun a b _ hb => by rw [map_smul, map_smul, hb]) hq
    obtain ⟨m, hm, rfl⟩ := List.mem_map.1 hq
    have := h m ((l5 m).1 hm).1 ((l5 m).1 hm).2
    rw [rule_apply]
    simp only [weighted_eval]
    rw [this]
    show _ = cellInt c fun z => eval z (1 * _)
    simp only [one_mul]
  have := key p (by rw [l2]; exact hp)
  rw [rule_apply] at this
  rw [this]
  show (cellInt c fun z => eval z (1 * p)) = _
  simp only [one_mul]

theorem eval_mono2 (z : ℕ → ℝ) (a b : ℕ) : eval z (denoteMono ℝ [a, b]) = z 0 ^ a * z 1 ^ b := by
  simp [denoteMono, monoFrom]

theorem eval_mono3 (z : ℕ → ℝ) (a b d : ℕ) : eval z (denoteMono ℝ [a, b, d]) = z 0 ^ a * z 1 ^ b * z 2 ^ d := by
  simp [denoteMono, monoFrom, mul_assoc]

theorem sum_vertices_tri (G : ℝ → ℝ → ℝ) (w : ℝ) :
    ((kmvVertices .triangle w).map fun d => G (d.point 0) (d.point 1) * d.weight).sum =
      (G 0 0 + G 1 0 + G 0 1) * w := by
  simp [kmvVertices, Cell.nverts, List.range_succ, refVertex, refVerts, coords]
  ring

theorem sum_mid_tri (G : ℝ → ℝ → ℝ) (w : ℝ) :
    ((kmvMid .triangle w).map fun d => G (d.point 0) (d.point 1) * d.weight).sum =
      (G (1 / 2) (1 / 2) + G 0 (1 / 2) + G (1 / 2) 0) * w := by
  have : (Cell.triangle.subEntities 1).getD [] = [[1, 2], [0, 2], [0, 1]] := by decide
  rw [kmvMid, this]
  simp [refVertex, refVerts, coords]
  ring

theorem sum_vertices_tet (G : ℝ → ℝ → ℝ → ℝ) (w : ℝ) :
    ((kmvVertices .tetrahedron w).map fun d => G (d.point 0) (d.point 1) (d.point 2) * d.weight).sum =
      (G 0 0 0 + G 1 0 0 + G 0 1 0 + G 0 0 1) * w := by
  simp [kmvVertices, Cell.nverts, List.range_succ, refVertex, refVerts, coords]
  ring

theorem sum_mid_tet (G : ℝ → ℝ → ℝ → ℝ) (w : ℝ) :
    ((kmvMid .tetrahedron w).map fun d => G (d.point 0) (d.point 1) (d.point 2) * d.weight).sum =
      (G 0 (1 / 2) (1 / 2) + G (1 / 2) 0 (1 / 2) + G (1 / 2) (1 / 2) 0 + G 0 0 (1 / 2) + G 0 (1 / 2) 0 +
        G (1 / 2) 0 0) * w := by
  have : (Cell.tetrahedron.subEntities 1).getD [] = [[2, 3], [1, 3], [1, 2], [0, 3], [0, 2], [0, 1]] := by decide
  rw [kmvMid, this]
  simp [refVertex, refVerts, coords]
  ring

theorem sum_faces_tet (G : ℝ → ℝ → ℝ → ℝ) (t w : ℝ) :
    ((((Cell.tetrahedron.subEntities 2).getD []).zipIdx.flatMap fun f =>
        kmvThree .tetrahedron f.1 t w (2, f.2)).map fun d => G (d.point 0) (d.point 1) (d.point 2) * d.weight).sum =
      (G (1 - 2 * t) t t + G t (1 - 2 * t) t + G t t (1 - 2 * t) + G 0 t t + G 0 (1 - 2 * t) t + G 0 t (1 - 2 * t) +
        G t 0 t + G (1 - 2 * t) 0 t + G t 0 (1 - 2 * t) + G t t 0 + G (1 - 2 * t) t 0 + G t (1 - 2 * t) 0) * w := by
  have h : (Cell.tetrahedron.subEntities 2).getD [] = [[1, 2, 3], [0, 2, 3], [0, 1, 3], [0, 1, 2]] := by decide
  have e : 1 + -t + -t = 1 - 2 * t := by ring
  rw [h]
  simp [kmvThree, refVertex, refVerts, coords, e]
  ring

theorem kmvTriangle_one {l poly} (h : kmvTriangle 1 = some (l, poly)) : l = kmvVertices .triangle (1 / 6) := by
  rw [kmvTriangle, if_pos rfl] at h
  obtain ⟨_, _, h⟩ := Option.map_eq_some_iff.1 h
  exact (Prod.mk.inj h).1.symm

theorem kmvTriangle_two {l poly} (h : kmvTriangle 2 = some (l, poly)) :
    l = kmvVertices .triangle (1 / 40) ++ kmvMid .triangle (1 / 15) ++ [⟨fun _ => 1 / 3, 9 / 40, (2, 0)⟩] := by
  rw [kmvTriangle, if_neg (by decide), if_pos rfl] at h
  obtain ⟨_, _, h⟩ := Option.map_eq_some_iff.1 h
  exact (Prod.mk.inj h).1.symm

theorem kmvTetrahedron_one {l poly} (h : kmvTetrahedron 1 = some (l, poly)) : l = kmvVertices .tetrahedron (1 / 24) := by
  rw [kmvTetrahedron, if_pos rfl] at h
  obtain ⟨_, _, h⟩ := Option.map_eq_some_iff.1 h
  exact (Prod.mk.inj h).1.symm

/-- The functionals of order 2 on a tetrahedron. -/
noncomputable def tetTwo : List WeightedDof :=
  kmvVertices .tetrahedron ((13 - 3 * √13) / 10080) ++ kmvMid .tetrahedron ((4 - √13) / 315) ++
    (((Cell.tetrahedron.subEntities 2).getD []).zipIdx.flatMap fun f =>
      kmvThree .tetrahedron f.1 ((7 - √13) / 18) ((29 + 17 * √13) / 10080) (2, f.2)) ++
    [⟨fun _ => 1 / 4, 16 / 315, (3, 0)⟩]

theorem kmvTetrahedron_two {l poly} (h : kmvTetrahedron 2 = some (l, poly)) : l = tetTwo := by
  rw [kmvTetrahedron, if_neg (by decide), if_pos rfl] at h
  obtain ⟨_, _, h⟩ := Option.map_eq_some_iff.1 h
  exact (Prod.mk.inj h).1.symm

/-- **C62** Order 1 on a triangle: the rule is exact for polynomials of degree 1. -/
theorem kmv_triangle_one_exact {l poly} (h : kmvTriangle 1 = some (l, poly)) {p : MvPolynomial ℕ ℝ} (hp : p ∈ P 2 1) :
    (l.map fun d => d.functional.eval p).sum = cellInt .triangle fun z => eval z p := by
  rw [kmvTriangle_one h]
  refine rule_exact (c := .triangle) (k := 1) (by simp [Cell.tdim]) (fun m hm hs => ?_) hp
  match m, hm with
  | [a, b], _ =>
    simp only [List.sum_cons, List.sum_nil, add_zero] at hs
    have ha : a ≤ 1 := by omega
    have hb : b ≤ 1 := by omega
    rw [cellInt_tri_mono]
    simp only [eval_mono2]
    rw [sum_vertices_tri (fun x y => x ^ a * y ^ b)]
    interval_cases a <;> interval_cases b <;> first
      | (exfalso; norm_num at hs; done)
      | (norm_num [Nat.factorial])

/-- **C62** Order 2 on a triangle: the rule is exact for polynomials of degree 3. -/
theorem kmv_triangle_two_exact {l poly} (h : kmvTriangle 2 = some (l, poly)) {p : MvPolynomial ℕ ℝ} (hp : p ∈ P 2 3) :
    (l.map fun d => d.functional.eval p).sum = cellInt .triangle fun z => eval z p := by
  rw [kmvTriangle_two h]
  refine rule_exact (c := .triangle) (k := 3) (by simp [Cell.tdim]) (fun m hm hs => ?_) hp
  match m, hm with
  | [a, b], _ =>
    simp only [List.sum_cons, List.sum_nil, add_zero] at hs
    have ha : a ≤ 3 := by omega
    have hb : b ≤ 3 := by omega
    rw [cellInt_tri_mono]
    simp only [eval_mono2, List.map_append, List.sum_append, List.map_cons, List.map_nil, List.sum_singleton]
    rw [sum_vertices_tri (fun x y => x ^ a * y ^ b), sum_mid_tri (fun x y => x ^ a * y ^ b)]
    interval_cases a <;> interval_cases b <;> first
      | (exfalso; norm_num at hs; done)
      | (norm_num [Nat.factorial])

/-- **C62** Order 1 on a tetrahedron: the rule is exact for polynomials of degree 1. -/
theorem kmv_tetrahedron_one_exact {l poly} (h : kmvTetrahedron 1 = some (l, poly)) {p : MvPolynomial ℕ ℝ}
    (hp : p ∈ P 3 1) : (l.map fun d => d.functional.eval p).sum = cellInt .tetrahedron fun z => eval z p := by
  rw [kmvTetrahedron_one h]
  refine rule_exact (c := .tetrahedron) (k := 1) (by simp [Cell.tdim]) (fun m hm hs => ?_) hp
  match m, hm with
  | [a, b, d], _ =>
    simp only [List.sum_cons, List.sum_nil, add_zero] at hs
    have ha : a ≤ 1 := by omega
    have hb : b ≤ 1 := by omega
    have hd : d ≤ 1 := by omega
    rw [cellInt_tet_mono]
    simp only [eval_mono3]
    rw [sum_vertices_tet (fun x y z => x ^ a * y ^ b * z ^ d)]
    interval_cases a <;> interval_cases b <;> interval_cases d <;> first
      | (exfalso; norm_num at hs; done)
      | (norm_num [Nat.factorial])

theorem tet_two_mono {a b d : ℕ} (h : a + b + d ≤ 4) {s : ℝ} (hs : s ^ 2 = 13) :
    ((0 ^ a * 0 ^ b * 0 ^ d + 1 ^ a * 0 ^ b * 0 ^ d + 0 ^ a * 1 ^ b * 0 ^ d + 0 ^ a * 0 ^ b * 1 ^ d) *
      ((13 - 3 * s) / 10080) +
    (0 ^ a * (1 / 2) ^ b * (1 / 2) ^ d + (1 / 2) ^ a * 0 ^ b * (1 / 2) ^ d + (1 / 2) ^ a * (1 / 2) ^ b * 0 ^ d +
      0 ^ a * 0 ^ b * (1 / 2) ^ d + 0 ^ a * (1 / 2) ^ b * 0 ^ d + (1 / 2) ^ a * 0 ^ b * 0 ^ d) * ((4 - s) / 315) +
    ((1 - 2 * ((7 - s) / 18)) ^ a * ((7 - s) / 18) ^ b * ((7 - s) / 18) ^ d +
      ((7 - s) / 18) ^ a * (1 - 2 * ((7 - s) / 18)) ^ b * ((7 - s) / 18) ^ d +
      ((7 - s) / 18) ^ a * ((7 - s) / 18) ^ b * (1 - 2 * ((7 - s) / 18)) ^ d +
      0 ^ a * ((7 - s) / 18) ^ b * ((7 - s) / 18) ^ d + 0 ^ a * (1 - 2 * ((7 - s) / 18)) ^ b * ((7 - s) / 18) ^ d +
      0 ^ a * ((7 - s) / 18) ^ b * (1 - 2 * ((7 - s) / 18)) ^ d +
      ((7 - s) / 18) ^ a * 0 ^ b * ((7 - s) / 18) ^ d + (1 - 2 * ((7 - s) / 18)) ^ a * 0 ^ b * ((7 - s) / 18) ^ d +
      ((7 - s) / 18) ^ a * 0 ^ b * (1 - 2 * ((7 - s) / 18)) ^ d +
      ((7 - s) / 18) ^ a * ((7 - s) / 18) ^ b * 0 ^ d + (1 - 2 * ((7 - s) / 18)) ^ a * ((7 - s) / 18) ^ b * 0 ^ d +
      ((7 - s) / 18) ^ a * (1 - 2 * ((7 - s) / 18)) ^ b * 0 ^ d) * ((29 + 17 * s) / 10080) +
    (1 / 4) ^ a * (1 / 4) ^ b * (1 / 4) ^ d * (16 / 315) : ℝ) =
      (a.factorial : ℝ) * b.factorial * d.factorial / (a + b + d + 3).factorial := by
  have s3 : s ^ 3 = 13 * s := by rw [pow_succ, hs]
  have s4 : s ^ 4 = 169 := by rw [show s ^ 4 = (s ^ 2) ^ 2 by ring, hs]; norm_num
  have s5 : s ^ 5 = 169 * s := by rw [show s ^ 5 = s ^ 4 * s by ring, s4]
  have ha : a ≤ 4 := by omega
  have hb : b ≤ 4 := by omega
  have hd : d ≤ 4 := by omega
  interval_cases a <;> interval_cases b <;> interval_cases d <;> first
    | (exfalso; omega)
    | (norm_num [Nat.factorial]; ring_nf; simp only [hs, s3, s4, s5]; ring)
    | (norm_num [Nat.factorial]; ring_nf; done)

/-- **C62** Order 2 on a tetrahedron: the rule is exact for polynomials of degree 4. -/
theorem kmv_tetrahedron_two_exact {l poly} (h : kmvTetrahedron 2 = some (l, poly)) {p : MvPolynomial ℕ ℝ}
    (hp : p ∈ P 3 4) : (l.map fun d => d.functional.eval p).sum = cellInt .tetrahedron fun z => eval z p := by
  rw [kmvTetrahedron_two h]
  refine rule_exact (c := .tetrahedron) (k := 4) (by simp [Cell.tdim]) (fun m hm hs => ?_) hp
  match m, hm with
  | [a, b, d], _ =>
    simp only [List.sum_cons, List.sum_nil, add_zero] at hs
    rw [cellInt_tet_mono]
    simp only [eval_mono3, tetTwo, List.map_append, List.sum_append, List.map_cons, List.map_nil, List.sum_singleton]
    rw [sum_vertices_tet (fun x y z => x ^ a * y ^ b * z ^ d), sum_mid_tet (fun x y z => x ^ a * y ^ b * z ^ d),
      sum_faces_tet (fun x y z => x ^ a * y ^ b * z ^ d)]
    exact tet_two_mono (by omega) (Real.sq_sqrt (by norm_num))

end Verif.Families
