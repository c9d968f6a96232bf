import Verif.Macro.AlfeldElement
import Verif.Macro.Nodal
import Verif.Families.BernardiRaugel
import Verif.References.Intersect
/-!
# Guzmán–Neilan elements on triangles

symfem/elements/guzman_neilan.py. The element exists on the default triangle only (and on the default tetrahedron, which is not modelled).
-/

namespace Verif.Macro
open Verif.References Verif.Elements Verif.FiniteElement Verif.Polysets Verif.Moments Verif.Geometry Verif.Functions
open Verif.Families Verif.Scalar Verif.Smooth
open MvPolynomial

/-! ### Model -/

/-- `sub_tris` (symfem/elements/guzman_neilan.py:125-131). -/
noncomputable def gnCells : Fin 3 → Fin 3 → Fin 2 → ℝ
  | 0 => ![![0, 0], ![1, 0], ![1 / 3, 1 / 3]]
  | 1 => ![![0, 0], ![0, 1], ![1 / 3, 1 / 3]]
  | 2 => ![![1, 0], ![0, 1], ![1 / 3, 1 / 3]]

/-- The inverse of the map of the default triangle to a cell, with 1 minus the sum of its components in front. -/
noncomputable def gnInverse : Fin 3 → ℕ → MvPolynomial ℕ ℝ
  | 0, 0 => 1 - X 0 - 2 * X 1
  | 0, 1 => X 0 - X 1
  | 0, _ => 3 * X 1
  | 1, 0 => 1 - 2 * X 0 - X 1
  | 1, 1 => X 1 - X 0
  | 1, _ => 3 * X 0
  | 2, 0 => 2 * X 0 + X 1 - 1
  | 2, 1 => X 0 + 2 * X 1 - 1
  | 2, _ => 3 - 3 * X 0 - 3 * X 1

/-- `lagrange_space.map_to_cell(c)` (symfem/elements/guzman_neilan.py:243-252): the basis functions of an entity of the Lagrange elements of orders 1
and 2, the ones that are used on triangles, written with the inverse of the map. (Those of the vector element are these in each of the two
directions.) -/
noncomputable def gnLagrange (k : ℕ) (i : Fin 3) (dim e : ℕ) : List (MvPolynomial ℕ ℝ) :=
  if k = 1 ∧ dim = 0 then [gnInverse i e]
  else if k = 2 ∧ dim = 0 then [gnInverse i e * (2 * gnInverse i e - 1)]
  else if k = 2 ∧ dim = 1 then [4 * gnInverse i ((entVerts .triangle 1 e).getD 0 0) * gnInverse i ((entVerts .triangle 1 e).getD 1 0)]
  else []

/-- The entities of the cells that are identified; -1 is `none` (symfem/elements/guzman_neilan.py:258-264). -/
def gnEntities : ℕ → List (List (Option ℕ))
  | 0 => [[some 0, some 0, none], [some 1, none, some 0], [none, some 1, some 1], [some 2, some 2, some 2]]
  | 1 => [[some 0, none, some 1], [some 1, some 1, none], [none, some 0, some 0], [some 2, none, none], [none, some 2, none], [none, none, some 2]]
  | _ => [[some 0, none, none], [none, some 0, none], [none, none, some 0]]

/-- The entities that are not skipped (symfem/elements/guzman_neilan.py:267-274, without `zero_at_centre`). -/
def gnKeep (zeroOnBoundary : Bool) (dim : ℕ) (e : List (Option ℕ)) : Bool :=
  !(zeroOnBoundary && ((dim == 0 && (e.contains (some 0) || e.contains (some 1))) || (dim == 1 && e.contains (some 2))))

/-- One function: the `n`th function of the entities in direction `c` (symfem/elements/guzman_neilan.py:334-340). -/
noncomputable def gnPiece (k dim : ℕ) (e : List (Option ℕ)) (n c : ℕ) : Fin 3 → Field 2 := fun i j =>
  match e.getD i.val none with
  | none => 0
  | some s => if j.val = c then (gnLagrange k i dim s).getD n 0 else 0

/-- `make_piecewise_lagrange(sub_tris, "triangle", order, zero_on_boundary)` (symfem/elements/guzman_neilan.py:221-342). -/
noncomputable def piecewiseLagrange (k : ℕ) (zeroOnBoundary : Bool) : List (Fin 3 → Field 2) :=
  (List.range 3).flatMap fun dim => ((gnEntities dim).filter (gnKeep zeroOnBoundary dim)).flatMap fun e =>
    (List.range (gnLagrange k 0 dim 0).length).flatMap fun n => (List.range 2).map fun c => gnPiece k dim e n c

/-- `coeffs` (symfem/elements/_guzman_neilan_triangle.py:5-36). -/
def gnCoeffs : List (List ℚ) :=
  [[1/6, 1/6, 5/24, -1/24, 5/24, 5/24, -1/24, 5/24],
   [1/3, -2/3, 5/12, -1/3, -1/12, -1/3, 5/12, -5/6],
   [2/3, -1/3, 5/6, -5/12, 1/3, 1/12, 1/3, -5/12]]

/-- The last three basis functions of the Bernardi–Raugel element of order 1 (symfem/elements/guzman_neilan.py:137); `br_last` is the proof that they are
these. -/
noncomputable def brLast : List (Field 2) :=
  [![-3 * (X 0 * X 1), -3 * (X 0 * X 1)], ![-6 * ((1 - X 0 - X 1) * X 1), 0], ![0, 6 * ((1 - X 0 - X 1) * X 0)]]

/-- A function of an edge less a combination of functions that vanish on the boundary (symfem/elements/guzman_neilan.py:138-154). -/
noncomputable def gnEdge (c : List ℚ) (f : Field 2) : Fin 3 → Field 2 := fun i j =>
  (c.zip (piecewiseLagrange 2 true)).foldl (fun p kb => p - C (kb.1 : ℝ) * kb.2 i j) (f j)

/-- `_make_polyset_triangle` (symfem/elements/guzman_neilan.py:108-155). -/
noncomputable def gnBasis (fs : List (Field 2)) : List (Fin 3 → Field 2) := piecewiseLagrange 1 false ++ List.zipWith gnEdge gnCoeffs fs

/-- The functionals at the ends of an edge (symfem/elements/guzman_neilan.py:46-57). -/
noncomputable def gnEnds (i : ℕ) : Option (List (Dof ℝ (Fin 3 → Field 2))) :=
  (normal (entityDomain .triangle (1, i)).cell 2 (entityDomain .triangle (1, i)).v).bind fun n =>
    (jacobian (entityDomain .triangle (1, i)).cell 2 (entityDomain .triangle (1, i)).v).bind fun J =>
      (List.range 2).mapM fun a => onPiece 3 2 (cellList gnCells) ((entityDomain .triangle (1, i)).v a)
        (contraPoint (1, i) ((entityDomain .triangle (1, i)).v a) fun j => n j * J)

/-- The corners of a cell as vertices of a reference. -/
noncomputable def gnVerts (i : Fin 3) : ℕ → ℕ → ℝ := fun a j => if h : a < 3 ∧ j < 2 then gnCells i ⟨a, h.1⟩ ⟨j, h.2⟩ else 0

/-- The part of one piece in an integral functional for functions in pieces: the points of the entity are substituted, and the result is integrated over
the intersection of the cell and the entity, if there is one (symfem/functionals.py:1280-1296, symfem/piecewise_functions.py:459-465). The
intersections here are the entity or nothing. -/
noncomputable def entityPiece (d : Dof ℝ (Field 2)) (i : Fin 3) : Option ((Fin 3 → Field 2) →ₗ[ℝ] ℝ) :=
  match intersection 2 ⟨.triangle, gnVerts i⟩ ⟨(entityDomain .triangle d.entity).cell, (entityDomain .triangle d.entity).v⟩ with
  | .second => some (d.eval ∘ₗ LinearMap.proj i)
  | .nothing => some 0
  | _ => none

/-- An integral functional for functions in pieces: the sum over the pieces (symfem/piecewise_functions.py:458-465). -/
noncomputable def onEntity (d : Dof ℝ (Field 2)) : Option (Dof ℝ (Fin 3 → Field 2)) :=
  ((List.finRange 3).mapM (entityPiece d)).map fun es => ⟨d.kind, d.entity, d.mapping, es.sum⟩

/-- The functionals at the midpoint (symfem/elements/guzman_neilan.py:97-104). -/
noncomputable def gnMid : Option (List (Dof ℝ (Fin 3 → Field 2))) :=
  (List.range 2).mapM fun i => onPiece 3 2 (cellList gnCells) (References.midpoint .triangle (refVertex .triangle))
    (contraPoint (2, 0) (References.midpoint .triangle (refVertex .triangle)) fun j => if i = j then 1 else 0)

/-- `GuzmanNeilan(reference, order)` on the default triangle (symfem/elements/guzman_neilan.py:28-106). -/
noncomputable def guzmanNeilan (k : ℕ) : Option (Element ℝ (Fin 3 → Field 2)) :=
  if k = 1 then do
    let br ← bernardiRaugel .triangle 1
    let fs ← getBasis br
    let ends ← (List.range 3).mapM gnEnds
    let ms ← makeIntegralMomentDofs lagrangeClasses .triangle { facets := some (.single [.cls "NormalIntegralMoment", .cls "Lagrange", .int 0,
      .str "contravariant", .dict [("variant", "equispaced")]]) }
    let ds ← ms.mapM (momentDof .triangle)
    let moments ← ds.mapM onEntity
    let mid ← gnMid
    ciarlet (gnBasis (fs.drop (fs.length - 3))) (ends.flatten ++ moments ++ mid)
  else none

/-! ### Specification -/

/-- The points of an edge of the default triangle. -/
noncomputable def sidePoint (i : Fin 3) (t : ℝ) : ℕ → ℝ := ![coords [1 - t, t], coords [0, t], coords [t, 0]] i

/-- The direction of an edge. -/
def sideTangent (i : Fin 3) : Fin 2 → ℝ := ![![-1, 1], ![0, 1], ![1, 0]] i

/-- A direction normal to an edge. -/
def sideNormal (i : Fin 3) : Fin 2 → ℝ := ![![-1, -1], ![-1, 0], ![0, 1]] i

/-- Continuous functions with quadratic pieces, whose divergence is constant on each of the cells, and whose tangential components are affine on the
edges of the triangle. (The cell with edge `i` is the one with the number `2 - i`.) -/
def GNSpace (f : Fin 3 → Field 2) : Prop :=
  (∀ i c, f i c ∈ P 2 2) ∧ (∀ i j z, Inside (gnCells i) z → Inside (gnCells j) z → ∀ c, eval z (f i c) = eval z (f j c)) ∧
  (∀ i, ∃ a, ∀ z, divAt (f i) z = a) ∧
  ∀ i, ∃ a b, ∀ t, ∑ c, sideTangent i c * eval (sidePoint i t) (f i.rev c) = a + b * t

/-- The functionals of an edge determine the normal component on the edge. -/
def NormalMacro (dofs : List (Dof ℝ (Fin 3 → Field 2))) : Prop :=
  ∀ i : Fin 3, ∀ f, GNSpace f → (∀ d ∈ dofs, d.entity = (1, i.val) → d.eval f = 0) →
    ∀ t j, Inside (gnCells j) (sidePoint i t) → ∑ c, sideNormal i c * eval (sidePoint i t) (f j c) = 0

theorem inside_zero {z : ℕ → ℝ} : Inside (gnCells 0) z ↔ 0 ≤ z 1 ∧ z 1 ≤ z 0 ∧ z 0 + 2 * z 1 ≤ 1 := inCell_zero

theorem inside_two {z : ℕ → ℝ} : Inside (gnCells 2) z ↔ z 0 + z 1 ≤ 1 ∧ 1 ≤ z 0 + 2 * z 1 ∧ 1 ≤ 2 * z 0 + z 1 := inCell_one

theorem inside_one {z : ℕ → ℝ} : Inside (gnCells 1) z ↔ 0 ≤ z 0 ∧ z 0 ≤ z 1 ∧ 2 * z 0 + z 1 ≤ 1 := by
  constructor
  · rintro ⟨l, h0, h1, h2⟩
    have a := h2 0
    have b := h2 1
    simp [gnCells, Fin.sum_univ_three] at a b h1
    have := h0 0
    have := h0 1
    have := h0 2
    exact ⟨by linarith, by linarith, by linarith⟩
  · rintro ⟨h0, h1, h2⟩
    refine ⟨![1 - 2 * z 0 - z 1, z 1 - z 0, 3 * z 0], fun i => ?_, ?_, fun j => ?_⟩
    · fin_cases i <;> simp <;> linarith
    · simp [Fin.sum_univ_three]; ring
    · fin_cases j <;> simp [Fin.sum_univ_three, gnCells] <;> ring

theorem gn_proper (i : Fin 3) : Proper 2 (gnCells i) := by
  fin_cases i
  · exact Proper.triangle _ _ _ (by norm_num [area2])
  · exact Proper.triangle _ _ _ (by norm_num [area2])
  · exact Proper.triangle _ _ _ (by norm_num [area2])

/-! ### The functions -/

/-- A quadratic polynomial. -/
noncomputable def gnPoly (l : List ℚ) : MvPolynomial ℕ ℝ :=
  C (l.getD 0 0 : ℝ) + C (l.getD 1 0 : ℝ) * X 0 + C (l.getD 2 0 : ℝ) * X 0 ^ 2 + C (l.getD 3 0 : ℝ) * X 1 + C (l.getD 4 0 : ℝ) * (X 0 * X 1) +
    C (l.getD 5 0 : ℝ) * X 1 ^ 2

/-- The coefficients of the pieces. -/
def gnTable : List (List (List (List ℚ))) :=
  [[[[1, -1, 0, -2, 0, 0], [0, 0, 0, 0, 0, 0]], [[1, -2, 0, -1, 0, 0], [0, 0, 0, 0, 0, 0]], [[0, 0, 0, 0, 0, 0], [0, 0, 0, 0, 0, 0]]],
   [[[0, 0, 0, 0, 0, 0], [1, -1, 0, -2, 0, 0]], [[0, 0, 0, 0, 0, 0], [1, -2, 0, -1, 0, 0]], [[0, 0, 0, 0, 0, 0], [0, 0, 0, 0, 0, 0]]],
   [[[0, 1, 0, -1, 0, 0], [0, 0, 0, 0, 0, 0]], [[0, 0, 0, 0, 0, 0], [0, 0, 0, 0, 0, 0]], [[-1, 2, 0, 1, 0, 0], [0, 0, 0, 0, 0, 0]]],
   [[[0, 0, 0, 0, 0, 0], [0, 1, 0, -1, 0, 0]], [[0, 0, 0, 0, 0, 0], [0, 0, 0, 0, 0, 0]], [[0, 0, 0, 0, 0, 0], [-1, 2, 0, 1, 0, 0]]],
   [[[0, 0, 0, 0, 0, 0], [0, 0, 0, 0, 0, 0]], [[0, -1, 0, 1, 0, 0], [0, 0, 0, 0, 0, 0]], [[-1, 1, 0, 2, 0, 0], [0, 0, 0, 0, 0, 0]]],
   [[[0, 0, 0, 0, 0, 0], [0, 0, 0, 0, 0, 0]], [[0, 0, 0, 0, 0, 0], [0, -1, 0, 1, 0, 0]], [[0, 0, 0, 0, 0, 0], [-1, 1, 0, 2, 0, 0]]],
   [[[0, 0, 0, 3, 0, 0], [0, 0, 0, 0, 0, 0]], [[0, 3, 0, 0, 0, 0], [0, 0, 0, 0, 0, 0]], [[3, -3, 0, -3, 0, 0], [0, 0, 0, 0, 0, 0]]],
   [[[0, 0, 0, 0, 0, 0], [0, 0, 0, 3, 0, 0]], [[0, 0, 0, 0, 0, 0], [0, 3, 0, 0, 0, 0]], [[0, 0, 0, 0, 0, 0], [3, -3, 0, -3, 0, 0]]],
   [[[0, 0, 0, -2, -3, 9/2], [0, 0, 0, -2, 0, 3/2]], [[0, -2, 3/2, 0, 0, 0], [0, -2, 9/2, 0, -3, 0]], [[-1/2, -1, 3/2, 2, -3, -3/2], [-1/2, 2, -3/2, -1, -3, 3/2]]],
   [[[0, 0, 0, -4, 0, 3], [0, 0, 0, 2, 0, 0]], [[0, 2, -3, -6, 0, 6], [0, 2, -6, 0, 6, 0]], [[5, -14, 9, -20, 24, 15], [-4, 10, -6, 16, -18, -12]]],
   [[[0, 0, 0, -2, -6, 6], [0, 6, -6, -2, 0, 3]], [[0, -2, 0, 0, 0, 0], [0, 4, -3, 0, 0, 0]], [[4, -16, 12, -10, 18, 6], [-5, 20, -15, 14, -24, -9]]]]

/-- The functions. -/
noncomputable def gnExplicit : List (Fin 3 → Field 2) := gnTable.map fun t i c => gnPoly ((t.getD i.val []).getD c.val [])

theorem gnPoly_mem (l : List ℚ) : gnPoly l ∈ P 2 2 := by
  have h2 : ∀ {p q : MvPolynomial ℕ ℝ}, p ∈ P 2 1 → q ∈ P 2 1 → p * q ∈ P 2 2 := fun {p q} hp hq => by
    have := P_mul hp hq
    rwa [show (1 : ℤ) + 1 = 2 from rfl] at this
  have hc : ∀ (a : ℝ) {p : MvPolynomial ℕ ℝ}, p ∈ P 2 2 → C a * p ∈ P 2 2 := fun a p hp => by
    rw [← smul_eq_C_mul]
    exact Submodule.smul_mem _ _ hp
  have x0 : (X 0 : MvPolynomial ℕ ℝ) ∈ P 2 1 := X_mem (by omega)
  have x1 : (X 1 : MvPolynomial ℕ ℝ) ∈ P 2 1 := X_mem (by omega)
  have o1 : (1 : MvPolynomial ℕ ℝ) ∈ P 2 1 := one_mem (by norm_num)
  have t0 : ∀ a : ℝ, (C a : MvPolynomial ℕ ℝ) ∈ P 2 2 := fun a => by
    have := hc a (h2 o1 o1)
    rwa [mul_one, mul_one] at this
  have t1 : ∀ a : ℝ, C a * X 0 ∈ P 2 2 := fun a => by
    have := hc a (h2 x0 o1)
    rwa [mul_one] at this
  have t2 : ∀ a : ℝ, C a * X 0 ^ 2 ∈ P 2 2 := fun a => by
    have := hc a (h2 x0 x0)
    rwa [← pow_two] at this
  have t3 : ∀ a : ℝ, C a * X 1 ∈ P 2 2 := fun a => by
    have := hc a (h2 x1 o1)
    rwa [mul_one] at this
  have t4 : ∀ a : ℝ, C a * (X 0 * X 1) ∈ P 2 2 := fun a => hc a (h2 x0 x1)
  have t5 : ∀ a : ℝ, C a * X 1 ^ 2 ∈ P 2 2 := fun a => by
    have := hc a (h2 x1 x1)
    rwa [← pow_two] at this
  unfold gnPoly
  exact Submodule.add_mem _ (Submodule.add_mem _ (Submodule.add_mem _ (Submodule.add_mem _ (Submodule.add_mem _ (t0 _) (t1 _)) (t2 _)) (t3 _)) (t4 _)) (t5 _)

theorem gnBasis_eq : gnBasis brLast = gnExplicit := by
  have h : gnBasis brLast = [gnPiece 1 0 [some 0, some 0, none] 0 0, gnPiece 1 0 [some 0, some 0, none] 0 1,
      gnPiece 1 0 [some 1, none, some 0] 0 0, gnPiece 1 0 [some 1, none, some 0] 0 1, gnPiece 1 0 [none, some 1, some 1] 0 0,
      gnPiece 1 0 [none, some 1, some 1] 0 1, gnPiece 1 0 [some 2, some 2, some 2] 0 0, gnPiece 1 0 [some 2, some 2, some 2] 0 1,
      gnEdge (gnCoeffs.getD 0 []) (brLast.getD 0 0), gnEdge (gnCoeffs.getD 1 []) (brLast.getD 1 0), gnEdge (gnCoeffs.getD 2 []) (brLast.getD 2 0)] := rfl
  have h2 : piecewiseLagrange 2 true = [gnPiece 2 0 [some 2, some 2, some 2] 0 0, gnPiece 2 0 [some 2, some 2, some 2] 0 1,
      gnPiece 2 1 [some 0, none, some 1] 0 0, gnPiece 2 1 [some 0, none, some 1] 0 1, gnPiece 2 1 [some 1, some 1, none] 0 0,
      gnPiece 2 1 [some 1, some 1, none] 0 1, gnPiece 2 1 [none, some 0, some 0] 0 0, gnPiece 2 1 [none, some 0, some 0] 0 1] := rfl
  have hE : entVerts .triangle 1 0 = [1, 2] ∧ entVerts .triangle 1 1 = [0, 2] ∧ entVerts .triangle 1 2 = [0, 1] := ⟨rfl, rfl, rfl⟩
  rw [h, gnExplicit, gnTable]
  simp only [List.map_cons, List.map_nil, List.cons.injEq, and_true]
  refine ⟨?_, ?_, ?_, ?_, ?_, ?_, ?_, ?_, ?_, ?_, ?_⟩
  all_goals
    funext i c
    fin_cases i <;> fin_cases c
    all_goals
      refine MvPolynomial.funext fun z => ?_
      simp [gnEdge, gnCoeffs, h2, gnPiece, gnPoly, gnLagrange, hE, gnInverse, brLast]
      try ring

/-- The functions form a space. -/
def gnSub : Submodule ℝ (Fin 3 → Field 2) where
  carrier := {f | GNSpace f}
  zero_mem' := ⟨fun _ _ => Submodule.zero_mem _, fun i j z _ _ _ => rfl, fun i => ⟨0, fun z => by simp [divAt]⟩, fun i => ⟨0, 0, fun t => by simp⟩⟩
  add_mem' := by
    rintro f g ⟨f1, f2, f3, f4⟩ ⟨g1, g2, g3, g4⟩
    refine ⟨fun i c => Submodule.add_mem _ (f1 i c) (g1 i c), fun i j z hi hj c => ?_, fun i => ?_, fun i => ?_⟩
    · simp [f2 i j z hi hj c, g2 i j z hi hj c]
    · obtain ⟨a, ha⟩ := f3 i
      obtain ⟨b, hb⟩ := g3 i
      exact ⟨a + b, fun z => by rw [Pi.add_apply, divAt_add, ha, hb]⟩
    · obtain ⟨a, b, h⟩ := f4 i
      obtain ⟨a', b', h'⟩ := g4 i
      refine ⟨a + a', b + b', fun t => ?_⟩
      simp only [Pi.add_apply, map_add, mul_add, Finset.sum_add_distrib, h, h']
      ring
  smul_mem' := by
    rintro a f ⟨f1, f2, f3, f4⟩
    refine ⟨fun i c => Submodule.smul_mem _ _ (f1 i c), fun i j z hi hj c => ?_, fun i => ?_, fun i => ?_⟩
    · simp [f2 i j z hi hj c, smul_eval]
    · obtain ⟨b, hb⟩ := f3 i
      exact ⟨a * b, fun z => by rw [Pi.smul_apply, divAt_smul, hb]⟩
    · obtain ⟨b, c, h⟩ := f4 i
      refine ⟨a * b, a * c, fun t => ?_⟩
      simp only [Pi.smul_apply, smul_eval, mul_left_comm _ a, ← Finset.mul_sum, h]
      ring

theorem gn_of {f : Fin 3 → Field 2} (h : ∀ i c, f i c ∈ P 2 2) (h01 : ∀ z : ℕ → ℝ, z 0 = z 1 → ∀ c, eval z (f 0 c) = eval z (f 1 c))
    (h02 : ∀ z : ℕ → ℝ, z 0 = 1 - 2 * z 1 → ∀ c, eval z (f 0 c) = eval z (f 2 c))
    (h12 : ∀ z : ℕ → ℝ, z 1 = 1 - 2 * z 0 → ∀ c, eval z (f 1 c) = eval z (f 2 c))
    (hd : ∀ i, ∃ a, ∀ z, divAt (f i) z = a) (h0 : ∃ a b, ∀ t, eval (coords [1 - t, t]) (f 2 1) - eval (coords [1 - t, t]) (f 2 0) = a + b * t)
    (h1 : ∃ a b, ∀ t, eval (coords [0, t]) (f 1 1) = a + b * t) (h2 : ∃ a b, ∀ t, eval (coords [t, 0]) (f 0 0) = a + b * t) : GNSpace f := by
  refine ⟨h, fun i j z hi hj c => ?_, hd, fun i => ?_⟩
  · fin_cases i <;> fin_cases j
    · rfl
    · have a := inside_zero.1 hi
      have b := inside_one.1 hj
      exact h01 z (by linarith) c
    · have a := inside_zero.1 hi
      have b := inside_two.1 hj
      exact h02 z (by linarith) c
    · have a := inside_one.1 hi
      have b := inside_zero.1 hj
      exact (h01 z (by linarith) c).symm
    · rfl
    · have a := inside_one.1 hi
      have b := inside_two.1 hj
      exact h12 z (by linarith) c
    · have a := inside_two.1 hi
      have b := inside_zero.1 hj
      exact (h02 z (by linarith) c).symm
    · have a := inside_two.1 hi
      have b := inside_one.1 hj
      exact (h12 z (by linarith) c).symm
    · rfl
  · fin_cases i
    · obtain ⟨a, b, h⟩ := h0
      refine ⟨a, b, fun t => ?_⟩
      rw [← h t]
      show ∑ c, sideTangent 0 c * eval (coords [1 - t, t]) (f 2 c) = _
      simp [Fin.sum_univ_two, sideTangent]
      ring
    · obtain ⟨a, b, h⟩ := h1
      refine ⟨a, b, fun t => ?_⟩
      rw [← h t]
      show ∑ c, sideTangent 1 c * eval (coords [0, t]) (f 1 c) = _
      simp [Fin.sum_univ_two, sideTangent]
    · obtain ⟨a, b, h⟩ := h2
      refine ⟨a, b, fun t => ?_⟩
      rw [← h t]
      show ∑ c, sideTangent 2 c * eval (coords [t, 0]) (f 0 c) = _
      simp [Fin.sum_univ_two, sideTangent]

/-- The coefficients of the divergence. -/
theorem gnPoly_div (l m : List ℚ) (z : ℕ → ℝ) : eval z (pderiv 0 (gnPoly l)) + eval z (pderiv 1 (gnPoly m)) =
    ((l.getD 1 0 : ℝ) + m.getD 3 0) + (2 * (l.getD 2 0 : ℝ) + m.getD 4 0) * z 0 + ((l.getD 4 0 : ℝ) + 2 * m.getD 5 0) * z 1 := by
  simp [gnPoly, Derivation.leibniz_pow]
  ring

theorem gnPoly_eval (l : List ℚ) (z : ℕ → ℝ) : eval z (gnPoly l) = (l.getD 0 0 : ℝ) + l.getD 1 0 * z 0 + l.getD 2 0 * z 0 ^ 2 + l.getD 3 0 * z 1 +
    l.getD 4 0 * (z 0 * z 1) + l.getD 5 0 * z 1 ^ 2 := by
  simp [gnPoly]

/-- The conditions on the coefficients. -/
def GnTable (t : List (List (List ℚ))) : Prop :=
  let c := fun i j n : ℕ => ((t.getD i []).getD j []).getD n 0
  (∀ j < 2, c 0 j 0 = c 1 j 0 ∧ c 0 j 1 + c 0 j 3 = c 1 j 1 + c 1 j 3 ∧ c 0 j 2 + c 0 j 4 + c 0 j 5 = c 1 j 2 + c 1 j 4 + c 1 j 5) ∧
  (∀ j < 2, c 0 j 0 + c 0 j 1 + c 0 j 2 = c 2 j 0 + c 2 j 1 + c 2 j 2 ∧
    -2 * c 0 j 1 - 4 * c 0 j 2 + c 0 j 3 + c 0 j 4 = -2 * c 2 j 1 - 4 * c 2 j 2 + c 2 j 3 + c 2 j 4 ∧
    4 * c 0 j 2 - 2 * c 0 j 4 + c 0 j 5 = 4 * c 2 j 2 - 2 * c 2 j 4 + c 2 j 5) ∧
  (∀ j < 2, c 1 j 0 + c 1 j 3 + c 1 j 5 = c 2 j 0 + c 2 j 3 + c 2 j 5 ∧
    -2 * c 1 j 3 - 4 * c 1 j 5 + c 1 j 1 + c 1 j 4 = -2 * c 2 j 3 - 4 * c 2 j 5 + c 2 j 1 + c 2 j 4 ∧
    4 * c 1 j 5 - 2 * c 1 j 4 + c 1 j 2 = 4 * c 2 j 5 - 2 * c 2 j 4 + c 2 j 2) ∧
  (∀ i < 3, 2 * c i 0 2 + c i 1 4 = 0 ∧ c i 0 4 + 2 * c i 1 5 = 0) ∧
  c 2 1 2 - c 2 1 4 + c 2 1 5 = c 2 0 2 - c 2 0 4 + c 2 0 5 ∧ c 1 1 5 = 0 ∧ c 0 0 2 = 0

instance (t : List (List (List ℚ))) : Decidable (GnTable t) := by
  unfold GnTable
  infer_instance

theorem gnTable_ok : ∀ t ∈ gnTable, GnTable t := by decide +kernel

theorem gn_mem : ∀ b ∈ gnExplicit, b ∈ gnSub := by
  intro b hb
  obtain ⟨t, ht, rfl⟩ := List.mem_map.1 hb
  obtain ⟨k1, k2, k3, k4, k5, k6, k7⟩ := gnTable_ok t ht
  refine gn_of (fun i c => gnPoly_mem _) (fun z hz c => ?_) (fun z hz c => ?_) (fun z hz c => ?_) (fun i => ?_) ?_ ?_ ?_
  · obtain ⟨a1, a2, a3⟩ := k1 c.val c.2
    rify at a1 a2 a3
    show eval z (gnPoly ((t.getD 0 []).getD c.val [])) = eval z (gnPoly ((t.getD 1 []).getD c.val []))
    rw [gnPoly_eval, gnPoly_eval, hz]
    linear_combination a1 + z 1 * a2 + z 1 ^ 2 * a3
  · obtain ⟨a1, a2, a3⟩ := k2 c.val c.2
    rify at a1 a2 a3
    show eval z (gnPoly ((t.getD 0 []).getD c.val [])) = eval z (gnPoly ((t.getD 2 []).getD c.val []))
    rw [gnPoly_eval, gnPoly_eval, hz]
    linear_combination a1 + z 1 * a2 + z 1 ^ 2 * a3
  · obtain ⟨a1, a2, a3⟩ := k3 c.val c.2
    rify at a1 a2 a3
    show eval z (gnPoly ((t.getD 1 []).getD c.val [])) = eval z (gnPoly ((t.getD 2 []).getD c.val []))
    rw [gnPoly_eval, gnPoly_eval, hz]
    linear_combination a1 + z 0 * a2 + z 0 ^ 2 * a3
  · obtain ⟨a1, a2⟩ := k4 i.val i.2
    rify at a1 a2
    refine ⟨((((t.getD i.val []).getD 0 []).getD 1 0 : ℚ) : ℝ) + ((((t.getD i.val []).getD 1 []).getD 3 0 : ℚ) : ℝ), fun z => (gnPoly_div _ _ z).trans ?_⟩
    rw [show ((0 : Fin 2) : ℕ) = 0 from rfl, show ((1 : Fin 2) : ℕ) = 1 from rfl, a1, a2, zero_mul, zero_mul, add_zero, add_zero]
  · rify at k5
    refine ⟨((((t.getD 2 []).getD 1 []).getD 0 0 : ℚ) : ℝ) + ((((t.getD 2 []).getD 1 []).getD 1 0 : ℚ) : ℝ) + ((((t.getD 2 []).getD 1 []).getD 2 0 : ℚ) : ℝ) - (((((t.getD 2 []).getD 0 []).getD 0 0 : ℚ) : ℝ) + ((((t.getD 2 []).getD 0 []).getD 1 0 : ℚ) : ℝ) + ((((t.getD 2 []).getD 0 []).getD 2 0 : ℚ) : ℝ)),
      -((((t.getD 2 []).getD 1 []).getD 1 0 : ℚ) : ℝ) - 2 * ((((t.getD 2 []).getD 1 []).getD 2 0 : ℚ) : ℝ) + ((((t.getD 2 []).getD 1 []).getD 3 0 : ℚ) : ℝ) + ((((t.getD 2 []).getD 1 []).getD 4 0 : ℚ) : ℝ) - (-((((t.getD 2 []).getD 0 []).getD 1 0 : ℚ) : ℝ) - 2 * ((((t.getD 2 []).getD 0 []).getD 2 0 : ℚ) : ℝ) + ((((t.getD 2 []).getD 0 []).getD 3 0 : ℚ) : ℝ) + ((((t.getD 2 []).getD 0 []).getD 4 0 : ℚ) : ℝ)), fun s => ?_⟩
    show eval (coords [1 - s, s]) (gnPoly ((t.getD 2 []).getD 1 [])) - eval (coords [1 - s, s]) (gnPoly ((t.getD 2 []).getD 0 [])) = _
    rw [gnPoly_eval, gnPoly_eval]
    simp only [coords, List.getD_cons_zero, List.getD_cons_succ]
    linear_combination s ^ 2 * k5
  · rify at k6
    refine ⟨((((t.getD 1 []).getD 1 []).getD 0 0 : ℚ) : ℝ), ((((t.getD 1 []).getD 1 []).getD 3 0 : ℚ) : ℝ), fun s => ?_⟩
    show eval (coords [0, s]) (gnPoly ((t.getD 1 []).getD 1 [])) = _
    rw [gnPoly_eval]
    simp only [coords, List.getD_cons_zero, List.getD_cons_succ]
    linear_combination s ^ 2 * k6
  · rify at k7
    refine ⟨((((t.getD 0 []).getD 0 []).getD 0 0 : ℚ) : ℝ), ((((t.getD 0 []).getD 0 []).getD 1 0 : ℚ) : ℝ), fun s => ?_⟩
    show eval (coords [s, 0]) (gnPoly ((t.getD 0 []).getD 0 [])) = _
    rw [gnPoly_eval]
    simp only [coords, List.getD_cons_zero, List.getD_cons_succ]
    linear_combination s ^ 2 * k7

set_option maxHeartbeats 1000000 in
theorem gn_independent : Independent ℝ gnExplicit := by
  rw [list_eq_range gnExplicit]
  refine independent_range _ _ fun a ha => ?_
  have h00 : ∀ x y : ℝ, a 0 * ((1) * (x ^ 0 * y ^ 0) + (-1) * (x ^ 1 * y ^ 0) + (-2) * (x ^ 0 * y ^ 1)) + a 2 * ((1) * (x ^ 1 * y ^ 0) + (-1) * (x ^ 0 * y ^ 1)) + a 6 * ((3) * (x ^ 0 * y ^ 1)) + a 8 * ((-3) * (x ^ 1 * y ^ 1) + (9/2) * (x ^ 0 * y ^ 2) + (-2) * (x ^ 0 * y ^ 1)) + a 9 * ((-4) * (x ^ 0 * y ^ 1) + (3) * (x ^ 0 * y ^ 2)) + a 10 * ((6) * (x ^ 0 * y ^ 2) + (-2) * (x ^ 0 * y ^ 1) + (-6) * (x ^ 1 * y ^ 1)) = 0 := by
    intro x y
    have := congrArg (eval (coords [x, y])) (congrFun (congrFun ha 0) 0)
    simp [gnExplicit, gnTable, gnPoly, Finset.sum_range_succ, coords] at this
    linear_combination this
  have h01 : ∀ x y : ℝ, a 1 * ((1) * (x ^ 0 * y ^ 0) + (-1) * (x ^ 1 * y ^ 0) + (-2) * (x ^ 0 * y ^ 1)) + a 3 * ((1) * (x ^ 1 * y ^ 0) + (-1) * (x ^ 0 * y ^ 1)) + a 7 * ((3) * (x ^ 0 * y ^ 1)) + a 8 * ((3/2) * (x ^ 0 * y ^ 2) + (-2) * (x ^ 0 * y ^ 1)) + a 9 * ((2) * (x ^ 0 * y ^ 1)) + a 10 * ((6) * (x ^ 1 * y ^ 0) + (-6) * (x ^ 2 * y ^ 0) + (3) * (x ^ 0 * y ^ 2) + (-2) * (x ^ 0 * y ^ 1)) = 0 := by
    intro x y
    have := congrArg (eval (coords [x, y])) (congrFun (congrFun ha 0) 1)
    simp [gnExplicit, gnTable, gnPoly, Finset.sum_range_succ, coords] at this
    linear_combination this
  have h10 : ∀ x y : ℝ, a 0 * ((1) * (x ^ 0 * y ^ 0) + (-2) * (x ^ 1 * y ^ 0) + (-1) * (x ^ 0 * y ^ 1)) + a 4 * ((-1) * (x ^ 1 * y ^ 0) + (1) * (x ^ 0 * y ^ 1)) + a 6 * ((3) * (x ^ 1 * y ^ 0)) + a 8 * ((3/2) * (x ^ 2 * y ^ 0) + (-2) * (x ^ 1 * y ^ 0)) + a 9 * ((-6) * (x ^ 0 * y ^ 1) + (6) * (x ^ 0 * y ^ 2) + (-3) * (x ^ 2 * y ^ 0) + (2) * (x ^ 1 * y ^ 0)) + a 10 * ((-2) * (x ^ 1 * y ^ 0)) = 0 := by
    intro x y
    have := congrArg (eval (coords [x, y])) (congrFun (congrFun ha 1) 0)
    simp [gnExplicit, gnTable, gnPoly, Finset.sum_range_succ, coords] at this
    linear_combination this
  have h11 : ∀ x y : ℝ, a 1 * ((1) * (x ^ 0 * y ^ 0) + (-2) * (x ^ 1 * y ^ 0) + (-1) * (x ^ 0 * y ^ 1)) + a 5 * ((-1) * (x ^ 1 * y ^ 0) + (1) * (x ^ 0 * y ^ 1)) + a 7 * ((3) * (x ^ 1 * y ^ 0)) + a 8 * ((-3) * (x ^ 1 * y ^ 1) + (9/2) * (x ^ 2 * y ^ 0) + (-2) * (x ^ 1 * y ^ 0)) + a 9 * ((-6) * (x ^ 2 * y ^ 0) + (2) * (x ^ 1 * y ^ 0) + (6) * (x ^ 1 * y ^ 1)) + a 10 * ((4) * (x ^ 1 * y ^ 0) + (-3) * (x ^ 2 * y ^ 0)) = 0 := by
    intro x y
    have := congrArg (eval (coords [x, y])) (congrFun (congrFun ha 1) 1)
    simp [gnExplicit, gnTable, gnPoly, Finset.sum_range_succ, coords] at this
    linear_combination this
  intro i hi
  have hi' : i < 11 := hi
  interval_cases i
  · linear_combination (1) * h00 0 0
  · linear_combination (1) * h01 0 0
  · linear_combination (1) * h00 1 0
  · linear_combination (1) * h01 1 0
  · linear_combination (1) * h00 0 0 + (1) * h00 1 1 + (-1) * h10 1 0
  · linear_combination (-5) * h00 0 0 + (4) * h00 1 0 + (6) * h00 0 1 + (-4) * h00 1 1 + (-1) * h00 0 2 + (1) * h01 0 0 + (-1) * h01 1 0 + (1) * h01 0 1 + (1) * h01 2 0 + (-1) * h11 1 0
  · linear_combination (5/6) * h00 0 0 + (-1/9) * h00 1 0 + (-2/9) * h00 0 1 + (4/9) * h00 1 1 + (1/18) * h00 0 2 + (-1/18) * h01 0 0 + (1/9) * h01 1 0 + (-1/18) * h01 2 0
  · linear_combination (-1/2) * h00 0 0 + (7/18) * h00 1 0 + (11/18) * h00 0 1 + (-7/18) * h00 1 1 + (-1/9) * h00 0 2 + (4/9) * h01 0 0 + (1/9) * h01 1 0 + (1/3) * h01 0 1 + (1/9) * h01 2 0
  · linear_combination (-1/3) * h00 0 0 + (1/3) * h00 1 0 + (1/3) * h00 0 1 + (-1/3) * h00 1 1 + (1/6) * h01 0 0 + (-1/3) * h01 1 0 + (1/6) * h01 2 0
  · linear_combination (2/3) * h00 0 0 + (-1/2) * h00 1 0 + (-5/6) * h00 0 1 + (1/2) * h00 1 1 + (1/6) * h00 0 2 + (-1/12) * h01 0 0 + (1/6) * h01 1 0 + (-1/12) * h01 2 0
  · linear_combination (-1/12) * h01 0 0 + (1/6) * h01 1 0 + (-1/12) * h01 2 0


/-! ### Unisolvence -/

/-- The only function of the space without values at the vertices, the centre and the midpoints of the edges is 0. -/
theorem gn_zero {f : Fin 3 → Field 2} (hf : GNSpace f) (hc : ∀ i : Fin 3, ∀ c, eval (coords [1 / 3, 1 / 3]) (f i c) = 0)
    (h0 : ∀ p ∈ [coords [0, 0], coords [1, 0], coords [1 / 2, 0]], ∀ c, eval p (f 0 c) = 0)
    (h1 : ∀ p ∈ [coords [0, 0], coords [0, 1], coords [0, 1 / 2]], ∀ c, eval p (f 1 c) = 0)
    (h2 : ∀ p ∈ [coords [1, 0], coords [0, 1], coords [1 / 2, 1 / 2]], ∀ c, eval p (f 2 c) = 0) : f = 0 := by
  obtain ⟨hP, hC, hD, -⟩ := hf
  obtain ⟨c00, c00v, c00x, c00y, c00z⟩ := quadratic (hP 0 0)
  obtain ⟨c01, c01v, c01x, c01y, c01z⟩ := quadratic (hP 0 1)
  obtain ⟨c10, c10v, c10x, c10y, c10z⟩ := quadratic (hP 1 0)
  obtain ⟨c11, c11v, c11x, c11y, c11z⟩ := quadratic (hP 1 1)
  obtain ⟨c20, c20v, c20x, c20y, c20z⟩ := quadratic (hP 2 0)
  obtain ⟨c21, c21v, c21x, c21y, c21z⟩ := quadratic (hP 2 1)
  simp only [List.mem_cons, List.not_mem_nil, or_false, forall_eq_or_imp, forall_eq, Fin.forall_fin_two] at h0 h1 h2
  obtain ⟨⟨u000, u001⟩, ⟨u010, u011⟩, u020, u021⟩ := h0
  obtain ⟨⟨u100, u101⟩, ⟨u110, u111⟩, u120, u121⟩ := h1
  obtain ⟨⟨u200, u201⟩, ⟨u210, u211⟩, u220, u221⟩ := h2
  have u030 := hc 0 0
  have u031 := hc 0 1
  have u130 := hc 1 0
  have u131 := hc 1 1
  have u230 := hc 2 0
  have u231 := hc 2 1
  have pk := hC 0 1 (coords [1 / 6, 1 / 6]) (inside_zero.2 (by norm_num [coords])) (inside_one.2 (by norm_num [coords]))
  have qk := hC 0 2 (coords [2 / 3, 1 / 6]) (inside_zero.2 (by norm_num [coords])) (inside_two.2 (by norm_num [coords]))
  have rk := hC 1 2 (coords [1 / 6, 2 / 3]) (inside_one.2 (by norm_num [coords])) (inside_two.2 (by norm_num [coords]))
  have p0 := pk 0
  have p1 := pk 1
  have q0 := qk 0
  have q1 := qk 1
  have r0 := rk 0
  have r1 := rk 1
  have hd : ∀ i z, divAt (f i) z = divAt (f i) (coords [0, 0]) := fun i z => by
    obtain ⟨a, ha⟩ := hD i
    rw [ha, ha]
  have x0 := hd 0 (coords [1, 0])
  have y0 := hd 0 (coords [0, 1])
  have x1 := hd 1 (coords [1, 0])
  have y1 := hd 1 (coords [0, 1])
  have x2 := hd 2 (coords [1, 0])
  have y2 := hd 2 (coords [0, 1])
  clear hc pk qk rk hd hD hC
  simp only [divAt, c00v, c00x, c00y, c01v, c01x, c01y, c10v, c10x, c10y, c11v, c11x, c11y, c20v, c20x, c20y, c21v, c21x, c21y, coords,
    List.getD_cons_zero, List.getD_cons_succ, qua, quax, quay] at u000 u001 u010 u011 u020 u021 u030 u031 u100 u101 u110 u111 u120 u121 u130 u131 u200 u201 u210 u211 u220 u221 u230 u231 p0 p1 q0 q1 r0 r1 x0 y0 x1 y1 x2 y2
  have z00 : f 0 0 = 0 := by
    refine c00z fun i hi => ?_
    interval_cases i
    · linear_combination (1) * u000
    · linear_combination (-3) * u000 + (-1) * u010 + (4) * u020
    · linear_combination (2) * u000 + (2) * u010 + (-4) * u020
    · linear_combination (-58/9) * u000 + (-8/9) * u001 + (7/9) * u010 + (2/9) * u011 + (-10/3) * u020 + (-3) * u030 + (-2/3) * u031 + (52/9) * u100 + (26/9) * u101 + (-10/9) * u110 + (10/9) * u111 + (2/3) * u120 + (-4) * u121 + (16/3) * u130 + (-4/9) * u200 + (-2/9) * u201 + (4/9) * u210 + (8/9) * u211 + (2/3) * u220 + (2/3) * u230 + (2/3) * u231 + (110/9) * p0 + (16/9) * p1 + (-2/9) * q0 + (-4/9) * q1 + (14/9) * r0 + (16/9) * r1 + (2/27) * x0 + (1/54) * y0 + (-4/27) * x1 + (-23/54) * y1 + (2/27) * x2 + (-5/54) * y2
    · linear_combination (28/3) * u000 + (8/3) * u001 + (-4/3) * u010 + (-8/3) * u011 + (-8) * u020 + (-4) * u021 + (-4) * u031 + (-16/3) * u100 + (-8/3) * u101 + (4/3) * u110 + (-4/3) * u111 + (4) * u121 + (-4) * u130 + (16/3) * u200 + (8/3) * u201 + (-4/3) * u210 + (-8/3) * u211 + (4) * u221 + (4) * u230 + (4) * u231 + (-32/3) * p0 + (-4/3) * p1 + (32/3) * q0 + (28/3) * q1 + (-8/3) * r0 + (-4/3) * r1 + (-5/9) * x0 + (1/9) * y0 + (1/9) * x1 + (4/9) * y1 + (-5/9) * x2 + (4/9) * y2
    · linear_combination (8) * u000 + (2) * u011 + (10) * u020 + (4) * u021 + (18) * u030 + (6) * u031 + (-12) * u100 + (-6) * u101 + (2) * u110 + (-2) * u111 + (-2) * u120 + (8) * u121 + (-12) * u130 + (-4) * u200 + (-2) * u201 + (-2) * u220 + (-4) * u221 + (-6) * u230 + (-6) * u231 + (-26) * p0 + (-4) * p1 + (-10) * q0 + (-8) * q1 + (-2) * r0 + (-4) * r1 + (1/3) * x0 + (-1/6) * y0 + (1/3) * x1 + (5/6) * y1 + (1/3) * x2 + (-1/6) * y2
  have z01 : f 0 1 = 0 := by
    refine c01z fun i hi => ?_
    interval_cases i
    · linear_combination (1) * u001
    · linear_combination (-3) * u001 + (-1) * u011 + (4) * u021
    · linear_combination (2) * u001 + (2) * u011 + (-4) * u021
    · linear_combination (26/9) * u000 + (-2/9) * u001 + (10/9) * u010 + (-1/9) * u011 + (-4) * u020 + (-10/3) * u021 + (7/3) * u031 + (-8/9) * u100 + (-4/9) * u101 + (2/9) * u110 + (-2/9) * u111 + (2/3) * u121 + (-2/3) * u130 + (8/9) * u200 + (4/9) * u201 + (-2/9) * u210 + (-4/9) * u211 + (2/3) * u221 + (2/3) * u230 + (2/3) * u231 + (-16/9) * p0 + (-2/9) * p1 + (16/9) * q0 + (14/9) * q1 + (-4/9) * r0 + (-2/9) * r1 + (-23/54) * x0 + (-4/27) * y0 + (1/54) * x1 + (2/27) * y1 + (-5/54) * x2 + (2/27) * y2
    · linear_combination (-4) * u000 + (-4) * u010 + (8) * u020 + (1) * x0
    · linear_combination (-14/3) * u000 + (-4/3) * u001 + (2/3) * u010 + (4/3) * u011 + (4) * u020 + (2) * u021 + (2) * u031 + (8/3) * u100 + (4/3) * u101 + (-2/3) * u110 + (2/3) * u111 + (-2) * u121 + (2) * u130 + (-8/3) * u200 + (-4/3) * u201 + (2/3) * u210 + (4/3) * u211 + (-2) * u221 + (-2) * u230 + (-2) * u231 + (16/3) * p0 + (2/3) * p1 + (-16/3) * q0 + (-14/3) * q1 + (4/3) * r0 + (2/3) * r1 + (5/18) * x0 + (4/9) * y0 + (-1/18) * x1 + (-2/9) * y1 + (5/18) * x2 + (-2/9) * y2
  have z10 : f 1 0 = 0 := by
    refine c10z fun i hi => ?_
    interval_cases i
    · linear_combination (1) * u100
    · linear_combination (-4/9) * u000 + (-8/9) * u001 + (-2/9) * u010 + (2/9) * u011 + (2/3) * u020 + (-2/3) * u031 + (-2/9) * u100 + (26/9) * u101 + (-1/9) * u110 + (10/9) * u111 + (-10/3) * u120 + (-4) * u121 + (7/3) * u130 + (-4/9) * u200 + (-2/9) * u201 + (4/9) * u210 + (8/9) * u211 + (2/3) * u220 + (2/3) * u230 + (2/3) * u231 + (2/9) * p0 + (16/9) * p1 + (-2/9) * q0 + (-4/9) * q1 + (14/9) * r0 + (16/9) * r1 + (2/27) * x0 + (1/54) * y0 + (-4/27) * x1 + (-23/54) * y1 + (2/27) * x2 + (-5/54) * y2
    · linear_combination (4/3) * u000 + (8/3) * u001 + (2/3) * u010 + (-2/3) * u011 + (-2) * u020 + (2) * u031 + (-4/3) * u100 + (-14/3) * u101 + (4/3) * u110 + (2/3) * u111 + (2) * u120 + (4) * u121 + (2) * u130 + (4/3) * u200 + (2/3) * u201 + (-4/3) * u210 + (-8/3) * u211 + (-2) * u220 + (-2) * u230 + (-2) * u231 + (-2/3) * p0 + (-16/3) * p1 + (2/3) * q0 + (4/3) * q1 + (-14/3) * r0 + (-16/3) * r1 + (-2/9) * x0 + (-1/18) * y0 + (4/9) * x1 + (5/18) * y1 + (-2/9) * x2 + (5/18) * y2
    · linear_combination (-3) * u100 + (-1) * u110 + (4) * u120
    · linear_combination (-4) * u101 + (-4) * u111 + (8) * u121 + (1) * y1
    · linear_combination (2) * u100 + (2) * u110 + (-4) * u120
  have z11 : f 1 1 = 0 := by
    refine c11z fun i hi => ?_
    interval_cases i
    · linear_combination (1) * u101
    · linear_combination (26/9) * u000 + (52/9) * u001 + (10/9) * u010 + (-10/9) * u011 + (-4) * u020 + (2/3) * u021 + (16/3) * u031 + (-8/9) * u100 + (-58/9) * u101 + (2/9) * u110 + (7/9) * u111 + (-10/3) * u121 + (-2/3) * u130 + (-3) * u131 + (8/9) * u200 + (4/9) * u201 + (-2/9) * u210 + (-4/9) * u211 + (2/3) * u221 + (2/3) * u230 + (2/3) * u231 + (-16/9) * p0 + (-110/9) * p1 + (16/9) * q0 + (14/9) * q1 + (-4/9) * r0 + (-2/9) * r1 + (-23/54) * x0 + (-4/27) * y0 + (1/54) * x1 + (2/27) * y1 + (-5/54) * x2 + (2/27) * y2
    · linear_combination (-6) * u000 + (-12) * u001 + (-2) * u010 + (2) * u011 + (8) * u020 + (-2) * u021 + (-12) * u031 + (8) * u101 + (2) * u110 + (4) * u120 + (10) * u121 + (6) * u130 + (18) * u131 + (-2) * u210 + (-4) * u211 + (-4) * u220 + (-2) * u221 + (-6) * u230 + (-6) * u231 + (4) * p0 + (26) * p1 + (-4) * q0 + (-2) * q1 + (-8) * r0 + (-10) * r1 + (5/6) * x0 + (1/3) * y0 + (-1/6) * x1 + (1/3) * y1 + (-1/6) * x2 + (1/3) * y2
    · linear_combination (-3) * u101 + (-1) * u111 + (4) * u121
    · linear_combination (-8/3) * u000 + (-16/3) * u001 + (-4/3) * u010 + (4/3) * u011 + (4) * u020 + (-4) * u031 + (8/3) * u100 + (28/3) * u101 + (-8/3) * u110 + (-4/3) * u111 + (-4) * u120 + (-8) * u121 + (-4) * u130 + (-8/3) * u200 + (-4/3) * u201 + (8/3) * u210 + (16/3) * u211 + (4) * u220 + (4) * u230 + (4) * u231 + (4/3) * p0 + (32/3) * p1 + (-4/3) * q0 + (-8/3) * q1 + (28/3) * r0 + (32/3) * r1 + (4/9) * x0 + (1/9) * y0 + (1/9) * x1 + (-5/9) * y1 + (4/9) * x2 + (-5/9) * y2
    · linear_combination (2) * u101 + (2) * u111 + (-4) * u121
  have z20 : f 2 0 = 0 := by
    refine c20z fun i hi => ?_
    interval_cases i
    · linear_combination (-4/9) * u000 + (-8/9) * u001 + (-20/9) * u010 + (20/9) * u011 + (8/3) * u020 + (4) * u021 + (16/3) * u031 + (16/9) * u100 + (8/9) * u101 + (-28/9) * u110 + (28/9) * u111 + (-16/3) * u120 + (-4) * u121 + (-20/3) * u130 + (-13/9) * u200 + (-20/9) * u201 + (31/9) * u210 + (8/9) * u211 + (8/3) * u220 + (-4) * u221 + (29/3) * u230 + (-16/3) * u231 + (-16/9) * p0 + (-20/9) * p1 + (16/9) * q0 + (-76/9) * q1 + (104/9) * r0 + (-20/9) * r1 + (11/27) * x0 + (-4/27) * y0 + (5/27) * x1 + (-16/27) * y1 + (11/27) * x2 + (-7/27) * y2
    · linear_combination (16/9) * u000 + (32/9) * u001 + (62/9) * u010 + (-62/9) * u011 + (-26/3) * u020 + (-12) * u021 + (-46/3) * u031 + (-28/9) * u100 + (-14/9) * u101 + (58/9) * u110 + (-58/9) * u111 + (34/3) * u120 + (8) * u121 + (44/3) * u130 + (34/9) * u200 + (62/9) * u201 + (-61/9) * u210 + (-32/9) * u211 + (-26/3) * u220 + (12) * u221 + (-53/3) * u230 + (46/3) * u231 + (46/9) * p0 + (44/9) * p1 + (-46/9) * q0 + (232/9) * q1 + (-218/9) * r0 + (44/9) * r1 + (-35/27) * x0 + (23/54) * y0 + (-11/27) * x1 + (65/54) * y1 + (-35/27) * x2 + (47/54) * y2
    · linear_combination (-4/3) * u000 + (-8/3) * u001 + (-14/3) * u010 + (14/3) * u011 + (6) * u020 + (8) * u021 + (10) * u031 + (4/3) * u100 + (2/3) * u101 + (-10/3) * u110 + (10/3) * u111 + (-6) * u120 + (-4) * u121 + (-8) * u130 + (-4/3) * u200 + (-14/3) * u201 + (10/3) * u210 + (8/3) * u211 + (6) * u220 + (-8) * u221 + (8) * u230 + (-10) * u231 + (-10/3) * p0 + (-8/3) * p1 + (10/3) * q0 + (-52/3) * q1 + (38/3) * r0 + (-8/3) * r1 + (8/9) * x0 + (-5/18) * y0 + (2/9) * x1 + (-11/18) * y1 + (8/9) * x2 + (-11/18) * y2
    · linear_combination (4/9) * u000 + (8/9) * u001 + (38/9) * u010 + (-38/9) * u011 + (-14/3) * u020 + (-8) * u021 + (-34/3) * u031 + (-52/9) * u100 + (-26/9) * u101 + (82/9) * u110 + (-82/9) * u111 + (46/3) * u120 + (12) * u121 + (56/3) * u130 + (31/9) * u200 + (38/9) * u201 + (-94/9) * u210 + (-8/9) * u211 + (-26/3) * u220 + (8) * u221 + (-65/3) * u230 + (34/3) * u231 + (34/9) * p0 + (56/9) * p1 + (-34/9) * q0 + (148/9) * q1 + (-302/9) * r0 + (56/9) * r1 + (-20/27) * x0 + (17/54) * y0 + (-14/27) * x1 + (95/54) * y1 + (-20/27) * x2 + (23/54) * y2
    · linear_combination (-4/3) * u000 + (-8/3) * u001 + (-20/3) * u010 + (20/3) * u011 + (8) * u020 + (12) * u021 + (16) * u031 + (16/3) * u100 + (8/3) * u101 + (-28/3) * u110 + (28/3) * u111 + (-16) * u120 + (-12) * u121 + (-20) * u130 + (-16/3) * u200 + (-20/3) * u201 + (28/3) * u210 + (8/3) * u211 + (16) * u220 + (-12) * u221 + (20) * u230 + (-16) * u231 + (-16/3) * p0 + (-20/3) * p1 + (16/3) * q0 + (-76/3) * q1 + (104/3) * r0 + (-20/3) * r1 + (11/9) * x0 + (-4/9) * y0 + (5/9) * x1 + (-16/9) * y1 + (11/9) * x2 + (-7/9) * y2
    · linear_combination (-2) * u010 + (2) * u011 + (2) * u020 + (4) * u021 + (6) * u031 + (4) * u100 + (2) * u101 + (-6) * u110 + (6) * u111 + (-10) * u120 + (-8) * u121 + (-12) * u130 + (-2) * u200 + (-2) * u201 + (8) * u210 + (6) * u220 + (-4) * u221 + (12) * u230 + (-6) * u231 + (-2) * p0 + (-4) * p1 + (2) * q0 + (-8) * q1 + (22) * r0 + (-4) * r1 + (1/3) * x0 + (-1/6) * y0 + (1/3) * x1 + (-7/6) * y1 + (1/3) * x2 + (-1/6) * y2
  have z21 : f 2 1 = 0 := by
    refine c21z fun i hi => ?_
    interval_cases i
    · linear_combination (8/9) * u000 + (16/9) * u001 + (28/9) * u010 + (-28/9) * u011 + (-4) * u020 + (-16/3) * u021 + (-20/3) * u031 + (-8/9) * u100 + (-4/9) * u101 + (20/9) * u110 + (-20/9) * u111 + (4) * u120 + (8/3) * u121 + (16/3) * u130 + (8/9) * u200 + (31/9) * u201 + (-20/9) * u210 + (-13/9) * u211 + (-4) * u220 + (8/3) * u221 + (-16/3) * u230 + (29/3) * u231 + (20/9) * p0 + (16/9) * p1 + (-20/9) * q0 + (104/9) * q1 + (-76/9) * r0 + (16/9) * r1 + (-16/27) * x0 + (5/27) * y0 + (-4/27) * x1 + (11/27) * y1 + (-7/27) * x2 + (11/27) * y2
    · linear_combination (-26/9) * u000 + (-52/9) * u001 + (-82/9) * u010 + (82/9) * u011 + (12) * u020 + (46/3) * u021 + (56/3) * u031 + (8/9) * u100 + (4/9) * u101 + (-38/9) * u110 + (38/9) * u111 + (-8) * u120 + (-14/3) * u121 + (-34/3) * u130 + (-8/9) * u200 + (-94/9) * u201 + (38/9) * u210 + (31/9) * u211 + (8) * u220 + (-26/3) * u221 + (34/3) * u230 + (-65/3) * u231 + (-56/9) * p0 + (-34/9) * p1 + (56/9) * q0 + (-302/9) * q1 + (148/9) * r0 + (-34/9) * r1 + (95/54) * x0 + (-14/27) * y0 + (17/54) * x1 + (-20/27) * y1 + (23/54) * x2 + (-20/27) * y2
    · linear_combination (2) * u000 + (4) * u001 + (6) * u010 + (-6) * u011 + (-8) * u020 + (-10) * u021 + (-12) * u031 + (2) * u110 + (-2) * u111 + (4) * u120 + (2) * u121 + (6) * u130 + (8) * u201 + (-2) * u210 + (-2) * u211 + (-4) * u220 + (6) * u221 + (-6) * u230 + (12) * u231 + (4) * p0 + (2) * p1 + (-4) * q0 + (22) * q1 + (-8) * r0 + (2) * r1 + (-7/6) * x0 + (1/3) * y0 + (-1/6) * x1 + (1/3) * y1 + (-1/6) * x2 + (1/3) * y2
    · linear_combination (-14/9) * u000 + (-28/9) * u001 + (-58/9) * u010 + (58/9) * u011 + (8) * u020 + (34/3) * u021 + (44/3) * u031 + (32/9) * u100 + (16/9) * u101 + (-62/9) * u110 + (62/9) * u111 + (-12) * u120 + (-26/3) * u121 + (-46/3) * u130 + (-32/9) * u200 + (-61/9) * u201 + (62/9) * u210 + (34/9) * u211 + (12) * u220 + (-26/3) * u221 + (46/3) * u230 + (-53/3) * u231 + (-44/9) * p0 + (-46/9) * p1 + (44/9) * q0 + (-218/9) * q1 + (232/9) * r0 + (-46/9) * r1 + (65/54) * x0 + (-11/27) * y0 + (23/54) * x1 + (-35/27) * y1 + (47/54) * x2 + (-35/27) * y2
    · linear_combination (8/3) * u000 + (16/3) * u001 + (28/3) * u010 + (-28/3) * u011 + (-12) * u020 + (-16) * u021 + (-20) * u031 + (-8/3) * u100 + (-4/3) * u101 + (20/3) * u110 + (-20/3) * u111 + (12) * u120 + (8) * u121 + (16) * u130 + (8/3) * u200 + (28/3) * u201 + (-20/3) * u210 + (-16/3) * u211 + (-12) * u220 + (16) * u221 + (-16) * u230 + (20) * u231 + (20/3) * p0 + (16/3) * p1 + (-20/3) * q0 + (104/3) * q1 + (-76/3) * r0 + (16/3) * r1 + (-16/9) * x0 + (5/9) * y0 + (-4/9) * x1 + (11/9) * y1 + (-7/9) * x2 + (11/9) * y2
    · linear_combination (2/3) * u000 + (4/3) * u001 + (10/3) * u010 + (-10/3) * u011 + (-4) * u020 + (-6) * u021 + (-8) * u031 + (-8/3) * u100 + (-4/3) * u101 + (14/3) * u110 + (-14/3) * u111 + (8) * u120 + (6) * u121 + (10) * u130 + (8/3) * u200 + (10/3) * u201 + (-14/3) * u210 + (-4/3) * u211 + (-8) * u220 + (6) * u221 + (-10) * u230 + (8) * u231 + (8/3) * p0 + (10/3) * p1 + (-8/3) * q0 + (38/3) * q1 + (-52/3) * r0 + (10/3) * r1 + (-11/18) * x0 + (2/9) * y0 + (-5/18) * x1 + (8/9) * y1 + (-11/18) * x2 + (8/9) * y2

  funext i c
  fin_cases i <;> fin_cases c
  · exact z00
  · exact z01
  · exact z10
  · exact z11
  · exact z20
  · exact z21

end Verif.Macro
