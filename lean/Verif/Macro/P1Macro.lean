import Verif.Macro.Nodal
import Verif.Macro.HctElement
import Verif.Scalar.Model
/-!
# P1 macro elements
-/

namespace Verif.Macro
open Verif.References Verif.Elements Verif.FiniteElement Verif.Polysets Verif.Moments Verif.Geometry Verif.Functions
open Verif.Families Verif.Scalar Verif.Functionals Verif.Orthogonal
open MvPolynomial

/-! ### Model -/

/-- The functions of the element on the default triangle, where `invmap` is the identity (symfem/elements/p1_macro.py:41-55): the terms of the
pieces on the three cells. -/
def p1MacroTerms : List (List (List (ℤ × Mono))) :=
  [[[(1, [0, 0])], [(1, [0, 0])], [(1, [0, 0])]],
   [[(1, [1, 0])], [(1, [1, 0])], [(1, [1, 0])]],
   [[(1, [0, 1])], [(1, [0, 1])], [(1, [0, 1])]],
   [[(3, [0, 1])], [(3, [0, 0]), (-3, [1, 0]), (-3, [0, 1])], [(3, [1, 0])]]]

/-- The functions of the element. -/
noncomputable def p1MacroBasis : List (Fin 3 → MvPolynomial ℕ ℝ) := p1MacroTerms.map (ofTerms 3)

/-- The three triangles (symfem/elements/p1_macro.py:34-39). -/
noncomputable def p1MacroCells : Fin 3 → Fin 3 → Fin 2 → ℝ
  | 0 => ![![0, 0], ![1, 0], ![1 / 3, 1 / 3]]
  | 1 => ![![1, 0], ![0, 1], ![1 / 3, 1 / 3]]
  | 2 => ![![0, 1], ![0, 0], ![1 / 3, 1 / 3]]

/-- A triangle as a domain of integration. -/
noncomputable def triDomain (v : Fin 3 → Fin 2 → ℝ) : Domain := ⟨.triangle, 2, fun a j => if h : a < 3 ∧ j < 2 then v ⟨a, h.1⟩ ⟨j, h.2⟩ else 0⟩

/-- `IntegralAgainst(reference, 1, entity=(2, 0))` of the default triangle (symfem/functionals.py:938-1010) for functions in pieces: the function of
the functional is `1 / reference.jacobian()`, the points of the triangle are substituted in all the pieces and each of the pieces is integrated over
its cell (symfem/piecewise_functions.py:304-330, 443-465). There is nothing left to substitute in the second step, so that the cell only enters with
its Jacobian; `Functionals/Pieces` has the proof for symbolic functions. -/
noncomputable def againstPieces (c : Fin 3 → Fin 3 → Fin 2 → ℝ) : Option (Dof ℝ (Fin 3 → MvPolynomial ℕ ℝ)) := do
  let J ← References.jacobian (entityDomain .triangle (2, 0)).cell (entityDomain .triangle (2, 0)).g (entityDomain .triangle (2, 0)).v
  let js ← (List.ofFn c).mapM fun v => References.jacobian (triDomain v).cell (triDomain v).g (triDomain v).v
  some ⟨9, (2, 0), some "identity", ∑ i : Fin 3, moment1Map (entityDomain .triangle (2, 0)) (js.getD i.val 0) (C (1 / J)) ∘ₗ LinearMap.proj i⟩

/-- `P1Macro(reference, order)` on the default triangle; `create_element` accepts order 1 (symfem/elements/p1_macro.py:23-61, 89-96). -/
noncomputable def p1Macro (k : ℕ) : Option (Element ℝ (Fin 3 → MvPolynomial ℕ ℝ)) :=
  if k = 1 then do
    let vs ← (List.range 3).mapM fun n => nodalDof p1MacroCells (refVertex .triangle n) (0, n)
    let d ← againstPieces p1MacroCells
    ciarlet p1MacroBasis (vs ++ [d])
  else none

/-! ### Specification -/

/-- The continuous functions that are affine on each of the three triangles. -/
def P1Split (f : Fin 3 → MvPolynomial ℕ ℝ) : Prop := Continuous0 (P 2 1) corner f

/-- The integral of a function in pieces over the triangle: the sum of the integrals of its pieces over their cells, each computed by a change of variables. -/
noncomputable def integralPieces (f : Fin 3 → MvPolynomial ℕ ℝ) : ℝ :=
  ∑ i : Fin 3, cellInt .triangle fun z => eval (fun j => corner i 0 ⟨j % 2, Nat.mod_lt _ two_pos⟩
    + z 0 * (corner i 1 ⟨j % 2, Nat.mod_lt _ two_pos⟩ - corner i 0 ⟨j % 2, Nat.mod_lt _ two_pos⟩)
    + z 1 * (corner i 2 ⟨j % 2, Nat.mod_lt _ two_pos⟩ - corner i 0 ⟨j % 2, Nat.mod_lt _ two_pos⟩)) (f i) * area2 (corner i 0) (corner i 1) (corner i 2)

/-- The centre. -/
noncomputable def centre : ℕ → ℝ := coords [1 / 3, 1 / 3]

/-! ### Lemmas -/

theorem p1MacroCells_eq : p1MacroCells = corner := by
  funext i
  fin_cases i <;> rfl

theorem corner_rows : (corner 0 0 = ![0, 0] ∧ corner 0 1 = ![1, 0] ∧ corner 0 2 = ![1 / 3, 1 / 3]) ∧
    (corner 1 0 = ![1, 0] ∧ corner 1 1 = ![0, 1] ∧ corner 1 2 = ![1 / 3, 1 / 3]) ∧
    corner 2 0 = ![0, 1] ∧ corner 2 1 = ![0, 0] ∧ corner 2 2 = ![1 / 3, 1 / 3] := ⟨⟨rfl, rfl, rfl⟩, ⟨rfl, rfl, rfl⟩, rfl, rfl, rfl⟩

theorem fin_two (h : 2 < 3) : (⟨2, h⟩ : Fin 3) = 2 := rfl

theorem corner_area (i : Fin 3) : area2 (corner i 0) (corner i 1) (corner i 2) = 1 / 3 := by
  fin_cases i <;> norm_num [area2, corner_rows, fin_two]

theorem centre_in (j : Fin 3) : Inside (corner j) centre := inside_corner _ 2 fun k => by
  fin_cases j <;> fin_cases k <;> norm_num [corner_rows, fin_two, centre, coords]

theorem ref_domain : entityDomain .triangle (2, 0) = ⟨.triangle, 2, entityVerts (refVertex .triangle) [0, 1, 2]⟩ := rfl

theorem tri_affine (a b c : ℝ) : cellInt .triangle (fun z => a + b * z 0 + c * z 1) = a / 2 + b / 6 + c / 6 := by
  have e : (fun z : ℕ → ℝ => a + b * z 0 + c * z 1) = fun z => a * eval z (denoteMono ℝ [0, 0]) + (b * eval z (denoteMono ℝ [1, 0]) + c * eval z (denoteMono ℝ [0, 1])) := by
    funext z
    simp [denoteMono, monoFrom]
    ring
  have hc : ∀ (a : ℝ) p, Continuous fun z : ℕ → ℝ => a * eval z p := fun a p => continuous_const.mul (MvPolynomial.continuous_eval p)
  rw [e, cellInt_add (g := fun z => b * eval z (denoteMono ℝ [1, 0]) + c * eval z (denoteMono ℝ [0, 1])) _ (hc _ _) ((hc _ _).add (hc _ _)), cellInt_add _ (hc _ _) (hc _ _), cellInt_const_mul, cellInt_const_mul, cellInt_const_mul,
    cellInt_tri_mono, cellInt_tri_mono, cellInt_tri_mono]
  norm_num [Nat.factorial]
  ring

theorem triDomain_jacobian (i : Fin 3) : References.jacobian (triDomain (corner i)).cell (triDomain (corner i)).g (triDomain (corner i)).v = some (1 / 3) := by
  have h : ∀ x : ℝ, x = 1 / 3 → some |x| = some (1 / 3) := by
    rintro x rfl
    norm_num [abs_of_pos]
  have r : ∀ v : Fin 3 → Fin 2 → ℝ, (v 1 0 - v 0 0) * (v 2 1 - v 0 1) - (v 1 1 - v 0 1) * (v 2 0 - v 0 0) = 1 / 3 →
      References.jacobian (triDomain v).cell (triDomain v).g (triDomain v).v = some (1 / 3) := fun v hv => h _ hv
  refine r _ ?_
  fin_cases i <;> norm_num [corner_rows, fin_two]

theorem ref_jacobian : References.jacobian (entityDomain .triangle (2, 0)).cell (entityDomain .triangle (2, 0)).g (entityDomain .triangle (2, 0)).v = some 1 := by
  have h : ∀ V : ℕ → ℕ → ℝ, References.jacobian .triangle 2 V = some |(V 1 0 - V 0 0) * (V 2 1 - V 0 1) - (V 1 1 - V 0 1) * (V 2 0 - V 0 0)| := fun _ => rfl
  rw [ref_domain, h]
  norm_num [entityVerts, refVertex, refVerts, coords]

theorem againstPieces_eq : ∃ D, againstPieces corner = some D ∧ D.entity = (2, 0) ∧ ∀ f, P1Split f → ∀ i, D.eval f = eval centre (f i) / 2 := by
  have hj : (List.ofFn corner).mapM (fun v => References.jacobian (triDomain v).cell (triDomain v).g (triDomain v).v) = some [1 / 3, 1 / 3, 1 / 3] := by
    rw [List.ofFn_succ, List.ofFn_succ, List.ofFn_succ, List.ofFn_zero]
    simp only [List.mapM_cons, List.mapM_nil, triDomain_jacobian]
    rfl
  refine ⟨_, by unfold againstPieces; rw [ref_jacobian, hj]; rfl, rfl, fun f hf i => ?_⟩
  have hp : ∀ z, (entityDomain .triangle (2, 0)).param z 0 = z 0 ∧ (entityDomain .triangle (2, 0)).param z 1 = z 1 := fun z => by
    rw [ref_domain]
    constructor <;> simp [Domain.param, axisVertices, entityVerts, refVertex, refVerts, coords, Cell.tdim, Finset.sum_range_succ]
  have hv : ∀ (p : MvPolynomial ℕ ℝ), p ∈ P 2 1 → moment1Map (entityDomain .triangle (2, 0)) (1 / 3) (C (1 / 1)) p = eval centre p / 6 := by
    intro p hp'
    obtain ⟨a, b, c, rfl⟩ := P_one hp'
    show cellInt .triangle (fun z => eval ((entityDomain .triangle (2, 0)).param z) (C a + C b * X 0 + C c * X 1) * eval z (C (1 / 1)) * (1 / 3)) = _
    refine Eq.trans (b := cellInt .triangle fun z => a / 3 + b / 3 * z 0 + c / 3 * z 1) (congrArg (cellInt .triangle) (funext fun z => ?_))
      ((tri_affine (a / 3) (b / 3) (c / 3)).trans ?_)
    · simp only [map_add, map_mul, eval_C, eval_X, (hp z).1, (hp z).2]
      ring
    · simp [centre, coords]
      ring
  have hin := centre_in
  show (∑ j : Fin 3, moment1Map (entityDomain .triangle (2, 0)) (([1 / 3, 1 / 3, 1 / 3] : List ℝ).getD j.val 0) (C (1 / 1)) ∘ₗ LinearMap.proj j) f = _
  have hg : ∀ j : Fin 3, ([1 / 3, 1 / 3, 1 / 3] : List ℝ).getD j.val 0 = 1 / 3 := fun j => by fin_cases j <;> rfl
  simp only [LinearMap.sum_apply, LinearMap.comp_apply, LinearMap.proj_apply, hg]
  rw [Finset.sum_congr rfl fun j _ => (hv (f j) (hf.1 j)).trans (congrArg (· / 6) (hf.2 j i centre (hin j) (hin i)))]
  simp
  ring

theorem p1Macro_independent : Independent ℝ p1MacroBasis := by
  rw [list_eq_range p1MacroBasis]
  refine independent_range _ _ fun a ha => ?_
  have h0 : ∀ x y : ℝ, a 0 + a 1 * x + a 2 * y + a 3 * (3 * y) = 0 := by
    intro x y
    have := congrArg (eval (coords [x, y])) (congrFun ha 0)
    simp [p1MacroBasis, p1MacroTerms, ofTerms, Finset.sum_range_succ, denotePoly, denoteMono, monoFrom, coords] at this
    linear_combination this
  have h2 : ∀ x y : ℝ, a 0 + a 1 * x + a 2 * y + a 3 * (3 * x) = 0 := by
    intro x y
    have := congrArg (eval (coords [x, y])) (congrFun ha 2)
    simp [p1MacroBasis, p1MacroTerms, ofTerms, Finset.sum_range_succ, denotePoly, denoteMono, monoFrom, coords] at this
    linear_combination this
  intro i hi
  have hi' : i < 4 := hi
  interval_cases i
  · linear_combination h0 0 0
  · linear_combination h0 1 0 - h0 0 0
  · linear_combination h2 0 1 - h2 0 0
  · linear_combination 1 / 3 * h0 0 1 - 1 / 3 * h0 0 0 - 1 / 3 * (h2 0 1 - h2 0 0)

theorem p1Macro_mem : ∀ b ∈ p1MacroBasis, b ∈ c0Sub (P 2 1) corner := by
  intro b hb
  obtain ⟨t, ht, rfl⟩ := List.mem_map.1 hb
  have hd : ∀ t ∈ p1MacroTerms, ∀ i : Fin 3, ∀ s ∈ t.getD i.val [], s.2.length = 2 ∧ (s.2.sum : ℤ) ≤ 1 := by decide
  refine ⟨fun i => denotePoly_mem (hd t ht i), ?_⟩
  simp only [p1MacroTerms, List.mem_cons, List.not_mem_nil, or_false] at ht
  intro i j z hi hj
  rcases ht with rfl | rfl | rfl | rfl
  iterate 3 fin_cases i <;> fin_cases j <;> rfl
  fin_cases i <;> fin_cases j
  all_goals
    first
    | rfl
    | skip
  all_goals
    first
    | have a := inCell_zero.1 hi
    | have a := inCell_one.1 hi
    | have a := inCell_two.1 hi
    first
    | have b := inCell_zero.1 hj
    | have b := inCell_one.1 hj
    | have b := inCell_two.1 hj
    simp [ofTerms, denotePoly, denoteMono, monoFrom]
    linarith

theorem p1Macro_dofs : ∃ D : Fin 4 → Dof ℝ (Fin 3 → MvPolynomial ℕ ℝ), p1Macro 1 = ciarlet p1MacroBasis [D 0, D 1, D 2, D 3] ∧
    (D 0).entity = (0, 0) ∧ (D 1).entity = (0, 1) ∧ (D 2).entity = (0, 2) ∧ (D 3).entity = (2, 0) ∧
    ∀ f, P1Split f → (∀ i, Inside (corner i) (refVertex .triangle 0) → (D 0).eval f = eval (refVertex .triangle 0) (f i)) ∧
      (∀ i, Inside (corner i) (refVertex .triangle 1) → (D 1).eval f = eval (refVertex .triangle 1) (f i)) ∧
      (∀ i, Inside (corner i) (refVertex .triangle 2) → (D 2).eval f = eval (refVertex .triangle 2) (f i)) ∧
      ∀ i, (D 3).eval f = eval centre (f i) / 2 := by
  have hv := fun (n : ℕ) (hn : n < 3) (j : Fin 3) (h : n ≠ (j.val + 2) % 3) => nodalDof_eq (n := 3) (m := 3) (d := 2) (c := corner) (by simp) corner_proper
    (refVertex .triangle n) (0, n) (j := j) (vertex_in hn j h)
  obtain ⟨d0, a0, b0, c0⟩ := hv 0 (by norm_num) 0 (by decide)
  obtain ⟨d1, a1, b1, c1⟩ := hv 1 (by norm_num) 0 (by decide)
  obtain ⟨d2, a2, b2, c2⟩ := hv 2 (by norm_num) 1 (by decide)
  obtain ⟨d3, a3, b3, c3⟩ := againstPieces_eq
  refine ⟨![d0, d1, d2, d3], ?_, b0, b1, b2, b3, fun f hf => ⟨fun i => c0 _ f hf i, fun i => c1 _ f hf i, fun i => c2 _ f hf i, c3 f hf⟩⟩
  rw [p1Macro, if_pos rfl, p1MacroCells_eq]
  have r : List.range 3 = [0, 1, 2] := rfl
  simp only [r, List.mapM_cons, List.mapM_nil, a0, a1, a2, a3]
  rfl

/-- The values at the corners of the cells. -/
theorem corner_values {f : Fin 3 → MvPolynomial ℕ ℝ} (h : ∀ n < 3, ∀ i, Inside (corner i) (refVertex .triangle n) → eval (refVertex .triangle n) (f i) = 0)
    (i : Fin 3) : eval (coords [corner i 0 0, corner i 0 1]) (f i) = 0 ∧ eval (coords [corner i 1 0, corner i 1 1]) (f i) = 0 := by
  fin_cases i
  · exact ⟨h 0 (by norm_num) 0 (vertex_in (by norm_num) _ (by decide)), h 1 (by norm_num) 0 (vertex_in (by norm_num) _ (by decide))⟩
  · exact ⟨h 1 (by norm_num) 1 (vertex_in (by norm_num) _ (by decide)), h 2 (by norm_num) 1 (vertex_in (by norm_num) _ (by decide))⟩
  · exact ⟨h 2 (by norm_num) 2 (vertex_in (by norm_num) _ (by decide)), h 0 (by norm_num) 2 (vertex_in (by norm_num) _ (by decide))⟩

/-! ### Theorems -/

/-- **C145** P1 macro elements. -/
theorem p1Macro_created : Created (p1Macro 1) P1Split 4 (C0Macro .triangle corner P1Split) := by
  obtain ⟨D, h1, e0, e1, e2, e3, hD⟩ := p1Macro_dofs
  have key := created_of_unisolvent (S := c0Sub (P 2 1) corner) (basis := p1MacroBasis) (dofs := [D 0, D 1, D 2, D 3]) rfl p1Macro_independent p1Macro_mem ?_
  · obtain ⟨basis, ds, fs, k1, k2, k3, k4, k5, k6, rfl⟩ := key
    refine ⟨basis, _, fs, h1.trans k1, k2, k3, k4, k5, k6, fun i hi f hf hz t j hj => ?_⟩
    have hE : entVerts .triangle 1 0 = [1, 2] ∧ entVerts .triangle 1 1 = [0, 2] ∧ entVerts .triangle 1 2 = [0, 1] := ⟨rfl, rfl, rfl⟩
    have hV : entVerts .triangle 0 0 = [0] ∧ entVerts .triangle 0 1 = [1] ∧ entVerts .triangle 0 2 = [2] := ⟨rfl, rfl, rfl⟩
    have hi3 : i < 3 := hi
    obtain ⟨v0, v1, v2, -⟩ := hD f hf
    have z0 := fun h => hz (D 0) (by simp) h
    have z1 := fun h => hz (D 1) (by simp) h
    have z2 := fun h => hz (D 2) (by simp) h
    rw [e0] at z0
    rw [e1] at z1
    rw [e2] at z2
    simp only [show (Cell.triangle.tdim - 1) = 1 from rfl] at z0 z1 z2 hj ⊢
    rcases edge_coords hi3 t with ⟨rfl, c0, c1⟩ | ⟨rfl, c0, c1⟩ | ⟨rfl, c0, c1⟩
    · have w1 := z1 (by rw [hE.1, hV.2.1]; simp)
      have w2 := z2 (by rw [hE.1, hV.2.2]; simp)
      refine side_zero (hf.1 j) (a := 1) (b := -1) (c := -1) (v := corner j) ?_ ?_ hj (by rw [c0, c1]; ring)
      · intro k
        fin_cases j <;> fin_cases k <;> norm_num [corner_rows, fin_two]
      · intro k hk
        fin_cases j <;> fin_cases k <;> first | (exfalso; norm_num [corner_rows, fin_two] at hk; done) | skip
        · exact (v1 0 (vertex_in (by norm_num) _ (by decide))).symm.trans w1
        · exact (v1 1 (vertex_in (by norm_num) _ (by decide))).symm.trans w1
        · exact (v2 1 (vertex_in (by norm_num) _ (by decide))).symm.trans w2
        · exact (v2 2 (vertex_in (by norm_num) _ (by decide))).symm.trans w2
    · have w0 := z0 (by rw [hE.2.1, hV.1]; simp)
      have w2 := z2 (by rw [hE.2.1, hV.2.2]; simp)
      refine side_zero (hf.1 j) (a := 0) (b := 1) (c := 0) (v := corner j) ?_ ?_ hj (by rw [c0, c1]; ring)
      · intro k
        fin_cases j <;> fin_cases k <;> norm_num [corner_rows, fin_two]
      · intro k hk
        fin_cases j <;> fin_cases k <;> first | (exfalso; norm_num [corner_rows, fin_two] at hk; done) | skip
        · exact (v0 0 (vertex_in (by norm_num) _ (by decide))).symm.trans w0
        · exact (v2 1 (vertex_in (by norm_num) _ (by decide))).symm.trans w2
        · exact (v2 2 (vertex_in (by norm_num) _ (by decide))).symm.trans w2
        · exact (v0 2 (vertex_in (by norm_num) _ (by decide))).symm.trans w0
    · have w0 := z0 (by rw [hE.2.2, hV.1]; simp)
      have w1 := z1 (by rw [hE.2.2, hV.2.1]; simp)
      refine side_zero (hf.1 j) (a := 0) (b := 0) (c := 1) (v := corner j) ?_ ?_ hj (by rw [c0, c1]; ring)
      · intro k
        fin_cases j <;> fin_cases k <;> norm_num [corner_rows, fin_two]
      · intro k hk
        fin_cases j <;> fin_cases k <;> first | (exfalso; norm_num [corner_rows, fin_two] at hk; done) | skip
        · exact (v0 0 (vertex_in (by norm_num) _ (by decide))).symm.trans w0
        · exact (v1 0 (vertex_in (by norm_num) _ (by decide))).symm.trans w1
        · exact (v1 1 (vertex_in (by norm_num) _ (by decide))).symm.trans w1
        · exact (v0 2 (vertex_in (by norm_num) _ (by decide))).symm.trans w0
  · intro f hf hz
    obtain ⟨v0, v1, v2, v3⟩ := hD f hf
    simp only [List.mem_cons, List.not_mem_nil, or_false, forall_eq_or_imp, forall_eq] at hz
    obtain ⟨z0, z1, z2, z3⟩ := hz
    have hv : ∀ n < 3, ∀ i, Inside (corner i) (refVertex .triangle n) → eval (refVertex .triangle n) (f i) = 0 := by
      intro n hn i hi
      interval_cases n
      · exact (v0 i hi).symm.trans z0
      · exact (v1 i hi).symm.trans z1
      · exact (v2 i hi).symm.trans z2
    funext i
    refine affine_zero (hf.1 i) (v := corner i) (by rw [corner_area]; norm_num) fun k => ?_
    obtain ⟨w0, w1⟩ := corner_values hv i
    fin_cases k
    · exact w0
    · exact w1
    · have hc : coords [corner i 2 0, corner i 2 1] = centre := by fin_cases i <;> rfl
      show eval (coords [corner i 2 0, corner i 2 1]) (f i) = 0
      rw [hc]
      have := v3 i
      rw [z3] at this
      linarith

theorem p1Macro_none {k : ℕ} (h : k ≠ 1) : p1Macro k = none := if_neg h

/-- The integral of a continuous function. -/
theorem integralPieces_eq {f : Fin 3 → MvPolynomial ℕ ℝ} (hf : P1Split f) : integralPieces f =
    (eval (coords [0, 0]) (f 0) + eval (coords [1, 0]) (f 0) + eval (coords [0, 1]) (f 1)) / 9 + eval centre (f 0) / 6 := by
  have hin := centre_in
  have h1 := hf.2 0 1 centre (hin 0) (hin 1)
  have h2 := hf.2 0 2 centre (hin 0) (hin 2)
  have h3 := hf.2 0 1 (coords [1, 0]) (vertex_in (n := 1) (by norm_num) _ (by decide)) (vertex_in (n := 1) (by norm_num) _ (by decide))
  have h4 := hf.2 1 2 (coords [0, 1]) (vertex_in (n := 2) (by norm_num) _ (by decide)) (vertex_in (n := 2) (by norm_num) _ (by decide))
  have h5 := hf.2 0 2 (coords [0, 0]) (vertex_in (n := 0) (by norm_num) _ (by decide)) (vertex_in (n := 0) (by norm_num) _ (by decide))
  obtain ⟨a0, b0, c0, e0⟩ := P_one (hf.1 0)
  obtain ⟨a1, b1, c1, e1⟩ := P_one (hf.1 1)
  obtain ⟨a2, b2, c2, e2⟩ := P_one (hf.1 2)
  have i0 : cellInt .triangle (fun z => eval (fun j => corner 0 0 ⟨j % 2, Nat.mod_lt _ two_pos⟩
    + z 0 * (corner 0 1 ⟨j % 2, Nat.mod_lt _ two_pos⟩ - corner 0 0 ⟨j % 2, Nat.mod_lt _ two_pos⟩)
    + z 1 * (corner 0 2 ⟨j % 2, Nat.mod_lt _ two_pos⟩ - corner 0 0 ⟨j % 2, Nat.mod_lt _ two_pos⟩)) (f 0) * area2 (corner 0 0) (corner 0 1) (corner 0 2)) =
      (eval (coords [0, 0]) (f 0) + eval (coords [1, 0]) (f 0) + eval centre (f 0)) / 18 := by
    refine Eq.trans (congrArg (cellInt .triangle) (funext fun z => ?_)) ((tri_affine (a0 / 3) (b0 / 3) (b0 / 9 + c0 / 9)).trans ?_)
    · rw [corner_area, e0]
      simp [corner_rows]
      ring
    · simp [e0, centre, coords]
      ring
  have i1 : cellInt .triangle (fun z => eval (fun j => corner 1 0 ⟨j % 2, Nat.mod_lt _ two_pos⟩
    + z 0 * (corner 1 1 ⟨j % 2, Nat.mod_lt _ two_pos⟩ - corner 1 0 ⟨j % 2, Nat.mod_lt _ two_pos⟩)
    + z 1 * (corner 1 2 ⟨j % 2, Nat.mod_lt _ two_pos⟩ - corner 1 0 ⟨j % 2, Nat.mod_lt _ two_pos⟩)) (f 1) * area2 (corner 1 0) (corner 1 1) (corner 1 2)) =
      (eval (coords [1, 0]) (f 1) + eval (coords [0, 1]) (f 1) + eval centre (f 1)) / 18 := by
    refine Eq.trans (congrArg (cellInt .triangle) (funext fun z => ?_)) ((tri_affine ((a1 + b1) / 3) ((-b1 + c1) / 3) (-2 * b1 / 9 + c1 / 9)).trans ?_)
    · rw [corner_area, e1]
      simp [corner_rows]
      ring
    · simp [e1, centre, coords]
      ring
  have i2 : cellInt .triangle (fun z => eval (fun j => corner 2 0 ⟨j % 2, Nat.mod_lt _ two_pos⟩
    + z 0 * (corner 2 1 ⟨j % 2, Nat.mod_lt _ two_pos⟩ - corner 2 0 ⟨j % 2, Nat.mod_lt _ two_pos⟩)
    + z 1 * (corner 2 2 ⟨j % 2, Nat.mod_lt _ two_pos⟩ - corner 2 0 ⟨j % 2, Nat.mod_lt _ two_pos⟩)) (f 2) * area2 (corner 2 0) (corner 2 1) (corner 2 2)) =
      (eval (coords [0, 1]) (f 2) + eval (coords [0, 0]) (f 2) + eval centre (f 2)) / 18 := by
    refine Eq.trans (congrArg (cellInt .triangle) (funext fun z => ?_)) ((tri_affine ((a2 + c2) / 3) (-c2 / 3) (b2 / 9 - 2 * c2 / 9)).trans ?_)
    · rw [corner_area, e2]
      simp [corner_rows]
      ring
    · simp [e2, centre, coords]
      ring
  rw [integralPieces, Fin.sum_univ_three, i0, i1, i2, ← h1, ← h2, ← h3, ← h4, ← h5]
  ring

/-- **C144** The functional of the interior is not the integral: they agree only for the functions that are affine on the whole triangle, and the basis
function with value 1 for it has the integral 1/3. -/
theorem p1Macro_interior : ∃ basis dofs, p1Macro 1 = some (.ciarlet basis dofs) ∧ ∃ d ∈ dofs, d.entity = (2, 0) ∧
    (∀ f, P1Split f → (d.eval f = integralPieces f ↔ ∀ i j, f i = f j)) ∧
    ∀ f, P1Split f → (∀ d' ∈ dofs, d'.entity.1 = 0 → d'.eval f = 0) → d.eval f = 1 → integralPieces f = 1 / 3 := by
  obtain ⟨basis, dofs, fs, h1, -⟩ := p1Macro_created
  obtain ⟨D, h2, e0, e1, e2, e3, hD⟩ := p1Macro_dofs
  have hb : some (Element.ciarlet basis dofs) = some (.ciarlet p1MacroBasis [D 0, D 1, D 2, D 3]) := h1.symm.trans (h2.trans rfl)
  obtain ⟨rfl, rfl⟩ := Element.ciarlet.inj (Option.some.inj hb)
  refine ⟨_, _, h1, D 3, by simp, e3, fun f hf => ?_, fun f hf h hd => ?_⟩
  · obtain ⟨v0, v1, v2, v3⟩ := hD f hf
    rw [v3 0, integralPieces_eq hf]
    constructor
    · intro h
      have hin := centre_in
      have h1 := hf.2 0 1 centre (hin 0) (hin 1)
      have h2 := hf.2 0 2 centre (hin 0) (hin 2)
      have h3 := hf.2 0 1 (coords [1, 0]) (vertex_in (n := 1) (by norm_num) _ (by decide)) (vertex_in (n := 1) (by norm_num) _ (by decide))
      have h4 := hf.2 1 2 (coords [0, 1]) (vertex_in (n := 2) (by norm_num) _ (by decide)) (vertex_in (n := 2) (by norm_num) _ (by decide))
      have h5 := hf.2 0 2 (coords [0, 0]) (vertex_in (n := 0) (by norm_num) _ (by decide)) (vertex_in (n := 0) (by norm_num) _ (by decide))
      obtain ⟨a0, b0, c0, e0⟩ := P_one (hf.1 0)
      obtain ⟨a1, b1, c1, e1⟩ := P_one (hf.1 1)
      obtain ⟨a2, b2, c2, e2⟩ := P_one (hf.1 2)
      simp [e0, e1, e2, centre, coords] at h h1 h2 h3 h4 h5
      have x01 : f 0 = f 1 := by
        rw [e0, e1]
        have : a0 = a1 ∧ b0 = b1 ∧ c0 = c1 := ⟨by linarith, by linarith, by linarith⟩
        rw [this.1, this.2.1, this.2.2]
      have x02 : f 0 = f 2 := by
        rw [e0, e2]
        have : a0 = a2 ∧ b0 = b2 ∧ c0 = c2 := ⟨by linarith, by linarith, by linarith⟩
        rw [this.1, this.2.1, this.2.2]
      intro i j
      have : ∀ i, f i = f 0 := fun i => by
        fin_cases i
        · rfl
        · exact x01.symm
        · exact x02.symm
      rw [this i, this j]
    · intro h
      rw [h 1 0]
      obtain ⟨a0, b0, c0, e0⟩ := P_one (hf.1 0)
      simp [e0, centre, coords]
      ring
  · obtain ⟨v0, v1, v2, v3⟩ := hD f hf
    simp only [List.mem_cons, List.not_mem_nil, or_false, forall_eq_or_imp, forall_eq, e0, e1, e2] at h
    obtain ⟨z0, z1, z2, -⟩ := h
    simp only [forall_const] at z0 z1 z2
    rw [integralPieces_eq hf]
    have w0 : eval (coords [0, 0]) (f 0) = 0 := (v0 0 (vertex_in (n := 0) (by norm_num) _ (by decide))).symm.trans z0
    have w1 : eval (coords [1, 0]) (f 0) = 0 := (v1 0 (vertex_in (n := 1) (by norm_num) _ (by decide))).symm.trans z1
    have w2 : eval (coords [0, 1]) (f 1) = 0 := (v2 1 (vertex_in (n := 2) (by norm_num) _ (by decide))).symm.trans z2
    have w3 := v3 0
    rw [hd] at w3
    rw [w0, w1, w2]
    linarith

/-- A function as in the second part: twice the bubble. -/
example : ∃ f, P1Split f ∧ eval (coords [0, 0]) (f 0) = 0 ∧ eval centre (f 0) = 2 := by
  refine ⟨(2 : ℝ) • ofTerms 3 [[(3, [0, 1])], [(3, [0, 0]), (-3, [1, 0]), (-3, [0, 1])], [(3, [1, 0])]],
    (c0Sub (P 2 1) corner).smul_mem _ (p1Macro_mem _ (by simp [p1MacroBasis, p1MacroTerms])), ?_, ?_⟩ <;>
    norm_num [ofTerms, denotePoly, denoteMono, monoFrom, centre, coords, smul_eval]

end Verif.Macro
