import Verif.Families.QCurl
import Verif.Families.Trimmed
import Verif.Families.Mtw
/-!
# Nédélec elements on prisms

Model of `symfem/elements/nedelec_prism.py`, and the element of order 1.
-/

namespace Verif.Families
open Verif.References Verif.Moments Verif.Polysets Verif.FiniteElement Verif.Elements Verif.Functionals Verif.Scalar
open MvPolynomial

/-! ### Model -/

/-- `i[0] * j` for a polynomial in x and y and a power of z. -/
def timesZ (p : Poly) (m : Mono) : Poly := p.map fun t => (t.1, [t.2.getD 0 0, t.2.getD 1 0, m.getD 0 0])

/-- The list `poly` (symfem/elements/nedelec_prism.py:40-50). -/
def prismSet (k : ℕ) : Option (List VecPoly) :=
  (polySetVector 2 2 ((k : ℤ) - 1)).bind fun a => (hcurlSet 2 k).bind fun b => (polySet 1 k).bind fun js =>
    (polySet 2 k).bind fun is => (polySet 1 ((k : ℤ) - 1)).map fun js' =>
      ((a ++ b).flatMap fun v => js.map fun j => [timesZ (v.getD 0 []) j, timesZ (v.getD 1 []) j, []]) ++
        is.flatMap fun i => js'.map fun j => [[], [], timesZ [(1, i)] j]

/-- The classes used; `QRT` is `RaviartThomas` of symfem/elements/q.py. -/
noncomputable def prismClasses (k : ℕ) (name : String) : ElementClass Fun :=
  if name = "QRT" then qClasses k "RaviartThomas" else classes1 name

/-- The functionals in the interior (symfem/elements/nedelec_prism.py:74-91): none at order 1, and an exception from order
3.  The functions of the interval are functions of x. -/
noncomputable def prismInner (variant : String) (k : ℕ) : Option (List (Dof ℝ (Field Cell.prism.tdim))) :=
  if 2 ≤ k then
    ((vectorLagrangeElement variant .triangle (refVertex .triangle) (k - 2)).bind getBasis).bind fun space1 =>
      ((lagrangeElement variant .interval (refVertex .interval) (k - 2)).bind getBasis).bind fun space2 =>
        if 2 < k then none
        else (space1.flatMap fun f => space2.map fun g => [g * f ⟨0, by decide⟩, g * f ⟨1, by decide⟩, 0]).mapM
          (againstDof .prism (3, 0) "covariant")
  else some []

/-- `Nedelec(reference, order, variant)` (symfem/elements/nedelec_prism.py:26-94). -/
noncomputable def prismNedelec (variant : String) (k : ℕ) : Option (Element ℝ (Field Cell.prism.tdim)) :=
  momentElementWith (prismClasses k) .prism (prismSet k)
    { edges := some (.single [.cls "TangentIntegralMoment", .cls "Lagrange", .int ((k : ℤ) - 1), .dict [("variant", variant)]])
      faces := some (.byName [
        ("triangle", .single [.cls "IntegralMoment", .cls "VectorLagrange", .int ((k : ℤ) - 2), .str "covariant",
          .dict [("variant", variant)]]),
        ("quadrilateral", .single [.cls "IntegralMoment", .cls "QRT", .int ((k : ℤ) - 1), .str "covariant",
          .dict [("variant", variant)]])]) }
    (prismInner variant k)

/-- From order 3 the constructor raises an exception. -/
theorem prismNedelec_none (variant : String) {k : ℕ} (hk : 3 ≤ k) : prismNedelec variant k = none := by
  have : prismInner variant k = none := by
    unfold prismInner
    rw [if_pos (by omega)]
    cases (vectorLagrangeElement variant .triangle (refVertex .triangle) (k - 2)).bind getBasis with
    | none => rfl
    | some a =>
      cases (lagrangeElement variant .interval (refVertex .interval) (k - 2)).bind getBasis with
      | none => rfl
      | some b => exact if_pos (by omega)
  unfold prismNedelec momentElementWith
  rw [this]
  simp only [Option.bind_none]
  cases prismSet k with
  | none => rfl
  | some a =>
    simp only [Option.bind_some]
    cases makeIntegralMomentDofs (prismClasses k) .prism _ with
    | none => rfl
    | some ms =>
      simp only [Option.bind_some]
      cases ms.mapM (momentDof .prism) <;> rfl

/-! ### The space of order 1 -/

/-- The functions: a rotation in the horizontal plane and a translation, both affine in z, and a vertical component that is
affine in x and y. -/
noncomputable def prismField (c : ℕ → ℝ) : Field 3 :=
  ![C (c 0) + C (c 1) * X 2 - (C (c 4) + C (c 5) * X 2) * X 1,
    C (c 2) + C (c 3) * X 2 + (C (c 4) + C (c 5) * X 2) * X 0,
    C (c 6) + C (c 7) * X 0 + C (c 8) * X 1]

theorem prismField_mem (c : ℕ → ℝ) (j : Fin 3) : prismField c j ∈ P 3 2 := by
  have hC : ∀ r : ℝ, (C r : MvPolynomial ℕ ℝ) ∈ P 3 2 := fun r => C_mem _ (by norm_num)
  have hC1 : ∀ r : ℝ, (C r : MvPolynomial ℕ ℝ) ∈ P 3 1 := fun r => C_mem _ (by norm_num)
  have hX : ∀ (r : ℝ) (i : ℕ), i < 3 → (C r * X i : MvPolynomial ℕ ℝ) ∈ P 3 1 := fun r i hi => C_mul_mem _ (X_mem hi)
  have hXX : ∀ (r s : ℝ) (i : ℕ), i < 3 → ((C r + C s * X 2) * X i : MvPolynomial ℕ ℝ) ∈ P 3 2 := fun r s i hi =>
    P_mul (k := 1) (l := 1) (Submodule.add_mem _ (hC1 r) (hX s 2 (by norm_num))) (X_mem hi)
  have h12 : P 3 1 ≤ P 3 2 := P_mono (by norm_num)
  fin_cases j
  · exact Submodule.sub_mem _ (Submodule.add_mem _ (hC _) (h12 (hX _ 2 (by norm_num)))) (hXX _ _ 1 (by norm_num))
  · exact Submodule.add_mem _ (Submodule.add_mem _ (hC _) (h12 (hX _ 2 (by norm_num)))) (hXX _ _ 0 (by norm_num))
  · exact Submodule.add_mem _ (Submodule.add_mem _ (hC _) (h12 (hX _ 0 (by norm_num)))) (h12 (hX _ 1 (by norm_num)))

/-- The functions of the space. -/
def PrismN1 (v : Field 3) : Prop := ∃ c, v = prismField c

noncomputable def prismMap : (ℕ → ℝ) →ₗ[ℝ] Field 3 where
  toFun := prismField
  map_add' a b := by
    funext i
    fin_cases i <;> simp [prismField] <;> ring
  map_smul' r a := by
    funext i
    fin_cases i <;> simp [prismField, MvPolynomial.smul_eq_C_mul] <;> ring

/-- The list at order 1. -/
def prismPolys : List VecPoly := [
    [[(1, [0, 0, 0])], [], []], [[(1, [0, 0, 1])], [], []],
    [[], [(1, [0, 0, 0])], []], [[], [(1, [0, 0, 1])], []],
    [[(1, [0, 1, 0])], [(-1, [1, 0, 0])], []], [[(1, [0, 1, 1])], [(-1, [1, 0, 1])], []],
    [[], [], [(1, [0, 0, 0])]], [[], [], [(1, [1, 0, 0])]], [[], [], [(1, [0, 1, 0])]]]

theorem prism_set : prismSet 1 = some prismPolys := by decide

theorem prism_independent : Independent ℝ (prismPolys.map (denoteVec ℝ 3)) := by
  rw [list_eq_range (prismPolys.map (denoteVec ℝ 3))]
  refine independent_range _ _ fun a ha => ?_
  have h0 : ∀ x y z : ℝ, a 0 + a 1 * z + a 4 * y + a 5 * (y * z) = 0 := by
    intro x y z
    have := congrArg (eval (coords [x, y, z])) (congrFun ha 0)
    simp [prismPolys, Finset.sum_range_succ, denoteVec, denotePoly, denoteMono, monoFrom, coords] at this
    linear_combination this
  have h1 : ∀ x y z : ℝ, a 2 + a 3 * z - a 4 * x - a 5 * (x * z) = 0 := by
    intro x y z
    have := congrArg (eval (coords [x, y, z])) (congrFun ha 1)
    simp [prismPolys, Finset.sum_range_succ, denoteVec, denotePoly, denoteMono, monoFrom, coords] at this
    linear_combination this
  have h2 : ∀ x y z : ℝ, a 6 + a 7 * x + a 8 * y = 0 := by
    intro x y z
    have := congrArg (eval (coords [x, y, z])) (congrFun ha 2)
    simp [prismPolys, Finset.sum_range_succ, denoteVec, denotePoly, denoteMono, monoFrom, coords] at this
    linear_combination this
  have p0 := h0 0 0 0
  have p1 := h0 0 0 1
  have p2 := h0 0 1 0
  have p3 := h0 0 1 1
  have q0 := h1 0 0 0
  have q1 := h1 0 0 1
  have r0 := h2 0 0 0
  have r1 := h2 1 0 0
  have r2 := h2 0 1 0
  intro i hi
  have hi : i < 9 := by simpa [prismPolys] using hi
  interval_cases i <;> linarith

theorem prism_mem : ∀ b ∈ prismPolys.map (denoteVec ℝ 3), b ∈ LinearMap.range prismMap := by
  have key : ∀ (p : VecPoly) (l : List ℝ), (∀ z : ℕ → ℝ,
      eval z (denotePoly ℝ (p.getD 0 [])) = coords l 0 + coords l 1 * z 2 - (coords l 4 + coords l 5 * z 2) * z 1 ∧
      eval z (denotePoly ℝ (p.getD 1 [])) = coords l 2 + coords l 3 * z 2 + (coords l 4 + coords l 5 * z 2) * z 0 ∧
      eval z (denotePoly ℝ (p.getD 2 [])) = coords l 6 + coords l 7 * z 0 + coords l 8 * z 1) →
      denoteVec ℝ 3 p ∈ LinearMap.range prismMap := by
    intro p l h
    refine ⟨coords l, ?_⟩
    funext k
    refine MvPolynomial.funext fun z => ?_
    show eval z (prismField (coords l) k) = eval z (denotePoly ℝ (p[(k : ℕ)]?.getD []))
    rw [← List.getD_eq_getElem?_getD]
    obtain ⟨h0, h1, h2⟩ := h z
    fin_cases k
    · exact Eq.trans (by simp [prismField]) h0.symm
    · exact Eq.trans (by simp [prismField]) h1.symm
    · exact Eq.trans (by simp [prismField]) h2.symm
  intro b hb
  obtain ⟨p, hp, rfl⟩ := List.mem_map.1 hb
  simp only [prismPolys, List.mem_cons, List.not_mem_nil, or_false] at hp
  rcases hp with rfl | rfl | rfl | rfl | rfl | rfl | rfl | rfl | rfl
  · exact key _ [1] fun z => by simp [denotePoly, denoteMono, monoFrom, coords]
  · exact key _ [0, 1] fun z => by simp [denotePoly, denoteMono, monoFrom, coords]
  · exact key _ [0, 0, 1] fun z => by simp [denotePoly, denoteMono, monoFrom, coords]
  · exact key _ [0, 0, 0, 1] fun z => by simp [denotePoly, denoteMono, monoFrom, coords]
  · exact key _ [0, 0, 0, 0, -1] fun z => by simp [denotePoly, denoteMono, monoFrom, coords]
  · exact key _ [0, 0, 0, 0, 0, -1] fun z => by simp [denotePoly, denoteMono, monoFrom, coords, mul_comm]
  · exact key _ [0, 0, 0, 0, 0, 0, 1] fun z => by simp [denotePoly, denoteMono, monoFrom, coords]
  · exact key _ [0, 0, 0, 0, 0, 0, 0, 1] fun z => by simp [denotePoly, denoteMono, monoFrom, coords]
  · exact key _ [0, 0, 0, 0, 0, 0, 0, 0, 1] fun z => by simp [denotePoly, denoteMono, monoFrom, coords]

/-! ### The tangential components -/

/-- The tangential components along the edges, which are constant. -/
def prismTang (c : ℕ → ℝ) : ℕ → ℝ
  | 0 => c 0
  | 1 => c 2
  | 2 => c 6
  | 3 => c 2 - c 0 + c 4
  | 4 => c 6 + c 7
  | 5 => c 6 + c 8
  | 6 => c 0 + c 1
  | 7 => c 2 + c 3
  | _ => c 2 + c 3 - (c 0 + c 1) + (c 4 + c 5)

theorem prism_comp (c : ℕ → ℝ) {i : ℕ} (hi : i < 9) (z : ℕ → ℝ) :
    eval z (comp ⟨.interval, 3, (entityDomain .prism (1, i)).v⟩ (axis .interval (entityDomain .prism (1, i)).v 0) (prismField c)) =
      prismTang c i := by
  rw [eval_comp, interval_param]
  show ∑ j : Fin 3, _ = _
  rw [Fin.sum_univ_three]
  have hv : ∀ i j, (entityDomain .prism (1, i)).v j = refVertex .prism ((entVerts .prism 1 i).getD j 0) := fun _ _ => rfl
  simp only [hv, prismField, axis, psub, axisVertices]
  interval_cases i <;>
    simp [prismTang, entVerts, Cell.subEntities, Cell.edges, refVertex, refVerts, coords] <;> ring

/-- The tangential components on a face vanish whenever the functionals of the edges of the face vanish. -/
def PrismFaceTrace (S : Field 3 → Prop) (dofs : List (Dof ℝ (Field 3))) : Prop :=
  ∀ f < 5, ∀ v, S v → (∀ d ∈ dofs, ∀ i, d.entity = (1, i) → entVerts .prism 1 i ⊆ entVerts .prism 2 f → d.eval v = 0) →
    ∀ k < 2, ∀ z : ℕ → ℝ, ∑ j : Fin 3, axis (entityDomain .prism (2, f)).cell (entityDomain .prism (2, f)).v k j *
      eval ((entityDomain .prism (2, f)).param z) (v j) = 0

theorem prism_face (c : ℕ → ℝ) {f : ℕ} (hf : f < 5)
    (h : ∀ i < 9, entVerts .prism 1 i ⊆ entVerts .prism 2 f → prismTang c i = 0) {k : ℕ} (hk : k < 2) (z : ℕ → ℝ) :
    ∑ j : Fin 3, axis (entityDomain .prism (2, f)).cell (entityDomain .prism (2, f)).v k j *
      eval ((entityDomain .prism (2, f)).param z) (prismField c j) = 0 := by
  have hv : ∀ f j, (entityDomain .prism (2, f)).v j = refVertex .prism ((entVerts .prism 2 f).getD j 0) := fun _ _ => rfl
  have hp : (entityDomain .prism (2, f)).param z = fun i => (entityDomain .prism (2, f)).v 0 i +
      (((entityDomain .prism (2, f)).v 1 i - (entityDomain .prism (2, f)).v 0 i) * z 0 +
        ((entityDomain .prism (2, f)).v 2 i - (entityDomain .prism (2, f)).v 0 i) * z 1) := by
    funext i
    interval_cases f <;>
      (show _ + ∑ k ∈ Finset.range 2, _ = _; rw [Finset.sum_range_succ, Finset.sum_range_one]; rfl)
  have ha : ∀ j, axis (entityDomain .prism (2, f)).cell (entityDomain .prism (2, f)).v k j =
      (entityDomain .prism (2, f)).v (k + 1) j - (entityDomain .prism (2, f)).v 0 j := by
    intro j
    interval_cases f <;> interval_cases k <;> rfl
  rw [Fin.sum_univ_three, hp]
  simp only [ha, hv, prismField]
  have sub : ∀ i < 9, (entVerts .prism 1 i).all (fun a => (entVerts .prism 2 f).contains a) = true → prismTang c i = 0 := by
    intro i hi hs
    refine h i hi fun a ha => ?_
    have := List.all_eq_true.1 hs a ha
    simpa using this
  interval_cases f
  · have h0 : c 0 = 0 := sub 0 (by norm_num) (by decide)
    have h1 : c 2 = 0 := sub 1 (by norm_num) (by decide)
    have h2 : c 2 - c 0 + c 4 = 0 := sub 3 (by norm_num) (by decide)
    have h3 : c 4 = 0 := by linarith
    interval_cases k <;> simp [entVerts, Cell.subEntities, Cell.faces, refVertex, refVerts, coords, h0, h1, h3]
  · have h0 : c 0 = 0 := sub 0 (by norm_num) (by decide)
    have h1 : c 6 = 0 := sub 2 (by norm_num) (by decide)
    have h2 : c 6 + c 7 = 0 := sub 4 (by norm_num) (by decide)
    have h3 : c 0 + c 1 = 0 := sub 6 (by norm_num) (by decide)
    have h4 : c 7 = 0 := by linarith
    have h5 : c 1 = 0 := by linarith
    interval_cases k <;> simp [entVerts, Cell.subEntities, Cell.faces, refVertex, refVerts, coords, h0, h1, h4, h5]
  · have h0 : c 2 = 0 := sub 1 (by norm_num) (by decide)
    have h1 : c 6 = 0 := sub 2 (by norm_num) (by decide)
    have h2 : c 6 + c 8 = 0 := sub 5 (by norm_num) (by decide)
    have h3 : c 2 + c 3 = 0 := sub 7 (by norm_num) (by decide)
    have h4 : c 8 = 0 := by linarith
    have h5 : c 3 = 0 := by linarith
    interval_cases k <;> simp [entVerts, Cell.subEntities, Cell.faces, refVertex, refVerts, coords, h0, h1, h4, h5]
  · have h0 : c 2 - c 0 + c 4 = 0 := sub 3 (by norm_num) (by decide)
    have h1 : c 6 + c 7 = 0 := sub 4 (by norm_num) (by decide)
    have h2 : c 6 + c 8 = 0 := sub 5 (by norm_num) (by decide)
    have h3 : c 2 + c 3 - (c 0 + c 1) + (c 4 + c 5) = 0 := sub 8 (by norm_num) (by decide)
    interval_cases k <;> simp [entVerts, Cell.subEntities, Cell.faces, refVertex, refVerts, coords]
    · linear_combination (1 - z 1) * h0 + z 1 * h3
    · linear_combination (1 - z 0) * h1 + z 0 * h2
  · have h0 : c 0 + c 1 = 0 := sub 6 (by norm_num) (by decide)
    have h1 : c 2 + c 3 = 0 := sub 7 (by norm_num) (by decide)
    have h2 : c 2 + c 3 - (c 0 + c 1) + (c 4 + c 5) = 0 := sub 8 (by norm_num) (by decide)
    interval_cases k <;> simp [entVerts, Cell.subEntities, Cell.faces, refVertex, refVerts, coords]
    · linear_combination (1 + z 1) * h0 - z 1 * h2 - 0 * h1 + z 1 * h1 - 2 * z 1 * h0
    · linear_combination h1 + z 0 * h2 - z 0 * h1 + z 0 * h0

/-! ### The functionals of order 1 -/

/-- The edges have different ends. -/
theorem prism_edge {i : ℕ} (hi : i < 9) :
    ∃ j < 3, (entityDomain .prism (1, i)).v 1 j ≠ (entityDomain .prism (1, i)).v 0 j := by
  have key : ∀ i < 9, ∃ j < 3, (refVertex .prism ((entVerts .prism 1 i).getD 1 0) j : ℚ) ≠
      refVertex .prism ((entVerts .prism 1 i).getD 0 0) j := by decide +kernel
  obtain ⟨j, hj, h⟩ := key i hi
  refine ⟨j, hj, fun h' => h ?_⟩
  have h' : (refVertex .prism ((entVerts .prism 1 i).getD 1 0) j : ℝ) = refVertex .prism ((entVerts .prism 1 i).getD 0 0) j := h'
  rw [refVertex_cast, refVertex_cast] at h'
  exact_mod_cast h'

/-- The functional on an edge. -/
theorem prism_moment {i : ℕ} (hi : i < 9) (mp : Option String) :
    ∃ J s : ℝ, J ≠ 0 ∧ s ≠ 0 ∧ ∀ x, ∃ d, momentDof .prism ⟨"TangentIntegralMoment", .scalar x, (1, i), mp⟩ = some d ∧
      d.entity = (1, i) ∧ ∀ v, d.eval v = momentMap ⟨.interval, 3, (entityDomain .prism (1, i)).v⟩ J
        (fun j => C (s * axis .interval (entityDomain .prism (1, i)).v 0 j.val) * x) v := by
  obtain ⟨J, t, s, hJ, hs, h1, h2, h3⟩ := edge_facts 3 (entityDomain .prism (1, i)).v (prism_edge hi)
  refine ⟨J, s, hJ, hs, fun x => ⟨_, momentDof_of (c := .prism) (m := ⟨"TangentIntegralMoment", .scalar x, (1, i), mp⟩)
    (w := fun j => C (t j.val) * x) ?_ h1, rfl, ?_⟩⟩
  · rw [momentFn_tangent]
    show Option.map _ (tangent .interval 3 (entityDomain .prism (1, i)).v) = _
    rw [h2, Option.map_some]
  · intro v
    have : (fun j : Fin 3 => C (t j.val) * x) =
        fun j => C (s * axis .interval (entityDomain .prism (1, i)).v 0 j.val) * x := funext fun j => by rw [h3 j.val]
    show momentMap ⟨.interval, 3, (entityDomain .prism (1, i)).v⟩ J (fun j : Fin 3 => C (t j.val) * x) v = _
    rw [this]

/-- There are no functionals on the faces at order 1. -/
theorem prism_faces (variant : String) : slotDofs (prismClasses 1) .prism 2 (some (.byName [
    ("triangle", .single [.cls "IntegralMoment", .cls "VectorLagrange", .int (((1 : ℕ) : ℤ) - 2), .str "covariant",
      .dict [("variant", variant)]]),
    ("quadrilateral", .single [.cls "IntegralMoment", .cls "QRT", .int (((1 : ℕ) : ℤ) - 1), .str "covariant",
      .dict [("variant", variant)]])])) = some [] := by
  refine (slot_eq (classes := prismClasses 1) .prism 2 (by omega) _).trans ?_
  rw [if_neg (by decide), if_neg (by decide)]
  have h : ∀ i ∈ List.range (entityCount .prism 2), Moments.entityDofs (prismClasses 1) .prism (.byName [
      ("triangle", .single [.cls "IntegralMoment", .cls "VectorLagrange", .int (((1 : ℕ) : ℤ) - 2), .str "covariant",
        .dict [("variant", variant)]]),
      ("quadrilateral", .single [.cls "IntegralMoment", .cls "QRT", .int (((1 : ℕ) : ℤ) - 1), .str "covariant",
        .dict [("variant", variant)]])]) 2 i = some [] := by
    intro i hi
    have hi : i < 5 := List.mem_range.1 hi
    have ht : ∀ i < 5, Cell.prism.subEntityType 2 i = some .triangle ∨ Cell.prism.subEntityType 2 i = some .quadrilateral := by
      decide
    unfold Moments.entityDofs
    rcases ht i hi with h | h
    · rw [h, Option.bind_some]
      rfl
    · rw [h, Option.bind_some]
      rfl
  rw [mapM_some_of _ (fun _ => []) _ h]
  rfl

/-- The moments of order 1. -/
theorem prism_moments {xs : List (MvPolynomial ℕ ℝ)} (hx : subFuns (prismClasses 1) ⟨"TangentIntegralMoment", "Lagrange", 0, none,
    [("variant", "equispaced")]⟩ .interval = some (xs.map .scalar)) :
    makeIntegralMomentDofs (prismClasses 1) .prism
      { edges := some (.single [.cls "TangentIntegralMoment", .cls "Lagrange", .int (((1 : ℕ) : ℤ) - 1), .dict [("variant", "equispaced")]])
        faces := some (.byName [
          ("triangle", .single [.cls "IntegralMoment", .cls "VectorLagrange", .int (((1 : ℕ) : ℤ) - 2), .str "covariant",
            .dict [("variant", "equispaced")]]),
          ("quadrilateral", .single [.cls "IntegralMoment", .cls "QRT", .int (((1 : ℕ) : ℤ) - 1), .str "covariant",
            .dict [("variant", "equispaced")]])]) } =
      some ((List.range 9).flatMap fun i => xs.map fun x => ⟨"TangentIntegralMoment", .scalar x, (1, i), none⟩) := by
  have e0 : ∀ dim : ℤ, slotDofs (prismClasses 1) .prism dim none = some [] := fun _ => rfl
  have h1 : slotDofs (prismClasses 1) .prism 1 (some (.single [.cls "TangentIntegralMoment", .cls "Lagrange", .int (((1 : ℕ) : ℤ) - 1),
      .dict [("variant", "equispaced")]])) = some ((List.range 9).flatMap fun i =>
      (xs.map Fun.scalar).map fun x => ⟨"TangentIntegralMoment", x, (1, i), none⟩) :=
    slot_uniform (c := .prism) (t := .interval) (dim := 1) (by omega) (by omega) (by decide) rfl rfl hx
  have h2 := prism_faces "equispaced"
  unfold makeIntegralMomentDofs slots
  simp only [List.mapM_cons, List.mapM_nil, e0, h1, h2, Option.bind_eq_bind, Option.bind_some, Option.pure_def, Option.map_some,
    List.flatten_cons, List.flatten_nil, List.nil_append, List.append_nil, List.map_map, Function.comp_def]

theorem prism_created_of {dofs : List (Dof ℝ (Field 3))} (hl : dofs.length = 9)
    (hu : ∀ p ∈ LinearMap.range prismMap, (∀ d ∈ dofs, d.eval p = 0) → p = 0) :
    Created (ciarlet (prismPolys.map (denoteVec ℝ 3)) dofs) (· ∈ LinearMap.range prismMap) 9 (· = dofs) :=
  created_of_unisolvent (basis := prismPolys.map (denoteVec ℝ 3)) (S := LinearMap.range prismMap) (hl.trans rfl)
    prism_independent prism_mem hu

/-- Nédélec elements of order 1 on prisms (what is missing is order 2): the element can be created, it has nine functionals, its basis functions span the
space, the functionals determine the functions, the functional of an edge determines the tangential component on it, and the functionals of the edges of a
face determine the tangential components on the face. -/
theorem prismNedelec_created_partial : Created (prismNedelec "equispaced" 1) PrismN1 9
    (fun dofs => EdgeTrace .prism PrismN1 dofs ∧ PrismFaceTrace PrismN1 dofs) := by
  obtain ⟨xs, hx, hxs, hxl⟩ := sub_lagrange (t := .interval) (Or.inl rfl) (classes := prismClasses 1) rfl "TangentIntegralMoment" 0 none
  have hms := prism_moments hx
  obtain ⟨dofs, hdofs⟩ := mapM_exists (f := momentDof .prism) (l := (List.range 9).flatMap fun i =>
    xs.map fun x => (⟨"TangentIntegralMoment", .scalar x, (1, i), none⟩ : MomentDof Fun)) (by
    intro mo hmo
    simp only [List.mem_flatMap, List.mem_range, List.mem_map] at hmo
    obtain ⟨i, hi, x, -, rfl⟩ := hmo
    obtain ⟨J, s, -, -, h⟩ := prism_moment hi none
    obtain ⟨d, hd, -⟩ := h x
    exact ⟨d, hd⟩)
  have hval : ∀ c : ℕ → ℝ, ∀ i < 9, (∀ d ∈ dofs, d.entity = (1, i) → d.eval (prismField c) = 0) → prismTang c i = 0 := by
    intro c i hi h
    obtain ⟨J, s, hJ, hs, hm⟩ := prism_moment hi none
    have hmem : comp ⟨.interval, 3, (entityDomain .prism (1, i)).v⟩ (axis .interval (entityDomain .prism (1, i)).v 0) (prismField c) ∈
        lspan xs := by
      rw [hxs, show comp _ _ _ = C (prismTang c i) from MvPolynomial.funext fun z => by rw [prism_comp c hi, eval_C]]
      exact C_mem _ (by norm_num)
    have := trace_zero' ⟨.interval, 3, (entityDomain .prism (1, i)).v⟩ (by simp [Solid]) hJ hs (prismField_mem c) hmem (fun x hx => by
        obtain ⟨d, hd1, hd2⟩ := momentDof_mem hdofs (m := ⟨"TangentIntegralMoment", .scalar x, (1, i), none⟩) (by
          simp only [List.mem_flatMap, List.mem_range, List.mem_map]
          exact ⟨i, hi, x, hx, rfl⟩)
        obtain ⟨d', h1, h2, h3⟩ := hm x
        obtain rfl := Option.some.inj (hd2.symm.trans h1)
        exact (h3 _).symm.trans (h d hd1 h2)) (y := fun _ => 0) (z := _) fun j _ => rfl
    rw [← eval_comp, prism_comp c hi] at this
    exact this
  have hu : ∀ p ∈ LinearMap.range prismMap, (∀ d ∈ dofs, d.eval p = 0) → p = 0 := by
    rintro _ ⟨c, rfl⟩ h
    have hz := fun i hi => hval c i hi fun d hd _ => h d hd
    have z0 : c 0 = 0 := hz 0 (by norm_num)
    have z1 : c 2 = 0 := hz 1 (by norm_num)
    have z2 : c 6 = 0 := hz 2 (by norm_num)
    have z3 : c 2 - c 0 + c 4 = 0 := hz 3 (by norm_num)
    have z4 : c 6 + c 7 = 0 := hz 4 (by norm_num)
    have z5 : c 6 + c 8 = 0 := hz 5 (by norm_num)
    have z6 : c 0 + c 1 = 0 := hz 6 (by norm_num)
    have z7 : c 2 + c 3 = 0 := hz 7 (by norm_num)
    have z8 : c 2 + c 3 - (c 0 + c 1) + (c 4 + c 5) = 0 := hz 8 (by norm_num)
    have c4 : c 4 = 0 := by linarith
    have c5 : c 5 = 0 := by linarith
    have c1 : c 1 = 0 := by linarith
    have c3 : c 3 = 0 := by linarith
    have c7 : c 7 = 0 := by linarith
    have c8 : c 8 = 0 := by linarith
    show prismField c = 0
    funext k
    fin_cases k <;> simp [prismField, z0, z1, z2, c1, c3, c4, c5, c7, c8]
  have hml : dofs.length = 9 := by
    rw [← (mapM_forall hdofs).length_eq]
    simp [List.length_flatMap, hxl]
  have hcr : Created (ciarlet (prismPolys.map (denoteVec ℝ Cell.prism.tdim)) dofs) (· ∈ LinearMap.range prismMap) 9 (· = dofs) :=
    prism_created_of hml hu
  obtain ⟨basis, ds, fs, h1, h2, h3, h4, h5, h6, rfl⟩ := hcr
  refine ⟨basis, ds, fs, ?_, h2, hml, h4, fun v => (h5 v).trans ⟨fun ⟨c, hc⟩ => ⟨c, hc.symm⟩, fun ⟨c, hc⟩ => ⟨c, hc.symm⟩⟩,
    fun v ⟨c, hc⟩ => h6 v ⟨c, hc.symm⟩, ?_, ?_⟩
  · unfold prismNedelec momentElementWith
    rw [prism_set, hms]
    simp only [Option.bind_some]
    rw [hdofs]
    exact (congrArg (ciarlet (prismPolys.map (denoteVec ℝ Cell.prism.tdim))) (List.append_nil ds)).trans h1
  · rintro i hi p q hpq _ ⟨c, rfl⟩ h t
    have := hval c i hi h
    rw [← prism_comp c hi (fun _ => t), eval_comp, interval_param] at this
    have e0 : (entityDomain .prism (1, i)).v 0 = refVertex .prism p := by
      show refVertex .prism ((entVerts .prism 1 i).getD 0 0) = _
      rw [hpq]; rfl
    have e1 : (entityDomain .prism (1, i)).v 1 = refVertex .prism q := by
      show refVertex .prism ((entVerts .prism 1 i).getD 1 0) = _
      rw [hpq]; rfl
    rw [e0, e1] at this
    refine Eq.trans ?_ this
    refine Finset.sum_congr rfl fun j _ => ?_
    show (refVertex .prism q j - refVertex .prism p j) * _ = ((entityDomain .prism (1, i)).v 1 j - (entityDomain .prism (1, i)).v 0 j) * _
    rw [e0, e1]
  · rintro f hf _ ⟨c, rfl⟩ h k hk z
    exact prism_face c hf (fun i hi hs => hval c i hi fun d hd he => h d hd i he hs) hk z

example : ∃ basis dofs fs, prismNedelec "equispaced" 1 = some (.ciarlet basis dofs) ∧
    getBasis (.ciarlet basis dofs) = some fs ∧ fs.length = 9 := by
  obtain ⟨b, d, fs, h1, h2, -, h3, -⟩ := prismNedelec_created_partial
  exact ⟨b, d, fs, h1, h2, h3⟩

end Verif.Families
