import Verif.Scalar.Lag
import Verif.Families.BernardiRaugel
import Verif.Degrees.Basic
/-!
# Non-conforming elements of one order

`RannacherTurek` (symfem/elements/rannacher_turek.py) and `FortinSoulie` (symfem/elements/fortin_soulie.py).
-/

namespace Verif.Scalar
open Verif.References Verif.Moments Verif.Functionals Verif.Elements Verif.FiniteElement Verif.Polysets Verif.Orthogonal
open Verif.Families Verif.Degrees
open MvPolynomial

/-! ### Model -/

/-- The functionals of `RannacherTurek`: evaluation at the midpoint of each facet (symfem/elements/rannacher_turek.py:32-35). -/
noncomputable def rtqPoints (c : Cell) : List PointDof :=
  (List.range (entityCount c (c.tdim - 1))).map fun i : ℕ =>
    ⟨midpoint (entityDomain c (c.tdim - 1, i)).cell (entityDomain c (c.tdim - 1, i)).v, (c.tdim - 1, i)⟩

/-- The polynomials of `RannacherTurek` (symfem/elements/rannacher_turek.py:37-41). -/
noncomputable def rtqPolys (c : Cell) : List (MvPolynomial ℕ ℝ) :=
  if c = .quadrilateral then [1, X 0, X 1, X 0 ^ 2 - X 1 ^ 2] else [1, X 0, X 1, X 2, X 0 ^ 2 - X 1 ^ 2, X 1 ^ 2 - X 2 ^ 2]

/-- `RannacherTurek(reference, order)` (symfem/elements/rannacher_turek.py:21-43). -/
noncomputable def rannacherTurek (c : Cell) (k : ℕ) : Option (Element ℝ (MvPolynomial ℕ ℝ)) :=
  if k = 1 then ciarlet (rtqPolys c) ((rtqPoints c).map PointDof.functional) else none

/-- The points of `FortinSoulie` (symfem/elements/fortin_soulie.py:35-44). -/
noncomputable def fsPoints : List PointDof :=
  [⟨coords [2 / 3, 1 / 3], (1, 0)⟩, ⟨coords [1 / 3, 2 / 3], (1, 0)⟩, ⟨coords [0, 1 / 3], (1, 1)⟩, ⟨coords [0, 2 / 3], (1, 1)⟩,
    ⟨coords [1 / 2, 0], (1, 2)⟩, ⟨coords [1 / 3, 1 / 3], (2, 0)⟩]

/-- `FortinSoulie(reference, order)` (symfem/elements/fortin_soulie.py:23-48). -/
noncomputable def fortinSoulie (c : Cell) (k : ℕ) : Option (Element ℝ (MvPolynomial ℕ ℝ)) :=
  if c = .triangle ∧ k = 2 then (polySet c.tdim k).bind fun l => ciarlet (l.map (denoteMono ℝ)) (fsPoints.map PointDof.functional) else none

/-! ### Creation from a linear system -/

theorem list_eq_range {V : Type} [Zero V] (l : List V) : l = (List.range l.length).map fun i => l.getD i 0 := by
  refine List.ext_getElem (by simp) fun i h1 h2 => ?_
  rw [List.getElem_map, List.getElem_range, List.getD_eq_getElem _ _ h1]

/-- If the only combination of the functions with vanishing functionals is the trivial one, the element is created and the functionals
determine the functions. -/
theorem created_of_system {V : Type} [AddCommGroup V] [Module ℝ V] {basis : List V} {dofs : List (Dof ℝ V)} (hl : dofs.length = basis.length)
    (h : ∀ a : ℕ → ℝ, (∀ d ∈ dofs, d.eval (∑ i ∈ Finset.range basis.length, a i • basis.getD i 0) = 0) → ∀ i < basis.length, a i = 0) :
    Created (ciarlet basis dofs) (· ∈ lspan basis) basis.length fun ds => ds = dofs := by
  have hu : ∀ p ∈ lspan basis, (∀ d ∈ dofs, d.eval p = 0) → p = 0 := by
    intro p hp hd
    rw [list_eq_range basis, mem_lspan_range] at hp
    obtain ⟨a, rfl⟩ := hp
    exact Finset.sum_eq_zero fun i hi => by rw [h a hd i (Finset.mem_range.1 hi), zero_smul]
  have hi : Independent ℝ basis := by
    rw [list_eq_range basis]
    refine independent_range _ _ fun a ha i hi => h a (fun d _ => ?_) i hi
    rw [ha, map_zero]
  obtain ⟨h1, fs, h2, h3, h4⟩ := ciarlet_basis hl hi hu
  exact ⟨_, _, fs, h1, h2, hl, h4, fun v => by rw [h3], hu, rfl⟩

theorem created_congr {V : Type} [AddCommGroup V] [Module ℝ V] {e : Option (Element ℝ V)} {S S' : V → Prop} {n : ℕ} {T : List (Dof ℝ V) → Prop}
    (h : Created e S n T) (hS : ∀ v, S v ↔ S' v) : Created e S' n T := by
  obtain rfl : S = S' := funext fun v => propext (hS v)
  exact h

/-! ### Rannacher–Turek -/

/-- The functions: affine functions and the differences of squares of the coordinates. -/
noncomputable def RTQuad (d : ℕ) : Submodule ℝ (MvPolynomial ℕ ℝ) :=
  P d 1 ⊔ Submodule.span ℝ {p | ∃ i < d, ∃ j < d, p = X i ^ 2 - X j ^ 2}

/-! The midpoint of facet `i`: one coordinate is 0 or 1, the others are 1/2. -/

theorem quad_midpoint {i : ℕ} (hi : i < 4) {j : ℕ} (hj : j < 2) :
    References.midpoint (entityDomain .quadrilateral (1, i)).cell (entityDomain .quadrilateral (1, i)).v j =
      if j = qAxis 2 i then qVal 2 i else 1 / 2 := by
  have hc : (entityDomain .quadrilateral (1, i)).cell = .interval := by interval_cases i <;> rfl
  have hv : ∀ i j k, (entityDomain .quadrilateral (1, i)).v j k = refVertex .quadrilateral ((entVerts .quadrilateral 1 i).getD j 0) k :=
    fun _ _ _ => rfl
  rw [hc]
  simp only [References.midpoint, hv]
  show (∑ k ∈ Finset.range 2, _) / ((2 : ℕ) : ℝ) = _
  interval_cases i <;> interval_cases j <;>
    norm_num [Finset.sum_range_succ, entVerts, Cell.subEntities, Cell.edges, refVertex, refVerts, coords, qAxis, qVal]

theorem hex_midpoint {i : ℕ} (hi : i < 6) {j : ℕ} (hj : j < 3) :
    References.midpoint (entityDomain .hexahedron (2, i)).cell (entityDomain .hexahedron (2, i)).v j =
      if j = qAxis 3 i then qVal 3 i else 1 / 2 := by
  have hc : (entityDomain .hexahedron (2, i)).cell = .quadrilateral := by interval_cases i <;> rfl
  have hv : ∀ i j k, (entityDomain .hexahedron (2, i)).v j k = refVertex .hexahedron ((entVerts .hexahedron 2 i).getD j 0) k :=
    fun _ _ _ => rfl
  rw [hc]
  simp only [References.midpoint, hv]
  show (∑ k ∈ Finset.range 4, _) / ((4 : ℕ) : ℝ) = _
  interval_cases i <;> interval_cases j <;>
    norm_num [Finset.sum_range_succ, entVerts, Cell.subEntities, Cell.faces, refVertex, refVerts, coords, qAxis, qVal]

theorem point_functional_eval (d : PointDof) (p : MvPolynomial ℕ ℝ) : d.functional.eval p = eval d.point p := aeval_linear _ _

/-- The values at the midpoints determine the combination, on a quadrilateral. -/
theorem rtq_quad : Created (rannacherTurek .quadrilateral 1) (· ∈ lspan (rtqPolys .quadrilateral)) 4
    fun ds => ds = (rtqPoints .quadrilateral).map PointDof.functional := by
  refine created_of_system (basis := rtqPolys .quadrilateral) (dofs := (rtqPoints .quadrilateral).map PointDof.functional) rfl fun a h => ?_
  have key : ∀ i < 4, a 0 + a 1 * (if 0 = qAxis 2 i then qVal 2 i else 1 / 2) + a 2 * (if 1 = qAxis 2 i then qVal 2 i else 1 / 2) +
      a 3 * ((if 0 = qAxis 2 i then qVal 2 i else 1 / 2) ^ 2 - (if 1 = qAxis 2 i then qVal 2 i else 1 / 2) ^ 2) = 0 := by
    intro i hi
    have h1 := h _ (List.mem_map.2 ⟨_, List.mem_map.2 ⟨i, List.mem_range.2 hi, rfl⟩, rfl⟩)
    rw [point_functional_eval] at h1
    have e : ∀ z : ℕ → ℝ, eval z (∑ i ∈ Finset.range (rtqPolys .quadrilateral).length, a i • (rtqPolys .quadrilateral).getD i 0) =
        a 0 + a 1 * z 0 + a 2 * z 1 + a 3 * (z 0 ^ 2 - z 1 ^ 2) := by
      intro z
      simp [rtqPolys, Finset.sum_range_succ, smul_eval]
    rw [e] at h1
    rw [← quad_midpoint hi (by omega), ← quad_midpoint hi (by omega)]
    exact h1
  have k0 := key 0 (by omega)
  have k1 := key 1 (by omega)
  have k2 := key 2 (by omega)
  have k3 := key 3 (by omega)
  norm_num [qAxis, qVal] at k0 k1 k2 k3
  intro i hi
  have hi' : i < 4 := hi
  interval_cases i <;> linarith

theorem rtq_hex : Created (rannacherTurek .hexahedron 1) (· ∈ lspan (rtqPolys .hexahedron)) 6
    fun ds => ds = (rtqPoints .hexahedron).map PointDof.functional := by
  have hp : rtqPolys .hexahedron = [1, X 0, X 1, X 2, X 0 ^ 2 - X 1 ^ 2, X 1 ^ 2 - X 2 ^ 2] := if_neg (by simp)
  have hlen : (rtqPolys .hexahedron).length = 6 := by rw [hp]; rfl
  rw [← hlen]
  refine created_of_system (basis := rtqPolys .hexahedron) (dofs := (rtqPoints .hexahedron).map PointDof.functional) (by rw [hlen]; rfl) fun a h => ?_
  have key : ∀ i < 6, a 0 + a 1 * (if 0 = qAxis 3 i then qVal 3 i else 1 / 2) + a 2 * (if 1 = qAxis 3 i then qVal 3 i else 1 / 2) +
      a 3 * (if 2 = qAxis 3 i then qVal 3 i else 1 / 2) +
      a 4 * ((if 0 = qAxis 3 i then qVal 3 i else 1 / 2) ^ 2 - (if 1 = qAxis 3 i then qVal 3 i else 1 / 2) ^ 2) +
      a 5 * ((if 1 = qAxis 3 i then qVal 3 i else 1 / 2) ^ 2 - (if 2 = qAxis 3 i then qVal 3 i else 1 / 2) ^ 2) = 0 := by
    intro i hi
    have h1 := h _ (List.mem_map.2 ⟨_, List.mem_map.2 ⟨i, List.mem_range.2 hi, rfl⟩, rfl⟩)
    rw [point_functional_eval] at h1
    have e : ∀ z : ℕ → ℝ, eval z (∑ i ∈ Finset.range (rtqPolys .hexahedron).length, a i • (rtqPolys .hexahedron).getD i 0) =
        a 0 + a 1 * z 0 + a 2 * z 1 + a 3 * z 2 + a 4 * (z 0 ^ 2 - z 1 ^ 2) + a 5 * (z 1 ^ 2 - z 2 ^ 2) := by
      intro z
      rw [hp]
      simp [Finset.sum_range_succ, smul_eval]
    rw [e] at h1
    rw [← hex_midpoint hi (by omega), ← hex_midpoint hi (by omega), ← hex_midpoint hi (by omega)]
    exact h1
  have k0 := key 0 (by omega)
  have k1 := key 1 (by omega)
  have k2 := key 2 (by omega)
  have k3 := key 3 (by omega)
  have k4 := key 4 (by omega)
  have k5 := key 5 (by omega)
  norm_num [qAxis, qVal] at k0 k1 k2 k3 k4 k5
  intro i hi
  rw [hlen] at hi
  interval_cases i <;> linarith

theorem P_one_span (d : ℕ) : P d 1 = Submodule.span ℝ ({1} ∪ {p | ∃ i < d, p = X i}) := by
  refine le_antisymm ?_ (Submodule.span_le.2 ?_)
  · intro p hp
    rw [p.as_sum]
    refine Submodule.sum_mem _ fun t ht => ?_
    obtain ⟨h1, h2⟩ := mem_P.1 hp t ht
    rw [show monomial t (coeff t p) = coeff t p • monomial t (1 : ℝ) by rw [smul_monomial, smul_eq_mul, mul_one]]
    refine Submodule.smul_mem _ _ (Submodule.subset_span ?_)
    by_cases h0 : t = 0
    · left
      rw [h0]
      rfl
    · right
      obtain ⟨i, hi⟩ := Finsupp.support_nonempty_iff.2 h0
      refine ⟨i, h2 i hi, ?_⟩
      have hle : Finsupp.single i 1 ≤ t := by
        rw [Finsupp.single_le_iff]
        exact Nat.one_le_iff_ne_zero.2 (Finsupp.mem_support_iff.1 hi)
      have hd : t.degree ≤ 1 := by exact_mod_cast h1
      have : t = Finsupp.single i 1 := by
        have h4 : (t - Finsupp.single i 1).degree = 0 := by
          have := congrArg Finsupp.degree (tsub_add_cancel_of_le hle)
          rw [map_add, Finsupp.degree_single] at this
          omega
        rw [← tsub_add_cancel_of_le hle, (Finsupp.degree_eq_zero_iff _).1 h4, zero_add]
      rw [this]
      rfl
  · rintro p (rfl | ⟨i, hi, rfl⟩)
    · exact Families.one_mem (by norm_num)
    · exact X_mem hi

/-- The functions that are used span the space. -/
theorem rtqPolys_span {c : Cell} (hc : Box c) : lspan (rtqPolys c) = RTQuad c.tdim := by
  have h3 : c.tdim ≤ 3 := by rcases hc with rfl | rfl <;> decide
  refine le_antisymm (Submodule.span_le.2 fun p hp => ?_) (sup_le ?_ (Submodule.span_le.2 ?_))
  · have h1 : (1 : MvPolynomial ℕ ℝ) ∈ RTQuad c.tdim := Submodule.mem_sup_left (Families.one_mem (by norm_num))
    have hX : ∀ i < c.tdim, (X i : MvPolynomial ℕ ℝ) ∈ RTQuad c.tdim := fun i hi => Submodule.mem_sup_left (X_mem hi)
    have hD : ∀ i < c.tdim, ∀ j < c.tdim, (X i ^ 2 - X j ^ 2 : MvPolynomial ℕ ℝ) ∈ RTQuad c.tdim := fun i hi j hj =>
      Submodule.mem_sup_right (Submodule.subset_span ⟨i, hi, j, hj, rfl⟩)
    rcases hc with rfl | rfl
    · have hp' : p ∈ ([1, X 0, X 1, X 0 ^ 2 - X 1 ^ 2] : List (MvPolynomial ℕ ℝ)) := hp
      simp only [List.mem_cons, List.not_mem_nil, or_false] at hp'
      rcases hp' with rfl | rfl | rfl | rfl
      · exact h1
      · exact hX _ (by decide)
      · exact hX _ (by decide)
      · exact hD _ (by decide) _ (by decide)
    · have hp' : p ∈ ([1, X 0, X 1, X 2, X 0 ^ 2 - X 1 ^ 2, X 1 ^ 2 - X 2 ^ 2] : List (MvPolynomial ℕ ℝ)) := by
        have h0 : rtqPolys .hexahedron = [1, X 0, X 1, X 2, X 0 ^ 2 - X 1 ^ 2, X 1 ^ 2 - X 2 ^ 2] := if_neg (by simp)
        rw [← h0]
        exact hp
      simp only [List.mem_cons, List.not_mem_nil, or_false] at hp'
      rcases hp' with rfl | rfl | rfl | rfl | rfl | rfl
      · exact h1
      · exact hX _ (by decide)
      · exact hX _ (by decide)
      · exact hX _ (by decide)
      · exact hD _ (by decide) _ (by decide)
      · exact hD _ (by decide) _ (by decide)
  · rw [P_one_span, Submodule.span_le]
    rintro p (rfl | ⟨i, hi, rfl⟩)
    · refine mem_lspan ?_
      unfold rtqPolys
      split_ifs <;> simp
    · refine mem_lspan ?_
      unfold rtqPolys
      rcases hc with rfl | rfl
      · have hi' : i < 2 := hi
        interval_cases i <;> simp
      · have hi' : i < 3 := hi
        interval_cases i <;> simp
  · have hD : ∀ i < c.tdim, (X 0 ^ 2 - X i ^ 2 : MvPolynomial ℕ ℝ) ∈ lspan (rtqPolys c) := by
      intro i hi
      rcases hc with rfl | rfl
      · have hi' : i < 2 := hi
        interval_cases i
        · rw [sub_self]; exact Submodule.zero_mem _
        · exact mem_lspan (by simp [rtqPolys])
      · have hi' : i < 3 := hi
        interval_cases i
        · rw [sub_self]; exact Submodule.zero_mem _
        · exact mem_lspan (by simp [rtqPolys])
        · rw [show (X 0 ^ 2 - X 2 ^ 2 : MvPolynomial ℕ ℝ) = (X 0 ^ 2 - X 1 ^ 2) + (X 1 ^ 2 - X 2 ^ 2) by ring]
          exact Submodule.add_mem _ (mem_lspan (by simp [rtqPolys])) (mem_lspan (by simp [rtqPolys]))
    rintro p ⟨i, hi, j, hj, rfl⟩
    rw [show (X i ^ 2 - X j ^ 2 : MvPolynomial ℕ ℝ) = (X 0 ^ 2 - X j ^ 2) - (X 0 ^ 2 - X i ^ 2) by ring]
    exact Submodule.sub_mem _ (hD j hj) (hD i hi)

/-- What the theorem below says about the functionals: one for each facet, the value at the midpoint of the facet. -/
def RTQFunctionals (c : Cell) (ds : List (Dof ℝ (MvPolynomial ℕ ℝ))) : Prop :=
  ds.map Dof.entity = (List.range (2 * c.tdim)).map (fun i : ℕ => (c.tdim - 1, i)) ∧
  ∀ (i : ℕ) d, ds[i]? = some d → ∃ z : ℕ → ℝ, (∀ j < c.tdim, z j = if j = qAxis c.tdim i then qVal c.tdim i else 1 / 2) ∧
    ∀ p, d.eval p = eval z p

/-- **C138** Rannacher–Turek elements. -/
theorem rannacherTurek_created {c : Cell} (hc : Box c) :
    Created (rannacherTurek c 1) (· ∈ RTQuad c.tdim) (2 * c.tdim) (RTQFunctionals c) := by
  have hT : ∀ ds, ds = (rtqPoints c).map PointDof.functional → RTQFunctionals c ds := by
    rintro _ rfl
    have hn : entityCount c (c.tdim - 1) = 2 * c.tdim := by rcases hc with rfl | rfl <;> rfl
    constructor
    · rw [rtqPoints, hn, List.map_map, List.map_map]
      rfl
    · intro i d hd
      rw [rtqPoints, hn, List.map_map, List.getElem?_map, Option.map_eq_some_iff] at hd
      obtain ⟨i', h1, rfl⟩ := hd
      obtain ⟨h2, h3⟩ := List.getElem?_eq_some_iff.1 h1
      rw [List.length_range] at h2
      rw [List.getElem_range] at h3
      subst h3
      refine ⟨_, fun j hj => ?_, fun p => point_functional_eval _ p⟩
      rcases hc with rfl | rfl
      · exact quad_midpoint h2 hj
      · exact hex_midpoint h2 hj
  have main : ∀ n, n = 2 * c.tdim → Created (rannacherTurek c 1) (· ∈ lspan (rtqPolys c)) n (fun ds => ds = (rtqPoints c).map PointDof.functional) →
      Created (rannacherTurek c 1) (· ∈ RTQuad c.tdim) (2 * c.tdim) (RTQFunctionals c) := by
    rintro _ rfl ⟨b, ds, fs, h1, h2, h3, h4, h5, h6, h7⟩
    simp only [rtqPolys_span hc] at h5 h6
    exact ⟨b, ds, fs, h1, h2, h3, h4, h5, h6, hT ds h7⟩
  rcases hc with rfl | rfl
  · exact main 4 rfl rtq_quad
  · exact main 6 rfl rtq_hex

/-- **C138** No other order. -/
theorem rannacherTurek_none (c : Cell) {k : ℕ} (hk : k ≠ 1) : rannacherTurek c k = none := if_neg hk

/-! ### Fortin–Soulie -/

theorem fortinSoulie_system : Created (fortinSoulie .triangle 2) (· ∈ P 2 2) 6 fun ds => ds = fsPoints.map PointDof.functional := by
  obtain ⟨l, l1, l2⟩ := polySet_lspan (d := 2) (by simp) ((2 : ℕ) : ℤ)
  have hl : l = [[0, 0], [1, 0], [2, 0], [0, 1], [1, 1], [0, 2]] := by
    have : polySet 2 ((2 : ℕ) : ℤ) = some [[0, 0], [1, 0], [2, 0], [0, 1], [1, 1], [0, 2]] := by decide
    exact Option.some.inj (l1.symm.trans this)
  have e : fortinSoulie .triangle 2 = ciarlet (l.map (denoteMono ℝ)) (fsPoints.map PointDof.functional) := by
    unfold fortinSoulie
    rw [if_pos ⟨rfl, rfl⟩]
    show (polySet 2 ((2 : ℕ) : ℤ)).bind _ = _
    rw [l1, Option.bind_some]
  rw [e]
  have h2 := created_of_system (basis := l.map (denoteMono ℝ)) (dofs := fsPoints.map PointDof.functional) (by rw [hl]; rfl) fun a h => ?_
  · rw [l2] at h2
    have hlen : (l.map (denoteMono ℝ)).length = 6 := by rw [hl]; rfl
    rw [hlen] at h2
    exact h2
  · have ev : ∀ z : ℕ → ℝ, eval z (∑ i ∈ Finset.range (l.map (denoteMono ℝ)).length, a i • (l.map (denoteMono ℝ)).getD i 0) =
        a 0 + a 1 * z 0 + a 2 * z 0 ^ 2 + a 3 * z 1 + a 4 * (z 0 * z 1) + a 5 * z 1 ^ 2 := by
      intro z
      rw [hl]
      simp [Finset.sum_range_succ, smul_eval, denoteMono, monoFrom]
    have key : ∀ d ∈ fsPoints, a 0 + a 1 * d.point 0 + a 2 * d.point 0 ^ 2 + a 3 * d.point 1 + a 4 * (d.point 0 * d.point 1) + a 5 * d.point 1 ^ 2 = 0 := by
      intro d hd
      have := h _ (List.mem_map.2 ⟨d, hd, rfl⟩)
      rw [point_functional_eval, ev] at this
      exact this
    have k0 := key ⟨coords [2 / 3, 1 / 3], (1, 0)⟩ (by simp [fsPoints])
    have k1 := key ⟨coords [1 / 3, 2 / 3], (1, 0)⟩ (by simp [fsPoints])
    have k2 := key ⟨coords [0, 1 / 3], (1, 1)⟩ (by simp [fsPoints])
    have k3 := key ⟨coords [0, 2 / 3], (1, 1)⟩ (by simp [fsPoints])
    have k4 := key ⟨coords [1 / 2, 0], (1, 2)⟩ (by simp [fsPoints])
    have k5 := key ⟨coords [1 / 3, 1 / 3], (2, 0)⟩ (by simp [fsPoints])
    norm_num [coords] at k0 k1 k2 k3 k4 k5
    intro i hi
    rw [hl] at hi
    have hi' : i < 6 := hi
    interval_cases i <;> linarith

/-- What the theorem below says about the functionals: values at points inside the entities, two on the edges 0 and 1, and one on edge 2 and in the
interior. -/
def FSFunctionals (ds : List (Dof ℝ (MvPolynomial ℕ ℝ))) : Prop :=
  ds.map Dof.entity = [(1, 0), (1, 0), (1, 1), (1, 1), (1, 2), (2, 0)] ∧
  ∀ d ∈ ds, ∃ z : ℕ → ℝ, (∀ p, d.eval p = eval z p) ∧ 0 ≤ z 0 ∧ 0 ≤ z 1 ∧ z 0 + z 1 ≤ 1 ∧
    (z 0 + z 1 = 1 ↔ d.entity = (1, 0)) ∧ (z 0 = 0 ↔ d.entity = (1, 1)) ∧ (z 1 = 0 ↔ d.entity = (1, 2))

/-- **C138** The Fortin–Soulie element. -/
theorem fortinSoulie_created : Created (fortinSoulie .triangle 2) (· ∈ P 2 2) 6 FSFunctionals := by
  obtain ⟨b, ds, fs, h1, h2, h3, h4, h5, h6, rfl⟩ := fortinSoulie_system
  refine ⟨b, _, fs, h1, h2, h3, h4, h5, h6, rfl, fun d hd => ?_⟩
  obtain ⟨q, hq, rfl⟩ := List.mem_map.1 hd
  refine ⟨q.point, point_functional_eval q, ?_⟩
  simp only [fsPoints, List.mem_cons, List.not_mem_nil, or_false] at hq
  rcases hq with rfl | rfl | rfl | rfl | rfl | rfl <;> norm_num [coords, PointDof.functional]

/-- A case: the elements exist, with four, six and six functions. -/
example : (∃ el fs, rannacherTurek .quadrilateral 1 = some el ∧ getBasis el = some fs ∧ fs.length = 4) ∧
    (∃ el fs, rannacherTurek .hexahedron 1 = some el ∧ getBasis el = some fs ∧ fs.length = 6) := by
  obtain ⟨b, ds, fs, h1, h2, h3, h4, -⟩ := rannacherTurek_created (c := .quadrilateral) (by simp [Box])
  obtain ⟨b', ds', fs', h1', h2', h3', h4', -⟩ := rannacherTurek_created (c := .hexahedron) (by simp [Box])
  exact ⟨⟨_, fs, h1, h2, h4⟩, ⟨_, fs', h1', h2', h4'⟩⟩

/-- **C138** No other order or cell. -/
theorem fortinSoulie_none {c : Cell} {k : ℕ} (h : ¬ (c = .triangle ∧ k = 2)) : fortinSoulie c k = none := if_neg h

end Verif.Scalar
