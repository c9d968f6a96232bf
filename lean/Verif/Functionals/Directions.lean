import Verif.Families.Sub
import Verif.Families.Trace
/-!
# The directions of the functionals

`dof_direction` of the functionals (symfem/functionals.py), and the list `dof_directions` of an element defined by
functionals (symfem/finite_element.py:645-651), for the functionals of elements on default references that act on vectors.
A functional is represented by the data that its direction depends on.  The classes for matrices and derivatives
(symfem/functionals.py:525-533, 729-739, 1426-1434, 1742-1752) are not included.
-/

namespace Verif.Directions
open Verif.References Verif.Moments Verif.Functionals Verif.Elements Verif.FiniteElement Verif.Polysets Verif.Orthogonal
open Verif.Families MvPolynomial

/-- A functional, as far as its direction is concerned.  `plain`: the classes that do not override `dof_direction`, and
`PointDivergenceEvaluation` (symfem/functionals.py:157-163, 908-914).  `dot`: a `DotPointEvaluation` with a vector
(symfem/functionals.py:818-827).  `tangent`, `normal`: `TangentIntegralMoment` and `NormalIntegralMoment`
(symfem/functionals.py:1547-1553, 1610-1616).  `moment`: an `IntegralMoment` with the functional `self.dof` and the function
of an element on the entity, and the point where the function is evaluated when that functional has no direction. -/
inductive Directed where
  | plain
  | dot (dir : ℕ → ℝ)
  | tangent (e : ℕ × ℕ)
  | normal (e : ℕ × ℕ)
  | moment (dof : Directed) (f : Fun) (e : ℕ × ℕ) (pt : ℕ → ℝ)

/-- `dof_direction`.  In an `IntegralMoment` (symfem/functionals.py:1321-1340): the sum of the axes of the entity with the
entries of the direction of `self.dof`, or the value of the function of the moment. -/
noncomputable def direction (c : Cell) : Directed → Option (ℕ → ℝ)
  | .plain => none
  | .dot dir => some dir
  | .tangent e => References.tangent (entityDomain c e).cell c.tdim (entityDomain c e).v
  | .normal e => References.normal (entityDomain c e).cell c.tdim (entityDomain c e).v
  | .moment d f e pt => match direction c d with
    | some p => some fun i => ∑ k ∈ Finset.range (entityDomain c e).cell.tdim,
        p k * axis (entityDomain c e).cell (entityDomain c e).v k i
    | none => (momentFn "IntegralMoment" (entityDomain c e) f).map fun w i =>
        if h : i < c.tdim then eval pt (w ⟨i, h⟩) else 0

/-- `dof_directions` of an element with these functionals (symfem/finite_element.py:645-651). -/
noncomputable def directions (c : Cell) (ds : List Directed) : List (Option (ℕ → ℝ)) := ds.map (direction c)

/-! ### The specification -/

/-- The field is perpendicular to a vector at all points of an entity with parameters `z`. -/
def Perp {c : Cell} (e : ℕ × ℕ) (s : ℕ → ℝ) (v : Field c.tdim) : Prop :=
  ∀ z, ∑ i : Fin c.tdim, s i * eval ((entityDomain c e).param z) (v i) = 0

/-- The entities of the simplices where moments against vector functions are taken: the cell, and the faces of a
tetrahedron. -/
def VecEntity (c : Cell) (e : ℕ × ℕ) : Prop :=
  Simp c ∧ (e = (c.tdim, 0) ∨ c = .tetrahedron ∧ ∃ i < 4, e = (2, i))

/-! ### Point evaluations, and tangential and normal moments -/

/-- A point evaluation does not see a field that is perpendicular to its direction at its point. -/
theorem dot_direction {c : Cell} (p : PointDof) {dir s : ℕ → ℝ} (hs : direction c (.dot dir) = some s) {v : Field c.tdim}
    (hv : ∑ i : Fin c.tdim, s i * eval p.point (v i) = 0) : (dotDof p fun i : Fin c.tdim => dir i).eval v = 0 := by
  obtain rfl : dir = s := by simpa [direction] using hs
  show (∑ j : Fin c.tdim, dir j • (aeval p.point).toLinearMap ∘ₗ LinearMap.proj j) v = 0
  rw [LinearMap.sum_apply, ← hv]
  refine Finset.sum_congr rfl fun j _ => ?_
  rw [← coe_aeval_eq_eval]
  rfl

/-- A moment whose function is everywhere a multiple of a vector does not see fields that are perpendicular to it. -/
theorem momentMap_zero {c : Cell} {e : ℕ × ℕ} {s : ℕ → ℝ} {v : Field c.tdim} (hv : Perp e s v) (J : ℝ)
    {w : Field c.tdim} {φ : MvPolynomial ℕ ℝ} (hw : ∀ i, w i = C (s i) * φ) : momentMap (entityDomain c e) J w v = 0 := by
  show cellInt _ (fun z => (∑ i : Fin c.tdim, eval ((entityDomain c e).param z) (v i) * eval z (w i)) * J) = 0
  rw [← cellInt_zero (entityDomain c e).cell]
  congr 1
  funext z
  have : ∑ i : Fin c.tdim, eval ((entityDomain c e).param z) (v i) * eval z (w i) =
      (∑ i : Fin c.tdim, s i * eval ((entityDomain c e).param z) (v i)) * eval z φ := by
    rw [Finset.sum_mul]
    exact Finset.sum_congr rfl fun i _ => by rw [hw, map_mul, eval_C]; ring
  rw [this, hv z, zero_mul, zero_mul]

/-- A tangential moment does not see fields that are perpendicular to its direction along the entity. -/
theorem tangent_direction {c : Cell} {e : ℕ × ℕ} {s : ℕ → ℝ} (hs : direction c (.tangent e) = some s)
    {p : MvPolynomial ℕ ℝ} {mp : Option String} {m : Dof ℝ (Field c.tdim)}
    (hm : momentDof c ⟨"TangentIntegralMoment", .scalar p, e, mp⟩ = some m) {v : Field c.tdim} (hv : Perp e s v) :
    m.eval v = 0 := by
  obtain ⟨w, hw, hm⟩ := Option.bind_eq_some_iff.1 hm
  obtain ⟨J, -, rfl⟩ := Option.map_eq_some_iff.1 hm
  have hs' : References.tangent (entityDomain c e).cell (entityDomain c e).g (entityDomain c e).v = some s := hs
  simp only [momentFn, if_true, hs', Option.map_some, Option.some.injEq] at hw
  subst hw
  exact momentMap_zero hv J fun _ => rfl

/-- A normal moment does not see fields that are perpendicular to its direction along the entity. -/
theorem normal_direction {c : Cell} {e : ℕ × ℕ} {s : ℕ → ℝ} (hs : direction c (.normal e) = some s)
    {p : MvPolynomial ℕ ℝ} {mp : Option String} {m : Dof ℝ (Field c.tdim)}
    (hm : momentDof c ⟨"NormalIntegralMoment", .scalar p, e, mp⟩ = some m) {v : Field c.tdim} (hv : Perp e s v) :
    m.eval v = 0 := by
  obtain ⟨w, hw, hm⟩ := Option.bind_eq_some_iff.1 hm
  obtain ⟨J, -, rfl⟩ := Option.map_eq_some_iff.1 hm
  have hs' : References.normal (entityDomain c e).cell (entityDomain c e).g (entityDomain c e).v = some s := hs
  have hn : ¬ ("NormalIntegralMoment" = "TangentIntegralMoment") := by decide
  simp only [momentFn, if_neg hn, if_true, hs', Option.map_some, Option.some.injEq] at hw
  subst hw
  exact momentMap_zero hv J fun _ => rfl

/-- The hypotheses are met: the directions on the first edge of a triangle exist, and the functionals too. -/
example (p : MvPolynomial ℕ ℝ) : (∃ s m, direction .triangle (.tangent (1, 0)) = some s ∧
    momentDof .triangle ⟨"TangentIntegralMoment", .scalar p, (1, 0), none⟩ = some m) ∧
    ∃ s m, direction .triangle (.normal (1, 0)) = some s ∧
    momentDof .triangle ⟨"NormalIntegralMoment", .scalar p, (1, 0), none⟩ = some m :=
  ⟨⟨_, _, rfl, rfl⟩, _, _, rfl, rfl⟩

/-! ### Moments against the functions of vector Lagrange elements -/

/-- The functions of a vector Lagrange element have the directions of the functionals. -/
theorem vectorLagrange_direction {t : Cell} (ht : Simp t) {k : ℕ} {basis : List (Field t.tdim)} {dofs : List (Dof ℝ (Field t.tdim))}
    (he : vectorLagrangeElement "equispaced" t (refVertex t) k = some (.ciarlet basis dofs)) {fs : List (Field t.tdim)}
    (hfs : getBasis (.ciarlet basis dofs) = some fs) {n : ℕ} {d : PointDof} {i : Fin t.tdim}
    (hd : dofs[n]? = some (dotDof d fun j => if i = j then 1 else 0)) {f : Field t.tdim} (hf : fs[n]? = some f) :
    ∀ j, j ≠ i → f j = 0 := by
  have hs : Simplex t := by rcases ht with rfl | rfl <;> simp [Simplex]
  obtain ⟨_, _, h0, h1, h2, -⟩ := vectorLagrange_basis hs _ (nonDegenerate_ref hs) k
  rw [he, Option.some.injEq] at h0
  subst h0
  obtain rfl : fs = _ := Option.some.inj (hfs.symm.trans h1)
  have hmem : f ∈ PV t.tdim t.tdim k := h2 ▸ Submodule.subset_span (List.mem_of_getElem? hf)
  obtain ⟨l, hl, he⟩ := Option.bind_eq_some_iff.1 he
  obtain ⟨poly, -, he⟩ := Option.bind_eq_some_iff.1 he
  have hdofs : dofs = l.flatMap fun p => (List.finRange t.tdim).map fun i => dotDof p fun j => if i = j then 1 else 0 := by
    unfold ciarlet at he
    split_ifs at he
    simp only [Option.some.injEq, Element.ciarlet.injEq] at he
    exact he.2.symm
  intro j hj
  refine lagrange_determined hs _ (nonDegenerate_ref hs) hl (mem_PV.1 hmem j) fun d' hd' => ?_
  have hin : dotDof d' (fun a => if j = a then 1 else 0) ∈ dofs := by
    rw [hdofs]
    exact List.mem_flatMap.2 ⟨d', hd', List.mem_map.2 ⟨j, List.mem_finRange j, rfl⟩⟩
  obtain ⟨m, hm⟩ := List.mem_iff_getElem?.1 hin
  have hne : n ≠ m := by
    rintro rfl
    have heq := Option.some.inj (hd.symm.trans hm)
    have := congrArg (fun q : Dof ℝ (Field t.tdim) => q.eval (Pi.single i 1)) heq
    simp only [eval_dotDof, Pi.single_eq_same, Pi.single_eq_of_ne hj, map_one, map_zero] at this
    exact one_ne_zero this
  rw [← eval_dotDof, (getBasis_ciarlet_dual _ _ _ hfs).2 n m f _ hf hm, if_neg hne]

theorem cell_axis {c : Cell} (hc : Simp c) (k i : Fin c.tdim) :
    axis (entityDomain c (c.tdim, 0)).cell (entityDomain c (c.tdim, 0)).v k i = if k = i then 1 else 0 := by
  have h : axis (entityDomain c (c.tdim, 0)).cell (entityDomain c (c.tdim, 0)).v k i =
      refVertex c (k + 1) i - refVertex c 0 i := by
    rcases hc with rfl | rfl <;> fin_cases k <;> rfl
  have h' : (refVertex c (k + 1) i : ℚ) - refVertex c 0 i = if k = i then 1 else 0 := by
    clear h
    rcases hc with rfl | rfl <;> revert k i <;> decide +kernel
  rw [h, refVertex_cast, refVertex_cast, ← Rat.cast_sub, h']
  split_ifs <;> simp

/-- A moment against a function of a vector Lagrange element on the cell or on a face of a tetrahedron does not see fields
that are perpendicular to its direction along the entity.  The function `f` is the one that belongs to the functional `d`. -/
theorem moment_direction {c : Cell} {e : ℕ × ℕ} (hce : VecEntity c e) {t : Cell} (ht : t = (entityDomain c e).cell) {k : ℕ}
    {basis : List (Field t.tdim)} {dofs : List (Dof ℝ (Field t.tdim))}
    (he : vectorLagrangeElement "equispaced" t (refVertex t) k = some (.ciarlet basis dofs)) {fs : List (Field t.tdim)}
    (hfs : getBasis (.ciarlet basis dofs) = some fs) {n : ℕ} {d : PointDof} {dir : ℕ → ℝ} {a : Fin t.tdim}
    (hdir : ∀ j : Fin t.tdim, dir j = if a = j then 1 else 0)
    (hd : dofs[n]? = some (dotDof d fun j => dir j)) {f : Field t.tdim} (hf : fs[n]? = some f) {mp : Option String}
    {m : Dof ℝ (Field c.tdim)} (hm : momentDof c ⟨"IntegralMoment", .vector t.tdim f, e, mp⟩ = some m) {pt s : ℕ → ℝ}
    (hs : direction c (.moment (.dot dir) (.vector t.tdim f) e pt) = some s) {v : Field c.tdim} (hv : Perp e s v) :
    m.eval v = 0 := by
  have htS : Simp t := by
    rcases hce with ⟨hc, rfl | ⟨rfl, i, hi, rfl⟩⟩
    · rcases hc with rfl | rfl
      · exact Or.inl ht
      · exact Or.inr ht
    · left
      rw [ht]
      interval_cases i <;> rfl
  have hz : ∀ j, j ≠ a → f j = 0 := vectorLagrange_direction htS he hfs
    (hd.trans (congrArg (fun g => some (dotDof d g)) (funext hdir))) hf
  obtain ⟨w, hw, hm⟩ := Option.bind_eq_some_iff.1 hm
  obtain ⟨J, hJ, rfl⟩ := Option.map_eq_some_iff.1 hm
  have hs1 : (fun i => ∑ k ∈ Finset.range (entityDomain c e).cell.tdim,
      dir k * axis (entityDomain c e).cell (entityDomain c e).v k i) = s := Option.some.inj hs
  have hsa : ∀ i, s i = axis (entityDomain c e).cell (entityDomain c e).v a i := by
    intro i
    rw [← hs1]
    show ∑ k ∈ Finset.range (entityDomain c e).cell.tdim, dir k * axis (entityDomain c e).cell (entityDomain c e).v k i = _
    rw [← ht, Finset.sum_range fun k => dir k * axis t (entityDomain c e).v k i, Finset.sum_eq_single a]
    · rw [hdir, if_pos rfl, one_mul]
    · intro b _ hb
      rw [hdir, if_neg (Ne.symm hb), zero_mul]
    · intro h; exact absurd (Finset.mem_univ _) h
  rcases hce with ⟨hc, h⟩
  by_cases hdim : t.tdim = c.tdim
  · have hec : e = (c.tdim, 0) := by
      rcases h with h | ⟨rfl, i, hi, rfl⟩
      · exact h
      · rw [ht] at hdim
        interval_cases i <;> exact absurd hdim (by decide)
    subst hec
    have hw' : (fun i : Fin c.tdim => f (i.cast hdim.symm)) = w := by
      simp only [momentFn, if_true] at hw
      rw [dif_pos (show t.tdim = (entityDomain c (c.tdim, 0)).g from hdim)] at hw
      exact Option.some.inj hw
    refine momentMap_zero hv J (φ := f a) fun i => ?_
    have hx := cell_axis hc (a.cast hdim) i
    rw [hsa, show axis (entityDomain c (c.tdim, 0)).cell (entityDomain c (c.tdim, 0)).v a i = _ from hx, ← hw']
    show f (i.cast hdim.symm) = _
    split_ifs with hi
    · rw [← hi, C_1, one_mul]
      rfl
    · rw [C_0, zero_mul]
      refine hz _ fun h => hi ?_
      rw [← h]
      rfl
  · have hw' : (fun i : Fin c.tdim => ∑ k : Fin t.tdim, C (axis (entityDomain c e).cell (entityDomain c e).v k i / J) * f k) = w := by
      simp only [momentFn, if_true] at hw
      rw [dif_neg (show ¬ t.tdim = (entityDomain c e).g from hdim), if_pos (congrArg Cell.tdim ht), hJ] at hw
      exact Option.some.inj hw
    refine momentMap_zero hv J (φ := C (1 / J) * f a) fun i => ?_
    rw [← hw', hsa]
    show ∑ k : Fin t.tdim, C (axis (entityDomain c e).cell (entityDomain c e).v k i / J) * f k = _
    rw [Finset.sum_eq_single a, ← mul_assoc, ← C_mul, mul_one_div]
    · intro b _ hb
      rw [hz b hb, mul_zero]
    · intro h; exact absurd (Finset.mem_univ _) h

/-- The hypotheses are met: the moments against the functions of the element of order 1 on the faces of a tetrahedron. -/
example : VecEntity .tetrahedron (2, 3) ∧ (entityDomain .tetrahedron (2, 3)).cell = .triangle ∧
    ∃ e fs, vectorLagrangeElement "equispaced" .triangle (refVertex .triangle) 1 = some e ∧ getBasis e = some fs ∧
      fs.length = 6 := by
  refine ⟨⟨Or.inr rfl, Or.inr ⟨rfl, 3, by norm_num, rfl⟩⟩, rfl, ?_⟩
  have hs : Simplex .triangle := by simp [Simplex]
  obtain ⟨e, fs, h0, h1, -, h3⟩ := vectorLagrange_basis hs _ (nonDegenerate_ref hs) 1
  exact ⟨e, fs, h0, h1, h3⟩

end Verif.Directions
