import Verif.Families.QTrace
/-!
# Creation of the Raviart–Thomas elements on quadrilaterals and hexahedra, given their sub-elements
-/

namespace Verif.Families
open Verif.References Verif.Moments Verif.Functionals Verif.Elements Verif.FiniteElement Verif.Polysets Verif.Orthogonal
open MvPolynomial

/-! ### The cell -/

theorem box_param {c : Cell} (hc : Box c) (z : ℕ → ℝ) {j : ℕ} (hj : j < c.tdim) : (entityDomain c (c.tdim, 0)).param z j = z j := by
  rcases hc with rfl | rfl
  · have hv : ∀ j k, (entityDomain .quadrilateral (2, 0)).v j k =
      refVertex .quadrilateral ((entVerts .quadrilateral 2 0).getD j 0) k := fun _ _ => rfl
    have e0 : entVerts .quadrilateral 2 0 = [0, 1, 2, 3] := rfl
    have hc : (entityDomain .quadrilateral (2, 0)).cell = .quadrilateral := rfl
    simp only [Cell.tdim] at hj
    show (entityDomain .quadrilateral (2, 0)).param z j = z j
    interval_cases j <;> norm_num [Domain.param, hc, hv, e0, Finset.sum_range_succ, axisVertices, refVertex, refVerts, coords,
        show Cell.quadrilateral.tdim = 2 from rfl]
  · have hv : ∀ j k, (entityDomain .hexahedron (3, 0)).v j k =
      refVertex .hexahedron ((entVerts .hexahedron 3 0).getD j 0) k := fun _ _ => rfl
    have e0 : entVerts .hexahedron 3 0 = [0, 1, 2, 3, 4, 5, 6, 7] := rfl
    have hc : (entityDomain .hexahedron (3, 0)).cell = .hexahedron := rfl
    simp only [Cell.tdim] at hj
    show (entityDomain .hexahedron (3, 0)).param z j = z j
    interval_cases j <;> norm_num [Domain.param, hc, hv, e0, Finset.sum_range_succ, axisVertices, refVertex, refVerts, coords,
        show Cell.hexahedron.tdim = 3 from rfl]

theorem box_jacobian {c : Cell} (hc : Box c) :
    jacobian (entityDomain c (c.tdim, 0)).cell c.tdim (entityDomain c (c.tdim, 0)).v = some 1 := by
  rcases hc with rfl | rfl
  · have hv : ∀ j k, (entityDomain .quadrilateral (2, 0)).v j k =
      refVertex .quadrilateral ((entVerts .quadrilateral 2 0).getD j 0) k := fun _ _ => rfl
    have e0 : entVerts .quadrilateral 2 0 = [0, 1, 2, 3] := rfl
    have hc : (entityDomain .quadrilateral (2, 0)).cell = .quadrilateral := rfl
    show jacobian (entityDomain .quadrilateral (2, 0)).cell 2 (entityDomain .quadrilateral (2, 0)).v = some 1
    rw [hc]
    simp only [jacobian, axisVertices, Cell.tdim]
    norm_num [axis, psub, hv, e0, axisVertices, refVertex, refVerts, coords, pcross]
  · have hv : ∀ j k, (entityDomain .hexahedron (3, 0)).v j k =
      refVertex .hexahedron ((entVerts .hexahedron 3 0).getD j 0) k := fun _ _ => rfl
    have e0 : entVerts .hexahedron 3 0 = [0, 1, 2, 3, 4, 5, 6, 7] := rfl
    have hc : (entityDomain .hexahedron (3, 0)).cell = .hexahedron := rfl
    show jacobian (entityDomain .hexahedron (3, 0)).cell 3 (entityDomain .hexahedron (3, 0)).v = some 1
    rw [hc]
    simp only [jacobian, axisVertices, Cell.tdim]
    norm_num [axis, psub, hv, e0, axisVertices, refVertex, refVerts, coords, pcross, pdot, Finset.sum_range_succ]

/-- The functionals in the cell. -/
theorem box_moment {c : Cell} (hc : Box c) (y : Field c.tdim) (mp : Option String) :
    ∃ d, momentDof c ⟨"IntegralMoment", .vector c.tdim y, (c.tdim, 0), mp⟩ = some d ∧ d.entity = (c.tdim, 0) ∧
      ∀ (v : Field c.tdim) (k : ℤ), (∀ j, v j ∈ P c.tdim k) → d.eval v = pairing c v y := by
  refine ⟨_, momentDof_of (momentFn_cell (entityDomain c (c.tdim, 0)) y) (box_jacobian hc), rfl, ?_⟩
  · intro v k hv
    have hcell : (entityDomain c (c.tdim, 0)).cell = c := by rcases hc with rfl | rfl <;> rfl
    have := moment_pairing (entityDomain c (c.tdim, 0)) hv y fun z j hj => box_param hc z hj
    refine this.trans ?_
    show pairing (entityDomain c (c.tdim, 0)).cell (d := c.tdim) v y = pairing c v y
    rw [hcell]

/-! ### The facets -/

/-- The functionals on a facet. -/
theorem box_facet_moment {c : Cell} (hc : Box c) {i : ℕ} (hi : i < 2 * c.tdim) (mp : Option String) :
    ∃ s : ℝ, s ≠ 0 ∧ ∀ x, ∃ d, momentDof c ⟨"NormalIntegralMoment", .scalar x, (c.tdim - 1, i), mp⟩ = some d ∧
      d.entity = (c.tdim - 1, i) ∧ ∀ v, d.eval v = momentMap (entityDomain c (c.tdim - 1, i)) 1
        (fun j => C (s * if j.val = qAxis c.tdim i then 1 else 0) * x) v := by
  obtain ⟨-, -, n, s, hs, h1, h2, h3⟩ := box_facet hc hi
  refine ⟨s, hs, fun x => ⟨_, momentDof_of (w := fun j => C (n j.val) * x) ?_ h1, rfl, ?_⟩⟩
  · rw [momentFn_normal]
    show Option.map _ (normal (entityDomain c (c.tdim - 1, i)).cell c.tdim (entityDomain c (c.tdim - 1, i)).v) = _
    rw [h2, Option.map_some]
  · intro v
    show momentMap (entityDomain c (c.tdim - 1, i)) 1 (fun j => C (n j.val) * x) v = _
    congr 2
    funext j
    rw [h3 j.val j.2]

/-- If the moments on a facet vanish, so does the normal component. -/
theorem qfacet_trace {D : Domain} {a : ℕ} {b : ℝ} (F : QFacet D a b) (ha : a < D.g) (hd : D.cell.tdim = D.g - 1) (hc : Solid D.cell)
    {k : ℤ} (hk : 1 ≤ k) {v : Field D.g} (hv : RTQ D.g k v) {xs : List (MvPolynomial ℕ ℝ)}
    (hxs : lspan xs = QP (D.g - 1) (k - 1)) {s : ℝ} (hs : s ≠ 0)
    (h : ∀ x ∈ xs, momentMap D 1 (fun j => C (s * if j.val = a then 1 else 0) * x) v = 0) (z : ℕ → ℝ) (hz : z a = b) :
    eval z (v ⟨a, ha⟩) = 0 := by
  obtain ⟨y, hy⟩ := F.covers ha hd hz
  have hcomp : comp D (fun j => if j = a then 1 else 0) v ∈ lspan xs := by
    rw [hxs, ← hd]
    exact F.aligned.normal (fun l hl => skip_lt ha (by omega)) hk hv ha (fun l _ => skip_ne _ l) fun j => rfl
  have := trace_zero' D hc one_ne_zero hs hv.mem hcomp h hy
  refine Eq.trans ?_ this
  rw [Finset.sum_eq_single ⟨a, ha⟩]
  · rw [if_pos rfl, one_mul]
  · intro j _ hj
    rw [if_neg fun hc => hj (Fin.ext hc), zero_mul]
  · intro hc; exact absurd (Finset.mem_univ _) hc

theorem box_normal_trace {c : Cell} (hc : Box c) {i : ℕ} (hi : i < 2 * c.tdim) {k : ℕ} (hk : 1 ≤ k) {v : Field c.tdim}
    (hv : RTQ c.tdim k v) {xs : List (MvPolynomial ℕ ℝ)} (hxs : lspan xs = QP (c.tdim - 1) ((k : ℤ) - 1)) {mp : Option String}
    (h : ∀ x ∈ xs, ∀ d, momentDof c ⟨"NormalIntegralMoment", .scalar x, (c.tdim - 1, i), mp⟩ = some d → d.eval v = 0)
    (z : ℕ → ℝ) (hz : z (qAxis c.tdim i) = qVal c.tdim i) : eval z (v ⟨qAxis c.tdim i, qAxis_lt hi⟩) = 0 := by
  obtain ⟨F1, F2, -⟩ := box_facet hc hi
  obtain ⟨s, hs, hm⟩ := box_facet_moment hc hi mp
  have hd : (entityDomain c (c.tdim - 1, i)).cell.tdim = c.tdim - 1 := by rw [F1, qFacetCell_tdim hc]
  have hsol : Solid (entityDomain c (c.tdim - 1, i)).cell := by rw [F1]; exact qFacetCell_solid c
  refine qfacet_trace F2 (qAxis_lt hi) hd hsol (k := (k : ℤ)) (by omega) (v := v) hv hxs hs (fun x hx => ?_) z hz
  obtain ⟨d, hd, -, hd'⟩ := hm x
  exact (hd' v).symm.trans (h x hx d hd)

/-- The normal component on facet `i` vanishes whenever the functionals of facet `i` vanish. -/
def QNormalTrace (c : Cell) (S : Field c.tdim → Prop) (dofs : List (Dof ℝ (Field c.tdim))) : Prop :=
  ∀ i < 2 * c.tdim, ∀ v, S v → (∀ d ∈ dofs, d.entity = (c.tdim - 1, i) → d.eval v = 0) →
    ∀ z, z (qAxis c.tdim i) = qVal c.tdim i → ∀ j : Fin c.tdim, j.val = qAxis c.tdim i → eval z (v j) = 0

theorem box_normalZero {c : Cell} {v : Field c.tdim} (h : ∀ i < 2 * c.tdim, ∀ z, z (qAxis c.tdim i) = qVal c.tdim i →
    ∀ j : Fin c.tdim, j.val = qAxis c.tdim i → eval z (v j) = 0) (i : Fin c.tdim) (z : ℕ → ℝ) (hz : z i.val = 0 ∨ z i.val = 1) :
    eval z (v i) = 0 := by
  have hi := i.2
  rcases hz with hz | hz
  · have e : qAxis c.tdim (c.tdim - 1 - i.val) = i.val := by rw [qAxis, if_pos (by omega)]; omega
    refine h (c.tdim - 1 - i.val) (by omega) z ?_ i e.symm
    rw [e, hz, qVal, if_pos (by omega)]
  · have e : qAxis c.tdim (c.tdim + i.val) = i.val := by rw [qAxis, if_neg (by omega)]; omega
    refine h (c.tdim + i.val) (by omega) z ?_ i e.symm
    rw [e, hz, qVal, if_neg (by omega)]

/-! ### Creation -/

/-- The moments on the facets and in the cell. -/
def qdivMoments (c : Cell) (dA dB : Data) (xs ys : List Fun) : List (MomentDof Fun) :=
  ((List.range (2 * c.tdim)).flatMap fun i => xs.map fun x => ⟨dA.moment, x, (c.tdim - 1, i), dA.mapping⟩) ++
    ys.map fun y => ⟨dB.moment, y, (c.tdim, 0), dB.mapping⟩

theorem qdiv_moments {classes : String → ElementClass Fun} {c : Cell} (hc : Box c) {A B : List Item} {dA dB : Data}
    (hA : parse A = some dA) (hB : parse B = some dB) {xs ys : List Fun} (hx : subFuns classes dA (qFacetCell c) = some xs)
    (hy : subFuns classes dB c = some ys) :
    makeIntegralMomentDofs classes c { facets := some (.single A), cells := some (.single B) } =
      some (qdivMoments c dA dB xs ys) := by
  have e0 : ∀ dim : ℤ, slotDofs classes c dim none = some [] := fun _ => rfl
  have h1 : slotDofs classes c ((c.tdim : ℤ) - 1) (some (.single A)) = some ((List.range (2 * c.tdim)).flatMap fun i =>
      xs.map fun x => ⟨dA.moment, x, (c.tdim - 1, i), dA.mapping⟩) := by
    rcases hc with rfl | rfl
    · exact slot_uniform (dim := 1) (by omega) (by omega) (by decide) rfl hA hx
    · exact slot_uniform (dim := 2) (by omega) (by omega) (by decide) rfl hA hx
  have h2 : slotDofs classes c (c.tdim : ℤ) (some (.single B)) = some (ys.map fun y => ⟨dB.moment, y, (c.tdim, 0), dB.mapping⟩) := by
    rcases hc with rfl | rfl
    · refine (slot_uniform (c := .quadrilateral) (t := .quadrilateral) (dim := 2) (by omega) (by omega) (by decide) rfl hB hy).trans ?_
      simp [show entityCount .quadrilateral 2 = 1 from rfl, Cell.tdim]
    · refine (slot_uniform (c := .hexahedron) (t := .hexahedron) (dim := 3) (by omega) (by omega) (by decide) rfl hB hy).trans ?_
      simp [show entityCount .hexahedron 3 = 1 from rfl, Cell.tdim]
  unfold makeIntegralMomentDofs slots
  simp only [List.mapM_cons, List.mapM_nil, e0, h1, h2, Option.bind_eq_bind, Option.bind_some, Option.pure_def, Option.map_some,
    List.flatten_cons, List.flatten_nil, List.nil_append, List.append_nil]
  rfl

/-- What is known about a sub-element of order `k`: its functions span a space. -/
def SubSpan (n : ℕ) (variant name mapping : String) (c : Cell) (k : ℤ) (S : Field c.tdim → Prop) (count : ℕ) : Prop :=
  ∃ ys, subFuns (qClasses n) ⟨"IntegralMoment", name, k, some mapping, [("variant", variant)]⟩ c =
    some (ys.map (.vector c.tdim)) ∧ (∀ q, S q → q ∈ lspan ys) ∧ ys.length = count

theorem rtq_created_of {n : ℕ} {variant : String} {c : Cell} (hc : Box c) {k : ℕ} (hk : 1 ≤ k) (hr : Points variant (k - 1))
    (hsub : SubSpan n variant "Nedelec" "contravariant" c ((k : ℤ) - 1) (NCQ c.tdim ((k : ℤ) - 1)) (ncqCount c.tdim (k - 1))) :
    Created (rtqWith (qClasses n) variant c k) (RTQ c.tdim k) (rtqCount c.tdim k) (QNormalTrace c (RTQ c.tdim k)) := by
  obtain ⟨xs, hx, hxs, hxl⟩ := sub_q (qFacetCell_tensor c) n "NormalIntegralMoment" hr none
  rw [Nat.cast_sub hk, Nat.cast_one] at hx hxs
  rw [qFacetCell_tdim hc] at hxs
  obtain ⟨ys, hy, hys, hyl⟩ := hsub
  have hd1 : 1 ≤ c.tdim := by rcases hc.dims with h | h <;> omega
  have hms := qdiv_moments (A := [.cls "NormalIntegralMoment", .cls "Q", .int ((k : ℤ) - 1), .dict [("variant", variant)]])
    (B := [.cls "IntegralMoment", .cls "Nedelec", .int ((k : ℤ) - 1), .str "contravariant", .dict [("variant", variant)]])
    hc rfl rfl hx hy
  obtain ⟨dofs, hdofs⟩ := mapM_exists (f := momentDof c) (l := qdivMoments c
    ⟨"NormalIntegralMoment", "Q", (k : ℤ) - 1, none, [("variant", variant)]⟩
    ⟨"IntegralMoment", "Nedelec", (k : ℤ) - 1, some "contravariant", [("variant", variant)]⟩
    (xs.map .scalar) (ys.map (.vector c.tdim))) (by
    intro mo hmo
    simp only [qdivMoments, List.mem_append, List.mem_flatMap, List.mem_range, List.mem_map] at hmo
    rcases hmo with ⟨i, hi, _, ⟨x, -, rfl⟩, rfl⟩ | ⟨_, ⟨y, -, rfl⟩, rfl⟩
    · obtain ⟨s, -, h⟩ := box_facet_moment hc hi none
      obtain ⟨d, hd, -⟩ := h x
      exact ⟨d, hd⟩
    · obtain ⟨d, hd, -⟩ := box_moment hc y (some "contravariant")
      exact ⟨d, hd⟩)
  have htr : QNormalTrace c (RTQ c.tdim k) dofs := by
    intro i hi v hv h z hz j hj
    obtain rfl : j = ⟨qAxis c.tdim i, qAxis_lt hi⟩ := Fin.ext hj
    refine box_normal_trace hc hi hk hv hxs (mp := none) (fun x hx d hd => ?_) z hz
    obtain ⟨d', hd', h1⟩ := momentDof_mem hdofs (m := ⟨"NormalIntegralMoment", .scalar x, (c.tdim - 1, i), none⟩) (by
      simp only [qdivMoments, List.mem_append, List.mem_flatMap, List.mem_range, List.mem_map]
      exact Or.inl ⟨i, by omega, _, ⟨x, hx, rfl⟩, rfl⟩)
    obtain rfl := Option.some.inj (hd.symm.trans h1)
    obtain ⟨s, -, h'⟩ := box_facet_moment hc hi none
    obtain ⟨d'', hd1, hd2, -⟩ := h' x
    obtain rfl := Option.some.inj (hd.symm.trans hd1)
    exact h d hd' hd2
  have hu : ∀ v, RTQ c.tdim k v → (∀ d ∈ dofs, d.eval v = 0) → v = 0 := by
    intro v hv h
    refine rtq_zero hc hv (box_normalZero fun i hi => htr i hi v hv fun d hd _ => h d hd) fun q hq => ?_
    refine (pairing_lspan (c := c) (u := v) (fun y hy => ?_) (hys q hq))
    obtain ⟨d', hd', h1⟩ := momentDof_mem hdofs (m := ⟨"IntegralMoment", .vector c.tdim y, (c.tdim, 0), some "contravariant"⟩) (by
      simp only [qdivMoments, List.mem_append, List.mem_flatMap, List.mem_range, List.mem_map]
      exact Or.inr ⟨_, ⟨y, hy, rfl⟩, rfl⟩)
    obtain ⟨d, hd, -, hd2⟩ := box_moment hc y (some "contravariant")
    obtain rfl := Option.some.inj (hd.symm.trans h1)
    rw [← hd2 v _ hv.mem]
    exact h d hd'
  have hlen := length_rtq hd1 hk
  have hml : (qdivMoments c ⟨"NormalIntegralMoment", "Q", (k : ℤ) - 1, none, [("variant", variant)]⟩
    ⟨"IntegralMoment", "Nedelec", (k : ℤ) - 1, some "contravariant", [("variant", variant)]⟩
    (xs.map .scalar) (ys.map (.vector c.tdim))).length = (quolySetVector c.tdim c.tdim ((k : ℤ) - 1) ++ hdivQuolySet c.tdim k).length := by
    rw [hlen]
    simp only [qdivMoments, List.length_append, List.length_flatMap, List.length_map, hxl, hyl, qFacetCell_tdim hc]
    simp only [List.map_const', List.sum_replicate, List.length_range, smul_eq_mul, rtqCount, ncqCount]
    obtain ⟨n, rfl⟩ := Nat.exists_eq_add_of_le' hk
    obtain ⟨e, he⟩ := Nat.exists_eq_add_of_le' hd1
    rw [he]
    simp only [Nat.add_one_sub_one]
    ring
  have hind : Independent ℝ ((quolySetVector c.tdim c.tdim ((k : ℤ) - 1) ++ hdivQuolySet c.tdim k).map (denoteVec ℝ c.tdim)) := by
    obtain ⟨m, rfl⟩ := Nat.exists_eq_add_of_le' hk
    rw [show ((m + 1 : ℕ) : ℤ) - 1 = (m : ℕ) by push_cast; ring]
    exact (hdivQuoly_list_spec ℝ c.tdim m).1
  obtain ⟨fs, h1, h2, h3, h4⟩ := momentElement_basis rfl hms hdofs hml hind fun v hv => hu v ((rtq_lspan c.tdim hk v).1 hv)
  exact ⟨_, dofs, fs, h1, h2, by rw [← (mapM_forall hdofs).length_eq, hml, hlen], by rw [h4, hlen],
    fun v => by rw [h3, rtq_lspan c.tdim hk], hu, htr⟩

end Verif.Families
