import Verif.Families.QDiv
/-!
# Creation of the Nédélec elements on quadrilaterals and hexahedra, given their sub-elements
-/

namespace Verif.Families
open Verif.References Verif.Moments Verif.Functionals Verif.Elements Verif.FiniteElement Verif.Polysets Verif.Orthogonal
open MvPolynomial

/-! ### Edges -/

/-- The functionals on an edge. -/
theorem box_edge_moment {c : Cell} (hc : Box c) {i : ℕ} (hi : i < entityCount c 1) (mp : Option String) :
    ∃ J s : ℝ, J ≠ 0 ∧ s ≠ 0 ∧ ∀ x, ∃ d, momentDof c ⟨"TangentIntegralMoment", .scalar x, (1, i), mp⟩ = some d ∧
      d.entity = (1, i) ∧ ∀ v, d.eval v = momentMap ⟨.interval, c.tdim, (entityDomain c (1, i)).v⟩ J
        (fun j => C (s * axis .interval (entityDomain c (1, i)).v 0 j.val) * x) v := by
  obtain ⟨a, ha, hax, -⟩ := box_edge hc hi
  obtain ⟨J, t, s, hJ, hs, h1, h2, h3⟩ := edge_facts c.tdim (entityDomain c (1, i)).v ⟨a, ha, fun hc => by
    have := hax a
    rw [if_pos rfl] at this
    have h0 : (entityDomain c (1, i)).v 1 a - (entityDomain c (1, i)).v 0 a = 1 := this
    rw [hc, sub_self] at h0
    exact zero_ne_one h0⟩
  have hcell' : (entityDomain c (1, i)).cell = .interval := by rcases hc with rfl | rfl <;> rfl
  rw [← hcell'] at h1 h2
  refine ⟨J, s, hJ, hs, fun x => ⟨_, momentDof_of (w := fun j => C (t j.val) * x) ?_ h1, rfl, ?_⟩⟩
  · rw [momentFn_tangent]
    show Option.map _ (tangent (entityDomain c (1, i)).cell c.tdim (entityDomain c (1, i)).v) = _
    rw [h2, Option.map_some]
  · intro v
    show momentMap (entityDomain c (1, i)) J (fun j => C (t j.val) * x) v = _
    have : (fun j : Fin (entityDomain c (1, i)).g => C (t j.val) * x) =
        fun j => C (s * axis .interval (entityDomain c (1, i)).v 0 j.val) * x := funext fun j => by rw [h3 j.val]
    rw [this]
    rcases hc with rfl | rfl <;> rfl

/-- The component of a Nédélec function along an edge. -/
theorem box_edge_comp {g : ℕ} {V : ℕ → ℕ → ℝ} {a : ℕ} (ha : a < g) (hax : ∀ j, axis .interval V 0 j = if j = a then 1 else 0)
    (h0 : V 0 a = 0) {k : ℤ} (hk : 1 ≤ k) {v : Field g} (hv : NCQ g k v) :
    comp ⟨.interval, g, V⟩ (axis .interval V 0) v ∈ QP 1 (k - 1) := by
  have hA : Aligned ⟨.interval, g, V⟩ (fun _ => a) := by
    constructor
    · intro k hk
      obtain rfl : k = 0 := Nat.lt_one_iff.1 hk
      exact hax
    · intro _ _; exact h0
    · intro k hk l hl _
      rw [Nat.lt_one_iff.1 hk, Nat.lt_one_iff.1 hl]
  have := hA.tang (fun _ _ => ha) hk hv (0 : Fin 1)
  refine B_mono (fun j => ?_) this
  simp only [degs]
  show (if j < 1 then _ else _) ≤ if j < 1 then _ else _
  split_ifs with h1 h2
  · exact le_rfl
  · exact absurd (Nat.lt_one_iff.1 h1) h2
  · exact le_rfl

/-- The traces on the edges. -/
theorem box_edge_trace {c : Cell} (hc : Box c) {k : ℤ} (hk : 1 ≤ k) {xs : List (MvPolynomial ℕ ℝ)} (hxs : lspan xs = QP 1 (k - 1))
    {mp : Option String} {dofs : List (Dof ℝ (Field c.tdim))}
    (hd : ∀ i < entityCount c 1, ∀ x ∈ xs, ∃ d ∈ dofs, momentDof c ⟨"TangentIntegralMoment", .scalar x, (1, i), mp⟩ = some d) :
    EdgeTrace c (NCQ c.tdim k) dofs := by
  intro i hi p q hpq v hv h
  obtain ⟨a, ha, hax, ha0⟩ := box_edge hc hi
  obtain ⟨J, s, hJ, hs, hm⟩ := box_edge_moment hc hi mp
  have : EdgeZero ((entityDomain c (1, i)).v 0) ((entityDomain c (1, i)).v 1) v := by
    intro t
    have := trace_zero' ⟨.interval, c.tdim, (entityDomain c (1, i)).v⟩ (by simp [Solid]) hJ hs hv.mem
      (hxs ▸ box_edge_comp ha hax ha0 hk hv) (fun x hx => by
        obtain ⟨d, hd1, hd2⟩ := hd i hi x hx
        obtain ⟨d', h1, h2, h3⟩ := hm x
        obtain rfl := Option.some.inj (hd2.symm.trans h1)
        rw [← h3 v]
        exact h d hd1 h2) (y := fun _ => t) (z := _) fun j _ => rfl
    rwa [interval_param] at this
  have e0 : (entityDomain c (1, i)).v 0 = refVertex c p := by
    show refVertex c ((entVerts c 1 i).getD 0 0) = _
    rw [hpq]; rfl
  have e1 : (entityDomain c (1, i)).v 1 = refVertex c q := by
    show refVertex c ((entVerts c 1 i).getD 1 0) = _
    rw [hpq]; rfl
  rwa [e0, e1] at this

/-! ### Quadrilaterals -/

theorem quad_param (g : ℕ) (V : ℕ → ℕ → ℝ) (y : ℕ → ℝ) :
    (⟨.quadrilateral, g, V⟩ : Domain).param y = fun i => V 0 i + (V 1 i - V 0 i) * y 0 + (V 2 i - V 0 i) * y 1 := by
  funext i
  simp [Domain.param, Cell.tdim, axisVertices, Finset.sum_range_succ]
  ring

/-- Tangential components that vanish on the boundary of the square. -/
def SquareZero (w : Field 2) : Prop :=
  (∀ z : ℕ → ℝ, z 1 = 0 ∨ z 1 = 1 → eval z (w 0) = 0) ∧ ∀ z : ℕ → ℝ, z 0 = 0 ∨ z 0 = 1 → eval z (w 1) = 0

theorem SquareZero.tangent {w : Field 2} (h : SquareZero w) (i : Fin 2) : ∀ j < 2, j ≠ i.val → ∀ z : ℕ → ℝ, z j = 0 ∨ z j = 1 →
    eval z (w i) = 0 := by
  intro j hj hji
  fin_cases i
  · obtain rfl : j = 1 := by simp at hji; omega
    exact h.1
  · obtain rfl : j = 0 := by simp at hji; omega
    exact h.2

/-- The tangential components on a quadrilateral with vanishing tangential components on the edges. -/
theorem squareZero_of (g : ℕ) (V : ℕ → ℕ → ℝ) (h3 : ∀ j, V 3 j = V 1 j + V 2 j - V 0 j) {v : Field g}
    (h01 : EdgeZero (V 0) (V 1) v) (h02 : EdgeZero (V 0) (V 2) v) (h13 : EdgeZero (V 1) (V 3) v) (h23 : EdgeZero (V 2) (V 3) v) :
    SquareZero (tang ⟨.quadrilateral, g, V⟩ v) := by
  have e : ∀ (k : Fin 2) z, eval z (tang ⟨.quadrilateral, g, V⟩ v k) = ∑ j : Fin g, (V (k.val + 1) j.val - V 0 j.val) *
      eval (fun i => V 0 i + (V 1 i - V 0 i) * z 0 + (V 2 i - V 0 i) * z 1) (v j) := by
    intro k z
    refine (eval_comp ⟨.quadrilateral, g, V⟩ _ v z).trans ?_
    rw [quad_param]
    fin_cases k <;> rfl
  constructor
  · rintro z (hz | hz)
    · rw [e 0 z]
      refine Eq.trans ?_ (h01 (z 0))
      refine Finset.sum_congr rfl fun j _ => ?_
      congr 3
      funext i
      rw [hz]
      ring
    · rw [e 0 z]
      refine Eq.trans ?_ (h23 (z 0))
      refine Finset.sum_congr rfl fun j _ => ?_
      congr 1
      · rw [h3]
        show V 1 j.val - V 0 j.val = _
        ring
      · congr 2
        funext i
        rw [hz, h3]
        ring
  · rintro z (hz | hz)
    · rw [e 1 z]
      refine Eq.trans ?_ (h02 (z 1))
      refine Finset.sum_congr rfl fun j _ => ?_
      congr 3
      funext i
      rw [hz]
      ring
    · rw [e 1 z]
      refine Eq.trans ?_ (h13 (z 1))
      refine Finset.sum_congr rfl fun j _ => ?_
      congr 1
      · rw [h3]
        show V 2 j.val - V 0 j.val = _
        ring
      · congr 2
        funext i
        rw [hz, h3]
        ring

/-- The same for the reference quadrilateral. -/
theorem squareZero_ref {k : ℤ} {v : Field 2} (hv : ∀ j, v j ∈ P 2 k)
    (h01 : EdgeZero (refVertex .quadrilateral 0) (refVertex .quadrilateral 1) v)
    (h02 : EdgeZero (refVertex .quadrilateral 0) (refVertex .quadrilateral 2) v)
    (h13 : EdgeZero (refVertex .quadrilateral 1) (refVertex .quadrilateral 3) v)
    (h23 : EdgeZero (refVertex .quadrilateral 2) (refVertex .quadrilateral 3) v) : SquareZero v := by
  constructor
  · rintro z (hz | hz)
    · refine Eq.trans ?_ (h01 (z 0))
      rw [Fin.sum_univ_two, eval_congr_P (hv 0) (y := z) (z := fun i => refVertex .quadrilateral 0 i + z 0 *
        (refVertex .quadrilateral 1 i - refVertex .quadrilateral 0 i))]
      · norm_num [refVertex, refVerts, coords]
      · intro i hi
        interval_cases i <;> norm_num [refVertex, refVerts, coords, hz]
    · refine Eq.trans ?_ (h23 (z 0))
      rw [Fin.sum_univ_two, eval_congr_P (hv 0) (y := z) (z := fun i => refVertex .quadrilateral 2 i + z 0 *
        (refVertex .quadrilateral 3 i - refVertex .quadrilateral 2 i))]
      · norm_num [refVertex, refVerts, coords]
      · intro i hi
        interval_cases i <;> norm_num [refVertex, refVerts, coords, hz]
  · rintro z (hz | hz)
    · refine Eq.trans ?_ (h02 (z 1))
      rw [Fin.sum_univ_two, eval_congr_P (hv 1) (y := z) (z := fun i => refVertex .quadrilateral 0 i + z 1 *
        (refVertex .quadrilateral 2 i - refVertex .quadrilateral 0 i))]
      · norm_num [refVertex, refVerts, coords]
      · intro i hi
        interval_cases i <;> norm_num [refVertex, refVerts, coords, hz]
    · refine Eq.trans ?_ (h13 (z 1))
      rw [Fin.sum_univ_two, eval_congr_P (hv 1) (y := z) (z := fun i => refVertex .quadrilateral 1 i + z 1 *
        (refVertex .quadrilateral 3 i - refVertex .quadrilateral 1 i))]
      · norm_num [refVertex, refVerts, coords]
      · intro i hi
        interval_cases i <;> norm_num [refVertex, refVerts, coords, hz]

/-- The moments on the edges and in the cell of a quadrilateral. -/
def qcurlMoments2 (dA dB : Data) (xs ys : List Fun) : List (MomentDof Fun) :=
  ((List.range 4).flatMap fun i => xs.map fun x => ⟨dA.moment, x, (1, i), dA.mapping⟩) ++
    ys.map fun y => ⟨dB.moment, y, (2, 0), dB.mapping⟩

theorem qcurl_moments2 {classes : String → ElementClass Fun} {A B C' : List Item} {dA dB : Data}
    (hA : parse A = some dA) (hB : parse B = some dB) {xs ys : List Fun} (hx : subFuns classes dA .interval = some xs)
    (hy : subFuns classes dB .quadrilateral = some ys) :
    makeIntegralMomentDofs classes .quadrilateral
      { edges := some (.single A), faces := some (.single B), volumes := some (.single C') } =
      some (qcurlMoments2 dA dB xs ys) := by
  have e0 : ∀ dim : ℤ, slotDofs classes .quadrilateral dim none = some [] := fun _ => rfl
  have h1 : slotDofs classes .quadrilateral 1 (some (.single A)) = some ((List.range 4).flatMap fun i =>
      xs.map fun x => ⟨dA.moment, x, (1, i), dA.mapping⟩) :=
    slot_uniform (dim := 1) (by omega) (by omega) (by decide) rfl hA hx
  have h2 : slotDofs classes .quadrilateral 2 (some (.single B)) = some (ys.map fun y => ⟨dB.moment, y, (2, 0), dB.mapping⟩) := by
    refine (slot_uniform (c := .quadrilateral) (t := .quadrilateral) (dim := 2) (by omega) (by omega) (by decide) rfl hB hy).trans ?_
    simp [show entityCount .quadrilateral 2 = 1 from rfl]
  have h3 : slotDofs classes .quadrilateral 3 (some (.single C')) = some [] := by
    refine (slot_eq (classes := classes) .quadrilateral 3 (by omega) _).trans ?_
    rw [if_pos (by decide)]
  unfold makeIntegralMomentDofs slots
  simp only [List.mapM_cons, List.mapM_nil, e0, h1, h2, h3, Option.bind_eq_bind, Option.bind_some, Option.pure_def, Option.map_some,
    List.flatten_cons, List.flatten_nil, List.nil_append, List.append_nil]
  rfl

theorem ncq_independent (d : ℕ) {k : ℕ} (hk : 1 ≤ k) :
    Independent ℝ ((quolySetVector d d ((k : ℤ) - 1) ++ hcurlQuolySet d k).map (denoteVec ℝ d)) := by
  obtain ⟨m, rfl⟩ := Nat.exists_eq_add_of_le' hk
  rw [show ((m + 1 : ℕ) : ℤ) - 1 = (m : ℕ) by push_cast; ring]
  exact (hcurlQuoly_list_spec ℝ d m).1

theorem ncq_created2_of {n : ℕ} {variant : String} {k : ℕ} (hk : 1 ≤ k) (hr : Points variant (k - 1))
    (hsub : SubSpan n variant "RaviartThomas" "covariant" .quadrilateral ((k : ℤ) - 1) (RTQ 2 ((k : ℤ) - 1)) (rtqCount 2 (k - 1))) :
    Created (ncqWith (qClasses n) variant .quadrilateral k) (NCQ 2 k) (ncqCount 2 k) (EdgeTrace .quadrilateral (NCQ 2 k)) := by
  have hc : Box .quadrilateral := Or.inl rfl
  obtain ⟨xs, hx, hxs, hxl⟩ := sub_q (t := .interval) (Or.inl rfl) n "TangentIntegralMoment" hr none
  rw [Nat.cast_sub hk, Nat.cast_one] at hx hxs
  obtain ⟨ys, hy, hys, hyl⟩ : ∃ ys : List (Field 2), subFuns (qClasses n) ⟨"IntegralMoment", "RaviartThomas", (k : ℤ) - 1, some "covariant",
    [("variant", variant)]⟩ .quadrilateral = some (ys.map (.vector 2)) ∧ (∀ q, RTQ 2 ((k : ℤ) - 1) q → q ∈ lspan ys) ∧
    ys.length = rtqCount 2 (k - 1) := hsub
  have hms := qcurl_moments2 (A := [.cls "TangentIntegralMoment", .cls "Q", .int ((k : ℤ) - 1), .dict [("variant", variant)]])
    (B := [.cls "IntegralMoment", .cls "RaviartThomas", .int ((k : ℤ) - 1), .str "covariant", .dict [("variant", variant)]])
    (C' := [.cls "IntegralMoment", .cls "RaviartThomas", .int ((k : ℤ) - 1), .str "covariant", .dict [("variant", variant)]])
    rfl rfl hx hy
  obtain ⟨dofs, hdofs⟩ := mapM_exists (f := momentDof .quadrilateral) (l := qcurlMoments2
    ⟨"TangentIntegralMoment", "Q", (k : ℤ) - 1, none, [("variant", variant)]⟩
    ⟨"IntegralMoment", "RaviartThomas", (k : ℤ) - 1, some "covariant", [("variant", variant)]⟩
    (xs.map .scalar) (ys.map (.vector 2))) (by
    intro mo hmo
    simp only [qcurlMoments2, List.mem_append, List.mem_flatMap, List.mem_range, List.mem_map] at hmo
    rcases hmo with ⟨i, hi, _, ⟨x, -, rfl⟩, rfl⟩ | ⟨_, ⟨y, -, rfl⟩, rfl⟩
    · obtain ⟨J, s, -, -, h⟩ := box_edge_moment hc hi none
      obtain ⟨d, hd, -⟩ := h x
      exact ⟨d, hd⟩
    · obtain ⟨d, hd, -⟩ := box_moment hc y (some "covariant")
      exact ⟨d, hd⟩)
  have htr : EdgeTrace .quadrilateral (NCQ 2 k) dofs := by
    refine box_edge_trace hc (by omega) hxs (mp := none) fun i hi x hx => ?_
    exact momentDof_mem hdofs (m := ⟨"TangentIntegralMoment", .scalar x, (1, i), none⟩) (by
      simp only [qcurlMoments2, List.mem_append, List.mem_flatMap, List.mem_range, List.mem_map]
      exact Or.inl ⟨i, hi, _, ⟨x, hx, rfl⟩, rfl⟩)
  have hu : ∀ v, NCQ 2 k v → (∀ d ∈ dofs, d.eval v = 0) → v = 0 := by
    intro v hv h
    have hE : ∀ i < 4, ∀ p q, entVerts .quadrilateral 1 i = [p, q] →
        EdgeZero (refVertex .quadrilateral p) (refVertex .quadrilateral q) v :=
      fun i hi p q hpq => htr i hi p q hpq v hv fun d hd _ => h d hd
    refine ncq_zero hc hv (squareZero_ref hv.mem (hE 0 (by omega) 0 1 rfl) (hE 1 (by omega) 0 2 rfl) (hE 2 (by omega) 1 3 rfl)
      (hE 3 (by omega) 2 3 rfl)).tangent fun q hq => ?_
    refine (pairing_lspan (c := .quadrilateral) (u := v) (fun y hy => ?_) (hys q hq))
    obtain ⟨d', hd', h1⟩ := momentDof_mem hdofs (m := ⟨"IntegralMoment", .vector 2 y, (2, 0), some "covariant"⟩) (by
      simp only [qcurlMoments2, List.mem_append, List.mem_flatMap, List.mem_range, List.mem_map]
      exact Or.inr ⟨_, ⟨y, hy, rfl⟩, rfl⟩)
    obtain ⟨d, hd, -, hd2⟩ := box_moment hc y (some "covariant")
    obtain rfl := Option.some.inj (hd.symm.trans h1)
    refine Eq.trans (hd2 v _ hv.mem).symm (h d hd')
  have hlen := length_ncq (d := 2) (by omega) hk
  have hml : (qcurlMoments2 ⟨"TangentIntegralMoment", "Q", (k : ℤ) - 1, none, [("variant", variant)]⟩
    ⟨"IntegralMoment", "RaviartThomas", (k : ℤ) - 1, some "covariant", [("variant", variant)]⟩
    (xs.map .scalar) (ys.map (.vector 2))).length = (quolySetVector 2 2 ((k : ℤ) - 1) ++ hcurlQuolySet 2 k).length := by
    rw [hlen]
    simp only [qcurlMoments2, List.length_append, List.length_flatMap, List.length_map, hxl, hyl]
    simp only [List.map_const', List.sum_replicate, List.length_range, smul_eq_mul, rtqCount, ncqCount, Cell.tdim]
    obtain ⟨n, rfl⟩ := Nat.exists_eq_add_of_le' hk
    simp only [Nat.add_one_sub_one]
    ring
  obtain ⟨fs, h1, h2, h3, h4⟩ := momentElement_basis (c := .quadrilateral) rfl hms hdofs hml (ncq_independent 2 hk)
    fun v hv => hu v ((ncq_lspan 2 hk v).1 hv)
  exact ⟨_, dofs, fs, h1, h2, by rw [← (mapM_forall hdofs).length_eq, hml, hlen], h4.trans hlen,
    fun v => (by rw [h3]; exact ncq_lspan 2 hk v), hu, htr⟩

/-! ### Hexahedra -/

/-- The moments on the edges, on the faces and in the cell of a hexahedron. -/
def qcurlMoments3 (dA dB dC : Data) (xs ys zs : List Fun) : List (MomentDof Fun) :=
  ((List.range 12).flatMap fun i => xs.map fun x => ⟨dA.moment, x, (1, i), dA.mapping⟩) ++
    (((List.range 6).flatMap fun i => ys.map fun y => ⟨dB.moment, y, (2, i), dB.mapping⟩) ++
      zs.map fun z => ⟨dC.moment, z, (3, 0), dC.mapping⟩)

theorem qcurl_moments3 {classes : String → ElementClass Fun} {A B C' : List Item} {dA dB dC : Data}
    (hA : parse A = some dA) (hB : parse B = some dB) (hC : parse C' = some dC) {xs ys zs : List Fun}
    (hx : subFuns classes dA .interval = some xs) (hy : subFuns classes dB .quadrilateral = some ys)
    (hz : subFuns classes dC .hexahedron = some zs) :
    makeIntegralMomentDofs classes .hexahedron
      { edges := some (.single A), faces := some (.single B), volumes := some (.single C') } =
      some (qcurlMoments3 dA dB dC xs ys zs) := by
  have e0 : ∀ dim : ℤ, slotDofs classes .hexahedron dim none = some [] := fun _ => rfl
  have h1 : slotDofs classes .hexahedron 1 (some (.single A)) = some ((List.range 12).flatMap fun i =>
      xs.map fun x => ⟨dA.moment, x, (1, i), dA.mapping⟩) :=
    slot_uniform (dim := 1) (by omega) (by omega) (by decide) rfl hA hx
  have h2 : slotDofs classes .hexahedron 2 (some (.single B)) = some ((List.range 6).flatMap fun i =>
      ys.map fun y => ⟨dB.moment, y, (2, i), dB.mapping⟩) :=
    slot_uniform (dim := 2) (by omega) (by omega) (by decide) rfl hB hy
  have h3 : slotDofs classes .hexahedron 3 (some (.single C')) = some (zs.map fun z => ⟨dC.moment, z, (3, 0), dC.mapping⟩) := by
    refine (slot_uniform (c := .hexahedron) (t := .hexahedron) (dim := 3) (by omega) (by omega) (by decide) rfl hC hz).trans ?_
    simp [show entityCount .hexahedron 3 = 1 from rfl]
  unfold makeIntegralMomentDofs slots
  simp only [List.mapM_cons, List.mapM_nil, e0, h1, h2, h3, Option.bind_eq_bind, Option.bind_some, Option.pure_def, Option.map_some,
    List.flatten_cons, List.flatten_nil, List.nil_append, List.append_nil]
  rfl

/-- The functionals on a face. -/
theorem hex_face_moment {i : ℕ} (hi : i < 6) (y : Field 2) (mp : Option String) :
    ∃ d, momentDof .hexahedron ⟨"IntegralMoment", .vector 2 y, (2, i), mp⟩ = some d ∧ d.entity = (2, i) ∧
      ∀ v : Field 3, d.eval v = pairing .quadrilateral (tang ⟨.quadrilateral, 3, (entityDomain .hexahedron (2, i)).v⟩ v) y := by
  obtain ⟨-, -, -, -, -, h1, -⟩ := box_facet (c := .hexahedron) (Or.inr rfl) hi
  have h1' : jacobian (entityDomain .hexahedron (2, i)).cell 3 (entityDomain .hexahedron (2, i)).v = some 1 := h1
  refine ⟨_, momentDof_of (J := 1)
    (w := fun i' => ∑ k : Fin 2, C (axis .quadrilateral (entityDomain .hexahedron (2, i)).v k i'.val / 1) * y k)
    ((momentFn_push (entityDomain .hexahedron (2, i)) y (show (2 : ℕ) ≠ 3 by decide)).trans ?_) h1', rfl, fun v => ?_⟩
  · show Option.map _ (jacobian (entityDomain .hexahedron (2, i)).cell 3 (entityDomain .hexahedron (2, i)).v) = _
    rw [h1', Option.map_some]
    rfl
  · exact momentMap_push (entityDomain .hexahedron (2, i)) one_ne_zero y v

/-- The components of `v` in the plane of facet `i` vanish on the facet. -/
def QFaceZero (i : ℕ) (v : Field 3) : Prop :=
  ∀ z, z (qAxis 3 i) = qVal 3 i → ∀ j : Fin 3, j.val ≠ qAxis 3 i → eval z (v j) = 0

theorem qfaceZero_of {i : ℕ} (hi : i < 6) {k : ℤ} {v : Field 3} (hv : ∀ j, v j ∈ P 3 k)
    (h : tang ⟨.quadrilateral, 3, (entityDomain .hexahedron (2, i)).v⟩ v = 0) : QFaceZero i v := by
  intro z hz j hj
  have F : QFacet ⟨.quadrilateral, 3, (entityDomain .hexahedron (2, i)).v⟩ (qAxis 3 i) (qVal 3 i) := hex_facet hi
  have ha : qAxis 3 i < 3 := qAxis_lt hi
  obtain ⟨m, hm, hjm⟩ := skip_cover ha j.2 hj
  obtain ⟨y, hy⟩ := F.covers ha rfl hz
  have h1 := congrFun h ⟨m, hm⟩
  have h2 : tang ⟨.quadrilateral, 3, (entityDomain .hexahedron (2, i)).v⟩ v ⟨m, hm⟩ = pull _ (v ⟨skip (qAxis 3 i) m, skip_lt ha hm⟩) :=
    comp_single (D := ⟨.quadrilateral, 3, (entityDomain .hexahedron (2, i)).v⟩) (skip_lt ha hm) (F.axes m hm) v
  rw [h2] at h1
  have h3 := congrArg (eval y) h1
  rw [eval_pull] at h3
  obtain rfl : j = ⟨skip (qAxis 3 i) m, skip_lt ha hm⟩ := Fin.ext hjm
  rw [← eval_congr_P (hv _) hy]
  exact h3

/-- The tangential components on face `i` vanish whenever the functionals of the face and of its edges vanish. -/
def QFaceTrace (S : Field 3 → Prop) (dofs : List (Dof ℝ (Field 3))) : Prop :=
  ∀ i < 6, ∀ v, S v → (∀ d ∈ dofs, d.entity = (2, i) → d.eval v = 0) →
    (∀ e < 12, (∀ p ∈ entVerts .hexahedron 1 e, p ∈ entVerts .hexahedron 2 i) → ∀ d ∈ dofs, d.entity = (1, e) → d.eval v = 0) →
    QFaceZero i v

/-- The edges of the faces. -/
theorem hex_face_edges {i : ℕ} (hi : i < 6) : ∃ a b c d, entVerts .hexahedron 2 i = [a, b, c, d] ∧
    (∃ e < 12, entVerts .hexahedron 1 e = [a, b]) ∧ (∃ e < 12, entVerts .hexahedron 1 e = [a, c]) ∧
    (∃ e < 12, entVerts .hexahedron 1 e = [b, d]) ∧ (∃ e < 12, entVerts .hexahedron 1 e = [c, d]) ∧
    ∀ j, (refVertex .hexahedron d j : ℝ) = refVertex .hexahedron b j + refVertex .hexahedron c j - refVertex .hexahedron a j := by
  interval_cases i
  · refine ⟨0, 1, 2, 3, rfl, ⟨0, by omega, rfl⟩, ⟨1, by omega, rfl⟩, ⟨3, by omega, rfl⟩, ⟨5, by omega, rfl⟩, fun j => ?_⟩
    rcases j with _ | _ | _ | j <;> norm_num [refVertex, refVerts, coords]
  · refine ⟨0, 1, 4, 5, rfl, ⟨0, by omega, rfl⟩, ⟨2, by omega, rfl⟩, ⟨4, by omega, rfl⟩, ⟨8, by omega, rfl⟩, fun j => ?_⟩
    rcases j with _ | _ | _ | j <;> norm_num [refVertex, refVerts, coords]
  · refine ⟨0, 2, 4, 6, rfl, ⟨1, by omega, rfl⟩, ⟨2, by omega, rfl⟩, ⟨6, by omega, rfl⟩, ⟨9, by omega, rfl⟩, fun j => ?_⟩
    rcases j with _ | _ | _ | j <;> norm_num [refVertex, refVerts, coords]
  · refine ⟨1, 3, 5, 7, rfl, ⟨3, by omega, rfl⟩, ⟨4, by omega, rfl⟩, ⟨7, by omega, rfl⟩, ⟨10, by omega, rfl⟩, fun j => ?_⟩
    rcases j with _ | _ | _ | j <;> norm_num [refVertex, refVerts, coords]
  · refine ⟨2, 3, 6, 7, rfl, ⟨5, by omega, rfl⟩, ⟨6, by omega, rfl⟩, ⟨7, by omega, rfl⟩, ⟨11, by omega, rfl⟩, fun j => ?_⟩
    rcases j with _ | _ | _ | j <;> norm_num [refVertex, refVerts, coords]
  · refine ⟨4, 5, 6, 7, rfl, ⟨8, by omega, rfl⟩, ⟨9, by omega, rfl⟩, ⟨10, by omega, rfl⟩, ⟨11, by omega, rfl⟩, fun j => ?_⟩
    rcases j with _ | _ | _ | j <;> norm_num [refVertex, refVerts, coords]

theorem hex_tangent {v : Field 3} (h : ∀ i < 6, QFaceZero i v) (i : Fin 3) : ∀ j < 3, j ≠ i.val → ∀ z : ℕ → ℝ, z j = 0 ∨ z j = 1 →
    eval z (v i) = 0 := by
  rintro j hj hji z (hz | hz)
  · have e : qAxis 3 (3 - 1 - j) = j := by rw [qAxis, if_pos (by omega)]; omega
    refine h (3 - 1 - j) (by omega) z ?_ i ?_
    · rw [e, hz, qVal, if_pos (by omega)]
    · rw [e]; exact hji.symm
  · have e : qAxis 3 (3 + j) = j := by rw [qAxis, if_neg (by omega)]; omega
    refine h (3 + j) (by omega) z ?_ i ?_
    · rw [e, hz, qVal, if_neg (by omega)]
    · rw [e]; exact hji.symm

theorem ncq_created3_of {n : ℕ} {variant : String} {k : ℕ} (hk : 1 ≤ k) (hr : Points variant (k - 1))
    (hsub2 : SubSpan n variant "RaviartThomas" "covariant" .quadrilateral ((k : ℤ) - 1) (RTQ 2 ((k : ℤ) - 1)) (rtqCount 2 (k - 1)))
    (hsub3 : SubSpan n variant "RaviartThomas" "covariant" .hexahedron ((k : ℤ) - 1) (RTQ 3 ((k : ℤ) - 1)) (rtqCount 3 (k - 1))) :
    Created (ncqWith (qClasses n) variant .hexahedron k) (NCQ 3 k) (ncqCount 3 k)
      (fun dofs => EdgeTrace .hexahedron (NCQ 3 k) dofs ∧ QFaceTrace (NCQ 3 k) dofs) := by
  have hc : Box .hexahedron := Or.inr rfl
  obtain ⟨xs, hx, hxs, hxl⟩ := sub_q (t := .interval) (Or.inl rfl) n "TangentIntegralMoment" hr none
  rw [Nat.cast_sub hk, Nat.cast_one] at hx hxs
  obtain ⟨ys, hy, hys, hyl⟩ : ∃ ys : List (Field 2), subFuns (qClasses n) ⟨"IntegralMoment", "RaviartThomas", (k : ℤ) - 1, some "covariant",
    [("variant", variant)]⟩ .quadrilateral = some (ys.map (.vector 2)) ∧ (∀ q, RTQ 2 ((k : ℤ) - 1) q → q ∈ lspan ys) ∧
    ys.length = rtqCount 2 (k - 1) := hsub2
  obtain ⟨zs, hz, hzs, hzl⟩ : ∃ ys : List (Field 3), subFuns (qClasses n) ⟨"IntegralMoment", "RaviartThomas", (k : ℤ) - 1, some "covariant",
    [("variant", variant)]⟩ .hexahedron = some (ys.map (.vector 3)) ∧ (∀ q, RTQ 3 ((k : ℤ) - 1) q → q ∈ lspan ys) ∧
    ys.length = rtqCount 3 (k - 1) := hsub3
  have hms := qcurl_moments3 (A := [.cls "TangentIntegralMoment", .cls "Q", .int ((k : ℤ) - 1), .dict [("variant", variant)]])
    (B := [.cls "IntegralMoment", .cls "RaviartThomas", .int ((k : ℤ) - 1), .str "covariant", .dict [("variant", variant)]])
    (C' := [.cls "IntegralMoment", .cls "RaviartThomas", .int ((k : ℤ) - 1), .str "covariant", .dict [("variant", variant)]])
    rfl rfl rfl hx hy hz
  obtain ⟨dofs, hdofs⟩ := mapM_exists (f := momentDof .hexahedron) (l := qcurlMoments3
    ⟨"TangentIntegralMoment", "Q", (k : ℤ) - 1, none, [("variant", variant)]⟩
    ⟨"IntegralMoment", "RaviartThomas", (k : ℤ) - 1, some "covariant", [("variant", variant)]⟩
    ⟨"IntegralMoment", "RaviartThomas", (k : ℤ) - 1, some "covariant", [("variant", variant)]⟩
    (xs.map .scalar) (ys.map (.vector 2)) (zs.map (.vector 3))) (by
    intro mo hmo
    simp only [qcurlMoments3, List.mem_append, List.mem_flatMap, List.mem_range, List.mem_map] at hmo
    rcases hmo with ⟨i, hi, _, ⟨x, -, rfl⟩, rfl⟩ | ⟨i, hi, _, ⟨y, -, rfl⟩, rfl⟩ | ⟨_, ⟨y, -, rfl⟩, rfl⟩
    · obtain ⟨J, s, -, -, h⟩ := box_edge_moment hc hi none
      obtain ⟨d, hd, -⟩ := h x
      exact ⟨d, hd⟩
    · obtain ⟨d, hd, -⟩ := hex_face_moment hi y (some "covariant")
      exact ⟨d, hd⟩
    · obtain ⟨d, hd, -⟩ := box_moment hc y (some "covariant")
      exact ⟨d, hd⟩)
  have htr : EdgeTrace .hexahedron (NCQ 3 k) dofs := by
    refine box_edge_trace hc (by omega) hxs (mp := none) fun i hi x hx => ?_
    exact momentDof_mem hdofs (m := ⟨"TangentIntegralMoment", .scalar x, (1, i), none⟩) (by
      simp only [qcurlMoments3, List.mem_append, List.mem_flatMap, List.mem_range, List.mem_map]
      exact Or.inl ⟨i, hi, _, ⟨x, hx, rfl⟩, rfl⟩)
  have hft : QFaceTrace (NCQ 3 k) dofs := by
    intro i hi v hv h he
    obtain ⟨a, b, c, d, habc, ⟨e1, l1, hab⟩, ⟨e2, l2, hac⟩, ⟨e3, l3, hbd⟩, ⟨e4, l4, hcd⟩, hpar⟩ := hex_face_edges hi
    have hV : ∀ n, (entityDomain .hexahedron (2, i)).v n = refVertex .hexahedron ([a, b, c, d].getD n 0) := fun n => by
      rw [← habc]; rfl
    have F : QFacet ⟨.quadrilateral, 3, (entityDomain .hexahedron (2, i)).v⟩ (qAxis 3 i) (qVal 3 i) := hex_facet hi
    have hN : NCQ 2 k (tang ⟨.quadrilateral, 3, (entityDomain .hexahedron (2, i)).v⟩ v) :=
      F.aligned.tang (fun l hl => skip_lt (show qAxis 3 i < 3 from qAxis_lt hi) hl) (by omega) hv
    have hS : SquareZero (tang ⟨.quadrilateral, 3, (entityDomain .hexahedron (2, i)).v⟩ v) := by
      refine squareZero_of 3 _ (fun j => ?_) ?_ ?_ ?_ ?_
      · rw [hV, hV, hV, hV]
        exact hpar j
      · rw [hV, hV]
        exact htr e1 l1 a b hab v hv (he e1 l1 (by rw [hab, habc]; simp))
      · rw [hV, hV]
        exact htr e2 l2 a c hac v hv (he e2 l2 (by rw [hac, habc]; simp))
      · rw [hV, hV]
        exact htr e3 l3 b d hbd v hv (he e3 l3 (by rw [hbd, habc]; simp))
      · rw [hV, hV]
        exact htr e4 l4 c d hcd v hv (he e4 l4 (by rw [hcd, habc]; simp))
    refine qfaceZero_of hi hv.mem (ncq_zero (c := .quadrilateral) (Or.inl rfl) hN hS.tangent fun q hq => ?_)
    refine pairing_lspan (c := .quadrilateral) (u := tang ⟨.quadrilateral, 3, (entityDomain .hexahedron (2, i)).v⟩ v) (fun y hy => ?_) (hys q hq)
    obtain ⟨d', hd', h1⟩ := momentDof_mem hdofs (m := ⟨"IntegralMoment", .vector 2 y, (2, i), some "covariant"⟩) (by
      simp only [qcurlMoments3, List.mem_append, List.mem_flatMap, List.mem_range, List.mem_map]
      exact Or.inr (Or.inl ⟨i, hi, _, ⟨y, hy, rfl⟩, rfl⟩))
    obtain ⟨d, hd, hd1, hd2⟩ := hex_face_moment hi y (some "covariant")
    obtain rfl := Option.some.inj (hd.symm.trans h1)
    exact Eq.trans (hd2 v).symm (h d hd' hd1)
  have hu : ∀ v, NCQ 3 k v → (∀ d ∈ dofs, d.eval v = 0) → v = 0 := by
    intro v hv h
    refine ncq_zero hc hv (hex_tangent fun i hi => hft i hi v hv (fun d hd _ => h d hd) fun _ _ _ d hd _ => h d hd) fun q hq => ?_
    refine (pairing_lspan (c := .hexahedron) (u := v) (fun y hy => ?_) (hzs q hq))
    obtain ⟨d', hd', h1⟩ := momentDof_mem hdofs (m := ⟨"IntegralMoment", .vector 3 y, (3, 0), some "covariant"⟩) (by
      simp only [qcurlMoments3, List.mem_append, List.mem_flatMap, List.mem_range, List.mem_map]
      exact Or.inr (Or.inr ⟨_, ⟨y, hy, rfl⟩, rfl⟩))
    obtain ⟨d, hd, -, hd2⟩ := box_moment hc y (some "covariant")
    obtain rfl := Option.some.inj (hd.symm.trans h1)
    refine Eq.trans (hd2 v _ hv.mem).symm (h d hd')
  have hlen := length_ncq (d := 3) (by omega) hk
  have hml : (qcurlMoments3 ⟨"TangentIntegralMoment", "Q", (k : ℤ) - 1, none, [("variant", variant)]⟩
    ⟨"IntegralMoment", "RaviartThomas", (k : ℤ) - 1, some "covariant", [("variant", variant)]⟩
    ⟨"IntegralMoment", "RaviartThomas", (k : ℤ) - 1, some "covariant", [("variant", variant)]⟩
    (xs.map .scalar) (ys.map (.vector 2)) (zs.map (.vector 3))).length = (quolySetVector 3 3 ((k : ℤ) - 1) ++ hcurlQuolySet 3 k).length := by
    rw [hlen]
    simp only [qcurlMoments3, List.length_append, List.length_flatMap, List.length_map, hxl, hyl, hzl]
    simp only [List.map_const', List.sum_replicate, List.length_range, smul_eq_mul, rtqCount, ncqCount, Cell.tdim]
    obtain ⟨n, rfl⟩ := Nat.exists_eq_add_of_le' hk
    simp only [Nat.add_one_sub_one]
    ring
  obtain ⟨fs, h1, h2, h3, h4⟩ := momentElement_basis (c := .hexahedron) rfl hms hdofs hml (ncq_independent 3 hk)
    fun v hv => hu v ((ncq_lspan 3 hk v).1 hv)
  exact ⟨_, dofs, fs, h1, h2, by rw [← (mapM_forall hdofs).length_eq, hml, hlen], h4.trans hlen,
    fun v => (by rw [h3]; exact ncq_lspan 3 hk v), hu, htr, hft⟩

/-! ### All orders -/

theorem subSpan_zero {n : ℕ} {variant name mapping : String} {c : Cell} {S : Field c.tdim → Prop}
    (hn : (qClasses n name).minOrder = 1) (hS : ∀ q, S q → q = 0) : SubSpan n variant name mapping c 0 S 0 := by
  refine ⟨[], ?_, fun q hq => by rw [hS q hq]; exact Submodule.zero_mem _, rfl⟩
  unfold subFuns
  simp only [hn]
  rfl

theorem subSpan_of {n : ℕ} {variant name mapping : String} {c : Cell} {k : ℕ} (hk : 1 ≤ k) {S : Field c.tdim → Prop} {N : ℕ}
    {T : List (Dof ℝ (Field c.tdim)) → Prop} {e : Option (Element ℝ (Field c.tdim))} (hn : (qClasses n name).minOrder = 1)
    (hcr : (qClasses n name).create c k [("variant", variant)] = vectorBasis e) (h : Created e S N T) :
    SubSpan n variant name mapping c k S N := by
  obtain ⟨b, d, fs, h1, h2, -, h3, h4, -⟩ := h
  refine ⟨fs, ?_, fun q hq => (h4 q).2 hq, h3⟩
  unfold subFuns
  simp only [hn]
  rw [if_neg (by omega), hcr, h1, vectorBasis, Option.bind_some, h2]
  rfl

/-- Both families, for all orders. -/
theorem q_families {variant : String} (k : ℕ) : ∀ n, k + 1 ≤ n → Points variant k →
    (∀ c, Box c → Created (rtqWith (qClasses n) variant c (k + 1)) (RTQ c.tdim (k + 1 : ℕ)) (rtqCount c.tdim (k + 1))
      (QNormalTrace c (RTQ c.tdim (k + 1 : ℕ)))) ∧
    Created (ncqWith (qClasses n) variant .quadrilateral (k + 1)) (NCQ 2 (k + 1 : ℕ)) (ncqCount 2 (k + 1))
      (EdgeTrace .quadrilateral (NCQ 2 (k + 1 : ℕ))) ∧
    Created (ncqWith (qClasses n) variant .hexahedron (k + 1)) (NCQ 3 (k + 1 : ℕ)) (ncqCount 3 (k + 1))
      (fun dofs => EdgeTrace .hexahedron (NCQ 3 (k + 1 : ℕ)) dofs ∧ QFaceTrace (NCQ 3 (k + 1 : ℕ)) dofs) := by
  induction k with
  | zero =>
    intro n hn hr
    obtain ⟨m, rfl⟩ := Nat.exists_eq_add_of_le' hn
    have h0 : ((0 + 1 : ℕ) : ℤ) - 1 = 0 := by norm_num
    have hR : ∀ c, Box c → SubSpan (m + (0 + 1)) variant "RaviartThomas" "covariant" c (((0 + 1 : ℕ) : ℤ) - 1)
        (RTQ c.tdim (((0 + 1 : ℕ) : ℤ) - 1)) (rtqCount c.tdim (0 + 1 - 1)) := by
      intro c hc
      have hcount : rtqCount c.tdim (0 + 1 - 1) = 0 := by rcases hc with rfl | rfl <;> rfl
      rw [h0, hcount]
      exact subSpan_zero rfl fun q hq => rtq_neg (by rcases hc.dims with h | h <;> omega) (by norm_num) hq
    refine ⟨fun c hc => ?_, ?_, ?_⟩
    · refine rtq_created_of hc (by omega) hr ?_
      have hcount : ncqCount c.tdim (0 + 1 - 1) = 0 := by rcases hc with rfl | rfl <;> rfl
      rw [h0, hcount]
      exact subSpan_zero rfl fun q hq => ncq_neg (by norm_num) hq
    · exact ncq_created2_of (by omega) hr (hR _ (Or.inl rfl))
    · exact ncq_created3_of (by omega) hr (hR _ (Or.inl rfl)) (hR _ (Or.inr rfl))
  | succ k ih =>
    intro n hn hr
    obtain ⟨m, rfl⟩ := Nat.exists_eq_add_of_le' (show 1 ≤ n by omega)
    obtain ⟨i1, i2, i3⟩ := ih m (by omega) (hr.le (by omega))
    have h0 : ((k + 1 + 1 : ℕ) : ℤ) - 1 = (k + 1 : ℕ) := by push_cast; ring
    have hR : ∀ c, Box c → SubSpan (m + 1) variant "RaviartThomas" "covariant" c (((k + 1 + 1 : ℕ) : ℤ) - 1)
        (RTQ c.tdim (((k + 1 + 1 : ℕ) : ℤ) - 1)) (rtqCount c.tdim (k + 1 + 1 - 1)) := by
      intro c hc
      rw [h0]
      exact subSpan_of (by omega) rfl rfl (i1 c hc)
    refine ⟨fun c hc => ?_, ?_, ?_⟩
    · refine rtq_created_of hc (by omega) hr ?_
      rw [h0]
      rcases hc with rfl | rfl
      · exact subSpan_of (by omega) rfl rfl i2
      · exact subSpan_of (by omega) rfl rfl i3
    · exact ncq_created2_of (by omega) hr (hR _ (Or.inl rfl))
    · exact ncq_created3_of (by omega) hr (hR _ (Or.inl rfl)) (hR _ (Or.inr rfl))

/-- **C90.** `RaviartThomas` elements on quadrilaterals and hexahedra: at every order at least 1, the element can be created,
it has the right number of functionals, its basis functions span the Raviart–Thomas space, the functionals determine the
functions, and the functionals of a facet determine the normal component on that facet. -/
theorem rtq_created {variant : String} {c : Cell} (hc : Box c) {k : ℕ} (hk : 1 ≤ k) (hr : Points variant (k - 1)) :
    Created (rtqElement variant c k) (RTQ c.tdim k) (rtqCount c.tdim k) (QNormalTrace c (RTQ c.tdim k)) := by
  obtain ⟨m, rfl⟩ := Nat.exists_eq_add_of_le' hk
  exact (q_families m (m + 1) le_rfl hr).1 c hc

/-- **C91.** `Nedelec` elements on quadrilaterals: at every order at least 1, the element can be created, it has the right
number of functionals, its basis functions span the Nédélec space, the functionals determine the functions, and the
functionals of an edge determine the tangential component on that edge. -/
theorem ncq_created2 {variant : String} {k : ℕ} (hk : 1 ≤ k) (hr : Points variant (k - 1)) :
    Created (ncqElement variant .quadrilateral k) (NCQ 2 k) (ncqCount 2 k) (EdgeTrace .quadrilateral (NCQ 2 k)) := by
  obtain ⟨m, rfl⟩ := Nat.exists_eq_add_of_le' hk
  exact (q_families m (m + 1) le_rfl hr).2.1

/-- **C91.** The same on hexahedra; the functionals of a face and of its edges determine the tangential components on the
face. -/
theorem ncq_created3 {variant : String} {k : ℕ} (hk : 1 ≤ k) (hr : Points variant (k - 1)) :
    Created (ncqElement variant .hexahedron k) (NCQ 3 k) (ncqCount 3 k)
      (fun dofs => EdgeTrace .hexahedron (NCQ 3 k) dofs ∧ QFaceTrace (NCQ 3 k) dofs) := by
  obtain ⟨m, rfl⟩ := Nat.exists_eq_add_of_le' hk
  exact (q_families m (m + 1) le_rfl hr).2.2

example : ∃ basis dofs fs, rtqElement "equispaced" .hexahedron 2 = some (.ciarlet basis dofs) ∧
    getBasis (.ciarlet basis dofs) = some fs ∧ fs.length = 36 := by
  obtain ⟨b, d, fs, h1, h2, -, h3, -⟩ := rtq_created (c := .hexahedron) (Or.inr rfl) (k := 2) (by omega) (points_equispaced _)
  exact ⟨b, d, fs, h1, h2, h3⟩

example : ∃ basis dofs fs, ncqElement "equispaced" .hexahedron 3 = some (.ciarlet basis dofs) ∧
    getBasis (.ciarlet basis dofs) = some fs ∧ fs.length = 144 := by
  obtain ⟨b, d, fs, h1, h2, -, h3, -⟩ := ncq_created3 (k := 3) (by omega) (points_equispaced _)
  exact ⟨b, d, fs, h1, h2, h3⟩

end Verif.Families
