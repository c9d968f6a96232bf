import Verif.Families.Hcurl
/-!
# Creation of the elements with tangential moments
-/

namespace Verif.Families
open Verif.References Verif.Moments Verif.Functionals Verif.Elements Verif.FiniteElement Verif.Polysets Verif.Orthogonal
open MvPolynomial

/-! ### Triangles -/

/-- The moments on the edges and in the cell of a triangle. -/
def hcurlMoments2 (dA dB : Data) (xs ys : List Fun) : List (MomentDof Fun) :=
  ((List.range 3).flatMap fun i => xs.map fun x => ⟨dA.moment, x, (1, i), dA.mapping⟩) ++
    ys.map fun y => ⟨dB.moment, y, (2, 0), dB.mapping⟩

theorem hcurl_moments2 {classes : String → ElementClass Fun} {A B C' : List Item} {dA dB : Data}
    (hA : parse A = some dA) (hB : parse B = some dB) {xs ys : List Fun} (hx : subFuns classes dA .interval = some xs)
    (hy : subFuns classes dB .triangle = some ys) :
    makeIntegralMomentDofs classes .triangle
      { edges := some (.single A), faces := some (.single B), volumes := some (.single C') } =
      some (hcurlMoments2 dA dB xs ys) := by
  have e0 : ∀ dim : ℤ, slotDofs classes .triangle dim none = some [] := fun _ => rfl
  have h1 : slotDofs classes .triangle 1 (some (.single A)) = some ((List.range 3).flatMap fun i =>
      xs.map fun x => ⟨dA.moment, x, (1, i), dA.mapping⟩) :=
    slot_uniform (dim := 1) (by omega) (by omega) (by decide) rfl hA hx
  have h2 : slotDofs classes .triangle 2 (some (.single B)) = some (ys.map fun y => ⟨dB.moment, y, (2, 0), dB.mapping⟩) := by
    refine (slot_uniform (c := .triangle) (t := .triangle) (dim := 2) (by omega) (by omega) (by decide) rfl hB hy).trans ?_
    simp [show entityCount .triangle 2 = 1 from rfl]
  have h3 : slotDofs classes .triangle 3 (some (.single C')) = some [] := by
    refine (slot_eq (classes := classes) .triangle 3 (by omega) _).trans ?_
    rw [if_pos (by decide)]
  unfold makeIntegralMomentDofs slots
  simp only [List.mapM_cons, List.mapM_nil, e0, h1, h2, h3, Option.bind_eq_bind, Option.bind_some, Option.pure_def, Option.map_some,
    List.flatten_cons, List.flatten_nil, List.nil_append, List.append_nil]
  rfl

/-- Vanishing tangential components on all edges of the triangle. -/
theorem tangentZero2_ref {k : ℤ} {v : Field 2} (hv : ∀ j, v j ∈ P 2 k)
    (h01 : EdgeZero (refVertex .triangle 0) (refVertex .triangle 1) v)
    (h02 : EdgeZero (refVertex .triangle 0) (refVertex .triangle 2) v)
    (h12 : EdgeZero (refVertex .triangle 1) (refVertex .triangle 2) v) : TangentZero2 v := by
  constructor
  · intro z hz
    refine Eq.trans ?_ (h01 (z 0))
    rw [Fin.sum_univ_two, eval_congr_P (hv 0) (y := z) (z := fun i => refVertex .triangle 0 i + z 0 *
      (refVertex .triangle 1 i - refVertex .triangle 0 i))]
    · norm_num [refVertex, refVerts, coords]
    · intro i hi
      interval_cases i <;> norm_num [refVertex, refVerts, coords, hz]
  · intro z hz
    refine Eq.trans ?_ (h02 (z 1))
    rw [Fin.sum_univ_two, eval_congr_P (hv 1) (y := z) (z := fun i => refVertex .triangle 0 i + z 1 *
      (refVertex .triangle 2 i - refVertex .triangle 0 i))]
    · norm_num [refVertex, refVerts, coords]
    · intro i hi
      interval_cases i <;> norm_num [refVertex, refVerts, coords, hz]
  · intro z hz
    have := h12 (z 1)
    have hc : ∀ i < 2, z i = refVertex .triangle 1 i + z 1 * (refVertex .triangle 2 i - refVertex .triangle 1 i) := by
      intro i hi
      interval_cases i <;> norm_num [refVertex, refVerts, coords]
      linarith
    rw [Fin.sum_univ_two, ← eval_congr_P (hv 0) hc, ← eval_congr_P (hv 1) hc] at this
    norm_num [refVertex, refVerts, coords] at this
    linarith

theorem hcurl2_created {classes : String → ElementClass Fun} {poly : Option (List VecPoly)} {pl : List VecPoly}
    (hpoly : poly = some pl) (hi : Independent ℝ (pl.map (denoteVec ℝ 2))) {S : Field 2 → Prop}
    (hS : ∀ v, v ∈ lspan (pl.map (denoteVec ℝ 2)) ↔ S v) {k m : ℤ} (hk : ∀ v, S v → ∀ j, v j ∈ P 2 k)
    (hcomp : ∀ v, S v → ∀ V : ℕ → ℕ → ℝ, comp ⟨.interval, 2, V⟩ (axis .interval V 0) v ∈ P 1 m)
    {A B C' : List Item} {dA dB : Data} (hA : parse A = some dA) (hB : parse B = some dB) {xs : List (MvPolynomial ℕ ℝ)}
    {ys : List (Field 2)} (hx : subFuns classes dA .interval = some (xs.map .scalar))
    (hy : subFuns classes dB .triangle = some (ys.map (.vector 2))) (hAm : dA.moment = "TangentIntegralMoment")
    (hBm : dB.moment = "IntegralMoment") (hxs : lspan xs = P 1 m)
    (hz : ∀ v, S v → TangentZero2 v → (∀ y ∈ ys, pairing .triangle v y = 0) → v = 0)
    (hlen : 3 * xs.length + ys.length = pl.length) :
    Created (momentElement classes .triangle poly
      { edges := some (.single A), faces := some (.single B), volumes := some (.single C') }) S pl.length
      (fun dofs => EdgeTrace .triangle S dofs ∧ EdgeConform .triangle S dofs) := by
  have hc : Simp .triangle := Or.inl rfl
  have hms := hcurl_moments2 (C' := C') hA hB hx hy
  obtain ⟨dofs, hdofs⟩ := mapM_exists (f := momentDof .triangle) (l := hcurlMoments2 dA dB (xs.map .scalar) (ys.map (.vector 2))) (by
    intro mo hmo
    simp only [hcurlMoments2, List.mem_append, List.mem_flatMap, List.mem_range, List.mem_map] at hmo
    rcases hmo with ⟨i, hi, _, ⟨x, -, rfl⟩, rfl⟩ | ⟨_, ⟨y, -, rfl⟩, rfl⟩
    · rw [hAm]
      obtain ⟨J, s, -, -, h⟩ := edge_moment hc (edge_distinct hc hi) dA.mapping
      obtain ⟨d, hd, -⟩ := h x
      exact ⟨d, hd⟩
    · rw [hBm]
      obtain ⟨d, hd, -⟩ := cell_moment hc y dB.mapping
      exact ⟨d, hd⟩)
  have htr : EdgeTrace .triangle S dofs := by
    refine edge_trace hc hk (fun v hv i => hcomp v hv _) hxs (mp := dA.mapping) fun i hi x hx => ?_
    obtain ⟨d', hd', h1⟩ := momentDof_mem hdofs (m := ⟨dA.moment, .scalar x, (1, i), dA.mapping⟩) (by
      simp only [hcurlMoments2, List.mem_append, List.mem_flatMap, List.mem_range, List.mem_map]
      exact Or.inl ⟨i, hi, _, ⟨x, hx, rfl⟩, rfl⟩)
    exact ⟨d', hd', hAm ▸ h1⟩
  have hu : ∀ v, S v → (∀ d ∈ dofs, d.eval v = 0) → v = 0 := by
    intro v hv h
    have hE : ∀ i < 3, ∀ p q, entVerts .triangle 1 i = [p, q] → EdgeZero (refVertex .triangle p) (refVertex .triangle q) v :=
      fun i hi p q hpq => htr i hi p q hpq v hv fun d hd _ => h d hd
    refine hz v hv (tangentZero2_ref (hk v hv) (hE 2 (by omega) 0 1 rfl) (hE 1 (by omega) 0 2 rfl) (hE 0 (by omega) 1 2 rfl))
      fun y hy => ?_
    obtain ⟨d', hd', h1⟩ := momentDof_mem hdofs (m := ⟨dB.moment, .vector 2 y, (2, 0), dB.mapping⟩) (by
      simp only [hcurlMoments2, List.mem_append, List.mem_flatMap, List.mem_range, List.mem_map]
      exact Or.inr ⟨_, ⟨y, hy, rfl⟩, rfl⟩)
    obtain ⟨d, hd, -, hd2⟩ := cell_moment hc y dB.mapping
    rw [hBm] at h1
    obtain rfl := Option.some.inj (hd.symm.trans h1)
    refine Eq.trans (hd2 v k (hk v hv)).symm (h d hd')
  have hcon : EdgeConform .triangle S dofs := by
    refine edge_conform hc.affine4 hk (edge_match hc.affine4 (fun i hi => edge_distinct hc hi) (fun v hv i => hcomp v hv _) hxs hdofs
      (mp := dA.mapping) fun i hi => ?_)
    have h1 := filter_entities (dim := 1) (xs.map Fun.scalar) (fun x i => ⟨dA.moment, x, (1, i), dA.mapping⟩) (fun _ _ => rfl) hi
    have h2 : (((ys.map (Fun.vector 2)).map fun y => (⟨dB.moment, y, (2, 0), dB.mapping⟩ : MomentDof Fun)).filter
        fun m => decide (m.entity = (1, i))) = [] := by
      rw [List.filter_eq_nil_iff]
      intro mo hmo
      obtain ⟨y, -, rfl⟩ := List.mem_map.1 hmo
      simp
    rw [hcurlMoments2, List.filter_append, h2, List.append_nil]
    refine h1.trans ?_
    rw [List.map_map, hAm]
    rfl
  have hml : (hcurlMoments2 dA dB (xs.map .scalar) (ys.map (.vector 2))).length = pl.length := by
    rw [← hlen]
    simp [hcurlMoments2, List.length_flatMap]
    omega
  obtain ⟨fs, h1, h2, h3, h4⟩ := momentElement_basis hpoly hms hdofs hml hi fun v hv => hu v ((hS v).1 hv)
  exact ⟨_, dofs, fs, h1, h2, by rw [← (mapM_forall hdofs).length_eq, hml], h4, fun v => (by rw [h3]; exact hS v), hu, htr, hcon⟩

/-! ### Tetrahedra -/

/-- The moments on the edges, on the faces and in the cell of a tetrahedron. -/
def hcurlMoments3 (dA dB dC : Data) (xs ys zs : List Fun) : List (MomentDof Fun) :=
  ((List.range 6).flatMap fun i => xs.map fun x => ⟨dA.moment, x, (1, i), dA.mapping⟩) ++
    (((List.range 4).flatMap fun i => ys.map fun y => ⟨dB.moment, y, (2, i), dB.mapping⟩) ++
      zs.map fun z => ⟨dC.moment, z, (3, 0), dC.mapping⟩)

theorem hcurl_moments3 {classes : String → ElementClass Fun} {A B C' : List Item} {dA dB dC : Data}
    (hA : parse A = some dA) (hB : parse B = some dB) (hC : parse C' = some dC) {xs ys zs : List Fun}
    (hx : subFuns classes dA .interval = some xs) (hy : subFuns classes dB .triangle = some ys)
    (hz : subFuns classes dC .tetrahedron = some zs) :
    makeIntegralMomentDofs classes .tetrahedron
      { edges := some (.single A), faces := some (.single B), volumes := some (.single C') } =
      some (hcurlMoments3 dA dB dC xs ys zs) := by
  have e0 : ∀ dim : ℤ, slotDofs classes .tetrahedron dim none = some [] := fun _ => rfl
  have h1 : slotDofs classes .tetrahedron 1 (some (.single A)) = some ((List.range 6).flatMap fun i =>
      xs.map fun x => ⟨dA.moment, x, (1, i), dA.mapping⟩) :=
    slot_uniform (dim := 1) (by omega) (by omega) (by decide) rfl hA hx
  have h2 : slotDofs classes .tetrahedron 2 (some (.single B)) = some ((List.range 4).flatMap fun i =>
      ys.map fun y => ⟨dB.moment, y, (2, i), dB.mapping⟩) :=
    slot_uniform (dim := 2) (by omega) (by omega) (by decide) rfl hB hy
  have h3 : slotDofs classes .tetrahedron 3 (some (.single C')) = some (zs.map fun z => ⟨dC.moment, z, (3, 0), dC.mapping⟩) := by
    refine (slot_uniform (c := .tetrahedron) (t := .tetrahedron) (dim := 3) (by omega) (by omega) (by decide) rfl hC hz).trans ?_
    simp [show entityCount .tetrahedron 3 = 1 from rfl]
  unfold makeIntegralMomentDofs slots
  simp only [List.mapM_cons, List.mapM_nil, e0, h1, h2, h3, Option.bind_eq_bind, Option.bind_some, Option.pure_def, Option.map_some,
    List.flatten_cons, List.flatten_nil, List.nil_append, List.append_nil]
  rfl

/-- The functionals on a face. -/
theorem face_moment {i : ℕ} (hi : i < 4) (y : Field 2) (mp : Option String) :
    ∃ d, momentDof .tetrahedron ⟨"IntegralMoment", .vector 2 y, (2, i), mp⟩ = some d ∧ d.entity = (2, i) ∧
      ∀ v : Field 3, d.eval v = pairing .triangle (tang ⟨.triangle, 3, (entityDomain .tetrahedron (2, i)).v⟩ v) y := by
  obtain ⟨J, -, -, hJ, -, h1, -⟩ := (tet_facet hi).facts
  have h1' : jacobian (entityDomain .tetrahedron (2, i)).cell 3 (entityDomain .tetrahedron (2, i)).v = some J := h1
  refine ⟨_, momentDof_of (J := J)
    (w := fun i' => ∑ k : Fin 2, C (axis .triangle (entityDomain .tetrahedron (2, i)).v k i'.val / J) * y k)
    ((momentFn_push (entityDomain .tetrahedron (2, i)) y (show (2 : ℕ) ≠ 3 by decide)).trans ?_) h1', rfl, fun v => ?_⟩
  · show Option.map _ (jacobian (entityDomain .tetrahedron (2, i)).cell 3 (entityDomain .tetrahedron (2, i)).v) = _
    rw [h1', Option.map_some]
    rfl
  · exact momentMap_push (entityDomain .tetrahedron (2, i)) hJ y v

/-- The directions in the planes of the faces. -/
theorem face_directions {i : ℕ} (hi : i < 4) {τ : ℕ → ℝ} (h : τ 0 * facetNormal i 0 + τ 1 * facetNormal i 1 + τ 2 * facetNormal i 2 = 0) :
    ∃ α β : ℝ, ∀ j < 3, τ j = α * axis .triangle (entityDomain .tetrahedron (2, i)).v 0 j +
      β * axis .triangle (entityDomain .tetrahedron (2, i)).v 1 j := by
  have hv : ∀ i j k, (entityDomain .tetrahedron (2, i)).v j k =
      refVertex .tetrahedron ((entVerts .tetrahedron 2 i).getD j 0) k := fun _ _ _ => rfl
  have e0 : entVerts .tetrahedron 2 0 = [1, 2, 3] := rfl
  have e1 : entVerts .tetrahedron 2 1 = [0, 2, 3] := rfl
  have e2 : entVerts .tetrahedron 2 2 = [0, 1, 3] := rfl
  have e3 : entVerts .tetrahedron 2 3 = [0, 1, 2] := rfl
  interval_cases i
  · refine ⟨τ 1, τ 2, fun j hj => ?_⟩
    norm_num [facetNormal] at h
    interval_cases j <;> norm_num [axis, psub, hv, e0, axisVertices, refVertex, refVerts, coords]
    linarith
  · refine ⟨τ 1, τ 2, fun j hj => ?_⟩
    norm_num [facetNormal] at h
    interval_cases j <;> norm_num [axis, psub, hv, e1, axisVertices, refVertex, refVerts, coords]
    exact h
  · refine ⟨τ 0, τ 2, fun j hj => ?_⟩
    norm_num [facetNormal] at h
    interval_cases j <;> norm_num [axis, psub, hv, e2, axisVertices, refVertex, refVerts, coords]
    exact h
  · refine ⟨τ 0, τ 1, fun j hj => ?_⟩
    norm_num [facetNormal] at h
    interval_cases j <;> norm_num [axis, psub, hv, e3, axisVertices, refVertex, refVerts, coords]
    exact h

/-- The components of `v` in the plane of facet `i` vanish on the facet. -/
def FaceZero (i : ℕ) (v : Field 3) : Prop :=
  ∀ z, OnFacet 3 i z → ∀ τ : ℕ → ℝ, ∑ j : Fin 3, τ j.val * facetNormal i j.val = 0 → ∑ j : Fin 3, τ j.val * eval z (v j) = 0

theorem faceZero_of {i : ℕ} (hi : i < 4) {k : ℤ} {v : Field 3} (hv : ∀ j, v j ∈ P 3 k)
    (h : tang ⟨.triangle, 3, (entityDomain .tetrahedron (2, i)).v⟩ v = 0) : FaceZero i v := by
  intro z hz τ hτ
  rw [Fin.sum_univ_three] at hτ
  obtain ⟨α, β, hαβ⟩ := face_directions hi hτ
  obtain ⟨y, hy⟩ := (tet_facet hi).covers z hz
  have e : ∀ n : Fin 2, ∑ j : Fin 3, axis .triangle (entityDomain .tetrahedron (2, i)).v n j.val * eval z (v j) = 0 := by
    intro n
    have h1 := eval_comp ⟨.triangle, 3, (entityDomain .tetrahedron (2, i)).v⟩
      (axis .triangle (entityDomain .tetrahedron (2, i)).v n) v y
    have h2 : comp ⟨.triangle, 3, (entityDomain .tetrahedron (2, i)).v⟩
      (axis .triangle (entityDomain .tetrahedron (2, i)).v n) v = 0 := congrFun h n
    rw [h2, map_zero] at h1
    refine Eq.trans ?_ h1.symm
    refine Finset.sum_congr rfl fun j _ => ?_
    rw [eval_congr_P (hv j) fun l hl => (hy l hl).symm]
    rfl
  calc ∑ j : Fin 3, τ j.val * eval z (v j)
      = ∑ j : Fin 3, (α * (axis .triangle (entityDomain .tetrahedron (2, i)).v 0 j.val * eval z (v j)) +
          β * (axis .triangle (entityDomain .tetrahedron (2, i)).v 1 j.val * eval z (v j))) :=
        Finset.sum_congr rfl fun j _ => by rw [hαβ j.val j.2]; ring
    _ = 0 := by
        rw [Finset.sum_add_distrib, ← Finset.mul_sum, ← Finset.mul_sum]
        have h0 := e 0
        have h1 := e 1
        simp only [Fin.val_zero, Fin.val_one] at h0 h1
        rw [h0, h1]
        ring

/-- The tangential components on face `i` vanish whenever the functionals of the face and of its edges vanish. -/
def FaceTrace (S : Field 3 → Prop) (dofs : List (Dof ℝ (Field 3))) : Prop :=
  ∀ i < 4, ∀ v, S v → (∀ d ∈ dofs, d.entity = (2, i) → d.eval v = 0) →
    (∀ e < 6, (∀ p ∈ entVerts .tetrahedron 1 e, p ∈ entVerts .tetrahedron 2 i) → ∀ d ∈ dofs, d.entity = (1, e) → d.eval v = 0) →
    FaceZero i v

/-- The edges of the faces. -/
theorem face_edges {i : ℕ} (hi : i < 4) : ∃ a b c, entVerts .tetrahedron 2 i = [a, b, c] ∧
    (∃ e < 6, entVerts .tetrahedron 1 e = [a, b]) ∧ (∃ e < 6, entVerts .tetrahedron 1 e = [a, c]) ∧
    ∃ e < 6, entVerts .tetrahedron 1 e = [b, c] := by
  interval_cases i
  · exact ⟨1, 2, 3, rfl, ⟨2, by omega, rfl⟩, ⟨1, by omega, rfl⟩, ⟨0, by omega, rfl⟩⟩
  · exact ⟨0, 2, 3, rfl, ⟨4, by omega, rfl⟩, ⟨3, by omega, rfl⟩, ⟨0, by omega, rfl⟩⟩
  · exact ⟨0, 1, 3, rfl, ⟨5, by omega, rfl⟩, ⟨3, by omega, rfl⟩, ⟨1, by omega, rfl⟩⟩
  · exact ⟨0, 1, 2, rfl, ⟨5, by omega, rfl⟩, ⟨4, by omega, rfl⟩, ⟨2, by omega, rfl⟩⟩

theorem tangentZero3_of {v : Field 3} (h : ∀ i < 4, FaceZero i v) : TangentZero3 v := by
  have f : ∀ i < 4, ∀ z, OnFacet 3 i z → ∀ τ : ℕ → ℝ, τ 0 * facetNormal i 0 + τ 1 * facetNormal i 1 + τ 2 * facetNormal i 2 = 0 →
      τ 0 * eval z (v 0) + τ 1 * eval z (v 1) + τ 2 * eval z (v 2) = 0 := by
    intro i hi z hz τ hτ
    have := h i hi z hz τ (by rw [Fin.sum_univ_three]; exact hτ)
    rwa [Fin.sum_univ_three] at this
  constructor
  · rintro z (hz | hz)
    · simpa [coords] using f 2 (by omega) z (by simpa [OnFacet] using hz) (coords [1, 0, 0]) (by simp [facetNormal, coords])
    · simpa [coords] using f 3 (by omega) z (by simpa [OnFacet] using hz) (coords [1, 0, 0]) (by simp [facetNormal, coords])
  · rintro z (hz | hz)
    · simpa [coords] using f 1 (by omega) z (by simpa [OnFacet] using hz) (coords [0, 1, 0]) (by simp [facetNormal, coords])
    · simpa [coords] using f 3 (by omega) z (by simpa [OnFacet] using hz) (coords [0, 1, 0]) (by simp [facetNormal, coords])
  · rintro z (hz | hz)
    · simpa [coords] using f 1 (by omega) z (by simpa [OnFacet] using hz) (coords [0, 0, 1]) (by simp [facetNormal, coords])
    · simpa [coords] using f 2 (by omega) z (by simpa [OnFacet] using hz) (coords [0, 0, 1]) (by simp [facetNormal, coords])
  · intro z hz
    have hz' : OnFacet 3 0 z := by simpa [OnFacet, Fin.sum_univ_three] using hz
    have h1 := f 0 (by omega) z hz' (coords [1, -1, 0]) (by simp [facetNormal, coords])
    have h2 := f 0 (by omega) z hz' (coords [0, 1, -1]) (by simp [facetNormal, coords])
    simp [coords] at h1 h2
    exact ⟨by linarith, by linarith⟩

theorem pairing_comm {c : Cell} {d : ℕ} (u w : Field d) : pairing c u w = pairing c w u := by
  rw [pairing_apply, pairing_apply]
  simp only [mul_comm]

/-- The edge `e` of a tetrahedron joins the vertices number `p` and `q` of face `i`. -/
def FaceEdge (i p q e : ℕ) : Prop :=
  entVerts .tetrahedron 1 e = [(entVerts .tetrahedron 2 i).getD p 0, (entVerts .tetrahedron 2 i).getD q 0]

/-- Conformity in H(curl), faces.  Two tetrahedra, with vertices `V` and `V'`, share a face: its vertices are the same, in
the same order, in both.  If two functions of the space have the same values of the functionals of that face and of its
edges, then the tangential components of the functions mapped to the tetrahedra are equal on the face. -/
def FaceConform (S : Field 3 → Prop) (dofs : List (Dof ℝ (Field 3))) : Prop :=
  ∀ i < 4, ∀ i' < 4, ∀ v v', S v → S v' →
    (entityFunctionals dofs (2, i)).map (·.eval v) = (entityFunctionals dofs (2, i')).map (·.eval v') →
    (∀ p q, ∀ e < 6, ∀ e' < 6, FaceEdge i p q e → FaceEdge i' p q e' →
      (entityFunctionals dofs (1, e)).map (·.eval v) = (entityFunctionals dofs (1, e')).map (·.eval v')) →
    ∀ V V' g g', mapped pushCo .tetrahedron V v = some g → mapped pushCo .tetrahedron V' v' = some g' →
    (∀ k < 3, V ((entVerts .tetrahedron 2 i).getD k 0) = V' ((entVerts .tetrahedron 2 i').getD k 0)) →
    ∀ t y, y = (physDomain .tetrahedron V (2, i)).param t → ∀ k < 3,
      ∑ r : Fin 3, ((physDomain .tetrahedron V (2, i)).v k r.val - (physDomain .tetrahedron V (2, i)).v 0 r.val) * g y r =
      ∑ r : Fin 3, ((physDomain .tetrahedron V (2, i)).v k r.val - (physDomain .tetrahedron V (2, i)).v 0 r.val) * g' y r

theorem face_conform {S : Field 3 → Prop} {dofs : List (Dof ℝ (Field 3))} {k : ℤ} (hk : ∀ v, S v → ∀ j, v j ∈ P 3 k)
    (h : ∀ i < 4, ∀ i' < 4, ∀ v v', S v → S v' →
      (entityFunctionals dofs (2, i)).map (·.eval v) = (entityFunctionals dofs (2, i')).map (·.eval v') →
      (∀ p q, ∀ e < 6, ∀ e' < 6, FaceEdge i p q e → FaceEdge i' p q e' →
        (entityFunctionals dofs (1, e)).map (·.eval v) = (entityFunctionals dofs (1, e')).map (·.eval v')) →
      faceTang (entityDomain .tetrahedron (2, i)).v v = faceTang (entityDomain .tetrahedron (2, i')).v v') : FaceConform S dofs := by
  intro i hi i' hi' v v' hSv hSv' heq hedge V V' g g' hg hg' hV t y hy n hn
  have hc : Affine4 .tetrahedron := by simp [Affine4]
  obtain ⟨F, hF, -⟩ := Option.map_eq_some_iff.1 hg
  obtain ⟨F', hF', -⟩ := Option.map_eq_some_iff.1 hg'
  have h0 : ∀ n < 3, (physDomain .tetrahedron V (2, i)).v n = (physDomain .tetrahedron V' (2, i')).v n := fun n hn => hV n hn
  have ep : ∀ V i, (physDomain .tetrahedron V (2, i)).param t = fun j => (physDomain .tetrahedron V (2, i)).v 0 j +
      ((physDomain .tetrahedron V (2, i)).v 1 j - (physDomain .tetrahedron V (2, i)).v 0 j) * t 0 +
      ((physDomain .tetrahedron V (2, i)).v 2 j - (physDomain .tetrahedron V (2, i)).v 0 j) * t 1 := fun V i =>
    triangle_param 3 (physDomain .tetrahedron V (2, i)).v t
  have hpar : y = (physDomain .tetrahedron V' (2, i')).param t := by
    rw [hy, ep, ep, h0 0 (by omega), h0 1 (by omega), h0 2 (by omega)]
  have ev : ∀ i (v : Field 3) (m : Fin 2), ∑ r : Fin 3, ((entityDomain .tetrahedron (2, i)).v (m.val + 1) r.val -
      (entityDomain .tetrahedron (2, i)).v 0 r.val) * eval ((entityDomain .tetrahedron (2, i)).param t) (v r) =
      eval t (faceTang (entityDomain .tetrahedron (2, i)).v v m) := by
    intro i v m
    refine Eq.trans ?_ (eval_comp ⟨.triangle, 3, (entityDomain .tetrahedron (2, i)).v⟩ _ v t).symm
    fin_cases m <;> rfl
  have m1 := mapped_param hc (hk v hSv) hg (2, i) t y fun j _ => congrFun hy j
  have m2 := mapped_param hc (hk v' hSv') hg' (2, i') t y fun j _ => congrFun hpar j
  have e1 := axis_co hc hF (2, i) n 0 fun r => eval ((entityDomain .tetrahedron (2, i)).param t) (v r)
  have e2 := axis_co hc hF' (2, i') n 0 fun r => eval ((entityDomain .tetrahedron (2, i')).param t) (v' r)
  rw [← m1] at e1
  rw [← m2, ← h0 n hn, ← h0 0 (by omega)] at e2
  refine e1.trans (Eq.trans ?_ e2.symm)
  rcases n with _ | n
  · simp
  · exact (ev i v ⟨n, Nat.lt_of_succ_lt_succ hn⟩).trans (Eq.trans (by rw [h i hi i' hi' v v' hSv hSv' heq hedge])
      (ev i' v' ⟨n, Nat.lt_of_succ_lt_succ hn⟩).symm)

theorem hcurl3_created {classes : String → ElementClass Fun} {poly : Option (List VecPoly)} {pl : List VecPoly}
    (hpoly : poly = some pl) (hi : Independent ℝ (pl.map (denoteVec ℝ 3))) {S : Field 3 → Prop}
    (hS : ∀ v, v ∈ lspan (pl.map (denoteVec ℝ 3)) ↔ S v) {k m : ℤ} (hk : ∀ v, S v → ∀ j, v j ∈ P 3 k)
    (hcomp : ∀ v, S v → ∀ V : ℕ → ℕ → ℝ, comp ⟨.interval, 3, V⟩ (axis .interval V 0) v ∈ P 1 m)
    {A B C' : List Item} {dA dB dC : Data} (hA : parse A = some dA) (hB : parse B = some dB) (hC : parse C' = some dC)
    {xs : List (MvPolynomial ℕ ℝ)} {ys : List (Field 2)} {zs : List (Field 3)}
    (hx : subFuns classes dA .interval = some (xs.map .scalar))
    (hy : subFuns classes dB .triangle = some (ys.map (.vector 2)))
    (hz : subFuns classes dC .tetrahedron = some (zs.map (.vector 3))) (hAm : dA.moment = "TangentIntegralMoment")
    (hBm : dB.moment = "IntegralMoment") (hCm : dC.moment = "IntegralMoment") (hxs : lspan xs = P 1 m)
    {S2 : Field 2 → Prop} (hS2 : ∀ v, S v → ∀ V : ℕ → ℕ → ℝ, S2 (faceTang V v)) (hsub : ∀ u u', S2 u → S2 u' → S2 (u - u'))
    (hz2 : ∀ u, S2 u → TangentZero2 u → (∀ y ∈ ys, pairing .triangle u y = 0) → u = 0)
    (hz3 : ∀ v, S v → TangentZero3 v → (∀ y ∈ zs, pairing .tetrahedron v y = 0) → v = 0)
    (hlen : 6 * xs.length + (4 * ys.length + zs.length) = pl.length) :
    Created (momentElement classes .tetrahedron poly
      { edges := some (.single A), faces := some (.single B), volumes := some (.single C') }) S pl.length
      (fun dofs => EdgeTrace .tetrahedron S dofs ∧ FaceTrace S dofs ∧ EdgeConform .tetrahedron S dofs ∧ FaceConform S dofs) := by
  have hc : Simp .tetrahedron := Or.inr rfl
  have hms := hcurl_moments3 hA hB hC hx hy hz
  obtain ⟨dofs, hdofs⟩ := mapM_exists (f := momentDof .tetrahedron)
    (l := hcurlMoments3 dA dB dC (xs.map .scalar) (ys.map (.vector 2)) (zs.map (.vector 3))) (by
    intro mo hmo
    simp only [hcurlMoments3, List.mem_append, List.mem_flatMap, List.mem_range, List.mem_map] at hmo
    rcases hmo with ⟨i, hi, _, ⟨x, -, rfl⟩, rfl⟩ | ⟨i, hi, _, ⟨y, -, rfl⟩, rfl⟩ | ⟨_, ⟨y, -, rfl⟩, rfl⟩
    · rw [hAm]
      obtain ⟨J, s, -, -, h⟩ := edge_moment hc (edge_distinct hc hi) dA.mapping
      obtain ⟨d, hd, -⟩ := h x
      exact ⟨d, hd⟩
    · rw [hBm]
      obtain ⟨d, hd, -⟩ := face_moment hi y dB.mapping
      exact ⟨d, hd⟩
    · rw [hCm]
      obtain ⟨d, hd, -⟩ := cell_moment hc y dC.mapping
      exact ⟨d, hd⟩)
  have htr : EdgeTrace .tetrahedron S dofs := by
    refine edge_trace hc hk (fun v hv i => hcomp v hv _) hxs (mp := dA.mapping) fun i hi x hx => ?_
    obtain ⟨d', hd', h1⟩ := momentDof_mem hdofs (m := ⟨dA.moment, .scalar x, (1, i), dA.mapping⟩) (by
      simp only [hcurlMoments3, List.mem_append, List.mem_flatMap, List.mem_range, List.mem_map]
      exact Or.inl ⟨i, hi, _, ⟨x, hx, rfl⟩, rfl⟩)
    exact ⟨d', hd', hAm ▸ h1⟩
  have hft : FaceTrace S dofs := by
    intro i hi v hv h he
    obtain ⟨a, b, c, habc, ⟨e1, l1, hab⟩, ⟨e2, l2, hac⟩, e3, l3, hbc⟩ := face_edges hi
    have hV : ∀ n, (entityDomain .tetrahedron (2, i)).v n = refVertex .tetrahedron ([a, b, c].getD n 0) := fun n => by
      rw [← habc]; rfl
    refine faceZero_of hi (hk v hv) (hz2 _ (hS2 v hv _) (tangentZero2_of 3 _ ?_ ?_ ?_) fun y hy => ?_)
    · rw [hV, hV]
      exact htr e1 l1 a b hab v hv (he e1 l1 (by rw [hab, habc]; simp))
    · rw [hV, hV]
      exact htr e2 l2 a c hac v hv (he e2 l2 (by rw [hac, habc]; simp))
    · rw [hV, hV]
      exact htr e3 l3 b c hbc v hv (he e3 l3 (by rw [hbc, habc]; simp))
    · obtain ⟨d', hd', h1⟩ := momentDof_mem hdofs (m := ⟨dB.moment, .vector 2 y, (2, i), dB.mapping⟩) (by
        simp only [hcurlMoments3, List.mem_append, List.mem_flatMap, List.mem_range, List.mem_map]
        exact Or.inr (Or.inl ⟨i, hi, _, ⟨y, hy, rfl⟩, rfl⟩))
      obtain ⟨d, hd, hd1, hd2⟩ := face_moment hi y dB.mapping
      rw [hBm] at h1
      obtain rfl := Option.some.inj (hd.symm.trans h1)
      exact Eq.trans (hd2 v).symm (h d hd' hd1)
  have hu : ∀ v, S v → (∀ d ∈ dofs, d.eval v = 0) → v = 0 := by
    intro v hv h
    refine hz3 v hv (tangentZero3_of fun i hi => hft i hi v hv (fun d hd _ => h d hd) fun _ _ _ d hd _ => h d hd) fun y hy => ?_
    obtain ⟨d', hd', h1⟩ := momentDof_mem hdofs (m := ⟨dC.moment, .vector 3 y, (3, 0), dC.mapping⟩) (by
      simp only [hcurlMoments3, List.mem_append, List.mem_flatMap, List.mem_range, List.mem_map]
      exact Or.inr (Or.inr ⟨_, ⟨y, hy, rfl⟩, rfl⟩))
    obtain ⟨d, hd, -, hd2⟩ := cell_moment hc y dC.mapping
    rw [hCm] at h1
    obtain rfl := Option.some.inj (hd.symm.trans h1)
    exact Eq.trans (hd2 v k (hk v hv)).symm (h d hd')
  have hmat : EdgeMatch .tetrahedron S dofs := by
    refine edge_match hc.affine4 (fun i hi => edge_distinct hc hi) (fun v hv i => hcomp v hv _) hxs hdofs
      (mp := dA.mapping) fun i hi => ?_
    have h1 := filter_entities (dim := 1) (xs.map Fun.scalar) (fun x i => ⟨dA.moment, x, (1, i), dA.mapping⟩) (fun _ _ => rfl) hi
    have h2 : ((((List.range 4).flatMap fun i => (ys.map (Fun.vector 2)).map fun y =>
        (⟨dB.moment, y, (2, i), dB.mapping⟩ : MomentDof Fun)) ++ (zs.map (Fun.vector 3)).map fun z =>
          (⟨dC.moment, z, (3, 0), dC.mapping⟩ : MomentDof Fun)).filter fun m => decide (m.entity = (1, i))) = [] := by
      rw [List.filter_eq_nil_iff]
      intro mo hmo
      rcases List.mem_append.1 hmo with hmo | hmo
      · obtain ⟨l, -, hmo⟩ := List.mem_flatMap.1 hmo
        obtain ⟨y, -, rfl⟩ := List.mem_map.1 hmo
        simp
      · obtain ⟨y, -, rfl⟩ := List.mem_map.1 hmo
        simp
    rw [hcurlMoments3, List.filter_append, h2, List.append_nil]
    refine h1.trans ?_
    rw [List.map_map, hAm]
    rfl
  have hcon : EdgeConform .tetrahedron S dofs := edge_conform hc.affine4 hk hmat
  have hfcon : FaceConform S dofs := by
    refine face_conform hk fun i hi i' hi' v v' hSv hSv' heq hedge => ?_
    have hval : ∀ i < 4, ∀ v : Field 3, (entityFunctionals dofs (2, i)).map (·.eval v) = ys.map fun y =>
        pairing .triangle (faceTang (entityDomain .tetrahedron (2, i)).v v) y := by
      intro i hi v
      refine entity_values hdofs (xs := ys) (h := fun y => ⟨dB.moment, .vector 2 y, (2, i), dB.mapping⟩) ?_ fun y hy d hd => ?_
      · have h1 := filter_entities (dim := 2) (ys.map (Fun.vector 2)) (fun x i => ⟨dB.moment, x, (2, i), dB.mapping⟩) (fun _ _ => rfl) hi
        have h2 : (((List.range 6).flatMap fun i => (xs.map Fun.scalar).map fun x =>
            (⟨dA.moment, x, (1, i), dA.mapping⟩ : MomentDof Fun)).filter fun m => decide (m.entity = (2, i))) = [] := by
          rw [List.filter_eq_nil_iff]
          intro mo hmo
          obtain ⟨l, -, hmo⟩ := List.mem_flatMap.1 hmo
          obtain ⟨y, -, rfl⟩ := List.mem_map.1 hmo
          simp
        have h3 : (((zs.map (Fun.vector 3)).map fun z => (⟨dC.moment, z, (3, 0), dC.mapping⟩ : MomentDof Fun)).filter
            fun m => decide (m.entity = (2, i))) = [] := by
          rw [List.filter_eq_nil_iff]
          intro mo hmo
          obtain ⟨y, -, rfl⟩ := List.mem_map.1 hmo
          simp
        rw [hcurlMoments3, List.filter_append, List.filter_append, h2, h3, List.append_nil, List.nil_append]
        refine h1.trans ?_
        rw [List.map_map]
        rfl
      · obtain ⟨d', hd', -, h2⟩ := face_moment hi y dB.mapping
        rw [hBm] at hd
        obtain rfl := Option.some.inj (hd'.symm.trans hd)
        exact h2 v
    have heq := (hval i hi v).symm.trans (heq.trans (hval i' hi' v'))
    rw [← sub_eq_zero]
    obtain ⟨a, b, c, habc, ⟨e1, l1, hab⟩, ⟨e2, l2, hac⟩, e3, l3, hbc⟩ := face_edges hi
    obtain ⟨a', b', c', habc', ⟨e1', l1', hab'⟩, ⟨e2', l2', hac'⟩, e3', l3', hbc'⟩ := face_edges hi'
    have hV : ∀ n, (entityDomain .tetrahedron (2, i)).v n = refVertex .tetrahedron ([a, b, c].getD n 0) := fun n => by
      rw [← habc]; rfl
    have hV' : ∀ n, (entityDomain .tetrahedron (2, i')).v n = refVertex .tetrahedron ([a', b', c'].getD n 0) := fun n => by
      rw [← habc']; rfl
    have hE : ∀ {e p q : ℕ}, entVerts .tetrahedron 1 e = [p, q] → ∀ (v : Field 3) t, edgeVal (refVertex .tetrahedron p) (refVertex .tetrahedron q) v t =
        eval (fun _ => t) (comp ⟨.interval, 3, (entityDomain .tetrahedron (1, e)).v⟩
          (axis .interval (entityDomain .tetrahedron (1, e)).v 0) v) := by
      intro e p q hpq v t
      rw [← edgeVal_comp]
      have e0 : (entityDomain .tetrahedron (1, e)).v 0 = refVertex .tetrahedron p := by
        show refVertex .tetrahedron ((entVerts .tetrahedron 1 e).getD 0 0) = _
        rw [hpq]; rfl
      have e1 : (entityDomain .tetrahedron (1, e)).v 1 = refVertex .tetrahedron q := by
        show refVertex .tetrahedron ((entVerts .tetrahedron 1 e).getD 1 0) = _
        rw [hpq]; rfl
      rw [e0, e1]
    refine hz2 _ (hsub _ _ (hS2 v hSv _) (hS2 v' hSv' _)) (tangentZero2_diff _ _ (fun t => ?_) (fun t => ?_) fun t => ?_) fun y hy => ?_
    · rw [hV, hV, hV', hV']
      refine (hE hab v t).trans (Eq.trans ?_ (hE hab' v' t).symm)
      exact congrArg (eval fun _ => t) (hmat e1 l1 e1' l1' v v' hSv hSv' (hedge 0 1 e1 l1 e1' l1' (by rw [FaceEdge, hab, habc]; rfl) (by rw [FaceEdge, hab', habc']; rfl)))
    · rw [hV, hV, hV', hV']
      refine (hE hac v t).trans (Eq.trans ?_ (hE hac' v' t).symm)
      exact congrArg (eval fun _ => t) (hmat e2 l2 e2' l2' v v' hSv hSv' (hedge 0 2 e2 l2 e2' l2' (by rw [FaceEdge, hac, habc]; rfl) (by rw [FaceEdge, hac', habc']; rfl)))
    · rw [hV, hV, hV', hV']
      refine (hE hbc v t).trans (Eq.trans ?_ (hE hbc' v' t).symm)
      exact congrArg (eval fun _ => t) (hmat e3 l3 e3' l3' v v' hSv hSv' (hedge 1 2 e3 l3 e3' l3' (by rw [FaceEdge, hbc, habc]; rfl) (by rw [FaceEdge, hbc', habc']; rfl)))
    · have := List.map_inj_left.1 heq y hy
      rw [pairing_comm, pairing_comm _ y] at this
      rw [pairing_comm, map_sub, this, sub_self]
  have hml : (hcurlMoments3 dA dB dC (xs.map .scalar) (ys.map (.vector 2)) (zs.map (.vector 3))).length = pl.length := by
    rw [← hlen]
    simp [hcurlMoments3, List.length_flatMap]
    omega
  obtain ⟨fs, h1, h2, h3, h4⟩ := momentElement_basis hpoly hms hdofs hml hi fun v hv => hu v ((hS v).1 hv)
  exact ⟨_, dofs, fs, h1, h2, by rw [← (mapM_forall hdofs).length_eq, hml], h4, fun v => (by rw [h3]; exact hS v), hu, htr, hft, hcon, hfcon⟩

end Verif.Families
