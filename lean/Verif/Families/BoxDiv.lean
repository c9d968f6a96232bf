import Verif.Families.QCurl
import Verif.Elements.PropsDpc
/-!
# Elements on quadrilaterals and hexahedra with moments of the normal components

What is common to `BDFM`, `SerendipityDiv`, `BDDF`, `ArnoldBoffiFalk` and `AC`, and the sub-elements `DPC` and `VectorDPC`.
-/

namespace Verif.Families
open Verif.References Verif.Moments Verif.Functionals Verif.Elements Verif.FiniteElement Verif.Polysets Verif.Orthogonal
open MvPolynomial

/-! ### `DPC` and `VectorDPC` -/

/-- `DPC(reference, order, variant)` on an interval (symfem/elements/dpc.py:36-46, 61-65), for the variants with point
evaluations. -/
noncomputable def dpcInterval (variant : String) (k : ℕ) : Option (Element ℝ (MvPolynomial ℕ ℝ)) :=
  (lagrangeDofs variant .interval (refVertex .interval) k).bind fun dofs => (polySet 1 k).bind fun poly =>
    ciarlet (poly.map (denoteMono ℝ)) (dofs.map fun d => PointDof.functional ⟨d.point, (1, 0)⟩)

/-- The class `DPC` (symfem/elements/dpc.py:23-94). -/
noncomputable def dpcClass : ElementClass Fun where
  minOrder := 0
  create t k kw := scalarBasis
    (if t = .interval then dpcInterval (variantOf kw) k.toNat else dpcElement t (refVertex t) k.toNat)

/-- `VectorDPC(reference, order, variant)` on a quadrilateral or hexahedron (symfem/elements/dpc.py:97-132). -/
noncomputable def vectorDpcElement (c : Cell) (k : ℕ) : Option (Element ℝ (Field c.tdim)) :=
  (dpcDofs c (refVertex c) k).bind fun dofs => (polySetVector c.tdim c.tdim k).bind fun poly =>
    ciarlet (poly.map (denoteVec ℝ c.tdim))
      (dofs.flatMap fun p => (List.finRange c.tdim).map fun i => dotDof p fun j => if i = j then 1 else 0)

/-- The class `VectorDPC` (symfem/elements/dpc.py:97-159). -/
noncomputable def vectorDpcClass : ElementClass Fun where
  minOrder := 0
  create t k _ := vectorBasis (vectorDpcElement t k.toNat)

theorem dpc_determined {c : Cell} (hc : Tensor c) {k : ℕ} {l : List PointDof} (hl : dpcDofs c (refVertex c) k = some l)
    {p : MvPolynomial ℕ ℝ} (hp : p ∈ P c.tdim k) (hz : ∀ d ∈ l, eval d.point p = 0) : p = 0 := by
  have h1 : p.totalDegree ≤ k := by
    by_cases h0 : p = 0
    · rw [h0]; simp
    · exact_mod_cast (mem_P_iff.1 hp).1 h0
  obtain ⟨l', hl', hn⟩ := dpc_count hc k
  obtain rfl : l = l' := Option.some.inj (hl.symm.trans hl')
  rcases Nat.eq_zero_or_pos k with rfl | hk
  · have hC := totalDegree_eq_zero_iff_eq_C.1 (Nat.le_zero.1 h1)
    obtain ⟨d, hd⟩ : ∃ d, d ∈ l := List.exists_mem_of_ne_nil l (by rintro rfl; simp at hn)
    have := hz d hd
    rw [hC, eval_C] at this
    rw [hC, this, map_zero]
  · refine dpc_unisolvent hc hk hl p (fun t ht => ⟨?_, fun i hi => ?_⟩) hz
    · exact_mod_cast (mem_P.1 hp t ht).1
    · by_contra hne
      have := (mem_P.1 hp t ht).2 i (Finsupp.mem_support_iff.2 hne)
      omega

theorem tensor_dims {c : Cell} (hc : Tensor c) : c.tdim = 1 ∨ c.tdim = 2 ∨ c.tdim = 3 := by
  rcases hc with rfl | rfl | rfl <;> simp [Cell.tdim]

theorem dpc_sub {t : Cell} (ht : Tensor t) (k : ℕ) :
    ∃ fs, scalarBasis (dpcElement t (refVertex t) k) = some (fs.map .scalar) ∧
      lspan fs = P t.tdim k ∧ fs.length = (k + t.tdim).choose t.tdim := by
  obtain ⟨l, hl, hn⟩ := dpc_count ht k
  obtain ⟨poly, hp, hsp⟩ := polySet_lspan (tensor_dims ht) (k : ℤ)
  have hlen : (l.map PointDof.functional).length = (poly.map (denoteMono ℝ)).length := by
    rw [List.length_map, List.length_map, hn, polySet_length _ _ _ hp]
  obtain ⟨h1, fs, h2, h3, h4⟩ := ciarlet_basis hlen ((scalar_sets_independent ℝ).1 _ _ _ hp) fun p hps hz => by
    rw [hsp] at hps
    refine dpc_determined ht hl hps fun d hd => ?_
    rw [← eval_functional]
    exact hz _ (List.mem_map_of_mem hd)
  refine ⟨fs, ?_, h3.trans hsp, ?_⟩
  · simp only [scalarBasis, dpcElement, hl, hp, Option.bind_some, h1, h2, Option.map_some]
  · rw [h4, List.length_map, polySet_length _ _ _ hp]

theorem dpcInterval_sub (k : ℕ) :
    ∃ fs, scalarBasis (dpcInterval "equispaced" k) = some (fs.map .scalar) ∧ lspan fs = P 1 k ∧ fs.length = k + 1 := by
  have hs : Simplex .interval := by simp [Simplex]
  obtain ⟨l, hl, hn⟩ := lagrange_count hs (refVertex .interval) k
  obtain ⟨poly, hp, hsp⟩ := polySet_lspan (Or.inl rfl : 1 = 1 ∨ 1 = 2 ∨ 1 = 3) (k : ℤ)
  have hn' : l.length = k + 1 := by rw [hn]; exact Nat.choose_one_right _
  have hpl : poly.length = k + 1 := by rw [polySet_length _ _ _ hp, Nat.choose_one_right]
  have hlen : (l.map fun d => PointDof.functional ⟨d.point, (1, 0)⟩).length = (poly.map (denoteMono ℝ)).length := by
    rw [List.length_map, List.length_map, hn', hpl]
  obtain ⟨h1, fs, h2, h3, h4⟩ := ciarlet_basis hlen ((scalar_sets_independent ℝ).1 _ _ _ hp) fun p hps hz => by
    rw [hsp] at hps
    refine lagrange_determined hs _ (nonDegenerate_ref hs) hl hps fun d hd => ?_
    have := hz _ (List.mem_map_of_mem hd)
    rwa [eval_functional] at this
  refine ⟨fs, ?_, h3.trans hsp, ?_⟩
  · simp only [scalarBasis, dpcInterval, hl, hp, Option.bind_some, h1, h2, Option.map_some]
  · rw [h4, List.length_map, hpl]

/-- The functions of a `DPC` sub-element. -/
theorem sub_dpc {t : Cell} (ht : Tensor t) {classes : String → ElementClass Fun} (hc : classes "DPC" = dpcClass)
    (moment : String) (k : ℤ) (mapping : Option String) :
    ∃ fs, subFuns classes ⟨moment, "DPC", k, mapping, [("variant", "equispaced")]⟩ t = some (fs.map .scalar) ∧
      lspan fs = P t.tdim k ∧ fs.length = if k < 0 then 0 else (k.toNat + t.tdim).choose t.tdim := by
  unfold subFuns
  simp only [hc, show dpcClass.minOrder = 0 from rfl]
  by_cases hk : k < 0
  · refine ⟨[], by rw [if_pos hk]; rfl, ?_, by rw [if_pos hk]; rfl⟩
    rw [lspan, show {v : MvPolynomial ℕ ℝ | v ∈ ([] : List _)} = ∅ by ext; simp, Submodule.span_empty, eq_comm, eq_bot_iff]
    exact fun p hp => by rw [P_neg hk hp]; exact Submodule.zero_mem _
  · rw [if_neg hk, if_neg hk]
    have hk' : ((k.toNat : ℕ) : ℤ) = k := Int.toNat_of_nonneg (by omega)
    by_cases hi : t = .interval
    · subst hi
      obtain ⟨fs, h1, h2, h3⟩ := dpcInterval_sub k.toNat
      refine ⟨fs, h1, ?_, ?_⟩
      · rw [h2, hk']; rfl
      · rw [h3]; exact (Nat.choose_one_right _).symm
    · obtain ⟨fs, h1, h2, h3⟩ := dpc_sub ht k.toNat
      refine ⟨fs, ?_, by rw [h2, hk'], h3⟩
      show scalarBasis (if t = .interval then _ else _) = _
      rw [if_neg hi]
      exact h1

/-- **C92.** Vector DPC elements can be created at every order, and their functions are all vectors of polynomials. -/
theorem vectorDpc_basis {c : Cell} (hc : Box c) (k : ℕ) :
    ∃ e fs, vectorDpcElement c k = some e ∧ getBasis e = some fs ∧
      lspan fs = PV c.tdim c.tdim k ∧ fs.length = (k + c.tdim).choose c.tdim * c.tdim := by
  obtain ⟨l, hl, hn⟩ := dpc_count hc.tensor k
  obtain ⟨poly, hp, hsp⟩ := polySetVector_lspan (tensor_dims hc.tensor) c.tdim (k : ℤ)
  have hpl : poly.length = (k + c.tdim).choose c.tdim * c.tdim := by
    have hp' := hp
    rw [polySetVector, Option.map_eq_some_iff] at hp'
    obtain ⟨ps, hps, rfl⟩ := hp'
    rw [vectorSet_length, polySet_length _ _ _ hps]
  have hlen : (l.flatMap fun p => (List.finRange c.tdim).map fun i =>
      (dotDof p fun j => if i = j then 1 else 0 : Dof ℝ (Field c.tdim))).length = (poly.map (denoteVec ℝ c.tdim)).length := by
    rw [List.length_map, hpl, List.length_flatMap]
    simp [hn]
  obtain ⟨h1, fs, h2, h3, h4⟩ := ciarlet_basis hlen ((vector_sets_independent ℝ c.tdim).1 _ _ _ hp) fun u hu hz => by
    rw [hsp, mem_PV] at hu
    funext i
    refine dpc_determined hc.tensor hl (hu i) fun d hd => ?_
    rw [← eval_dotDof]
    exact hz _ (List.mem_flatMap.2 ⟨d, hd, List.mem_map.2 ⟨i, List.mem_finRange i, rfl⟩⟩)
  refine ⟨_, fs, ?_, h2, h3.trans hsp, ?_⟩
  · simp only [vectorDpcElement, hl, hp, Option.bind_some, h1]
  · rw [h4, List.length_map, hpl]

example : ∃ e fs, vectorDpcElement .hexahedron 2 = some e ∧ getBasis e = some fs ∧ fs.length = 30 := by
  obtain ⟨e, fs, h1, h2, -, h3⟩ := vectorDpc_basis (c := .hexahedron) (Or.inr rfl) 2
  exact ⟨e, fs, h1, h2, h3⟩

theorem sub_vectorDpc {t : Cell} (ht : Box t) {classes : String → ElementClass Fun} (hc : classes "VectorDPC" = vectorDpcClass)
    (moment : String) (k : ℤ) (mapping : Option String) (kw : Kwargs) :
    ∃ fs, subFuns classes ⟨moment, "VectorDPC", k, mapping, kw⟩ t = some (fs.map (.vector t.tdim)) ∧
      lspan fs = PV t.tdim t.tdim k ∧ fs.length = if k < 0 then 0 else (k.toNat + t.tdim).choose t.tdim * t.tdim := by
  unfold subFuns
  simp only [hc, show vectorDpcClass.minOrder = 0 from rfl]
  by_cases hk : k < 0
  · exact ⟨[], by rw [if_pos hk]; rfl, PV_neg hk, by rw [if_pos hk]; rfl⟩
  · obtain ⟨e, fs, h0, h1, h2, h3⟩ := vectorDpc_basis ht k.toNat
    refine ⟨fs, ?_, ?_, ?_⟩
    · rw [if_neg hk]
      show vectorBasis (vectorDpcElement t k.toNat) = _
      rw [vectorBasis, h0, Option.bind_some, h1]
      rfl
    · rw [h2, Int.toNat_of_nonneg (by omega)]
    · rw [h3, if_neg hk]

/-! ### Elements with moments of normal components -/

/-- The moments on the facets and in the cell. -/
def boxMoments (c : Cell) (mA mB : Option String) (xs : List (MvPolynomial ℕ ℝ)) (ys : List (Field c.tdim)) : List (MomentDof Fun) :=
  ((List.range (2 * c.tdim)).flatMap fun i => xs.map fun x => ⟨"NormalIntegralMoment", .scalar x, (c.tdim - 1, i), mA⟩) ++
    ys.map fun y => ⟨"IntegralMoment", .vector c.tdim y, (c.tdim, 0), mB⟩

theorem boxMoments_length (c : Cell) (mA mB : Option String) (xs : List (MvPolynomial ℕ ℝ)) (ys : List (Field c.tdim)) :
    (boxMoments c mA mB xs ys).length = 2 * c.tdim * xs.length + ys.length := by
  simp [boxMoments, List.length_flatMap]

/-- The normal component on a facet vanishes if its moments vanish. -/
theorem box_facet_zero {c : Cell} (hc : Box c) {i : ℕ} (hi : i < 2 * c.tdim) {k : ℤ} {v : Field c.tdim}
    (hv : ∀ j, v j ∈ P c.tdim k) {xs : List (MvPolynomial ℕ ℝ)}
    (hxs : pull (entityDomain c (c.tdim - 1, i)) (v ⟨qAxis c.tdim i, qAxis_lt hi⟩) ∈ lspan xs) {mp : Option String}
    (h : ∀ x ∈ xs, ∀ d, momentDof c ⟨"NormalIntegralMoment", .scalar x, (c.tdim - 1, i), mp⟩ = some d → d.eval v = 0)
    (z : ℕ → ℝ) (hz : z (qAxis c.tdim i) = qVal c.tdim i) : eval z (v ⟨qAxis c.tdim i, qAxis_lt hi⟩) = 0 := by
  obtain ⟨F1, F2, -⟩ := box_facet hc hi
  obtain ⟨s, hs, hm⟩ := box_facet_moment hc hi mp
  have hd : (entityDomain c (c.tdim - 1, i)).cell.tdim = c.tdim - 1 := by rw [F1, qFacetCell_tdim hc]
  have hsol : Solid (entityDomain c (c.tdim - 1, i)).cell := by rw [F1]; exact qFacetCell_solid c
  obtain ⟨y, hy⟩ := F2.covers (qAxis_lt hi) hd hz
  have hcomp : comp (entityDomain c (c.tdim - 1, i)) (fun j => if j = qAxis c.tdim i then 1 else 0) v ∈ lspan xs :=
    (comp_single (D := entityDomain c (c.tdim - 1, i)) (qAxis_lt hi) (fun _ => rfl) v) ▸ hxs
  have := trace_zero' (entityDomain c (c.tdim - 1, i)) hsol one_ne_zero hs hv hcomp (fun x hx => by
    obtain ⟨d, hd, -, hd'⟩ := hm x
    exact (hd' v).symm.trans (h x hx d hd)) hy
  refine Eq.trans ?_ this
  show _ = ∑ j : Fin c.tdim, (if j.val = qAxis c.tdim i then (1 : ℝ) else 0) * eval z (v j)
  rw [Finset.sum_eq_single ⟨qAxis c.tdim i, qAxis_lt hi⟩]
  · rw [if_pos rfl, one_mul]
  · intro j _ hj
    rw [if_neg fun hc => hj (Fin.ext hc), zero_mul]
  · intro hc; exact absurd (Finset.mem_univ _) hc

theorem box_dofs {c : Cell} (hc : Box c) (mA mB : Option String) (xs : List (MvPolynomial ℕ ℝ)) (ys : List (Field c.tdim)) :
    ∃ dofs, (boxMoments c mA mB xs ys).mapM (momentDof c) = some dofs := by
  refine mapM_exists fun mo hmo => ?_
  simp only [boxMoments, List.mem_append, List.mem_flatMap, List.mem_range, List.mem_map] at hmo
  rcases hmo with ⟨i, hi, x, -, rfl⟩ | ⟨y, -, rfl⟩
  · obtain ⟨s, -, h⟩ := box_facet_moment hc hi mA
    obtain ⟨d, hd, -⟩ := h x
    exact ⟨d, hd⟩
  · obtain ⟨d, hd, -⟩ := box_moment hc y mB
    exact ⟨d, hd⟩

/-- The functionals of a facet determine the normal component. -/
theorem box_trace {c : Cell} (hc : Box c) {mA mB : Option String} {xs : List (MvPolynomial ℕ ℝ)} {ys : List (Field c.tdim)}
    {dofs : List (Dof ℝ (Field c.tdim))} (hdofs : (boxMoments c mA mB xs ys).mapM (momentDof c) = some dofs)
    (extra : List (Dof ℝ (Field c.tdim))) {S : Field c.tdim → Prop} {k : ℤ} (hk : ∀ v, S v → ∀ j, v j ∈ P c.tdim k)
    (hT : ∀ v, S v → ∀ (i : ℕ) (hi : i < 2 * c.tdim),
      pull (entityDomain c (c.tdim - 1, i)) (v ⟨qAxis c.tdim i, qAxis_lt hi⟩) ∈ lspan xs) :
    QNormalTrace c S (dofs ++ extra) := by
  intro i hi v hv h z hz j hj
  obtain rfl : j = ⟨qAxis c.tdim i, qAxis_lt hi⟩ := Fin.ext hj
  refine box_facet_zero hc hi (hk v hv) (hT v hv i hi) (mp := mA) (fun x hx d hd => ?_) z hz
  obtain ⟨d', hd', h1⟩ := momentDof_mem hdofs (m := ⟨"NormalIntegralMoment", .scalar x, (c.tdim - 1, i), mA⟩) (by
    simp only [boxMoments, List.mem_append, List.mem_flatMap, List.mem_range, List.mem_map]
    exact Or.inl ⟨i, by omega, x, hx, rfl⟩)
  obtain rfl := Option.some.inj (hd.symm.trans h1)
  obtain ⟨s, -, h'⟩ := box_facet_moment hc hi mA
  obtain ⟨d'', hd1, hd2, -⟩ := h' x
  obtain rfl := Option.some.inj (hd.symm.trans hd1)
  exact h d (List.mem_append_left _ hd') hd2

/-- The functionals in the cell. -/
theorem box_pairing {c : Cell} (hc : Box c) {mA mB : Option String} {xs : List (MvPolynomial ℕ ℝ)} {ys : List (Field c.tdim)}
    {dofs : List (Dof ℝ (Field c.tdim))} (hdofs : (boxMoments c mA mB xs ys).mapM (momentDof c) = some dofs) {v : Field c.tdim} {k : ℤ}
    (hv : ∀ j, v j ∈ P c.tdim k) (h : ∀ d ∈ dofs, d.eval v = 0) {y : Field c.tdim} (hy : y ∈ lspan ys) : pairing c v y = 0 := by
  refine pairing_lspan (fun y hy => ?_) hy
  obtain ⟨d', hd', h1⟩ := momentDof_mem hdofs (m := ⟨"IntegralMoment", .vector c.tdim y, (c.tdim, 0), mB⟩) (by
    simp only [boxMoments, List.mem_append, List.mem_map]
    exact Or.inr ⟨y, hy, rfl⟩)
  obtain ⟨d, hd, -, hd2⟩ := box_moment hc y mB
  obtain rfl := Option.some.inj (hd.symm.trans h1)
  rw [← hd2 v _ hv]
  exact h d hd'

/-- The moments, when there are sub-elements on facets and cells. -/
theorem box_moments {classes : String → ElementClass Fun} {c : Cell} (hc : Box c) {A B : List Item} {dA dB : Data}
    (hA : parse A = some dA) (hB : parse B = some dB) {xs : List (MvPolynomial ℕ ℝ)} {ys : List (Field c.tdim)}
    (hx : subFuns classes dA (qFacetCell c) = some (xs.map .scalar)) (hy : subFuns classes dB c = some (ys.map (.vector c.tdim)))
    (hAm : dA.moment = "NormalIntegralMoment") (hBm : dB.moment = "IntegralMoment") :
    makeIntegralMomentDofs classes c { facets := some (.single A), cells := some (.single B) } =
      some (boxMoments c dA.mapping dB.mapping xs ys) := by
  rw [qdiv_moments hc hA hB hx hy]
  simp only [qdivMoments, boxMoments, hAm, hBm, List.map_map, Function.comp_def]

/-- An element with moments on facets and cells. -/
theorem box_created {classes : String → ElementClass Fun} {c : Cell} (hc : Box c) {poly : Option (List VecPoly)}
    {pl : List VecPoly} (hpoly : poly = some pl) (hi : Independent ℝ (pl.map (denoteVec ℝ c.tdim))) {S : Field c.tdim → Prop}
    (hS : ∀ v, v ∈ lspan (pl.map (denoteVec ℝ c.tdim)) ↔ S v) {k : ℤ} (hk : ∀ v, S v → ∀ j, v j ∈ P c.tdim k)
    {A B : List Item} {dA dB : Data} (hA : parse A = some dA) (hB : parse B = some dB) {xs : List (MvPolynomial ℕ ℝ)}
    {ys : List (Field c.tdim)} (hx : subFuns classes dA (qFacetCell c) = some (xs.map .scalar))
    (hy : subFuns classes dB c = some (ys.map (.vector c.tdim))) (hAm : dA.moment = "NormalIntegralMoment")
    (hBm : dB.moment = "IntegralMoment")
    (hT : ∀ v, S v → ∀ (i : ℕ) (hi : i < 2 * c.tdim),
      pull (entityDomain c (c.tdim - 1, i)) (v ⟨qAxis c.tdim i, qAxis_lt hi⟩) ∈ lspan xs)
    (hz : ∀ v, S v → (∀ (i : Fin c.tdim) (z : ℕ → ℝ), z i.val = 0 ∨ z i.val = 1 → eval z (v i) = 0) →
      (∀ y ∈ lspan ys, pairing c v y = 0) → v = 0)
    (hlen : 2 * c.tdim * xs.length + ys.length = pl.length) :
    Created (momentElement classes c poly { facets := some (.single A), cells := some (.single B) }) S pl.length
      (QNormalTrace c S) := by
  have hms := box_moments hc hA hB hx hy hAm hBm
  obtain ⟨dofs, hdofs⟩ := box_dofs hc dA.mapping dB.mapping xs ys
  have htr : QNormalTrace c S dofs := by
    have := box_trace hc hdofs [] hk hT
    rwa [List.append_nil] at this
  have hu : ∀ v, S v → (∀ d ∈ dofs, d.eval v = 0) → v = 0 := fun v hv h =>
    hz v hv (box_normalZero fun i hi => htr i hi v hv fun d hd _ => h d hd) fun y hy => box_pairing hc hdofs (hk v hv) h hy
  have hml : (boxMoments c dA.mapping dB.mapping xs ys).length = pl.length := by rw [boxMoments_length, hlen]
  obtain ⟨fs, h1, h2, h3, h4⟩ := momentElement_basis hpoly hms hdofs hml hi fun v hv => hu v ((hS v).1 hv)
  exact ⟨_, dofs, fs, h1, h2, by rw [← (mapM_forall hdofs).length_eq, hml], h4, fun v => by rw [h3, hS], hu, htr⟩

end Verif.Families
