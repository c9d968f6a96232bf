import Verif.Families.ConformBox
import Verif.Families.Ac
/-!
# Conformity of mapped elements with further functionals (C131)
-/

namespace Verif.Families
open Verif.References Verif.Moments Verif.Functionals Verif.Elements Verif.FiniteElement Verif.Polysets Verif.Orthogonal
open MvPolynomial

theorem boxMoments_filter {c : Cell} (hc : Box c) {mA mB : Option String} {xs : List (MvPolynomial ℕ ℝ)} {ys : List (Field c.tdim)} {i : ℕ}
    (hi : i < 2 * c.tdim) : ((boxMoments c mA mB xs ys).filter fun m => m.entity = (c.tdim - 1, i)) =
      xs.map fun x => ⟨"NormalIntegralMoment", .scalar x, (c.tdim - 1, i), mA⟩ := by
  have hd : 2 ≤ c.tdim := by rcases hc.dims with h | h <;> omega
  rw [boxMoments, List.filter_append, filter_entities (dim := c.tdim - 1) xs
    (fun x i => (⟨"NormalIntegralMoment", .scalar x, (c.tdim - 1, i), mA⟩ : MomentDof Fun)) (fun _ _ => rfl) hi]
  rw [List.filter_eq_nil_iff.2, List.append_nil]
  intro m hm
  obtain ⟨y, -, rfl⟩ := List.mem_map.1 hm
  simp only [decide_eq_true_eq, Prod.mk.injEq]
  omega

/-- Normal moments against functions with the same span as the normal components, and functionals of the cell. -/
theorem box_conform_with {c : Cell} (hc : Box c) {S : Field c.tdim → Prop} {k : ℤ} (hk : ∀ v, S v → ∀ j, v j ∈ P c.tdim k)
    {mA mB : Option String} {xs : List (MvPolynomial ℕ ℝ)} {ys : List (Field c.tdim)}
    (hT : ∀ v, S v → ∀ (i : ℕ) (hi : i < 2 * c.tdim),
      pull (entityDomain c (c.tdim - 1, i)) (v ⟨qAxis c.tdim i, qAxis_lt hi⟩) ∈ lspan xs)
    {dofs : List (Dof ℝ (Field c.tdim))} (hds : (boxMoments c mA mB xs ys).mapM (momentDof c) = some dofs)
    {ex : List (Dof ℝ (Field c.tdim))} (hex : ∀ d ∈ ex, d.entity = (c.tdim, 0)) : NormalConform c S (dofs ++ ex) := by
  have hA4 : Affine4 c := by rcases hc with rfl | rfl <;> simp [Affine4]
  have hcount := box_facet_count hc
  have hd2 : 2 ≤ c.tdim := by rcases hc.dims with h | h <;> omega
  have hent : ∀ i, entityFunctionals (dofs ++ ex) (c.tdim - 1, i) = entityFunctionals dofs (c.tdim - 1, i) := by
    intro i
    have h0 : (ex.filter fun d => decide (d.entity = (c.tdim - 1, i))) = [] := by
      rw [List.filter_eq_nil_iff]
      intro d hd
      rw [hex d hd]
      simp only [decide_eq_true_eq, Prod.mk.injEq]
      omega
    rw [entityFunctionals, List.filter_append, h0, List.append_nil, entityFunctionals]
  refine normal_conform hA4 hk (T := fun p => p ∈ lspan xs ∧ p ∈ P (qFacetCell c).tdim k)
    (fun i hi => (box_facet hc (hcount ▸ hi)).1) (fun v hv i hi => ?_) (xs := xs) (fun p q hp hq h => ?_) fun v hv i hi => ?_
  · rw [hcount] at hi
    obtain ⟨-, -, n, s, hs, h1, h2, h3⟩ := box_facet hc hi
    have ha : ∀ j < c.tdim, areaVec c.tdim (entityDomain c (c.tdim - 1, i)).v j = s * if j = qAxis c.tdim i then 1 else 0 := fun j hj => by
      rw [← h3 j hj, ← box_area hc h1 h2 one_ne_zero, one_mul]
    have e := comp_scaled (entityDomain c (c.tdim - 1, i)) (qAxis_lt hi) ha v
    refine ⟨(congrArg (· ∈ lspan xs) e).mpr ?_, (congrArg (· ∈ P (qFacetCell c).tdim k) e).mpr ?_⟩
    · have := Submodule.smul_mem (lspan xs) s (hT v hv i hi)
      rwa [smul_eq_C_mul] at this
    · rw [qFacetCell_tdim hc]
      exact C_mul_mem _ (facet_pull hc hi (hk v hv _))
  · rw [← sub_eq_zero]
    refine eq_zero_of_pairing (qFacetCell_solid c) (Submodule.sub_mem _ hp.2 hq.2) (fs := xs) (Submodule.sub_mem _ hp.1 hq.1) fun x hx => ?_
    have := h x hx
    rw [pairing1_comm, pairing1_comm q] at this
    rw [pairing1_comm, map_sub, this, sub_self]
  · rw [hcount] at hi
    rw [hent]
    refine entity_values hds (boxMoments_filter hc hi) fun x hx d hd => ?_
    obtain ⟨hfc, -, n, s, hs, h1, h2, h3⟩ := box_facet hc hi
    have hw : momentFn "NormalIntegralMoment" (entityDomain c (c.tdim - 1, i)) (.scalar x) = some fun j => C (n j.val) * x := by
      rw [momentFn_normal]
      show Option.map _ (normal (entityDomain c (c.tdim - 1, i)).cell c.tdim (entityDomain c (c.tdim - 1, i)).v) = _
      rw [h2, Option.map_some]
    obtain rfl := Option.some.inj ((momentDof_of (m := ⟨"NormalIntegralMoment", .scalar x, (c.tdim - 1, i), mA⟩) hw h1).symm.trans hd)
    rw [← hfc]
    exact momentMap_pairing (entityDomain c (c.tdim - 1, i)) (fun j => box_area hc h1 h2 one_ne_zero j) x v

/-- Elements with normal moments on the facets, no moments in the cell and contravariant functionals. -/
theorem box_assembled_with {classes : String → ElementClass Fun} {c : Cell} (hc : Box c) {S : Field c.tdim → Prop} {k : ℤ}
    (hk : ∀ v, S v → ∀ j, v j ∈ P c.tdim k) {poly : Option (List VecPoly)} {args : Args} {xs : List (MvPolynomial ℕ ℝ)}
    (hms : makeIntegralMomentDofs classes c args = some (boxMoments c none none xs []))
    (hT : ∀ v, S v → ∀ (i : ℕ) (hi : i < 2 * c.tdim),
      pull (entityDomain c (c.tdim - 1, i)) (v ⟨qAxis c.tdim i, qAxis_lt hi⟩) ∈ lspan xs)
    {ex : Option (List (Dof ℝ (Field c.tdim)))} {n : ℕ} {T : List (Dof ℝ (Field c.tdim)) → Prop}
    (h : Created (momentElementWith classes c poly args ex) S n T)
    (hm : ∀ l, ex = some l → ∀ d ∈ l, d.entity = (c.tdim, 0) ∧ d.mapping = some "contravariant") :
    NormalAssembled c (momentElementWith classes c poly args ex) := by
  refine normal_assembled (h.with (T' := NormalConform c S) fun b dofs he => ?_) (fun _ h => h) fun b dofs he d hd => ?_
  · obtain ⟨ms, dofs, l, h1, h2, h3, rfl⟩ := momentElementWith_dofs he
    obtain rfl := Option.some.inj (hms.symm.trans h1)
    exact box_conform_with hc hk hT h2 fun d hd => (hm l h3 d hd).1
  · obtain ⟨ms, dofs, l, h1, h2, h3, rfl⟩ := momentElementWith_dofs he
    obtain rfl := Option.some.inj (hms.symm.trans h1)
    rcases List.mem_append.1 hd with hd | hd
    · obtain ⟨m, hm', he⟩ := forall₂_mem_left (mapM_forall h2) hd
      simp only [boxMoments, List.map_nil, List.append_nil, List.mem_flatMap, List.mem_map] at hm'
      obtain ⟨i, -, x, -, rfl⟩ := hm'
      rw [momentDof_mapping he]
      rfl
    · exact (hm l h3 d hd).2

/-- **C131** Arbogast–Correa elements of all orders. -/
theorem ac_assembled (k : ℕ) : NormalAssembled .quadrilateral (ac "equispaced" k) := by
  have hc : Box .quadrilateral := Or.inl rfl
  obtain ⟨xs, hx, hxs, hxl⟩ := sub_dpc (qFacetCell_tensor .quadrilateral) (classes := dpcClasses) rfl "NormalIntegralMoment" (k : ℤ) none
  have hms : makeIntegralMomentDofs dpcClasses .quadrilateral
      { facets := some (.single [.cls "NormalIntegralMoment", .cls "DPC", .int (k : ℤ), .dict [("variant", "equispaced")]]) } =
      some (boxMoments .quadrilateral none none xs []) := by
    rw [facet_moments (A := [.cls "NormalIntegralMoment", .cls "DPC", .int (k : ℤ), .dict [("variant", "equispaced")]]) rfl hx]
    simp only [boxMoments, List.map_nil, List.append_nil]
    rfl
  have h := ac_created k
  unfold ac at h ⊢
  refine box_assembled_with hc (k := (k : ℤ) + 1) (fun v hv => TSdiv.mem hv) hms
    (fun v hv i hi => hxs ▸ xp_facet hi (TSdiv.xp hv ⟨qAxis 2 i, qAxis_lt hi⟩)) h fun l hl d hd => ?_
  obtain ⟨f, -, he⟩ := forall₂_mem_left (mapM_forall hl) hd
  exact againstDof_kind he

/-- **C131** The Arnold–Boffi–Falk element of order 0 has no moments in the cell. -/
theorem abf_zero_assembled : NormalAssembled .quadrilateral (abf "equispaced" 0) := by
  have hc : Box .quadrilateral := Or.inl rfl
  obtain ⟨xs, hx, hxs, hxl⟩ := sub_lagrange (t := .interval) (by simp [Simplex]) (classes := abfClasses 1) rfl
    "NormalIntegralMoment" ((0 : ℕ) : ℤ) none
  have hms := quad_moments (classes := abfClasses 1)
    (A := [.cls "NormalIntegralMoment", .cls "Lagrange", .int ((0 : ℕ) : ℤ), .dict [("variant", "equispaced")]])
    (B := [.cls "IntegralMoment", .cls "Nedelec", .int ((0 : ℕ) : ℤ), .dict [("variant", "equispaced")]]) (ys := []) rfl rfl hx rfl rfl rfl
  have h := abf_created 0
  unfold abf at h ⊢
  refine box_assembled_with hc (fun v hv => ABF.mem hv) hms (fun v hv i hi => by rw [hxs]; exact degs_pull hv hi) h fun l hl d hd => ?_
  obtain ⟨f, -, he⟩ := forall₂_mem_left (mapM_forall hl) hd
  obtain ⟨J, -, rfl⟩ := Option.map_eq_some_iff.1 he
  exact ⟨rfl, rfl⟩

/-- **C131** The trimmed serendipity elements of order 1 have functionals on the facets only. -/
theorem tsdiv_one_assembled {c : Cell} (hc : Box c) : NormalAssembled c (tsdiv "equispaced" c 1) := by
  have key : ∀ (n : ℕ) (κ : Type) (keys : List κ) (f : κ → VecPoly) (l : κ → List (ℤ × ℕ × Mono)) (T : List (Dof ℝ (Field c.tdim)) → Prop),
      Dual c.tdim 0 keys f l → Created (tsdiv "equispaced" c 1) (TSdiv c.tdim 1 {w | w ∈ (keys.map f).map (denoteVec ℝ c.tdim)}) n T →
      NormalAssembled c (tsdiv "equispaced" c 1) := by
    intro n κ keys f l T D h
    obtain ⟨xs, hx, hxs, hxl⟩ := sub_dpc (qFacetCell_tensor c) (classes := dpcClasses) rfl "NormalIntegralMoment" (0 : ℤ) none
    obtain ⟨ys, hy, hys, hyl⟩ := sub_vectorDpc hc (classes := dpcClasses) rfl "IntegralMoment" (-2 : ℤ) (some "covariant")
      [("variant", "equispaced")]
    rw [qFacetCell_tdim hc] at hxs hxl
    have hms := box_moments (classes := dpcClasses) hc
      (A := [.cls "NormalIntegralMoment", .cls "DPC", .int (0 : ℤ), .dict [("variant", "equispaced")]])
      (B := [.cls "IntegralMoment", .cls "VectorDPC", .int (-2 : ℤ), .str "covariant", .dict [("variant", "equispaced")]])
      rfl rfl hx hy rfl rfl
    obtain rfl : ys = [] := List.length_eq_zero_iff.1 (by rw [hyl, if_pos (by decide)])
    have hX : ∀ v, TSdiv c.tdim 1 {w | w ∈ (keys.map f).map (denoteVec ℝ c.tdim)} v → ∀ j : Fin c.tdim, v j ∈ XP c.tdim ((0 : ℤ) + 1) j := by
      rintro v ⟨p, ⟨r, hr, hp⟩, w, hw, rfl⟩ j
      push_cast at hr hp
      exact Submodule.add_mem _ (mem_XP.2 ⟨_, hp j, r, hr, by rw [sub_add_cancel]⟩) (D.XP hw j)
    unfold tsdiv at h ⊢
    refine box_assembled_with hc (k := 1) (fun v hv j => XP_le j.2 (hX v hv j)) hms
      (fun v hv i hi => hxs ▸ xp_pull hc (hX v hv) hi) h fun l hl d hd => ?_
    rw [if_neg (by omega)] at hl
    obtain rfl := Option.some.inj hl
    exact absurd hd List.not_mem_nil
  rcases id hc with rfl | rfl
  · have h := tsdiv_created_quadrilateral (k := 1) le_rfl
    rw [← TSdiv_congr (ts2_ext 0)] at h
    exact key _ _ _ _ _ _ (ts2_dual 0) h
  · have h := tsdiv_created_hexahedron (k := 1) le_rfl
    rw [← TSdiv_congr (ts3_ext 0)] at h
    exact key _ _ _ _ _ _ (ts3_dual 0) h

theorem momentElementWith_nil (classes : String → ElementClass Fun) (c : Cell) (poly : Option (List VecPoly)) (args : Args) :
    momentElementWith classes c poly args (some []) = momentElement classes c poly args := by
  simp [momentElementWith, momentElement]

/-- **C131** The trimmed serendipity element in H(curl) of order 1 on a quadrilateral has functionals on the edges only. -/
theorem tscurl_one_assembled : EdgeAssembled .quadrilateral (tscurl "equispaced" .quadrilateral 1) := by
  have hc : Box .quadrilateral := Or.inl rfl
  obtain ⟨xs, hx, hxs, -⟩ := sub_dpc (t := .interval) (Or.inl rfl) (classes := dpcClasses) rfl "TangentIntegralMoment" (0 : ℤ) none
  have e : tscurl "equispaced" .quadrilateral 1 = momentElement dpcClasses .quadrilateral (tscurlSet 2 1)
    { edges := some (.single [.cls "TangentIntegralMoment", .cls "DPC", .int (0 : ℤ), .dict [("variant", "equispaced")]])
      faces := some (.single [.cls "IntegralMoment", .cls "VectorDPC", .int (-2 : ℤ), .str "contravariant",
        .dict [("variant", "equispaced")]])
      volumes := some (.single [.cls "IntegralMoment", .cls "VectorDPC", .int (-4 : ℤ), .str "contravariant",
        .dict [("variant", "equispaced")]]) } := momentElementWith_nil _ _ _ _
  have h := tscurl_created_quadrilateral (k := 1) le_rfl
  rw [e] at h ⊢
  refine box_edge_assembled (c := .quadrilateral) hc (fun v hv => tscurl_degree le_rfl hv) rfl hx rfl
    (fun v hv i hi a ha hax => ?_) h ?_
  · rw [hxs]
    have hX : ∀ j : Fin 2, rot v j ∈ XP 2 (((0 : ℕ) : ℤ) + 1) j := by
      intro j
      obtain ⟨p, ⟨r, hr, hp⟩, w, hw, e⟩ := (tscurl_iff 0 v).1 hv
      rw [e]
      push_cast at hr hp
      exact Submodule.add_mem _ (mem_XP.2 ⟨_, hp j, r, hr, by rw [sub_add_cancel]⟩) ((tc_dual 0).XP hw j)
    exact rot_edge hX hi ha hax
  · refine mappings_eq fun p hp input hi name d hd ho => ?_
    simp only [slots, List.mem_cons, List.not_mem_nil, or_false] at hp
    rcases hp with rfl | rfl | rfl | rfl | rfl | rfl | rfl | rfl <;> cases hi <;> cases hd
    · rfl
    · exact absurd (by decide) ho
    · exact absurd (by decide) ho

end Verif.Families
