import Verif.Families.NotConformBox
import Verif.Families.SerCurl3
/-!
# Conformity of mapped elements on quadrilaterals and hexahedra (C131)
-/

namespace Verif.Families
open Verif.References Verif.Moments Verif.Functionals Verif.Elements Verif.FiniteElement Verif.Polysets Verif.Orthogonal
open MvPolynomial

theorem Created.with {V : Type} [AddCommGroup V] [Module ℝ V] {e : Option (Element ℝ V)} {S : V → Prop} {n : ℕ}
    {T T' : List (Dof ℝ V) → Prop} (h : Created e S n T) (h' : ∀ b dofs, e = some (.ciarlet b dofs) → T' dofs) : Created e S n T' := by
  obtain ⟨basis, dofs, fs, h1, h2, h3, h4, h5, h6, h7⟩ := h
  exact ⟨basis, dofs, fs, h1, h2, h3, h4, h5, h6, h' _ _ h1⟩

theorem div_split {classes : String → ElementClass Fun} {c : Cell} {A B : Input} {ms : List (MomentDof Fun)}
    (h : makeIntegralMomentDofs classes c { facets := some A, cells := some B } = some ms) :
    ∃ m1 m2, slotDofs classes c ((c.tdim : ℤ) - 1) (some A) = some m1 ∧ slotDofs classes c (c.tdim : ℤ) (some B) = some m2 ∧
      ms = m1 ++ m2 := by
  obtain ⟨ls, hls, rfl⟩ := Option.map_eq_some_iff.1 h
  have hf := mapM_forall hls
  simp only [slots] at hf
  rcases hf with _ | ⟨h0, hf⟩
  rcases hf with _ | ⟨h1, hf⟩
  rcases hf with _ | ⟨h2, hf⟩
  rcases hf with _ | ⟨h3, hf⟩
  rcases hf with _ | ⟨h4, hf⟩
  rcases hf with _ | ⟨h5, hf⟩
  rcases hf with _ | ⟨h6, hf⟩
  rcases hf with _ | ⟨h7, hf⟩
  cases hf
  cases h0; cases h1; cases h2; cases h3; cases h4; cases h5
  exact ⟨_, _, h6, h7, by simp⟩

theorem curl_split {classes : String → ElementClass Fun} {c : Cell} {A B C' : Input} {ms : List (MomentDof Fun)}
    (h : makeIntegralMomentDofs classes c { edges := some A, faces := some B, volumes := some C' } = some ms) :
    ∃ m1 m2 m3, slotDofs classes c 1 (some A) = some m1 ∧ slotDofs classes c 2 (some B) = some m2 ∧
      slotDofs classes c 3 (some C') = some m3 ∧ ms = m1 ++ (m2 ++ m3) := by
  obtain ⟨ls, hls, rfl⟩ := Option.map_eq_some_iff.1 h
  have hf := mapM_forall hls
  simp only [slots] at hf
  rcases hf with _ | ⟨h0, hf⟩
  rcases hf with _ | ⟨h1, hf⟩
  rcases hf with _ | ⟨h2, hf⟩
  rcases hf with _ | ⟨h3, hf⟩
  rcases hf with _ | ⟨h4, hf⟩
  rcases hf with _ | ⟨h5, hf⟩
  rcases hf with _ | ⟨h6, hf⟩
  rcases hf with _ | ⟨h7, hf⟩
  cases hf
  cases h0; cases h4; cases h5; cases h6; cases h7
  exact ⟨_, _, _, h1, h2, h3, by simp⟩

theorem filter_other {classes : String → ElementClass Fun} {c : Cell} {dim : ℤ} {input : Input} {ms : List (MomentDof Fun)}
    (h : slotDofs classes c dim (some input) = some ms) {e : ℕ × ℕ} (he : (e.1 : ℤ) ≠ dim) :
    (ms.filter fun m => decide (m.entity = e)) = [] := by
  rw [List.filter_eq_nil_iff]
  intro m hm
  obtain ⟨-, -, -, -, -, h1, -⟩ := mem_slotDofs h hm
  simp only [decide_eq_true_eq]
  rintro rfl
  exact he h1

/-- The functionals of facet `i`. -/
theorem facet_filter {classes : String → ElementClass Fun} {c : Cell} (hc : Box c) {A B : List Item} {dA : Data} (hA : parse A = some dA)
    {xs : List (MvPolynomial ℕ ℝ)} (hx : subFuns classes dA (qFacetCell c) = some (xs.map .scalar)) {ms : List (MomentDof Fun)}
    (hms : makeIntegralMomentDofs classes c { facets := some (.single A), cells := some (.single B) } = some ms) {i : ℕ}
    (hi : i < entityCount c (c.tdim - 1)) :
    (ms.filter fun m => m.entity = (c.tdim - 1, i)) = xs.map fun x => ⟨dA.moment, .scalar x, (c.tdim - 1, i), dA.mapping⟩ := by
  obtain ⟨m1, m2, h1, h2, rfl⟩ := div_split hms
  have hd : 2 ≤ c.tdim ∧ c.tdim ≤ 3 := by rcases hc.dims with h | h <;> omega
  have ht : c.subEntityTypes[c.tdim - 1]? = some (.all (qFacetCell c)) := by rcases hc with rfl | rfl <;> rfl
  have h3 := slot_uniform (classes := classes) (c := c) (dim := c.tdim - 1) (by omega) (by omega) (by omega) ht hA hx
  rw [show ((c.tdim - 1 : ℕ) : ℤ) = (c.tdim : ℤ) - 1 by omega, h1] at h3
  obtain rfl := Option.some.inj h3
  rw [List.filter_append, filter_other h2 (by simp only; omega), List.append_nil]
  have := filter_entities (dim := c.tdim - 1) (xs.map Fun.scalar) (fun x i => (⟨dA.moment, x, (c.tdim - 1, i), dA.mapping⟩ : MomentDof Fun))
    (fun _ _ => rfl) hi
  rw [this, List.map_map]
  rfl

/-- The functionals of edge `i`. -/
theorem edge_filter {classes : String → ElementClass Fun} {c : Cell} (hc : Box c) {A : List Item} {B C' : Input} {dA : Data}
    (hA : parse A = some dA) {xs : List (MvPolynomial ℕ ℝ)} (hx : subFuns classes dA .interval = some (xs.map .scalar))
    {ms : List (MomentDof Fun)}
    (hms : makeIntegralMomentDofs classes c { edges := some (.single A), faces := some B, volumes := some C' } = some ms)
    {i : ℕ} (hi : i < entityCount c 1) :
    (ms.filter fun m => m.entity = (1, i)) = xs.map fun x => ⟨dA.moment, .scalar x, (1, i), dA.mapping⟩ := by
  obtain ⟨m1, m2, m3, h1, h2, h3, rfl⟩ := curl_split hms
  have hd : 2 ≤ c.tdim ∧ c.tdim ≤ 3 := by rcases hc.dims with h | h <;> omega
  have ht : c.subEntityTypes[1]? = some (.all .interval) := by rcases hc with rfl | rfl <;> rfl
  have h4 := slot_uniform (classes := classes) (c := c) (dim := 1) (by omega) (by omega) (by omega) ht hA hx
  rw [Nat.cast_one, h1] at h4
  obtain rfl := Option.some.inj h4
  rw [List.filter_append, List.filter_append, filter_other h2 (by simp), filter_other h3 (by simp), List.append_nil, List.append_nil]
  have := filter_entities (dim := 1) (xs.map Fun.scalar) (fun x i => (⟨dA.moment, x, (1, i), dA.mapping⟩ : MomentDof Fun))
    (fun _ _ => rfl) hi
  rw [this, List.map_map]
  rfl

theorem box_area {c : Cell} (hc : Box c) {i : ℕ} {J : ℝ} {n : ℕ → ℝ}
    (h1 : jacobian (entityDomain c (c.tdim - 1, i)).cell c.tdim (entityDomain c (c.tdim - 1, i)).v = some J)
    (h2 : normal (entityDomain c (c.tdim - 1, i)).cell c.tdim (entityDomain c (c.tdim - 1, i)).v = some n) (hJ : J ≠ 0) (j : ℕ) :
    J * n j = areaVec c.tdim (entityDomain c (c.tdim - 1, i)).v j := by
  rcases hc with rfl | rfl
  · exact jac_normal2 h1 h2 hJ j
  · exact jac_normal3 (Or.inr rfl) h1 h2 hJ j

theorem comp_scaled (D : Domain) {a : ℕ} (ha : a < D.g) {n : ℕ → ℝ} {s : ℝ} (hn : ∀ j < D.g, n j = s * if j = a then 1 else 0)
    (v : Field D.g) : comp D n v = C s * Verif.Families.pull D (v ⟨a, ha⟩) := by
  rw [comp, Finset.sum_eq_single ⟨a, ha⟩]
  · rw [hn _ ha, if_pos rfl, mul_one]
  · intro j _ hj
    rw [hn _ j.2, if_neg fun h => hj (Fin.ext h), mul_zero, C_0, zero_mul]
  · intro hc; exact absurd (Finset.mem_univ _) hc

/-- Normal moments against functions with the same span as the normal components. -/
theorem box_conform {classes : String → ElementClass Fun} {c : Cell} (hc : Box c) {S : Field c.tdim → Prop} {k : ℤ}
    (hk : ∀ v, S v → ∀ j, v j ∈ P c.tdim k) {A B : List Item} {dA : Data} (hA : parse A = some dA)
    {xs : List (MvPolynomial ℕ ℝ)} (hx : subFuns classes dA (qFacetCell c) = some (xs.map .scalar))
    (hAm : dA.moment = "NormalIntegralMoment")
    (hT : ∀ v, S v → ∀ (i : ℕ) (hi : i < 2 * c.tdim),
      pull (entityDomain c (c.tdim - 1, i)) (v ⟨qAxis c.tdim i, qAxis_lt hi⟩) ∈ lspan xs)
    {ms : List (MomentDof Fun)}
    (hms : makeIntegralMomentDofs classes c { facets := some (.single A), cells := some (.single B) } = some ms)
    {dofs : List (Dof ℝ (Field c.tdim))} (hds : ms.mapM (momentDof c) = some dofs) : NormalConform c S dofs := by
  have hA4 : Affine4 c := by rcases hc with rfl | rfl <;> simp [Affine4]
  have hcount := box_facet_count hc
  refine normal_conform hA4 hk (T := fun p => p ∈ lspan xs ∧ p ∈ P (qFacetCell c).tdim k)
    (fun i hi => (box_facet hc (hcount ▸ hi)).1) (fun v hv i hi => ?_) (xs := xs) (fun p q hp hq h => ?_) fun v hv i hi => ?_
  · rw [hcount] at hi
    obtain ⟨-, -, n, s, hs, h1, h2, h3⟩ := box_facet hc hi
    have ha : ∀ j < c.tdim, areaVec c.tdim (entityDomain c (c.tdim - 1, i)).v j = s * if j = qAxis c.tdim i then 1 else 0 := fun j hj => by
      rw [← h3 j hj, ← box_area hc h1 h2 one_ne_zero, one_mul]
    have e := comp_scaled (entityDomain c (c.tdim - 1, i)) (qAxis_lt hi) ha v
    refine ⟨(congrArg (· ∈ lspan xs) e).mpr ?_, (congrArg (· ∈ P (qFacetCell c).tdim k) e).mpr ?_⟩
    · have := Submodule.smul_mem (lspan xs) s (hT v hv i hi)
      rwa [smul_eq_C_mul] at this
    · rw [qFacetCell_tdim hc]
      exact C_mul_mem _ (facet_pull hc hi (hk v hv _))
  · rw [← sub_eq_zero]
    refine eq_zero_of_pairing (qFacetCell_solid c) (Submodule.sub_mem _ hp.2 hq.2) (fs := xs) (Submodule.sub_mem _ hp.1 hq.1) fun x hx => ?_
    have := h x hx
    rw [pairing1_comm, pairing1_comm q] at this
    rw [pairing1_comm, map_sub, this, sub_self]
  · refine entity_values hds (facet_filter hc hA hx hms hi) fun x hx d hd => ?_
    rw [hcount] at hi
    obtain ⟨hfc, -, n, s, hs, h1, h2, h3⟩ := box_facet hc hi
    have hw : momentFn "NormalIntegralMoment" (entityDomain c (c.tdim - 1, i)) (.scalar x) = some fun j => C (n j.val) * x := by
      rw [momentFn_normal]
      show Option.map _ (normal (entityDomain c (c.tdim - 1, i)).cell c.tdim (entityDomain c (c.tdim - 1, i)).v) = _
      rw [h2, Option.map_some]
    rw [hAm] at hd
    obtain rfl := Option.some.inj ((momentDof_of (m := ⟨"NormalIntegralMoment", .scalar x, (c.tdim - 1, i), dA.mapping⟩) hw h1).symm.trans hd)
    rw [← hfc]
    exact momentMap_pairing (entityDomain c (c.tdim - 1, i)) (fun j => box_area hc h1 h2 one_ne_zero j) x v

/-- Elements with normal moments on the facets and contravariant functionals. -/
theorem box_assembled {classes : String → ElementClass Fun} {c : Cell} (hc : Box c) {S : Field c.tdim → Prop} {k : ℤ}
    (hk : ∀ v, S v → ∀ j, v j ∈ P c.tdim k) {poly : Option (List VecPoly)} {A B : List Item} {dA : Data} (hA : parse A = some dA)
    {xs : List (MvPolynomial ℕ ℝ)} (hx : subFuns classes dA (qFacetCell c) = some (xs.map .scalar))
    (hAm : dA.moment = "NormalIntegralMoment")
    (hT : ∀ v, S v → ∀ (i : ℕ) (hi : i < 2 * c.tdim),
      pull (entityDomain c (c.tdim - 1, i)) (v ⟨qAxis c.tdim i, qAxis_lt hi⟩) ∈ lspan xs) {n : ℕ}
    {T : List (Dof ℝ (Field c.tdim)) → Prop}
    (h : Created (momentElement classes c poly { facets := some (.single A), cells := some (.single B) }) S n T)
    (hm : ∀ b dofs, momentElement classes c poly { facets := some (.single A), cells := some (.single B) } = some (.ciarlet b dofs) →
      ∀ d ∈ dofs, d.mapping = some "contravariant") :
    NormalAssembled c (momentElement classes c poly { facets := some (.single A), cells := some (.single B) }) := by
  refine normal_assembled (h.with (T' := NormalConform c S) fun b dofs he => ?_) (fun _ h => h) hm
  obtain ⟨ms, hms, hds⟩ := momentElement_dofs he
  exact box_conform hc hk hA hx hAm hT hms hds

/-- Tangential moments against polynomials of the degree of the tangential components. -/
theorem box_edge_match {classes : String → ElementClass Fun} {c : Cell} (hc : Box c) {S : Field c.tdim → Prop} {k : ℤ}
    (hk : ∀ v, S v → ∀ j, v j ∈ P c.tdim k) {A : List Item} {B C' : Input} {dA : Data} (hA : parse A = some dA)
    {xs : List (MvPolynomial ℕ ℝ)} (hx : subFuns classes dA .interval = some (xs.map .scalar))
    (hAm : dA.moment = "TangentIntegralMoment")
    (hT : ∀ v, S v → ∀ i < entityCount c 1, ∀ a (ha : a < c.tdim),
      (∀ j, axis .interval (entityDomain c (1, i)).v 0 j = if j = a then 1 else 0) →
      pull ⟨.interval, c.tdim, (entityDomain c (1, i)).v⟩ (v ⟨a, ha⟩) ∈ lspan xs)
    {ms : List (MomentDof Fun)}
    (hms : makeIntegralMomentDofs classes c { edges := some (.single A), faces := some B, volumes := some C' } = some ms)
    {dofs : List (Dof ℝ (Field c.tdim))} (hds : ms.mapM (momentDof c) = some dofs) : EdgeMatch c S dofs := by
  have hA4 : Affine4 c := by rcases hc with rfl | rfl <;> simp [Affine4]
  have hdis : ∀ i < entityCount c 1, ∃ j < c.tdim, (entityDomain c (1, i)).v 1 j ≠ (entityDomain c (1, i)).v 0 j := by
    intro i hi
    obtain ⟨a, ha, hax, -⟩ := box_edge hc hi
    refine ⟨a, ha, fun h => ?_⟩
    have := hax a
    rw [if_pos rfl] at this
    simp [axis, psub, axisVertices, h] at this
  have hcomp : ∀ v, S v → ∀ i < entityCount c 1,
      comp ⟨.interval, c.tdim, (entityDomain c (1, i)).v⟩ (axis .interval (entityDomain c (1, i)).v 0) v ∈ lspan xs ∧
      comp ⟨.interval, c.tdim, (entityDomain c (1, i)).v⟩ (axis .interval (entityDomain c (1, i)).v 0) v ∈ P 1 k := by
    intro v hv i hi
    obtain ⟨a, ha, hax, -⟩ := box_edge hc hi
    rw [comp_single (D := ⟨.interval, c.tdim, (entityDomain c (1, i)).v⟩) ha hax]
    exact ⟨hT v hv i hi a ha hax, pull_mem ⟨.interval, c.tdim, (entityDomain c (1, i)).v⟩ (hk v hv _)⟩
  intro i hi i' hi' v v' hv hv' heq
  have val : ∀ i < entityCount c 1, ∀ v, (entityFunctionals dofs (1, i)).map (·.eval v) = xs.map fun x =>
      pairing1 .interval (comp ⟨.interval, c.tdim, (entityDomain c (1, i)).v⟩ (axis .interval (entityDomain c (1, i)).v 0) v) x :=
    fun i hi v => entity_values hds (edge_filter hc hA hx hms hi) fun x _ d hd => edge_value hA4 (hdis i hi) (hAm ▸ hd) v
  rw [val i hi, val i' hi'] at heq
  rw [← sub_eq_zero]
  refine eq_zero_of_pairing (c := .interval) (by simp [Solid]) (Submodule.sub_mem _ (hcomp v hv i hi).2 (hcomp v' hv' i' hi').2) (fs := xs)
    (Submodule.sub_mem _ (hcomp v hv i hi).1 (hcomp v' hv' i' hi').1) fun x hx => ?_
  · have := List.map_inj_left.1 heq x hx
    rw [pairing1_comm, pairing1_comm _ x] at this
    rw [pairing1_comm, map_sub, this, sub_self]

/-- Elements with tangential moments on the edges and covariant functionals. -/
theorem box_edge_assembled {classes : String → ElementClass Fun} {c : Cell} (hc : Box c) {S : Field c.tdim → Prop} {k : ℤ}
    (hk : ∀ v, S v → ∀ j, v j ∈ P c.tdim k) {poly : Option (List VecPoly)} {A : List Item} {B C' : Input} {dA : Data}
    (hA : parse A = some dA) {xs : List (MvPolynomial ℕ ℝ)} (hx : subFuns classes dA .interval = some (xs.map .scalar))
    (hAm : dA.moment = "TangentIntegralMoment")
    (hT : ∀ v, S v → ∀ i < entityCount c 1, ∀ a (ha : a < c.tdim),
      (∀ j, axis .interval (entityDomain c (1, i)).v 0 j = if j = a then 1 else 0) →
      pull ⟨.interval, c.tdim, (entityDomain c (1, i)).v⟩ (v ⟨a, ha⟩) ∈ lspan xs) {n : ℕ}
    {T : List (Dof ℝ (Field c.tdim)) → Prop}
    (h : Created (momentElement classes c poly { edges := some (.single A), faces := some B, volumes := some C' }) S n T)
    (hm : ∀ b dofs, momentElement classes c poly { edges := some (.single A), faces := some B, volumes := some C' } =
      some (.ciarlet b dofs) → ∀ d ∈ dofs, d.mapping = some "covariant") :
    EdgeAssembled c (momentElement classes c poly { edges := some (.single A), faces := some B, volumes := some C' }) := by
  have hA4 : Affine4 c := by rcases hc with rfl | rfl <;> simp [Affine4]
  refine edge_assembled (h.with (T' := EdgeConform c S) fun b dofs he => ?_) (fun _ h => h) hm
  obtain ⟨ms, hms, hds⟩ := momentElement_dofs he
  exact edge_conform hA4 hk (box_edge_match hc hk hA hx hAm hT hms hds)

/-! ### The elements -/

theorem rtq_mappings (variant : String) (c : Cell) (k : ℕ) :
    ∀ b dofs, rtqElement variant c k = some (.ciarlet b dofs) → ∀ d ∈ dofs, d.mapping = some "contravariant" := by
  unfold rtqElement rtqWith
  refine mappings_eq fun p hp input hi name d hd _ => ?_
  simp only [slots, List.mem_cons, List.not_mem_nil, or_false] at hp
  rcases hp with rfl | rfl | rfl | rfl | rfl | rfl | rfl | rfl <;> cases hi <;> cases hd <;> rfl

/-- **C131** `RaviartThomas` on quadrilaterals and hexahedra. -/
theorem rtq_assembled {variant : String} {c : Cell} (hc : Box c) {k : ℕ} (hk : 1 ≤ k) (hr : Points variant (k - 1)) :
    NormalAssembled c (rtqElement variant c k) := by
  obtain ⟨xs, hx, hxs, -⟩ := sub_q (qFacetCell_tensor c) k "NormalIntegralMoment" hr none
  rw [Nat.cast_sub hk, Nat.cast_one] at hx hxs
  rw [qFacetCell_tdim hc] at hxs
  have h := rtq_created hc hk hr
  unfold rtqElement rtqWith at h ⊢
  refine box_assembled hc (fun v hv => hv.mem) rfl hx rfl (fun v hv i hi => ?_) h (rtq_mappings variant c k)
  · obtain ⟨F1, F2, -⟩ := box_facet hc hi
    have hd : (entityDomain c (c.tdim - 1, i)).cell.tdim = c.tdim - 1 := by rw [F1, qFacetCell_tdim hc]
    rw [hxs]
    have h1 := F2.aligned.normal (D := entityDomain c (c.tdim - 1, i)) (k := (k : ℤ))
      (fun l hl => skip_lt (qAxis_lt hi) (show l < c.tdim - 1 by omega)) (by omega) (v := v) hv (qAxis_lt hi)
      (fun l _ => skip_ne _ l) (n := fun j => if j = qAxis c.tdim i then 1 else 0) fun j => rfl
    have h2 := comp_single (D := entityDomain c (c.tdim - 1, i)) (qAxis_lt hi) (n := fun j => if j = qAxis c.tdim i then 1 else 0)
      (fun _ => rfl) v
    rw [hd] at h1
    exact (congrArg (· ∈ QP (c.tdim - 1) ((k : ℤ) - 1)) h2).mp h1

/-- A component divided by a coordinate that is constant on the facet. -/
theorem xp_pull {c : Cell} (hc : Box c) {k : ℤ} {v : Field c.tdim} (hv : ∀ j : Fin c.tdim, v j ∈ XP c.tdim (k + 1) j) {i : ℕ}
    (hi : i < 2 * c.tdim) : pull (entityDomain c (c.tdim - 1, i)) (v ⟨qAxis c.tdim i, qAxis_lt hi⟩) ∈ P (c.tdim - 1) k := by
  obtain ⟨q, hq, r, hr, e⟩ := mem_XP.1 (hv ⟨qAxis c.tdim i, qAxis_lt hi⟩)
  rw [add_sub_cancel_right] at hq hr
  rw [e, pull_add, pull_mul, facet_coord hc hi]
  exact Submodule.add_mem _ (facet_pull hc hi hq) (C_mul_mem _ (facet_pull hc hi hr))

theorem xp_assembled {c : Cell} (hc : Box c) {S : Field c.tdim → Prop} {k : ℕ} (hX : ∀ v, S v → ∀ j : Fin c.tdim, v j ∈ XP c.tdim ((k : ℤ) + 1) j)
    {poly : Option (List VecPoly)} {A B : List Item} (hA : parse A = some ⟨"NormalIntegralMoment", "DPC", k, none, [("variant", "equispaced")]⟩)
    {n : ℕ} {T : List (Dof ℝ (Field c.tdim)) → Prop}
    (h : Created (momentElement dpcClasses c poly { facets := some (.single A), cells := some (.single B) }) S n T)
    (hm : ∀ b dofs, momentElement dpcClasses c poly { facets := some (.single A), cells := some (.single B) } = some (.ciarlet b dofs) →
      ∀ d ∈ dofs, d.mapping = some "contravariant") :
    NormalAssembled c (momentElement dpcClasses c poly { facets := some (.single A), cells := some (.single B) }) := by
  obtain ⟨xs, hx, hxs, -⟩ := sub_dpc (qFacetCell_tensor c) (classes := dpcClasses) rfl "NormalIntegralMoment" (k : ℤ) none
  rw [qFacetCell_tdim hc] at hxs
  exact box_assembled hc (fun v hv j => XP_le j.2 (hX v hv j)) hA hx rfl (fun v hv i hi => hxs ▸ xp_pull hc (hX v hv) hi) h hm

/-- **C131** `SerendipityHdiv`. -/
theorem sdiv_assembled {c : Cell} (hc : Box c) {k : ℕ} (hk : 1 ≤ k) : NormalAssembled c (sdiv "equispaced" c k) := by
  have hm : ∀ b dofs, sdiv "equispaced" c k = some (.ciarlet b dofs) → ∀ d ∈ dofs, d.mapping = some "contravariant" :=
    mappings_eq fun p hp input hi name d hd _ => by
      simp only [slots, List.mem_cons, List.not_mem_nil, or_false] at hp
      rcases hp with rfl | rfl | rfl | rfl | rfl | rfl | rfl | rfl <;> cases hi <;> cases hd <;> rfl
  rcases id hc with rfl | rfl
  · exact xp_assembled (c := .quadrilateral) hc
      (fun v hv => enriched_XP (sdiv2_dual hk) ((congrFun (enriched_congr (sdiv2_ext k)) v).symm ▸ hv)) rfl (sdiv_created_quadrilateral hk) hm
  · exact xp_assembled (c := .hexahedron) hc
      (fun v hv => enriched_XP (sdiv3_dual hk) ((congrFun (enriched_congr (sdiv3_ext k)) v).symm ▸ hv)) rfl (sdiv_created_hexahedron hk) hm

/-- **C131** The element of `BrezziDouglasDuranFortin` of order 1 has no functionals in the cell. -/
theorem bddf_one_assembled : NormalAssembled .hexahedron (bddf "equispaced" 1) := by
  refine xp_assembled (c := .hexahedron) (k := 1) (Or.inr rfl)
    (fun v hv => enriched_XP (bddf_dual le_rfl) ((congrFun (enriched_congr (bddf_ext 1)) v).symm ▸ hv)) rfl (bddf_created le_rfl)
    (mappings_eq fun p hp input hi name d hd ho => ?_)
  simp only [slots, List.mem_cons, List.not_mem_nil, or_false] at hp
  rcases hp with rfl | rfl | rfl | rfl | rfl | rfl | rfl | rfl <;> cases hi <;> cases hd
  · rfl
  · exact absurd (by decide) ho

/-- **C131** The elements of `BrezziDouglasFortinMarini` of order 1 have no functionals in the cell. -/
theorem bdfmBox_one_assembled {c : Cell} (hc : Box c) : NormalAssembled c (bdfmBox "equispaced" c 1) := by
  refine xp_assembled hc (k := 0) (S := BDFMQ c.tdim 1) (fun v hv j => ?_) rfl (bdfmBox_created hc le_rfl)
    (mappings_eq fun p hp input hi name d hd ho => ?_)
  · obtain ⟨q, hq, r, hr, e⟩ := hv j
    exact mem_XP.2 ⟨q, by simpa using hq, r, by simpa using hr, e⟩
  simp only [slots, List.mem_cons, List.not_mem_nil, or_false] at hp
  rcases hp with rfl | rfl | rfl | rfl | rfl | rfl | rfl | rfl <;> cases hi <;> cases hd
  · rfl
  · exact absurd (by decide) ho

/-- **C131** `Nedelec` on quadrilaterals and hexahedra. -/
theorem ncq_assembled {variant : String} {c : Cell} (hc : Box c) {k : ℕ} (hk : 1 ≤ k) (hr : Points variant (k - 1)) :
    EdgeAssembled c (ncqElement variant c k) := by
  obtain ⟨xs, hx, hxs, -⟩ := sub_q (t := .interval) (Or.inl rfl) k "TangentIntegralMoment" hr none
  rw [Nat.cast_sub hk, Nat.cast_one] at hx hxs
  have hm : ∀ b dofs, ncqElement variant c k = some (.ciarlet b dofs) → ∀ d ∈ dofs, d.mapping = some "covariant" :=
by
    unfold ncqElement ncqWith
    refine mappings_eq fun p hp input hi name d hd _ => ?_
    simp only [slots, List.mem_cons, List.not_mem_nil, or_false] at hp
    rcases hp with rfl | rfl | rfl | rfl | rfl | rfl | rfl | rfl <;> cases hi <;> cases hd <;> rfl
  have hT : ∀ v, NCQ c.tdim k v → ∀ i < entityCount c 1, ∀ a (ha : a < c.tdim),
      (∀ j, axis .interval (entityDomain c (1, i)).v 0 j = if j = a then 1 else 0) →
      pull ⟨.interval, c.tdim, (entityDomain c (1, i)).v⟩ (v ⟨a, ha⟩) ∈ lspan xs := by
    intro v hv i hi a ha hax
    obtain ⟨a', ha', hax', h0⟩ := box_edge hc hi
    obtain rfl : a = a' := by
      by_contra hne
      have h1 := hax a
      have h2 := hax' a
      rw [if_pos rfl] at h1
      rw [if_neg hne] at h2
      exact one_ne_zero (h1.symm.trans h2)
    rw [hxs, ← comp_single (D := ⟨.interval, c.tdim, (entityDomain c (1, i)).v⟩) ha hax]
    exact box_edge_comp ha hax h0 (by omega) hv
  rcases id hc with rfl | rfl
  · have h := ncq_created2 hk hr
    unfold ncqElement ncqWith at h hm ⊢
    exact box_edge_assembled (c := .quadrilateral) hc (fun v hv => hv.mem) rfl hx rfl hT h hm
  · have h := ncq_created3 hk hr
    unfold ncqElement ncqWith at h hm ⊢
    exact box_edge_assembled (c := .hexahedron) hc (fun v hv => hv.mem) rfl hx rfl hT h hm

/-- **C131** `SerendipityHcurl`. -/
theorem scurl_assembled {c : Cell} (hc : Box c) {k : ℕ} (hk : 1 ≤ k) : EdgeAssembled c (scurl "equispaced" c k) := by
  obtain ⟨xs, hx, hxs, -⟩ := sub_dpc (t := .interval) (Or.inl rfl) (classes := dpcClasses) rfl "TangentIntegralMoment" (k : ℤ) none
  have hm : ∀ b dofs, scurl "equispaced" c k = some (.ciarlet b dofs) → ∀ d ∈ dofs, d.mapping = some "covariant" :=
    mappings_eq fun p hp input hi name d hd _ => by
      simp only [slots, List.mem_cons, List.not_mem_nil, or_false] at hp
      rcases hp with rfl | rfl | rfl | rfl | rfl | rfl | rfl | rfl <;> cases hi <;> cases hd <;> rfl
  rcases id hc with rfl | rfl
  · have hE : ∀ v, Enriched 2 k (scurlExt2 k) v → ∀ j : Fin 2, rot v j ∈ XP 2 ((k : ℤ) + 1) j := by
      intro v hv
      have hB : ((([0, 1] : List ℕ).map (scFn2 k)).map (denoteVec ℝ 2)).map rot = (([0, 1] : List ℕ).map (scTurned 1 k)).map (denoteVec ℝ 2) := by
        rw [List.map_map, List.map_map, List.map_map]
        exact List.map_congr_left fun a _ => rot_scFn k a
      rw [← scurl2_ext k] at hv
      exact enriched_XP (scTurned_dual 1 hk) ((enriched_rot hB v).1 hv)
    have hmem : ∀ v, Enriched 2 k (scurlExt2 k) v → ∀ j, v j ∈ P 2 ((k : ℤ) + 1) := by
      intro v hv
      have h2 := rot_mem (mem_PV.2 fun j => XP_le j.2 (hE v hv j))
      rw [rot_rot] at h2
      have h3 := Submodule.neg_mem _ h2
      rw [neg_neg] at h3
      exact mem_PV.1 h3
    exact box_edge_assembled (c := .quadrilateral) hc hmem rfl hx rfl (fun v hv i hi a ha hax => hxs ▸ rot_edge (hE v hv) hi ha hax)
      (scurl_created_quadrilateral hk) hm
  · exact box_edge_assembled (c := .hexahedron) hc (fun v hv => sc3_mem hk hv) rfl hx rfl
      (fun v hv i hi a ha hax => hxs ▸ sc3_edge hk hv hi ha hax) (scurl_created_hexahedron hk) hm

/-- For instance, all functions can be mapped to the sheared cells. -/
example {c : Cell} (hc : Box c) (k : ℕ) (hk : 1 ≤ k) : ∃ b dofs fs gs, rtqElement "equispaced" c k = some (.ciarlet b dofs) ∧
    getBasis (.ciarlet b dofs) = some fs ∧ mapToCell c (sheared c) dofs fs = some gs ∧ gs.length = rtqCount c.tdim k := by
  obtain ⟨F, hF⟩ := sheared_map hc
  obtain ⟨b, dofs, fs, h1, h2, h3, h4, -⟩ := rtq_created (variant := "equispaced") hc hk (points_equispaced _)
  obtain ⟨gs, hgs⟩ := mapToCell_exists hF (dofs := dofs) (fun d hd => Or.inr (Or.inl (rtq_mappings _ _ _ _ _ h1 d hd))) fs
  exact ⟨b, dofs, fs, gs, h1, h2, hgs, (mapToCell_get hgs (h3.trans h4.symm)).1.trans h4⟩

end Verif.Families
