import Verif.Families.PropsFull
import Mathlib.LinearAlgebra.Dimension.Constructions
/-!
# Spaces with as many functionals as basis functions
-/

namespace Verif.Families
open Verif.References Verif.Moments Verif.Functionals Verif.Elements Verif.FiniteElement Verif.Polysets Verif.Orthogonal
open MvPolynomial

/-- If the functionals determine the functions in a space, and the space contains as many independent functions as there are
functionals, then these span it. -/
theorem lspan_full {V : Type} [AddCommGroup V] [Module ℝ V] {basis : List V} {dofs : List (Dof ℝ V)}
    (hl : dofs.length = basis.length) (hi : Independent ℝ basis) {W : Submodule ℝ V} (hle : lspan basis ≤ W)
    (hu : ∀ v ∈ W, (∀ d ∈ dofs, d.eval v = 0) → v = 0) : lspan basis = W := by
  obtain ⟨-, fs, hfs, hs, hlen⟩ := ciarlet_basis hl hi fun v hv => hu v (hle hv)
  obtain ⟨h1, h2⟩ := getBasis_ciarlet_dual _ _ _ hfs
  refine le_antisymm hle fun v hv => ?_
  rw [← hs]
  have hw : ∑ i : Fin fs.length, (dofs[i]'(by have := i.2; omega)).eval v • fs[i] ∈ lspan fs :=
    Submodule.sum_mem _ fun i _ => Submodule.smul_mem _ _ (mem_lspan (List.getElem_mem _))
  suffices v - ∑ i : Fin fs.length, (dofs[i]'(by have := i.2; omega)).eval v • fs[i] = 0 by
    rw [sub_eq_zero.1 this]
    exact hw
  refine hu _ (Submodule.sub_mem _ hv (hle (by rw [← hs]; exact hw))) fun d hd => ?_
  obtain ⟨j, hj, rfl⟩ := List.getElem_of_mem hd
  rw [map_sub, map_sum, Finset.sum_eq_single ⟨j, by omega⟩]
  · have h3 := h2 j j (fs[j]'(by omega)) dofs[j] (List.getElem?_eq_getElem _) (List.getElem?_eq_getElem _)
    rw [if_pos rfl] at h3
    rw [map_smul]
    simp only [Fin.getElem_fin, h3, smul_eq_mul, mul_one, sub_self]
  · intro i _ hij
    have h3 := h2 i.val j (fs[i.val]'i.2) dofs[j] (List.getElem?_eq_getElem _) (List.getElem?_eq_getElem _)
    rw [if_neg fun h => hij (Fin.ext h)] at h3
    rw [map_smul]
    simp only [Fin.getElem_fin, h3, smul_zero]
  · intro h; exact absurd (Finset.mem_univ _) h

/-- Elements whose functions have normal components in the space of the moments of the facets, if there are enough of them. -/
theorem hdiv_created_full {classes : String → ElementClass Fun} {c : Cell} (hc : Simp c) {poly : Option (List VecPoly)}
    {pl : List VecPoly} (hpoly : poly = some pl) (hi : Independent ℝ (pl.map (denoteVec ℝ c.tdim)))
    {W : Submodule ℝ (Field c.tdim)} (hS : lspan (pl.map (denoteVec ℝ c.tdim)) ≤ W) {k m : ℤ}
    (hk : ∀ v ∈ W, ∀ j, v j ∈ P c.tdim k)
    (hcomp : ∀ v ∈ W, ∀ i ≤ c.tdim, comp (entityDomain c (c.tdim - 1, i)) (facetNormal i) v ∈ P (c.tdim - 1) m)
    {A B : List Item} {dA dB : Data} (hA : parse A = some dA) (hB : parse B = some dB) {xs : List (MvPolynomial ℕ ℝ)}
    {ys : List (Field c.tdim)} (hx : subFuns classes dA (facetCell c) = some (xs.map .scalar))
    (hy : subFuns classes dB c = some (ys.map (.vector c.tdim))) (hAm : dA.moment = "NormalIntegralMoment")
    (hBm : dB.moment = "IntegralMoment") (hxs : lspan xs = P (c.tdim - 1) m)
    (hz : ∀ v ∈ W, NormalZero c.tdim v → (∀ y ∈ ys, pairing c v y = 0) → v = 0)
    (hlen : (c.tdim + 1) * xs.length + ys.length = pl.length) :
    Created (momentElement classes c poly { facets := some (.single A), cells := some (.single B) }) (· ∈ W) pl.length
      (fun dofs => NormalTrace c (· ∈ W) dofs ∧ NormalConform c (· ∈ W) dofs) := by
  obtain ⟨ms, dofs, -, hdofs, hml, hu, -⟩ := hdiv_functionals hc hk hcomp hA hB hx hy hAm hBm hxs hz
  have hl : dofs.length = (pl.map (denoteVec ℝ c.tdim)).length := by
    rw [← (mapM_forall hdofs).length_eq, hml, hlen, List.length_map]
  have := lspan_full hl hi hS hu
  exact hdiv_created hc hpoly hi (fun v => by rw [this]) hk hcomp hA hB hx hy hAm hBm hxs hz hlen

/-- Sets consisting of vectors of monomials, followed by functions with terms of higher degree only. -/
theorem independent_vec_append {κ : Type} (r d : ℕ) {ps : List Mono} (hnd : ps.Nodup) {M : ℤ}
    (hps : ∀ m ∈ ps, m.length = d ∧ (m.sum : ℤ) ≤ M) (keys : List κ) (f : κ → VecPoly) (pi : κ → ℕ) (pm : κ → Mono) (ρ : κ → ℕ)
    (hn : keys.Nodup) (hlen : ∀ a ∈ keys, ∀ p ∈ f a, ∀ t ∈ p, t.2.length = d ∧ M < (t.2.sum : ℤ))
    (hpi : ∀ a ∈ keys, pi a < r) (hpm : ∀ a ∈ keys, (pm a).length = d)
    (h1 : ∀ a ∈ keys, vcoeff (f a) (pi a) (pm a) ≠ 0)
    (h2 : ∀ a ∈ keys, ∀ b ∈ keys, a ≠ b → vcoeff (f b) (pi a) (pm a) ≠ 0 → ρ b < ρ a) :
    Independent ℝ ((vectorSet r ps ++ keys.map f).map (denoteVec ℝ r)) := by
  have hco : ∀ a ∈ keys, ∀ i m, vcoeff (f a) i m ≠ 0 → M < (m.sum : ℤ) := by
    intro a ha i m h
    unfold vcoeff termCoeff at h
    obtain ⟨x, hx, hx0⟩ : ∃ x ∈ ((f a)[i]?.getD []).map (fun t : ℤ × Mono => if t.2 = m then t.1 else 0), x ≠ 0 := by
      by_contra hc
      push Not at hc
      exact h (List.sum_eq_zero hc)
    obtain ⟨t, ht, rfl⟩ := List.mem_map.1 hx
    split_ifs at hx0 with htm
    · rcases hf : (f a)[i]? with _ | p
      · rw [hf] at ht; simp at ht
      · rw [hf] at ht
        rw [← htm]
        exact (hlen a ha p (List.mem_of_getElem? hf) t ht).2
    · exact absurd rfl hx0
  have e : vectorSet r ps ++ keys.map f = (((vkeys r ps).map Sum.inl ++ keys.map Sum.inr).map
      (Sum.elim (fun t => unitVec r t.1 (monoPoly t.2)) f : (ℕ × Mono) ⊕ κ → VecPoly)) := by
    rw [vectorSet_eq_vkeys, List.map_append, List.map_map, List.map_map]
    rfl
  rw [e]
  have hv : ∀ a ∈ vkeys r ps, a.1 < r ∧ a.2.length = d ∧ (a.2.sum : ℤ) ≤ M := fun a ha =>
    ⟨(mem_vkeys.1 ha).1, hps _ (mem_vkeys.1 ha).2⟩
  refine independent_of_pivots ℝ r d _ _ (Sum.elim (fun t => t.1) pi) (Sum.elim (fun t => t.2) pm) (Sum.elim (fun _ => 0) ρ) ?_ ?_ ?_ ?_ ?_ ?_
  · rw [List.nodup_append]
    refine ⟨(nodup_vkeys hnd).map Sum.inl_injective, hn.map Sum.inr_injective, ?_⟩
    intro a ha b hb
    obtain ⟨x, -, rfl⟩ := List.mem_map.1 ha
    obtain ⟨y, -, rfl⟩ := List.mem_map.1 hb
    simp
  all_goals
    simp only [List.mem_append, List.mem_map]
  · rintro _ (⟨a, ha, rfl⟩ | ⟨a, ha, rfl⟩)
    · exact length_unitVec_terms (hv a ha).2.1
    · exact fun p hp t ht => (hlen a ha p hp t ht).1
  · rintro _ (⟨a, ha, rfl⟩ | ⟨a, ha, rfl⟩)
    · exact (hv a ha).1
    · exact hpi a ha
  · rintro _ (⟨a, ha, rfl⟩ | ⟨a, ha, rfl⟩)
    · exact (hv a ha).2.1
    · exact hpm a ha
  · rintro _ (⟨a, ha, rfl⟩ | ⟨a, ha, rfl⟩)
    · simp only [Sum.elim_inl]
      simp [vcoeff_unitVec, (hv a ha).1]
    · exact h1 a ha
  · rintro _ (⟨a, ha, rfl⟩ | ⟨a, ha, rfl⟩) _ (⟨b, hb, rfl⟩ | ⟨b, hb, rfl⟩) hab h
    · simp only [Sum.elim_inl] at h
      rw [vcoeff_unitVec] at h
      split_ifs at h with h'
      · exact absurd (congrArg Sum.inl (Prod.ext h'.2.1.symm h'.2.2.symm)) hab
      · exact absurd rfl h
    · have := hco b hb _ _ h
      have h3 := (hv a ha).2.2
      simp only [Sum.elim_inl] at this
      omega
    · simp only [Sum.elim_inl, Sum.elim_inr] at h
      rw [vcoeff_unitVec] at h
      split_ifs at h with h'
      · have h3 := (hv b hb).2.2
        have h4 := hco a ha _ _ (h1 a ha)
        rw [← h'.2.2] at h4
        omega
      · exact absurd rfl h
    · exact h2 a ha b hb (fun hh => hab (congrArg Sum.inr hh)) h

end Verif.Families
