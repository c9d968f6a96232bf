import Verif.Families.MapCell
import Verif.Families.PropsFull
import Verif.Families.BdfmSimp
/-!
# Functions assembled from several cells (C97)

Combinations of the mapped basis functions of two cells that share an entity.
-/

namespace Verif.Families
open Verif.References Verif.Moments Verif.Functionals Verif.Elements Verif.FiniteElement Verif.Polysets Verif.Orthogonal
open MvPolynomial

/-- `entity_dofs` (symfem/finite_element.py:234-247): the numbers of the functionals of an entity. -/
def entityNumbers {V : Type} [AddCommGroup V] [Module ℝ V] (dofs : List (Dof ℝ V)) (e : ℕ × ℕ) : List ℕ :=
  (List.range dofs.length).filter fun l => dofs[l]?.map Dof.entity = some e

theorem combination_values {V : Type} [AddCommGroup V] [Module ℝ V] {basis : List V} {dofs : List (Dof ℝ V)} {fs : List V}
    (h : getBasis (.ciarlet basis dofs) = some fs) (a : ℕ → ℝ) (e : ℕ × ℕ) :
    (entityFunctionals dofs e).map (·.eval (∑ l : Fin fs.length, a l • fs[l])) = (entityNumbers dofs e).map a := by
  obtain ⟨hlen, hd⟩ := getBasis_ciarlet_dual _ _ _ h
  have key : ∀ l : ℕ, ∀ d, dofs[l]? = some d → d.eval (∑ l : Fin fs.length, a l • fs[l]) = a l := by
    intro l d hl
    obtain ⟨hl', -⟩ := List.getElem?_eq_some_iff.1 hl
    rw [map_sum, Finset.sum_eq_single ⟨l, by omega⟩]
    · rw [map_smul]
      show a l • d.eval (fs[l]'(by omega)) = a l
      rw [hd l l _ d (List.getElem?_eq_getElem (by omega)) hl, if_pos rfl, smul_eq_mul, mul_one]
    · intro m _ hm
      rw [map_smul]
      show a m.val • d.eval (fs[m.val]'m.2) = 0
      rw [hd m.val l _ d (List.getElem?_eq_getElem m.2) hl, if_neg (fun h => hm (Fin.ext h)), smul_zero]
    · simp
  generalize (∑ l : Fin fs.length, a l • fs[l]) = v at key
  clear hd hlen h
  unfold entityFunctionals entityNumbers
  induction dofs using List.reverseRecOn with
  | nil => rfl
  | append_singleton l d ih =>
    have ih := ih fun m d' hm => key m d' (by
      obtain ⟨h1, rfl⟩ := List.getElem?_eq_some_iff.1 hm
      rw [List.getElem?_append_left h1, List.getElem?_eq_getElem h1])
    have hlast := key l.length d (by simp)
    rw [List.filter_append, List.map_append, ih, List.length_append, List.length_singleton, List.range_succ, List.filter_append,
      List.map_append]
    have e1 : ((List.range l.length).filter fun m => decide ((l ++ [d])[m]?.map Dof.entity = some e)) =
        (List.range l.length).filter fun m => decide (l[m]?.map Dof.entity = some e) := by
      refine List.filter_congr fun m hm => ?_
      rw [List.getElem?_append_left (List.mem_range.1 hm)]
    rw [e1]
    congr 1
    by_cases he : d.entity = e <;> simp [List.filter_cons, he, hlast]

/-- A mapping that is linear in the function. -/
def LinearPush (push : ∀ {d : ℕ}, Matrix (Fin d) (Fin d) ℝ → (Fin d → ℝ) → Fin d → ℝ) : Prop :=
  ∀ {d n : ℕ} (M : Matrix (Fin d) (Fin d) ℝ) (a : ℕ → ℝ) (f : Fin n → Fin d → ℝ),
    push M (fun k => ∑ l, a l.val * f l k) = fun r => ∑ l, a l.val * push M (f l) r

theorem pushContra_linear : LinearPush @pushContra := by
  intro d n M a f
  funext r
  simp only [pushContra, Finset.mul_sum]
  rw [Finset.sum_comm]
  exact Finset.sum_congr rfl fun l _ => Finset.sum_congr rfl fun k _ => by ring

theorem pushCo_linear : LinearPush @pushCo := by
  intro d n M a f
  funext r
  simp only [pushCo, Finset.mul_sum]
  rw [Finset.sum_comm]
  exact Finset.sum_congr rfl fun l _ => Finset.sum_congr rfl fun k _ => by ring

/-- A combination of mapped functions is the mapped combination. -/
theorem mapped_sum {push : ∀ {d : ℕ}, Matrix (Fin d) (Fin d) ℝ → (Fin d → ℝ) → Fin d → ℝ} (hp : LinearPush @push) {c : Cell}
    {V : ℕ → ℕ → ℝ} {fs : List (Field c.tdim)} {gs : List ((ℕ → ℝ) → Fin c.tdim → ℝ)}
    (hgs : fs.mapM (mapped @push c V) = some gs) (h0 : fs ≠ []) (a : ℕ → ℝ) :
    gs.length = fs.length ∧ mapped @push c V (∑ l : Fin fs.length, a l • fs[l]) =
      some fun x r => ∑ l : Fin gs.length, a l * gs[l] x r := by
  have hf := mapM_forall hgs
  have hlen := hf.length_eq
  refine ⟨hlen.symm, ?_⟩
  have hget := List.forall₂_iff_get.1 hf
  have hl : 0 < fs.length := List.length_pos_iff.2 h0
  obtain ⟨F, hF, -⟩ := Option.map_eq_some_iff.1 (hget.2 0 hl (by omega))
  rw [mapped, hF, Option.map_some]
  congr 1
  funext x
  have e : ∀ k, eval (coords (F x)) ((∑ l : Fin fs.length, a l • fs[l]) k) =
      ∑ l : Fin fs.length, a l * eval (coords (F x)) (fs[l] k) := by
    intro k
    rw [Finset.sum_apply, map_sum]
    refine Finset.sum_congr rfl fun l _ => ?_
    rw [Pi.smul_apply, smul_eval]
  simp only [e]
  rw [hp]
  funext r
  have hg : ∀ l (h1 : l < fs.length) (h2 : l < gs.length), gs[l] x r = push (jacMat c V) (fun k => eval (coords (F x)) (fs[l] k)) r := by
    intro l h1 h2
    have := hget.2 l h1 h2
    rw [mapped, hF, Option.map_some] at this
    exact (congrFun (congrFun (Option.some.inj this) x) r).symm
  rw [← Equiv.sum_comp (finCongr hlen)]
  refine Finset.sum_congr rfl fun l _ => ?_
  rw [show (gs[(finCongr hlen l)]) = gs[l.val]'(hlen ▸ l.2) from rfl, hg l.val l.2 (hlen ▸ l.2)]
  rfl

/-- The functions that are assembled from the basis functions of two cells that share a facet, with the same coefficients for
the functionals of the facet, have the same normal component on the facet. -/
def NormalAssembled (c : Cell) (e : Option (Element ℝ (Field c.tdim))) : Prop :=
  ∃ basis dofs fs, e = some (.ciarlet basis dofs) ∧ getBasis (.ciarlet basis dofs) = some fs ∧
  ∀ i < entityCount c (c.tdim - 1), ∀ i' < entityCount c (c.tdim - 1), ∀ a a' : ℕ → ℝ,
    (entityNumbers dofs (c.tdim - 1, i)).map a = (entityNumbers dofs (c.tdim - 1, i')).map a' →
    ∀ V V' gs gs', mapToCell c V dofs fs = some gs → mapToCell c V' dofs fs = some gs' →
    (∀ k < (entVerts c (c.tdim - 1) i).length,
      V ((entVerts c (c.tdim - 1) i).getD k 0) = V' ((entVerts c (c.tdim - 1) i').getD k 0)) →
    ∀ t y, y = (physDomain c V (c.tdim - 1, i)).param t →
      ∑ r : Fin c.tdim, areaVec c.tdim (physDomain c V (c.tdim - 1, i)).v r.val * ∑ l : Fin gs.length, a l * gs[l] y r =
      ∑ r : Fin c.tdim, areaVec c.tdim (physDomain c V (c.tdim - 1, i)).v r.val * ∑ l : Fin gs'.length, a' l * gs'[l] y r

theorem normal_assembled {c : Cell} {e : Option (Element ℝ (Field c.tdim))} {S : Field c.tdim → Prop} {n : ℕ}
    {T : List (Dof ℝ (Field c.tdim)) → Prop} (h : Created e S n T) (hT : ∀ dofs, T dofs → NormalConform c S dofs)
    (hm : ∀ b dofs, e = some (.ciarlet b dofs) → ∀ d ∈ dofs, d.mapping = some "contravariant") : NormalAssembled c e := by
  obtain ⟨basis, dofs, fs, h1, h2, h3, h4, h5, h6, h7⟩ := h
  have hmap : ∀ V, mapToCell c V dofs fs = fs.mapM (mapped pushContra c V) := fun V => by
    rw [mapToCell_uniform (hm _ _ h1) (h3.trans h4.symm), performMapping_contra]
  refine ⟨basis, dofs, fs, h1, h2, fun i hi i' hi' a a' haa V V' gs gs' hgs hgs' hV t y hy => ?_⟩
  rw [hmap] at hgs hgs'
  by_cases h0 : fs = []
  · subst h0
    obtain rfl := (Option.some.inj hgs : [] = gs)
    obtain rfl := (Option.some.inj hgs' : [] = gs')
    rfl
  have hS : ∀ a : ℕ → ℝ, S (∑ l : Fin fs.length, a l • fs[l]) := fun a => (h5 _).1
    (Submodule.sum_mem _ fun l _ => Submodule.smul_mem _ _ (Submodule.subset_span (List.getElem_mem l.2)))
  exact hT dofs h7 i hi i' hi' _ _ (hS a) (hS a') (by rw [combination_values h2, combination_values h2, haa]) V V' _ _
    (mapped_sum pushContra_linear hgs h0 a).2 (mapped_sum pushContra_linear hgs' h0 a').2 hV t y hy

/-- The same for tangential components on edges. -/
def EdgeAssembled (c : Cell) (e : Option (Element ℝ (Field c.tdim))) : Prop :=
  ∃ basis dofs fs, e = some (.ciarlet basis dofs) ∧ getBasis (.ciarlet basis dofs) = some fs ∧
  ∀ i < entityCount c 1, ∀ i' < entityCount c 1, ∀ a a' : ℕ → ℝ,
    (entityNumbers dofs (1, i)).map a = (entityNumbers dofs (1, i')).map a' →
    ∀ V V' gs gs', mapToCell c V dofs fs = some gs → mapToCell c V' dofs fs = some gs' →
    (∀ k < 2, V ((entVerts c 1 i).getD k 0) = V' ((entVerts c 1 i').getD k 0)) →
    ∀ t y, y = (physDomain c V (1, i)).param t →
      ∑ r : Fin c.tdim, ((physDomain c V (1, i)).v 1 r.val - (physDomain c V (1, i)).v 0 r.val) * ∑ l : Fin gs.length, a l * gs[l] y r =
      ∑ r : Fin c.tdim, ((physDomain c V (1, i)).v 1 r.val - (physDomain c V (1, i)).v 0 r.val) *
        ∑ l : Fin gs'.length, a' l * gs'[l] y r

theorem edge_assembled {c : Cell} {e : Option (Element ℝ (Field c.tdim))} {S : Field c.tdim → Prop} {n : ℕ}
    {T : List (Dof ℝ (Field c.tdim)) → Prop} (h : Created e S n T) (hT : ∀ dofs, T dofs → EdgeConform c S dofs)
    (hm : ∀ b dofs, e = some (.ciarlet b dofs) → ∀ d ∈ dofs, d.mapping = some "covariant") : EdgeAssembled c e := by
  obtain ⟨basis, dofs, fs, h1, h2, h3, h4, h5, h6, h7⟩ := h
  have hmap : ∀ V, mapToCell c V dofs fs = fs.mapM (mapped pushCo c V) := fun V => by
    rw [mapToCell_uniform (hm _ _ h1) (h3.trans h4.symm), performMapping_co]
  refine ⟨basis, dofs, fs, h1, h2, fun i hi i' hi' a a' haa V V' gs gs' hgs hgs' hV t y hy => ?_⟩
  rw [hmap] at hgs hgs'
  by_cases h0 : fs = []
  · subst h0
    obtain rfl := (Option.some.inj hgs : [] = gs)
    obtain rfl := (Option.some.inj hgs' : [] = gs')
    rfl
  have hS : ∀ a : ℕ → ℝ, S (∑ l : Fin fs.length, a l • fs[l]) := fun a => (h5 _).1
    (Submodule.sum_mem _ fun l _ => Submodule.smul_mem _ _ (Submodule.subset_span (List.getElem_mem l.2)))
  exact hT dofs h7 i hi i' hi' _ _ (hS a) (hS a') (by rw [combination_values h2, combination_values h2, haa]) V V' _ _
    (mapped_sum pushCo_linear hgs h0 a).2 (mapped_sum pushCo_linear hgs' h0 a').2 hV t y hy

/-- The arguments of `make_integral_moment_dofs` all lead to one mapping. -/
theorem mappings_eq {classes : String → ElementClass Fun} {c : Cell} {poly : Option (List VecPoly)} {args : Args} {s : String}
    (hR : ∀ p ∈ slots c args, ∀ input, p.2 = some input → ∀ name d, extract input name = some d →
      ¬ d.order < (classes d.element).minOrder → Data.mapName d = s) :
    ∀ b dofs, momentElement classes c poly args = some (.ciarlet b dofs) → ∀ d ∈ dofs, d.mapping = some s := by
  intro b dofs h d hd
  obtain ⟨s', h1, h2⟩ := momentElement_mappings h (R := fun _ x => x = s) hR d hd
  rw [h1, h2]

theorem rt_mappings (variant : String) (c : Cell) (k : ℕ) :
    ∀ b dofs, rtElement variant c k = some (.ciarlet b dofs) → ∀ d ∈ dofs, d.mapping = some "contravariant" := by
  refine mappings_eq fun p hp input hi name d hd _ => ?_
  simp only [slots, List.mem_cons, List.not_mem_nil, or_false] at hp
  rcases hp with rfl | rfl | rfl | rfl | rfl | rfl | rfl | rfl <;> cases hi <;> cases hd <;> rfl

theorem n1_mappings (variant : String) (c : Cell) (k : ℕ) :
    ∀ b dofs, n1Element variant c k = some (.ciarlet b dofs) → ∀ d ∈ dofs, d.mapping = some "covariant" := by
  refine mappings_eq fun p hp input hi name d hd _ => ?_
  simp only [slots, List.mem_cons, List.not_mem_nil, or_false] at hp
  rcases hp with rfl | rfl | rfl | rfl | rfl | rfl | rfl | rfl <;> cases hi <;> cases hd <;> rfl

theorem n2_mappings (variant : String) (c : Cell) (k : ℕ) :
    ∀ b dofs, n2Element variant c k = some (.ciarlet b dofs) → ∀ d ∈ dofs, d.mapping = some "covariant" := by
  refine mappings_eq fun p hp input hi name d hd _ => ?_
  simp only [slots, List.mem_cons, List.not_mem_nil, or_false] at hp
  rcases hp with rfl | rfl | rfl | rfl | rfl | rfl | rfl | rfl <;> cases hi <;> cases hd <;> rfl

/-- **C97** Raviart–Thomas elements. -/
theorem rt_assembled {c : Cell} (hc : Simp c) {k : ℕ} (hk : 1 ≤ k) : NormalAssembled c (rtElement "equispaced" c k) :=
  normal_assembled (rt_created hc hk) (fun _ h => h.2) (rt_mappings _ _ _)

/-- **C97** Nédélec elements of the first kind. -/
theorem n1_assembled {c : Cell} (hc : Simp c) {k : ℕ} (hk : 1 ≤ k) : EdgeAssembled c (n1Element "equispaced" c k) := by
  rcases hc with rfl | rfl
  · exact edge_assembled (c := .triangle) (n1_created2 hk) (fun _ h => h.2) (n1_mappings _ _ _)
  · exact edge_assembled (c := .tetrahedron) (n1_created3 hk) (fun _ h => h.2.2.1) (n1_mappings _ _ _)

/-- **C97** Nédélec elements of the second kind. -/
theorem n2_assembled {c : Cell} (hc : Simp c) {k : ℕ} (hk : 1 ≤ k) : EdgeAssembled c (n2Element "equispaced" c k) := by
  rcases hc with rfl | rfl
  · exact edge_assembled (c := .triangle) (n2_created2 hk) (fun _ h => h.2) (n2_mappings _ _ _)
  · exact edge_assembled (c := .tetrahedron) (n2_created3 hk) (fun _ h => h.2.2.1) (n2_mappings _ _ _)

/-- For instance, two triangles that share the edge from (1,0) to (0,1), which is edge 0 of the first triangle and, because
its other vertex comes last, edge 2 of the second one.  The functions can be mapped to both. -/
example (k : ℕ) (hk : 1 ≤ k) : ∃ V V' : ℕ → ℕ → ℝ, (∀ l < 2, V ((entVerts .triangle 1 0).getD l 0) = V' ((entVerts .triangle 1 2).getD l 0)) ∧
    ∃ b dofs fs gs gs', rtElement "equispaced" .triangle k = some (.ciarlet b dofs) ∧ getBasis (.ciarlet b dofs) = some fs ∧
      mapToCell .triangle V dofs fs = some gs ∧ mapToCell .triangle V' dofs fs = some gs' := by
  refine ⟨fun l => [coords [0, 0], coords [1, 0], coords [0, 1]].getD l 0,
    fun l => [coords [1, 0], coords [0, 1], coords [1, 1]].getD l 0, ?_, ?_⟩
  · intro l hl
    interval_cases l <;> rfl
  · obtain ⟨b, dofs, fs, h1, h2, h3, h4, -⟩ := rt_created (c := .triangle) (Or.inl rfl) hk
    obtain ⟨gs, hgs⟩ := mapM_exists (f := mapped pushContra .triangle
      fun l => [coords [(0 : ℝ), 0], coords [1, 0], coords [0, 1]].getD l 0) (l := fs) (by
      intro f _
      simp [mapped, invMapTo, solve2, mat2, psub, coords]
      rfl)
    obtain ⟨gs', hgs'⟩ := mapM_exists (f := mapped pushContra .triangle
      fun l => [coords [(1 : ℝ), 0], coords [0, 1], coords [1, 1]].getD l 0) (l := fs) (by
      intro f _
      simp [mapped, invMapTo, solve2, mat2, psub, coords]
      rfl)
    have hmap : ∀ V, mapToCell .triangle V dofs fs = fs.mapM (mapped pushContra .triangle V) := fun V => by
      rw [mapToCell_uniform (rt_mappings _ _ _ _ _ h1) (h3.trans h4.symm), performMapping_contra]
    exact ⟨b, dofs, fs, gs, gs', h1, h2, (hmap _).trans hgs, (hmap _).trans hgs'⟩

end Verif.Families
