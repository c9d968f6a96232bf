import Verif.Families.Conform
/-!
# Elements whose mapped basis functions do not fit together (C97)

`map_to_cell` maps every basis function with the mapping of its own functional.  If the interior functionals of an element in
H(div) do not have the contravariant Piola map, the interior functions do not stay tangential to the facets.
-/

namespace Verif.Families
open Verif.References Verif.Moments Verif.Functionals Verif.Elements Verif.FiniteElement Verif.Polysets Verif.Orthogonal
open MvPolynomial

theorem pushId_linear : LinearPush @pushId := by
  intro d n M a f
  funext r
  rfl

theorem performMapping_id (c : Cell) (V : ℕ → ℕ → ℝ) : performMapping (some "identity") c V = mapped pushId c V := by
  funext f
  simp [performMapping]

/-- The three mappings. -/
def Known (s : Option String) : Prop := s = some "identity" ∨ s = some "contravariant" ∨ s = some "covariant"

theorem known_mapped {s : Option String} (hs : Known s) {c : Cell} {V : ℕ → ℕ → ℝ} {F : (ℕ → ℝ) → List ℝ}
    (hF : invMapTo c c.tdim V = some F) (f : Field c.tdim) : ∃ g, performMapping s c V f = some g := by
  rcases hs with rfl | rfl | rfl
  · rw [performMapping_id, mapped, hF]; exact ⟨_, rfl⟩
  · rw [performMapping_contra, mapped, hF]; exact ⟨_, rfl⟩
  · rw [performMapping_co, mapped, hF]; exact ⟨_, rfl⟩

theorem mapToCell_exists {c : Cell} {V : ℕ → ℕ → ℝ} {F : (ℕ → ℝ) → List ℝ} (hF : invMapTo c c.tdim V = some F)
    {dofs : List (Dof ℝ (Field c.tdim))} (hd : ∀ d ∈ dofs, Known d.mapping) (fs : List (Field c.tdim)) :
    ∃ gs, mapToCell c V dofs fs = some gs :=
  mapM_exists fun p hp => known_mapped (hd p.1 (List.of_mem_zip hp).1) hF p.2

theorem mapToCell_get {c : Cell} {V : ℕ → ℕ → ℝ} {dofs : List (Dof ℝ (Field c.tdim))} {fs : List (Field c.tdim)}
    {gs : List ((ℕ → ℝ) → Fin c.tdim → ℝ)} (h : mapToCell c V dofs fs = some gs) (hl : dofs.length = fs.length) :
    gs.length = fs.length ∧ ∀ l (h1 : l < dofs.length) (h2 : l < fs.length) (h3 : l < gs.length),
      performMapping dofs[l].mapping c V fs[l] = some gs[l] := by
  have hf := mapM_forall h
  have hlen := hf.length_eq
  rw [List.length_zip, hl, min_self] at hlen
  refine ⟨hlen.symm, fun l h1 h2 h3 => ?_⟩
  have := (List.forall₂_iff_get.1 hf).2 l (by rw [List.length_zip]; omega) h3
  simpa using this

/-- The function with given values of the functionals. -/
theorem combination_eval {V : Type} [AddCommGroup V] [Module ℝ V] {basis : List V} {dofs : List (Dof ℝ V)} {fs : List V}
    (h : getBasis (.ciarlet basis dofs) = some fs) (a : ℕ → ℝ) {l : ℕ} {d : Dof ℝ V} (hl : dofs[l]? = some d) :
    d.eval (∑ l : Fin fs.length, a l • fs[l]) = a l := by
  obtain ⟨hlen, hd⟩ := getBasis_ciarlet_dual _ _ _ h
  obtain ⟨hl', -⟩ := List.getElem?_eq_some_iff.1 hl
  rw [map_sum, Finset.sum_eq_single ⟨l, by omega⟩]
  · rw [map_smul]
    show a l • d.eval (fs[l]'(by omega)) = a l
    rw [hd l l _ d (List.getElem?_eq_getElem (by omega)) hl, if_pos rfl, smul_eq_mul, mul_one]
  · intro m _ hm
    rw [map_smul]
    show a m.val • d.eval (fs[m.val]'m.2) = 0
    rw [hd m.val l _ d (List.getElem?_eq_getElem m.2) hl, if_neg (fun h => hm (Fin.ext h)), smul_zero]
  · simp

/-- A function whose functionals with a nonzero value all have the mapping `m` is mapped by `m`. -/
theorem assembled_witness {c : Cell} (hc : Affine4 c) {e : Option (Element ℝ (Field c.tdim))} {S : Field c.tdim → Prop} {n : ℕ}
    {T : List (Dof ℝ (Field c.tdim)) → Prop} (h : Created e S n T) {k : ℤ} (hk : ∀ v, S v → ∀ j, v j ∈ P c.tdim k)
    {push : ∀ {d : ℕ}, Matrix (Fin d) (Fin d) ℝ → (Fin d → ℝ) → Fin d → ℝ} (hp : LinearPush @push) {m : String}
    (hm : ∀ V, performMapping (some m) c V = mapped push c V) {w : Field c.tdim} (hw : S w)
    (hd : ∀ b dofs, e = some (.ciarlet b dofs) → ∀ d ∈ dofs, Known d.mapping ∧ (d.eval w = 0 ∨ d.mapping = some m)) :
    ∃ basis dofs fs, ∃ a : ℕ → ℝ, e = some (.ciarlet basis dofs) ∧ getBasis (.ciarlet basis dofs) = some fs ∧
      (∀ l d, dofs[l]? = some d → a l = d.eval w) ∧ (∀ V F, invMapTo c c.tdim V = some F → ∃ gs, mapToCell c V dofs fs = some gs) ∧
      ∀ V gs, mapToCell c V dofs fs = some gs → ∀ ent t y, y = (physDomain c V ent).param t → ∀ r,
        ∑ l : Fin gs.length, a l * gs[l] y r = push (jacMat c V) (fun k => eval ((entityDomain c ent).param t) (w k)) r := by
  obtain ⟨basis, dofs, fs, h1, h2, h3, h4, h5, h6, h7⟩ := h
  have hd := hd _ _ h1
  have hval : ∀ (l : ℕ) (d : Dof ℝ (Field c.tdim)), dofs[l]? = some d → ((dofs[l]?.map fun d : Dof ℝ (Field c.tdim) => d.eval w).getD 0 : ℝ) = d.eval w := by
    intro l d hl
    rw [hl]; rfl
  refine ⟨basis, dofs, fs, fun l => (dofs[l]?.map fun d : Dof ℝ (Field c.tdim) => d.eval w).getD 0, h1, h2, hval,
    fun V F hF => mapToCell_exists hF (fun d hd' => (hd d hd').1) fs, fun V gs hgs ent t y hy r => ?_⟩
  obtain ⟨hlen, hget⟩ := mapToCell_get hgs (h3.trans h4.symm)
  set a : ℕ → ℝ := fun l => (dofs[l]?.map fun d : Dof ℝ (Field c.tdim) => d.eval w).getD 0 with ha
  have hsum : ∑ l : Fin fs.length, a l • fs[l] = w := by
    have hmem : (∑ l : Fin fs.length, a l • fs[l]) ∈ lspan fs :=
      Submodule.sum_mem _ fun l _ => Submodule.smul_mem _ _ (Submodule.subset_span (List.getElem_mem l.2))
    refine sub_eq_zero.1 (h6 _ ((h5 _).1 (Submodule.sub_mem _ hmem ((h5 w).2 hw))) fun d hd' => ?_)
    obtain ⟨l, hl⟩ := List.getElem?_of_mem hd'
    rw [map_sub, combination_eval h2 a hl, show a l = d.eval w from hval l d hl, sub_self]
  have hfS : ∀ l (hl : l < fs.length), S fs[l] := fun l hl => (h5 _).1 (Submodule.subset_span (List.getElem_mem hl))
  have key : ∀ l (h1 : l < gs.length) (h2 : l < fs.length), a l * gs[l] y r =
      a l * push (jacMat c V) (fun k => eval ((entityDomain c ent).param t) (fs[l] k)) r := by
    intro l hl hl'
    have hl'' : l < dofs.length := by omega
    have hv := hval l dofs[l] (List.getElem?_eq_getElem hl'')
    rcases (hd dofs[l] (List.getElem_mem hl'')).2 with h0 | h0
    · rw [show a l = 0 from hv.trans h0, zero_mul, zero_mul]
    · have := hget l hl'' hl' hl
      rw [h0, hm] at this
      rw [mapped_param hc (hk _ (hfS l hl')) this ent t y fun j _ => by rw [hy]]
  have e : ∀ k, eval ((entityDomain c ent).param t) (w k) =
      ∑ l : Fin fs.length, a l * eval ((entityDomain c ent).param t) (fs[l] k) := by
    intro k
    conv_lhs => rw [← hsum]
    rw [Finset.sum_apply, map_sum]
    refine Finset.sum_congr rfl fun l _ => ?_
    rw [Pi.smul_apply, smul_eval]
  rw [← Equiv.sum_comp (finCongr hlen.symm)]
  simp only [e]
  rw [hp]
  exact Finset.sum_congr rfl fun l _ => key l.val (by rw [hlen]; exact l.2) l.2

/-- All coefficients of the functionals of a facet are 0, so that the function fits to a function that is 0 in the neighbouring
cell, but its normal component does not vanish at some point of the facet. -/
def NormalBroken (c : Cell) (e : Option (Element ℝ (Field c.tdim))) : Prop :=
  ∃ basis dofs fs, e = some (.ciarlet basis dofs) ∧ getBasis (.ciarlet basis dofs) = some fs ∧
  ∃ i < entityCount c (c.tdim - 1), ∃ a : ℕ → ℝ, (∀ l ∈ entityNumbers dofs (c.tdim - 1, i), a l = 0) ∧
  ∃ V gs, mapToCell c V dofs fs = some gs ∧
  ∃ t, Closed (entType c (c.tdim - 1) i) t ∧ ∃ y, y = (physDomain c V (c.tdim - 1, i)).param t ∧
    ∑ r : Fin c.tdim, areaVec c.tdim (physDomain c V (c.tdim - 1, i)).v r.val * ∑ l : Fin gs.length, a l * gs[l] y r ≠ 0

theorem NormalBroken.not_assembled {c : Cell} {e : Option (Element ℝ (Field c.tdim))} (h : NormalBroken c e) :
    ¬ NormalAssembled c e := by
  rintro ⟨basis, dofs, fs, h1, h2, hA⟩
  obtain ⟨basis', dofs', fs', h1', h2', i, hi, a, ha, V, gs, hgs, t, -, y, hy, hne⟩ := h
  obtain ⟨rfl, rfl⟩ : basis = basis' ∧ dofs = dofs' := by
    have := Option.some.inj (h1.symm.trans h1')
    injection this with h3 h4
    exact ⟨h3, h4⟩
  obtain rfl := Option.some.inj (h2.symm.trans h2')
  refine hne ?_
  rw [hA i hi i hi a (fun _ => 0) (List.map_congr_left ha) V V gs gs hgs hgs (fun _ _ => rfl) t y hy]
  simp

/-- The same for tangential components on edges. -/
def EdgeBroken (c : Cell) (e : Option (Element ℝ (Field c.tdim))) : Prop :=
  ∃ basis dofs fs, e = some (.ciarlet basis dofs) ∧ getBasis (.ciarlet basis dofs) = some fs ∧
  ∃ i < entityCount c 1, ∃ a : ℕ → ℝ, (∀ l ∈ entityNumbers dofs (1, i), a l = 0) ∧
  ∃ V gs, mapToCell c V dofs fs = some gs ∧
  ∃ t, Closed .interval t ∧ ∃ y, y = (physDomain c V (1, i)).param t ∧
    ∑ r : Fin c.tdim, ((physDomain c V (1, i)).v 1 r.val - (physDomain c V (1, i)).v 0 r.val) *
      ∑ l : Fin gs.length, a l * gs[l] y r ≠ 0

theorem EdgeBroken.not_assembled {c : Cell} {e : Option (Element ℝ (Field c.tdim))} (h : EdgeBroken c e) :
    ¬ EdgeAssembled c e := by
  rintro ⟨basis, dofs, fs, h1, h2, hA⟩
  obtain ⟨basis', dofs', fs', h1', h2', i, hi, a, ha, V, gs, hgs, t, -, y, hy, hne⟩ := h
  obtain ⟨rfl, rfl⟩ : basis = basis' ∧ dofs = dofs' := by
    have := Option.some.inj (h1.symm.trans h1')
    injection this with h3 h4
    exact ⟨h3, h4⟩
  obtain rfl := Option.some.inj (h2.symm.trans h2')
  refine hne ?_
  rw [hA i hi i hi a (fun _ => 0) (List.map_congr_left ha) V V gs gs hgs hgs (fun _ _ => rfl) t y hy]
  simp

theorem entity_number {V : Type} [AddCommGroup V] [Module ℝ V] {dofs : List (Dof ℝ V)} {e : ℕ × ℕ} {l : ℕ}
    (h : l ∈ entityNumbers dofs e) : ∃ d, dofs[l]? = some d ∧ d.entity = e := by
  obtain ⟨-, h⟩ := List.mem_filter.1 h
  exact Option.map_eq_some_iff.1 (of_decide_eq_true h)

/-- An interior function whose normal component on a facet does not vanish after the mapping. -/
theorem normal_broken {c : Cell} (hc : Affine4 c) {e : Option (Element ℝ (Field c.tdim))} {S : Field c.tdim → Prop} {n : ℕ}
    {T : List (Dof ℝ (Field c.tdim)) → Prop} (h : Created e S n T) {k : ℤ} (hk : ∀ v, S v → ∀ j, v j ∈ P c.tdim k)
    {push : ∀ {d : ℕ}, Matrix (Fin d) (Fin d) ℝ → (Fin d → ℝ) → Fin d → ℝ} (hp : LinearPush @push) {m : String}
    (hm : ∀ V, performMapping (some m) c V = mapped push c V) {w : Field c.tdim} (hw : S w) {i : ℕ}
    (hi : i < entityCount c (c.tdim - 1))
    (hd : ∀ b dofs, e = some (.ciarlet b dofs) → ∀ d ∈ dofs, Known d.mapping ∧ (d.eval w = 0 ∨ d.mapping = some m) ∧
      (d.entity = (c.tdim - 1, i) → d.eval w = 0))
    {V : ℕ → ℕ → ℝ} {F : (ℕ → ℝ) → List ℝ} (hF : invMapTo c c.tdim V = some F) {t : ℕ → ℝ}
    (ht : Closed (entType c (c.tdim - 1) i) t)
    (hne : ∑ r : Fin c.tdim, areaVec c.tdim (physDomain c V (c.tdim - 1, i)).v r.val *
      push (jacMat c V) (fun k => eval ((entityDomain c (c.tdim - 1, i)).param t) (w k)) r ≠ 0) : NormalBroken c e := by
  obtain ⟨basis, dofs, fs, a, h1, h2, ha, hg, hs⟩ := assembled_witness hc h hk hp hm hw fun b ds hb d hd' =>
    ⟨(hd b ds hb d hd').1, (hd b ds hb d hd').2.1⟩
  obtain ⟨gs, hgs⟩ := hg V F hF
  refine ⟨basis, dofs, fs, h1, h2, i, hi, a, fun l hl => ?_, V, gs, hgs, t, ht, _, rfl, ?_⟩
  · obtain ⟨d, hd1, hd2⟩ := entity_number hl
    rw [ha l d hd1]
    exact (hd _ _ h1 d (List.mem_of_getElem? hd1)).2.2 hd2
  · simp only [hs V gs hgs _ t _ rfl]
    exact hne

/-- The same for tangential components on edges. -/
theorem edge_broken {c : Cell} (hc : Affine4 c) {e : Option (Element ℝ (Field c.tdim))} {S : Field c.tdim → Prop} {n : ℕ}
    {T : List (Dof ℝ (Field c.tdim)) → Prop} (h : Created e S n T) {k : ℤ} (hk : ∀ v, S v → ∀ j, v j ∈ P c.tdim k)
    {push : ∀ {d : ℕ}, Matrix (Fin d) (Fin d) ℝ → (Fin d → ℝ) → Fin d → ℝ} (hp : LinearPush @push) {m : String}
    (hm : ∀ V, performMapping (some m) c V = mapped push c V) {w : Field c.tdim} (hw : S w) {i : ℕ}
    (hi : i < entityCount c 1)
    (hd : ∀ b dofs, e = some (.ciarlet b dofs) → ∀ d ∈ dofs, Known d.mapping ∧ (d.eval w = 0 ∨ d.mapping = some m) ∧
      (d.entity = (1, i) → d.eval w = 0))
    {V : ℕ → ℕ → ℝ} {F : (ℕ → ℝ) → List ℝ} (hF : invMapTo c c.tdim V = some F) {t : ℕ → ℝ} (ht : Closed .interval t)
    (hne : ∑ r : Fin c.tdim, ((physDomain c V (1, i)).v 1 r.val - (physDomain c V (1, i)).v 0 r.val) *
      push (jacMat c V) (fun k => eval ((entityDomain c (1, i)).param t) (w k)) r ≠ 0) : EdgeBroken c e := by
  obtain ⟨basis, dofs, fs, a, h1, h2, ha, hg, hs⟩ := assembled_witness hc h hk hp hm hw fun b ds hb d hd' =>
    ⟨(hd b ds hb d hd').1, (hd b ds hb d hd').2.1⟩
  obtain ⟨gs, hgs⟩ := hg V F hF
  refine ⟨basis, dofs, fs, h1, h2, i, hi, a, fun l hl => ?_, V, gs, hgs, t, ht, _, rfl, ?_⟩
  · obtain ⟨d, hd1, hd2⟩ := entity_number hl
    rw [ha l d hd1]
    exact (hd _ _ h1 d (List.mem_of_getElem? hd1)).2.2 hd2
  · simp only [hs V gs hgs _ t _ rfl]
    exact hne

end Verif.Families
