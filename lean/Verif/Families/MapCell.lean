import Verif.Families.Hdiv
/-!
# `map_to_cell` of elements with functions in vectors of polynomials

Every basis function is mapped with the mapping of its own functional.
-/

namespace Verif.Families
open Verif.References Verif.Moments Verif.Functionals Verif.Elements Verif.FiniteElement Verif.Polysets Verif.Orthogonal
open MvPolynomial

/-! ### Model -/

/-- `identity` (symfem/mappings.py:39-59): the values of the function do not change. -/
def pushId {d : ℕ} (_ : Matrix (Fin d) (Fin d) ℝ) (f : Fin d → ℝ) (r : Fin d) : ℝ := f r

/-- `BaseFunctional.perform_mapping` (symfem/functionals.py:117-131) for one function: the function of the module `mappings`
with the name of the mapping.  `None` is an `AssertionError`; the
functionals of the elements below have no other mappings than these three. -/
noncomputable def performMapping (s : Option String) (c : Cell) (V : ℕ → ℕ → ℝ) (f : Field c.tdim) :
    Option ((ℕ → ℝ) → Fin c.tdim → ℝ) :=
  if s = some "identity" then mapped pushId c V f
  else if s = some "contravariant" then mapped pushContra c V f
  else if s = some "covariant" then mapped pushCo c V f else none

/-- `CiarletElement.map_to_cell` (symfem/finite_element.py:783-836): the functionals of every entity are grouped by class and
mapping, and the basis functions of a group are mapped by the mapping of the first functional of the group, which is the
mapping of all of them. -/
noncomputable def mapToCell (c : Cell) (V : ℕ → ℕ → ℝ) (dofs : List (Dof ℝ (Field c.tdim))) (fs : List (Field c.tdim)) :
    Option (List ((ℕ → ℝ) → Fin c.tdim → ℝ)) :=
  (dofs.zip fs).mapM fun p => performMapping p.1.mapping c V p.2

/-! ### The mappings of the functionals of an element -/

/-- The mapping of the moments that belong to an argument. -/
def Data.mapName (d : Data) : String := d.mapping.getD (momentDefault d.moment).2

theorem mem_slotDofs {classes : String → ElementClass Fun} {c : Cell} {dim : ℤ} {input : Input} {ms : List (MomentDof Fun)}
    (h : slotDofs classes c dim (some input) = some ms) {m : MomentDof Fun} (hm : m ∈ ms) :
    ∃ name d, extract input name = some d ∧ m.moment = d.moment ∧ m.mapping = d.mapping ∧ (m.entity.1 : ℤ) = dim ∧
      m.entity.2 < entityCount c m.entity.1 ∧ ¬ d.order < (classes d.element).minOrder := by
  simp only [slotDofs] at h
  split at h
  · cases h
  · obtain rfl := Option.some.inj h
    simp at hm
  · split at h
    · next hd =>
      obtain ⟨ents, hents, h⟩ := Option.bind_eq_some_iff.1 h
      obtain ⟨ls, hls, rfl⟩ := Option.map_eq_some_iff.1 h
      obtain ⟨l, hl, hm⟩ := List.mem_flatten.1 hm
      obtain ⟨i, hir, hi⟩ := forall₂_mem_left (mapM_forall hls) hl
      unfold Moments.entityDofs at hi
      obtain ⟨t, -, hi⟩ := Option.bind_eq_some_iff.1 hi
      obtain ⟨d, hd', hi⟩ := Option.bind_eq_some_iff.1 hi
      split at hi
      · obtain rfl := Option.some.inj hi
        simp at hm
      · next hmin =>
        obtain ⟨xs, -, rfl⟩ := Option.map_eq_some_iff.1 hi
        obtain ⟨x, -, rfl⟩ := List.mem_map.1 hm
        exact ⟨_, d, hd', rfl, rfl, by simp; omega, by simpa [entityCount, Cell.subEntityCount, hents] using hir, hmin⟩
    · cases h

theorem mem_moments {classes : String → ElementClass Fun} {c : Cell} {args : Args} {ms : List (MomentDof Fun)}
    (h : makeIntegralMomentDofs classes c args = some ms) {m : MomentDof Fun} (hm : m ∈ ms) :
    ∃ s ∈ slots c args, ∃ input, s.2 = some input ∧
      ∃ name d, extract input name = some d ∧ m.moment = d.moment ∧ m.mapping = d.mapping ∧ (m.entity.1 : ℤ) = s.1 ∧
        m.entity.2 < entityCount c m.entity.1 ∧ ¬ d.order < (classes d.element).minOrder := by
  obtain ⟨ls, hls, rfl⟩ := Option.map_eq_some_iff.1 h
  obtain ⟨l, hl, hm⟩ := List.mem_flatten.1 hm
  obtain ⟨s, hs, hsl⟩ := forall₂_mem_left (mapM_forall hls) hl
  cases he : s.2 with
  | none =>
    rw [he] at hsl
    obtain rfl := Option.some.inj hsl
    simp at hm
  | some input =>
    rw [he] at hsl
    exact ⟨s, hs, input, he, mem_slotDofs hsl hm⟩

theorem momentDof_mapping {c : Cell} {m : MomentDof Fun} {d : Dof ℝ (Field c.tdim)} (h : momentDof c m = some d) :
    d.mapping = some (m.mapping.getD (momentDefault m.moment).2) := by
  obtain ⟨w, -, h2⟩ := Option.bind_eq_some_iff.1 h
  obtain ⟨J, -, rfl⟩ := Option.map_eq_some_iff.1 h2
  rfl

/-- The functionals of an element come from its moments. -/
theorem momentElement_dofs {classes : String → ElementClass Fun} {c : Cell} {poly : Option (List VecPoly)} {args : Args}
    {b : List (Field c.tdim)} {dofs : List (Dof ℝ (Field c.tdim))} (h : momentElement classes c poly args = some (.ciarlet b dofs)) :
    ∃ ms, makeIntegralMomentDofs classes c args = some ms ∧ ms.mapM (momentDof c) = some dofs := by
  obtain ⟨p, -, h⟩ := Option.bind_eq_some_iff.1 h
  obtain ⟨ms, hms, h⟩ := Option.bind_eq_some_iff.1 h
  obtain ⟨ds, hds, h⟩ := Option.bind_eq_some_iff.1 h
  unfold ciarlet at h
  split at h
  · have := Option.some.inj h
    injection this with h1 h2
    subst h2
    exact ⟨ms, hms, hds⟩
  · cases h

/-- The mappings of moments. -/
theorem moment_mappings {classes : String → ElementClass Fun} {c : Cell} {args : Args} {ms : List (MomentDof Fun)}
    (h : makeIntegralMomentDofs classes c args = some ms) {dofs : List (Dof ℝ (Field c.tdim))}
    (hd : ms.mapM (momentDof c) = some dofs) {R : ℤ → String → Prop}
    (hR : ∀ s ∈ slots c args, ∀ input, s.2 = some input → ∀ name d, extract input name = some d →
      ¬ d.order < (classes d.element).minOrder → R s.1 (Data.mapName d)) :
    ∀ d ∈ dofs, ∃ s, d.mapping = some s ∧ R d.entity.1 s := by
  intro d hdm
  obtain ⟨m, hm, he⟩ := forall₂_mem_left (mapM_forall hd) hdm
  obtain ⟨s, hs, input, hi, name, dd, hdd, h1, h2, h3, -, h4⟩ := mem_moments h hm
  refine ⟨_, momentDof_mapping he, ?_⟩
  rw [momentDof_entity he, h1, h2, h3]
  exact hR s hs input hi name dd hdd h4

theorem momentElement_mappings {classes : String → ElementClass Fun} {c : Cell} {poly : Option (List VecPoly)} {args : Args}
    {b : List (Field c.tdim)} {dofs : List (Dof ℝ (Field c.tdim))} (h : momentElement classes c poly args = some (.ciarlet b dofs))
    {R : ℤ → String → Prop}
    (hR : ∀ s ∈ slots c args, ∀ input, s.2 = some input → ∀ name d, extract input name = some d →
      ¬ d.order < (classes d.element).minOrder → R s.1 (Data.mapName d)) :
    ∀ d ∈ dofs, ∃ s, d.mapping = some s ∧ R d.entity.1 s := by
  obtain ⟨ms, hms, hds⟩ := momentElement_dofs h
  exact moment_mappings hms hds hR

/-- If all functionals have the same mapping, all functions are mapped by it. -/
theorem mapToCell_uniform {c : Cell} {V : ℕ → ℕ → ℝ} {dofs : List (Dof ℝ (Field c.tdim))} {fs : List (Field c.tdim)} {s : String}
    (hs : ∀ d ∈ dofs, d.mapping = some s) (hl : dofs.length = fs.length) :
    mapToCell c V dofs fs = fs.mapM (performMapping (some s) c V) := by
  unfold mapToCell
  induction dofs generalizing fs with
  | nil => rw [List.length_nil, eq_comm, List.length_eq_zero_iff] at hl; subst hl; rfl
  | cons d ds ih =>
    cases fs with
    | nil => simp at hl
    | cons f fs =>
      rw [List.zip_cons_cons, List.mapM_cons, List.mapM_cons, ih (fun d hd => hs d (List.mem_cons_of_mem _ hd)) (by simpa using hl)]
      simp only [hs d (by simp)]

theorem performMapping_contra (c : Cell) (V : ℕ → ℕ → ℝ) : performMapping (some "contravariant") c V = mapped pushContra c V := by
  funext f
  simp [performMapping]

theorem performMapping_co (c : Cell) (V : ℕ → ℕ → ℝ) : performMapping (some "covariant") c V = mapped pushCo c V := by
  funext f
  simp [performMapping]

end Verif.Families
