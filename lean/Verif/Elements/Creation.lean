import Verif.Elements.PropsLagrange
import Verif.Elements.Counts
import Verif.Polysets.Props
/-!
# Elements with point evaluations can be created

C57, C58: the constructors succeed and the dual matrix is invertible.
-/

namespace Verif.Elements
open Verif.References Verif.Quadrature Verif.Polysets Verif.FiniteElement
open MvPolynomial

/-- The functional of a `PointEvaluation` (symfem/functionals.py:267-277); kind 0, mapping "identity". -/
noncomputable def PointDof.functional (d : PointDof) : Dof ℝ (MvPolynomial ℕ ℝ) :=
  ⟨0, d.entity, some "identity", (aeval d.point).toLinearMap⟩

/-- `CiarletElement.__init__` (symfem/finite_element.py:593-623): the assertion that there are as many functionals
as polynomials. -/
def ciarlet {V : Type} [AddCommGroup V] [Module ℝ V] (basis : List V) (dofs : List (Dof ℝ V)) :
    Option (Element ℝ V) :=
  if dofs.length = basis.length then some (.ciarlet basis dofs) else none

/-- `Lagrange(reference, order, variant)` (symfem/elements/lagrange.py:31-80). -/
noncomputable def lagrangeElement (variant : String) (c : Cell) (v : ℕ → ℕ → ℝ) (k : ℕ) :
    Option (Element ℝ (MvPolynomial ℕ ℝ)) :=
  (lagrangeDofs variant c v k).bind fun dofs => (polySet c.tdim k).bind fun poly =>
    ciarlet (poly.map (denoteMono ℝ)) (dofs.map PointDof.functional)

section
variable {V : Type} [AddCommGroup V] [Module ℝ V]

/-- Independent polynomials that are determined by the functionals give an invertible dual matrix. -/
theorem getBasis_isSome {basis : List V} {dofs : List (Dof ℝ V)} (hl : dofs.length = basis.length)
    (hi : Independent ℝ basis)
    (hu : ∀ p ∈ Submodule.span ℝ {p | p ∈ basis}, (∀ d ∈ dofs, d.eval p = 0) → p = 0) :
    (getBasis (.ciarlet basis dofs)).isSome := by
  unfold getBasis
  rw [dif_pos hl, basisFunctions_isSome_iff]
  intro cf h
  have hmem : ∑ k : Fin basis.length, cf k • basis[k] ∈ Submodule.span ℝ {p | p ∈ basis} :=
    Submodule.sum_mem _ fun k _ => Submodule.smul_mem _ _ (Submodule.subset_span (List.getElem_mem k.2))
  have h0 := hu _ hmem fun d hd => by
    obtain ⟨i, hi', rfl⟩ := List.getElem_of_mem hd
    exact h ⟨i, by omega⟩
  have := Fintype.linearIndependent_iff.1 hi cf h0
  funext k
  exact this k

/-- A nonzero polynomial on which all functionals vanish makes the dual matrix singular. -/
theorem getBasis_none {basis : List V} {dofs : List (Dof ℝ V)} {p : V}
    (hp : p ∈ Submodule.span ℝ {p | p ∈ basis}) (h : ∀ d ∈ dofs, d.eval p = 0) (hne : p ≠ 0) :
    getBasis (.ciarlet basis dofs) = none := by
  unfold getBasis
  split_ifs with hl
  · rw [← Option.not_isSome_iff_eq_none, basisFunctions_isSome_iff]
    intro hc
    have : {p | p ∈ basis} = Set.range fun i : Fin basis.length => basis[i] := by
      ext x
      simp only [Set.mem_ofPred_eq, Set.mem_range]
      exact ⟨fun hx => by obtain ⟨i, hi, rfl⟩ := List.getElem_of_mem hx; exact ⟨⟨i, hi⟩, rfl⟩,
        fun ⟨i, hi⟩ => hi ▸ List.getElem_mem _⟩
    rw [this, Submodule.mem_span_range_iff_exists_fun] at hp
    obtain ⟨cf, rfl⟩ := hp
    have h0 := hc cf fun j => h _ (List.getElem_mem _)
    exact hne (by simp [h0])
  · rfl
end

/-- The polynomials of a set of monomials. -/
theorem span_le {l : List Mono} {L : Set (ℕ →₀ ℕ)} (h : ∀ m ∈ l, expo 0 m ∈ L) {p : MvPolynomial ℕ ℝ}
    (hp : p ∈ Submodule.span ℝ {q | q ∈ l.map (denoteMono ℝ)}) : ∀ t ∈ p.support, t ∈ L := by
  have : Submodule.span ℝ {q | q ∈ l.map (denoteMono ℝ)} ≤ restrictSupport ℝ L := by
    rw [Submodule.span_le]
    intro q hq
    obtain ⟨m, hm, rfl⟩ := List.mem_map.1 hq
    show denoteMono ℝ m ∈ restrictSupport ℝ L
    rw [denoteMono, monoFrom_eq, monomial_mem_restrictSupport]
    exact Or.inl (h m hm)
  exact fun t ht => (mem_restrictSupport_iff ℝ).1 (this hp) ht

theorem expo_apply (s : ℕ) (m : Mono) (i : ℕ) : expo s m (s + i) = m.getD i 0 := by
  induction m generalizing s i with
  | nil => simp [expo]
  | cons a t ih =>
    simp only [expo, Finsupp.add_apply]
    cases i with
    | zero => rw [Nat.add_zero, Finsupp.single_eq_same, expo_apply_lt (Nat.lt_succ_self s)]; simp
    | succ i => rw [show s + (i + 1) = s + 1 + i by omega, ih, Finsupp.single_eq_of_ne (by omega)]; simp

theorem expo_sum (s : ℕ) (m : Mono) : (expo s m).degree = m.sum := by
  induction m generalizing s with
  | nil => simp [expo]
  | cons a t ih => simp [expo, ih]

theorem poly_span {d k : ℕ} {l : List Mono} (hl : polySet d k = some l) {p : MvPolynomial ℕ ℝ}
    (hp : p ∈ Submodule.span ℝ {q | q ∈ l.map (denoteMono ℝ)}) :
    p.totalDegree ≤ k ∧ ∀ i ∈ p.vars, i < d := by
  have hd : d = 1 ∨ d = 2 ∨ d = 3 := by
    by_contra hc
    rw [(polySet_raises d k).2 (by omega)] at hl
    cases hl
  obtain ⟨l', h1, -, h3⟩ := polySet_spec d hd k
  obtain rfl : l = l' := Option.some.inj (hl.symm.trans h1)
  have := span_le (L := {t | t.degree ≤ k ∧ ∀ i ∈ t.support, i < d}) (fun m hm => by
    obtain ⟨a, b⟩ := (h3 m).1 hm
    refine ⟨by rw [expo_sum]; exact_mod_cast b, fun i hi => ?_⟩
    by_contra hc
    have e := expo_apply 0 m i
    rw [Nat.zero_add, List.getD_eq_default (hn := by omega)] at e
    exact Finsupp.mem_support_iff.1 hi e) hp
  refine ⟨Finset.sup_le fun t ht => (this t ht).1, fun i hi => ?_⟩
  obtain ⟨t, ht, hi'⟩ := (mem_vars_iff_mem_support i).1 hi
  exact (this t ht).2 i hi'

theorem eval_functional (d : PointDof) (p : MvPolynomial ℕ ℝ) : d.functional.eval p = eval d.point p := by
  show aeval d.point p = eval d.point p
  rw [← coe_aeval_eq_eval]; rfl

/-- **C57** A Lagrange element has as many DOFs as its space has dimensions. -/
theorem lagrange_count {c : Cell} (hc : Simplex c) (v : ℕ → ℕ → ℝ) (k : ℕ) :
    ∃ l, lagrangeDofs "equispaced" c v k = some l ∧ l.length = (k + c.tdim).choose c.tdim := by
  rcases Nat.eq_zero_or_pos k with rfl | hk
  · unfold lagrangeDofs
    rw [if_neg (by decide), if_pos rfl, getPoint_eq _ _ _ (by rcases hc with rfl | rfl | rfl <;> rfl)]
    exact ⟨_, rfl, by simp⟩
  · obtain ⟨points, -, hl⟩ := lagrangeDofs_equispaced hc.fixed v hk
    refine ⟨_, hl, ?_⟩
    rw [length_allPoints _ _ _ _ _ _ (length_entityList_lagrange c v points hk)]
    obtain ⟨m, rfl⟩ : ∃ m, k = m + 1 := ⟨k - 1, by omega⟩
    rcases hc with rfl | rfl | rfl
    · show 2 + (1 * _ + 0 * _ + 0 * _) = _
      simp [Cell.tdim]; omega
    · show 3 + (3 * _ + 1 * _ + 0 * _) = (m + 3).choose 2
      simp [Nat.choose_succ_succ]; omega
    · show 4 + (6 * _ + 4 * _ + 1 * _) = (m + 4).choose 3
      simp [Nat.choose_succ_succ]; omega

/-- **C58** An equispaced Lagrange element on a simplex can be created, and has basis functions, at every order. -/
theorem lagrange_created {c : Cell} (hc : Simplex c) (v : ℕ → ℕ → ℝ) (hv : NonDegenerate c v) (k : ℕ) :
    ∃ e, lagrangeElement "equispaced" c v k = some e ∧ (getBasis e).isSome := by
  obtain ⟨l, hl, hn⟩ := lagrange_count hc v k
  obtain ⟨poly, hp, hnd, hmem⟩ := polySet_spec c.tdim (by rcases hc with rfl | rfl | rfl <;> simp [Cell.tdim]) k
  have hlen : (l.map PointDof.functional).length = (poly.map (denoteMono ℝ)).length := by
    rw [List.length_map, List.length_map, hn, polySet_length _ _ _ hp]
  refine ⟨.ciarlet (poly.map (denoteMono ℝ)) (l.map PointDof.functional), ?_, ?_⟩
  · simp only [lagrangeElement, hl, hp, Option.bind_some, ciarlet, if_pos hlen]
  · refine getBasis_isSome hlen ((scalar_sets_independent ℝ).1 _ _ _ hp) fun p hps hz => ?_
    obtain ⟨hd, hvars⟩ := poly_span hp hps
    have hz' : ∀ d ∈ l, eval d.point p = 0 := fun d hd => by
      rw [← eval_functional]
      exact hz _ (List.mem_map_of_mem hd)
    rcases Nat.eq_zero_or_pos k with rfl | hk
    · have hC := totalDegree_eq_zero_iff_eq_C.1 (Nat.le_zero.1 hd)
      obtain ⟨d, hd⟩ : ∃ d, d ∈ l := List.exists_mem_of_ne_nil l (by rintro rfl; simp at hn)
      have := hz' d hd
      rw [hC, eval_C] at this
      rw [hC, this, map_zero]
    · exact lagrange_unisolvent hc v hv hk hl p hd hvars hz'

/-- The default cells are not degenerate. -/
theorem nonDegenerate_ref {c : Cell} (hc : Simplex c) : NonDegenerate c (refVertex c) := by
  rcases hc with rfl | rfl | rfl
  · intro t h k hk
    have h0 := h 0 (by decide)
    simp only [Cell.tdim] at hk
    interval_cases k
    simpa [Cell.tdim, axis, psub, axisVertices, refVertex, refVerts, coords] using h0
  · intro t h k hk
    have h0 := h 0 (by decide)
    have h1 := h 1 (by decide)
    simp [Cell.tdim, axis, psub, axisVertices, refVertex, refVerts, coords, Finset.sum_range_succ] at h0 h1
    simp only [Cell.tdim] at hk
    interval_cases k <;> assumption
  · intro t h k hk
    have h0 := h 0 (by decide)
    have h1 := h 1 (by decide)
    have h2 := h 2 (by decide)
    simp [Cell.tdim, axis, psub, axisVertices, refVertex, refVerts, coords, Finset.sum_range_succ] at h0 h1 h2
    simp only [Cell.tdim] at hk
    interval_cases k <;> assumption

example : ∃ e, lagrangeElement "equispaced" .triangle (refVertex .triangle) 7 = some e ∧ (getBasis e).isSome :=
  lagrange_created (Or.inr (Or.inl rfl)) _ (nonDegenerate_ref (Or.inr (Or.inl rfl))) 7

end Verif.Elements
