import Verif.Scalar.Bubble
import Mathlib.LinearAlgebra.Dimension.OrzechProperty
/-!
# Bubble enriched Lagrange elements

`symfem/elements/bubble.py`, lines 121-230.  The elements of orders 1 and 2 are unisolvent.  For orders 3 and above the
bubbles that are added include functions that the Lagrange element already contains: the polynomials are linearly
dependent and no basis functions exist.
-/

namespace Verif.Scalar
open Verif.References Verif.Moments Verif.Functionals Verif.Elements Verif.FiniteElement Verif.Polysets Verif.Orthogonal
open Verif.Families
open MvPolynomial

/-! ### Model -/

/-- The polynomials of `BubbleEnrichedLagrange` (symfem/elements/bubble.py:132-138). -/
noncomputable def enrichedPoly (k : ℕ) : Option (List (MvPolynomial ℕ ℝ)) :=
  (polySet 2 k).bind fun ps => (bubblePoly .triangle (k + 2)).map fun bs => ps.map (denoteMono ℝ) ++ bs

/-- The functionals of `BubbleEnrichedLagrange` (symfem/elements/bubble.py:142). -/
noncomputable def enrichedDofs (k : ℕ) : Option (List PointDof) :=
  (lagrangeDofs "equispaced" .triangle (refVertex .triangle) k).bind fun l =>
    (bubbleDofs .triangle (k + 2)).map fun b => l ++ b

/-- `BubbleEnrichedLagrange(reference, order, variant)` (symfem/elements/bubble.py:121-142). -/
noncomputable def enrichedElement (k : ℕ) : Option (Element ℝ (MvPolynomial ℕ ℝ)) :=
  (enrichedPoly k).bind fun poly => (enrichedDofs k).bind fun dofs => ciarlet poly (dofs.map PointDof.functional)

/-- A vector with one entry that is not 0. -/
noncomputable def unitVec {d : ℕ} (i : Fin d) (p : MvPolynomial ℕ ℝ) : Fin d → MvPolynomial ℕ ℝ := fun j => if i = j then p else 0

/-- `BubbleEnrichedVectorLagrange(reference, order, variant)` (symfem/elements/bubble.py:180-213). -/
noncomputable def enrichedVectorElement (k : ℕ) : Option (Element ℝ (Fin 2 → MvPolynomial ℕ ℝ)) :=
  (enrichedPoly k).bind fun poly => (enrichedDofs k).bind fun dofs =>
    ciarlet (poly.flatMap fun p => (List.finRange 2).map fun i => unitVec i p)
      (dofs.flatMap fun p => (List.finRange 2).map fun i => dotDof p fun j => if i = j then 1 else 0)

/-! ### Spaces -/

/-- The functions: polynomials of degree `k`, and polynomials of degree `k + 2` that vanish on the boundary. -/
def Enriched (k : ℕ) (f : MvPolynomial ℕ ℝ) : Prop :=
  ∃ p ∈ P 2 k, ∃ b, BubbleSpace .triangle ((k + 2 : ℕ) : ℤ) b ∧ f = p + b

theorem tri_cell : LagCell .triangle := Or.inl (Or.inr (Or.inl rfl))

theorem tri_simplex : Simplex .triangle := Or.inr (Or.inl rfl)

/-- Lists with independent entries have halves without common combinations. -/
theorem disjoint_of_append {V : Type} [AddCommGroup V] [Module ℝ V] {a b : List V} (h : Independent ℝ (a ++ b)) :
    Disjoint (lspan a) (lspan b) := by
  have := LinearIndependent.disjoint_span_image h (s := {i | i.val < a.length}) (t := {i | a.length ≤ i.val})
    (Set.disjoint_left.2 fun i h1 h2 => by simp only [Set.mem_setOf_eq] at h1 h2; omega)
  refine this.mono (Submodule.span_mono ?_) (Submodule.span_mono ?_)
  · intro v hv
    obtain ⟨i, hi, rfl⟩ := List.getElem_of_mem hv
    exact ⟨⟨i, by rw [List.length_append]; omega⟩, hi, by simp [List.getElem_append_left hi]⟩
  · intro v hv
    obtain ⟨i, hi, rfl⟩ := List.getElem_of_mem hv
    exact ⟨⟨a.length + i, by rw [List.length_append]; omega⟩, by simp, by simp⟩

/-- The polynomials that are added for orders 3 and above include some that are there already. -/
theorem enriched_dependent {k : ℕ} (hk : 3 ≤ k) {poly : List (MvPolynomial ℕ ℝ)} (h : enrichedPoly k = some poly) :
    ¬ Independent ℝ poly := by
  intro hi
  obtain ⟨ps, h1, h2⟩ := polySet_lspan (d := 2) (by decide) (k : ℤ)
  obtain ⟨bs, h3, -, -, h4⟩ := bubblePoly_spec tri_cell (k := k + 2) (by simp [bubbleShift]; omega)
  rw [enrichedPoly, h1, Option.bind_some, h3, Option.map_some, Option.some.injEq] at h
  subst h
  have hd := disjoint_of_append hi
  rw [Submodule.disjoint_def] at hd
  refine cbub_ne_zero tri_cell (hd _ ?_ ?_)
  · have hb : BubbleSpace .triangle k (cbub .triangle) := (bubbleSpace_iff tri_cell _ _).2 ⟨1, by
      rw [W_simplex tri_simplex]
      exact Families.one_mem (by simp [bubbleShift]; omega), by rw [mul_one]⟩
    rw [h2]
    have := hb.1
    rwa [W_simplex tri_simplex] at this
  · rw [h4, bubbleSpace_iff tri_cell]
    refine ⟨1, ?_, by rw [mul_one]⟩
    rw [W_simplex tri_simplex]
    exact Families.one_mem (by simp [bubbleShift]; omega)

/-- No basis functions exist for orders 3 and above. -/
theorem enriched_no_basis {k : ℕ} (hk : 3 ≤ k) : (enrichedElement k).bind getBasis = none := by
  rw [Option.bind_eq_none_iff]
  intro e he
  rw [enrichedElement, Option.bind_eq_some_iff] at he
  obtain ⟨poly, hp, he⟩ := he
  rw [Option.bind_eq_some_iff] at he
  obtain ⟨dofs, -, he⟩ := he
  unfold ciarlet at he
  split_ifs at he
  obtain rfl := Option.some.inj he
  exact getBasis_dependent (enriched_dependent hk hp)

theorem entVerts_vertsOf {c : Cell} (hc : Simplex c) (e : ℕ × ℕ) : entVerts c e.1 e.2 ⊆ vertsOf c e := by
  unfold vertsOf
  split_ifs with h
  · rw [h]
    have h1 : ∀ n < 4, entVerts c 0 n ⊆ [n] := by rcases hc with rfl | rfl | rfl <;> decide
    by_cases hn : e.2 < 4
    · exact h1 _ hn
    · have : entVerts c 0 e.2 = [] := by
        unfold entVerts
        obtain ⟨s, hs, hl⟩ : ∃ s, c.subEntities 0 = some s ∧ s.length ≤ 4 := by
          rcases hc with rfl | rfl | rfl <;> exact ⟨_, rfl, by decide⟩
        rw [hs, Option.bind_some, List.getElem?_eq_none (by omega)]
        rfl
      rw [this]
      simp
  · exact fun _ h => h

theorem lag_edge_zero {c : Cell} (hc : Simplex c) {k : ℕ} (hk : 0 < k) {l : List PointDof}
    (hl : lagrangeDofs "equispaced" c (refVertex c) k = some l) {p : MvPolynomial ℕ ℝ} (hp : p ∈ P c.tdim k) {i : ℕ}
    (hi : i < entityCount c 1) (h : ∀ d ∈ l, entVerts c d.entity.1 d.entity.2 ⊆ entVerts c 1 i → eval d.point p = 0) (t : ℝ) :
    eval (onLine (refVertex c ((entVerts c 1 i).getD 0 0)) (refVertex c ((entVerts c 1 i).getD 1 0)) t) p = 0 := by
  have hd : p.totalDegree ≤ k := by
    by_cases h0 : p = 0
    · rw [h0]; simp
    · exact_mod_cast (mem_P_iff.1 hp).1 h0
  have key : ∀ i < entityCount c 1, ∃ a b, entVerts c 1 i = [a, b] ∧ a ≠ b ∧ a < c.nverts ∧ b < c.nverts := by
    have e : ∀ i < entityCount c 1, (entVerts c 1 i) = [(entVerts c 1 i).getD 0 0, (entVerts c 1 i).getD 1 0] ∧
        (entVerts c 1 i).getD 0 0 ≠ (entVerts c 1 i).getD 1 0 ∧ (entVerts c 1 i).getD 0 0 < c.nverts ∧
        (entVerts c 1 i).getD 1 0 < c.nverts := by
      rcases hc with rfl | rfl | rfl <;> decide
    exact fun i hi => ⟨_, _, e i hi⟩
  obtain ⟨a, b, hab, hne, ha, hb⟩ := key i hi
  have := lagrange_entity hc _ hk hl {a, b} (by simp) (by simp [ha, hb]) p hd (fun d hd hs => h d hd fun n hn => by
    have := hs n (entVerts_vertsOf hc _ hn)
    simpa [hab] using this) (fun n => if n = a then 1 - t else t) (by rw [Finset.sum_pair hne]; simp [hne.symm])
  rw [← this, hab]
  congr 2
  funext j
  rw [Finset.sum_pair hne]
  simp only [List.getD_cons_zero, List.getD_cons_succ, onLine, if_true, if_neg hne.symm]
  ring

/-- The functionals of a Lagrange element on a triangle that are not in the interior. -/
theorem lag_boundary {k : ℕ} (hk : 0 < k) {l : List PointDof}
    (hl : lagrangeDofs "equispaced" .triangle (refVertex .triangle) k = some l) {d : PointDof} (hd : d ∈ l) :
    (d.entity.1 < 2 ∧ OnBoundary .triangle d.point) ∨ (3 ≤ k ∧ d.entity = (2, 0)) := by
  obtain ⟨points, hpts, hl'⟩ := lagrangeDofs_equispaced tri_simplex.fixed (refVertex .triangle) hk
  obtain rfl := Option.some.inj (hl'.symm.trans hl)
  obtain ⟨e1, e2, e3, e4, e5, e6⟩ := ref_tri
  have hon : ∀ z : ℕ → ℝ, z 0 = 0 ∨ z 1 = 0 ∨ z 0 + z 1 = 1 → OnBoundary .triangle z := by
    intro z hz
    simp only [OnBoundary, List.mem_cons, true_or, or_true, if_true, reduceCtorEq]
    rcases hz with hz | hz | hz
    · exact Or.inl ⟨0, by decide, hz⟩
    · exact Or.inl ⟨1, by decide, hz⟩
    · exact Or.inr (by show ∑ j : Fin 2, z j.val = 1; rw [Fin.sum_univ_two]; exact hz)
  rcases List.mem_append.1 hd with hd | hd
  · obtain ⟨n, hn, rfl⟩ := List.mem_map.1 hd
    have hn' : n < 3 := List.mem_range.1 hn
    refine Or.inl ⟨by simp, hon _ ?_⟩
    interval_cases n
    · exact Or.inl e1
    · exact Or.inr (Or.inl e4)
    · exact Or.inl e5
  · simp only [List.mem_flatMap] at hd
    obtain ⟨edim, he, n, hn, hd⟩ := hd
    obtain ⟨i, hi, rfl⟩ := List.mem_map.1 hd
    rw [List.mem_filter, mem_product] at hi
    rw [List.mem_range'_1] at he
    have hn' := List.mem_range.1 hn
    obtain ⟨h1, h3⟩ := he
    have h4 : edim < 4 := h3
    obtain ⟨⟨hlen, hin⟩, hsum⟩ := hi
    interval_cases edim
    · refine Or.inl ⟨by simp, hon _ ?_⟩
      have hn3 : n < 3 := hn'
      obtain ⟨a, rfl⟩ := List.length_eq_one_iff.1 hlen
      have ha : ∀ w : ℕ → ℕ → ℝ, axis .interval w 0 = fun j => w 1 j - w 0 j := fun w => by funext j; rfl
      interval_cases n
      · right; right
        show entityPoint .interval (entityVerts (refVertex .triangle) [1, 2]) _ 0 + entityPoint .interval (entityVerts (refVertex .triangle) [1, 2]) _ 1 = _
        simp [entityPoint, entityVerts, ha, e1, e2, e3, e4, e5, e6]
      · left
        show entityPoint .interval (entityVerts (refVertex .triangle) [0, 2]) _ 0 = _
        simp [entityPoint, entityVerts, ha, e1, e2, e3, e4, e5, e6]
      · right; left
        show entityPoint .interval (entityVerts (refVertex .triangle) [0, 1]) _ 1 = _
        simp [entityPoint, entityVerts, ha, e1, e2, e3, e4, e5, e6]
    · right
      have hn1 : n < 1 := hn'
      obtain ⟨a, b, rfl⟩ := List.length_eq_two.1 hlen
      have h1 := mem_innerRange.1 (hin a (by simp))
      have h2 := mem_innerRange.1 (hin b (by simp))
      have hs : a + b < k := by simpa using hsum
      exact ⟨by omega, by simp; omega⟩
    · have : n < 0 := hn'
      omega

/-- The values of a function on the boundary are those of its Lagrange part. -/
theorem enriched_boundary {k : ℕ} {f : MvPolynomial ℕ ℝ} (hf : Enriched k f) : ∃ p ∈ P 2 k, BubbleSpace .triangle ((k + 2 : ℕ) : ℤ) (f - p) ∧
    ∀ z, OnBoundary .triangle z → eval z p = eval z f := by
  obtain ⟨p, hp, b, hb, rfl⟩ := hf
  refine ⟨p, hp, by rwa [add_sub_cancel_left], fun z hz => ?_⟩
  rw [map_add, hb.2 z hz, add_zero]

/-- The functionals determine the functions for orders 1 and 2. -/
theorem enriched_determined {k : ℕ} (h1 : 1 ≤ k) (h2 : k ≤ 2) {l : List PointDof} (hl : enrichedDofs k = some l)
    {f : MvPolynomial ℕ ℝ} (hf : Enriched k f) (h0 : ∀ d ∈ l, eval d.point f = 0) : f = 0 := by
  obtain ⟨la, hla, -⟩ := lagrange_count tri_simplex (refVertex .triangle) k
  rw [enrichedDofs, hla, bubbleDofs_spec tri_cell, Option.bind_some, Option.map_some, Option.some.injEq] at hl
  subst hl
  obtain ⟨p, hp, hb, hz⟩ := enriched_boundary hf
  have hp0 : p = 0 := lagrange_determined tri_simplex _ (nonDegenerate_ref tri_simplex) hla hp fun d hd => by
    rcases lag_boundary h1 hla hd with ⟨-, h⟩ | ⟨h, -⟩
    · rw [hz _ h]
      exact h0 d (List.mem_append_left _ hd)
    · omega
  rw [hp0, sub_zero] at hb
  refine bubble_determined tri_cell (k := k + 2) (by simp [bubbleShift]; omega) ((bubbleSpace_iff tri_cell _ _).1 hb) fun i hi hi' => ?_
  exact h0 ⟨bubblePoint (k + 2) i, (Cell.triangle.tdim, 0)⟩ (List.mem_append_right _ (List.mem_map.2 ⟨i, List.mem_filter.2 ⟨hi, by simpa using hi'⟩, rfl⟩))

/-- The values on a vertex or an edge are determined by its functionals. -/
theorem enriched_trace {k : ℕ} (hk : 1 ≤ k) {l : List PointDof} (hl : enrichedDofs k = some l) {f : MvPolynomial ℕ ℝ}
    (hf : Enriched k f) {dim i : ℕ} (hd : dim < 2) (hi : i < entityCount .triangle dim)
    (h0 : ∀ d ∈ l, entVerts .triangle d.entity.1 d.entity.2 ⊆ entVerts .triangle dim i → eval d.point f = 0) (z : ℕ → ℝ) :
    eval ((entityDomain .triangle (dim, i)).param z) f = 0 := by
  obtain ⟨la, hla, -⟩ := lagrange_count tri_simplex (refVertex .triangle) k
  rw [enrichedDofs, hla, bubbleDofs_spec tri_cell, Option.bind_some, Option.map_some, Option.some.injEq] at hl
  subst hl
  obtain ⟨p, hp, hb, hz⟩ := enriched_boundary hf
  have hlow : ∀ i < entityCount .triangle dim, ¬ entVerts .triangle 2 0 ⊆ entVerts .triangle dim i := by
    interval_cases dim <;> decide
  have hpz : ∀ d ∈ la, entVerts .triangle d.entity.1 d.entity.2 ⊆ entVerts .triangle dim i → eval d.point p = 0 := by
    intro d hd hs
    rcases lag_boundary hk hla hd with ⟨-, h⟩ | ⟨-, h⟩
    · rw [hz _ h]
      exact h0 d (List.mem_append_left _ hd) hs
    · rw [h] at hs
      exact absurd hs (hlow i hi)
  obtain ⟨e1, e2, e3, e4, e5, e6⟩ := ref_tri
  have hon : ∀ z : ℕ → ℝ, z 0 = 0 ∨ z 1 = 0 ∨ z 0 + z 1 = 1 → OnBoundary .triangle z := by
    intro z hz
    simp only [OnBoundary, List.mem_cons, true_or, or_true, if_true, reduceCtorEq]
    rcases hz with hz | hz | hz
    · exact Or.inl ⟨0, by decide, hz⟩
    · exact Or.inl ⟨1, by decide, hz⟩
    · exact Or.inr (by show ∑ j : Fin 2, z j.val = 1; rw [Fin.sum_univ_two]; exact hz)
  interval_cases dim
  · rw [point_param tri_simplex hi]
    obtain ⟨points, -, hl'⟩ := lagrangeDofs_equispaced tri_simplex.fixed (refVertex .triangle) hk
    obtain rfl := Option.some.inj (hl'.symm.trans hla)
    have hi' : i < 3 := hi
    refine h0 ⟨refVertex .triangle i, (0, i)⟩ (List.mem_append_left _ (List.mem_append_left _ (List.mem_map.2 ⟨i, List.mem_range.2 hi', rfl⟩))) fun _ h => h
  · rw [edge_param tri_simplex, ← hz]
    · exact lag_edge_zero tri_simplex hk hla hp hi hpz _
    · have hi' : i < 3 := hi
      apply hon
      interval_cases i
      · right; right
        show onLine (refVertex .triangle 1) (refVertex .triangle 2) _ 0 + onLine (refVertex .triangle 1) (refVertex .triangle 2) _ 1 = _
        simp only [onLine, e3, e4, e5, e6]
        ring
      · left
        show onLine (refVertex .triangle 0) (refVertex .triangle 2) _ 0 = _
        simp only [onLine, e1, e5]
        ring
      · right; left
        show onLine (refVertex .triangle 0) (refVertex .triangle 1) _ 1 = _
        simp only [onLine, e2, e4]
        ring

theorem enriched_lists (k : ℕ) (hk : 1 ≤ k) : ∃ poly dofs, enrichedPoly k = some poly ∧ enrichedDofs k = some dofs ∧
    poly.length = (k + 2).choose 2 + (k + 1).choose 2 ∧ dofs.length = (k + 2).choose 2 + (k + 1).choose 2 ∧
    ∀ f, f ∈ lspan poly ↔ Enriched k f := by
  obtain ⟨la, hla, hn⟩ := lagrange_count tri_simplex (refVertex .triangle) k
  obtain ⟨ps, h1, h2⟩ := polySet_lspan (d := 2) (by decide) (k : ℤ)
  obtain ⟨bs, h3, h5, -, h4⟩ := bubblePoly_spec tri_cell (k := k + 2) (by simp [bubbleShift]; omega)
  refine ⟨_, _, by rw [enrichedPoly, h1, Option.bind_some, h3, Option.map_some],
    by rw [enrichedDofs, hla, bubbleDofs_spec tri_cell, Option.bind_some, Option.map_some], ?_, ?_, fun f => ?_⟩
  · rw [List.length_append, List.length_map, h5, polySet_length _ _ _ h1]
    rfl
  · rw [List.length_append, List.length_map, bubbleDofs_count tri_cell (by simp [bubbleShift]; omega), hn]
    rfl
  · rw [lspan_append, h2, Submodule.mem_sup]
    constructor
    · rintro ⟨p, hp, b, hb, rfl⟩
      exact ⟨p, hp, b, (h4 b).1 hb, rfl⟩
    · rintro ⟨p, hp, b, hb, rfl⟩
      exact ⟨p, hp, b, (h4 b).2 hb, rfl⟩

theorem enriched_independent {k : ℕ} (h2 : k ≤ 2) (hk : 1 ≤ k) {poly : List (MvPolynomial ℕ ℝ)} (h : enrichedPoly k = some poly) :
    Independent ℝ poly := by
  obtain ⟨ps, h1, h2⟩ := polySet_lspan (d := 2) (by decide) (k : ℤ)
  obtain ⟨bs, h3, -, h5, h4⟩ := bubblePoly_spec tri_cell (k := k + 2) (by simp [bubbleShift]; omega)
  rw [enrichedPoly, h1, Option.bind_some, h3, Option.map_some, Option.some.injEq] at h
  subst h
  refine independent_append ((scalar_sets_independent ℝ).1 _ _ _ h1) h5 ?_
  rw [Submodule.disjoint_def]
  intro f hf hb
  rw [h2] at hf
  rw [h4] at hb
  have : BubbleSpace .triangle k f := ⟨by rw [W_simplex tri_simplex]; exact hf, hb.2⟩
  rw [bubbleSpace_iff tri_cell, W_simplex tri_simplex] at this
  obtain ⟨q, hq, rfl⟩ := this
  rw [P_neg (by simp [bubbleShift]; omega) hq, mul_zero]

theorem tri_entVerts (a b : ℕ) : entVerts .triangle a b ⊆ entVerts .triangle 2 0 := by
  have key : ∀ a < 4, ∀ s ∈ (Cell.triangle.subEntities a).getD [], s ⊆ entVerts .triangle 2 0 := by decide
  unfold entVerts
  rcases h : Cell.triangle.subEntities a with _ | s
  · simp
  · rw [Option.bind_some]
    rcases h' : s[b]? with _ | e
    · simp
    · have ha : a < 4 := by
        by_contra hc
        obtain ⟨a, rfl⟩ : ∃ m, a = m + 4 := ⟨a - 4, by omega⟩
        simp [Cell.subEntities] at h
      have := key a ha e (by rw [h]; exact List.mem_of_getElem? h')
      exact this

/-- Orders 1 and 2 work. -/
theorem enriched_created_partial {k : ℕ} (h1 : 1 ≤ k) (h2 : k ≤ 2) :
    Created (enrichedElement k) (Enriched k) ((k + 2).choose 2 + (k + 1).choose 2) (C0Trace .triangle (Enriched k)) := by
  obtain ⟨poly, dofs, hp, hd, l1, l2, hs⟩ := enriched_lists k h1
  have hu : ∀ f, Enriched k f → (∀ d ∈ dofs.map PointDof.functional, d.eval f = 0) → f = 0 := fun f hf h0 =>
    enriched_determined h1 h2 hd hf fun d hd => by rw [← eval_functional]; exact h0 _ (List.mem_map_of_mem hd)
  refine created_of (by rw [enrichedElement, hp, hd]; rfl) (by rw [List.length_map, l2]) l1 (enriched_independent h2 h1 hp) hs hu ?_
  intro dim hdim i hi f hf h0 z
  have hdim' : dim ≤ 2 := hdim
  by_cases hlow : dim < 2
  · exact enriched_trace h1 hd hf hlow hi (fun d hd hs => by rw [← eval_functional]; exact h0 _ (List.mem_map_of_mem hd) hs) z
  · obtain rfl : dim = 2 := by omega
    have hi' : i < 1 := hi
    obtain rfl : i = 0 := by omega
    rw [hu f hf fun d hd => h0 d hd ?_, map_zero]
    exact tri_entVerts _ _

/-- The objects of orders 3 and above are created: the exception comes when the basis functions are needed. -/
theorem enriched_isSome {k : ℕ} (hk : 1 ≤ k) : (enrichedElement k).isSome := by
  obtain ⟨poly, dofs, hp, hd, l1, l2, hs⟩ := enriched_lists k hk
  rw [enrichedElement, hp, hd, Option.bind_some, Option.bind_some, ciarlet, if_pos (by rw [List.length_map, l1, l2])]
  rfl

/-! ### Vector functions -/

theorem mem_lspan_vec {d : ℕ} {l : List (MvPolynomial ℕ ℝ)} {v : Fin d → MvPolynomial ℕ ℝ} :
    v ∈ lspan (l.flatMap fun p => (List.finRange d).map fun i => unitVec i p) ↔ ∀ i, v i ∈ lspan l := by
  constructor
  · intro hv
    let T : Submodule ℝ (Fin d → MvPolynomial ℕ ℝ) := Submodule.pi Set.univ fun _ => lspan l
    have : lspan (l.flatMap fun p => (List.finRange d).map fun i => unitVec i p) ≤ T := by
      refine Submodule.span_le.2 fun w hw => ?_
      simp only [Set.mem_ofPred_eq, List.mem_flatMap, List.mem_map] at hw
      obtain ⟨p, hp, i, -, rfl⟩ := hw
      intro j _
      simp only [unitVec]
      split_ifs
      · exact mem_lspan hp
      · exact Submodule.zero_mem _
    exact fun i => this hv i trivial
  · intro hv
    have e : v = ∑ i, LinearMap.single ℝ (fun _ : Fin d => MvPolynomial ℕ ℝ) i (v i) := by
      funext j
      simp [Finset.sum_apply, Pi.single_apply]
    rw [e]
    refine Submodule.sum_mem _ fun i _ => ?_
    have h1 : (lspan l).map (LinearMap.single ℝ (fun _ : Fin d => MvPolynomial ℕ ℝ) i) ≤
        lspan (l.flatMap fun p => (List.finRange d).map fun i => unitVec i p) := by
      rw [lspan, Submodule.map_span, Submodule.span_le]
      rintro _ ⟨p, hp, rfl⟩
      refine mem_lspan (List.mem_flatMap.2 ⟨p, hp, List.mem_map.2 ⟨i, List.mem_finRange i, ?_⟩⟩)
      funext j
      simp [unitVec, Pi.single_apply, eq_comm]
    exact h1 (Submodule.mem_map_of_mem (hv i))

/-- Independence as a number of dimensions. -/
theorem independent_finrank {V : Type} [AddCommGroup V] [Module ℝ V] (l : List V) :
    Independent ℝ l ↔ l.length = Module.finrank ℝ (lspan l) := by
  unfold Independent
  rw [linearIndependent_iff_card_eq_finrank_span, Fintype.card_fin, Set.finrank]
  have : Set.range (fun i : Fin l.length => l[i]) = {v | v ∈ l} := by
    ext v
    simp [List.mem_iff_get]
  rw [this]

theorem length_vec {d : ℕ} (l : List (MvPolynomial ℕ ℝ)) :
    (l.flatMap fun p => (List.finRange d).map fun i => unitVec i p).length = l.length * d := by
  rw [List.length_flatMap]
  simp

theorem independent_vec {d : ℕ} (hd : 0 < d) (l : List (MvPolynomial ℕ ℝ)) :
    Independent ℝ (l.flatMap fun p => (List.finRange d).map fun i => unitVec i p) ↔ Independent ℝ l := by
  rw [independent_finrank, independent_finrank, length_vec]
  haveI : Module.Finite ℝ (lspan l) := by
    have : {v | v ∈ l}.Finite := l.finite_toSet
    exact Module.Finite.span_of_finite ℝ this
  have e : lspan (l.flatMap fun p => (List.finRange d).map fun i => unitVec i p) = Submodule.pi Set.univ fun _ : Fin d => lspan l := by
    ext v
    rw [mem_lspan_vec]
    simp [Submodule.mem_pi]
  let E : (Fin d → lspan l) ≃ₗ[ℝ] (Submodule.pi Set.univ fun _ : Fin d => lspan l) :=
    { toFun := fun v => ⟨fun i => v i, fun i _ => (v i).2⟩
      invFun := fun v i => ⟨v.1 i, v.2 i trivial⟩
      map_add' := fun _ _ => rfl
      map_smul' := fun _ _ => rfl
      left_inv := fun _ => rfl
      right_inv := fun _ => rfl }
  rw [e, ← LinearEquiv.finrank_eq E, Module.finrank_pi_fintype, Finset.sum_const, Finset.card_univ, Fintype.card_fin, smul_eq_mul,
    mul_comm]
  exact Nat.mul_right_inj hd.ne'

/-- Orders 1 and 2 of the vector valued element work. -/
theorem enrichedVector_created_partial {k : ℕ} (h1 : 1 ≤ k) (h2 : k ≤ 2) :
    Created (enrichedVectorElement k) (fun v => ∀ i, Enriched k (v i)) (((k + 2).choose 2 + (k + 1).choose 2) * 2) fun dofs =>
      ∀ dim < 2, ∀ i < entityCount .triangle dim, ∀ v : Fin 2 → MvPolynomial ℕ ℝ, (∀ i, Enriched k (v i)) →
        (∀ d ∈ dofs, entVerts .triangle d.entity.1 d.entity.2 ⊆ entVerts .triangle dim i → d.eval v = 0) →
        ∀ z n, eval ((entityDomain .triangle (dim, i)).param z) (v n) = 0 := by
  obtain ⟨poly, dofs, hp, hd, l1, l2, hs⟩ := enriched_lists k h1
  refine created_of (by rw [enrichedVectorElement, hp, hd]; rfl) ?_ (by rw [length_vec, l1])
    ((independent_vec (by decide) _).2 (enriched_independent h2 h1 hp)) (fun v => ?_) (fun v hv h0 => ?_) ?_
  · rw [List.length_flatMap]
    simp [l2]
  · rw [mem_lspan_vec]
    simp only [hs]
  · funext i
    refine enriched_determined h1 h2 hd (hv i) fun d hd => ?_
    rw [← eval_dotDof]
    exact h0 _ (List.mem_flatMap.2 ⟨d, hd, List.mem_map.2 ⟨i, List.mem_finRange i, rfl⟩⟩)
  · intro dim hdim i hi v hv h0 z n
    refine enriched_trace h1 hd (hv n) hdim hi (fun d hd hs => ?_) z
    rw [← eval_dotDof]
    exact h0 _ (List.mem_flatMap.2 ⟨d, hd, List.mem_map.2 ⟨n, List.mem_finRange n, rfl⟩⟩) hs

/-- No basis functions exist for the vector valued element of orders 3 and above. -/
theorem enrichedVector_no_basis {k : ℕ} (hk : 3 ≤ k) : (enrichedVectorElement k).bind getBasis = none := by
  rw [Option.bind_eq_none_iff]
  intro e he
  rw [enrichedVectorElement, Option.bind_eq_some_iff] at he
  obtain ⟨poly, hp, he⟩ := he
  rw [Option.bind_eq_some_iff] at he
  obtain ⟨dofs, -, he⟩ := he
  unfold ciarlet at he
  split_ifs at he
  obtain rfl := Option.some.inj he
  exact getBasis_dependent fun h => enriched_dependent hk hp ((independent_vec (by decide) _).1 h)

/-- Order 2: nine functions, `x y (1 - x - y) x` is one of them. -/
example : (2 + 2).choose 2 + (2 + 1).choose 2 = 9 ∧ Enriched 2 (cbub .triangle * X 0) :=
  ⟨by decide, 0, Submodule.zero_mem _, _, (bubbleSpace_iff tri_cell _ _).2 ⟨X 0, by
    rw [W_simplex tri_simplex]; exact X_mem (by decide), rfl⟩, by rw [zero_add]⟩

end Verif.Scalar
