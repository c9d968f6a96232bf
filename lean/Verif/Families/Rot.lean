import Verif.Families.TrimmedDiv
/-!
# H(curl) elements on quadrilaterals, by rotating to H(div)
-/

namespace Verif.Families
open Verif.References Verif.Moments Verif.Functionals Verif.Elements Verif.FiniteElement Verif.Polysets Verif.Orthogonal
open MvPolynomial

/-! ### Sublists of independent lists -/

section
variable {V W : Type} [AddCommGroup V] [Module ℝ V] [AddCommGroup W] [Module ℝ W]

theorem independent_right {a b : List V} (h : Independent ℝ (a ++ b)) : Independent ℝ b := by
  have h2 := h.comp (fun i : Fin b.length => (⟨a.length + i.val, by simp⟩ : Fin (a ++ b).length)) (by
    intro i j hij
    simp at hij
    exact Fin.ext hij)
  have e : (fun i : Fin (a ++ b).length => (a ++ b)[i]) ∘ (fun i : Fin b.length => (⟨a.length + i.val, by simp⟩ : Fin (a ++ b).length)) =
      fun i : Fin b.length => b[i] := by
    funext i
    simp
  rw [e] at h2
  exact h2

theorem disjoint_of_independent {a b : List V} (h : Independent ℝ (a ++ b)) : Disjoint (lspan a) (lspan b) := by
  have h2 := LinearIndependent.disjoint_span_image h (s := {i | i.val < a.length}) (t := {i | a.length ≤ i.val}) (by
    rw [Set.disjoint_left]
    intro i hi hj
    simp only [Set.mem_ofPred_eq] at hi hj
    omega)
  refine h2.mono (Submodule.span_mono ?_) (Submodule.span_mono ?_)
  · intro v hv
    obtain ⟨i, hi, rfl⟩ := List.getElem_of_mem (show v ∈ a from hv)
    exact ⟨⟨i, by simp; omega⟩, hi, by simp [List.getElem_append_left hi]⟩
  · intro v hv
    obtain ⟨i, hi, rfl⟩ := List.getElem_of_mem (show v ∈ b from hv)
    exact ⟨⟨a.length + i, by simp; omega⟩, by simp, by simp⟩

theorem lspan_map (f : V →ₗ[ℝ] W) (l : List V) : lspan (l.map f) = (lspan l).map f := by
  rw [lspan, lspan, Submodule.map_span]
  congr 1
  ext v
  simp

theorem independent_of_map (f : V →ₗ[ℝ] W) {l : List V} (h : Independent ℝ (l.map f)) : Independent ℝ l := by
  have h2 := h.comp (fun i : Fin l.length => (⟨i.val, by simp⟩ : Fin (l.map f).length)) (by
    intro i j hij
    simp at hij
    exact Fin.ext hij)
  refine LinearIndependent.of_comp f ?_
  have e : (fun i : Fin (l.map f).length => (l.map f)[i]) ∘ (fun i : Fin l.length => (⟨i.val, by simp⟩ : Fin (l.map f).length)) =
      f ∘ fun i : Fin l.length => l[i] := by
    funext i
    simp
  rw [e] at h2
  exact h2

end

/-! ### The rotation -/

/-- The field rotated by a quarter of a turn. -/
noncomputable def rot : Field 2 →ₗ[ℝ] Field 2 where
  toFun v := ![-v 1, v 0]
  map_add' v w := by funext i; fin_cases i <;> simp [add_comm]
  map_smul' a v := by funext i; fin_cases i <;> simp

theorem rot_zero (v : Field 2) : rot v 0 = -v 1 := rfl
theorem rot_one (v : Field 2) : rot v 1 = v 0 := rfl

theorem rot_rot (v : Field 2) : rot (rot v) = -v := by
  funext i
  fin_cases i
  · exact rot_zero (rot v)
  · exact rot_one (rot v)

theorem rot_injective {v : Field 2} (h : rot v = 0) : v = 0 := by
  have := rot_rot v
  rw [h, map_zero] at this
  exact neg_eq_zero.1 this.symm

theorem rot_mem {k : ℤ} {v : Field 2} (hv : v ∈ PV 2 2 k) : rot v ∈ PV 2 2 k := by
  rw [mem_PV] at hv ⊢
  intro i
  fin_cases i
  · exact Submodule.neg_mem _ (hv 1)
  · exact hv 0

theorem pairing_rot (v q : Field 2) : pairing .quadrilateral (rot v) (rot q) = pairing .quadrilateral v q := by
  rw [pairing_apply, pairing_apply]
  congr 1
  funext z
  congr 1
  show ∑ i : Fin 2, rot v i * rot q i = ∑ i : Fin 2, v i * q i
  rw [Fin.sum_univ_two, Fin.sum_univ_two, rot_zero, rot_one, rot_zero, rot_one]
  ring

/-- The lists of polynomials. -/
theorem rot_spec {k : ℕ} {a : List VecPoly} (ha : polySetVector 2 2 k = some a) {B B' : List (Field 2)} (hB : B.map rot = B')
    (hi : Independent ℝ (a.map (denoteVec ℝ 2) ++ B')) :
    Independent ℝ (a.map (denoteVec ℝ 2) ++ B) ∧
      ∀ v, v ∈ lspan (a.map (denoteVec ℝ 2) ++ B) ↔ rot v ∈ lspan (a.map (denoteVec ℝ 2) ++ B') := by
  obtain ⟨a', h1, h2, h3, h4⟩ := poly_vector (d := 2) (Or.inl rfl) k
  obtain rfl : a = a' := Option.some.inj (ha.symm.trans h1)
  subst hB
  refine ⟨independent_append h2 (independent_of_map rot (independent_right hi)) ?_, fun v => ?_⟩
  · rw [Submodule.disjoint_def]
    intro w hw hw'
    refine rot_injective ?_
    refine Submodule.disjoint_def.1 (disjoint_of_independent hi) _ ((h3 _).2 fun j => ?_) ?_
    · exact mem_PV.1 (rot_mem (mem_PV.2 fun j => (h3 w).1 hw j)) j
    · rw [lspan_map]
      exact Submodule.mem_map_of_mem hw'
  · rw [lspan_append, lspan_append, Submodule.mem_sup, Submodule.mem_sup, lspan_map]
    constructor
    · rintro ⟨p, hp, w, hw, rfl⟩
      refine ⟨rot p, (h3 _).2 fun j => ?_, rot w, Submodule.mem_map_of_mem hw, (map_add _ _ _).symm⟩
      exact mem_PV.1 (rot_mem (mem_PV.2 fun j => (h3 p).1 hp j)) j
    · rintro ⟨p, hp, w', ⟨w, hw, rfl⟩, e⟩
      refine ⟨-rot p, (h3 _).2 fun j => ?_, w, hw, ?_⟩
      · exact mem_PV.1 (Submodule.neg_mem _ (rot_mem (mem_PV.2 fun j => (h3 p).1 hp j))) j
      · have h5 := congrArg rot e
        rw [map_add, rot_rot, rot_rot] at h5
        have h6 := congrArg Neg.neg h5
        rw [neg_neg, neg_add, neg_neg] at h6
        exact h6

/-! ### Elements -/

/-- The traces on the edges. -/
theorem edge_trace_of {c : Cell} (hc : Box c) {S : Field c.tdim → Prop} {k : ℤ} (hmem : ∀ v, S v → ∀ j, v j ∈ P c.tdim k)
    {xs : List (MvPolynomial ℕ ℝ)}
    (hxs : ∀ v, S v → ∀ i < entityCount c 1, ∀ a (ha : a < c.tdim), (∀ j, axis .interval (entityDomain c (1, i)).v 0 j = if j = a then 1 else 0) →
      pull ⟨.interval, c.tdim, (entityDomain c (1, i)).v⟩ (v ⟨a, ha⟩) ∈ lspan xs)
    {mp : Option String} {dofs : List (Dof ℝ (Field c.tdim))}
    (hd : ∀ i < entityCount c 1, ∀ x ∈ xs, ∃ d ∈ dofs, momentDof c ⟨"TangentIntegralMoment", .scalar x, (1, i), mp⟩ = some d) :
    EdgeTrace c S dofs := by
  intro i hi p q hpq v hv h
  obtain ⟨a, ha, hax, ha0⟩ := box_edge hc hi
  obtain ⟨J, s, hJ, hs, hm⟩ := box_edge_moment hc hi mp
  have : EdgeZero ((entityDomain c (1, i)).v 0) ((entityDomain c (1, i)).v 1) v := by
    intro t
    have := trace_zero' ⟨.interval, c.tdim, (entityDomain c (1, i)).v⟩ (by simp [Solid]) hJ hs (hmem v hv)
      (xs := xs) (n := axis .interval (entityDomain c (1, i)).v 0)
      (by rw [comp_single (D := ⟨.interval, c.tdim, (entityDomain c (1, i)).v⟩) ha hax v]; exact hxs v hv i hi a ha hax) (fun x hx => by
        obtain ⟨d, hd1, hd2⟩ := hd i hi x hx
        obtain ⟨d', h1, h2, h3⟩ := hm x
        obtain rfl := Option.some.inj (hd2.symm.trans h1)
        rw [← h3 v]
        exact h d hd1 h2) (y := fun _ => t) (z := _) fun j _ => rfl
    rwa [interval_param] at this
  have e0 : (entityDomain c (1, i)).v 0 = refVertex c p := by
    show refVertex c ((entVerts c 1 i).getD 0 0) = _
    rw [hpq]; rfl
  have e1 : (entityDomain c (1, i)).v 1 = refVertex c q := by
    show refVertex c ((entVerts c 1 i).getD 1 0) = _
    rw [hpq]; rfl
  rwa [e0, e1] at this

theorem momentElement_with {classes : String → ElementClass Fun} {c : Cell} {poly : Option (List VecPoly)} {args : Args} :
    momentElement classes c poly args = momentElementWith classes c poly args (some []) := by
  unfold momentElement momentElementWith
  simp

/-- The component along an edge of a quadrilateral. -/
theorem rot_edge {n : ℕ} {v : Field 2} (hv : ∀ j : Fin 2, rot v j ∈ XP 2 ((n : ℤ) + 1) j) {i : ℕ} (hi : i < 4) {a : ℕ} (ha : a < 2)
    (hax : ∀ j, axis .interval (entityDomain .quadrilateral (1, i)).v 0 j = if j = a then 1 else 0) :
    pull ⟨.interval, 2, (entityDomain .quadrilateral (1, i)).v⟩ (v ⟨a, ha⟩) ∈ P 1 (n : ℤ) := by
  have hc : Box .quadrilateral := Or.inl rfl
  have hi' : i < 2 * Cell.quadrilateral.tdim := hi
  have hax' := (quad_facet hi).axes 0 (show 0 < 1 by omega)
  have e : a = skip (qAxis 2 i) 0 := by
    by_contra hne
    have h1 := hax a
    have h2 := hax' a
    rw [if_pos rfl] at h1
    rw [if_neg hne] at h2
    exact one_ne_zero (h1.symm.trans h2)
  have hq : qAxis 2 i < 2 := qAxis_lt hi
  have key : ∀ b : Fin 2, b.val = qAxis 2 i → v ⟨a, ha⟩ = rot v b ∨ v ⟨a, ha⟩ = - rot v b := by
    intro b hb
    have hne : a ≠ qAxis 2 i := by rw [e]; exact skip_ne _ _
    fin_cases b
    · right
      obtain rfl : a = 1 := by simp at hb; omega
      rw [show ((⟨0, by omega⟩ : Fin 2)) = 0 from rfl, rot_zero, neg_neg]
      rfl
    · left
      obtain rfl : a = 0 := by simp at hb; omega
      exact (rot_one v).symm
  have hX := hv ⟨qAxis 2 i, hq⟩
  obtain ⟨q, hq', r, hr, e2⟩ := mem_XP.1 hX
  rw [add_sub_cancel_right] at hq' hr
  have h3 : pull (entityDomain .quadrilateral (1, i)) (rot v ⟨qAxis 2 i, hq⟩) ∈ P 1 (n : ℤ) := by
    rw [e2, pull_add, pull_mul]
    have h5 : pull (entityDomain .quadrilateral (1, i)) (X (qAxis 2 i)) = C (qVal 2 i) := facet_coord hc hi'
    rw [h5]
    exact Submodule.add_mem _ (facet_pull hc hi' hq') (C_mul_mem _ (facet_pull hc hi' hr))
  rcases key ⟨qAxis 2 i, hq⟩ rfl with h | h
  · rw [h]; exact h3
  · rw [h, show -rot v ⟨qAxis 2 i, hq⟩ = C (-1) * rot v ⟨qAxis 2 i, hq⟩ by rw [C_neg, C_1, neg_one_mul], pull_mul]
    have : pull ⟨.interval, 2, (entityDomain .quadrilateral (1, i)).v⟩ (C (-1 : ℝ)) = C (-1) := by simp [pull]
    rw [this]
    exact C_mul_mem _ h3

theorem curl_created2 {S : Field 2 → Prop} {n : ℕ} {m : ℤ} {mp : Option String} {poly : Option (List VecPoly)} {pl : List VecPoly}
    (hpoly : poly = some pl) (hi : Independent ℝ (pl.map (denoteVec ℝ 2)))
    (hS : ∀ v, v ∈ lspan (pl.map (denoteVec ℝ 2)) ↔ S v) (hX : ∀ v, S v → ∀ j : Fin 2, rot v j ∈ XP 2 ((n : ℤ) + 1) j)
    {A B C' : List Item} (hA : parse A = some ⟨"TangentIntegralMoment", "DPC", n, none, [("variant", "equispaced")]⟩)
    (hB : parse B = some ⟨"IntegralMoment", "VectorDPC", m, mp, [("variant", "equispaced")]⟩)
    {extra : Option (List (Dof ℝ (Field 2)))} {ex : List (Dof ℝ (Field 2))} (hex : extra = some ex)
    (hu : ∀ v, S v → (∀ (i : Fin 2) (z : ℕ → ℝ), z i.val = 0 ∨ z i.val = 1 → eval z (rot v i) = 0) →
      (∀ q ∈ PV 2 2 m, pairing .quadrilateral (rot v) q = 0) → (∀ d ∈ ex, d.eval v = 0) → rot v = 0)
    (hcount : 4 * (n + 1) + (if m < 0 then 0 else (m.toNat + 2).choose 2 * 2) + ex.length = pl.length) :
    Created (momentElementWith dpcClasses .quadrilateral poly
      { edges := some (.single A), faces := some (.single B), volumes := some (.single C') } extra) S pl.length
      (EdgeTrace .quadrilateral S) := by
  have hc : Box .quadrilateral := Or.inl rfl
  obtain ⟨xs, hx, hxs, hxl⟩ := sub_dpc (t := .interval) (Or.inl rfl) (classes := dpcClasses) rfl "TangentIntegralMoment" (n : ℤ) none
  obtain ⟨ys, hy, hys, hyl⟩ : ∃ ys : List (Field 2), subFuns dpcClasses ⟨"IntegralMoment", "VectorDPC", m, mp, [("variant", "equispaced")]⟩
      .quadrilateral = some (ys.map (.vector 2)) ∧ lspan ys = PV 2 2 m ∧ ys.length = if m < 0 then 0 else (m.toNat + 2).choose 2 * 2 :=
    sub_vectorDpc hc (classes := dpcClasses) rfl "IntegralMoment" m mp [("variant", "equispaced")]
  have hms := qcurl_moments2 (C' := C') hA hB hx hy
  have hmem : ∀ v, S v → ∀ j, v j ∈ P 2 ((n : ℤ) + 1) := by
    intro v hv
    have h1 : rot v ∈ PV 2 2 ((n : ℤ) + 1) := mem_PV.2 fun j => XP_le j.2 (hX v hv j)
    have h2 := rot_mem h1
    rw [rot_rot] at h2
    have h3 := Submodule.neg_mem _ h2
    rw [neg_neg] at h3
    exact mem_PV.1 h3
  obtain ⟨dofs, hdofs⟩ : ∃ dofs : List (Dof ℝ (Field 2)), (qcurlMoments2
    ⟨"TangentIntegralMoment", "DPC", n, none, [("variant", "equispaced")]⟩
    ⟨"IntegralMoment", "VectorDPC", m, mp, [("variant", "equispaced")]⟩
    (xs.map .scalar) (ys.map (.vector 2))).mapM (momentDof .quadrilateral) = some dofs := mapM_exists (by
    intro mo hmo
    simp only [qcurlMoments2, List.mem_append, List.mem_flatMap, List.mem_range, List.mem_map] at hmo
    rcases hmo with ⟨i, hi, _, ⟨x, -, rfl⟩, rfl⟩ | ⟨_, ⟨y, -, rfl⟩, rfl⟩
    · obtain ⟨J, s, -, -, h⟩ := box_edge_moment hc hi none
      obtain ⟨d, hd, -⟩ := h x
      exact ⟨d, hd⟩
    · obtain ⟨d, hd, -⟩ := box_moment hc y mp
      exact ⟨d, hd⟩)
  have htr : EdgeTrace .quadrilateral S (dofs ++ ex) := by
    refine edge_trace_of hc hmem (xs := xs) (mp := none) (fun v hv i hi a ha hax => ?_) fun i hi x hx => ?_
    · rw [hxs]
      exact rot_edge (hX v hv) hi ha hax
    · obtain ⟨d, hd, h⟩ := momentDof_mem hdofs (m := ⟨"TangentIntegralMoment", .scalar x, (1, i), none⟩) (by
        simp only [qcurlMoments2, List.mem_append, List.mem_flatMap, List.mem_range, List.mem_map]
        exact Or.inl ⟨i, hi, _, ⟨x, hx, rfl⟩, rfl⟩)
      exact ⟨d, List.mem_append_left _ hd, h⟩
  have hu' : ∀ v, S v → (∀ d ∈ dofs ++ ex, d.eval v = 0) → v = 0 := by
    intro v hv h
    have hE : ∀ i < 4, ∀ p q, entVerts .quadrilateral 1 i = [p, q] →
        EdgeZero (refVertex .quadrilateral p) (refVertex .quadrilateral q) v :=
      fun i hi p q hpq => htr i hi p q hpq v hv fun d hd _ => h d hd
    have hsq := squareZero_ref (hmem v hv) (hE 0 (by omega) 0 1 rfl) (hE 1 (by omega) 0 2 rfl) (hE 2 (by omega) 1 3 rfl)
      (hE 3 (by omega) 2 3 rfl)
    refine rot_injective (hu v hv (fun i z hz => ?_) (fun q hq => ?_) fun d hd => h d (List.mem_append_right _ hd))
    · fin_cases i
      · show eval z (rot v 0) = 0
        rw [rot_zero, map_neg, hsq.2 z hz, neg_zero]
      · show eval z (rot v 1) = 0
        rw [rot_one, hsq.1 z hz]
    · have h0 : pairing .quadrilateral v (rot q) = 0 := by
        refine pairing_lspan (c := .quadrilateral) (u := v) (fun y hy => ?_) (hys ▸ rot_mem hq)
        obtain ⟨d', hd', h1⟩ := momentDof_mem hdofs (m := ⟨"IntegralMoment", .vector 2 y, (2, 0), mp⟩) (by
          simp only [qcurlMoments2, List.mem_append, List.mem_flatMap, List.mem_range, List.mem_map]
          exact Or.inr ⟨_, ⟨y, hy, rfl⟩, rfl⟩)
        obtain ⟨d, hd, -, hd2⟩ := box_moment hc y mp
        obtain rfl := Option.some.inj (hd.symm.trans h1)
        exact Eq.trans (hd2 v _ (hmem v hv)).symm (h d (List.mem_append_left _ hd'))
      have h1 := pairing_rot v (rot q)
      rw [h0, rot_rot, map_neg, neg_eq_zero] at h1
      exact h1
  have hdl : dofs.length = 4 * (n + 1) + (if m < 0 then 0 else (m.toNat + 2).choose 2 * 2) := by
    refine (mapM_forall hdofs).length_eq.symm.trans ?_
    simp only [qcurlMoments2, List.length_append, List.length_flatMap, List.length_map, hxl, hyl]
    simp only [List.map_const', List.sum_replicate, List.length_range, smul_eq_mul, Cell.tdim]
    rw [if_neg (by omega), Int.toNat_natCast, Nat.choose_one_right]
  have hll : (dofs ++ ex).length = (pl.map (denoteVec ℝ 2)).length := by
    rw [List.length_append, List.length_map, ← hcount, hdl]
  obtain ⟨h1, fs, h2, h3, h4⟩ := ciarlet_basis hll hi fun v hv => hu' v ((hS v).1 hv)
  refine ⟨_, dofs ++ ex, fs, ?_, h2, hll.trans (List.length_map _), h4.trans (List.length_map _), fun v => ?_, hu', htr⟩
  · unfold momentElementWith
    rw [hpoly, hex, hms, Option.bind_some, Option.bind_some]
    exact (congrArg (fun o => Option.bind o _) hdofs).trans h1
  · have := hS v
    rw [← h3] at this
    exact this

end Verif.Families
