import Verif.Bernstein.Restrict
/-!
# Bernstein elements

C60: on intervals and triangles for every order, and on tetrahedra up to order 3, the element can be created and its basis
functions are the Bernstein polynomials.  On tetrahedra no functional is made for the interior, because the code compares the
name of the cell with "tetrahedon", so the element cannot be created from order 4 on.
-/

namespace Verif.Bernstein
open Verif.References Verif.Moments Verif.Functionals Verif.Elements Verif.FiniteElement Verif.Polysets Verif.Orthogonal
open Verif.Families
open MvPolynomial

/-! ### Sub-entities -/

theorem jac_interval (g : ℕ) (v : ℕ → ℕ → ℝ) :
    jacobian .interval g v = some √(∑ j ∈ Finset.range g, (v 1 j - v 0 j) ^ 2) := by
  simp [jacobian, axisVertices, Cell.tdim, axis, psub]

theorem jac_triangle2 (v : ℕ → ℕ → ℝ) : jacobian .triangle 2 v =
    some |(v 1 0 - v 0 0) * (v 2 1 - v 0 1) - (v 1 1 - v 0 1) * (v 2 0 - v 0 0)| := by
  simp [jacobian, axisVertices, Cell.tdim, axis, psub]

theorem jac_triangle3 (v : ℕ → ℕ → ℝ) : jacobian .triangle 3 v =
    some √(pcross (fun j => v 1 j - v 0 j) (fun j => v 2 j - v 0 j) 0 ^ 2 +
      pcross (fun j => v 1 j - v 0 j) (fun j => v 2 j - v 0 j) 1 ^ 2 +
      pcross (fun j => v 1 j - v 0 j) (fun j => v 2 j - v 0 j) 2 ^ 2) := by
  simp [jacobian, axisVertices, Cell.tdim, axis, psub]
  rfl

/-- What is used of a sub-entity. -/
structure EntOK (c : Cell) (e : ℕ × ℕ) : Prop where
  simplex : Simplex (entityDomain c e).cell
  dim : (entityDomain c e).cell.tdim = e.1
  jac : ∃ J, jacobian (entityDomain c e).cell (entityDomain c e).g (entityDomain c e).v = some J ∧ 0 < J
  nodup : (entVerts c e.1 e.2).Nodup
  lt : ∀ i ∈ entVerts c e.1 e.2, i < c.tdim + 1
  len : (entVerts c e.1 e.2).length = e.1 + 1

theorem ent_ok {c : Cell} (hc : Simplex c) {e : ℕ × ℕ} (he : e ∈ ents c) : EntOK c e := by
  rcases hc with rfl | rfl | rfl
  · simp only [ents, List.mem_singleton] at he
    subst he
    refine ⟨by left; rfl, rfl, ⟨_, jac_interval _ _, ?_⟩, by decide, by decide, rfl⟩
    rw [show (entityDomain .interval (1, 0)).v = entityVerts (refVertex .interval) [0, 1] from rfl]
    refine Real.sqrt_pos.2 ?_
    show 0 < ∑ j ∈ Finset.range 1, _
    norm_num [entityVerts, refVertex, refVerts, coords]
  · simp only [ents, List.mem_cons, List.not_mem_nil, or_false] at he
    rcases he with rfl | rfl | rfl | rfl
    · refine ⟨by left; rfl, rfl, ⟨_, jac_interval _ _, Real.sqrt_pos.2 ?_⟩, by decide, by decide, rfl⟩
      rw [show (entityDomain .triangle (1, 0)).v = entityVerts (refVertex .triangle) [1, 2] from rfl]
      show 0 < ∑ j ∈ Finset.range 2, _
      norm_num [entityVerts, refVertex, refVerts, coords, Finset.sum_range_succ]
    · refine ⟨by left; rfl, rfl, ⟨_, jac_interval _ _, Real.sqrt_pos.2 ?_⟩, by decide, by decide, rfl⟩
      rw [show (entityDomain .triangle (1, 1)).v = entityVerts (refVertex .triangle) [0, 2] from rfl]
      show 0 < ∑ j ∈ Finset.range 2, _
      norm_num [entityVerts, refVertex, refVerts, coords, Finset.sum_range_succ]
    · refine ⟨by left; rfl, rfl, ⟨_, jac_interval _ _, Real.sqrt_pos.2 ?_⟩, by decide, by decide, rfl⟩
      rw [show (entityDomain .triangle (1, 2)).v = entityVerts (refVertex .triangle) [0, 1] from rfl]
      show 0 < ∑ j ∈ Finset.range 2, _
      norm_num [entityVerts, refVertex, refVerts, coords, Finset.sum_range_succ]
    · refine ⟨by right; left; rfl, rfl, ⟨_, jac_triangle2 _, ?_⟩, by decide, by decide, rfl⟩
      rw [show (entityDomain .triangle (2, 0)).v = entityVerts (refVertex .triangle) [0, 1, 2] from rfl]
      norm_num [entityVerts, refVertex, refVerts, coords]
  · simp only [ents, List.mem_cons, List.not_mem_nil, or_false] at he
    rcases he with rfl | rfl | rfl | rfl | rfl | rfl | rfl | rfl | rfl | rfl
    · refine ⟨by left; rfl, rfl, ⟨_, jac_interval _ _, Real.sqrt_pos.2 ?_⟩, by decide, by decide, rfl⟩
      rw [show (entityDomain .tetrahedron (1, 0)).v = entityVerts (refVertex .tetrahedron) [2, 3] from rfl]
      show 0 < ∑ j ∈ Finset.range 3, _
      norm_num [entityVerts, refVertex, refVerts, coords, Finset.sum_range_succ]
    · refine ⟨by left; rfl, rfl, ⟨_, jac_interval _ _, Real.sqrt_pos.2 ?_⟩, by decide, by decide, rfl⟩
      rw [show (entityDomain .tetrahedron (1, 1)).v = entityVerts (refVertex .tetrahedron) [1, 3] from rfl]
      show 0 < ∑ j ∈ Finset.range 3, _
      norm_num [entityVerts, refVertex, refVerts, coords, Finset.sum_range_succ]
    · refine ⟨by left; rfl, rfl, ⟨_, jac_interval _ _, Real.sqrt_pos.2 ?_⟩, by decide, by decide, rfl⟩
      rw [show (entityDomain .tetrahedron (1, 2)).v = entityVerts (refVertex .tetrahedron) [1, 2] from rfl]
      show 0 < ∑ j ∈ Finset.range 3, _
      norm_num [entityVerts, refVertex, refVerts, coords, Finset.sum_range_succ]
    · refine ⟨by left; rfl, rfl, ⟨_, jac_interval _ _, Real.sqrt_pos.2 ?_⟩, by decide, by decide, rfl⟩
      rw [show (entityDomain .tetrahedron (1, 3)).v = entityVerts (refVertex .tetrahedron) [0, 3] from rfl]
      show 0 < ∑ j ∈ Finset.range 3, _
      norm_num [entityVerts, refVertex, refVerts, coords, Finset.sum_range_succ]
    · refine ⟨by left; rfl, rfl, ⟨_, jac_interval _ _, Real.sqrt_pos.2 ?_⟩, by decide, by decide, rfl⟩
      rw [show (entityDomain .tetrahedron (1, 4)).v = entityVerts (refVertex .tetrahedron) [0, 2] from rfl]
      show 0 < ∑ j ∈ Finset.range 3, _
      norm_num [entityVerts, refVertex, refVerts, coords, Finset.sum_range_succ]
    · refine ⟨by left; rfl, rfl, ⟨_, jac_interval _ _, Real.sqrt_pos.2 ?_⟩, by decide, by decide, rfl⟩
      rw [show (entityDomain .tetrahedron (1, 5)).v = entityVerts (refVertex .tetrahedron) [0, 1] from rfl]
      show 0 < ∑ j ∈ Finset.range 3, _
      norm_num [entityVerts, refVertex, refVerts, coords, Finset.sum_range_succ]
    · refine ⟨by right; left; rfl, rfl, ⟨_, jac_triangle3 _, Real.sqrt_pos.2 ?_⟩, by decide, by decide, rfl⟩
      rw [show (entityDomain .tetrahedron (2, 0)).v = entityVerts (refVertex .tetrahedron) [1, 2, 3] from rfl]
      norm_num [entityVerts, refVertex, refVerts, coords, pcross]
    · refine ⟨by right; left; rfl, rfl, ⟨_, jac_triangle3 _, Real.sqrt_pos.2 ?_⟩, by decide, by decide, rfl⟩
      rw [show (entityDomain .tetrahedron (2, 1)).v = entityVerts (refVertex .tetrahedron) [0, 2, 3] from rfl]
      norm_num [entityVerts, refVertex, refVerts, coords, pcross]
    · refine ⟨by right; left; rfl, rfl, ⟨_, jac_triangle3 _, Real.sqrt_pos.2 ?_⟩, by decide, by decide, rfl⟩
      rw [show (entityDomain .tetrahedron (2, 2)).v = entityVerts (refVertex .tetrahedron) [0, 1, 3] from rfl]
      norm_num [entityVerts, refVertex, refVerts, coords, pcross]
    · refine ⟨by right; left; rfl, rfl, ⟨_, jac_triangle3 _, Real.sqrt_pos.2 ?_⟩, by decide, by decide, rfl⟩
      rw [show (entityDomain .tetrahedron (2, 3)).v = entityVerts (refVertex .tetrahedron) [0, 1, 2] from rfl]
      norm_num [entityVerts, refVertex, refVerts, coords, pcross]

/-- The multi-index with the given powers at the given vertices. -/
def lift (d : ℕ) (verts γ : List ℕ) : List ℕ :=
  (List.range (d + 1)).map fun i => if i ∈ verts then γ.getD (verts.idxOf i) 0 else 0

theorem lift_length (d : ℕ) (verts γ : List ℕ) : (lift d verts γ).length = d + 1 := by simp [lift]

theorem lift_getD {d i : ℕ} (h : i < d + 1) (verts γ : List ℕ) :
    (lift d verts γ).getD i 0 = if i ∈ verts then γ.getD (verts.idxOf i) 0 else 0 := by
  rw [List.getD_eq_getElem _ _ (by rw [lift_length]; exact h)]
  simp [lift]

theorem sum_getD (β : List ℕ) : β.sum = ∑ i ∈ Finset.range β.length, β.getD i 0 := by
  induction β with
  | nil => simp
  | cons a β ih => rw [List.sum_cons, List.length_cons, Finset.sum_range_succ', ih]; simp [add_comm]

theorem eq_lift_iff {d : ℕ} {verts γ β : List ℕ} (hn : verts.Nodup) (hlt : ∀ i ∈ verts, i < d + 1)
    (hγ : γ.length = verts.length) (hβ : β.length = d + 1) :
    β = lift d verts γ ↔ (∀ i < d + 1, i ∉ verts → β.getD i 0 = 0) ∧ (verts.map fun i => β.getD i 0) = γ := by
  constructor
  · rintro rfl
    refine ⟨fun i hi h => by rw [lift_getD hi, if_neg h], List.ext_getElem (by simp [hγ]) fun k h1 h2 => ?_⟩
    have hk : k < verts.length := by simpa using h1
    rw [List.getElem_map, lift_getD (hlt _ (List.getElem_mem _)), if_pos (List.getElem_mem _), hn.idxOf_getElem k hk,
      List.getD_eq_getElem _ _ h2]
  · rintro ⟨h1, h2⟩
    refine List.ext_getElem (by rw [hβ, lift_length]) fun i hi hi' => ?_
    have hd : i < d + 1 := by rw [← hβ]; exact hi
    rw [← List.getD_eq_getElem _ 0 hi, ← List.getD_eq_getElem _ 0 hi', lift_getD hd]
    split_ifs with h
    · have hk : verts.idxOf i < (verts.map fun i => β.getD i 0).length := by simpa using List.idxOf_lt_length_of_mem h
      rw [← h2, List.getD_eq_getElem _ 0 hk, List.getElem_map, List.getElem_idxOf]
    · exact h1 i hd h

theorem sum_restrict {d : ℕ} {verts β : List ℕ} (hn : verts.Nodup) (hlt : ∀ i ∈ verts, i < d + 1)
    (hβ : β.length = d + 1) (h : ∀ i < d + 1, i ∉ verts → β.getD i 0 = 0) :
    (verts.map fun i => β.getD i 0).sum = β.sum := by
  rw [sum_getD β, hβ, ← List.sum_toFinset _ hn]
  refine Finset.sum_subset (fun i hi => Finset.mem_range.2 (hlt i (List.mem_toFinset.1 hi))) fun i hi h' => ?_
  exact h i (Finset.mem_range.1 hi) fun hm => h' (List.mem_toFinset.2 hm)

/-- The functional is 1 for one Bernstein polynomial and 0 for the others. -/
def DualTo (c : Cell) (n : ℕ) (d : Dof ℝ (MvPolynomial ℕ ℝ)) (key : List ℕ) : Prop :=
  (key.length = c.tdim + 1 ∧ key.sum = n ∧
    ∀ i < c.tdim + 1, key.getD i 0 ≠ 0 ↔ i ∈ (if d.entity.1 = 0 then [d.entity.2] else entVerts c d.entity.1 d.entity.2)) ∧
  ∀ β : List ℕ, β.length = c.tdim + 1 → β.sum = n → d.eval (bernP β) = if β = key then 1 else 0

/-- **C60** The functionals on sub-entities. -/
theorem bernDof_dual {c : Cell} (hc : Simplex c) {e : ℕ × ℕ} (he : e ∈ ents c) {n idx : ℕ} {γ : List ℕ}
    (hidx : (bernPowers n e.1)[idx]? = some γ) (hpos : ∀ a ∈ γ, a ≠ 0) :
    ∃ d, bernDof (entityDomain c e) idx n e = some d ∧ DualTo c n d (lift c.tdim (entVerts c e.1 e.2) γ) := by
  obtain ⟨k1, k2, ⟨J, k3, k4⟩, k5, k6, k7⟩ := ent_ok hc he
  have hD : Dim e.1 := by rw [← k2]; exact simplex_dim k1
  obtain ⟨hi, hγ⟩ := List.getElem?_eq_some_iff.1 hidx
  have hlen : (bernstein n (entityDomain c e).cell.tdim).length = (bernPowers n e.1).length := by
    rw [k2, bernstein, List.length_map]
  obtain ⟨d, h1, h2, h3⟩ := bernDof_spec (entityDomain c e) k1 k3 k4 n (idx := idx) (by rw [hlen]; exact hi) e
  have hγm : γ ∈ bernPowers n e.1 := hγ ▸ List.getElem_mem _
  obtain ⟨g1, g2⟩ := (mem_bernPowers hD γ).1 hγm
  have hgl : γ.length = (entVerts c e.1 e.2).length := by rw [g1, k7]
  have he0 : e.1 ≠ 0 := by rcases hD with h | h | h <;> omega
  obtain ⟨q1, q2⟩ := (eq_lift_iff k5 k6 hgl (lift_length c.tdim _ γ)).1 rfl
  refine ⟨d, h1, ⟨lift_length _ _ _, ?_, ?_⟩, ?_⟩
  · rw [← sum_restrict k5 k6 (lift_length _ _ _) q1, q2, g2]
  · intro i hi'
    rw [h2, if_neg he0, lift_getD hi']
    split_ifs with hm
    · simp only [hm, iff_true]
      have hl := List.idxOf_lt_length_of_mem hm
      rw [List.getD_eq_getElem _ _ (by rw [hgl]; exact hl)]
      exact hpos _ (List.getElem_mem _)
    · simp [hm]
  · intro β b1 b2
    have hp := pull_bernP hc he b1
    by_cases hcond : ∀ i < c.tdim + 1, i ∉ entVerts c e.1 e.2 → β.getD i 0 = 0
    · rw [if_pos hcond] at hp
      have hm : ((entVerts c e.1 e.2).map fun i => β.getD i 0) ∈ bernPowers n e.1 :=
        (mem_bernPowers hD _).2 ⟨by rw [List.length_map, k7], by rw [sum_restrict k5 k6 b1 hcond, b2]⟩
      obtain ⟨j, hj, hj'⟩ := List.getElem_of_mem hm
      have := h3 (bernP β) (fun i => if i = j then 1 else 0) (by
        rw [hp, hlen, k2, bernstein_eq hD]
        rw [Finset.sum_eq_single j]
        · rw [if_pos rfl, C_1, one_mul, List.getD_eq_getElem _ _ (by simpa using hj), List.getElem_map, hj']
        · intro i _ hij
          rw [if_neg hij, C_0, zero_mul]
        · intro h
          exact absurd (Finset.mem_range.2 hj) h)
      rw [this]
      have hiff : β = lift c.tdim (entVerts c e.1 e.2) γ ↔ idx = j := by
        rw [eq_lift_iff k5 k6 hgl b1, and_iff_right hcond]
        rw [← hγ, ← hj', (nodup_bernPowers hD).getElem_inj_iff, eq_comm]
      simp only [hiff]
    · rw [if_neg hcond] at hp
      have := h3 (bernP β) (fun _ => 0) (by rw [hp]; simp)
      rw [this, if_neg]
      rintro rfl
      exact hcond q1

/-! ### Vertices -/

theorem vertex_dual {c : Cell} (hc : Simplex c) {n v : ℕ} (hn : n ≠ 0) (hv : v < c.tdim + 1) :
    DualTo c n (⟨refVertex c v, (0, v)⟩ : PointDof).functional
      ((List.range (c.tdim + 1)).map fun i => if i = v then n else 0) := by
  refine ⟨⟨by simp, ?_, fun i hi => ?_⟩, fun β h1 h2 => ?_⟩
  · rw [sum_range_map]
    simp [hv]
  · rw [List.getD_eq_getElem _ _ (by simpa using hi)]
    simp [PointDof.functional, hn]
  · rw [eval_functional]
    show eval (refVertex c v) (bernP β) = _
    rcases hc with rfl | rfl | rfl
    · obtain ⟨a, b, rfl⟩ := List.length_eq_two.1 h1
      have hv' : v < 2 := hv
      rw [show List.range (Cell.interval.tdim + 1) = [0, 1] from rfl, bernP_two]
      simp only [List.sum_cons, List.sum_nil, add_zero] at h2
      interval_cases v
      · rcases Nat.eq_zero_or_pos b with rfl | hb
        · simp [refVertex, refVerts, coords, multinom, Nat.factorial_ne_zero, ← h2]
        · simp [refVertex, refVerts, coords, hb.ne']
      · rcases Nat.eq_zero_or_pos a with rfl | hb
        · simp [refVertex, refVerts, coords, multinom, Nat.factorial_ne_zero, ← h2]
        · simp [refVertex, refVerts, coords, hb.ne']
    · obtain ⟨a, b, c, rfl⟩ := List.length_eq_three.1 h1
      have hv' : v < 3 := hv
      rw [show List.range (Cell.triangle.tdim + 1) = [0, 1, 2] from rfl, bernP_three]
      simp only [List.sum_cons, List.sum_nil, add_zero] at h2
      subst h2
      by_cases ha : a = 0 <;> by_cases hb : b = 0 <;> by_cases hc : c = 0 <;> interval_cases v <;>
        simp [refVertex, refVerts, coords, multinom, Nat.factorial_ne_zero, ha, hb, hc]
    · match β, h1 with
      | [a, b, c, d], _ =>
        have hv' : v < 4 := hv
        rw [show List.range (Cell.tetrahedron.tdim + 1) = [0, 1, 2, 3] from rfl, bernP_four]
        simp only [List.sum_cons, List.sum_nil, add_zero] at h2
        subst h2
        by_cases ha : a = 0 <;> by_cases hb : b = 0 <;> by_cases hc : c = 0 <;> by_cases hd : d = 0 <;> interval_cases v <;>
          simp [refVertex, refVerts, coords, multinom, Nat.factorial_ne_zero, ha, hb, hc, hd]

end Verif.Bernstein
