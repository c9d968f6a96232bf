import Verif.Scalar.Transition
/-!
# The functions of transition elements

If no entity has a lower order than the entities on its boundary, then the functions of a transition element are all polynomials of
the order of the cell whose restrictions to the entities have the orders of the entities.
-/

namespace Verif.Scalar
open Verif.References Verif.Moments Verif.Functionals Verif.Elements Verif.FiniteElement Verif.Polysets Verif.Orthogonal
open Verif.Families
open MvPolynomial

/-- Polynomials whose restrictions to the edges and faces have the given orders. -/
def Graded (c : Cell) (ord : ℕ × ℕ → ℕ) (f : MvPolynomial ℕ ℝ) : Prop :=
  f ∈ P c.tdim (ord (c.tdim, 0)) ∧
    ∀ m ≤ c.tdim, 1 ≤ m → ∀ n < entityCount c m, pull (entityDomain c (m, n)) f ∈ P m (ord (m, n))

/-- The order of an entity is not lower than the orders of the entities on its boundary. -/
def Nested (c : Cell) (ord : ℕ × ℕ → ℕ) : Prop :=
  ∀ e ∈ transEntities c, ∀ e' ∈ transEntities c, entVerts c e.1 e.2 ⊆ entVerts c e'.1 e'.2 → ord e ≤ ord e'

theorem pull_entity {c : Cell} (hc : Simplex c) {m n : ℕ} (hm : m ≤ c.tdim) (hn : n < entityCount c m) {k : ℤ} {f : MvPolynomial ℕ ℝ}
    (hf : f ∈ P c.tdim k) : pull (entityDomain c (m, n)) f ∈ P m k := by
  obtain ⟨-, -, -, h4, -⟩ := simplex_table hc m hm n hn
  have := Families.pull_mem (entityDomain c (m, n)) hf
  have e : (entityDomain c (m, n)).cell.tdim = m := h4
  rwa [e] at this

/-- The sum of the barycentric coordinates. -/
theorem bary_sum (d : ℕ) (x : ℕ → ℝ) : ∑ v ∈ Finset.range (d + 1), eval x (bary d v) = 1 := by
  rw [Finset.sum_range_succ']
  simp only [bary, Nat.add_eq_zero_iff, one_ne_zero, and_false, if_false, Nat.add_sub_cancel, if_true, eval_X, eval_opp]
  rw [Finset.sum_range]
  ring

/-- Points with barycentric coordinates 0 for the other vertices are on the entity. -/
theorem on_entity {c : Cell} (hc : Simplex c) {m n : ℕ} (hm : m ≤ c.tdim) (hn : n < entityCount c m) (x : ℕ → ℝ)
    (h : ∀ v ≤ c.tdim, v ∉ entVerts c m n → eval x (bary c.tdim v) = 0) :
    ∃ z, ∀ j < c.tdim, (entityDomain c (m, n)).param z j = x j := by
  obtain ⟨t1, t2, t3, -⟩ := simplex_table hc m hm n hn
  have hb : ∀ v ≤ c.tdim, eval ((entityDomain c (m, n)).param fun k => eval x (bary c.tdim ((entVerts c m n).getD (k + 1) 0))) (bary c.tdim v) =
      eval x (bary c.tdim v) := by
    intro v hv
    by_cases hmem : v ∈ entVerts c m n
    · obtain ⟨k, hk, rfl⟩ := List.getElem_of_mem hmem
      rw [← List.getD_eq_getElem _ 0 hk]
      rcases k with _ | k
      · rw [bary_param_first hc hm hn, sub_eq_iff_eq_add, ← bary_sum c.tdim x]
        have e : entVerts c m n = (entVerts c m n).getD 0 0 :: (List.range m).map fun k => (entVerts c m n).getD (k + 1) 0 := by
          refine List.ext_getElem (by simp [t1]) fun i hi _ => ?_
          rcases i with _ | i
          · rw [List.getElem_cons_zero, List.getD_eq_getElem _ _ (by omega)]
          · rw [List.getElem_cons_succ, List.getElem_map, List.getElem_range, List.getD_eq_getElem _ _ hi]
        have h1 : ∑ v ∈ Finset.range (c.tdim + 1), eval x (bary c.tdim v) = ((entVerts c m n).map fun v => eval x (bary c.tdim v)).sum := by
          rw [← List.sum_toFinset _ t2]
          refine (Finset.sum_subset (fun v hv => ?_) fun v hv hv' => ?_).symm
          · have := t3 v (List.mem_toFinset.1 hv)
            exact Finset.mem_range.2 (by omega)
          · have := Finset.mem_range.1 hv
            exact h v (by omega) (fun hc => hv' (List.mem_toFinset.2 hc))
        rw [h1]
        conv_lhs => rw [e]
        rw [List.map_cons, List.sum_cons, List.map_map]
        rfl
      · exact bary_param_axis hc hm hn _ (by omega)
    · rw [bary_param_zero hc hm hn _ hv hmem, h v hv hmem]
  refine ⟨fun k => eval x (bary c.tdim ((entVerts c m n).getD (k + 1) 0)), fun j hj => ?_⟩
  have := hb (j + 1) (by omega)
  simpa [bary] using this

theorem facet_entity {c : Cell} (hc : Simp c) : ∀ e ∈ transEntities c, ∀ v ∈ entVerts c e.1 e.2,
    ∃ n < entityCount c (e.1 - 1), ∀ w ∈ entVerts c e.1 e.2, w ≠ v → w ∈ entVerts c (e.1 - 1) n := by
  rcases hc with rfl | rfl <;> decide +kernel

/-- The facets of an entity. -/
theorem facet_zero {c : Cell} (hc : Simp c) {e : ℕ × ℕ} (he : e ∈ transEntities c) {k : ℤ} {f : MvPolynomial ℕ ℝ} (hf : f ∈ P c.tdim k)
    (h : ∀ n < entityCount c (e.1 - 1), ∀ z, eval ((entityDomain c (e.1 - 1, n)).param z) f = 0) {z : ℕ → ℝ} {v : ℕ}
    (hv : v ∈ entVerts c e.1 e.2) (hz : eval ((entityDomain c e).param z) (bary c.tdim v) = 0) :
    eval ((entityDomain c e).param z) f = 0 := by
  obtain ⟨m1, m2, m3⟩ := transEntities_mem hc e he
  obtain ⟨n, hn, hw⟩ := facet_entity hc e he v hv
  obtain ⟨y, hy⟩ := on_entity (Simp.simplex hc) (m := e.1 - 1) (by omega) hn ((entityDomain c e).param z) fun w hwd hwn => by
    by_cases hwe : w ∈ entVerts c e.1 e.2
    · by_cases hwv : w = v
      · rw [hwv, hz]
      · exact absurd (hw w hwe hwv) hwn
    · exact bary_param_zero (Simp.simplex hc) m2 m3 z hwd hwe
  rw [← h n hn y]
  exact eval_congr_P hf fun j hj => (hy j hj).symm

theorem extend_mem {c : Cell} (hc : Simp c) {e : ℕ × ℕ} (he : e ∈ transEntities c) {k : ℤ} {g : MvPolynomial ℕ ℝ}
    (hg : g ∈ P e.1 (k - e.1 - 1)) : extend c e g ∈ P c.tdim k := by
  obtain ⟨m1, m2, m3⟩ := transEntities_mem hc e he
  obtain ⟨t1, t2, t3, -⟩ := simplex_table (Simp.simplex hc) e.1 m2 e.2 m3
  rw [extend_apply]
  have hprod : ∀ l : List ℕ, (∀ v ∈ l, v ≤ c.tdim) → (l.map (bary c.tdim)).prod ∈ P c.tdim l.length := by
    intro l
    induction l with
    | nil => intro _; simpa using Families.one_mem (d := c.tdim) (k := 0) le_rfl
    | cons a l ih =>
      intro hl
      have := P_mul (bary_mem (hl a (by simp))) (ih fun v hv => hl v (by simp [hv]))
      rw [List.map_cons, List.prod_cons, List.length_cons]
      refine P_mono ?_ this
      push_cast
      omega
  have h1 := hprod _ t3
  rw [t1] at h1
  refine P_mono ?_ (P_mul h1 (P_aeval (e := c.tdim) (fun i hi => bary_mem ?_) hg))
  · push_cast
    omega
  · rw [List.getD_eq_getElem _ _ (by omega)]
    exact t3 _ (List.getElem_mem _)

theorem trans_add {c : Cell} {ord : ℕ × ℕ → ℕ} {f f' : MvPolynomial ℕ ℝ} (h : Trans c ord f) (h' : Trans c ord f') : Trans c ord (f + f') := by
  obtain ⟨p, hp, g, hg, rfl⟩ := h
  obtain ⟨p', hp', g', hg', rfl⟩ := h'
  refine ⟨p + p', Submodule.add_mem _ hp hp', fun e => g e + g' e, fun e he => Submodule.add_mem _ (hg e he) (hg' e he), ?_⟩
  simp only [map_add, Finset.sum_add_distrib]
  ring

theorem trans_graded {c : Cell} (hc : Simp c) {ord : ℕ × ℕ → ℕ} (ho : ∀ e ∈ transEntities c, 1 ≤ ord e) (hn : Nested c ord)
    {f : MvPolynomial ℕ ℝ} (hf : Trans c ord f) : Graded c ord f := by
  have hs := Simp.simplex hc
  obtain ⟨p, hp, g, hg, rfl⟩ := hf
  have hcell : (c.tdim, 0) ∈ transEntities c := by rcases hc with rfl | rfl <;> decide
  have hsub : ∀ e ∈ transEntities c, entVerts c e.1 e.2 ⊆ entVerts c c.tdim 0 := by rcases hc with rfl | rfl <;> decide
  constructor
  · refine Submodule.add_mem _ (P_mono (by exact_mod_cast ho _ hcell) hp) (Submodule.sum_mem _ fun e he => ?_)
    have he' := List.mem_toFinset.1 he
    exact P_mono (by exact_mod_cast hn e he' _ hcell (hsub e he')) (extend_mem hc he' (hg e he'))
  · intro m hm h1 n hnn
    have hmn := mem_transEntities hc m hm n hnn h1
    rw [pull, map_add, map_sum]
    refine Submodule.add_mem _ (P_mono (by exact_mod_cast ho _ hmn) (pull_entity hs hm hnn hp)) (Submodule.sum_mem _ fun e he => ?_)
    have he' := List.mem_toFinset.1 he
    by_cases h : entVerts c e.1 e.2 ⊆ entVerts c m n
    · exact P_mono (by exact_mod_cast hn e he' _ hmn h) (pull_entity hs hm hnn (extend_mem hc he' (hg e he')))
    · have : aeval (coordPoly (entityDomain c (m, n))) (extend c e (g e)) = 0 := MvPolynomial.funext fun z => by
        have := eval_pull (entityDomain c (m, n)) z (extend c e (g e))
        rw [extend_param_zero hc he' hm hnn h] at this
        rw [map_zero]
        exact this
      rw [this]
      exact Submodule.zero_mem _

theorem graded_sub {c : Cell} {ord : ℕ × ℕ → ℕ} {f f' : MvPolynomial ℕ ℝ} (h : Graded c ord f) (h' : Graded c ord f') : Graded c ord (f - f') :=
  ⟨Submodule.sub_mem _ h.1 h'.1, fun m hm h1 n hn => by
    rw [pull_sub]
    exact Submodule.sub_mem _ (h.2 m hm h1 n hn) (h'.2 m hm h1 n hn)⟩

/-- The functions of a transition element, if no entity has a lower order than the entities on its boundary. -/
theorem trans_iff {c : Cell} (hc : Simp c) {ord : ℕ × ℕ → ℕ} (ho : ∀ e ∈ transEntities c, 1 ≤ ord e) (hn : Nested c ord)
    (f : MvPolynomial ℕ ℝ) : Trans c ord f ↔ Graded c ord f := by
  classical
  refine ⟨trans_graded hc ho hn, fun hf => ?_⟩
  have hs := Simp.simplex hc
  have hev : ∀ v ≤ c.tdim, entVerts c 0 v = [v] := by rcases hc with rfl | rfl <;> decide
  have hec : ∀ v < entityCount c 0, v ≤ c.tdim := by rcases hc with rfl | rfl <;> decide
  have key : ∀ M ≤ c.tdim, ∃ t, Trans c ord t ∧ ∀ m ≤ M, ∀ n < entityCount c m, ∀ z, eval ((entityDomain c (m, n)).param z) (f - t) = 0 := by
    intro M
    induction M with
    | zero =>
      intro _
      have hp : ∑ v ∈ Finset.range (c.tdim + 1), C (eval (refVertex c v) f) * bary c.tdim v ∈ P c.tdim 1 :=
        Submodule.sum_mem _ fun v hv => C_mul_mem _ (bary_mem (by have := Finset.mem_range.1 hv; omega))
      refine ⟨∑ v ∈ Finset.range (c.tdim + 1), C (eval (refVertex c v) f) * bary c.tdim v, ⟨_, hp, 0, fun e _ => Submodule.zero_mem _, by simp⟩,
        fun m hm n hnn z => ?_⟩
      obtain rfl : m = 0 := by omega
      rw [point_param hs hnn, map_sub, map_sum, Finset.sum_eq_single n]
      · rw [map_mul, eval_C, bary_vertex hs (hec n hnn) (hec n hnn), if_pos rfl, mul_one, sub_self]
      · intro v hv hne
        rw [map_mul, bary_vertex hs (by have := Finset.mem_range.1 hv; omega) (hec n hnn), if_neg hne, mul_zero]
      · intro h
        exact absurd (Finset.mem_range.2 (by have := hec n hnn; omega)) h
    | succ M ih =>
      intro hM
      obtain ⟨t, ht, h0⟩ := ih (by omega)
      have hq := graded_sub hf (trans_graded hc ho hn ht)
      -- the part of each entity
      have hpart : ∀ e ∈ transEntities c, e.1 = M + 1 → ∃ g ∈ P e.1 ((ord e : ℤ) - e.1 - 1), pull (entityDomain c e) (f - t) = simpBub e.1 * g := by
        intro e he heM
        obtain ⟨m1, m2, m3⟩ := transEntities_mem hc e he
        obtain ⟨t1, t2, t3, -⟩ := simplex_table hs e.1 m2 e.2 m3
        have hfac : ∀ n < entityCount c (e.1 - 1), ∀ z, eval ((entityDomain c (e.1 - 1, n)).param z) (f - t) = 0 := fun n hn' z =>
          h0 (e.1 - 1) (by omega) n hn' z
        refine simp_factor (by omega) (hq.2 e.1 m2 m1 e.2 m3) (fun j hj z hz => ?_) fun z hz => ?_
        · rw [eval_pull]
          refine facet_zero hc he hq.1 hfac (v := (entVerts c e.1 e.2).getD (j + 1) 0) ?_ ?_
          · rw [List.getD_eq_getElem _ _ (by omega)]
            exact List.getElem_mem _
          · exact (bary_param_axis hs m2 m3 z hj).trans hz
        · rw [eval_pull]
          refine facet_zero hc he hq.1 hfac (v := (entVerts c e.1 e.2).getD 0 0) ?_ ?_
          · rw [List.getD_eq_getElem _ _ (by omega)]
            exact List.getElem_mem _
          · refine (bary_param_first hs m2 m3 z).trans ?_
            rw [Finset.sum_range, hz, sub_self]
      choose! g hg1 hg2 using hpart
      have hg : ∀ e ∈ transEntities c, (if e.1 = M + 1 then g e else 0) ∈ P e.1 ((ord e : ℤ) - e.1 - 1) := by
        intro e he
        split_ifs with h
        · exact hg1 e he h
        · exact Submodule.zero_mem _
      refine ⟨t + (0 + ∑ e ∈ (transEntities c).toFinset, extend c e (if e.1 = M + 1 then g e else 0)),
        trans_add ht ⟨0, Submodule.zero_mem _, _, hg, rfl⟩, fun m hm n hnn z => ?_⟩
      rw [zero_add, ← sub_sub, map_sub, map_sum]
      have hmt : m ≤ c.tdim := by omega
      have hterm : ∀ e ∈ transEntities c, e ≠ (m, n) → eval ((entityDomain c (m, n)).param z) (extend c e (if e.1 = M + 1 then g e else 0)) = 0 := by
        intro e he hne
        split_ifs with h
        · refine extend_param_zero hc he hmt hnn (fun hsub => ?_) _ z
          rcases Nat.eq_zero_or_pos m with rfl | hpos
          · obtain ⟨m1, m2, m3⟩ := transEntities_mem hc e he
            obtain ⟨t1, t2, -⟩ := simplex_table hs e.1 m2 e.2 m3
            rw [hev n (hec n hnn)] at hsub
            have := (List.subperm_of_subset t2 hsub).length_le
            rw [t1] at this
            simp at this
            omega
          · rcases sub_entity hc e he _ (mem_transEntities hc m hmt n hnn hpos) hsub with h' | h'
            · exact hne h'
            · simp only at h'
              omega
        · rw [map_zero, map_zero]
      by_cases hmM : m = M + 1
      · have hmem := mem_transEntities hc m hmt n hnn (by omega)
        rw [Finset.sum_eq_single (m, n) (fun e he hne => hterm e (List.mem_toFinset.1 he) hne)
          (fun h => absurd (List.mem_toFinset.2 hmem) h), if_pos hmM, extend_param hc hmem (hg1 _ hmem hmM), ← eval_pull, hg2 _ hmem hmM, map_mul,
          sub_self]
      · rw [h0 m (by omega) n hnn z, Finset.sum_eq_zero, sub_zero]
        intro e he
        by_cases hne : e = (m, n)
        · rw [if_neg (by rw [hne]; exact hmM), map_zero, map_zero]
        · exact hterm e (List.mem_toFinset.1 he) hne
  obtain ⟨t, ht, h0⟩ := key c.tdim le_rfl
  have h1 : 0 < entityCount c c.tdim := by rcases hc with rfl | rfl <;> decide
  have : f - t = 0 := MvPolynomial.funext fun z => by
    rw [map_zero, ← h0 c.tdim le_rfl 0 h1 z]
    exact eval_congr_P (graded_sub hf (trans_graded hc ho hn ht)).1 fun j hj => (simplex_param hs z hj).symm
  rw [sub_eq_zero.1 this]
  exact ht

/-- Transition elements exist for all orders of the entities from 1, and match the neighbouring elements. -/
theorem transition_created {c : Cell} (hc : Simp c) {order : ℕ} {edges faces : List ℕ} (hk : 1 ≤ order)
    (he : edges.length = entityCount c 1) (hf : c = .tetrahedron → faces.length = 4) (he1 : ∀ k ∈ edges, 1 ≤ k) (hf1 : ∀ k ∈ faces, 1 ≤ k) :
    Created (transition c order edges faces) (Trans c (entityOrder c order edges faces))
      (c.tdim + 1 + ((transEntities c).map fun e => (entityOrder c order edges faces e - 1).choose e.1).sum)
      (C0Trace c (Trans c (entityOrder c order edges faces))) := by
  rw [transition, if_pos ⟨he, hf⟩]
  refine transElement_created hc fun e hm => ?_
  have hl : edges.length = entityCount c 1 := he
  rw [entityOrder]
  have hget : ∀ (l : List ℕ) (n : ℕ), (∀ k ∈ l, 1 ≤ k) → n < l.length → 1 ≤ l.getD n 0 := fun l n h hn => by
    rw [List.getD_eq_getElem _ _ hn]
    exact h _ (List.getElem_mem _)
  obtain ⟨m1, m2, m3⟩ := transEntities_mem hc e hm
  split_ifs with h1 h2
  · exact hk
  · exact hget _ _ he1 (by rw [hl, ← h2]; exact m3)
  · rcases hc with rfl | rfl
    · have : e.1 ≤ 2 := m2
      have h1' : e.1 ≠ 2 := h1
      omega
    · have : e.1 ≤ 3 := m2
      have h1' : e.1 ≠ 3 := h1
      have h3 : e.1 = 2 := by omega
      refine hget _ _ hf1 ?_
      rw [hf rfl]
      rw [h3] at m3
      exact m3

/-- With all orders equal, the functions are those of Lagrange elements. -/
theorem trans_equal {c : Cell} (hc : Simp c) {k : ℕ} (hk : 1 ≤ k) (f : MvPolynomial ℕ ℝ) : Trans c (fun _ => k) f ↔ f ∈ P c.tdim k := by
  rw [trans_iff hc (fun _ _ => hk) (fun _ _ _ _ _ => le_rfl)]
  exact ⟨fun h => h.1, fun h => ⟨h, fun m hm _ n hn => pull_entity (Simp.simplex hc) hm hn h⟩⟩

/-- Order 3 on a triangle with two edges of order 1 and one edge of order 2. -/
example : Nested .triangle (entityOrder .triangle 3 [1, 2, 1] []) ∧ ∀ e ∈ transEntities .triangle, 1 ≤ entityOrder .triangle 3 [1, 2, 1] [] e := by
  refine ⟨?_, by decide⟩
  unfold Nested
  decide

/-- `3 + 1 + 1` functions. -/
example : Created (transition .triangle 3 [1, 2, 1] []) (Trans .triangle (entityOrder .triangle 3 [1, 2, 1] [])) 5
    (C0Trace .triangle (Trans .triangle (entityOrder .triangle 3 [1, 2, 1] []))) :=
  transition_created (Or.inl rfl) (by decide) rfl (by decide) (by decide) (by decide)

end Verif.Scalar
