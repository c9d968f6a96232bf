import Verif.Scalar.BubbleEnriched
/-!
# Barycentric coordinates on the entities of triangles and tetrahedra, and lists of lists of functions
-/

namespace Verif.Scalar
open Verif.References Verif.Moments Verif.Functionals Verif.Elements Verif.FiniteElement Verif.Polysets Verif.Orthogonal
open Verif.Families
open MvPolynomial

/-! ### Lists of lists -/

theorem mem_lspan_flatMap {V ι : Type} [AddCommGroup V] [Module ℝ V] [DecidableEq ι] (L : ι → List V) {E : List ι} (hE : E.Nodup) {v : V} :
    v ∈ lspan (E.flatMap L) ↔ ∃ h : ι → V, (∀ e ∈ E, h e ∈ lspan (L e)) ∧ v = (E.map h).sum := by
  induction E generalizing v with
  | nil =>
    constructor
    · intro hv
      refine ⟨0, by simp, ?_⟩
      simpa [lspan] using hv
    · rintro ⟨h, -, rfl⟩
      simp
  | cons a E ih =>
    rw [List.nodup_cons] at hE
    rw [List.flatMap_cons, lspan_append, Submodule.mem_sup]
    constructor
    · rintro ⟨x, hx, y, hy, rfl⟩
      obtain ⟨h, h1, rfl⟩ := (ih hE.2).1 hy
      refine ⟨fun e => if e = a then x else h e, fun e he => ?_, ?_⟩
      · rcases List.mem_cons.1 he with rfl | he
        · simpa using hx
        · have hne : e ≠ a := fun (hc : e = a) => hE.1 (hc ▸ he)
          simpa [hne] using h1 e he
      · rw [List.map_cons, List.sum_cons, if_pos rfl]
        congr 2
        refine List.map_congr_left fun e he => ?_
        rw [if_neg fun (hc : e = a) => hE.1 (hc ▸ he)]
    · rintro ⟨h, h1, rfl⟩
      exact ⟨h a, h1 a (by simp), (E.map h).sum, (ih hE.2).2 ⟨h, fun e he => h1 e (by simp [he]), rfl⟩, by simp⟩

theorem independent_nil {V : Type} [AddCommGroup V] [Module ℝ V] : Independent ℝ ([] : List V) := by
  have : IsEmpty (Fin ([] : List V).length) := by simpa using Fin.isEmpty
  exact linearIndependent_empty_type

theorem independent_flatMap {V ι : Type} [AddCommGroup V] [Module ℝ V] [DecidableEq ι] (L : ι → List V) {E : List ι} (hE : E.Nodup)
    (hi : ∀ e ∈ E, Independent ℝ (L e))
    (hz : ∀ h : ι → V, (∀ e ∈ E, h e ∈ lspan (L e)) → (E.map h).sum = 0 → ∀ e ∈ E, h e = 0) : Independent ℝ (E.flatMap L) := by
  induction E with
  | nil => exact independent_nil
  | cons a E ih =>
    rw [List.nodup_cons] at hE
    rw [List.flatMap_cons]
    have key : ∀ (h : ι → V) (x : V), (∀ e ∈ E, h e ∈ lspan (L e)) → x ∈ lspan (L a) → x + (E.map h).sum = 0 → x = 0 ∧ ∀ e ∈ E, h e = 0 := by
      intro h x h1 hx hs
      have := hz (fun e => if e = a then x else h e) (fun e he => ?_) ?_
      · refine ⟨by simpa using this a (by simp), fun e he => ?_⟩
        have h2 := this e (by simp [he])
        rwa [if_neg fun (hc : e = a) => hE.1 (hc ▸ he)] at h2
      · rcases List.mem_cons.1 he with rfl | he
        · simpa using hx
        · have hne : e ≠ a := fun (hc : e = a) => hE.1 (hc ▸ he)
          simpa [hne] using h1 e he
      · rw [List.map_cons, List.sum_cons, if_pos rfl, ← hs]
        congr 2
        refine List.map_congr_left fun e he => ?_
        rw [if_neg fun (hc : e = a) => hE.1 (hc ▸ he)]
    refine independent_append (hi a (by simp)) (ih hE.2 (fun e he => hi e (by simp [he])) fun h h1 h2 => ?_) ?_
    · exact (key h 0 h1 (Submodule.zero_mem _) (by rw [zero_add, h2])).2
    · rw [Submodule.disjoint_def]
      intro x hx hy
      obtain ⟨h, h1, h2⟩ := (mem_lspan_flatMap L hE.2).1 hy
      have := (key (fun e => - h e) x (fun e he => Submodule.neg_mem _ (h1 e he)) hx (by
        rw [h2]
        have : (E.map fun e => - h e).sum = - (E.map h).sum := by
          rw [List.sum_neg, List.map_map]
          rfl
        rw [this, add_neg_cancel])).1
      exact this

theorem independent_map' {V W : Type} [AddCommGroup V] [Module ℝ V] [AddCommGroup W] [Module ℝ W] {fs : List V} (T : V →ₗ[ℝ] W)
    (hT : ∀ v ∈ lspan fs, T v = 0 → v = 0) (hi : Independent ℝ fs) : Independent ℝ (fs.map T) := by
  have hr : Submodule.span ℝ (Set.range fun i : Fin fs.length => fs[i]) = lspan fs := by
    rw [lspan]
    congr 1
    ext v
    simp [List.mem_iff_get]
  have h := (LinearIndependent.map hi (f := T) (by
      rw [hr, Submodule.disjoint_def]
      intro v hv hk
      exact hT v hv hk)).comp
    (fun i : Fin (fs.map T).length => (⟨i.val, by simpa using i.2⟩ : Fin fs.length)) fun i j h => by
      simpa [Fin.ext_iff] using h
  have e : (fun i : Fin (fs.map T).length => (fs.map T)[i]) = (T ∘ fun i : Fin fs.length => fs[i]) ∘
      fun i : Fin (fs.map T).length => (⟨i.val, by simpa using i.2⟩ : Fin fs.length) := by
    funext i
    simp
  unfold Independent
  rw [e]
  exact h

theorem lspan_map' {V W : Type} [AddCommGroup V] [Module ℝ V] [AddCommGroup W] [Module ℝ W] (T : V →ₗ[ℝ] W) (fs : List V) :
    lspan (fs.map T) = (lspan fs).map T := by
  rw [lspan, lspan, Submodule.map_span]
  congr 1
  ext v
  simp

/-! ### Barycentric coordinates -/

/-- The barycentric coordinate of a vertex of the default simplex. -/
noncomputable def bary (d v : ℕ) : MvPolynomial ℕ ℝ := if v = 0 then opp d else X (v - 1)

theorem bary_mem {d v : ℕ} (hv : v ≤ d) : bary d v ∈ P d 1 := by
  unfold bary
  split_ifs
  · exact opp_mem d
  · exact X_mem (by omega)

theorem bary_vertex {c : Cell} (hc : Simplex c) {v w : ℕ} (hv : v ≤ c.tdim) (hw : w ≤ c.tdim) :
    eval (refVertex c w) (bary c.tdim v) = if v = w then 1 else 0 := by
  unfold bary
  rcases hc with rfl | rfl | rfl <;> simp only [Cell.tdim] at hv hw ⊢ <;> interval_cases v <;> interval_cases w <;>
    simp [eval_opp, refVertex, refVerts, coords, Fin.sum_univ_succ]

/-- Polynomials of degree 1 along a combination of points. -/
theorem affine_eval {d : ℕ} {p : MvPolynomial ℕ ℝ} (hp : p ∈ P d 1) (a : ℕ → ℝ) (m : ℕ) (b : ℕ → ℕ → ℝ) (z : ℕ → ℝ) :
    eval (fun j => a j + ∑ k ∈ Finset.range m, (b k j - a j) * z k) p =
      eval a p + ∑ k ∈ Finset.range m, (eval (b k) p - eval a p) * z k := by
  obtain ⟨c0, cs, hc⟩ : ∃ (c0 : ℝ) (cs : ℕ → ℝ), ∀ y : ℕ → ℝ, eval y p = c0 + ∑ j ∈ Finset.range d, cs j * y j := by
    refine ⟨coeff 0 p, fun j => coeff (Finsupp.single j 1) p, fun y => ?_⟩
    have hmem := mem_P.1 hp
    have hsub : p.support ⊆ insert 0 ((Finset.range d).image fun j => Finsupp.single j 1) := by
      intro t ht
      obtain ⟨h1, h2⟩ := hmem t ht
      have h1' : t.degree ≤ 1 := by exact_mod_cast h1
      rcases Nat.lt_or_ge t.degree 1 with h | h
      · have : t = 0 := (Finsupp.degree_eq_zero_iff t).1 (by omega)
        simp [this]
      · obtain ⟨j, rfl⟩ : ∃ j, t = Finsupp.single j 1 := by
          have h3 : t.degree = 1 := by omega
          obtain ⟨j, hj⟩ : t.support.Nonempty := by
            rw [Finset.nonempty_iff_ne_empty]
            intro hc
            rw [Finsupp.support_eq_empty.1 hc] at h3
            simp at h3
          refine ⟨j, ?_⟩
          have h4 : Finsupp.single j 1 ≤ t := by
            rw [Finsupp.single_le_iff]
            have := Finsupp.mem_support_iff.1 hj
            omega
          obtain ⟨u, rfl⟩ := exists_add_of_le h4
          rw [map_add, Finsupp.degree_single] at h3
          rw [(Finsupp.degree_eq_zero_iff u).1 (by omega), add_zero]
        refine Finset.mem_insert_of_mem (Finset.mem_image.2 ⟨j, Finset.mem_range.2 (h2 j ?_), rfl⟩)
        simp
    rw [eval_eq, Finset.sum_subset hsub fun t _ ht => by rw [notMem_support_iff.1 ht, zero_mul], Finset.sum_insert (by
      simp), Finset.sum_image (fun i _ j _ h => by simpa using Finsupp.single_left_injective one_ne_zero h)]
    congr 1
    · simp
    · refine Finset.sum_congr rfl fun j _ => ?_
      congr 1
      rw [Finsupp.support_single_ne_zero _ one_ne_zero]
      simp
  rw [hc, hc]
  have : ∀ k, eval (b k) p = c0 + ∑ j ∈ Finset.range d, cs j * b k j := fun k => hc _
  simp only [this, mul_add, Finset.sum_add_distrib, Finset.mul_sum]
  rw [add_assoc]
  congr 2
  rw [Finset.sum_comm]
  refine Finset.sum_congr rfl fun k _ => ?_
  rw [add_sub_add_left_eq_sub, ← Finset.sum_sub_distrib, Finset.sum_mul]
  refine Finset.sum_congr rfl fun j _ => ?_
  ring

/-- The vertices of the entities of simplices. -/
theorem simplex_table {c : Cell} (hc : Simplex c) : ∀ m ≤ c.tdim, ∀ n < entityCount c m, (entVerts c m n).length = m + 1 ∧
    (entVerts c m n).Nodup ∧ (∀ v ∈ entVerts c m n, v ≤ c.tdim) ∧ (entType c m n).tdim = m ∧
    (∀ k < m, (axisVertices (entType c m n)).getD k 0 = k + 1) ∧ (1 ≤ m → entType c m n ∈ [Cell.interval, .triangle, .tetrahedron]) := by
  have t1 : ∀ m ≤ c.tdim, ∀ n < entityCount c m, (entVerts c m n).length = m + 1 ∧ (entVerts c m n).Nodup := by
    rcases hc with rfl | rfl | rfl <;> decide
  have t2 : ∀ m ≤ c.tdim, ∀ n < entityCount c m, (∀ v ∈ entVerts c m n, v ≤ c.tdim) ∧ (entType c m n).tdim = m := by
    rcases hc with rfl | rfl | rfl <;> decide
  have t3 : ∀ m ≤ c.tdim, ∀ n < entityCount c m, ∀ k < m, (axisVertices (entType c m n)).getD k 0 = k + 1 := by
    rcases hc with rfl | rfl | rfl <;> decide
  have t4 : ∀ m ≤ c.tdim, ∀ n < entityCount c m, 1 ≤ m → entType c m n ∈ [Cell.interval, .triangle, .tetrahedron] := by
    rcases hc with rfl | rfl | rfl <;> decide
  exact fun m hm n hn => ⟨(t1 m hm n hn).1, (t1 m hm n hn).2, (t2 m hm n hn).1, (t2 m hm n hn).2, t3 m hm n hn, t4 m hm n hn⟩

theorem entity_param {c : Cell} (hc : Simplex c) {m n : ℕ} (hm : m ≤ c.tdim) (hn : n < entityCount c m) (z : ℕ → ℝ) :
    (entityDomain c (m, n)).param z = fun j => refVertex c ((entVerts c m n).getD 0 0) j + ∑ k ∈ Finset.range m,
      (refVertex c ((entVerts c m n).getD (k + 1) 0) j - refVertex c ((entVerts c m n).getD 0 0) j) * z k := by
  obtain ⟨-, -, -, h4, h5, -⟩ := simplex_table hc m hm n hn
  funext j
  show entityVerts (refVertex c) (entVerts c m n) 0 j + ∑ k ∈ Finset.range (entType c m n).tdim, _ = _
  rw [h4]
  congr 1
  refine Finset.sum_congr rfl fun k hk => ?_
  show (entityVerts (refVertex c) (entVerts c m n) ((axisVertices (entType c m n)).getD k 0) j - _) * _ = _
  rw [h5 k (Finset.mem_range.1 hk)]
  rfl

/-- The barycentric coordinates of the points of an entity. -/
theorem bary_param {c : Cell} (hc : Simplex c) {m n : ℕ} (hm : m ≤ c.tdim) (hn : n < entityCount c m) (z : ℕ → ℝ) {v : ℕ} (hv : v ≤ c.tdim) :
    eval ((entityDomain c (m, n)).param z) (bary c.tdim v) =
      (if v = (entVerts c m n).getD 0 0 then 1 - ∑ k ∈ Finset.range m, z k else 0) +
      ∑ k ∈ Finset.range m, if v = (entVerts c m n).getD (k + 1) 0 then z k else 0 := by
  obtain ⟨h1, h2, h3, -⟩ := simplex_table hc m hm n hn
  have hle : ∀ k ≤ m, (entVerts c m n).getD k 0 ≤ c.tdim := fun k hk => by
    rw [List.getD_eq_getElem _ _ (by omega)]
    exact h3 _ (List.getElem_mem _)
  rw [entity_param hc hm hn, affine_eval (bary_mem hv), bary_vertex hc hv (hle 0 (by omega))]
  have : ∀ k ∈ Finset.range m, (eval (refVertex c ((entVerts c m n).getD (k + 1) 0)) (bary c.tdim v) - (if v = (entVerts c m n).getD 0 0 then 1 else 0)) * z k =
      (if v = (entVerts c m n).getD (k + 1) 0 then z k else 0) - if v = (entVerts c m n).getD 0 0 then z k else 0 := by
    intro k hk
    rw [bary_vertex hc hv (hle _ (by have := Finset.mem_range.1 hk; omega))]
    split_ifs <;> ring
  rw [Finset.sum_congr rfl this, Finset.sum_sub_distrib]
  split_ifs <;> simp
  ring

theorem bary_param_zero {c : Cell} (hc : Simplex c) {m n : ℕ} (hm : m ≤ c.tdim) (hn : n < entityCount c m) (z : ℕ → ℝ) {v : ℕ} (hv : v ≤ c.tdim)
    (h : v ∉ entVerts c m n) : eval ((entityDomain c (m, n)).param z) (bary c.tdim v) = 0 := by
  obtain ⟨h1, -⟩ := simplex_table hc m hm n hn
  have hne : ∀ k ≤ m, v ≠ (entVerts c m n).getD k 0 := fun k hk hc => h (by
    rw [hc, List.getD_eq_getElem _ _ (by omega)]
    exact List.getElem_mem _)
  rw [bary_param hc hm hn z hv, if_neg (hne 0 (by omega)), zero_add]
  exact Finset.sum_eq_zero fun k hk => if_neg (hne _ (by have := Finset.mem_range.1 hk; omega))

theorem bary_param_first {c : Cell} (hc : Simplex c) {m n : ℕ} (hm : m ≤ c.tdim) (hn : n < entityCount c m) (z : ℕ → ℝ) :
    eval ((entityDomain c (m, n)).param z) (bary c.tdim ((entVerts c m n).getD 0 0)) = 1 - ∑ k ∈ Finset.range m, z k := by
  obtain ⟨h1, h2, h3, -⟩ := simplex_table hc m hm n hn
  rw [bary_param hc hm hn z (h3 _ (by rw [List.getD_eq_getElem _ _ (by omega)]; exact List.getElem_mem _)), if_pos rfl,
    Finset.sum_eq_zero fun k hk => if_neg ?_, add_zero]
  have := Finset.mem_range.1 hk
  rw [List.getD_eq_getElem _ _ (by omega), List.getD_eq_getElem _ _ (by omega)]
  intro hc
  have := (List.Nodup.getElem_inj_iff h2).1 hc
  omega

theorem bary_param_axis {c : Cell} (hc : Simplex c) {m n : ℕ} (hm : m ≤ c.tdim) (hn : n < entityCount c m) (z : ℕ → ℝ) {k : ℕ} (hk : k < m) :
    eval ((entityDomain c (m, n)).param z) (bary c.tdim ((entVerts c m n).getD (k + 1) 0)) = z k := by
  obtain ⟨h1, h2, h3, -⟩ := simplex_table hc m hm n hn
  have hinj : ∀ a ≤ m, ∀ b ≤ m, (entVerts c m n).getD a 0 = (entVerts c m n).getD b 0 → a = b := by
    intro a ha b hb h
    rw [List.getD_eq_getElem _ _ (by omega), List.getD_eq_getElem _ _ (by omega)] at h
    exact (List.Nodup.getElem_inj_iff h2).1 h
  rw [bary_param hc hm hn z (h3 _ (by rw [List.getD_eq_getElem _ _ (by omega)]; exact List.getElem_mem _)),
    if_neg (fun h => by have := hinj _ (by omega) _ (by omega) h; omega), zero_add, Finset.sum_eq_single k]
  · rw [if_pos rfl]
  · intro b hb hne
    have := Finset.mem_range.1 hb
    exact if_neg fun h => hne (by have := hinj _ (by omega) _ (by omega) h; omega)
  · intro h
    exact absurd (Finset.mem_range.2 hk) h

/-- The product of the barycentric coordinates of the vertices of an entity. -/
noncomputable def entBub (c : Cell) (m n : ℕ) : MvPolynomial ℕ ℝ := ((entVerts c m n).map (bary c.tdim)).prod

theorem entBub_param {c : Cell} (hc : Simplex c) {m n : ℕ} (hm : m ≤ c.tdim) (hn : n < entityCount c m) (z : ℕ → ℝ) :
    eval ((entityDomain c (m, n)).param z) (entBub c m n) = eval z (simpBub m) := by
  obtain ⟨h1, h2, h3, -⟩ := simplex_table hc m hm n hn
  have e : entVerts c m n = (entVerts c m n).getD 0 0 :: (List.range m).map fun k => (entVerts c m n).getD (k + 1) 0 := by
    refine List.ext_getElem (by simp [h1]) fun i hi _ => ?_
    rcases i with _ | i
    · rw [List.getElem_cons_zero, List.getD_eq_getElem _ _ (by omega)]
    · rw [List.getElem_cons_succ, List.getElem_map, List.getElem_range, List.getD_eq_getElem _ _ hi]
  rw [entBub, e, List.map_cons, List.prod_cons, map_mul, bary_param_first hc hm hn, List.map_map, map_list_prod, List.map_map, eval_simpBub,
    mul_comm, Finset.sum_range]
  congr 1
  rw [show ∏ j ∈ Finset.range m, z j = ((List.range m).map fun j => z j).prod from rfl]
  congr 1
  refine List.map_congr_left fun k hk => ?_
  exact bary_param_axis hc hm hn z (List.mem_range.1 hk)

theorem entBub_param_zero {c : Cell} (hc : Simplex c) {m n : ℕ} (hm : m ≤ c.tdim) (hn : n < entityCount c m) (z : ℕ → ℝ) {m' n' : ℕ}
    (hm' : m' ≤ c.tdim) (hn' : n' < entityCount c m') (h : ¬ entVerts c m' n' ⊆ entVerts c m n) :
    eval ((entityDomain c (m, n)).param z) (entBub c m' n') = 0 := by
  obtain ⟨-, -, h3, -⟩ := simplex_table hc m' hm' n' hn'
  rw [List.subset_def] at h
  push Not at h
  obtain ⟨v, hv, hv'⟩ := h
  rw [entBub, map_list_prod, List.prod_eq_zero_iff, List.map_map, List.mem_map]
  exact ⟨v, hv, bary_param_zero hc hm hn z (h3 v hv) hv'⟩

/-- Polynomials of degree 1 are determined by the values at the vertices. -/
theorem affine_param_zero {c : Cell} (hc : Simplex c) {m n : ℕ} (hm : m ≤ c.tdim) (hn : n < entityCount c m) {p : MvPolynomial ℕ ℝ}
    (hp : p ∈ P c.tdim 1) (h : ∀ v ∈ entVerts c m n, eval (refVertex c v) p = 0) (z : ℕ → ℝ) :
    eval ((entityDomain c (m, n)).param z) p = 0 := by
  obtain ⟨h1, -⟩ := simplex_table hc m hm n hn
  have hv : ∀ k ≤ m, eval (refVertex c ((entVerts c m n).getD k 0)) p = 0 := fun k hk => h _ (by
    rw [List.getD_eq_getElem _ _ (by omega)]
    exact List.getElem_mem _)
  rw [entity_param hc hm hn, affine_eval hp, hv 0 (by omega), zero_add]
  refine Finset.sum_eq_zero fun k hk => ?_
  rw [hv (k + 1) (by have := Finset.mem_range.1 hk; omega)]
  ring

end Verif.Scalar
