import Verif.Matrices.Model
import Verif.Families.SerCurlSpan
/-!
# Regge elements with point evaluations

C127: unisolvence.  C128: continuity of the tangential components between cells.
-/

namespace Verif.Matrices
open Verif.References Verif.Elements Verif.FiniteElement Verif.Polysets Verif.Families
open MvPolynomial

/-! ### Symmetric matrices -/

theorem innerForm_apply {d : ℕ} (z l r : ℕ → ℝ) (u : MField d) : innerForm z l r u = formAt u z l r := by
  unfold innerForm formAt
  rw [LinearMap.sum_apply]
  refine Finset.sum_congr rfl fun i _ => ?_
  rw [LinearMap.sum_apply]
  refine Finset.sum_congr rfl fun j _ => ?_
  show (l i.val * r j.val) * aeval z (u i j) = _
  rw [← coe_aeval_eq_eval]
  show _ = l i.val * aeval z (u i j) * r j.val
  ring

/-- The entries of the table are the entries of a symmetric matrix, each once. -/
structure SymIndex {d r : ℕ} (s : Fin d → Fin d → Fin r) : Prop where
  symm : ∀ i j, s i j = s j i
  inj : ∀ i j i' j', s i j = s i' j' → (i = i' ∧ j = j') ∨ (i = j' ∧ j = i')
  surj : ∀ t, ∃ i j, s i j = t

theorem index2_sym : SymIndex index2 := ⟨by decide, by decide, by decide⟩
theorem index3_sym : SymIndex index3 := ⟨by decide, by decide, by decide⟩

theorem polySetVector_length {d r : ℕ} {k : ℕ} {pl : List VecPoly} (h : polySetVector d r k = some pl) :
    pl.length = (k + d).choose d * r := by
  rw [polySetVector, Option.map_eq_some_iff] at h
  obtain ⟨ps, hps, rfl⟩ := h
  rw [vectorSet_length, polySet_length _ _ _ hps]

/-- Matrices made from the components of vectors of polynomials. -/
theorem sym_poly {d r : ℕ} (hd : d = 1 ∨ d = 2 ∨ d = 3) {s : Fin d → Fin d → Fin r} (hs : SymIndex s) (k : ℕ) :
    ∃ pl, polySetVector d r k = some pl ∧ pl.length = (k + d).choose d * r ∧
      Independent ℝ (pl.map fun p => matrixOf s (denoteVec ℝ r p)) ∧
      ∀ u, u ∈ lspan (pl.map fun p => matrixOf s (denoteVec ℝ r p)) ↔ SymSpace d k u := by
  obtain ⟨pl, h1, h2⟩ := polySetVector_lspan hd r (k : ℤ)
  have e : (pl.map fun p => matrixOf s (denoteVec ℝ r p)) = (pl.map (denoteVec ℝ r)).map (matrixOf s) := by
    rw [List.map_map]
    rfl
  refine ⟨pl, h1, polySetVector_length h1, ?_, fun u => ?_⟩
  · rw [e]
    refine independent_map _ ((vector_sets_independent ℝ r).1 _ _ _ h1) fun v _ hv => ?_
    funext t
    obtain ⟨i, j, rfl⟩ := hs.surj t
    exact congrFun (congrFun hv i) j
  · have em : lspan ((pl.map (denoteVec ℝ r)).map (matrixOf s)) = (lspan (pl.map (denoteVec ℝ r))).map (matrixOf s) := by
      rw [lspan, lspan, Submodule.map_span]
      congr 1
      ext x
      simp
    rw [e, em, h2]
    constructor
    · rintro ⟨p, hp, rfl⟩
      have hp := mem_PV.1 hp
      refine ⟨fun i j => ?_, fun i j => hp _⟩
      show p (s i j) = p (s j i)
      rw [hs.symm]
    · rintro ⟨h, hk⟩
      choose a b hab using hs.surj
      refine ⟨fun t => u (a t) (b t), mem_PV.2 fun t => hk _ _, ?_⟩
      funext i j
      show u (a (s i j)) (b (s i j)) = u i j
      rcases hs.inj _ _ _ _ (hab (s i j)) with ⟨e1, e2⟩ | ⟨e1, e2⟩
      · rw [e1, e2]
      · rw [e1, e2, h]

/-- The number of polynomials. -/
def symCount (d k : ℕ) : ℕ := (k + d).choose d * (d * (d + 1) / 2)

theorem regge_poly {c : Cell} (hc : Simp c) (k : ℕ) : ∃ l, reggePoly c.tdim k = some l ∧ l.length = symCount c.tdim k ∧
    Independent ℝ l ∧ ∀ u, u ∈ lspan l ↔ SymSpace c.tdim k u := by
  rcases hc with rfl | rfl
  · obtain ⟨pl, h1, h2, h3, h4⟩ := sym_poly (Or.inr (Or.inl rfl)) index2_sym k
    exact ⟨_, (congrArg (Option.map _) h1 : reggePoly 2 k = _), (List.length_map _).trans h2, h3, h4⟩
  · obtain ⟨pl, h1, h2, h3, h4⟩ := sym_poly (Or.inr (Or.inr rfl)) index3_sym k
    exact ⟨_, (congrArg (Option.map _) h1 : reggePoly 3 k = _), (List.length_map _).trans h2, h3, h4⟩

/-! ### The bilinear form -/

section form
variable {d : ℕ} {u : MField d} {z : ℕ → ℝ}

theorem formAt_comm (h : ∀ i j, u i j = u j i) (s t : ℕ → ℝ) : formAt u z s t = formAt u z t s := by
  unfold formAt
  rw [Finset.sum_comm]
  refine Finset.sum_congr rfl fun i _ => Finset.sum_congr rfl fun j _ => ?_
  rw [h j i]
  ring

theorem formAt_sub_left (s s' t : ℕ → ℝ) : formAt u z (psub s s') t = formAt u z s t - formAt u z s' t := by
  unfold formAt psub
  rw [← Finset.sum_sub_distrib]
  refine Finset.sum_congr rfl fun i _ => ?_
  rw [← Finset.sum_sub_distrib]
  exact Finset.sum_congr rfl fun j _ => by ring

theorem formAt_sub_right (s t t' : ℕ → ℝ) : formAt u z s (psub t t') = formAt u z s t - formAt u z s t' := by
  unfold formAt psub
  rw [← Finset.sum_sub_distrib]
  refine Finset.sum_congr rfl fun i _ => ?_
  rw [← Finset.sum_sub_distrib]
  exact Finset.sum_congr rfl fun j _ => by ring

/-- A symmetric form that vanishes for the differences of any two of the points. -/
theorem form_polar (h : ∀ i j, u i j = u j i) (x : ℕ → ℕ → ℝ) {S : Finset ℕ}
    (hq : ∀ a ∈ S, ∀ b ∈ S, formAt u z (psub (x b) (x a)) (psub (x b) (x a)) = 0)
    {a b a' b' : ℕ} (ha : a ∈ S) (hb : b ∈ S) (ha' : a' ∈ S) (hb' : b' ∈ S) :
    formAt u z (psub (x b) (x a)) (psub (x b') (x a')) = 0 := by
  have h1 := hq a' ha' b hb
  have h2 := hq b' hb' a ha
  have h3 := hq b' hb' b hb
  have h4 := hq a' ha' a ha
  simp only [formAt_sub_left, formAt_sub_right] at *
  have c := fun s t => formAt_comm (z := z) h s t
  rw [c (x a') (x b)] at h1
  rw [c (x b') (x a)] at h2
  rw [c (x b') (x b)] at h3
  rw [c (x a') (x a)] at h4
  linarith

theorem formAt_sum_left {n : ℕ} (g : ℕ → ℝ) (s : ℕ → ℕ → ℝ) (t : ℕ → ℝ) :
    formAt u z (fun j => ∑ m ∈ Finset.range n, g m * s m j) t = ∑ m ∈ Finset.range n, g m * formAt u z (s m) t := by
  unfold formAt
  simp only [Finset.mul_sum, Finset.sum_mul]
  rw [Finset.sum_comm' (s := Finset.range n) (t := fun _ => Finset.univ) (s' := fun _ => Finset.range n) (t' := Finset.univ) (by simp)]
  refine Finset.sum_congr rfl fun i _ => ?_
  rw [Finset.sum_comm]
  refine Finset.sum_congr rfl fun j _ => ?_
  refine Finset.sum_congr rfl fun m _ => ?_
  ring

/-- A form that vanishes on a basis. -/
theorem form_zero {a : ℕ → ℕ → ℝ} (hi : Indep d d a) (h : ∀ m < d, ∀ l < d, formAt u z (a m) (a l) = 0)
    (hs : ∀ i j, u i j = u j i) (i j : Fin d) : eval z (u i j) = 0 := by
  have key : ∀ t : ℕ → ℝ, (∀ m < d, formAt u z (a m) t = 0) → ∀ i : Fin d, formAt u z (fun x => if x = i.val then 1 else 0) t = 0 := by
    intro t ht i
    obtain ⟨g, hg⟩ := solve_of_indep hi fun x => if x = i.val then 1 else 0
    have e : formAt u z (fun x => if x = i.val then 1 else 0) t = formAt u z (fun j => ∑ m ∈ Finset.range d, g m * a m j) t := by
      unfold formAt
      refine Finset.sum_congr rfl fun i' _ => Finset.sum_congr rfl fun j _ => ?_
      simp only
      rw [hg i'.val i'.2]
    rw [e, formAt_sum_left]
    exact Finset.sum_eq_zero fun m hm => by rw [ht m (Finset.mem_range.1 hm), mul_zero]
  have h1 : ∀ m < d, ∀ i : Fin d, formAt u z (a m) (fun x => if x = i.val then 1 else 0) = 0 := fun m hm i => by
    rw [formAt_comm hs]
    exact key (a m) (fun l hl => h l hl m hm) i
  have h2 := key (fun x => if x = j.val then 1 else 0) (fun m hm => h1 m hm j) i
  have e : formAt u z (fun x => if x = i.val then 1 else 0) (fun x => if x = j.val then 1 else 0) = eval z (u i j) := by
    unfold formAt
    rw [Finset.sum_eq_single i, Finset.sum_eq_single j]
    · simp
    · intro b _ hb
      simp only
      rw [if_neg (fun h : b.val = j.val => hb (Fin.ext h)), mul_zero]
    · simp
    · intro b _ hb
      refine Finset.sum_eq_zero fun j _ => ?_
      simp only
      rw [if_neg (fun h : b.val = i.val => hb (Fin.ext h)), zero_mul, zero_mul]
    · simp
  rw [← e]
  exact h2
end form

/-! ### The functionals -/

/-- The nodes `0, 1 / (k + 2), …, 1`. -/
noncomputable def nodes (k : ℕ) : List ℝ := (List.range (k + 3)).map fun i : ℕ => (i : ℝ) / ((k + 2 : ℕ) : ℝ)

theorem nodes_getD (k : ℕ) : ∀ i ≤ k + 2, (nodes k).getD i 0 = (i : ℝ) / ((k + 2 : ℕ) : ℝ) := by
  intro i hi
  rw [nodes, List.getD_eq_getElem _ _ (by simpa using by omega)]
  simp

/-- The points of the functionals. -/
noncomputable def reggeBase (c : Cell) (v : ℕ → ℕ → ℝ) (k edim n : ℕ) : List PointDof :=
  entityList c v (nodes k) (k + 2) (fun _ i => decide (i.sum < k + 2)) edim n

/-- The tangent of an edge of an entity. -/
noncomputable def edgeVec (c : Cell) (v : ℕ → ℕ → ℝ) (edim n : ℕ) (edge : List ℕ) : ℕ → ℝ :=
  psub (v ((entVerts c edim n).getD (edge.getD 1 0) 0)) (v ((entVerts c edim n).getD (edge.getD 0 0) 0))

theorem reggeOn_eq {c : Cell} (hc : Simp c) (v : ℕ → ℕ → ℝ) (k : ℕ) {edim n : ℕ} (h1 : 1 ≤ edim) (h3 : edim ≤ 3)
    (hn : n < count c edim) : reggeOn c v k edim n = some ((reggeBase c v k edim n).flatMap fun p =>
      (entType c edim n).edges.reverse.map fun edge => innerDof p (edgeVec c v edim n edge) (edgeVec c v edim n edge)) := by
  have hf : Fixed c := by rcases hc with rfl | rfl <;> intro n h <;> cases h
  obtain ⟨ht, he, hl, _⟩ := entity_table c hf edim n h1 h3 _ (count_eq c h3) hn
  unfold reggeOn
  rw [ht, he]
  simp only
  congr 1
  rw [reggeBase, entityList, List.flatMap_map]
  refine List.flatMap_congr fun i hi => ?_
  refine List.map_congr_left fun edge _ => ?_
  congr 2
  funext j
  unfold entityPoint
  have hi' := mem_product.1 (List.mem_of_mem_filter hi)
  have hlen : (i.reverse.map fun j => (nodes k).getD j 0).length = edim := by simp [hi'.1]
  rw [hlen]
  congr 1
  refine Finset.sum_congr rfl fun m hm => ?_
  have hm' : m < i.reverse.length := by rw [List.length_reverse, hi'.1]; exact Finset.mem_range.1 hm
  rw [mul_div_assoc]
  congr 1
  rw [List.getD_eq_getElem (i.reverse.map _) _ (by simpa using hm'), List.getElem_map, List.getD_eq_getElem _ _ hm']
  have := hi'.2 _ (List.mem_reverse.1 (List.getElem_mem hm'))
  rw [nodes_getD k _ (by have := List.mem_range'_1.1 this; omega)]
  push_cast
  rfl

/-- All functionals. -/
noncomputable def reggeAll (c : Cell) (v : ℕ → ℕ → ℝ) (k : ℕ) : List (Dof ℝ (MField c.tdim)) :=
  (List.range' 1 3).flatMap fun edim => (List.range (count c edim)).flatMap fun n => (reggeBase c v k edim n).flatMap fun p =>
    (entType c edim n).edges.reverse.map fun edge => innerDof p (edgeVec c v edim n edge) (edgeVec c v edim n edge)

theorem reggePoints_eq {c : Cell} (hc : Simp c) (v : ℕ → ℕ → ℝ) (k : ℕ) : reggePoints c v k = some (reggeAll c v k) := by
  unfold reggePoints
  rw [mapM_some_of _ (fun edim => (List.range (count c edim)).flatMap fun n => (reggeBase c v k edim n).flatMap fun p =>
    (entType c edim n).edges.reverse.map fun edge => innerDof p (edgeVec c v edim n edge) (edgeVec c v edim n edge))]
  · rfl
  · intro edim hedim
    rw [List.mem_range'_1] at hedim
    rw [count_eq c (by omega)]
    show Option.map _ _ = _
    rw [mapM_some_of _ _ _ fun n hn => reggeOn_eq hc v k hedim.1 (by omega) (List.mem_range.1 hn)]
    rfl

theorem Simp.simplex' {c : Cell} (hc : Simp c) : Simplex c := by rcases hc with rfl | rfl <;> simp [Simplex]

theorem regge_length {c : Cell} (hc : Simp c) (v : ℕ → ℕ → ℝ) (k : ℕ) : (reggeAll c v k).length = symCount c.tdim k := by
  have e : ∀ edim n, (reggeBase c v k edim n).length = (k + 1).choose edim := fun edim n =>
    length_entityList_lagrange c v (nodes k) (by omega) edim n
  have key : ∀ edim n m, (entType c edim n).edges.length = m →
      ((reggeBase c v k edim n).flatMap fun p => (entType c edim n).edges.reverse.map fun edge =>
        (innerDof p (edgeVec c v edim n edge) (edgeVec c v edim n edge) : Dof ℝ (MField c.tdim))).length = (k + 1).choose edim * m := by
    intro edim n m hm
    rw [List.length_flatMap]
    simp [hm, e]
  have tot : ∀ m : ℕ → ℕ, (∀ edim ∈ [1, 2, 3], ∀ n < count c edim, (entType c edim n).edges.length = m edim) →
      (reggeAll c v k).length = count c 1 * ((k + 1).choose 1 * m 1) + count c 2 * ((k + 1).choose 2 * m 2) +
        count c 3 * ((k + 1).choose 3 * m 3) := by
    intro m hm
    have h : ∀ edim ∈ [1, 2, 3], ((List.range (count c edim)).flatMap fun n => (reggeBase c v k edim n).flatMap fun p =>
      (entType c edim n).edges.reverse.map fun edge => (innerDof p (edgeVec c v edim n edge) (edgeVec c v edim n edge) : Dof ℝ (MField c.tdim))).length =
        count c edim * ((k + 1).choose edim * m edim) := by
      intro edim he
      rw [List.length_flatMap, List.map_congr_left fun n hn => key edim n _ (hm edim he n (List.mem_range.1 hn))]
      simp
    unfold reggeAll
    rw [show List.range' 1 3 = [1, 2, 3] from rfl]
    simp only [List.flatMap_cons, List.flatMap_nil, List.append_nil, List.length_append]
    rw [h 1 (by simp), h 2 (by simp), h 3 (by simp)]
    ring
  have hm : ∀ c ∈ [Cell.triangle, .tetrahedron], ∀ edim ∈ [1, 2, 3], ∀ n < count c edim,
      (entType c edim n).edges.length = edim * (edim + 1) / 2 := by decide +kernel
  rw [tot (fun edim => edim * (edim + 1) / 2) (hm c (by rcases hc with rfl | rfl <;> simp))]
  rcases hc with rfl | rfl
  · show 3 * ((k + 1).choose 1 * 1) + 1 * ((k + 1).choose 2 * 3) + 0 * _ = (k + 2).choose 2 * 3
    simp [Nat.choose_succ_succ]
    ring
  · show 6 * ((k + 1).choose 1 * 1) + 4 * ((k + 1).choose 2 * 3) + 1 * ((k + 1).choose 3 * 6) = (k + 3).choose 3 * 6
    simp [Nat.choose_succ_succ]
    ring

/-- The point with given integer weights. -/
noncomputable def weighted (c : Cell) (v : ℕ → ℕ → ℝ) (k : ℕ) (β : ℕ → ℕ) : ℕ → ℝ :=
  fun j => ∑ i ∈ Finset.range c.nverts, (β i : ℝ) / ((k + 2 : ℕ) : ℝ) * v i j

theorem edge_of {c : Cell} (hc : Simp c) {edim n : ℕ} (h1 : 1 ≤ edim) (h3 : edim ≤ 3) (hn : n < count c edim) :
    (∀ a ∈ entVerts c edim n, ∀ b ∈ entVerts c edim n, a ≠ b → ∃ edge ∈ (entType c edim n).edges,
      ((entVerts c edim n).getD (edge.getD 0 0) 0 = a ∧ (entVerts c edim n).getD (edge.getD 1 0) 0 = b) ∨
      ((entVerts c edim n).getD (edge.getD 0 0) 0 = b ∧ (entVerts c edim n).getD (edge.getD 1 0) 0 = a)) ∧
    ∀ edge ∈ (entType c edim n).edges, (entVerts c edim n).getD (edge.getD 0 0) 0 ∈ entVerts c edim n ∧
      (entVerts c edim n).getD (edge.getD 1 0) 0 ∈ entVerts c edim n ∧
      (entVerts c edim n).getD (edge.getD 0 0) 0 ≠ (entVerts c edim n).getD (edge.getD 1 0) 0 := by
  have key : ∀ c ∈ [Cell.triangle, .tetrahedron], ∀ edim < 4, 1 ≤ edim → ∀ n < count c edim,
      (∀ a ∈ entVerts c edim n, ∀ b ∈ entVerts c edim n, a ≠ b → ∃ edge ∈ (entType c edim n).edges,
      ((entVerts c edim n).getD (edge.getD 0 0) 0 = a ∧ (entVerts c edim n).getD (edge.getD 1 0) 0 = b) ∨
      ((entVerts c edim n).getD (edge.getD 0 0) 0 = b ∧ (entVerts c edim n).getD (edge.getD 1 0) 0 = a)) ∧
    ∀ edge ∈ (entType c edim n).edges, (entVerts c edim n).getD (edge.getD 0 0) 0 ∈ entVerts c edim n ∧
      (entVerts c edim n).getD (edge.getD 1 0) 0 ∈ entVerts c edim n ∧
      (entVerts c edim n).getD (edge.getD 0 0) 0 ≠ (entVerts c edim n).getD (edge.getD 1 0) 0 := by decide +kernel
  exact key c (by rcases hc with rfl | rfl <;> simp) edim (by omega) h1 n hn

theorem vertsOf_pos (c : Cell) {edim : ℕ} (h : 1 ≤ edim) (n : ℕ) : vertsOf c (edim, n) = entVerts c edim n := by
  unfold vertsOf
  rw [if_neg (by show edim ≠ 0; omega)]

/-- Every functional is the form of an edge at a lattice point whose weights for the ends of the edge are not zero. -/
theorem regge_form {c : Cell} (hc : Simp c) (v : ℕ → ℕ → ℝ) (k : ℕ) {d : Dof ℝ (MField c.tdim)} (hd : d ∈ reggeAll c v k) :
    ∃ (β : ℕ → ℕ) (a b : ℕ), ∑ i ∈ Finset.range c.nverts, β i = k + 2 ∧ (∀ i, β i ≠ 0 ↔ i ∈ vertsOf c d.entity) ∧
      a ≠ b ∧ β a ≠ 0 ∧ β b ≠ 0 ∧ ∀ u, d.eval u = formAt u (weighted c v k β) (psub (v b) (v a)) (psub (v b) (v a)) := by
  obtain ⟨edim, hedim, hd⟩ := List.mem_flatMap.1 hd
  obtain ⟨n, hn, hd⟩ := List.mem_flatMap.1 hd
  obtain ⟨p, hp, hd⟩ := List.mem_flatMap.1 hd
  obtain ⟨edge, hedge, rfl⟩ := List.mem_map.1 hd
  have hr := List.mem_range'_1.1 hedim
  obtain ⟨points, hpts, hl⟩ := lagrangeDofs_equispaced (Simp.simplex' hc).fixed v (show 0 < k + 2 by omega)
  have hpe : reggeBase c v k edim n = entityList c v points (k + 2) (fun _ i => decide (i.sum < k + 2)) edim n := by
    unfold reggeBase entityList
    refine List.map_congr_left fun i hi => ?_
    have hi' := mem_product.1 (List.mem_of_mem_filter hi)
    congr 2
    refine List.map_congr_left fun j hj => ?_
    have := mem_innerRange.1 (hi'.2 _ (List.mem_reverse.1 hj))
    rw [nodes_getD k _ (by omega), hpts _ (by omega)]
  rw [hpe] at hp
  have hpent : p.entity = (edim, n) := by
    obtain ⟨i, -, rfl⟩ := List.mem_map.1 hp
    rfl
  have hpm : p ∈ allPoints c v points (k + 2) fun _ i => decide (i.sum < k + 2) :=
    List.mem_append_right _ (List.mem_flatMap.2 ⟨edim, hedim, List.mem_flatMap.2 ⟨n, hn, hp⟩⟩)
  obtain ⟨β, h1, h2, h3⟩ := lagrange_lattice_iff (Simp.simplex' hc) v (by omega) hl hpm
  have E := (edge_of hc hr.1 (by omega) (List.mem_range.1 hn)).2 edge (List.mem_reverse.1 hedge)
  have hv := vertsOf_pos c hr.1 n
  refine ⟨β, _, _, h1, h2, E.2.2, (h2 _).2 ?_, (h2 _).2 ?_, fun u => ?_⟩
  · rw [hpent, hv]; exact E.1
  · rw [hpent, hv]; exact E.2.1
  · show innerForm p.point _ _ u = _
    rw [innerForm_apply, h3]
    rfl

/-- There is a functional for every edge and every such lattice point. -/
theorem regge_cover {c : Cell} (hc : Simp c) (v : ℕ → ℕ → ℝ) (k : ℕ) {β : ℕ → ℕ} {a b : ℕ}
    (hβ : ∑ i ∈ Finset.range c.nverts, β i = k + 2) (han : a < c.nverts) (hbn : b < c.nverts) (hab : a ≠ b)
    (ha : β a ≠ 0) (hb : β b ≠ 0) :
    ∃ d ∈ reggeAll c v k, (∀ i, i ∈ vertsOf c d.entity ↔ i < c.nverts ∧ β i ≠ 0) ∧
      ∀ u, d.eval u = formAt u (weighted c v k β) (psub (v b) (v a)) (psub (v b) (v a)) := by
  obtain ⟨p, hp, h2, h3⟩ := lagrange_cover_iff (Simp.simplex' hc) v (show 0 < k + 2 by omega) (nodes_getD k) β hβ
  have ha' := (h3 a).2 ⟨han, ha⟩
  have hb' := (h3 b).2 ⟨hbn, hb⟩
  rcases List.mem_append.1 hp with hp | hp
  · obtain ⟨i, -, rfl⟩ := List.mem_map.1 hp
    simp [vertsOf] at ha' hb'
    exact absurd (ha'.trans hb'.symm) hab
  obtain ⟨edim, hedim, hp⟩ := List.mem_flatMap.1 hp
  obtain ⟨n, hn, hp⟩ := List.mem_flatMap.1 hp
  have hr := List.mem_range'_1.1 hedim
  have hpent : p.entity = (edim, n) := by
    obtain ⟨i, -, rfl⟩ := List.mem_map.1 hp
    rfl
  rw [hpent, vertsOf_pos c hr.1 n] at ha' hb'
  obtain ⟨edge, hedge, E⟩ := (edge_of hc hr.1 (by omega) (List.mem_range.1 hn)).1 a ha' b hb' hab
  refine ⟨innerDof p (edgeVec c v edim n edge) (edgeVec c v edim n edge), List.mem_flatMap.2 ⟨edim, hedim,
    List.mem_flatMap.2 ⟨n, hn, List.mem_flatMap.2 ⟨p, hp, List.mem_map.2 ⟨edge, List.mem_reverse.2 hedge, rfl⟩⟩⟩⟩, h3, fun u => ?_⟩
  show innerForm p.point _ _ u = _
  rw [innerForm_apply, h2]
  have e : (fun j => ∑ i ∈ Finset.range c.nverts, (β i : ℝ) / ((k + 2 : ℕ) : ℝ) * v i j) = weighted c v k β := rfl
  rw [e]
  unfold edgeVec
  rcases E with ⟨e1, e2⟩ | ⟨e1, e2⟩
  · rw [e1, e2]
  · rw [e1, e2]
    simp only [formAt_sub_left, formAt_sub_right]
    ring

/-! ### Interpolation -/

/-- A polynomial of degree at most `k` that vanishes at the lattice points with weights in `(1/(k+2))ℕ` whose weights for
two given vertices are not zero vanishes on the affine span of the vertices. -/
theorem shift_interp {S : Finset ℕ} (v : ℕ → ℕ → ℝ) {k : ℕ} {p : MvPolynomial ℕ ℝ} (hp : p.totalDegree ≤ k) {a b : ℕ}
    (ha : a ∈ S) (hb : b ∈ S) (hab : a ≠ b)
    (h : ∀ β : ℕ → ℕ, (∀ i, i ∉ S → β i = 0) → β a ≠ 0 → β b ≠ 0 → ∑ i ∈ S, β i = k + 2 →
      eval (fun j => ∑ i ∈ S, (β i : ℝ) / ((k + 2 : ℕ) : ℝ) * v i j) p = 0)
    (lam : ℕ → ℝ) (hlam : ∑ i ∈ S, lam i = 1) : eval (fun j => ∑ i ∈ S, lam i * v i j) p = 0 := by
  classical
  -- the sums with the two vertices counted once more
  have ind : ∀ (f : ℕ → ℝ) (x : ℕ), x ∈ S → ∑ i ∈ S, (if i = x then 1 else 0) * f i = f x := by
    intro f x hx
    rw [Finset.sum_eq_single_of_mem x hx (fun i _ hi => by simp [hi])]
    simp
  rcases Nat.eq_zero_or_pos k with rfl | hk
  · obtain ⟨r, rfl⟩ : ∃ r, p = C r := ⟨_, totalDegree_eq_zero_iff_eq_C.1 (by omega)⟩
    have := h (fun i => (if i = a then 1 else 0) + if i = b then 1 else 0) (fun i hi => by
      rw [if_neg (fun e : i = a => hi (e ▸ ha)), if_neg (fun e : i = b => hi (e ▸ hb))]) (by simp) (by simp)
      (by rw [Finset.sum_add_distrib]; simp [ha, hb])
    simpa using this
  have hkR : (k : ℝ) ≠ 0 := by exact_mod_cast hk.ne'
  have hk2 : ((k : ℝ) + 2) ≠ 0 := by positivity
  obtain ⟨m, hm⟩ : ∃ m, S.card = m + 1 := ⟨S.card - 1, by have := Finset.card_pos.2 ⟨a, ha⟩; omega⟩
  let eq := S.equivFinOfCardEq hm
  have hsum : ∀ {M : Type} [AddCommMonoid M] (f : ℕ → M), ∑ i ∈ S, f i = ∑ i : Fin (m + 1), f (eq.symm i) := by
    intro M _ f
    rw [← Finset.sum_coe_sort, ← Equiv.sum_comp eq.symm]
  let w : ℕ → ℕ → ℝ := fun i j => (k * v i j + v a j + v b j) / (k + 2)
  let mu : ℕ → ℝ := fun i => ((k + 2) * lam i - (if i = a then 1 else 0) - (if i = b then 1 else 0)) / k
  have hmu : ∑ i ∈ S, mu i = 1 := by
    have ea := ind (fun _ => 1) a ha
    have eb := ind (fun _ => 1) b hb
    simp only [mul_one] at ea eb
    simp only [mu]
    rw [← Finset.sum_div, Finset.sum_sub_distrib, Finset.sum_sub_distrib, ← Finset.mul_sum, hlam, ea, eb]
    field_simp
    ring
  have hpt : (fun j => ∑ i ∈ S, lam i * v i j) = fun j => ∑ i ∈ S, mu i * w i j := by
    funext j
    have e1 : ∀ i, mu i * w i j = (k / (k + 2)) * (mu i * v i j) + mu i * ((v a j + v b j) / (k + 2)) := fun i => by
      simp only [w]
      field_simp
      ring
    have e2 : ∑ i ∈ S, mu i * v i j = ((k + 2) * (∑ i ∈ S, lam i * v i j) - v a j - v b j) / k := by
      rw [← ind (fun i => v i j) a ha, ← ind (fun i => v i j) b hb, Finset.mul_sum, ← Finset.sum_sub_distrib,
        ← Finset.sum_sub_distrib, Finset.sum_div]
      refine Finset.sum_congr rfl fun i _ => ?_
      simp only [mu]
      ring
    rw [Finset.sum_congr rfl fun i _ => e1 i, Finset.sum_add_distrib, ← Finset.mul_sum, ← Finset.sum_mul, hmu, e2]
    field_simp
    ring
  rw [hpt]
  have hgoal : (fun j => ∑ i ∈ S, mu i * w i j) = fun j => ∑ i : Fin (m + 1), mu (eq.symm i) * w (eq.symm i) j := by
    funext j
    rw [hsum]
  rw [hgoal]
  rw [hsum] at hmu
  refine simplex_interp hk (fun i => w (eq.symm i)) p hp (fun γ hγ => ?_) (fun i => mu (eq.symm i)) hmu
  let β : ℕ → ℕ := fun x => (if hx : x ∈ S then γ (eq ⟨x, hx⟩) else 0) + ((if x = a then 1 else 0) + if x = b then 1 else 0)
  have hβ : ∀ i, β (eq.symm i) = γ i + ((if (eq.symm i : ℕ) = a then 1 else 0) + if (eq.symm i : ℕ) = b then 1 else 0) := fun i => by
    simp only [β, dif_pos (eq.symm i).2]
    congr 2
    exact eq.apply_symm_apply i
  have := h β (fun i hi => by
      simp only [β, dif_neg hi]
      rw [if_neg (fun e : i = a => hi (e ▸ ha)), if_neg (fun e : i = b => hi (e ▸ hb))]) (by simp [β]) (by simp [β])
    (by
      have e1 : ∑ i ∈ S, ((if i = a then 1 else 0) + if i = b then 1 else 0) = 2 := by
        rw [Finset.sum_add_distrib]; simp [ha, hb]
      rw [hsum, Finset.sum_congr rfl fun i _ => hβ i, Finset.sum_add_distrib, hγ, ← hsum fun i => ((if i = a then 1 else 0) + if i = b then 1 else 0), e1])
  rw [← this]
  congr 2
  funext j
  have e3 : ∀ i : Fin (m + 1), (β (eq.symm i) : ℝ) / ((k + 2 : ℕ) : ℝ) * v (eq.symm i) j = (γ i : ℝ) * v (eq.symm i) j / (k + 2) +
      (((if (eq.symm i : ℕ) = a then 1 else 0) * v (eq.symm i) j) + ((if (eq.symm i : ℕ) = b then 1 else 0) * v (eq.symm i) j)) / (k + 2) := by
    intro i
    rw [hβ]
    push_cast
    ring
  have e4 : ∑ i : Fin (m + 1), (((if (eq.symm i : ℕ) = a then 1 else 0) * v (eq.symm i) j) +
      ((if (eq.symm i : ℕ) = b then 1 else 0) * v (eq.symm i) j)) / ((k : ℝ) + 2) = (v a j + v b j) / (k + 2) := by
    rw [← Finset.sum_div, ← hsum fun i => ((if i = a then 1 else 0) * v i j) + ((if i = b then 1 else 0) * v i j), Finset.sum_add_distrib,
      ind (fun i => v i j) a ha, ind (fun i => v i j) b hb]
  rw [hsum, Finset.sum_congr rfl fun i _ => e3 i, Finset.sum_add_distrib, e4]
  have e5 : ∀ i : Fin (m + 1), (γ i : ℝ) / k * w (eq.symm i) j = (γ i : ℝ) * v (eq.symm i) j / (k + 2) +
      (γ i : ℝ) * ((v a j + v b j) / (k + 2) / k) := by
    intro i
    simp only [w]
    field_simp
    ring
  have e6 : ∑ i, (γ i : ℝ) = k := by exact_mod_cast hγ
  rw [Finset.sum_congr rfl fun i _ => e5 i, Finset.sum_add_distrib, ← Finset.sum_mul, e6]
  field_simp

theorem degree_le {d k : ℕ} {p : MvPolynomial ℕ ℝ} (hp : p ∈ P d k) : p.totalDegree ≤ k := by
  by_cases h : p = 0
  · simp [h]
  · exact_mod_cast (mem_P_iff.1 hp).1 h

/-- The form as a polynomial. -/
theorem form_poly {d : ℕ} {k : ℤ} {u : MField d} (hu : ∀ i j, u i j ∈ P d k) (s t : ℕ → ℝ) :
    ∃ p ∈ P d k, ∀ z, eval z p = formAt u z s t := by
  refine ⟨∑ i : Fin d, ∑ j : Fin d, C (s i.val * t j.val) * u i j, Submodule.sum_mem _ fun i _ => Submodule.sum_mem _ fun j _ =>
    C_mul_mem _ (hu i j), fun z => ?_⟩
  unfold formAt
  rw [map_sum]
  refine Finset.sum_congr rfl fun i _ => ?_
  rw [map_sum]
  refine Finset.sum_congr rfl fun j _ => ?_
  rw [map_mul, eval_C]
  ring

/-- The form of an edge vanishes on every entity that contains the edge, if the functionals do. -/
theorem regge_edge {c : Cell} (hc : Simp c) (v : ℕ → ℕ → ℝ) {k : ℕ} {S : Finset ℕ} (hS : ∀ i ∈ S, i < c.nverts)
    {u : MField c.tdim} (hu : SymSpace c.tdim k u)
    (hz : ∀ d ∈ reggeAll c v k, (∀ i ∈ vertsOf c d.entity, i ∈ S) → d.eval u = 0)
    {a b : ℕ} (ha : a ∈ S) (hb : b ∈ S) (lam : ℕ → ℝ) (hlam : ∑ i ∈ S, lam i = 1) :
    formAt u (fun j => ∑ i ∈ S, lam i * v i j) (psub (v b) (v a)) (psub (v b) (v a)) = 0 := by
  by_cases hab : a = b
  · subst hab
    rw [formAt_sub_left, sub_self]
  obtain ⟨p, hp, he⟩ := form_poly hu.2 (psub (v b) (v a)) (psub (v b) (v a))
  rw [← he]
  refine shift_interp v (degree_le hp) ha hb hab (fun β h0 hβa hβb hβ => ?_) lam hlam
  have hext : ∀ {M : Type} [AddCommMonoid M] (f : ℕ → M), (∀ x ∉ S, f x = 0) → ∑ x ∈ Finset.range c.nverts, f x = ∑ i ∈ S, f i :=
    fun f hf => (Finset.sum_subset (fun x hx => Finset.mem_range.2 (hS x hx)) fun x _ hx => hf x hx).symm
  obtain ⟨d, hd, hent, hev⟩ := regge_cover hc v k (β := β) (by rw [hext β h0, hβ]) (hS a ha) (hS b hb) hab hβa hβb
  have := hz d hd fun i hi => by
    by_contra hn
    exact ((hent i).1 hi).2 (h0 i hn)
  rw [hev] at this
  rw [he, ← this]
  congr 1
  funext j
  unfold weighted
  rw [hext _ fun x hx => by simp [h0 x hx]]

/-- The tangential components on an entity, given by the set of its vertices, vanish if the functionals of the entity and
of the entities in its boundary do. -/
def TangentialTrace (c : Cell) (v : ℕ → ℕ → ℝ) (V : MField c.tdim → Prop) (dofs : List (Dof ℝ (MField c.tdim))) : Prop :=
  ∀ S : Finset ℕ, (∀ i ∈ S, i < c.nverts) → ∀ u, V u → (∀ d ∈ dofs, (∀ i ∈ vertsOf c d.entity, i ∈ S) → d.eval u = 0) →
    ∀ lam : ℕ → ℝ, ∑ i ∈ S, lam i = 1 → ∀ a ∈ S, ∀ b ∈ S, ∀ a' ∈ S, ∀ b' ∈ S,
      formAt u (fun j => ∑ i ∈ S, lam i * v i j) (psub (v b) (v a)) (psub (v b') (v a')) = 0

theorem regge_trace {c : Cell} (hc : Simp c) (v : ℕ → ℕ → ℝ) (k : ℕ) :
    TangentialTrace c v (SymSpace c.tdim k) (reggeAll c v k) := by
  intro S hS u hu hz lam hlam a ha b hb a' ha' b' hb'
  exact form_polar hu.1 v (fun x hx y hy => regge_edge hc v hS hu hz hx hy lam hlam) ha hb ha' hb'

theorem regge_zero {c : Cell} (hc : Simp c) (v : ℕ → ℕ → ℝ) (hv : NonDegenerate c v) {k : ℕ} {u : MField c.tdim}
    (hu : SymSpace c.tdim k u) (hz : ∀ d ∈ reggeAll c v k, d.eval u = 0) : u = 0 := by
  have hn : c.nverts = c.tdim + 1 := by rcases hc with rfl | rfl <;> rfl
  funext i j
  refine MvPolynomial.funext fun y => ?_
  show eval y (u i j) = eval y 0
  rw [map_zero]
  obtain ⟨t, ht⟩ := solve_of_indep hv (fun j => y j - v 0 j)
  have hax : ∀ m < c.tdim, axis c v m = psub (v (m + 1)) (v 0) := by
    intro m hm
    have : (axisVertices c).getD m 0 = m + 1 := by
      rcases hc with rfl | rfl <;> simp only [Cell.tdim] at hm <;> interval_cases m <;> rfl
    rw [axis, this]
  let lam : ℕ → ℝ := fun i => match i with
    | 0 => 1 - ∑ m ∈ Finset.range c.tdim, t m
    | m + 1 => t m
  have hlam : ∑ i ∈ Finset.range c.nverts, lam i = 1 := by rw [hn, Finset.sum_range_succ']; simp [lam]
  have hy : ∀ i < c.tdim, y i = ∑ x ∈ Finset.range c.nverts, lam x * v x i := by
    intro i hi
    have e := ht i hi
    rw [Finset.sum_congr rfl fun m hm => by rw [hax m (Finset.mem_range.1 hm)]] at e
    rw [hn, Finset.sum_range_succ']
    simp only [lam]
    simp only [psub, mul_sub, Finset.sum_sub_distrib] at e
    rw [sub_mul, Finset.sum_mul]
    linarith
  rw [eval_congr_P (hu.2 i j) hy]
  have T := regge_trace hc v k (Finset.range c.nverts) (fun i hi => Finset.mem_range.1 hi) u hu (fun d hd _ => hz d hd) lam hlam
  refine form_zero hv (fun m hm l hl => ?_) hu.1 i j
  rw [hax m hm, hax l hl]
  exact T 0 (by simp [hn]) (m + 1) (by simp [hn]; omega) 0 (by simp [hn]) (l + 1) (by simp [hn]; omega)

/-- **C127.** The point variant of the Regge element on triangles and tetrahedra: at every order the element can be created on
every non-degenerate cell, its basis functions span the symmetric matrices of polynomials, the functionals determine these,
and the functionals of an entity and its boundary determine the tangential components on the entity. -/
theorem regge_created {c : Cell} (hc : Simp c) (v : ℕ → ℕ → ℝ) (hv : NonDegenerate c v) (k : ℕ) :
    Created (reggeElement c v k) (SymSpace c.tdim k) (symCount c.tdim k) (TangentialTrace c v (SymSpace c.tdim k)) := by
  obtain ⟨l, h1, h2, h3, h4⟩ := regge_poly hc k
  obtain ⟨h5, fs, h6, h7, h8⟩ := ciarlet_basis (basis := l) (dofs := reggeAll c v k) (by rw [regge_length hc, h2]) h3
    fun u hu hz => regge_zero hc v hv ((h4 u).1 hu) hz
  refine ⟨l, reggeAll c v k, fs, ?_, h6, regge_length hc v k, by rw [h8, h2], fun u => by rw [h7, h4], fun u hu hz => regge_zero hc v hv hu hz,
    regge_trace hc v k⟩
  rw [reggeElement, h1, reggePoints_eq hc]
  exact h5

/-- **C128.** Two cells share an entity, with any numbering of its vertices in either cell.  If functions of the two spaces have
the same values for the functionals that the two cells have in common on the closure of the entity, then their tangential
components on the entity are equal. -/
theorem regge_conforming {c : Cell} (hc : Simp c) (v v' : ℕ → ℕ → ℝ) (k : ℕ) {l l' : List (Dof ℝ (MField c.tdim))}
    (hl : reggePoints c v k = some l) (hl' : reggePoints c v' k = some l') (S : Finset ℕ) (hS : ∀ i ∈ S, i < c.nverts)
    (σ : ℕ → ℕ) (hσ : Set.InjOn σ S) (hσ' : ∀ i ∈ S, σ i < c.nverts) (hv : ∀ i ∈ S, v' (σ i) = v i)
    {u u' : MField c.tdim} (hu : SymSpace c.tdim k u) (hu' : SymSpace c.tdim k u')
    (h : ∀ d ∈ l, ∀ d' ∈ l', (∀ i ∈ vertsOf c d.entity, i ∈ S) → (∀ i ∈ vertsOf c d'.entity, i ∈ S.image σ) →
      d.eval = d'.eval → d.eval u = d'.eval u')
    (lam : ℕ → ℝ) (hlam : ∑ i ∈ S, lam i = 1) {a b a' b' : ℕ} (ha : a ∈ S) (hb : b ∈ S) (ha' : a' ∈ S) (hb' : b' ∈ S) :
    formAt u (fun j => ∑ i ∈ S, lam i * v i j) (psub (v b) (v a)) (psub (v b') (v a')) =
      formAt u' (fun j => ∑ i ∈ S, lam i * v i j) (psub (v b) (v a)) (psub (v b') (v a')) := by
  classical
  obtain rfl : reggeAll c v k = l := Option.some.inj ((reggePoints_eq hc v k).symm.trans hl)
  obtain rfl : reggeAll c v' k = l' := Option.some.inj ((reggePoints_eq hc v' k).symm.trans hl')
  have hsub : SymSpace c.tdim k (u - u') := by
    refine ⟨fun i j => ?_, fun i j => Submodule.sub_mem _ (hu.2 i j) (hu'.2 i j)⟩
    show u i j - u' i j = u j i - u' j i
    rw [hu.1, hu'.1]
  have := regge_trace hc v k S hS (u - u') hsub (fun d hd hds => ?_) lam hlam a ha b hb a' ha' b' hb'
  · rw [← innerForm_apply, map_sub, innerForm_apply, innerForm_apply] at this
    exact sub_eq_zero.1 this
  obtain ⟨β, x, y, hβ, hent, hxy, hx, hy, hev⟩ := regge_form hc v k hd
  have hβ0 : ∀ i, i ∉ S → β i = 0 := fun i hi => by
    by_contra hne
    exact hi (hds i ((hent i).1 hne))
  have hxS : x ∈ S := by by_contra hn; exact hx (hβ0 x hn)
  have hyS : y ∈ S := by by_contra hn; exact hy (hβ0 y hn)
  let β' : ℕ → ℕ := fun x => ∑ i ∈ S with σ i = x, β i
  have hβ' : ∀ i ∈ S, β' (σ i) = β i := by
    intro i hi
    have : S.filter (fun j => σ j = σ i) = {i} := by
      ext j
      simp only [Finset.mem_filter, Finset.mem_singleton]
      exact ⟨fun ⟨a, b⟩ => hσ a hi b, by rintro rfl; exact ⟨hi, rfl⟩⟩
    simp only [β', this, Finset.sum_singleton]
  have hβ'0 : ∀ x, x ∉ S.image σ → β' x = 0 := by
    intro x hx
    refine Finset.sum_eq_zero fun i hi => ?_
    rw [Finset.mem_filter] at hi
    exact absurd (Finset.mem_image.2 ⟨i, hi⟩) hx
  have hext : ∀ {M : Type} [AddCommMonoid M] (f : ℕ → M), (∀ x ∉ S.image σ, f x = 0) →
      ∑ x ∈ Finset.range c.nverts, f x = ∑ i ∈ S, f (σ i) := by
    intro M _ f hf
    rw [← Finset.sum_image hσ]
    refine (Finset.sum_subset (fun x hx => ?_) fun x _ hx => hf x hx).symm
    obtain ⟨i, hi, rfl⟩ := Finset.mem_image.1 hx
    exact Finset.mem_range.2 (hσ' i hi)
  have hext' : ∀ {M : Type} [AddCommMonoid M] (f : ℕ → M), (∀ x ∉ S, f x = 0) →
      ∑ x ∈ Finset.range c.nverts, f x = ∑ i ∈ S, f i := fun f hf =>
    (Finset.sum_subset (fun x hx => Finset.mem_range.2 (hS x hx)) fun x _ hx => hf x hx).symm
  obtain ⟨d', hd', hent', hev'⟩ := regge_cover hc v' k (β := β') (a := σ x) (b := σ y) (by
    rw [hext β' hβ'0, Finset.sum_congr rfl hβ', ← hext' β hβ0, hβ]) (hσ' x hxS) (hσ' y hyS) (fun e => hxy (hσ hxS hyS e))
    (by rw [hβ' x hxS]; exact hx) (by rw [hβ' y hyS]; exact hy)
  have hpt : weighted c v' k β' = weighted c v k β := by
    funext j
    unfold weighted
    rw [hext _ (fun x hx => by simp [hβ'0 x hx]), hext' _ (fun x hx => by simp [hβ0 x hx])]
    refine Finset.sum_congr rfl fun i hi => ?_
    rw [hβ' i hi, hv i hi]
  have hee : d.eval = d'.eval := by
    refine LinearMap.ext fun w => ?_
    rw [hev, hev', hpt, hv x hxS, hv y hyS]
  rw [map_sub, h d hd d' hd' hds (fun i hi => ?_) hee, hee, sub_self]
  by_contra hn
  exact ((hent' i).1 hi).2 (hβ'0 i hn)

/-- Order 2 on the default tetrahedron: 60 functionals. -/
example : Created (reggeElement .tetrahedron (refVertex .tetrahedron) 2) (SymSpace 3 2) 60
    (TangentialTrace .tetrahedron (refVertex .tetrahedron) (SymSpace 3 2)) :=
  regge_created (Or.inr rfl) _ (nonDegenerate_ref (by simp [Simplex])) 2

end Verif.Matrices
