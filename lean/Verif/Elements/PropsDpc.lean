import Verif.Elements.PropsQ
/-!
# DPC elements

C57, C58 for `DPC` on quadrilaterals and hexahedra (symfem/elements/dpc.py:28-69).
-/

namespace Verif.Elements
open Verif.References Verif.Quadrature Verif.Polysets Verif.FiniteElement
open MvPolynomial

/-- Points of the default cells have the coordinates they are given by. -/
theorem tensor_point {c : Cell} (hc : Tensor c) (cs : List ℝ) (hl : cs.length = c.tdim) :
    entityPoint c (refVertex c) cs = fun j => cs.getD j 0 := by
  have key : ∀ c ∈ [Cell.interval, .quadrilateral, .hexahedron], ∀ j < 3, (refVertex c 0 j : ℚ) = 0 ∧
      ∀ m < c.tdim, (refVertex c ((axisVertices c).getD m 0) j : ℚ) = if m = j then 1 else 0 := by decide +kernel
  funext j
  unfold entityPoint
  by_cases hj : j < 3
  · obtain ⟨h0, h1⟩ := key c (by rcases hc with rfl | rfl | rfl <;> simp) j hj
    have : ∀ m ∈ Finset.range cs.length, axis c (refVertex c : ℕ → ℕ → ℝ) m j * cs.getD m 0 =
        if m = j then cs.getD j 0 else 0 := by
      intro m hm
      rw [Finset.mem_range, hl] at hm
      simp only [axis, psub]
      rw [refVertex_cast, refVertex_cast, h0, h1 m hm]
      split_ifs with h
      · simp [h]
      · simp
    rw [Finset.sum_congr rfl this, refVertex_cast, h0, Finset.sum_ite_eq']
    split_ifs with h
    · simp
    · rw [List.getD_eq_default (hn := by simpa using h)]; simp
  · rw [refVertex_ge _ _ _ (by omega), List.getD_eq_default (hn := by have := hc.tdim_le; omega), zero_add]
    refine Finset.sum_eq_zero fun m _ => ?_
    simp only [axis, psub]
    rw [refVertex_ge _ _ _ (by omega), refVertex_ge _ _ _ (by omega)]
    simp

theorem Tensor.axes {c : Cell} (hc : Tensor c) : (axisVertices c).length = c.tdim := by
  rcases hc with rfl | rfl | rfl <;> rfl

/-- The evaluations in closed form. -/
theorem dpcDofs_eq {c : Cell} (hc : Tensor c) {k : ℕ} (hk : 0 < k) :
    dpcDofs c (refVertex c) k = some (((product (List.range (k + 1)) c.tdim).filter fun i => decide (i.sum ≤ k)).map
      fun i => ⟨fun j => (i.reverse.map fun j : ℕ => (j : ℝ) / k).getD j 0, (c.tdim, 0)⟩) := by
  unfold dpcDofs
  rw [if_neg hk.ne']
  refine mapM_some_of _ _ _ fun i hi => ?_
  have hl : i.length = c.tdim := (mem_product.1 (List.mem_filter.1 hi).1).1
  rw [getPoint_eq _ _ _ (by simp [hl, hc.axes]), tensor_point hc _ (by simp [hl])]
  rfl

/-- The polynomials of degree at most `k` in the first `d` variables. -/
def PSet (d k : ℕ) : Set (ℕ →₀ ℕ) := {t | t.degree ≤ k ∧ ∀ i, d ≤ i → t i = 0}

theorem PSet_lower (d k : ℕ) : IsLowerSet (PSet d k) := fun _ _ hab ha =>
  ⟨(Finsupp.degree_mono hab).trans ha.1, fun i hi => Nat.le_zero.1 ((hab i).trans (ha.2 i hi).le)⟩

theorem degree_of_lt {d : ℕ} {t : ℕ →₀ ℕ} (h : ∀ i, d ≤ i → t i = 0) : t.degree = ∑ i ∈ Finset.range d, t i := by
  rw [Finsupp.degree_apply]
  refine Finset.sum_subset (fun i hi => ?_) fun i _ hi => Finsupp.notMem_support_iff.1 hi
  rw [Finset.mem_range]
  by_contra hc
  exact Finsupp.mem_support_iff.1 hi (h i (by omega))

/-- **C58** A polynomial of the space that vanishes at all DOF points is zero. -/
theorem dpc_unisolvent {c : Cell} (hc : Tensor c) {k : ℕ} (hk : 0 < k) {l : List PointDof}
    (hl : dpcDofs c (refVertex c) k = some l) (p : MvPolynomial ℕ ℝ) (hp : ∀ t ∈ p.support, t ∈ PSet c.tdim k)
    (h : ∀ d ∈ l, eval d.point p = 0) : p = 0 := by
  rw [dpcDofs_eq hc hk] at hl
  cases hl
  have hk' : (k : ℝ) ≠ 0 := by exact_mod_cast hk.ne'
  refine eq_zero_of_lower' _ _ (PSet_lower c.tdim k) hp (fun _ a => (a : ℝ) / k) (fun t _ i a _ b _ hab => ?_)
    fun t ht => ?_
  · have := (div_left_inj' hk').1 hab
    exact_mod_cast this
  · have hi : ((List.range c.tdim).map t).reverse ∈ (product (List.range (k + 1)) c.tdim).filter fun i =>
        decide (i.sum ≤ k) := by
      rw [List.mem_filter, mem_product]
      have hsum : ((List.range c.tdim).map t).reverse.sum = t.degree := by
        rw [List.sum_reverse, degree_of_lt ht.2, ← List.toFinset_range, List.sum_toFinset _ List.nodup_range]
      refine ⟨⟨by simp, fun a ha => ?_⟩, by rw [hsum]; simpa using ht.1⟩
      have : a ≤ ((List.range c.tdim).map t).reverse.sum := List.le_sum_of_mem ha
      rw [hsum] at this
      have := ht.1
      rw [List.mem_range]
      omega
    have := h _ (List.mem_map_of_mem hi)
    rw [← this]
    congr 2
    funext j
    show (t j : ℝ) / k = (List.map (fun j : ℕ => (j : ℝ) / k) ((List.range c.tdim).map t).reverse.reverse).getD j 0
    rw [List.reverse_reverse, List.map_map]
    by_cases hj : j < c.tdim
    · rw [List.getD_eq_getElem?_getD, List.getElem?_map, List.getElem?_range hj]
      rfl
    · rw [List.getD_eq_default (hn := by simpa using hj), ht.2 j (by omega)]
      simp

theorem sum_choose_add (s d : ℕ) : ∑ j ∈ Finset.range (s + 1), (j + d).choose d = (s + d + 1).choose (d + 1) := by
  induction s with
  | zero => simp
  | succ s ih =>
    rw [Finset.sum_range_succ, ih, show s + 1 + d + 1 = (s + d + 1) + 1 by omega,
      Nat.choose_succ_succ (s + d + 1) d, show s + 1 + d = s + d + 1 by omega]
    exact Nat.add_comm _ _

/-- The number of tuples with sum at most `s`. -/
theorem length_filter_le (M d s : ℕ) (hs : s < M) :
    ((product (List.range M) d).filter fun i => decide (i.sum ≤ s)).length = (s + d).choose d := by
  induction d generalizing s with
  | zero => simp [product]
  | succ d ih =>
    have e : ∀ i ∈ List.range M, (((product (List.range M) d).map fun t => i :: t).filter
        fun i => decide (i.sum ≤ s)).length = if i ≤ s then (s - i + d).choose d else 0 := by
      intro i _
      rw [List.filter_map, List.length_map]
      split_ifs with h
      · rw [← ih (s - i) (by omega)]
        congr 1
        refine List.filter_congr fun t _ => ?_
        rw [Function.comp_apply]
        refine decide_eq_decide.2 ?_
        rw [List.sum_cons]
        omega
      · rw [List.length_eq_zero_iff, List.filter_eq_nil_iff]
        intro t _
        rw [Function.comp_apply, decide_eq_true_eq, List.sum_cons]
        omega
    rw [product, List.filter_flatMap, List.length_flatMap, List.map_congr_left e, ← Nat.add_assoc, ← sum_choose_add,
      ← Finset.sum_range_reflect, ← List.sum_toFinset _ List.nodup_range, List.toFinset_range]
    symm
    rw [Finset.sum_congr rfl (g := fun x => if x ≤ s then (s - x + d).choose d else 0)]
    · refine Finset.sum_subset (by intro x hx; simp at hx ⊢; omega) fun x _ hx => ?_
      rw [if_neg (by simp at hx; omega)]
    · intro x hx
      have := Finset.mem_range.1 hx
      rw [if_pos (by omega)]
      congr 2

/-- **C57** A DPC element has as many DOFs as its space has dimensions. -/
theorem dpc_count {c : Cell} (hc : Tensor c) (k : ℕ) :
    ∃ l, dpcDofs c (refVertex c) k = some l ∧ l.length = (k + c.tdim).choose c.tdim := by
  rcases Nat.eq_zero_or_pos k with rfl | hk
  · unfold dpcDofs
    rw [if_pos rfl, getPoint_eq _ _ _ (by rcases hc with rfl | rfl | rfl <;> rfl)]
    exact ⟨_, rfl, by simp⟩
  · refine ⟨_, dpcDofs_eq hc hk, ?_⟩
    rw [List.length_map]
    exact length_filter_le _ _ _ (by omega)

/-- `DPC(reference, order)` on a quadrilateral or hexahedron (symfem/elements/dpc.py:28-69). -/
noncomputable def dpcElement (c : Cell) (v : ℕ → ℕ → ℝ) (k : ℕ) : Option (Element ℝ (MvPolynomial ℕ ℝ)) :=
  (dpcDofs c v k).bind fun dofs => (polySet c.tdim k).bind fun poly =>
    ciarlet (poly.map (denoteMono ℝ)) (dofs.map PointDof.functional)

/-- **C58** A DPC element can be created, and has basis functions, at every order. -/
theorem dpc_created {c : Cell} (hc : Tensor c) (k : ℕ) :
    ∃ e, dpcElement c (refVertex c) k = some e ∧ (getBasis e).isSome := by
  obtain ⟨l, hl, hn⟩ := dpc_count hc k
  obtain ⟨poly, hp, hnd, hmem⟩ := polySet_spec c.tdim (by rcases hc with rfl | rfl | rfl <;> simp [Cell.tdim]) k
  have hlen : (l.map PointDof.functional).length = (poly.map (denoteMono ℝ)).length := by
    rw [List.length_map, List.length_map, hn, polySet_length _ _ _ hp]
  refine ⟨.ciarlet (poly.map (denoteMono ℝ)) (l.map PointDof.functional), ?_, ?_⟩
  · simp only [dpcElement, hl, hp, Option.bind_some, ciarlet, if_pos hlen]
  · refine getBasis_isSome hlen ((scalar_sets_independent ℝ).1 _ _ _ hp) fun p hps hz => ?_
    obtain ⟨hd, hvars⟩ := poly_span hp hps
    have hz' : ∀ d ∈ l, eval d.point p = 0 := fun d hd => by
      rw [← eval_functional]
      exact hz _ (List.mem_map_of_mem hd)
    rcases Nat.eq_zero_or_pos k with rfl | hk
    · have hC := totalDegree_eq_zero_iff_eq_C.1 (Nat.le_zero.1 hd)
      obtain ⟨d, hd⟩ : ∃ d, d ∈ l := List.exists_mem_of_ne_nil l (by rintro rfl; simp at hn)
      have := hz' d hd
      rw [hC, eval_C] at this
      rw [hC, this, map_zero]
    · refine dpc_unisolvent hc hk hl p (fun t ht => ⟨?_, fun i hi => ?_⟩) hz'
      · exact (le_totalDegree ht).trans hd
      · by_contra hne
        have := hvars i ((mem_vars_iff_mem_support i).2 ⟨t, ht, Finsupp.mem_support_iff.2 hne⟩)
        omega

example (k : ℕ) : ∃ e, dpcElement .quadrilateral (refVertex .quadrilateral) k = some e ∧ (getBasis e).isSome :=
  dpc_created (Or.inr (Or.inl rfl)) k

end Verif.Elements
