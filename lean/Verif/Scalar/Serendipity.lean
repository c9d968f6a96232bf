import Verif.Scalar.Trace
/-!
# Serendipity elements
-/

namespace Verif.Scalar
open Verif.References Verif.Moments Verif.Functionals Verif.Elements Verif.FiniteElement Verif.Polysets Verif.Orthogonal
open Verif.Families
open MvPolynomial

/-! ### The number of polynomials -/

/-- The exponents of superlinear degree at most `k`. -/
def serList : ℕ → ℕ → List Mono
  | 0, _ => [[]]
  | d + 1, k => (serList d k).map (0 :: ·) ++ ((serList d k).map (1 :: ·) ++
      (List.range (k - 1)).flatMap fun n : ℕ => (serList d (k - (n + 2))).map ((n + 2) :: ·))

theorem superlinear_cons (a : ℕ) (m : Mono) : superlinearDegree (a :: m) = (if a = 1 then 0 else a) + superlinearDegree m := by
  rw [superlinear_eq, superlinear_eq, List.map_cons, List.sum_cons]

theorem mem_serList {d k : ℕ} {m : Mono} : m ∈ serList d k ↔ m.length = d ∧ superlinearDegree m ≤ k := by
  induction d generalizing k m with
  | zero =>
    rw [serList, List.mem_singleton, List.length_eq_zero_iff]
    constructor
    · rintro rfl; exact ⟨rfl, Nat.zero_le _⟩
    · exact fun h => h.1
  | succ d ih =>
    simp only [serList, List.mem_append, List.mem_map, List.mem_flatMap, List.mem_range, ih]
    constructor
    · rintro (⟨t, ⟨h1, h2⟩, rfl⟩ | ⟨t, ⟨h1, h2⟩, rfl⟩ | ⟨n, hn, t, ⟨h1, h2⟩, rfl⟩)
      · rw [superlinear_cons]; simp [h1, h2]
      · rw [superlinear_cons]; simp [h1, h2]
      · rw [superlinear_cons, if_neg (by omega), List.length_cons]; omega
    · rintro ⟨h1, h2⟩
      obtain ⟨a, t, rfl⟩ : ∃ a t, m = a :: t := List.exists_cons_of_length_eq_add_one h1
      rw [superlinear_cons] at h2
      rw [List.length_cons] at h1
      rcases a with _ | _ | n
      · exact Or.inl ⟨t, ⟨by omega, by simpa using h2⟩, rfl⟩
      · exact Or.inr (Or.inl ⟨t, ⟨by omega, by simpa using h2⟩, rfl⟩)
      · rw [if_neg (by omega)] at h2
        exact Or.inr (Or.inr ⟨n, by omega, t, ⟨by omega, by omega⟩, rfl⟩)

theorem nodup_serList (d k : ℕ) : (serList d k).Nodup := by
  induction d generalizing k with
  | zero => simp [serList]
  | succ d ih =>
    have hm : ∀ (a k : ℕ), ((serList d k).map (a :: ·)).Nodup := fun a k =>
      (ih k).map fun _ _ h => (List.cons.inj h).2
    rw [serList, List.nodup_append, List.nodup_append]
    refine ⟨hm 0 k, ⟨hm 1 k, ?_, ?_⟩, ?_⟩
    · rw [List.nodup_flatMap]
      refine ⟨fun n _ => hm _ _, ?_⟩
      refine List.nodup_range.pairwise_of_forall_ne ?_ |>.imp fun h => h
      intro a _ b _ hab x hx hy
      obtain ⟨t, -, rfl⟩ := List.mem_map.1 hx
      obtain ⟨t', -, h⟩ := List.mem_map.1 hy
      have := (List.cons.inj h).1
      omega
    · intro a ha b hb hab
      subst hab
      obtain ⟨t, -, rfl⟩ := List.mem_map.1 ha
      obtain ⟨n, -, hb⟩ := List.mem_flatMap.1 hb
      obtain ⟨t', -, h⟩ := List.mem_map.1 hb
      have := (List.cons.inj h).1
      omega
    · intro a ha b hb hab
      subst hab
      obtain ⟨t, -, rfl⟩ := List.mem_map.1 ha
      rcases List.mem_append.1 hb with hb | hb
      · obtain ⟨t', -, h⟩ := List.mem_map.1 hb
        have := (List.cons.inj h).1
        omega
      · obtain ⟨n, -, hb⟩ := List.mem_flatMap.1 hb
        obtain ⟨t', -, h⟩ := List.mem_map.1 hb
        have := (List.cons.inj h).1
        omega

theorem serList_succ (d k : ℕ) : (serList (d + 1) k).length =
    2 * (serList d k).length + ∑ i ∈ Finset.range (k - 1), (serList d i).length := by
  rw [serList, List.length_append, List.length_append, List.length_map, List.length_map, List.length_flatMap, ← Finset.sum_range_reflect]
  have : ((List.range (k - 1)).map fun n : ℕ => ((serList d (k - (n + 2))).map ((n + 2) :: ·)).length).sum =
      ∑ i ∈ Finset.range (k - 1), (serList d (k - 1 - 1 - i)).length := by
    rw [Finset.sum_range, ← List.sum_ofFn, List.ofFn_eq_map, ← List.map_coe_finRange_eq_range, List.map_map]
    congr 2
    funext n
    rw [Function.comp_apply, List.length_map]
    congr 2
    omega
  rw [this]
  ring

theorem sum_pred (m : ℕ) : ∑ i ∈ Finset.range m, (i - 1) = (m - 1).choose 2 := by
  induction m with
  | zero => rfl
  | succ m ih =>
    rw [Finset.sum_range_succ, ih]
    rcases m with _ | m
    · rfl
    · simp only [Nat.add_one_sub_one]
      rw [Nat.choose_succ_succ' m 1, Nat.choose_one_right]
      exact Nat.add_comm _ _

theorem sum_choose (m : ℕ) : ∑ i ∈ Finset.range m, (i - 2).choose 2 = (m - 2).choose 3 := by
  induction m with
  | zero => rfl
  | succ m ih =>
    rw [Finset.sum_range_succ, ih]
    rcases m with _ | _ | m
    · rfl
    · rfl
    · rw [show m + 1 + 1 - 2 = m by omega, show m + 1 + 1 + 1 - 2 = m + 1 by omega, Nat.choose_succ_succ' m 2]
      exact Nat.add_comm _ _

/-- The number of functionals: one for each vertex, and the moments. -/
def serCount (c : Cell) (k : ℕ) : ℕ :=
  entityCount c 0 + entityCount c 1 * (k - 1) + entityCount c 2 * (k - 2).choose 2 + entityCount c 3 * (k - 3).choose 3

theorem serList_length {c : Cell} (hc : Tensor c) (k : ℕ) : (serList c.tdim k).length = serCount c k := by
  have h0 : ∀ k, (serList 0 k).length = 1 := fun _ => rfl
  have h1 : ∀ k, (serList 1 k).length = 2 + (k - 1) := fun k => by rw [serList_succ]; simp [h0]
  have h2 : ∀ k, (serList 2 k).length = 4 + 4 * (k - 1) + (k - 2).choose 2 := fun k => by
    rw [serList_succ]
    simp only [h1, Finset.sum_add_distrib, sum_pred]
    simp only [Finset.sum_const, Finset.card_range, smul_eq_mul, Nat.sub_sub, Nat.reduceAdd]
    omega
  have h3 : ∀ k, (serList 3 k).length = 8 + 12 * (k - 1) + 6 * (k - 2).choose 2 + (k - 3).choose 3 := fun k => by
    rw [serList_succ]
    simp only [h2, Finset.sum_add_distrib, ← Finset.mul_sum, sum_pred, sum_choose]
    simp only [Finset.sum_const, Finset.card_range, smul_eq_mul, Nat.sub_sub, Nat.reduceAdd]
    omega
  rcases hc with rfl | rfl | rfl
  · refine (h1 k).trans ?_
    show _ = 2 + 1 * (k - 1) + 0 * _ + 0 * _
    omega
  · refine (h2 k).trans ?_
    show _ = 4 + 4 * (k - 1) + 1 * _ + 0 * _
    omega
  · refine (h3 k).trans ?_
    show _ = 8 + 12 * (k - 1) + 6 * _ + 1 * _
    omega

theorem ser_length {c : Cell} (hc : Tensor c) (k : ℕ) {l : List Mono} (hl : polySet c.tdim k = some l) :
    (l ++ serSet c.tdim k).length = serCount c k := by
  obtain ⟨l', h1, h2, h3⟩ := polySet_serSet_spec c.tdim k (tensor_dims hc)
  obtain rfl := Option.some.inj (hl.symm.trans h1)
  rw [← serList_length hc]
  refine List.Perm.length_eq ((List.perm_ext_iff_of_nodup h2 (nodup_serList _ _)).2 fun m => ?_)
  rw [h3, mem_serList]

/-! ### The functionals -/

/-- The moments on the entities of one dimension. -/
def slotMoments (c : Cell) (dim : ℕ) (xs : List (MvPolynomial ℕ ℝ)) : List (MomentDof Fun) :=
  (List.range (entityCount c dim)).flatMap fun i => xs.map fun x => ⟨"IntegralMoment", .scalar x, (dim, i), none⟩

theorem slot_tensor {classes : String → ElementClass Fun} {c : Cell} (hc : Tensor c) {dim : ℕ} (h1 : 1 ≤ dim) (h3 : dim ≤ 3)
    {items : List Item} {d : Data} (hp : parse items = some d) (hm : d.moment = "IntegralMoment") (hn : d.mapping = none)
    {xs : List (MvPolynomial ℕ ℝ)} (hx : subFuns classes d (cubeCell dim) = some (xs.map .scalar)) :
    slotDofs classes c dim (some (.single items)) = some (slotMoments c dim xs) := by
  by_cases hd : dim ≤ c.tdim
  · have ht : c.subEntityTypes[dim]? = some (.all (cubeCell dim)) := by
      rcases hc with rfl | rfl | rfl <;> simp only [Cell.tdim] at hd <;> interval_cases dim <;> rfl
    rw [slot_uniform h1 h3 hd ht hp hx, hm, hn, slotMoments]
    simp only [List.map_map]
    rfl
  · rcases hc with rfl | rfl | rfl
    · have hd' : ¬ dim ≤ 1 := hd
      interval_cases dim
      · rfl
      · rfl
    · have hd' : ¬ dim ≤ 2 := hd
      interval_cases dim
      rfl
    · exact absurd h3 hd

theorem dpc_count_eq (k e : ℕ) (he : 1 ≤ e) : (if (k : ℤ) - 2 * e < 0 then 0 else ((k : ℤ) - 2 * e).toNat.choose 0 * (((k : ℤ) - 2 * e).toNat + e).choose e) = (k - e).choose e := by
  split_ifs with h
  · rw [Nat.choose_eq_zero_of_lt]; omega
  · rw [Nat.choose_zero_right, one_mul]
    congr 1
    omega

theorem slotMoments_length (c : Cell) (dim : ℕ) (xs : List (MvPolynomial ℕ ℝ)) :
    (slotMoments c dim xs).length = entityCount c dim * xs.length := by
  simp [slotMoments]

theorem moment1_exists {c : Cell} (hc : Tensor c) {dim i : ℕ} (h1 : 1 ≤ dim) (hi : i < entityCount c dim) (x : MvPolynomial ℕ ℝ) :
    ∃ d, moment1Dof c ⟨"IntegralMoment", .scalar x, (dim, i), none⟩ = some d ∧ d.entity = (dim, i) ∧
      ∃ J, J ≠ 0 ∧ ∀ f, d.eval f = J * pairing1 (entityDomain c (dim, i)).cell (pull (entityDomain c (dim, i)) f) x := by
  have hd : dim ≤ c.tdim := by
    by_contra hn
    rcases hc with rfl | rfl | rfl
    · have h2 : ¬ dim ≤ 1 := hn
      obtain ⟨n, rfl⟩ : ∃ n, dim = n + 2 := ⟨dim - 2, by omega⟩
      rcases n with _ | _ | n <;> exact absurd hi (Nat.not_lt_zero _)
    · have h2 : ¬ dim ≤ 2 := hn
      obtain ⟨n, rfl⟩ : ∃ n, dim = n + 3 := ⟨dim - 3, by omega⟩
      rcases n with _ | n <;> exact absurd hi (Nat.not_lt_zero _)
    · have h2 : ¬ dim ≤ 3 := hn
      obtain ⟨n, rfl⟩ : ∃ n, dim = n + 4 := ⟨dim - 4, by omega⟩
      exact absurd hi (Nat.not_lt_zero _)
  obtain ⟨σ, J, -, hJ, hj⟩ := entity_aligned hc h1 hd hi
  refine ⟨⟨11, (dim, i), some "identity", moment1Map (entityDomain c (dim, i)) J x⟩, ?_, rfl, J, hJ, fun f => moment1Map_eq _ _ _ _⟩
  have hj' : jacobian (entityDomain c (dim, i)).cell (entityDomain c (dim, i)).g (entityDomain c (dim, i)).v = some J := hj
  simp only [moment1Dof, if_true, hj', Option.map_some, Option.getD_none]

/-- **C110.** The values on an entity are determined by the functionals on the entity and on its boundary. -/
theorem ser_trace {c : Cell} (hc : Tensor c) {k : ℕ} {xs : ℕ → List (MvPolynomial ℕ ℝ)}
    (hx : ∀ dim, 1 ≤ dim → dim ≤ 3 → lspan (xs dim) = P dim ((k : ℤ) - 2 * dim))
    {dofs : List (Dof ℝ (MvPolynomial ℕ ℝ))} (hv : ∀ d ∈ vertexDofs c, d.functional ∈ dofs)
    (hm : ∀ dim, 1 ≤ dim → dim ≤ 3 → ∀ m ∈ slotMoments c dim (xs dim), ∃ d ∈ dofs, moment1Dof c m = some d) :
    C0Trace c (fun f => f ∈ Ser c.tdim k) dofs := by
  intro dim
  induction dim with
  | zero =>
    intro _ i hi f hf h z
    obtain ⟨h1, h2⟩ := vertex_entity hc
    have h0 : (entityDomain c (0, i)).param z = refVertex c i := by
      have h3 : ∀ j, (entityDomain c (0, i)).v 0 j = refVertex c i j := fun j => by
        show refVertex c ((entVerts c 0 i).getD 0 0) j = _
        rw [h2 i hi]; rfl
      funext j
      rw [Domain.param, entity_cell hc (Nat.zero_le _), h3]
      simp [cubeCell, Cell.tdim]
    rw [h0, ← eval_functional ⟨refVertex c i, (0, i)⟩]
    refine h _ (hv _ (List.mem_map.2 ⟨i, List.mem_range.2 (h1 ▸ hi), rfl⟩)) ?_
    exact List.Subset.refl _
  | succ dim ih =>
    intro hd i hi f hf h z
    have h3 : dim + 1 ≤ 3 := le_trans hd (by rcases hc with rfl | rfl | rfl <;> decide)
    have hcell := entity_cell hc (i := i) hd
    obtain ⟨σ, J, hA, -, -⟩ := entity_aligned hc (by omega) hd hi
    have ht : (cubeCell (dim + 1)).tdim = dim + 1 := cubeCell_tdim h3
    rw [← eval_pull]
    have : pull (entityDomain c (dim + 1, i)) f = 0 := by
      refine ser_zero (cubeCell_tensor (by omega : 1 ≤ dim + 1)) (k := k) ?_ ?_ ?_
      · have := Ser_pull hA hf
        rwa [hcell] at this
      · intro j hj z hz
        rw [ht] at hj
        obtain ⟨i', hi', hs, y, hy⟩ := entity_boundary hc hd hi hj hz
        rw [eval_pull, ← eval_congr_P (Ser_P hf) hy]
        exact ih (by omega) i' hi' f hf (fun d hdd hsub => h d hdd (List.Subset.trans hsub hs)) y
      · intro q hq
        rw [ht] at hq
        rw [← hx (dim + 1) (by omega) h3] at hq
        refine (Submodule.span_le (p := LinearMap.ker (pairing1 (cubeCell (dim + 1)) (pull (entityDomain c (dim + 1, i)) f)))).2
          (fun x hxx => ?_) hq
        obtain ⟨d, hd1, hd2⟩ := hm (dim + 1) (by omega) h3 ⟨"IntegralMoment", .scalar x, (dim + 1, i), none⟩ (by
          simp only [slotMoments, List.mem_flatMap, List.mem_range, List.mem_map]
          exact ⟨i, hi, x, hxx, rfl⟩)
        obtain ⟨d', e1, e2, J, hJ, e3⟩ := moment1_exists hc (by omega : 1 ≤ dim + 1) hi x
        obtain rfl := Option.some.inj (hd2.symm.trans e1)
        have h5 := h d hd1 (by rw [e2]; exact List.Subset.refl _)
        rw [e3, mul_eq_zero, hcell] at h5
        exact h5.resolve_left hJ
    rw [this, map_zero]

theorem cell_param1 {c : Cell} (hc : Tensor c) (z : ℕ → ℝ) {j : ℕ} (hj : j < c.tdim) : (entityDomain c (c.tdim, 0)).param z j = z j := by
  rcases hc with rfl | rfl | rfl
  · have hj' : j < 1 := hj
    obtain rfl : j = 0 := by omega
    have := congrFun (interval_param 1 (entityDomain .interval (1, 0)).v z) 0
    refine this.trans ?_
    rw [interval_cell_v, interval_cell_v]
    norm_num [refVertex, refVerts, coords]
  · exact box_param (Or.inl rfl) z hj
  · exact box_param (Or.inr rfl) z hj

/-- Functions that are determined on the cell are 0 if all functionals vanish. -/
theorem C0Trace.zero {c : Cell} (hc : Tensor c) {S : MvPolynomial ℕ ℝ → Prop} {dofs : List (Dof ℝ (MvPolynomial ℕ ℝ))}
    (h : C0Trace c S dofs) {k : ℤ} (hS : ∀ f, S f → f ∈ P c.tdim k) {f : MvPolynomial ℕ ℝ} (hf : S f)
    (h0 : ∀ d ∈ dofs, d.eval f = 0) : f = 0 := by
  apply MvPolynomial.funext
  intro z
  rw [map_zero, ← h c.tdim le_rfl 0 (by rw [(cell_verts hc).1]; omega) f hf (fun d hd _ => h0 d hd) z]
  exact eval_congr_P (hS f hf) fun j hj => (cell_param1 hc z hj).symm

/-- **C110.** Serendipity elements can be created on intervals, quadrilaterals and hexahedra at every order, their functions
are the polynomials of superlinear degree at most the order, they are determined by the functionals, and the values on an
entity are determined by the functionals on the entity and its boundary. -/
theorem serendipity_created {c : Cell} (hc : Tensor c) (k : ℕ) :
    Created (serendipityElement "equispaced" c k) (fun f => f ∈ Ser c.tdim k) (serCount c k)
      (C0Trace c fun f => f ∈ Ser c.tdim k) := by
  have hsub : ∀ dim : ℕ, ∃ xs : List (MvPolynomial ℕ ℝ), 1 ≤ dim → dim ≤ 3 →
      subFuns (fun _ => dpcClass) ⟨"IntegralMoment", "DPC", (k : ℤ) - 2 * dim, none, [("variant", "equispaced")]⟩ (cubeCell dim) =
        some (xs.map .scalar) ∧ lspan xs = P dim ((k : ℤ) - 2 * dim) ∧ xs.length = (k - dim).choose dim := by
    intro dim
    by_cases h : 1 ≤ dim ∧ dim ≤ 3
    · obtain ⟨fs, h1, h2, h3⟩ := sub_dpc (cubeCell_tensor h.1) (classes := fun _ => dpcClass) rfl "IntegralMoment"
        ((k : ℤ) - 2 * dim) none
      rw [cubeCell_tdim h.2] at h2 h3
      refine ⟨fs, fun _ _ => ⟨h1, h2, ?_⟩⟩
      rw [h3, ← dpc_count_eq k dim h.1, Nat.choose_zero_right, one_mul]
    · exact ⟨[], fun h1 h2 => absurd ⟨h1, h2⟩ h⟩
  choose xs hxs using hsub
  obtain ⟨s1, p1, n1⟩ := hxs 1 (by omega) (by omega)
  obtain ⟨s2, p2, n2⟩ := hxs 2 (by omega) (by omega)
  obtain ⟨s3, p3, n3⟩ := hxs 3 (by omega) (by omega)
  have hms : makeIntegralMomentDofs (fun _ => dpcClass) c
      { edges := some (.single [.cls "IntegralMoment", .cls "DPC", .int ((k : ℤ) - 2), .dict [("variant", "equispaced")]])
        faces := some (.single [.cls "IntegralMoment", .cls "DPC", .int ((k : ℤ) - 4), .dict [("variant", "equispaced")]])
        volumes := some (.single [.cls "IntegralMoment", .cls "DPC", .int ((k : ℤ) - 6), .dict [("variant", "equispaced")]]) } =
      some (slotMoments c 1 (xs 1) ++ (slotMoments c 2 (xs 2) ++ slotMoments c 3 (xs 3))) := by
    have e0 : ∀ dim : ℤ, slotDofs (fun _ => dpcClass) c dim none = some [] := fun _ => rfl
    have h1 : slotDofs (fun _ => dpcClass) c 1 _ = _ := slot_tensor hc (dim := 1) (by omega) (by omega)
      (items := [.cls "IntegralMoment", .cls "DPC", .int ((k : ℤ) - 2), .dict [("variant", "equispaced")]])
      (show _ = some ⟨"IntegralMoment", "DPC", (k : ℤ) - 2 * (1 : ℕ), none, [("variant", "equispaced")]⟩ from rfl) rfl rfl s1
    have h2 : slotDofs (fun _ => dpcClass) c 2 _ = _ := slot_tensor hc (dim := 2) (by omega) (by omega)
      (items := [.cls "IntegralMoment", .cls "DPC", .int ((k : ℤ) - 4), .dict [("variant", "equispaced")]])
      (show _ = some ⟨"IntegralMoment", "DPC", (k : ℤ) - 2 * (2 : ℕ), none, [("variant", "equispaced")]⟩ from rfl) rfl rfl s2
    have h3 : slotDofs (fun _ => dpcClass) c 3 _ = _ := slot_tensor hc (dim := 3) (by omega) (by omega)
      (items := [.cls "IntegralMoment", .cls "DPC", .int ((k : ℤ) - 6), .dict [("variant", "equispaced")]])
      (show _ = some ⟨"IntegralMoment", "DPC", (k : ℤ) - 2 * (3 : ℕ), none, [("variant", "equispaced")]⟩ from rfl) rfl rfl s3
    unfold makeIntegralMomentDofs slots
    simp only [List.mapM_cons, List.mapM_nil, e0, h1, h2, h3, Option.bind_eq_bind, Option.bind_some, Option.pure_def, Option.map_some,
      List.flatten_cons, List.flatten_nil, List.nil_append, List.append_nil]
  have hmem : ∀ dim, 1 ≤ dim → dim ≤ 3 → ∀ m ∈ slotMoments c dim (xs dim),
      m ∈ slotMoments c 1 (xs 1) ++ (slotMoments c 2 (xs 2) ++ slotMoments c 3 (xs 3)) := by
    intro dim h1 h3 m hm
    simp only [List.mem_append]
    interval_cases dim
    exacts [Or.inl hm, Or.inr (Or.inl hm), Or.inr (Or.inr hm)]
  obtain ⟨ds, hds⟩ := mapM_exists (f := moment1Dof c)
    (l := slotMoments c 1 (xs 1) ++ (slotMoments c 2 (xs 2) ++ slotMoments c 3 (xs 3))) (by
    intro m hm
    have key : ∀ dim, 1 ≤ dim → m ∈ slotMoments c dim (xs dim) → ∃ d, moment1Dof c m = some d := by
      intro dim h1 hm
      simp only [slotMoments, List.mem_flatMap, List.mem_range, List.mem_map] at hm
      obtain ⟨i, hi, x, -, rfl⟩ := hm
      obtain ⟨d, hd, -⟩ := moment1_exists hc h1 hi x
      exact ⟨d, hd⟩
    simp only [List.mem_append] at hm
    rcases hm with hm | hm | hm
    exacts [key 1 (by omega) hm, key 2 (by omega) hm, key 3 (by omega) hm])
  obtain ⟨poly, hp, hsp⟩ := ser_lspan (tensor_dims hc) k
  have htr : C0Trace c (fun f => f ∈ Ser c.tdim k) ((vertexDofs c).map PointDof.functional ++ ds) := by
    refine ser_trace hc (xs := xs) (fun dim h1 h3 => (hxs dim h1 h3).2.1)
      (fun d hd => List.mem_append_left _ (List.mem_map_of_mem hd)) fun dim h1 h3 m hm => ?_
    obtain ⟨d, hd1, hd2⟩ := forall₂_mem_right (mapM_forall hds) (hmem dim h1 h3 m hm)
    exact ⟨d, List.mem_append_right _ hd1, hd2⟩
  have hu : ∀ f, f ∈ Ser c.tdim k → (∀ d ∈ (vertexDofs c).map PointDof.functional ++ ds, d.eval f = 0) → f = 0 :=
    fun f hf h => htr.zero hc (fun f hf => Ser_P hf) hf h
  have hdl : ((vertexDofs c).map PointDof.functional ++ ds).length = serCount c k := by
    rw [List.length_append, List.length_map, vertexDofs, List.length_map, List.length_range, ← (vertex_entity hc).1,
      ← (mapM_forall hds).length_eq, List.length_append, List.length_append, slotMoments_length, slotMoments_length,
      slotMoments_length, n1, n2, n3, serCount, Nat.choose_one_right]
    omega
  have hpl := ser_length hc k hp
  obtain ⟨h1, fs, h2, h3, h4⟩ := ciarlet_basis (basis := (poly ++ serSet c.tdim k).map (denoteMono ℝ))
    (dofs := (vertexDofs c).map PointDof.functional ++ ds) (by rw [hdl, List.length_map, hpl])
    ((scalar_sets_independent ℝ).2.2.2.1 _ _ _ hp) fun p hps hz => hu p (by rwa [hsp] at hps) hz
  refine ⟨_, _, fs, ?_, h2, hdl, by rw [h4, List.length_map, hpl], fun v => by rw [h3, hsp], hu, htr⟩
  simp only [serendipityElement, hp, hms, hds, Option.bind_some, h1]

/-- The quadratic element on a quadrilateral has eight functions, which include `x y ^ 2` but not `x ^ 2 y ^ 2`. -/
example : serCount .quadrilateral 2 = 8 ∧ denoteMono ℝ [1, 2] ∈ Ser 2 2 ∧ denoteMono ℝ [2, 2] ∉ Ser 2 2 := by
  have key : ∀ a b : ℕ, a ≠ 0 → b ≠ 0 → (denoteMono ℝ [a, b] ∈ Ser 2 2 ↔ superlinearDegree [a, b] ≤ 2) := by
    intro a b ha hb
    rw [denoteMono, monoFrom_eq]
    show _ ∈ restrictSupport _ _ ↔ _
    rw [monomial_mem_restrictSupport]
    obtain ⟨m, hl, hs, he⟩ := mono_of (expo_lt [a, b])
    have : m = [a, b] := expo_inj hl he
    subst this
    rw [hs]
    simp only [one_ne_zero, or_false]
    exact ⟨fun h => h.1, fun h => ⟨h, expo_lt [a, b]⟩⟩
  refine ⟨rfl, (key 1 2 (by omega) (by omega)).2 (by decide), fun h => ?_⟩
  exact absurd ((key 2 2 (by omega) (by omega)).1 h) (by decide)

end Verif.Scalar
