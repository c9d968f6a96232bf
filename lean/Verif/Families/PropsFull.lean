import Verif.Families.PropsN1
/-!
# Elements with full polynomial spaces: `BDM` and `NedelecSecondKind`
-/

namespace Verif.Families
open Verif.References Verif.Moments Verif.Functionals Verif.Elements Verif.FiniteElement Verif.Polysets Verif.Orthogonal
open MvPolynomial

theorem lspan_nil {V : Type} [AddCommGroup V] [Module ℝ V] {v : V} : v ∈ lspan ([] : List V) ↔ v = 0 := by
  rw [lspan, show {v : V | v ∈ ([] : List V)} = ∅ by ext; simp, Submodule.span_empty, Submodule.mem_bot]

theorem rtSpace_neg {d : ℕ} {k : ℤ} (hk : k < 1) {v : Field d} : RTSpace d k v ↔ v = 0 := by
  constructor
  · rintro ⟨r, hr, hv⟩
    have h0 := P_neg (by omega) hr
    funext i
    have := P_neg (by omega) (hv i)
    rw [h0, mul_zero, sub_zero] at this
    exact this
  · rintro rfl
    exact ⟨0, Submodule.zero_mem _, fun i => by simpa using Submodule.zero_mem _⟩

theorem n1Space_neg {d : ℕ} (hd : d = 2 ∨ d = 3) {k : ℤ} (hk : k < 1) {v : Field d} : N1Space d k v ↔ v = 0 := by
  constructor
  · intro h
    rcases lt_or_eq_of_le (show k ≤ 0 by omega) with h0 | rfl
    · exact funext fun i => P_neg h0 (h.1 i)
    · have h1 : ∃ a, polySetVector d d (((0 : ℕ) : ℤ) - 1) = some a ∧ a = [] := by
        rcases hd with rfl | rfl <;> exact ⟨_, rfl, rfl⟩
      have h2 : ∃ b, hcurlSet d 0 = some b ∧ b = [] := by
        rcases hd with rfl | rfl <;> exact ⟨_, rfl, rfl⟩
      obtain ⟨a, ha, rfl⟩ := h1
      obtain ⟨b, hb, rfl⟩ := h2
      have := (n1_lspan hd 0 ha hb (v := v)).2 h
      exact lspan_nil.1 this
  · rintro rfl
    exact ⟨fun i => Submodule.zero_mem _, by simpa using Submodule.zero_mem _⟩

/-- The functions of a Raviart–Thomas sub-element. -/
theorem sub_rt {t : Cell} (ht : Simp t) (moment : String) (k : ℤ) (mapping : Option String) :
    ∃ fs, subFuns classes2 ⟨moment, "RaviartThomas", k, mapping, [("variant", "equispaced")]⟩ t = some (fs.map (.vector t.tdim)) ∧
      (∀ v, v ∈ lspan fs ↔ RTSpace t.tdim k v) ∧ fs.length = rtCount t k.toNat := by
  unfold subFuns
  by_cases hk : k < 1
  · refine ⟨[], if_pos hk, fun v => by rw [lspan_nil, rtSpace_neg hk], ?_⟩
    rw [Int.toNat_of_nonpos (by omega)]
    simp [rtCount]
  · obtain ⟨basis, dofs, fs, h1, h2, h3, h4, h5, -⟩ := rt_created ht (k := k.toNat) (by omega)
    refine ⟨fs, (if_neg hk).trans ?_, fun v => ?_, h4⟩
    · show vectorBasis (rtElement "equispaced" t k.toNat) = _
      rw [vectorBasis, h1, Option.bind_some, h2]
      rfl
    · rw [h5, Int.toNat_of_nonneg (by omega)]

/-- The functions of a Nédélec sub-element. -/
theorem sub_n1 {t : Cell} (ht : Simp t) (moment : String) (k : ℤ) (mapping : Option String) :
    ∃ fs, subFuns classes2 ⟨moment, "NedelecFirstKind", k, mapping, [("variant", "equispaced")]⟩ t = some (fs.map (.vector t.tdim)) ∧
      (∀ v, v ∈ lspan fs ↔ N1Space t.tdim k v) ∧ fs.length = n1Count t k.toNat := by
  unfold subFuns
  by_cases hk : k < 1
  · refine ⟨[], if_pos hk, fun v => by rw [lspan_nil, n1Space_neg ht.dims hk], ?_⟩
    rw [Int.toNat_of_nonpos (by omega)]
    simp [n1Count]
  · have : ∃ T, Created (n1Element "equispaced" t k.toNat) (N1Space t.tdim k.toNat) (n1Count t k.toNat) T := by
      rcases ht with rfl | rfl
      · exact ⟨_, n1_created2 (k := k.toNat) (by omega)⟩
      · exact ⟨_, n1_created3 (k := k.toNat) (by omega)⟩
    obtain ⟨T, basis, dofs, fs, h1, h2, h3, h4, h5, -⟩ := this
    refine ⟨fs, (if_neg hk).trans ?_, fun v => ?_, h4⟩
    · show vectorBasis (n1Element "equispaced" t k.toNat) = _
      rw [vectorBasis, h1, Option.bind_some, h2]
      rfl
    · rw [h5, Int.toNat_of_nonneg (by omega)]

/-- All vector polynomials of degree at most `k`. -/
def FullSpace (d : ℕ) (k : ℤ) (v : Field d) : Prop := ∀ i, v i ∈ P d k

theorem poly_vector {d : ℕ} (hd : d = 2 ∨ d = 3) (k : ℕ) : ∃ pl, polySetVector d d k = some pl ∧
    Independent ℝ (pl.map (denoteVec ℝ d)) ∧ (∀ v, v ∈ lspan (pl.map (denoteVec ℝ d)) ↔ FullSpace d k v) ∧
    pl.length = (k + d).choose d * d := by
  obtain ⟨pl, h1, h2⟩ := polySetVector_lspan (d := d) (by omega) d (k : ℤ)
  refine ⟨pl, h1, (vector_sets_independent ℝ d).1 _ _ _ h1, fun v => by rw [h2, mem_PV]; rfl, ?_⟩
  rw [polySetVector, Option.map_eq_some_iff] at h1
  obtain ⟨ps, hps, rfl⟩ := h1
  rw [vectorSet_length, polySet_length _ _ _ hps]

theorem n1_half (n : ℕ) : 2 * n1Count .tetrahedron n = n * (n + 2) * (n + 3) := by
  simp only [n1Count, reduceCtorEq, if_false]
  refine Nat.mul_div_cancel' ?_
  have h : 2 ∣ (n + 2) * (n + 3) := (Nat.even_mul_succ_self (n + 2)).two_dvd
  rw [mul_assoc]
  exact Dvd.dvd.mul_left h n

theorem rt_half (n : ℕ) : 2 * rtCount .tetrahedron n = n * (n + 1) * (n + 3) := by
  simp only [rtCount, reduceCtorEq, if_false]
  refine Nat.mul_div_cancel' ?_
  have h : 2 ∣ n * (n + 1) := (Nat.even_mul_succ_self n).two_dvd
  exact Dvd.dvd.mul_right h _

/-- **C86.** `BDM` elements on triangles and tetrahedra: at every order at least 1, the element can be created, its basis
functions span all vector polynomials, the functionals determine the functions, and the functionals of a facet determine
the normal component on that facet. -/
theorem bdm_created {c : Cell} (hc : Simp c) {k : ℕ} (hk : 1 ≤ k) :
    Created (bdmElement "equispaced" c k) (FullSpace c.tdim k) ((k + c.tdim).choose c.tdim * c.tdim)
      (fun dofs => NormalTrace c (FullSpace c.tdim k) dofs ∧ NormalConform c (FullSpace c.tdim k) dofs) := by
  obtain ⟨pl, hpoly, hind, hS, hpl⟩ := poly_vector hc.dims k
  obtain ⟨xs, hx, hxs, hxl⟩ := sub_lagrange (facetCell_simplex c) (classes := classes2) (by simp [classes2, classes1])
    "NormalIntegralMoment" (k : ℤ) none
  obtain ⟨ys, hy, hys, hyl⟩ := sub_n1 hc "IntegralMoment" ((k : ℤ) - 1) none
  rw [facetCell_tdim hc] at hxs
  have hlen : (c.tdim + 1) * xs.length + ys.length = pl.length := by
    obtain ⟨n, rfl⟩ := Nat.exists_eq_add_of_le' hk
    rw [if_neg (by omega), Int.toNat_natCast, facetCell_tdim hc] at hxl
    rw [show (((n + 1 : ℕ) : ℤ) - 1).toNat = n by omega] at hyl
    rw [hpl, hxl, hyl]
    rcases hc with rfl | rfl
    · have := choose_two (n + 1)
      simp only [n1Count, Cell.tdim, if_true, Nat.reduceAdd, Nat.reduceSub, Nat.choose_one_right]
      nlinarith
    · have := choose_two (n + 1)
      have h3 := choose_three (n + 1)
      have h4 := n1_half n
      simp only [Cell.tdim, Nat.reduceAdd, Nat.reduceSub]
      nlinarith
  rw [← hpl]
  refine hdiv_created hc hpoly hind hS (fun v hv => hv) (fun v hv i hi => ?_) rfl rfl hx hy rfl rfl hxs (fun v hv hn hp => ?_) hlen
  · have F := facet_facts hc hi
    have := comp_mem (entityDomain c (c.tdim - 1, i)) (facetNormal i) hv
    rwa [F.cell] at this
  · exact bdm_zero hc hv hn fun q hq => pairing_lspan hp ((hys q).2 hq)

/-- **C87.** `NedelecSecondKind` elements on triangles. -/
theorem n2_created2 {k : ℕ} (hk : 1 ≤ k) :
    Created (n2Element "equispaced" .triangle k) (FullSpace 2 k) ((k + 2).choose 2 * 2)
      (fun dofs => EdgeTrace .triangle (FullSpace 2 k) dofs ∧ EdgeConform .triangle (FullSpace 2 k) dofs) := by
  obtain ⟨pl, hpoly, hind, hS, hpl⟩ := poly_vector (Or.inl rfl : 2 = 2 ∨ 2 = 3) k
  obtain ⟨xs, hx, hxs, hxl⟩ := sub_lagrange (t := .interval) (by simp [Simplex]) (classes := classes2) (by simp [classes2, classes1])
    "TangentIntegralMoment" (k : ℤ) none
  obtain ⟨ys, hy, hys, hyl⟩ := sub_rt (t := .triangle) (Or.inl rfl) "IntegralMoment" ((k : ℤ) - 1) (some "covariant")
  have hlen : 3 * xs.length + ys.length = pl.length := by
    obtain ⟨n, rfl⟩ := Nat.exists_eq_add_of_le' hk
    rw [if_neg (by omega), Int.toNat_natCast] at hxl
    rw [show (((n + 1 : ℕ) : ℤ) - 1).toNat = n by omega] at hyl
    rw [hpl, hxl, hyl]
    have := choose_two (n + 1)
    simp only [rtCount, Cell.tdim, if_true, Nat.reduceAdd, Nat.choose_one_right]
    nlinarith
  rw [← hpl]
  refine hcurl2_created hpoly hind hS (fun v hv => hv) (fun v hv V => ?_) rfl rfl hx hy rfl rfl hxs (fun v hv hn hp => ?_) hlen
  · exact comp_mem ⟨.interval, 2, V⟩ _ hv
  · exact n2_zero2 hv hn fun q hq => pairing_lspan hp ((hys q).2 hq)

/-- **C87.** `NedelecSecondKind` elements on tetrahedra. -/
theorem n2_created3 {k : ℕ} (hk : 1 ≤ k) :
    Created (n2Element "equispaced" .tetrahedron k) (FullSpace 3 k) ((k + 3).choose 3 * 3)
      (fun dofs => EdgeTrace .tetrahedron (FullSpace 3 k) dofs ∧ FaceTrace (FullSpace 3 k) dofs ∧
        EdgeConform .tetrahedron (FullSpace 3 k) dofs ∧ FaceConform (FullSpace 3 k) dofs) := by
  obtain ⟨pl, hpoly, hind, hS, hpl⟩ := poly_vector (Or.inr rfl : 3 = 2 ∨ 3 = 3) k
  obtain ⟨xs, hx, hxs, hxl⟩ := sub_lagrange (t := .interval) (by simp [Simplex]) (classes := classes2) (by simp [classes2, classes1])
    "TangentIntegralMoment" (k : ℤ) none
  obtain ⟨ys, hy, hys, hyl⟩ := sub_rt (t := .triangle) (Or.inl rfl) "IntegralMoment" ((k : ℤ) - 1) (some "covariant")
  obtain ⟨zs, hz, hzs, hzl⟩ := sub_rt (t := .tetrahedron) (Or.inr rfl) "IntegralMoment" ((k : ℤ) - 2) (some "covariant")
  have hlen : 6 * xs.length + (4 * ys.length + zs.length) = pl.length := by
    obtain ⟨n, rfl⟩ := Nat.exists_eq_add_of_le' hk
    rw [if_neg (by omega), Int.toNat_natCast] at hxl
    rw [show (((n + 1 : ℕ) : ℤ) - 1).toNat = n by omega] at hyl
    rw [hpl, hxl, hyl, hzl]
    have h3 := choose_three (n + 1)
    simp only [Cell.tdim, Nat.choose_one_right]
    rw [show rtCount .triangle n = n * (n + 2) from rfl]
    rcases n with _ | n
    · simp [rtCount, show Nat.choose 4 3 = 4 from rfl]
    · have h4 := rt_half n
      rw [show (((n + 1 + 1 : ℕ) : ℤ) - 2).toNat = n by omega]
      nlinarith
  rw [← hpl]
  refine hcurl3_created hpoly hind hS (fun v hv => hv) (fun v hv V => ?_) rfl rfl rfl hx hy hz rfl rfl rfl hxs
    (S2 := FullSpace 2 k) (fun v hv V i => comp_mem ⟨.triangle, 3, V⟩ _ hv) (fun u u' hu hu' i => Submodule.sub_mem _ (hu i) (hu' i))
    (fun u hu ht hp => ?_) (fun v hv hn hp => ?_) hlen
  · exact comp_mem ⟨.interval, 3, V⟩ _ hv
  · exact n2_zero2 hu ht fun q hq => pairing_lspan hp ((hys q).2 hq)
  · exact n2_zero3 hv hn fun q hq => pairing_lspan hp ((hzs q).2 hq)

example : ∃ basis dofs fs, bdmElement "equispaced" .tetrahedron 2 = some (.ciarlet basis dofs) ∧
    getBasis (.ciarlet basis dofs) = some fs ∧ fs.length = 30 := by
  obtain ⟨b, d, fs, h1, h2, -, h3, -⟩ := bdm_created (c := .tetrahedron) (Or.inr rfl) (k := 2) (by omega)
  exact ⟨b, d, fs, h1, h2, h3⟩

example : ∃ basis dofs fs, n2Element "equispaced" .tetrahedron 2 = some (.ciarlet basis dofs) ∧
    getBasis (.ciarlet basis dofs) = some fs ∧ fs.length = 30 := by
  obtain ⟨b, d, fs, h1, h2, -, h3, -⟩ := n2_created3 (k := 2) (by omega)
  exact ⟨b, d, fs, h1, h2, h3⟩

end Verif.Families
