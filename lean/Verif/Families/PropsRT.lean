import Verif.Families.Hdiv
/-!
# Raviart–Thomas elements
-/

namespace Verif.Families
open Verif.References Verif.Moments Verif.Functionals Verif.Elements Verif.FiniteElement Verif.Polysets Verif.Orthogonal
open MvPolynomial

/-- The dimension of the Raviart–Thomas space of degree `k` on a triangle or a tetrahedron. -/
def rtCount (c : Cell) (k : ℕ) : ℕ := if c = .triangle then k * (k + 2) else k * (k + 1) * (k + 3) / 2

theorem choose_two (n : ℕ) : 2 * (n + 2).choose 2 = (n + 2) * (n + 1) := by
  rw [Nat.choose_two_right]
  have := Nat.div_mul_cancel (Nat.even_mul_pred_self (n + 2)).two_dvd
  simp only [Nat.add_one_sub_one, show n + 2 - 1 = n + 1 from rfl] at this ⊢
  omega

theorem choose_three (n : ℕ) : 6 * (n + 3).choose 3 = (n + 3) * (n + 2) * (n + 1) := by
  have := Nat.add_one_mul_choose_eq (n + 2) 2
  have h2 := choose_two n
  nlinarith

theorem P_succ {d : ℕ} {k : ℤ} {r : MvPolynomial ℕ ℝ} (h : r ∈ P d (k - 1)) : r ∈ P d k := P_mono (by omega) h

theorem RTSpace.mem {d : ℕ} {k : ℤ} {v : Field d} (hv : RTSpace d k v) (i : Fin d) : v i ∈ P d k := by
  obtain ⟨r, hr, hvr⟩ := hv
  have h1 : X i.val * r ∈ P d (k - 1 + 1) := X_mul_mem i.2 hr
  rw [sub_add_cancel] at h1
  have := Submodule.add_mem _ (P_succ (hvr i)) h1
  rwa [sub_add_cancel] at this

theorem Simp.dims {c : Cell} (hc : Simp c) : c.tdim = 2 ∨ c.tdim = 3 := by rcases hc with rfl | rfl <;> simp [Cell.tdim]

/-- **C84.** `RaviartThomas` elements on triangles and tetrahedra: at every order at least 1, the element can be created, it
has the right number of functionals, its basis functions span the Raviart–Thomas space, the functionals determine the
functions, and the functionals of a facet determine the normal component on that facet. -/
theorem rt_created {c : Cell} (hc : Simp c) {k : ℕ} (hk : 1 ≤ k) :
    Created (rtElement "equispaced" c k) (RTSpace c.tdim k) (rtCount c k)
      (fun dofs => NormalTrace c (RTSpace c.tdim k) dofs ∧ NormalConform c (RTSpace c.tdim k) dofs) := by
  obtain ⟨a, b, ha, hb, hind⟩ := raviartThomas_list_independent ℝ c.tdim hc.dims k
  obtain ⟨xs, hx, hxs, hxl⟩ := sub_lagrange (facetCell_simplex c) (classes := classes1) rfl "NormalIntegralMoment" ((k : ℤ) - 1) none
  obtain ⟨ys, hy, hys, hyl⟩ := sub_vectorLagrange hc (classes := classes1) (by simp [classes1]) "IntegralMoment" ((k : ℤ) - 2)
    (some "contravariant")
  rw [facetCell_tdim hc] at hxs
  have hpoly : ((polySetVector c.tdim c.tdim ((k : ℤ) - 1)).bind fun a => (hdivSet c.tdim k).map fun b => a ++ b) =
      some (a ++ b) := by rw [ha, Option.bind_some, hb]; rfl
  have hlen : (c.tdim + 1) * xs.length + ys.length = (a ++ b).length ∧ (a ++ b).length = rtCount c k := by
    obtain ⟨n, rfl⟩ := Nat.exists_eq_add_of_le' hk
    have ha' := ha
    rw [show ((n + 1 : ℕ) : ℤ) - 1 = (n : ℕ) by push_cast; ring] at ha' hxl
    rw [polySetVector, Option.map_eq_some_iff] at ha'
    obtain ⟨ps, hps, rfl⟩ := ha'
    rw [if_neg (by omega), Int.toNat_natCast, facetCell_tdim hc] at hxl
    rw [List.length_append, vectorSet_length, polySet_length _ _ _ hps, hxl, hyl]
    have hb2 := hdivSet_length (n + 1)
    have e2 : (if ((n + 1 : ℕ) : ℤ) - 2 < 0 then 0 else ((((n + 1 : ℕ) : ℤ) - 2).toNat + c.tdim).choose c.tdim * c.tdim) =
        (n - 1 + c.tdim).choose c.tdim * c.tdim * (if n = 0 then 0 else 1) := by
      rcases n with _ | n
      · simp
      · rw [if_neg (by push_cast; omega), if_neg (by omega), mul_one, show (((n + 1 + 1 : ℕ) : ℤ) - 2).toNat = n by omega]
        rfl
    rw [e2]
    have h2 := choose_two n
    have h3 := choose_three n
    rcases hc with rfl | rfl
    · obtain ⟨l, hl, hl'⟩ := hb2.1
      obtain rfl : b = l := Option.some.inj (hb.symm.trans hl)
      rw [hl']
      simp only [rtCount, Cell.tdim, if_true, Nat.reduceAdd, Nat.reduceSub, Nat.choose_one_right]
      rcases n with _ | n
      · simp
      · have h4 := choose_two n
        simp only [Nat.add_one_sub_one]
        constructor
        · simp; nlinarith
        · nlinarith
    · obtain ⟨l, hl, hl'⟩ := hb2.2
      obtain rfl : b = l := Option.some.inj (hb.symm.trans hl)
      rw [hl']
      simp only [rtCount, Cell.tdim, Nat.reduceAdd, Nat.reduceSub, reduceCtorEq, if_false]
      have h5 : (n + 1) * (n + 1 + 1) * (n + 1 + 3) / 2 = (n + 3).choose 3 * 3 + (n + 2).choose 2 := by
        apply Nat.div_eq_of_eq_mul_left (by norm_num)
        nlinarith
      rw [h5]
      rcases n with _ | n
      · simp
      · have h4 := choose_three n
        simp only [Nat.add_one_sub_one]
        simp
        nlinarith
  rw [← hlen.2]
  refine hdiv_created hc hpoly hind (fun v => rt_lspan hc.dims k ha hb) (fun v hv j => hv.mem j) (fun v hv i hi => ?_) rfl rfl hx hy
    rfl rfl hxs (fun v hv hn hp => ?_) hlen.1
  · have F := facet_facts hc hi
    have := normal_rt (entityDomain c (c.tdim - 1, i)) hv (n := facetNormal i) fun j => F.perp j.val (lt_of_lt_of_eq j.2 F.cell)
    rwa [F.cell] at this
  · exact rt_zero hc hv hn fun q hq => pairing_lspan hp (hys ▸ mem_PV.2 hq)

/-- For instance, the lowest order element on a triangle has three functions. -/
example : ∃ basis dofs fs, rtElement "equispaced" .triangle 1 = some (.ciarlet basis dofs) ∧
    getBasis (.ciarlet basis dofs) = some fs ∧ fs.length = 3 := by
  obtain ⟨b, d, fs, h1, h2, -, h3, -⟩ := rt_created (c := .triangle) (Or.inl rfl) le_rfl
  exact ⟨b, d, fs, h1, h2, h3⟩

end Verif.Families
