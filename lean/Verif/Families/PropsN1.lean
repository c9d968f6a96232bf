import Verif.Families.PropsRT
import Verif.Families.Hcurl2
/-!
# Nédélec elements of the first kind
-/

namespace Verif.Families
open Verif.References Verif.Moments Verif.Functionals Verif.Elements Verif.FiniteElement Verif.Polysets Verif.Orthogonal
open MvPolynomial

/-- The dimension of the Nédélec space of degree `k` on a triangle or a tetrahedron. -/
def n1Count (c : Cell) (k : ℕ) : ℕ := if c = .triangle then k * (k + 2) else k * (k + 2) * (k + 3) / 2

theorem len_uniform {n r d : ℕ} (hr : r ≤ d) :
    (if (n : ℤ) - r < 0 then 0 else (((n : ℤ) - r).toNat + d).choose d) = (n + d - r).choose d := by
  by_cases h : n < r
  · rw [if_pos (by omega), Nat.choose_eq_zero_of_lt (by omega)]
  · rw [if_neg (by omega)]
    congr 1
    omega

theorem if_mul_zero (p : Prop) [Decidable p] (a b : ℕ) : (if p then 0 else a * b) = (if p then 0 else a) * b := by
  split <;> simp

theorem N1Space.sub {d : ℕ} {k : ℤ} {u u' : Field d} (h : N1Space d k u) (h' : N1Space d k u') : N1Space d k (u - u') := by
  refine ⟨fun i => Submodule.sub_mem _ (h.1 i) (h'.1 i), ?_⟩
  simp only [Pi.sub_apply, mul_sub, Finset.sum_sub_distrib]
  exact Submodule.sub_mem _ h.2 h'.2

theorem edge_comp_n1 {g : ℕ} {k : ℤ} {v : Field g} (hv : N1Space g k v) (V : ℕ → ℕ → ℝ) :
    comp ⟨.interval, g, V⟩ (axis .interval V 0) v ∈ P 1 (k - 1) := tang_edge ⟨.interval, g, V⟩ hv rfl

/-- **C85.** `NedelecFirstKind` elements on triangles: at every order at least 1, the element can be created, it has the right
number of functionals, its basis functions span the Nédélec space, the functionals determine the functions, and the
functionals of an edge determine the tangential component on that edge. -/
theorem n1_created2 {k : ℕ} (hk : 1 ≤ k) :
    Created (n1Element "equispaced" .triangle k) (N1Space 2 k) (n1Count .triangle k)
      (fun dofs => EdgeTrace .triangle (N1Space 2 k) dofs ∧ EdgeConform .triangle (N1Space 2 k) dofs) := by
  obtain ⟨a, b, ha, hb, hind⟩ := nedelec_list_independent ℝ 2 (Or.inl rfl) k
  obtain ⟨xs, hx, hxs, hxl⟩ := sub_lagrange (t := .interval) (by simp [Simplex]) (classes := classes1) rfl "TangentIntegralMoment"
    ((k : ℤ) - 1) none
  obtain ⟨ys, hy, hys, hyl⟩ := sub_vectorLagrange (t := .triangle) (Or.inl rfl) (classes := classes1) (by simp [classes1])
    "IntegralMoment" ((k : ℤ) - 2) (some "covariant")
  have hpoly : ((polySetVector 2 2 ((k : ℤ) - 1)).bind fun a => (hcurlSet 2 k).map fun b => a ++ b) =
      some (a ++ b) := by rw [ha, Option.bind_some, hb]; rfl
  have hlen : 3 * xs.length + ys.length = (a ++ b).length ∧ (a ++ b).length = n1Count .triangle k := by
    obtain ⟨n, rfl⟩ := Nat.exists_eq_add_of_le' hk
    have ha' := ha
    rw [show ((n + 1 : ℕ) : ℤ) - 1 = (n : ℕ) by push_cast; ring] at ha' hxl
    rw [show ((n + 1 : ℕ) : ℤ) - 2 = (n : ℕ) - (1 : ℕ) by push_cast; ring, if_mul_zero, len_uniform (by decide)] at hyl
    rw [polySetVector, Option.map_eq_some_iff] at ha'
    obtain ⟨ps, hps, rfl⟩ := ha'
    rw [if_neg (by omega), Int.toNat_natCast] at hxl
    rw [List.length_append, vectorSet_length, polySet_length _ _ _ hps, hxl, hyl]
    obtain ⟨l, hl, hl'⟩ := (hcurlSet_length (n + 1)).1
    obtain rfl : b = l := Option.some.inj (hb.symm.trans hl)
    rw [hl']
    simp only [n1Count, Cell.tdim, if_true, Nat.choose_one_right, show n + 2 - 1 = n + 1 from rfl]
    have h2 := choose_two n
    have h3 := Nat.choose_succ_succ (n + 1) 1
    rw [Nat.choose_one_right] at h3
    constructor
    · have : (n + 2).choose 2 = n + 1 + (n + 1).choose 2 := h3
      omega
    · nlinarith
  rw [← hlen.2]
  refine hcurl2_created hpoly hind (fun v => n1_lspan (Or.inl rfl) k ha hb) (fun v hv => hv.1) (fun v hv V => edge_comp_n1 hv V) rfl rfl
    hx hy rfl rfl hxs (fun v hv hn hp => ?_) hlen.1
  exact n1_zero2 hv hn fun q hq => pairing_lspan hp (hys ▸ mem_PV.2 hq)

/-- **C85.** The same on tetrahedra; the functionals of a face and of its edges determine the tangential components on the
face. -/
theorem n1_created3 {k : ℕ} (hk : 1 ≤ k) :
    Created (n1Element "equispaced" .tetrahedron k) (N1Space 3 k) (n1Count .tetrahedron k)
      (fun dofs => EdgeTrace .tetrahedron (N1Space 3 k) dofs ∧ FaceTrace (N1Space 3 k) dofs ∧
        EdgeConform .tetrahedron (N1Space 3 k) dofs ∧ FaceConform (N1Space 3 k) dofs) := by
  obtain ⟨a, b, ha, hb, hind⟩ := nedelec_list_independent ℝ 3 (Or.inr rfl) k
  obtain ⟨xs, hx, hxs, hxl⟩ := sub_lagrange (t := .interval) (by simp [Simplex]) (classes := classes1) rfl "TangentIntegralMoment"
    ((k : ℤ) - 1) none
  obtain ⟨ys, hy, hys, hyl⟩ := sub_vectorLagrange (t := .triangle) (Or.inl rfl) (classes := classes1) (by simp [classes1])
    "IntegralMoment" ((k : ℤ) - 2) (some "covariant")
  obtain ⟨zs, hz, hzs, hzl⟩ := sub_vectorLagrange (t := .tetrahedron) (Or.inr rfl) (classes := classes1) (by simp [classes1])
    "IntegralMoment" ((k : ℤ) - 3) (some "covariant")
  have hpoly : ((polySetVector 3 3 ((k : ℤ) - 1)).bind fun a => (hcurlSet 3 k).map fun b => a ++ b) =
      some (a ++ b) := by rw [ha, Option.bind_some, hb]; rfl
  have hlen : 6 * xs.length + (4 * ys.length + zs.length) = (a ++ b).length ∧ (a ++ b).length = n1Count .tetrahedron k := by
    obtain ⟨n, rfl⟩ := Nat.exists_eq_add_of_le' hk
    have ha' := ha
    rw [show ((n + 1 : ℕ) : ℤ) - 1 = (n : ℕ) by push_cast; ring] at ha' hxl
    rw [show ((n + 1 : ℕ) : ℤ) - 2 = (n : ℕ) - (1 : ℕ) by push_cast; ring, if_mul_zero, len_uniform (by decide)] at hyl
    rw [show ((n + 1 : ℕ) : ℤ) - 3 = (n : ℕ) - (2 : ℕ) by push_cast; ring, if_mul_zero, len_uniform (by decide)] at hzl
    rw [polySetVector, Option.map_eq_some_iff] at ha'
    obtain ⟨ps, hps, rfl⟩ := ha'
    rw [if_neg (by omega), Int.toNat_natCast] at hxl
    rw [List.length_append, vectorSet_length, polySet_length _ _ _ hps, hxl, hyl, hzl]
    obtain ⟨l, hl, hl'⟩ := (hcurlSet_length (n + 1)).2
    obtain rfl : b = l := Option.some.inj (hb.symm.trans hl)
    rw [hl']
    simp only [n1Count, Cell.tdim, reduceCtorEq, if_false, Nat.choose_one_right, show n + 2 - 1 = n + 1 from rfl,
      show n + 3 - 2 = n + 1 from rfl]
    have h2 := choose_two n
    have h3 := choose_three n
    have p1 : (n + 2).choose 2 = n + 1 + (n + 1).choose 2 := by
      have := Nat.choose_succ_succ (n + 1) 1
      rwa [Nat.choose_one_right] at this
    have p2 : (n + 3).choose 3 = (n + 2).choose 2 + (n + 2).choose 3 := Nat.choose_succ_succ (n + 2) 2
    have p3 : (n + 2).choose 3 = (n + 1).choose 2 + (n + 1).choose 3 := Nat.choose_succ_succ (n + 1) 2
    constructor
    · nlinarith
    · rw [eq_comm]
      apply Nat.div_eq_of_eq_mul_left (by norm_num)
      nlinarith
  rw [← hlen.2]
  refine hcurl3_created hpoly hind (fun v => n1_lspan (Or.inr rfl) k ha hb) (fun v hv => hv.1) (fun v hv V => edge_comp_n1 hv V) rfl rfl
    rfl hx hy hz rfl rfl rfl hxs (S2 := N1Space 2 k) (fun v hv V => tang_n1 ⟨.triangle, 3, V⟩ hv) (fun u u' hu hu' => hu.sub hu')
    (fun u hu ht hp => ?_) (fun v hv hn hp => ?_) hlen.1
  · exact n1_zero2 hu ht fun q hq => pairing_lspan hp (hys ▸ mem_PV.2 hq)
  · exact n1_zero3 hv hn fun q hq => pairing_lspan hp (hzs ▸ mem_PV.2 hq)

example : ∃ basis dofs fs, n1Element "equispaced" .tetrahedron 2 = some (.ciarlet basis dofs) ∧
    getBasis (.ciarlet basis dofs) = some fs ∧ fs.length = 20 := by
  obtain ⟨b, d, fs, h1, h2, -, h3, -⟩ := n1_created3 (k := 2) (by omega)
  exact ⟨b, d, fs, h1, h2, h3⟩

end Verif.Families
