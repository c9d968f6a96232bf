import Verif.Degrees.Scalar
import Verif.Families.PropsRT
import Verif.Families.PropsN1
import Verif.Families.PropsFull
import Verif.Families.QCurl
import Verif.Families.BdfmSimp
import Verif.Families.SerDiv
import Verif.Smooth.Chain
/-!
# Degrees declared by vector valued elements

The space of degree `n` is now the space of vectors whose components are in the scalar space of degree `n`.
-/

namespace Verif.Degrees
open Verif.References Verif.Elements Verif.FiniteElement Verif.Polysets
open Verif.Families Verif.Scalar Verif.Smooth
open MvPolynomial

/-! ### What the classes declare -/

/-- `RaviartThomas` (symfem/elements/rt.py:58-72), `NedelecFirstKind` (symfem/elements/nedelec.py:53-67) and, on simplices, `BDFM`
(symfem/elements/bdfm.py:114-131). -/
def declRT (k : ℕ) : Declared := ⟨(k : ℤ) - 1, k, (k : ℤ) - 1, k⟩

/-- `RaviartThomas` of quadrilaterals and hexahedra (symfem/elements/q.py:336-350). -/
def declRTQ (c : Cell) (k : ℕ) : Declared := ⟨(k : ℤ) - 1, k, (k : ℤ) - 1, ((k : ℤ) - 1) * c.tdim + 1⟩

/-- `Nedelec` of quadrilaterals and hexahedra (symfem/elements/q.py:277-291). -/
def declNCQ (c : Cell) (k : ℕ) : Declared := ⟨(k : ℤ) - 1, k, (k : ℤ) - 1, k * c.tdim - 1⟩

/-- `BDFM` of quadrilaterals and hexahedra (symfem/elements/bdfm.py:114-131). -/
def declBDFM (c : Cell) (k : ℕ) : Declared := ⟨(k : ℤ) / c.tdim, k, (k : ℤ) - 1, k⟩

/-- `SerendipityDiv` (symfem/elements/serendipity.py:192-206) and, with the hexahedron, `BDDF` (symfem/elements/bddf.py:81-95). -/
def declSdiv (c : Cell) (k : ℕ) : Declared := ⟨(k : ℤ) / c.tdim, (k : ℤ) + 1, k, (k : ℤ) + 1⟩

/-! ### Vectors -/

/-- Vectors with components in a scalar space. -/
noncomputable def vec (d : ℕ) (L : ℤ → Submodule ℝ (MvPolynomial ℕ ℝ)) (n : ℤ) : Submodule ℝ (Field d) := Submodule.pi Set.univ fun _ => L n

theorem mem_vec {d : ℕ} {L : ℤ → Submodule ℝ (MvPolynomial ℕ ℝ)} {n : ℤ} {v : Field d} : v ∈ vec d L n ↔ ∀ i, v i ∈ L n := by
  simp [vec, Submodule.mem_pi]

theorem vec_monotone (d : ℕ) {L : ℤ → Submodule ℝ (MvPolynomial ℕ ℝ)} (h : Monotone L) : Monotone (vec d L) := fun _ _ hab _ hv =>
  mem_vec.2 fun i => h hab (mem_vec.1 hv i)

/-- A vector with one component. -/
noncomputable def at' {d : ℕ} (i : Fin d) (p : MvPolynomial ℕ ℝ) : Field d := Pi.single i p

theorem at_same {d : ℕ} (i : Fin d) (p : MvPolynomial ℕ ℝ) : at' i p i = p := Pi.single_eq_same _ _

theorem at_ne {d : ℕ} {i j : Fin d} (h : j ≠ i) (p : MvPolynomial ℕ ℝ) : at' i p j = 0 := Pi.single_eq_of_ne h _

theorem at_mem {d : ℕ} {L : ℤ → Submodule ℝ (MvPolynomial ℕ ℝ)} {n : ℤ} {i : Fin d} {p : MvPolynomial ℕ ℝ} : at' i p ∈ vec d L n ↔ p ∈ L n := by
  rw [mem_vec]
  refine ⟨fun h => by simpa [at_same] using h i, fun h j => ?_⟩
  by_cases hj : j = i
  · subst hj
    rwa [at_same]
  · rw [at_ne hj]
    exact Submodule.zero_mem _

/-- Spaces given component by component. -/
theorem HasDegrees.vec {d : ℕ} (hd : 0 < d) {L P : ℤ → Submodule ℝ (MvPolynomial ℕ ℝ)} {S : MvPolynomial ℕ ℝ → Prop} {D : Declared}
    (h0 : S 0) (h : HasDegrees L P S D) : HasDegrees (vec d L) (vec d P) (fun v => ∀ i, S (v i)) D := by
  have e1 : ∀ L : ℤ → Submodule ℝ (MvPolynomial ℕ ℝ), {n | ∀ v ∈ Degrees.vec d L n, ∀ i, S (v i)} = {n | ∀ v ∈ L n, S v} := by
    intro L
    ext n
    refine ⟨fun h v hv => ?_, fun h v hv i => h _ (mem_vec.1 hv i)⟩
    simpa [at_same] using h (at' ⟨0, hd⟩ v) (at_mem.2 hv) ⟨0, hd⟩
  have e2 : ∀ L : ℤ → Submodule ℝ (MvPolynomial ℕ ℝ), {n | ∀ v : Field d, (∀ i, S (v i)) → v ∈ Degrees.vec d L n} = {n | ∀ v, S v → v ∈ L n} := by
    intro L
    ext n
    refine ⟨fun h v hv => ?_, fun h v hv => mem_vec.2 fun i => h _ (hv i)⟩
    refine at_mem.1 (h (at' ⟨0, hd⟩ v) fun j => ?_)
    by_cases hj : j = ⟨0, hd⟩
    · rwa [hj, at_same]
    · rwa [at_ne hj]
  unfold HasDegrees
  rw [e1, e1, e2, e2]
  exact h

/-! ### Spaces on simplices -/

theorem X_pow_mono (j n : ℕ) : (X j ^ n : MvPolynomial ℕ ℝ) = monomial (Finsupp.single j n) 1 := X_pow_eq_monomial

theorem X_pow_mem {d j n : ℕ} (hj : j < d) {k : ℤ} (h : (n : ℤ) ≤ k) : (X j ^ n : MvPolynomial ℕ ℝ) ∈ P d k := by
  rw [X_pow_mono]
  exact (single_mem_P hj (Or.inl (by omega))).2 h

theorem X_pow_notMem {d j n : ℕ} {k : ℤ} (h : k < n) : (X j ^ n : MvPolynomial ℕ ℝ) ∉ P d k := by
  rw [X_pow_mono, mono_mem_P, Finsupp.degree_single]
  rintro ⟨h1, -⟩
  omega

theorem degrees_RT {d : ℕ} (hd : 2 ≤ d) {k : ℕ} (hk : 1 ≤ k) : HasDegrees (vec d (P d)) (vec d (P d)) (RTSpace d k) (declRT k) := by
  have hp := vec_monotone d (P_monotone d)
  have h1 : IsGreatest {n | ∀ v ∈ vec d (P d) n, RTSpace d k v} ((k : ℤ) - 1) := by
    refine greatest_of hp (fun v hv => ⟨0, Submodule.zero_mem _, fun i => by simpa using mem_vec.1 hv i⟩) (at' ⟨1, by omega⟩ (X 0 ^ k))
      (at_mem.2 (X_pow_mem (by omega) (by omega))) ?_
    rintro ⟨r, -, h⟩
    have h0 := h ⟨0, by omega⟩
    rw [at_ne (by simp), zero_sub, Submodule.neg_mem_iff] at h0
    have h2 := Families.X_mul_mem (i := 1) (by omega) (X_cancel h0)
    have h3 := Submodule.add_mem _ (h ⟨1, by omega⟩) (P_mono (by omega) h2)
    rw [at_same, sub_add_cancel] at h3
    exact X_pow_notMem (by omega) h3
  have h2 : IsLeast {n | ∀ v, RTSpace d k v → v ∈ vec d (P d) n} (k : ℤ) := by
    refine least_of hp ?_ (fun i : Fin d => X i.val * X 0 ^ (k - 1)) ⟨X 0 ^ (k - 1), X_pow_mem (by omega) (by omega), fun i => by simp⟩ fun h => ?_
    · rintro v ⟨r, hr, h⟩
      refine mem_vec.2 fun i => ?_
      have := Submodule.add_mem _ (P_mono (by omega) (h i)) (P_mono (k := (k : ℤ) - 1 + 1) (l := k) (by omega) (Families.X_mul_mem i.2 hr))
      rwa [sub_add_cancel] at this
    · have := mem_vec.1 h ⟨0, by omega⟩
      simp only at this
      rw [← pow_succ', Nat.sub_add_cancel hk] at this
      exact X_pow_notMem (by omega) this
  exact ⟨h1, h2, h1, h2⟩

theorem degrees_N1 {d : ℕ} (hd : 2 ≤ d) {k : ℕ} (hk : 1 ≤ k) : HasDegrees (vec d (P d)) (vec d (P d)) (N1Space d k) (declRT k) := by
  have hp := vec_monotone d (P_monotone d)
  have h1 : IsGreatest {n | ∀ v ∈ vec d (P d) n, N1Space d k v} ((k : ℤ) - 1) := by
    refine greatest_of hp (fun v hv => ⟨fun i => P_mono (by omega) (mem_vec.1 hv i), Submodule.sum_mem _ fun i _ => ?_⟩)
      (at' ⟨0, by omega⟩ (X 0 ^ k)) (at_mem.2 (X_pow_mem (by omega) (by omega))) ?_
    · have := Families.X_mul_mem i.2 (mem_vec.1 hv i)
      rwa [sub_add_cancel] at this
    · rintro ⟨-, h⟩
      rw [Finset.sum_eq_single ⟨0, by omega⟩ (fun j _ hj => by rw [at_ne hj, mul_zero]) (by simp), at_same, ← pow_succ'] at h
      exact X_pow_notMem (by push_cast; omega) h
  have h2 : IsLeast {n | ∀ v, N1Space d k v → v ∈ vec d (P d) n} (k : ℤ) := by
    refine least_of hp (fun v hv => mem_vec.2 hv.1) (at' ⟨1, by omega⟩ (X 0 ^ k) - at' ⟨0, by omega⟩ (X 1 * X 0 ^ (k - 1))) ⟨fun i => ?_, ?_⟩ fun h => ?_
    · refine mem_vec.1 (Submodule.sub_mem _ (at_mem.2 (X_pow_mem (by omega) le_rfl)) (at_mem.2 ?_)) i
      have := Families.X_mul_mem (i := 1) (d := d) (by omega) (X_pow_mem (j := 0) (n := k - 1) (k := (k : ℤ) - 1) (by omega) (by omega))
      rwa [sub_add_cancel] at this
    · have : ∑ i : Fin d, X i.val * (at' ⟨1, by omega⟩ (X 0 ^ k) - at' ⟨0, by omega⟩ (X 1 * X 0 ^ (k - 1)) : Field d) i = 0 := by
        simp only [Pi.sub_apply, mul_sub, Finset.sum_sub_distrib]
        rw [Finset.sum_eq_single ⟨1, by omega⟩ (fun j _ hj => by rw [at_ne hj, mul_zero]) (by simp), at_same,
          Finset.sum_eq_single ⟨0, by omega⟩ (fun j _ hj => by rw [at_ne hj, mul_zero]) (by simp), at_same]
        obtain ⟨m, rfl⟩ := Nat.exists_eq_add_of_le' hk
        simp only [Nat.add_sub_cancel]
        ring
      rw [this]
      exact Submodule.zero_mem _
    · have := mem_vec.1 h ⟨1, by omega⟩
      rw [Pi.sub_apply, at_same, at_ne (by simp), sub_zero] at this
      exact X_pow_notMem (by omega) this
  exact ⟨h1, h2, h1, h2⟩

theorem degrees_BDFMS {d : ℕ} (hd : 2 ≤ d) {k : ℕ} (hk : 1 ≤ k) : HasDegrees (vec d (P d)) (vec d (P d)) (· ∈ BDFMS d k) (declRT k) := by
  have hp := vec_monotone d (P_monotone d)
  have h1 : IsGreatest {n | ∀ v ∈ vec d (P d) n, v ∈ BDFMS d k} ((k : ℤ) - 1) := by
    refine greatest_of hp (fun v hv => ⟨fun i => P_mono (by omega) (mem_vec.1 hv i), fun i _ => ⟨∑ j : Fin d, C (facetNormal i j.val) * v j, ?_, ?_⟩⟩)
      (at' ⟨1, by omega⟩ (X 0 ^ k)) (at_mem.2 (X_pow_mem (by omega) (by omega))) ?_
    · exact Submodule.sum_mem _ fun j _ => Families.C_mul_mem _ (mem_vec.1 hv j)
    · intro z _
      simp [map_sum]
    · rintro ⟨-, h⟩
      obtain ⟨q, hq, h⟩ := h 2 (by omega)
      have h3 : ∀ z : ℕ → ℝ, z 1 = 0 → eval z (q - X 0 ^ k) = 0 := by
        intro z hz
        have := h z (by simpa [OnFacet] using hz)
        rw [Finset.sum_eq_single ⟨1, by omega⟩ (fun j _ hj => by rw [at_ne hj, map_zero, mul_zero]) (by simp), at_same] at this
        simp [facetNormal] at this
        simp [this]
      obtain ⟨r, hr⟩ := X_dvd 1 h3
      have h4 := congrArg (coeff (Finsupp.single 0 k)) hr
      rw [mul_comm, coeff_mul_X', if_neg (by simp), coeff_sub, X_pow_mono, coeff_monomial, if_pos rfl] at h4
      have := (mem_P.1 hq (Finsupp.single 0 k) (mem_support_iff.2 (by rw [sub_eq_zero.1 h4]; norm_num))).1
      rw [Finsupp.degree_single] at this
      omega
  have h2 : IsLeast {n | ∀ v, v ∈ BDFMS d k → v ∈ vec d (P d) n} (k : ℤ) := by
    refine least_of hp (fun v hv => mem_vec.2 hv.1) (fun i : Fin d => X i.val * X 0 ^ (k - 1)) ⟨fun i => ?_, fun i hi => ?_⟩ fun h => ?_
    · have := Families.X_mul_mem i.2 (X_pow_mem (d := d) (j := 0) (n := k - 1) (k := (k : ℤ) - 1) (by omega) (by omega))
      rwa [sub_add_cancel] at this
    · refine ⟨C (if i = 0 then 1 else 0) * X 0 ^ (k - 1), Families.C_mul_mem _ (X_pow_mem (by omega) (by omega)), fun z hz => ?_⟩
      have : ∑ j : Fin d, facetNormal i j.val * z j.val = if i = 0 then 1 else 0 := by
        unfold OnFacet at hz
        split_ifs at hz ⊢ with h0
        · simpa [facetNormal, h0] using hz
        · refine Finset.sum_eq_zero fun j _ => ?_
          rw [facetNormal, if_neg h0]
          split_ifs with h1
          · rw [show j.val = i - 1 by omega, hz, mul_zero]
          · rw [zero_mul]
      simp only [map_mul, eval_X, map_pow, eval_C]
      rw [← this, Finset.sum_mul]
      exact Finset.sum_congr rfl fun j _ => by ring
    · have := mem_vec.1 h ⟨0, by omega⟩
      simp only at this
      rw [← pow_succ', Nat.sub_add_cancel hk] at this
      exact X_pow_notMem (by omega) this
  exact ⟨h1, h2, h1, h2⟩

/-! ### Spaces on quadrilaterals and hexahedra -/

theorem X_pow_mem_B {F : ℕ → ℤ} {j n : ℕ} (h0 : ∀ i, 0 ≤ F i) : (X j ^ n : MvPolynomial ℕ ℝ) ∈ B F ↔ (n : ℤ) ≤ F j := by
  rw [X_pow_mono, mono_mem_B]
  refine ⟨fun h => by simpa using h j, fun h i => ?_⟩
  by_cases hi : j = i
  · subst hi
    simpa using h
  · rw [Finsupp.single_apply, if_neg hi]
    simpa using h0 i

theorem degs_nonneg {d i : ℕ} {a b : ℤ} (ha : 0 ≤ a) (hb : 0 ≤ b) (j : ℕ) : 0 ≤ degs d i a b j := by
  unfold degs
  split_ifs <;> omega

/-- The exponents `(a, b, …, b)`. -/
noncomputable def corner (d a b : ℕ) : ℕ →₀ ℕ := Finsupp.single 0 a + ∑ j ∈ Finset.Ico 1 d, Finsupp.single j b

theorem corner_apply {d : ℕ} (a b i : ℕ) : corner d a b i = if i = 0 then a else if i < d then b else 0 := by
  rw [corner, Finsupp.add_apply, Finsupp.finset_sum_apply]
  simp only [Finsupp.single_apply]
  rw [Finset.sum_ite_eq']
  simp only [Finset.mem_Ico]
  split_ifs <;> omega

theorem corner_degree (d a b : ℕ) : (corner d a b).degree = a + (d - 1) * b := by
  simp [corner, map_sum]

theorem corner_notMem {d a b : ℕ} {k : ℤ} (h : k < (a + (d - 1) * b : ℕ)) : (monomial (corner d a b) 1 : MvPolynomial ℕ ℝ) ∉ P d k := by
  rw [mono_mem_P, corner_degree]
  rintro ⟨h1, -⟩
  omega

theorem degs_le_P {d i : ℕ} (hi : i < d) {a b : ℤ} : B (degs d i a b) ≤ P d (a + ((d - 1 : ℕ) : ℤ) * b) := by
  intro p hp
  rw [mem_P]
  intro t ht
  have h := mem_B.1 hp t ht
  have hs : ∀ j ∈ t.support, j < d := by
    intro j hj
    by_contra h'
    have := h j
    rw [degs, if_neg h'] at this
    exact Finsupp.mem_support_iff.1 hj (by omega)
  refine ⟨?_, hs⟩
  rw [degree_range hs, ← Finset.add_sum_erase _ _ (Finset.mem_range.2 hi)]
  push_cast
  refine add_le_add ?_ ?_
  · have := h i
    rwa [degs, if_pos hi, if_pos rfl] at this
  · refine (Finset.sum_le_card_nsmul _ _ b fun j hj => ?_).trans ?_
    · have := h j
      rw [Finset.mem_erase, Finset.mem_range] at hj
      rwa [degs, if_pos hj.2, if_neg hj.1] at this
    · rw [Finset.card_erase_of_mem (Finset.mem_range.2 hi), Finset.card_range, nsmul_eq_mul]

theorem degrees_RTQ {d : ℕ} (hd : 2 ≤ d) {k : ℕ} (hk : 1 ≤ k) :
    HasDegrees (vec d (QP d)) (vec d (P d)) (RTQ d k) ⟨(k : ℤ) - 1, k, (k : ℤ) - 1, ((k : ℤ) - 1) * d + 1⟩ := by
  have hp := vec_monotone d (P_monotone d)
  have hq := vec_monotone d (QP_monotone d)
  have hin : ∀ v, v ∈ vec d (QP d) ((k : ℤ) - 1) → RTQ d k v := fun v hv i => B_mono (fun j => by
    unfold degs
    split_ifs <;> omega) (mem_vec.1 hv i)
  have hout : ¬ RTQ d k (at' ⟨0, by omega⟩ (X 1 ^ k)) := fun h => by
    have := h ⟨0, by omega⟩
    rw [at_same, X_pow_mem_B (degs_nonneg (by omega) (by omega)), degs, if_pos (by omega), if_neg (by simp)] at this
    omega
  refine .mk (greatest_of hq hin _ (at_mem.2 (P_le_QP _ _ (X_pow_mem (by omega) (by omega)))) hout)
    (least_of hq (fun v hv => mem_vec.2 fun i => B_mono (fun j => by unfold degs; split_ifs <;> omega) (hv i)) (at' ⟨0, by omega⟩ (X 0 ^ k))
      (fun i => ?_) fun h => ?_)
    (greatest_of hp (fun v hv => hin v (mem_vec.2 fun i => P_le_QP _ _ (mem_vec.1 hv i))) _ (at_mem.2 (X_pow_mem (by omega) (by omega))) hout)
    (least_of hp (fun v hv => mem_vec.2 fun i => P_mono ?_ (degs_le_P i.2 (hv i))) (at' ⟨0, by omega⟩ (monomial (corner d k (k - 1)) 1))
      (fun i => ?_) fun h => ?_)
  · by_cases hi : i = ⟨0, by omega⟩
    · subst hi
      rw [at_same, X_pow_mem_B (degs_nonneg (by omega) (by omega)), degs, if_pos (by omega), if_pos rfl]
    · rw [at_ne hi]
      exact Submodule.zero_mem _
  · rw [at_mem, QP, X_pow_mem_B (fun i => by split_ifs <;> omega), if_pos (by omega)] at h
    omega
  · obtain ⟨m, rfl⟩ := Nat.exists_eq_add_of_le' hk
    push_cast [show 1 ≤ d by omega]
    linarith
  · by_cases hi : i = ⟨0, by omega⟩
    · subst hi
      rw [at_same, mono_mem_B]
      intro j
      rw [corner_apply, degs]
      split_ifs <;> simp_all <;> omega
    · rw [at_ne hi]
      exact Submodule.zero_mem _
  · refine corner_notMem ?_ (at_mem.1 h)
    obtain ⟨m, rfl⟩ := Nat.exists_eq_add_of_le' hk
    obtain ⟨e, rfl⟩ := Nat.exists_eq_add_of_le' (show 1 ≤ d by omega)
    simp only [Nat.add_sub_cancel]
    push_cast
    linarith

theorem degrees_NCQ {d : ℕ} (hd : 2 ≤ d) {k : ℕ} (hk : 1 ≤ k) :
    HasDegrees (vec d (QP d)) (vec d (P d)) (NCQ d k) ⟨(k : ℤ) - 1, k, (k : ℤ) - 1, k * d - 1⟩ := by
  have hp := vec_monotone d (P_monotone d)
  have hq := vec_monotone d (QP_monotone d)
  have hin : ∀ v, v ∈ vec d (QP d) ((k : ℤ) - 1) → NCQ d k v := fun v hv i => B_mono (fun j => by
    unfold degs
    split_ifs <;> omega) (mem_vec.1 hv i)
  have hout : ¬ NCQ d k (at' ⟨0, by omega⟩ (X 0 ^ k)) := fun h => by
    have := h ⟨0, by omega⟩
    rw [at_same, X_pow_mem_B (degs_nonneg (by omega) (by omega)), degs, if_pos (by omega), if_pos (by simp)] at this
    omega
  refine .mk (greatest_of hq hin _ (at_mem.2 (P_le_QP _ _ (X_pow_mem (by omega) (by omega)))) hout)
    (least_of hq (fun v hv => mem_vec.2 fun i => B_mono (fun j => by unfold degs; split_ifs <;> omega) (hv i)) (at' ⟨0, by omega⟩ (X 1 ^ k))
      (fun i => ?_) fun h => ?_)
    (greatest_of hp (fun v hv => hin v (mem_vec.2 fun i => P_le_QP _ _ (mem_vec.1 hv i))) _ (at_mem.2 (X_pow_mem (by omega) (by omega))) hout)
    (least_of hp (fun v hv => mem_vec.2 fun i => P_mono ?_ (degs_le_P i.2 (hv i))) (at' ⟨0, by omega⟩ (monomial (corner d (k - 1) k) 1))
      (fun i => ?_) fun h => ?_)
  · by_cases hi : i = ⟨0, by omega⟩
    · subst hi
      rw [at_same, X_pow_mem_B (degs_nonneg (by omega) (by omega)), degs, if_pos (by omega), if_neg (by simp)]
    · rw [at_ne hi]
      exact Submodule.zero_mem _
  · rw [at_mem, QP, X_pow_mem_B (fun i => by split_ifs <;> omega), if_pos (by omega)] at h
    omega
  · obtain ⟨e, rfl⟩ := Nat.exists_eq_add_of_le' (show 1 ≤ d by omega)
    simp only [Nat.add_sub_cancel]
    push_cast
    linarith
  · by_cases hi : i = ⟨0, by omega⟩
    · subst hi
      rw [at_same, mono_mem_B]
      intro j
      rw [corner_apply, degs]
      split_ifs <;> simp_all <;> omega
    · rw [at_ne hi]
      exact Submodule.zero_mem _
  · refine corner_notMem ?_ (at_mem.1 h)
    obtain ⟨m, rfl⟩ := Nat.exists_eq_add_of_le' hk
    obtain ⟨e, rfl⟩ := Nat.exists_eq_add_of_le' (show 1 ≤ d by omega)
    simp only [Nat.add_sub_cancel]
    push_cast
    linarith

theorem degrees_BDFMQ {d : ℕ} (hd : 2 ≤ d) {k : ℕ} (hk : 1 ≤ k) :
    HasDegrees (vec d (QP d)) (vec d (P d)) (BDFMQ d k) ⟨(k : ℤ) / d, k, (k : ℤ) - 1, k⟩ := by
  have hp := vec_monotone d (P_monotone d)
  have hq := vec_monotone d (QP_monotone d)
  have hX : BDFMQ d k (at' ⟨0, by omega⟩ (X 0 ^ k)) := by
    intro i
    by_cases hi : i = ⟨0, by omega⟩
    · subst hi
      refine ⟨0, Submodule.zero_mem _, X 0 ^ (k - 1), X_pow_mem (by omega) (by omega), ?_⟩
      rw [at_same, zero_add]
      show _ = X 0 * _
      rw [← pow_succ', Nat.sub_add_cancel hk]
    · exact ⟨0, Submodule.zero_mem _, 0, Submodule.zero_mem _, by rw [at_ne hi]; simp⟩
  have hk' : ((k : ℤ) / d) = ((k / d : ℕ) : ℤ) := by push_cast; rfl
  have hdk := Nat.mul_div_le k d
  refine .mk (greatest_of hq (fun v hv i => ?_) (at' ⟨0, by omega⟩ (monomial (box d (k / d + 1)) 1)) (at_mem.2 ((box_mem_QP (by omega)).2 (by push_cast; rfl))) fun h => ?_)
    (least_of hq (fun v hv => mem_vec.2 fun i => P_le_QP _ _ (hv.mem i)) _ hX fun h => ?_)
    (greatest_of hp (fun v hv i => ⟨v i, mem_vec.1 hv i, 0, Submodule.zero_mem _, by simp⟩) (at' ⟨0, by omega⟩ (X 1 ^ k))
      (at_mem.2 (X_pow_mem (by omega) (by omega))) fun h => ?_)
    (least_of hp (fun v hv => mem_vec.2 hv.mem) _ hX fun h => X_pow_notMem (by omega) (at_mem.1 h))
  · have hv' := mem_vec.1 hv i
    rw [hk'] at hv'
    refine mem_XP.1 ?_
    rw [(v i).as_sum]
    refine Submodule.sum_mem _ fun t ht => ?_
    have hb := mem_B.1 hv' t ht
    have hs := (mem_P.1 (QP_le_P _ _ hv') t ht).2
    have hc : (monomial t (coeff t (v i)) : MvPolynomial ℕ ℝ) = C (coeff t (v i)) * monomial t 1 := by rw [C_mul_monomial, mul_one]
    rw [hc, ← smul_eq_C_mul]
    refine Submodule.smul_mem _ _ (mem_XP.2 ?_)
    by_cases h1 : t i.val = 0
    · refine ⟨monomial t 1, mono_mem_P.2 ⟨?_, hs⟩, 0, Submodule.zero_mem _, by simp⟩
      have h2 : t.degree ≤ (d - 1) * (k / d) := by
        rw [degree_range hs, ← Finset.add_sum_erase _ _ (Finset.mem_range.2 i.2), h1, zero_add]
        refine (Finset.sum_le_card_nsmul _ _ (k / d) fun j hj => ?_).trans ?_
        · have := hb j
          rw [if_pos (by simpa using Finset.mem_of_mem_erase hj)] at this
          exact_mod_cast this
        · rw [Finset.card_erase_of_mem (Finset.mem_range.2 i.2), Finset.card_range, smul_eq_mul]
      have h3 : (d - 1) * (k / d) + 1 ≤ k := by
        rcases Nat.eq_zero_or_pos (k / d) with h0 | h0
        · rw [h0]; omega
        · obtain ⟨e, rfl⟩ := Nat.exists_eq_add_of_le' (show 1 ≤ d by omega)
          simp only [Nat.add_sub_cancel]
          have : (e + 1) * (k / (e + 1)) = e * (k / (e + 1)) + k / (e + 1) := by ring
          omega
      omega
    · refine ⟨0, Submodule.zero_mem _, monomial (t - Finsupp.single i.val 1) 1, mono_mem_P.2 ⟨?_, fun j hj => ?_⟩, ?_⟩
      · have h2 : t = (t - Finsupp.single i.val 1) + Finsupp.single i.val 1 :=
          (tsub_add_cancel_of_le (Finsupp.single_le_iff.2 (by omega))).symm
        have h3 : t.degree = (t - Finsupp.single i.val 1).degree + 1 := by
          conv_lhs => rw [h2]
          rw [map_add, Finsupp.degree_single]
        have h4 := (mem_P.1 (QP_le_P _ _ hv') t ht).1
        have h5 : ((d : ℤ) * ((k / d : ℕ) : ℤ)) ≤ k := by exact_mod_cast hdk
        omega
      · refine hs j (Finsupp.mem_support_iff.2 fun h0 => Finsupp.mem_support_iff.1 hj ?_)
        rw [Finsupp.tsub_apply, h0, Nat.zero_sub]
      · rw [zero_add, X, monomial_mul, one_mul, add_comm, tsub_add_cancel_of_le (Finsupp.single_le_iff.2 (by omega))]
  · have h1 := box_mem_P.1 (by simpa [at_same] using h.mem ⟨0, by omega⟩)
    have := Nat.lt_mul_div_succ k (show 0 < d by omega)
    push_cast at h1
    have h2 : (k : ℤ) < d * ((k / d : ℕ) + 1) := by exact_mod_cast this
    push_cast at h2
    omega
  · rw [at_mem, QP, X_pow_mem_B (fun i => by split_ifs <;> omega), if_pos (by omega)] at h
    omega
  · obtain ⟨q, hq, r, -, e⟩ := h ⟨0, by omega⟩
    rw [at_same] at e
    have h4 := congrArg (coeff (Finsupp.single 1 k)) e
    rw [coeff_add, mul_comm (X _), coeff_mul_X', if_neg (by simp), add_zero, X_pow_mono, coeff_monomial, if_pos rfl] at h4
    have := (mem_P.1 hq (Finsupp.single 1 k) (mem_support_iff.2 (by rw [← h4]; norm_num))).1
    rw [Finsupp.degree_single] at this
    omega

/-! ### Polynomials with divergence free functions added -/

/-- The divergence. -/
noncomputable def divF (v : Field 3) : MvPolynomial ℕ ℝ := pderiv 0 (v 0) + pderiv 1 (v 1) + pderiv 2 (v 2)

theorem divF_curl (v : Field 3) : divF (curlF v) = 0 := by
  simp only [divF, curlF, Matrix.cons_val_zero, Matrix.cons_val_one, Matrix.cons_val, map_sub]
  rw [pderiv_comm 0 1, pderiv_comm 0 2, pderiv_comm 1 2]
  ring

theorem enriched_div {k : ℕ} {ext : Set (Field 3)} (he : ∀ w ∈ ext, ∃ u, w = curlF u) {v : Field 3} (hv : Families.Enriched 3 k ext v) :
    divF v ∈ P 3 ((k : ℤ) - 1) := by
  obtain ⟨p, hp, w, hw, rfl⟩ := hv
  have h0 : divF w = 0 := by
    induction hw using Submodule.span_induction with
    | mem w hw =>
      obtain ⟨u, rfl⟩ := he w hw
      exact divF_curl u
    | zero => simp [divF]
    | add a b _ _ ha hb =>
      have : divF (a + b) = divF a + divF b := by
        simp only [divF, Pi.add_apply, map_add]
        ring
      rw [this, ha, hb, add_zero]
    | smul r a _ ha =>
      have : divF (r • a) = r • divF a := by simp [divF]
      rw [this, ha, smul_zero]
  have : divF (p + w) = divF p + divF w := by
    simp only [divF, Pi.add_apply, map_add]
    ring
  rw [this, h0, add_zero]
  exact Submodule.add_mem _ (Submodule.add_mem _ (pderiv_mem (hp 0) 0) (pderiv_mem (hp 1) 1)) (pderiv_mem (hp 2) 2)

theorem degrees_added {d : ℕ} (hd : 0 < d) {k : ℕ} {ext : Set (Field d)} (hext : ∀ w ∈ ext, ∀ i, w i ∈ P d ((k : ℤ) + 1))
    {w : Field d} (hw : w ∈ ext) {i : Fin d} (hwi : w i ∉ QP d k)
    (hout : ∀ t : ℕ →₀ ℕ, t.degree = k + 1 → 1 ≤ t 0 → (∀ j ∈ t.support, j < d) → ¬ Families.Enriched d k ext (at' ⟨0, hd⟩ (monomial t 1))) :
    HasDegrees (vec d (QP d)) (vec d (P d)) (Families.Enriched d k ext) ⟨(k : ℤ) / d, (k : ℤ) + 1, k, (k : ℤ) + 1⟩ := by
  have hp := vec_monotone d (P_monotone d)
  have hq := vec_monotone d (QP_monotone d)
  have hin : ∀ v ∈ vec d (P d) k, Families.Enriched d k ext v := fun v hv => ⟨v, mem_vec.1 hv, 0, Submodule.zero_mem _, (add_zero v).symm⟩
  have hsup : ∀ v, Families.Enriched d k ext v → v ∈ vec d (P d) ((k : ℤ) + 1) := by
    rintro v ⟨p, hp, w, hw, rfl⟩
    refine Submodule.add_mem _ (mem_vec.2 fun i => P_mono (by omega) (hp i)) ?_
    have : Submodule.span ℝ ext ≤ vec d (P d) ((k : ℤ) + 1) := Submodule.span_le.2 fun w hw => mem_vec.2 (hext w hw)
    exact this hw
  have hwm : Families.Enriched d k ext w := ⟨0, fun _ => Submodule.zero_mem _, w, Submodule.subset_span hw, (zero_add w).symm⟩
  have hdk := Nat.mul_div_le k d
  have hdk' := Nat.lt_mul_div_succ k hd
  refine .mk (greatest_of hq (fun v hv => hin v (mem_vec.2 fun i => P_mono ?_ (QP_le_P _ _ (mem_vec.1 hv i))))
      (at' ⟨0, hd⟩ (monomial (box d (k / d + 1)) 1)) (at_mem.2 ((box_mem_QP hd).2 (by push_cast; rfl))) fun h => ?_)
    (least_of hq (fun v hv => mem_vec.2 fun i => P_le_QP _ _ (mem_vec.1 (hsup v hv) i)) w hwm fun h => hwi ?_)
    (greatest_of hp hin (at' ⟨0, hd⟩ (X 0 ^ (k + 1))) (at_mem.2 (X_pow_mem hd (by push_cast; rfl))) ?_)
    (least_of hp hsup w hwm fun h => hwi (P_le_QP _ _ ?_))
  · rw [← Int.natCast_ediv]
    exact_mod_cast hdk
  · by_cases h1 : d * (k / d + 1) = k + 1
    · refine hout _ (by rw [box_degree, h1]) ?_ (fun j hj => box_support hj) h
      rw [box_apply, if_pos hd]
      exact Nat.le_add_left 1 _
    · have h2 := box_mem_P.1 (at_mem.1 (hsup _ h))
      have h3 : (d * (k / d + 1) : ℕ) ≤ k + 1 := by exact_mod_cast h2
      omega
  · have := mem_vec.1 h i
    rwa [add_sub_cancel_right] at this
  · rw [X_pow_mono]
    refine hout _ (Finsupp.degree_single _ _) (by simp) fun j hj => ?_
    have := Finsupp.support_single_subset hj
    simp at this
    omega
  · have := mem_vec.1 h i
    rwa [add_sub_cancel_right] at this

theorem curl_out {k : ℕ} {ext : Set (Field 3)} (he : ∀ w ∈ ext, ∃ u, w = curlF u) (t : ℕ →₀ ℕ) (ht : t.degree = k + 1) (h0 : 1 ≤ t 0) :
    ¬ Families.Enriched 3 k ext (at' ⟨0, by norm_num⟩ (monomial t 1)) := by
  intro h
  have h1 := enriched_div he h
  have e : divF (at' ⟨0, by norm_num⟩ (monomial t 1)) = monomial (t - Finsupp.single 0 1) (t 0 : ℝ) := by
    have e0 : (at' ⟨0, by norm_num⟩ (monomial t 1) : Field 3) 0 = monomial t 1 := at_same _ _
    have e1 : (at' ⟨0, by norm_num⟩ (monomial t 1) : Field 3) 1 = 0 := at_ne (by decide) _
    have e2 : (at' ⟨0, by norm_num⟩ (monomial t 1) : Field 3) 2 = 0 := at_ne (by decide) _
    rw [divF, e0, e1, e2, pderiv_monomial]
    simp
  rw [e] at h1
  have h2 : coeff (t - Finsupp.single 0 1) (monomial (t - Finsupp.single 0 1) (t 0 : ℝ)) ≠ 0 := by
    rw [coeff_monomial, if_pos rfl]
    exact_mod_cast (by omega : t 0 ≠ 0)
  have h3 := (mem_P.1 h1 _ (mem_support_iff.2 h2)).1
  have h4 : t.degree = (t - Finsupp.single 0 1).degree + 1 := by
    conv_lhs => rw [← tsub_add_cancel_of_le (Finsupp.single_le_iff.2 h0 : Finsupp.single 0 1 ≤ t)]
    rw [map_add, Finsupp.degree_single]
  omega

theorem curl_mem {k : ℤ} {u : Field 3} (h : ∀ i, u i ∈ P 3 (k + 2)) (i : Fin 3) : curlF u i ∈ P 3 (k + 1) := by
  have h' : ∀ i j, pderiv j (u i) ∈ P 3 (k + 1) := fun i j => by
    have := pderiv_mem (h i) j
    rwa [show k + 2 - 1 = k + 1 by ring] at this
  fin_cases i <;> exact Submodule.sub_mem _ (h' _ _) (h' _ _)

/-- A product of powers. -/
theorem pow_mem3 {a b c : ℕ} {k : ℤ} (h : (a + b + c : ℤ) ≤ k) : (X 0 ^ a * X 1 ^ b * X 2 ^ c : MvPolynomial ℕ ℝ) ∈ P 3 k :=
  P_mono h (P_mul (P_mul (X_pow_mem (by norm_num) le_rfl) (X_pow_mem (by norm_num) le_rfl)) (X_pow_mem (by norm_num) le_rfl))

theorem mem_of_eq3 {a b c : ℕ} {k : ℤ} (h : (a + b + c : ℤ) ≤ k) {p : MvPolynomial ℕ ℝ} (e : p = X 0 ^ a * X 1 ^ b * X 2 ^ c) : p ∈ P 3 k :=
  e ▸ pow_mem3 h

theorem sdivExt3_curl {k : ℕ} {w : Field 3} (hw : w ∈ sdivExt3 k) : ∃ u, (∀ i, u i ∈ P 3 ((k : ℤ) + 2)) ∧ w = curlF u := by
  obtain ⟨i, hi, rfl | rfl | rfl⟩ := hw
  · refine ⟨_, fun j => ?_, rfl⟩
    fin_cases j
    · exact Submodule.zero_mem _
    · exact mem_of_eq3 (a := 1) (b := i) (c := k - i + 1) (by omega) (by simp; ring)
    · exact Submodule.neg_mem _ (mem_of_eq3 (a := 1) (b := i + 1) (c := k - i) (by omega) (by simp; ring))
  · refine ⟨_, fun j => ?_, rfl⟩
    fin_cases j
    · exact mem_of_eq3 (a := i) (b := 1) (c := k - i + 1) (by omega) (by simp; ring)
    · exact Submodule.zero_mem _
    · exact Submodule.neg_mem _ (mem_of_eq3 (a := i + 1) (b := 1) (c := k - i) (by omega) (by simp; ring))
  · refine ⟨_, fun j => ?_, rfl⟩
    fin_cases j
    · exact mem_of_eq3 (a := i) (b := k - i + 1) (c := 1) (by omega) (by simp; ring)
    · exact Submodule.neg_mem _ (mem_of_eq3 (a := i + 1) (b := k - i) (c := 1) (by omega) (by simp; ring))
    · exact Submodule.zero_mem _

theorem bddfExt_curl {k : ℕ} {w : Field 3} (hw : w ∈ bddfExt k) : ∃ u, (∀ i, u i ∈ P 3 ((k : ℤ) + 2)) ∧ w = curlF u := by
  have h3 : ∀ (j : Fin 3) (a b c : ℕ), (a + b + c : ℤ) ≤ (k : ℤ) + 2 → ∀ u : Field 3, (∀ i ≠ j, u i = 0) → u j = X 0 ^ a * X 1 ^ b * X 2 ^ c →
      ∀ i, u i ∈ P 3 ((k : ℤ) + 2) := by
    intro j a b c h u h0 h1 i
    by_cases hi : i = j
    · subst hi
      rw [h1]
      exact pow_mem3 h
    · rw [h0 i hi]
      exact Submodule.zero_mem _
  rcases hw with rfl | rfl | rfl | ⟨i, h1, hi, rfl | rfl | rfl⟩
  · exact ⟨_, h3 2 (k + 1) 1 0 (by push_cast; omega) _ (by intro i hi; fin_cases i <;> simp at hi ⊢) (by simp), rfl⟩
  · exact ⟨_, h3 1 1 0 (k + 1) (by push_cast; omega) _ (by intro i hi; fin_cases i <;> simp at hi ⊢) (by simp), rfl⟩
  · exact ⟨_, h3 0 0 (k + 1) 1 (by push_cast; omega) _ (by intro i hi; fin_cases i <;> simp at hi ⊢) (by simp), rfl⟩
  · exact ⟨_, h3 2 1 (i + 1) (k - i) (by push_cast; omega) _ (by intro i hi; fin_cases i <;> simp at hi ⊢) (by simp), rfl⟩
  · exact ⟨_, h3 1 (i + 1) (k - i) 1 (by push_cast; omega) _ (by intro i hi; fin_cases i <;> simp at hi ⊢) (by simp), rfl⟩
  · exact ⟨_, h3 0 (k - i) 1 (i + 1) (by push_cast; omega) _ (by intro i hi; fin_cases i <;> simp at hi ⊢) (by simp), rfl⟩

theorem X_pow_notMem_QP {d j k : ℕ} (hj : j < d) : (X j ^ (k + 1) : MvPolynomial ℕ ℝ) ∉ QP d k := by
  rw [QP, X_pow_mem_B (fun i => by split_ifs <;> omega), if_pos hj]
  push_cast
  omega

theorem degrees_sdiv3 (k : ℕ) : HasDegrees (vec 3 (QP 3)) (vec 3 (P 3)) (Families.Enriched 3 k (sdivExt3 k)) (declSdiv .hexahedron k) := by
  refine degrees_added (d := 3) (by norm_num) (fun w hw i => ?_) (w := curlF ![0, X 1 ^ k * X 2 ^ (k - k) * (X 0 * X 2), -(X 1 ^ k * X 2 ^ (k - k) * (X 0 * X 1))])
    ⟨k, le_rfl, Or.inl rfl⟩ (i := 1) ?_ fun t ht h0 _ => curl_out (fun w hw => ?_) t ht h0
  · obtain ⟨u, h1, rfl⟩ := sdivExt3_curl hw
    exact curl_mem h1 i
  · have : curlF ![0, X 1 ^ k * X 2 ^ (k - k) * (X 0 * X 2), -(X 1 ^ k * X 2 ^ (k - k) * (X 0 * X 1))] 1 = X 1 ^ (k + 1) := by
      simp [curlF, pderiv_mul, pderiv_pow, pderiv_X_of_ne]
      ring
    rw [this]
    exact X_pow_notMem_QP (by norm_num)
  · obtain ⟨u, -, rfl⟩ := sdivExt3_curl hw
    exact ⟨u, rfl⟩

theorem degrees_bddf (k : ℕ) : HasDegrees (vec 3 (QP 3)) (vec 3 (P 3)) (Families.Enriched 3 k (bddfExt k)) (declSdiv .hexahedron k) := by
  refine degrees_added (d := 3) (by norm_num) (fun w hw i => ?_) (w := curlF ![0, 0, X 0 ^ (k + 1) * X 1])
    (Or.inl rfl) (i := 0) ?_ fun t ht h0 _ => curl_out (fun w hw => ?_) t ht h0
  · obtain ⟨u, h1, rfl⟩ := bddfExt_curl hw
    exact curl_mem h1 i
  · have : curlF ![0, 0, X 0 ^ (k + 1) * X 1] 0 = X 0 ^ (k + 1) := by
      simp [curlF, pderiv_mul, pderiv_pow, pderiv_X_of_ne]
    rw [this]
    exact X_pow_notMem_QP (by norm_num)
  · obtain ⟨u, -, rfl⟩ := bddfExt_curl hw
    exact ⟨u, rfl⟩

theorem degrees_sdiv2 {k : ℕ} (hk : 1 ≤ k) :
    HasDegrees (vec 2 (QP 2)) (vec 2 (P 2)) (Families.Enriched 2 k (sdivExt2 k)) (declSdiv .quadrilateral k) := by
  have hm : ∀ a b, (X 0 ^ a * X 1 ^ b : MvPolynomial ℕ ℝ) = monomial (Finsupp.single 0 a + Finsupp.single 1 b) 1 := by
    intro a b
    rw [X_pow_eq_monomial, X_pow_eq_monomial, monomial_mul, one_mul]
  have hP : ∀ a b : ℕ, a + b = k + 1 → (X 0 ^ a * X 1 ^ b : MvPolynomial ℕ ℝ) ∈ P 2 ((k : ℤ) + 1) := fun a b h =>
    P_mono (by omega) (P_mul (X_pow_mem (n := a) (by norm_num) le_rfl) (X_pow_mem (n := b) (by norm_num) le_rfl))
  refine degrees_added (d := 2) (by norm_num) (fun w hw i => ?_) (w := ![X 0 ^ (k + 1), ((k : ℝ) + 1) • (X 0 ^ k * X 1)])
    (Or.inl rfl) (i := 0) (X_pow_notMem_QP (by norm_num)) fun t ht _ _ => ?_
  · rcases hw with rfl | rfl
    · fin_cases i
      · simpa using hP (k + 1) 0 (by omega)
      · exact Submodule.smul_mem _ _ (by simpa using hP k 1 (by omega))
    · fin_cases i
      · exact Submodule.smul_mem _ _ (by simpa using hP 1 k (by omega))
      · simpa using hP 0 (k + 1) (by omega)
  · rintro ⟨p, hp, w, hw, e⟩
    obtain ⟨α, β, rfl⟩ := Submodule.mem_span_pair.1 hw
    have e1 := congrFun e 1
    have e0 := congrFun e 0
    rw [at_ne (by decide)] at e1
    have z0 : (at' ⟨0, by norm_num⟩ (monomial t 1) : Field 2) 0 = monomial t 1 := at_same _ _
    rw [z0] at e0
    simp only [Pi.add_apply, Pi.smul_apply, Matrix.cons_val_zero, Matrix.cons_val_one] at e0 e1
    have hpc : ∀ (i : Fin 2) (s : ℕ →₀ ℕ), s.degree = k + 1 → coeff s (p i) = 0 := by
      intro i s hs
      by_contra h
      have := (mem_P.1 (hp i) s (mem_support_iff.2 h)).1
      omega
    have m1 : (X 0 ^ k * X 1 : MvPolynomial ℕ ℝ) = X 0 ^ k * X 1 ^ 1 := by rw [pow_one]
    have m2 : (X 1 ^ (k + 1) : MvPolynomial ℕ ℝ) = X 0 ^ 0 * X 1 ^ (k + 1) := by rw [pow_zero, one_mul]
    rw [m1, m2, hm, hm] at e1
    have ne : (Finsupp.single 0 k + Finsupp.single 1 1 : ℕ →₀ ℕ) ≠ Finsupp.single 0 0 + Finsupp.single 1 (k + 1) := by
      intro h
      have := DFunLike.congr_fun h 0
      simp at this
      omega
    have c1 := congrArg (coeff (Finsupp.single 0 k + Finsupp.single 1 1)) e1
    have c2 := congrArg (coeff (Finsupp.single 0 0 + Finsupp.single 1 (k + 1))) e1
    rw [coeff_zero, coeff_add, hpc 1 _ (by simp), zero_add, coeff_add, coeff_smul, coeff_smul, coeff_smul, coeff_monomial, coeff_monomial, if_pos rfl,
      if_neg ne.symm] at c1
    rw [coeff_zero, coeff_add, hpc 1 _ (by simp), zero_add, coeff_add, coeff_smul, coeff_smul, coeff_smul, coeff_monomial, coeff_monomial, if_pos rfl,
      if_neg ne] at c2
    have hα : α = 0 := by
      simp at c1
      rcases c1 with h | h
      · exact h
      · exact absurd h (by positivity)
    have hβ : β = 0 := by simpa using c2.symm
    rw [hα, hβ, zero_smul, zero_smul, add_zero, add_zero] at e0
    have c0 := congrArg (coeff t) e0
    rw [coeff_monomial, if_pos rfl, hpc 0 t ht] at c0
    exact one_ne_zero c0

/-! ### Elements -/

theorem simp_W {c : Cell} (hc : Simp c) : W c = P c.tdim := W_eq_simplex (by rcases hc with rfl | rfl <;> simp [Simplex])

/-- Vector valued Lagrange elements, and elements with all polynomials on triangles and tetrahedra. -/
theorem full_degrees {k : ℕ} :
    (∀ {c : Cell}, Simplex c → ElementDegrees (vec c.tdim (W c)) (vec c.tdim (P c.tdim)) (vectorLagrangeElement "equispaced" c (refVertex c) k) (declComplete k)) ∧
    (1 ≤ k → ∀ {c : Cell}, Simp c → ElementDegrees (vec c.tdim (W c)) (vec c.tdim (P c.tdim)) (bdmElement "equispaced" c k) (declComplete k) ∧
      ElementDegrees (vec c.tdim (W c)) (vec c.tdim (P c.tdim)) (n2Element "equispaced" c k) (declComplete k)) := by
  have hf : ∀ {d : ℕ}, 0 < d → HasDegrees (vec d (P d)) (vec d (P d)) (FullSpace d k) (declComplete k) := fun hd =>
    (degrees_P hd k).vec hd (Submodule.zero_mem _)
  refine ⟨fun {c} hc => ?_, fun hk c hc => ?_⟩
  · obtain ⟨e, fs, h1, h2, h3, -⟩ := vectorLagrange_basis hc (refVertex c) (nonDegenerate_ref hc) k
    refine ⟨e, fs, h1, h2, ?_⟩
    rw [W_eq_simplex hc, h3]
    have : (fun v => v ∈ PV c.tdim c.tdim k) = FullSpace c.tdim k := funext fun v => propext mem_PV
    rw [this]
    exact hf (by rcases hc with rfl | rfl | rfl <;> decide)
  · rw [simp_W hc]
    refine ⟨of_created (bdm_created hc hk) (hf hc.pos), ?_⟩
    rcases hc with rfl | rfl
    · exact of_created (n2_created2 hk) (hf (by decide))
    · exact of_created (n2_created3 hk) (hf (by decide))

/-- Raviart-Thomas elements. -/
theorem rt_degrees {c : Cell} (hc : Simp c) {k : ℕ} (hk : 1 ≤ k) :
    ElementDegrees (vec c.tdim (W c)) (vec c.tdim (P c.tdim)) (rtElement "equispaced" c k) (declRT k) := by
  rw [simp_W hc]
  exact of_created (rt_created hc hk) (degrees_RT (by rcases hc with rfl | rfl <;> decide) hk)

/-- Nédélec elements. -/
theorem n1_degrees {c : Cell} (hc : Simp c) {k : ℕ} (hk : 1 ≤ k) :
    ElementDegrees (vec c.tdim (W c)) (vec c.tdim (P c.tdim)) (n1Element "equispaced" c k) (declRT k) := by
  rw [simp_W hc]
  rcases hc with rfl | rfl
  · exact of_created (n1_created2 hk) (degrees_N1 (by decide) hk)
  · exact of_created (n1_created3 hk) (degrees_N1 (by decide) hk)

/-- BDFM elements of triangles. -/
theorem bdfmTri_degrees {k : ℕ} (hk : 1 ≤ k) :
    ElementDegrees (vec 2 (W .triangle)) (vec 2 (P 2)) (bdfmSimp "equispaced" .triangle k) (declRT k) := by
  rw [simp_W (Or.inl rfl)]
  exact of_created (bdfmTri_created hk) (degrees_BDFMS (by norm_num) hk)

/-- Elements of quadrilaterals and hexahedra. -/
theorem box_degrees {c : Cell} (hc : Box c) {k : ℕ} :
    ElementDegrees (vec c.tdim (W c)) (vec c.tdim (P c.tdim)) (vectorQElement "equispaced" c k) (declQ c k) ∧
    ElementDegrees (vec c.tdim (W c)) (vec c.tdim (P c.tdim)) (vectorDpcElement c k) (declDpc c k) ∧
    (1 ≤ k → ElementDegrees (vec c.tdim (W c)) (vec c.tdim (P c.tdim)) (rtqElement "equispaced" c k) (declRTQ c k) ∧
      ElementDegrees (vec c.tdim (W c)) (vec c.tdim (P c.tdim)) (ncqElement "equispaced" c k) (declNCQ c k) ∧
      ElementDegrees (vec c.tdim (W c)) (vec c.tdim (P c.tdim)) (bdfmBox "equispaced" c k) (declBDFM c k) ∧
      ElementDegrees (vec c.tdim (W c)) (vec c.tdim (P c.tdim)) (sdiv "equispaced" c k) (declSdiv c k)) := by
  have hd : 2 ≤ c.tdim := by rcases hc with rfl | rfl <;> decide
  rw [W_eq_box hc]
  refine ⟨?_, ?_, fun hk => ⟨of_created (rtq_created hc hk (points_equispaced _)) (degrees_RTQ hd hk), ?_,
    of_created (bdfmBox_created hc hk) (degrees_BDFMQ hd hk), ?_⟩⟩
  · obtain ⟨e, fs, h1, h2, h3, -⟩ := vectorQ_basis hc.tensor (points_equispaced k)
    refine ⟨e, fs, h1, h2, ?_⟩
    have : (fun v => v ∈ lspan fs) = fun v => ∀ i, v i ∈ QP c.tdim k := funext fun v => propext (h3 v)
    rw [this]
    exact (degrees_QP (by omega) k).vec (by omega) (Submodule.zero_mem _)
  · obtain ⟨e, fs, h1, h2, h3, -⟩ := vectorDpc_basis hc k
    refine ⟨e, fs, h1, h2, ?_⟩
    rw [h3]
    have : (fun v => v ∈ PV c.tdim c.tdim k) = fun v => ∀ i, v i ∈ P c.tdim k := funext fun v => propext mem_PV
    rw [this]
    exact (degrees_P_box (by omega) k).vec (by omega) (Submodule.zero_mem _)
  · rcases hc with rfl | rfl
    · exact of_created (ncq_created2 hk (points_equispaced _)) (degrees_NCQ (by decide) hk)
    · exact of_created (ncq_created3 hk (points_equispaced _)) (degrees_NCQ (by decide) hk)
  · rcases hc with rfl | rfl
    · exact of_created (sdiv_created_quadrilateral hk) (degrees_sdiv2 hk)
    · exact of_created (sdiv_created_hexahedron hk) (degrees_sdiv3 k)

/-- The element of Brezzi, Douglas, Durán and Fortin. -/
theorem bddf_degrees {k : ℕ} (hk : 1 ≤ k) :
    ElementDegrees (vec 3 (W .hexahedron)) (vec 3 (P 3)) (bddf "equispaced" k) (declSdiv .hexahedron k) := by
  rw [W_eq_box (Or.inr rfl)]
  exact of_created (bddf_created hk) (degrees_bddf k)

/-- Bubble enriched vector valued elements. -/
theorem enrichedVector_degrees {k : ℕ} (hk : 1 ≤ k) (h2 : k ≤ 2) :
    ElementDegrees (vec 2 (W .triangle)) (vec 2 (P 2)) (enrichedVectorElement k) (declEnriched k) := by
  rw [simp_W (Or.inl rfl)]
  exact of_created (enrichedVector_created_partial hk h2)
    ((degrees_enriched hk).vec (by norm_num) ⟨0, Submodule.zero_mem _, 0, ⟨Submodule.zero_mem _, fun _ _ => map_zero _⟩, (add_zero 0).symm⟩)

example : ElementDegrees (vec 3 (W .hexahedron)) (vec 3 (P 3)) (ncqElement "equispaced" .hexahedron 2) ⟨1, 2, 1, 5⟩ := by
  have := ((box_degrees (c := .hexahedron) (Or.inr rfl) (k := 2)).2.2 (by norm_num)).2.1
  have e : declNCQ .hexahedron 2 = ⟨1, 2, 1, 5⟩ := rfl
  rwa [e] at this

end Verif.Degrees
