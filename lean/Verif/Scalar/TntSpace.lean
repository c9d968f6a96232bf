import Verif.Scalar.Serendipity
import Verif.Scalar.Lag
import Verif.Families.Ac
import Verif.Families.BoxParts
import Verif.Smooth.Chain
/-!
# The space of the tiniest tensor product elements

C153.
-/

namespace Verif.Scalar
open Verif.References Verif.Moments Verif.Functionals Verif.Elements Verif.FiniteElement Verif.Polysets Verif.Orthogonal
open Verif.Families
open MvPolynomial

/-- The exponents: all at most `k`, or one equal to `k + 1` and the others at most 1. -/
def tntExps (d k : ℕ) : Set (ℕ →₀ ℕ) :=
  {t | (∀ i ∈ t.support, i < d) ∧ ((∀ i, t i ≤ k) ∨ ∃ i, t i = k + 1 ∧ ∀ j, j ≠ i → t j ≤ 1)}

/-- Polynomials of degree at most `k` in every variable, and products of the power `k + 1` of one variable with polynomials that have
degree at most 1 in every other variable. -/
noncomputable def Tnt (d k : ℕ) : Submodule ℝ (MvPolynomial ℕ ℝ) := restrictSupport ℝ (tntExps d k)

theorem mem_Tnt {d k : ℕ} {p : MvPolynomial ℕ ℝ} : p ∈ Tnt d k ↔ ∀ t ∈ p.support, t ∈ tntExps d k := mem_restrictSupport_iff ℝ

theorem Tnt_QP {d k : ℕ} : Tnt d k ≤ QP d ((k : ℤ) + 1) := by
  intro p hp
  refine mem_B.2 fun t ht i => ?_
  obtain ⟨h1, h2⟩ := mem_Tnt.1 hp t ht
  by_cases hi : i < d
  · rw [if_pos hi]
    rcases h2 with h2 | ⟨j, h3, h4⟩
    · have := h2 i
      omega
    · by_cases hij : i = j
      · subst hij
        omega
      · have := h4 i hij
        omega
  · rw [if_neg hi]
    have : t i = 0 := by
      by_contra hn
      exact hi (h1 i (Finsupp.mem_support_iff.2 hn))
    omega

theorem Tnt_P {d k : ℕ} {p : MvPolynomial ℕ ℝ} (hp : p ∈ Tnt d k) : p ∈ P d (d * ((k : ℤ) + 1)) :=
  B_P (fun i hi => by rw [if_pos hi]) (fun i hi => by rw [if_neg (by omega)]) (Tnt_QP hp)

theorem QP_Tnt (d k : ℕ) : QP d k ≤ Tnt d k := by
  intro p hp
  refine mem_Tnt.2 fun t ht => ⟨fun i hi => ?_, Or.inl fun i => ?_⟩
  · by_contra hn
    have := mem_B.1 hp t ht i
    rw [if_neg hn] at this
    have h0 := Finsupp.mem_support_iff.1 hi
    omega
  · have := mem_B.1 hp t ht i
    split_ifs at this <;> omega

/-- The restriction to an entity. -/
theorem Tnt_pull {D : Domain} {σ : ℕ → ℕ} (h : Aligned D σ) {d k : ℕ} (hk : 1 ≤ k) {p : MvPolynomial ℕ ℝ} (hp : p ∈ Tnt d k) :
    pull D p ∈ Tnt D.cell.tdim k := by
  classical
  unfold pull
  rw [p.as_sum, map_sum]
  refine Submodule.sum_mem _ fun t ht => ?_
  obtain ⟨-, h2⟩ := mem_Tnt.1 hp t ht
  rw [aeval_monomial, algebraMap_eq]
  obtain ⟨r, s, e, hs⟩ := mono_pull h t t.support
  rw [Finsupp.prod, e, ← mul_assoc, ← C_mul, C_mul']
  refine Submodule.smul_mem _ _ ?_
  show _ ∈ restrictSupport _ _
  rw [monomial_mem_restrictSupport]
  left
  have hlt : ∀ i, s i ≠ 0 → i < D.cell.tdim ∧ s i = t (σ i) := by
    intro i h0
    have h2 := hs i
    split_ifs at h2 with hc
    · exact ⟨hc.1, h2⟩
    · exact absurd h2 h0
  refine ⟨fun i hi => (hlt i (Finsupp.mem_support_iff.1 hi)).1, ?_⟩
  by_cases ha : ∀ i, s i ≤ k
  · exact Or.inl ha
  · right
    push Not at ha
    obtain ⟨i, hi⟩ := ha
    obtain ⟨h3, h4⟩ := hlt i (by omega)
    rcases h2 with h2 | ⟨a, h5, h6⟩
    · have := h2 (σ i)
      omega
    · have hia : σ i = a := by
        by_contra hn
        have := h6 _ hn
        omega
      refine ⟨i, by rw [h4, hia, h5], fun j hj => ?_⟩
      by_cases hj0 : s j = 0
      · omega
      · obtain ⟨h7, h8⟩ := hlt j hj0
        rw [h8]
        refine h6 _ fun hn => hj (h.inj j h7 i h3 (hn.trans hia.symm))

/-! ### Functions that vanish on the boundary -/

theorem coeff_bub (j : ℕ) (w : MvPolynomial ℕ ℝ) (s : ℕ →₀ ℕ) :
    coeff (s + Finsupp.single j 1 + Finsupp.single j 1) (bub j * w) = coeff (s + Finsupp.single j 1) w - coeff s w ∧
    (s j = 0 → coeff s (bub j * w) = 0 ∧ coeff (s + Finsupp.single j 1) (bub j * w) = coeff s w) := by
  have e : bub j * w = X j * w - X j * (X j * w) := by rw [bub]; ring
  have hx : ∀ (s : ℕ →₀ ℕ) (p : MvPolynomial ℕ ℝ), coeff (s + Finsupp.single j 1) (X j * p) = coeff s p := fun s p => by
    rw [add_comm, coeff_X_mul]
  have h0 : ∀ (s : ℕ →₀ ℕ) (p : MvPolynomial ℕ ℝ), s j = 0 → coeff s (X j * p) = 0 := fun s p h => by
    rw [coeff_X_mul', if_neg]
    rw [Finsupp.mem_support_iff]
    exact fun hn => hn h
  refine ⟨?_, fun hs => ⟨?_, ?_⟩⟩
  · rw [e, coeff_sub, hx, hx, hx]
  · rw [e, coeff_sub, h0 _ _ hs, h0 _ _ hs, sub_zero]
  · rw [e, coeff_sub, hx, hx, h0 _ _ hs, sub_zero]

/-- The products with the highest power of a variable do not vanish where another variable is 0 or 1. -/
theorem tnt_top {d k i j : ℕ} (hij : j ≠ i) {w : MvPolynomial ℕ ℝ} (hg : bub j * w ∈ Tnt d k) (hk : 1 ≤ k) {t : ℕ →₀ ℕ} (ht : t i = k + 1) :
    coeff t (bub j * w) = 0 := by
  have hz : ∀ s : ℕ →₀ ℕ, s i = k + 1 → 2 ≤ s j → coeff s (bub j * w) = 0 := by
    intro s hi hj
    by_contra hn
    obtain ⟨-, h⟩ := mem_Tnt.1 hg s (mem_support_iff.2 hn)
    rcases h with h | ⟨a, h1, h2⟩
    · have := h i
      omega
    · have hia : i = a := by
        by_contra hne
        have := h2 i hne
        omega
      subst hia
      have := h2 j hij
      omega
  by_cases h2 : 2 ≤ t j
  · exact hz t ht h2
  -- the exponents without `j`
  let s : ℕ →₀ ℕ := t.erase j
  have hsj : s j = 0 := Finsupp.erase_same
  have hsi : s i = k + 1 := by
    rw [← ht]
    exact Finsupp.erase_ne (Ne.symm hij)
  have hstep : ∀ m : ℕ, coeff (s + Finsupp.single j m) w = coeff s w := by
    intro m
    induction m with
    | zero => simp
    | succ m ih =>
      have h3 := (coeff_bub j w (s + Finsupp.single j m)).1
      rw [hz _ (by simp [hsi, Finsupp.single_apply, hij]) (by simp)] at h3
      rw [Finsupp.single_add, ← add_assoc, ← ih]
      linarith
  have hw : coeff s w = 0 := by
    rw [← hstep (w.totalDegree + 1)]
    refine coeff_eq_zero_of_totalDegree_lt ?_
    have : (s + Finsupp.single j (w.totalDegree + 1)).degree = s.degree + (w.totalDegree + 1) := by rw [map_add, Finsupp.degree_single]
    rw [Finsupp.degree_apply] at this
    rw [this]
    omega
  have e : t = s + Finsupp.single j (t j) := by
    rw [add_comm]
    exact (Finsupp.single_add_erase j t).symm
  obtain ⟨h3, h4⟩ := (coeff_bub j w s).2 hsj
  obtain h | h : t j = 0 ∨ t j = 1 := by omega
  · rw [e, h, Finsupp.single_zero, add_zero, h3]
  · rw [e, h, h4, hw]

/-- A function of the space on a quadrilateral or hexahedron that vanishes on the boundary. -/
theorem tnt_bubble {n k : ℕ} (hn : 2 ≤ n) (hk : 1 ≤ k) {g : MvPolynomial ℕ ℝ} (hg : g ∈ Tnt n k)
    (h : ∀ j < n, ∀ z : ℕ → ℝ, z j = 0 ∨ z j = 1 → eval z g = 0) : ∃ w ∈ QP n ((k : ℤ) - 2), g = cellBub n * w := by
  have hq : g ∈ QP n k := by
    refine mem_B.2 fun t ht i => ?_
    have h1 := mem_B.1 (Tnt_QP hg) t ht i
    by_cases hi : i < n
    · rw [if_pos hi] at h1 ⊢
      by_contra hlt
      have hti : t i = k + 1 := by omega
      obtain ⟨j, hj, hji⟩ : ∃ j < n, j ≠ i := by
        by_cases h0 : i = 0
        · exact ⟨1, by omega, by omega⟩
        · exact ⟨0, by omega, by omega⟩
      obtain ⟨w, -, rfl⟩ := P_bub j (Tnt_P hg) (h j hj)
      exact mem_support_iff.1 ht (tnt_top hji hg hk hti)
    · rwa [if_neg hi] at h1 ⊢
  obtain ⟨w, hw, e⟩ := box_factor hq h
  refine ⟨w, B_mono (fun i => ?_) hw, e⟩
  split_ifs <;> omega

/-- A function whose gradient is zero in the mean square. -/
theorem zero_of_gradient {c : Cell} (hc : Box c) {k : ℤ} {g : MvPolynomial ℕ ℝ} (hg : g ∈ P c.tdim k)
    (h : ∀ j < c.tdim, ∀ z : ℕ → ℝ, z j = 0 ∨ z j = 1 → eval z g = 0)
    (hm : cellInt c (fun z => eval z (∑ j : Fin c.tdim, pderiv j.val g * pderiv j.val g)) = 0) : g = 0 := by
  have hpos : 0 < c.tdim := by rcases hc with rfl | rfl <;> decide
  have h1 : pderiv 0 g = 0 := by
    refine squares_zero hc.solid (fun _ : Fin c.tdim => 1) (fun _ z _ => by simp) (fun _ z _ => by simp) (fun j => pderiv j.val g)
      (k := k) (fun j => P_mono (by omega) (Smooth.pderiv_mem hg j.val)) (Eq.trans ?_ hm) ⟨0, hpos⟩
    congr 1
    funext z
    congr 1
    refine Finset.sum_congr rfl fun j _ => ?_
    rw [one_mul, pow_two]
  exact zero_of_pderiv h1 fun z hz => h 0 hpos z (Or.inl hz)

/-- Integration by parts for functions that vanish on the boundary. -/
theorem laplace_parts {c : Cell} (hc : Box c) {k l : ℤ} {g f : MvPolynomial ℕ ℝ} (hg : g ∈ P c.tdim k) (hf : f ∈ P c.tdim l)
    (h : ∀ j < c.tdim, ∀ z : ℕ → ℝ, z j = 0 ∨ z j = 1 → eval z g = 0) :
    pairing1 c g (∑ j : Fin c.tdim, pderiv j.val (pderiv j.val f)) =
      - cellInt c (fun z => eval z (∑ j : Fin c.tdim, pderiv j.val g * pderiv j.val f)) := by
  have h0 : cellInt c (fun z => eval z (∑ j : Fin c.tdim, pderiv j.val (g * pderiv j.val f))) = 0 := by
    rw [cellInt_poly_sum]
    refine Finset.sum_eq_zero fun i _ => box_pderiv hc i.2 (P_mul hg (Smooth.pderiv_mem hf i.val)) fun z hz => ?_
    rw [map_mul, h i.val i.2 z hz, zero_mul]
  have e : (∑ j : Fin c.tdim, pderiv j.val (g * pderiv j.val f)) =
      g * (∑ j : Fin c.tdim, pderiv j.val (pderiv j.val f)) + ∑ j : Fin c.tdim, pderiv j.val g * pderiv j.val f := by
    rw [Finset.mul_sum, ← Finset.sum_add_distrib]
    refine Finset.sum_congr rfl fun i _ => ?_
    rw [Derivation.leibniz, smul_eq_mul, smul_eq_mul]
    ring
  rw [e] at h0
  simp only [map_add] at h0
  rw [cellInt_add _ (continuous_eval _) (continuous_eval _)] at h0
  rw [eq_neg_iff_add_eq_zero]
  exact h0

end Verif.Scalar
