import Verif.Degrees.Basic
import Verif.Scalar.Serendipity
import Verif.Scalar.ConformingCR
import Verif.Scalar.BubbleEnriched
import Verif.Elements.PropsPrism
import Verif.Smooth.Bell
import Verif.Smooth.Bfs
import Verif.Smooth.Taylor
/-!
# Degrees declared by scalar elements
-/

namespace Verif.Degrees
open Verif.References Verif.Elements Verif.FiniteElement Verif.Polysets
open Verif.Families Verif.Scalar Verif.Smooth
open MvPolynomial

/-! ### What the classes declare -/

/-- `Lagrange` (symfem/elements/lagrange.py:91-105), `Bernstein` (symfem/elements/bernstein.py:237-251), `CrouzeixRaviart`
(symfem/elements/crouzeix_raviart.py:83-97), `Hermite` (symfem/elements/hermite.py:50-64), `Taylor` (symfem/elements/taylor.py:44-58),
`Argyris` (symfem/elements/argyris.py:67-81) and `Morley` (symfem/elements/morley.py:47-61). -/
def declComplete (k : ℕ) : Declared := ⟨k, k, k, k⟩

/-- `Q` (symfem/elements/q.py:149-163); with `k = 3` also `BognerFoxSchmit` (symfem/elements/bfs.py:53-67). -/
def declQ (c : Cell) (k : ℕ) : Declared := ⟨k, k, k, (k : ℤ) * c.tdim⟩

/-- `DPC` (symfem/elements/dpc.py:74-88). -/
def declDpc (c : Cell) (k : ℕ) : Declared := ⟨(k : ℤ) / c.tdim, k, k, k⟩

/-- `Serendipity` (symfem/elements/serendipity.py:69-85). -/
def declSerendipity (c : Cell) (k : ℕ) : Declared := ⟨if k < c.tdim then 1 else (k : ℤ) / c.tdim, k, k, (k : ℤ) + c.tdim - 1⟩

/-- `ConformingCrouzeixRaviart` (symfem/elements/conforming_crouzeix_raviart.py:61-79). -/
def declConformingCR (k : ℕ) : Declared := ⟨k, if k = 1 then 1 else (k : ℤ) + 1, k, if k = 1 then 1 else (k : ℤ) + 1⟩

/-- `Bubble` (symfem/elements/bubble.py:89-105). -/
def declBubble (c : Cell) (k : ℕ) : Declared := ⟨-1, k, -1, if c ∈ [Cell.quadrilateral, .hexahedron] then (k : ℤ) * c.tdim else k⟩

/-- `BubbleEnrichedLagrange` (symfem/elements/bubble.py:152-166). -/
def declEnriched (k : ℕ) : Declared := ⟨k, (k : ℤ) + 2, k, (k : ℤ) + 2⟩

/-- `Bell` (symfem/elements/bell.py:57-71). -/
def declBell : Declared := ⟨4, 5, 4, 5⟩

/-! ### Spaces -/

theorem degree_range {d : ℕ} {t : ℕ →₀ ℕ} (h : ∀ i ∈ t.support, i < d) : t.degree = ∑ i ∈ Finset.range d, t i := by
  rw [Finsupp.degree_apply]
  exact Finset.sum_subset (fun i hi => Finset.mem_range.2 (h i hi)) fun i _ hi => Finsupp.notMem_support_iff.1 hi

theorem slDegree_le (t : ℕ →₀ ℕ) : slDegree t ≤ t.degree := by
  rw [slDegree, Finsupp.degree_apply]
  refine Finset.sum_le_sum fun i _ => ?_
  split_ifs <;> omega

theorem le_slDegree {t : ℕ →₀ ℕ} {i : ℕ} (h : t i ≠ 1) : t i ≤ slDegree t := by
  by_cases h0 : t i = 0
  · omega
  · refine le_trans ?_ (Finset.single_le_sum (f := fun i => if t i = 1 then 0 else t i) (fun _ _ => Nat.zero_le _) (Finsupp.mem_support_iff.2 h0))
    simp [h]

theorem degree_le_sl {d : ℕ} {t : ℕ →₀ ℕ} (h : ∀ i ∈ t.support, i < d) {k : ℕ} (hk : 1 ≤ k) (hs : slDegree t ≤ k) : t.degree + 1 ≤ k + d := by
  rw [degree_range h]
  rw [slDegree_range h] at hs
  have h1 : ∑ i ∈ Finset.range d, t i = (∑ i ∈ Finset.range d, if t i = 1 then 0 else t i) + ∑ i ∈ Finset.range d, if t i = 1 then 1 else 0 := by
    rw [← Finset.sum_add_distrib]
    refine Finset.sum_congr rfl fun i _ => ?_
    split_ifs <;> omega
  have h2 : (∑ i ∈ Finset.range d, if t i = 1 then 1 else 0) ≤ d := by
    refine (Finset.sum_le_card_nsmul _ _ 1 fun i _ => by split_ifs <;> omega).trans ?_
    simp
  by_cases h3 : ∀ i ∈ Finset.range d, t i ≤ 1
  · have : (∑ i ∈ Finset.range d, if t i = 1 then 0 else t i) = 0 := Finset.sum_eq_zero fun i hi => by
      have := h3 i hi
      split_ifs <;> omega
    omega
  · push Not at h3
    obtain ⟨i, hi, h4⟩ := h3
    have : (∑ i ∈ Finset.range d, if t i = 1 then 1 else 0) < d := by
      have h5 : (∑ i ∈ Finset.range d, if t i = 1 then 1 else 0) < ∑ i ∈ Finset.range d, 1 :=
        Finset.sum_lt_sum (fun j _ => by split_ifs <;> omega) ⟨i, hi, by rw [if_neg (by omega)]; omega⟩
      simpa using h5
    omega

theorem mono_mem_Ser {d k : ℕ} {t : ℕ →₀ ℕ} : monomial t (1 : ℝ) ∈ Ser d k ↔ slDegree t ≤ k ∧ ∀ i ∈ t.support, i < d := by
  rw [mem_Ser]
  simp [support_monomial]

theorem degrees_Ser {d : ℕ} (hd : 0 < d) {k : ℕ} (hk : 1 ≤ k) :
    HasDegrees (QP d) (P d) (· ∈ Ser d k) ⟨if k < d then 1 else (k : ℤ) / d, k, k, (k : ℤ) + d - 1⟩ := by
  obtain ⟨n, hn, hn1, hn2, hn3⟩ : ∃ n : ℕ, (if k < d then 1 else (k : ℤ) / d) = n ∧ 1 ≤ n ∧ (n = 1 ∨ d * n ≤ k) ∧ k < d * (n + 1) := by
    by_cases h : k < d
    · exact ⟨1, by simp [h], le_rfl, Or.inl rfl, by omega⟩
    · refine ⟨k / d, by simp [h], (Nat.one_le_div_iff hd).2 (by omega), Or.inr (Nat.mul_div_le k d), Nat.lt_mul_div_succ k hd⟩
  rw [hn]
  have hsup : ∀ {m : ℤ} {t : ℕ →₀ ℕ}, (∀ i, (t i : ℤ) ≤ if i < d then m else 0) → ∀ i ∈ t.support, i < d := by
    intro m t h i hi
    have := h i
    by_contra h'
    rw [if_neg h'] at this
    exact Finsupp.mem_support_iff.1 hi (by omega)
  refine .mk (greatest_of (QP_monotone d) (fun v hv => ?_) (monomial (box d (n + 1)) 1) ((box_mem_QP hd).2 (by push_cast; rfl)) fun h => ?_)
    (least_of (QP_monotone d) (fun v hv => ?_) (monomial (Finsupp.single 0 k) 1) (mono_mem_Ser.2 ⟨?_, ?_⟩) fun h => ?_)
    (greatest_of (P_monotone d) (fun v hv => ?_) (monomial (Finsupp.single 0 (k + 1)) 1)
      ((single_mem_P hd (Or.inl (by omega))).2 (by push_cast; rfl)) fun h => ?_)
    (least_of (P_monotone d) (fun v hv => ?_) (monomial (Finsupp.single 0 (k - 1) + box d 1) 1) (mono_mem_Ser.2 ⟨?_, ?_⟩) fun h => ?_)
  · rw [mem_Ser]
    intro t ht
    have hb := mem_B.1 hv t ht
    have hs := hsup hb
    refine ⟨?_, hs⟩
    rcases hn2 with rfl | h2
    · rw [slDegree]
      refine (Nat.le_of_eq (Finset.sum_eq_zero fun i hi => ?_)).trans (Nat.zero_le _)
      have := hb i
      rw [if_pos (hs i hi)] at this
      have h0 := Finsupp.mem_support_iff.1 hi
      rw [if_pos (by push_cast at this; omega)]
    · refine (slDegree_le t).trans (le_trans ?_ h2)
      have := (mem_P.1 (QP_le_P d n hv) t ht).1
      exact_mod_cast this
  · have h1 := (mono_mem_Ser.1 h).1
    rw [slDegree_range fun i hi => box_support hi] at h1
    have : ∑ i ∈ Finset.range d, (if box d (n + 1) i = 1 then 0 else box d (n + 1) i) = d * (n + 1) := by
      rw [Finset.sum_congr rfl fun i hi => ?_, Finset.sum_const, Finset.card_range, smul_eq_mul]
      rw [box_apply, if_pos (Finset.mem_range.1 hi), if_neg (by omega)]
    omega
  · rw [QP, mem_B]
    intro t ht i
    obtain ⟨h1, h2⟩ := mem_Ser.1 hv t ht
    by_cases h3 : t i = 1
    · rw [if_pos (h2 i (Finsupp.mem_support_iff.2 (by omega)))]
      omega
    · have := le_slDegree h3
      split_ifs with h4
      · omega
      · have : t i = 0 := by
          by_contra h5
          exact h4 (h2 i (Finsupp.mem_support_iff.2 h5))
        omega
  · exact (slDegree_le _).trans (by simp)
  · intro i hi
    have := Finsupp.support_single_subset hi
    simp at this
    omega
  · rw [QP, mono_mem_B] at h
    have := h 0
    simp [hd] at this
  · rw [mem_Ser]
    intro t ht
    obtain ⟨h1, h2⟩ := mem_P.1 hv t ht
    exact ⟨(slDegree_le t).trans (by exact_mod_cast h1), h2⟩
  · have h1 := (mono_mem_Ser.1 h).1
    have h2 : (Finsupp.single 0 (k + 1) : ℕ →₀ ℕ) 0 ≤ slDegree (Finsupp.single 0 (k + 1)) := le_slDegree (by simp; omega)
    rw [Finsupp.single_eq_same] at h2
    omega
  · rw [mem_P]
    intro t ht
    obtain ⟨h1, h2⟩ := mem_Ser.1 hv t ht
    have := degree_le_sl h2 hk h1
    exact ⟨by omega, h2⟩
  · have hs : ∀ i ∈ (Finsupp.single 0 (k - 1) + box d 1 : ℕ →₀ ℕ).support, i < d := by
      intro i hi
      rw [Finsupp.mem_support_iff, Finsupp.add_apply, Finsupp.single_apply, box_apply] at hi
      split_ifs at hi <;> omega
    rw [slDegree_range hs, Finset.sum_eq_single 0]
    · simp [box_apply, hd]
      split_ifs <;> omega
    · intro i hi h0
      rw [Finsupp.add_apply, Finsupp.single_apply, box_apply, if_neg (Ne.symm h0), if_pos (Finset.mem_range.1 hi)]
      simp
    · intro h0
      simp at h0
      omega
  · intro i hi
    rw [Finsupp.mem_support_iff, Finsupp.add_apply, Finsupp.single_apply, box_apply] at hi
    split_ifs at hi <;> omega
  · have := (mono_mem_P.1 h).1
    rw [map_add, Finsupp.degree_single, box_degree] at this
    push_cast at this
    omega

theorem ccr_coeff {k : ℕ} {f : MvPolynomial ℕ ℝ} (hf : f ∈ Ccr k) : coeff (Finsupp.single 0 (k + 1)) f = 0 := by
  have : Ccr k ≤ LinearMap.ker (lcoeff ℝ (Finsupp.single 0 (k + 1))) := by
    refine sup_le (fun p hp => ?_) ?_
    · show coeff _ p = 0
      by_contra h
      have := (mem_P.1 hp _ (mem_support_iff.2 h)).1
      simp at this
    · rw [Submodule.span_le]
      rintro p ⟨a, b, ha, hb, hab, rfl⟩
      show coeff _ _ = 0
      have : (X 0 ^ a * X 1 ^ b * (X 0 + X 1) : MvPolynomial ℕ ℝ) = (X 0 ^ a * X 1 ^ (b - 1) * (X 0 + X 1)) * X 1 := by
        obtain ⟨b, rfl⟩ : ∃ m, b = m + 1 := ⟨b - 1, by omega⟩
        simp only [Nat.add_sub_cancel]
        ring
      rw [this, coeff_mul_X', if_neg (by simp)]
  exact this hf

theorem degrees_Ccr {k : ℕ} (hk : 1 ≤ k) :
    HasDegrees (P 2) (P 2) (· ∈ Ccr k) ⟨k, if k = 1 then 1 else (k : ℤ) + 1, k, if k = 1 then 1 else (k : ℤ) + 1⟩ := by
  have h1 : IsGreatest {n | ∀ v ∈ P 2 n, v ∈ Ccr k} (k : ℤ) :=
    greatest_of (P_monotone 2) (fun v hv => Submodule.mem_sup_left hv) (monomial (Finsupp.single 0 (k + 1)) 1)
      ((single_mem_P (by norm_num) (Or.inl (by omega))).2 (by push_cast; rfl)) fun h => by
        have := ccr_coeff h
        simp at this
  have h2 : IsLeast {n | ∀ v, v ∈ Ccr k → v ∈ P 2 n} (if k = 1 then 1 else (k : ℤ) + 1) := by
    by_cases hk1 : k = 1
    · subst hk1
      have : Ccr 1 = P 2 1 := by
        have : {p : MvPolynomial ℕ ℝ | ∃ a b : ℕ, 0 < a ∧ 0 < b ∧ a + b = 1 ∧ p = X 0 ^ a * X 1 ^ b * (X 0 + X 1)} = ∅ := by
          ext p
          simp
          omega
        rw [Ccr, this, Submodule.span_empty, sup_bot_eq]
        rfl
      rw [this, if_pos rfl]
      exact (degrees_P (by norm_num) 1).2.1
    · rw [if_neg hk1]
      refine least_of (P_monotone 2) (fun v hv => ?_) (X 0 ^ (k - 1) * X 1 ^ 1 * (X 0 + X 1))
        (Submodule.mem_sup_right (Submodule.subset_span ⟨k - 1, 1, by omega, by omega, by omega, rfl⟩)) fun h => ?_
      · have : Ccr k ≤ P 2 ((k : ℤ) + 1) := by
          refine sup_le (P_mono (by omega)) ?_
          rw [Submodule.span_le]
          rintro p ⟨a, b, ha, hb, hab, rfl⟩
          have e0 := P_pow (X_mem (show 0 < 2 by norm_num) : (X 0 : MvPolynomial ℕ ℝ) ∈ P 2 1) a
          have e1 := P_pow (X_mem (show 1 < 2 by norm_num) : (X 1 : MvPolynomial ℕ ℝ) ∈ P 2 1) b
          have e2 : (X 0 + X 1 : MvPolynomial ℕ ℝ) ∈ P 2 1 := Submodule.add_mem _ (X_mem (by norm_num)) (X_mem (by norm_num))
          refine P_mono ?_ (P_mul (P_mul e0 e1) e2)
          push_cast
          omega
        exact this hv
      · have hc : coeff (Finsupp.single 0 k + Finsupp.single 1 1) (X 0 ^ (k - 1) * X 1 ^ 1 * (X 0 + X 1) : MvPolynomial ℕ ℝ) = 1 := by
          have e : (X 0 ^ (k - 1) * X 1 ^ 1 * (X 0 + X 1) : MvPolynomial ℕ ℝ) =
              monomial (Finsupp.single 0 k + Finsupp.single 1 1) 1 + monomial (Finsupp.single 0 (k - 1) + Finsupp.single 1 2) 1 := by
            have hm : ∀ a b, (monomial (Finsupp.single 0 a + Finsupp.single 1 b) 1 : MvPolynomial ℕ ℝ) = X 0 ^ a * X 1 ^ b := by
              intro a b
              rw [X_pow_eq_monomial, X_pow_eq_monomial, monomial_mul, one_mul]
            rw [hm, hm]
            obtain ⟨m, rfl⟩ : ∃ m, k = m + 1 := ⟨k - 1, by omega⟩
            simp only [Nat.add_sub_cancel]
            ring
          rw [e, coeff_add, coeff_monomial, coeff_monomial, if_pos rfl, if_neg, add_zero]
          intro h
          have := DFunLike.congr_fun h 1
          simp at this
        have := (mem_P.1 h _ (mem_support_iff.2 (by rw [hc]; norm_num))).1
        simp at this
  exact ⟨h1, h2, h1, h2⟩

theorem simpBub_cancel {d : ℕ} (hd : 0 < d) {k : ℤ} {q : MvPolynomial ℕ ℝ} (h : simpBub d * q ∈ P d k) : q ∈ P d (k - d - 1) := by
  have hX : ∀ (n : ℕ) (k : ℤ) (q : MvPolynomial ℕ ℝ), (∏ j ∈ Finset.range n, X j) * q ∈ P d k → q ∈ P d (k - n) := by
    intro n
    induction n with
    | zero => intro k q h; simpa using h
    | succ n ih =>
      intro k q h
      rw [Finset.prod_range_succ, mul_assoc] at h
      have := X_cancel (ih _ _ h)
      refine P_mono ?_ this
      push_cast
      omega
  rw [simpBub, mul_assoc] at h
  have h1 := hX _ _ _ h
  refine P_cancel (degree_one (opp_mem d) (i := 0) ?_) h1
  rw [opp, coeff_sub, coeff_sum, Finset.sum_eq_single ⟨0, hd⟩]
  · rw [coeff_one, if_neg (by intro h; have := DFunLike.congr_fun h 0; simp at this)]
    simp
  · intro j _ hj
    rw [coeff_X', if_neg]
    intro h
    have := DFunLike.congr_fun h 0
    simp [Finsupp.single_apply] at this
    exact hj (Fin.ext this)
  · simp

theorem cellBub_cancel {d : ℕ} (n : ℕ) {k : ℤ} {q : MvPolynomial ℕ ℝ} (h : cellBub n * q ∈ P d k) : q ∈ P d (k - 2 * n) := by
  induction n generalizing k q with
  | zero => simpa [cellBub] using h
  | succ n ih =>
    have e : cellBub (n + 1) * q = cellBub n * (X n * ((1 - X n) * q)) := by
      rw [cellBub, Finset.prod_range_succ, bub]
      show cellBub n * _ * _ = _
      ring
    rw [e] at h
    have h1 := X_cancel (ih h)
    have h2 : ((1 : MvPolynomial ℕ ℝ) - X n).totalDegree = 1 := by
      refine degree_one (d := n + 1) (i := n) (Submodule.sub_mem _ (one_mem (by norm_num)) (X_mem (by omega))) ?_
      rw [coeff_sub, coeff_one, if_neg (by intro h; have := DFunLike.congr_fun h n; simp at this)]
      simp
    have := P_cancel h2 h1
    refine P_mono ?_ this
    push_cast
    omega

theorem degrees_bubble {c : Cell} (hc : LagCell c) {k : ℕ} (hk : bubbleShift c ≤ k) :
    HasDegrees (W c) (P c.tdim) (BubbleSpace c k) (declBubble c k) := by
  have hd : 0 < c.tdim := by rcases hc with (rfl | rfl | rfl) | (rfl | rfl) <;> decide
  have h0 : BubbleSpace c k 0 := ⟨Submodule.zero_mem _, fun z _ => map_zero _⟩
  have h1 : ¬ BubbleSpace c k 1 := fun h => by
    have := h.2 (fun _ => 0) (by
      unfold OnBoundary
      split_ifs
      · exact Or.inl ⟨0, hd, rfl⟩
      · exact ⟨0, hd, Or.inl rfl⟩)
    simp at this
  have hw : IsGreatest {n | ∀ v ∈ W c n, BubbleSpace c k v} (-1) := by
    refine greatest_of (W_monotone c) (fun v hv => ?_) 1 ?_ h1
    · have : v = 0 := by
        rcases hc with hc | hc
        · rw [W_simplex hc] at hv
          exact P_neg (by norm_num) hv
        · rw [W_box hc] at hv
          exact B_neg (i := 0) (by rw [if_pos hd]; norm_num) hv
      rwa [this]
    · rcases hc with hc | hc
      · rw [W_simplex hc]
        exact Families.one_mem (by norm_num)
      · rw [W_box hc]
        exact P_le_QP _ _ (Families.one_mem (by norm_num))
  have hp : IsGreatest {n | ∀ v ∈ P c.tdim n, BubbleSpace c k v} (-1) :=
    greatest_of (P_monotone _) (fun v hv => by rwa [P_neg (by norm_num) hv]) 1 (Families.one_mem (by norm_num)) h1
  have hcancel : ∀ q, BubbleSpace c ((k : ℤ) - 1) (cbub c * q) → q ∈ W c ((k : ℤ) - 1 - bubbleShift c) := by
    intro q h
    obtain ⟨q', h1, h2⟩ := (bubbleSpace_iff hc _ _).1 h
    have h0 : cbub c ≠ 0 := by
      intro h3
      have h4 := (bubbleSpace_iff hc 100 1).2
      have : ∃ z, eval z (cbub c) ≠ 0 := by
        refine ⟨fun _ => 1 / 5, ?_⟩
        rcases hc with (rfl | rfl | rfl) | (rfl | rfl) <;>
          simp [cbub, eval_simpBub, cellBub, map_prod, eval_bub, Cell.tdim] <;> norm_num
      obtain ⟨z, hz⟩ := this
      rw [h3, map_zero] at hz
      exact hz rfl
    rwa [mul_left_cancel₀ h0 h2]
  rcases id hc with hc' | hc'
  · have hm : (monomial (Finsupp.single 0 (k - bubbleShift c)) 1 : MvPolynomial ℕ ℝ) ∈ P c.tdim ((k : ℤ) - bubbleShift c) :=
      (single_mem_P hd (Or.inl (by omega))).2 (by omega)
    have hl : IsLeast {n | ∀ v, BubbleSpace c k v → v ∈ P c.tdim n} (k : ℤ) := by
      refine least_of (P_monotone _) (fun v hv => by have := hv.1; rwa [W_simplex hc'] at this) (cbub c * monomial (Finsupp.single 0 (k - bubbleShift c)) 1)
        ((bubbleSpace_iff hc _ _).2 ⟨_, by rw [W_simplex hc']; exact hm, rfl⟩) fun h => ?_
      have h2 : BubbleSpace c k (cbub c * monomial (Finsupp.single 0 (k - bubbleShift c)) 1) :=
        (bubbleSpace_iff hc _ _).2 ⟨_, by rw [W_simplex hc']; exact hm, rfl⟩
      have h3 := hcancel _ ⟨by rw [W_simplex hc']; exact h, h2.2⟩
      rw [W_simplex hc', mono_mem_P, Finsupp.degree_single] at h3
      have := h3.1
      omega
    have e : declBubble c k = ⟨-1, k, -1, k⟩ := by
      rcases hc' with rfl | rfl | rfl <;> simp [declBubble]
    rw [e]
    refine .mk hw ?_ hp hl
    simpa only [W_simplex hc'] using hl
  · have hs : bubbleShift c = 2 := by rcases hc' with rfl | rfl <;> rfl
    have hm : (monomial (box c.tdim (k - 2)) 1 : MvPolynomial ℕ ℝ) ∈ W c ((k : ℤ) - bubbleShift c) := by
      rw [W_box hc', hs]
      exact (box_mem_QP hd).2 (by push_cast; omega)
    have h2 := (bubbleSpace_iff hc k _).2 ⟨_, hm, rfl⟩
    have e : declBubble c k = ⟨-1, k, -1, k * c.tdim⟩ := by
      rcases hc' with rfl | rfl <;> simp [declBubble]
    rw [e]
    refine .mk hw (least_of (W_monotone c) (fun v hv => hv.1) _ h2 fun h => ?_) hp
      (least_of (P_monotone _) (fun v hv => ?_) _ h2 fun h => ?_)
    · have h3 := hcancel _ ⟨h, h2.2⟩
      rw [W_box hc', hs, box_mem_QP hd] at h3
      omega
    · have := hv.1
      rw [W_box hc'] at this
      have h3 := QP_le_P _ _ this
      rwa [mul_comm] at h3
    · rw [cbub, if_neg (box_not_mem hc')] at h
      have h3 := box_mem_P.1 (cellBub_cancel _ h)
      have h4 : ((k - 2 : ℕ) : ℤ) = k - 2 := by omega
      rw [h4] at h3
      nlinarith

theorem degrees_enriched {k : ℕ} (hk : 1 ≤ k) : HasDegrees (P 2) (P 2) (Scalar.Enriched k) (declEnriched k) := by
  have hd : 0 < 2 := by norm_num
  have h1 : IsGreatest {n | ∀ v ∈ P 2 n, Scalar.Enriched k v} (k : ℤ) := by
    refine greatest_of (P_monotone 2) (fun v hv => ⟨v, hv, 0, ⟨Submodule.zero_mem _, fun _ _ => map_zero _⟩, (add_zero v).symm⟩)
      (monomial (Finsupp.single 0 (k + 1)) 1) ((single_mem_P hd (Or.inl (by omega))).2 (by push_cast; rfl)) ?_
    rintro ⟨p, hp, b, hb, h⟩
    obtain ⟨q, rfl⟩ := X_dvd (p := b) 1 fun z hz => hb.2 z (Or.inl ⟨1, by decide, hz⟩)
    have h2 := congrArg (coeff (Finsupp.single 0 (k + 1))) h
    rw [coeff_monomial, if_pos rfl, coeff_add, mul_comm, coeff_mul_X', if_neg (by simp), add_zero] at h2
    have := (mem_P.1 hp _ (mem_support_iff.2 (by rw [← h2]; norm_num))).1
    rw [Finsupp.degree_single] at this
    omega
  have h2 : IsLeast {n | ∀ v, Scalar.Enriched k v → v ∈ P 2 n} ((k : ℤ) + 2) := by
    have hm : BubbleSpace .triangle ((k + 2 : ℕ) : ℤ) (cbub .triangle * monomial (Finsupp.single 0 (k - 1)) 1) := by
      refine (bubbleSpace_iff tri_cell _ _).2 ⟨_, ?_, rfl⟩
      rw [W_simplex tri_simplex]
      exact (single_mem_P hd (Or.inl (by simp [bubbleShift]; omega))).2 (by simp [bubbleShift]; omega)
    refine least_of (P_monotone 2) ?_ _ ⟨0, Submodule.zero_mem _, _, hm, (zero_add _).symm⟩ fun h => ?_
    · rintro v ⟨p, hp, b, hb, rfl⟩
      refine Submodule.add_mem _ (P_mono (by omega) hp) ?_
      have := hb.1
      rw [W_simplex tri_simplex] at this
      exact this
    · rw [cbub, if_pos (simplex_mem tri_simplex)] at h
      have := (mono_mem_P.1 (simpBub_cancel hd h)).1
      rw [Finsupp.degree_single] at this
      push_cast at this
      omega
  exact ⟨h1, h2, h1, h2⟩

theorem degrees_bell : HasDegrees (P 2) (P 2) (BellSpace (refVertex .triangle)) declBell := by
  have hm : ∀ a b, (X 0 ^ a * X 1 ^ b : MvPolynomial ℕ ℝ) = monomial (Finsupp.single 0 a + Finsupp.single 1 b) 1 := by
    intro a b
    rw [X_pow_eq_monomial, X_pow_eq_monomial, monomial_mul, one_mul]
  have hne : ∀ a b a' b' : ℕ, a ≠ a' → (Finsupp.single 0 a + Finsupp.single 1 b : ℕ →₀ ℕ) ≠ Finsupp.single 0 a' + Finsupp.single 1 b' := by
    intro a b a' b' h h'
    have := DFunLike.congr_fun h' 0
    simp at this
    exact h this
  have h1 : IsGreatest {n | ∀ v ∈ P 2 n, BellSpace (refVertex .triangle) v} (4 : ℤ) := by
    refine greatest_of (P_monotone 2) (fun v hv => ?_) (X 0 ^ 4 * X 1 ^ 1) ?_ fun h => ?_
    · rw [← bell_space, bell_lspan]
      exact ⟨v, hv, 0, by simp⟩
    · rw [hm, mono_mem_P]
      refine ⟨by simp, fun i hi => ?_⟩
      rw [Finsupp.mem_support_iff] at hi
      by_contra h
      simp [Finsupp.single_apply, show ¬ 0 = i by omega, show ¬ 1 = i by omega] at hi
    · rw [← bell_space, bell_lspan] at h
      obtain ⟨q, hq, b, h⟩ := h
      have e : ∀ n : ℕ, (X 0 ^ n : MvPolynomial ℕ ℝ) = X 0 ^ n * X 1 ^ 0 := fun n => by simp
      have e' : ∀ n : ℕ, (X 1 ^ n : MvPolynomial ℕ ℝ) = X 0 ^ 0 * X 1 ^ n := fun n => by simp
      have h2 := congrArg (coeff (Finsupp.single 0 4 + Finsupp.single 1 1)) h
      have h5 : (5 : MvPolynomial ℕ ℝ) = C 5 := (map_ofNat C 5).symm
      rw [e 5, e' 5] at h2
      rw [hm 4, coeff_monomial, if_pos rfl] at h2
      simp only [hm, h5, coeff_add, coeff_sub, coeff_C_mul, coeff_monomial] at h2
      rw [if_neg (hne _ _ _ _ (by norm_num)), if_neg (hne _ _ _ _ (by norm_num)), if_neg (hne _ _ _ _ (by norm_num)), if_neg (hne _ _ _ _ (by norm_num))] at h2
      have h3 : coeff (Finsupp.single 0 4 + Finsupp.single 1 1) q ≠ 0 := by
        intro h0
        rw [h0] at h2
        norm_num at h2
      have := (mem_P.1 hq _ (mem_support_iff.2 h3)).1
      simp at this
  have h2 : IsLeast {n | ∀ v, BellSpace (refVertex .triangle) v → v ∈ P 2 n} (5 : ℤ) := by
    refine least_of (P_monotone 2) (fun v hv => hv.1) (X 0 ^ 3 * X 1 ^ 2 - X 0 ^ 2 * X 1 ^ 3) ?_ fun h => ?_
    · rw [← bell_space, bell_lspan]
      exact ⟨0, Submodule.zero_mem _, fun i => if i = 1 then 1 else 0, by simp⟩
    · have h3 : coeff (Finsupp.single 0 3 + Finsupp.single 1 2) (X 0 ^ 3 * X 1 ^ 2 - X 0 ^ 2 * X 1 ^ 3 : MvPolynomial ℕ ℝ) ≠ 0 := by
        rw [hm, hm, coeff_sub, coeff_monomial, coeff_monomial, if_pos rfl, if_neg (hne _ _ _ _ (by norm_num))]
        norm_num
      have := (mem_P.1 h _ (mem_support_iff.2 h3)).1
      simp at this
  exact ⟨h1, h2, h1, h2⟩

/-! ### Elements

`P` in these statements are all the polynomials of total degree at most `n`, and `W c` the functions of Lagrange elements of the
cell: the polynomials of total degree at most `n` on simplices, of degree at most `n` in each variable on quadrilaterals and
hexahedra. -/

theorem W_eq_simplex {c : Cell} (hc : Simplex c) : W c = P c.tdim := funext fun k => W_simplex hc k

theorem W_eq_box {c : Cell} (hc : Box c) : W c = QP c.tdim := funext fun k => W_box hc k

/-- Lagrange elements of simplices. -/
theorem lagrange_degrees {c : Cell} (hc : Simplex c) (k : ℕ) : ElementDegrees (W c) (P c.tdim) (lagEl c k) (declComplete k) := by
  obtain ⟨e, l, fs, h1, h2, h3, -⟩ := lag_basis (Or.inl hc) k
  refine ⟨e, fs, h1, h2, ?_⟩
  rw [h3, W_eq_simplex hc]
  exact degrees_P (by rcases hc with rfl | rfl | rfl <;> decide) k

/-- Q elements. -/
theorem q_degrees {c : Cell} (hc : Box c) (k : ℕ) : ElementDegrees (W c) (P c.tdim) (lagEl c k) (declQ c k) := by
  obtain ⟨e, l, fs, h1, h2, h3, -⟩ := lag_basis (Or.inr hc) k
  refine ⟨e, fs, h1, h2, ?_⟩
  rw [h3, W_eq_box hc]
  exact degrees_QP (by rcases hc with rfl | rfl <;> decide) k

theorem tensor_W {c : Cell} (hc : Tensor c) : W c = QP c.tdim := by
  funext k
  rcases hc with rfl | rfl | rfl
  · rw [W, if_pos (by decide)]
    refine le_antisymm (P_le_QP _ _) fun v hv => ?_
    have := QP_le_P _ _ hv
    simpa [Cell.tdim] using this
  · exact W_box (Or.inl rfl) k
  · exact W_box (Or.inr rfl) k

/-- Discontinuous polynomials on intervals, quadrilaterals and hexahedra. -/
theorem dpc_degrees {c : Cell} (hc : Tensor c) (k : ℕ) :
    ElementDegrees (W c) (P c.tdim) (dpcElement c (refVertex c) k) (declDpc c k) := by
  obtain ⟨fs, h1, h2, -⟩ := dpc_sub hc k
  have hd : 0 < c.tdim := by rcases hc with rfl | rfl | rfl <;> decide
  rw [scalarBasis] at h1
  obtain ⟨fs', h3, h4⟩ := Option.map_eq_some_iff.1 h1
  obtain ⟨e, he, h3⟩ := Option.bind_eq_some_iff.1 h3
  have : fs' = fs := List.map_injective_iff.2 (fun a b h => by injection h) h4
  subst this
  refine ⟨e, fs', he, h3, ?_⟩
  rw [h2, tensor_W hc]
  exact degrees_P_box hd k

/-- Serendipity elements. -/
theorem serendipity_degrees {c : Cell} (hc : Tensor c) {k : ℕ} (hk : 1 ≤ k) :
    ElementDegrees (W c) (P c.tdim) (serendipityElement "equispaced" c k) (declSerendipity c k) := by
  refine of_created (serendipity_created hc k) ?_
  rw [tensor_W hc]
  exact degrees_Ser (by rcases hc with rfl | rfl | rfl <;> decide) hk

/-- Conforming Crouzeix-Raviart elements. -/
theorem conformingCR_degrees {k : ℕ} (hk : 1 ≤ k) : ElementDegrees (W .triangle) (P 2) (ccrElement k) (declConformingCR k) := by
  refine of_created (ccr_created hk) ?_
  rw [W_eq_simplex tri_simplex]
  exact degrees_Ccr hk

/-- Bubble elements. -/
theorem bubble_degrees {c : Cell} (hc : LagCell c) {k : ℕ} (hk : bubbleShift c ≤ k) :
    ElementDegrees (W c) (P c.tdim) (bubbleElement c k) (declBubble c k) :=
  of_created (bubble_created hc hk) (degrees_bubble hc hk)

/-- Bubble enriched Lagrange elements: the span of the polynomials for every order, the basis functions for the orders that have any. -/
theorem enriched_degrees {k : ℕ} (hk : 1 ≤ k) :
    (∃ poly, enrichedPoly k = some poly ∧ HasDegrees (W .triangle) (P 2) (· ∈ lspan poly) (declEnriched k)) ∧
    (k ≤ 2 → ElementDegrees (W .triangle) (P 2) (enrichedElement k) (declEnriched k)) := by
  rw [W_eq_simplex tri_simplex]
  refine ⟨?_, fun h => of_created (enriched_created_partial hk h) (degrees_enriched hk)⟩
  obtain ⟨poly, -, h1, -, -, -, h2⟩ := enriched_lists k hk
  refine ⟨poly, h1, ?_⟩
  have : (fun f => f ∈ lspan poly) = Scalar.Enriched k := funext fun f => propext (h2 f)
  rw [this]
  exact degrees_enriched hk

/-- Elements with derivatives. -/
theorem smooth_degrees :
    (∀ {c : Cell}, Simplex c → ∀ v, NonDegenerate c v → ElementDegrees (W c) (P c.tdim) (hermite c v 3) (declComplete 3)) ∧
    (∀ {c : Cell}, Simplex c → ∀ k, ElementDegrees (W c) (P c.tdim) (taylor c k) (declComplete k)) ∧
    ElementDegrees (W .triangle) (P 2) (argyris 5) (declComplete 5) ∧
    ElementDegrees (W .triangle) (P 2) (morley 2) (declComplete 2) ∧
    ElementDegrees (W .triangle) (P 2) (bell (refVertex .triangle) 5) declBell ∧
    ∀ a b h k : ℝ, h ≠ 0 → k ≠ 0 → ElementDegrees (W .quadrilateral) (P 2) (bfs (rect a b h k) 3) (declQ .quadrilateral 3) := by
  have hd : ∀ {c : Cell}, Simplex c → 0 < c.tdim := fun hc => by rcases hc with rfl | rfl | rfl <;> decide
  refine ⟨fun hc v hv => of_created (hermite_created hc v hv) ?_, fun hc k => of_created (taylor_created hc k) ?_,
    of_created argyris_created ?_, of_created morley_created ?_, of_created bell_created_partial ?_,
    fun a b h k hh hk => of_created (bfs_created_partial a b hh hk) ?_⟩
  · rw [W_eq_simplex hc]
    exact degrees_P (hd hc) 3
  · rw [W_eq_simplex hc]
    exact degrees_P (hd hc) k
  · rw [W_eq_simplex tri_simplex]
    exact degrees_P (by decide) 5
  · rw [W_eq_simplex tri_simplex]
    exact degrees_P (by decide) 2
  · rw [W_eq_simplex tri_simplex]
    exact degrees_bell
  · rw [W_eq_box (Or.inl rfl)]
    exact degrees_QP (by decide) 3

/-- The declared degrees are not all equal: a serendipity element of order 5 on a hexahedron. -/
example : ElementDegrees (W .hexahedron) (P 3) (serendipityElement "equispaced" .hexahedron 5) ⟨1, 5, 5, 7⟩ := by
  have := serendipity_degrees (c := .hexahedron) (Or.inr (Or.inr rfl)) (k := 5) (by norm_num)
  simpa [declSerendipity, Cell.tdim] using this

end Verif.Degrees
