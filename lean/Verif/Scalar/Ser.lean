import Verif.Scalar.Model
/-!
# The polynomials of bounded superlinear degree
-/

namespace Verif.Scalar
open Verif.References Verif.Moments Verif.Functionals Verif.Elements Verif.FiniteElement Verif.Polysets Verif.Orthogonal
open Verif.Families
open MvPolynomial

/-- The superlinear degree of a monomial: the degree when the variables that enter linearly are not counted. -/
def slDegree (t : ℕ →₀ ℕ) : ℕ := ∑ i ∈ t.support, if t i = 1 then 0 else t i

/-- The polynomials in the first `d` variables whose monomials have superlinear degree at most `k`. -/
noncomputable def Ser (d k : ℕ) : Submodule ℝ (MvPolynomial ℕ ℝ) :=
  restrictSupport ℝ {t | slDegree t ≤ k ∧ ∀ i ∈ t.support, i < d}

theorem mem_Ser {d k : ℕ} {p : MvPolynomial ℕ ℝ} :
    p ∈ Ser d k ↔ ∀ t ∈ p.support, slDegree t ≤ k ∧ ∀ i ∈ t.support, i < d := mem_restrictSupport_iff ℝ

theorem slDegree_range {t : ℕ →₀ ℕ} {d : ℕ} (h : ∀ i ∈ t.support, i < d) :
    slDegree t = ∑ i ∈ Finset.range d, if t i = 1 then 0 else t i := by
  refine Finset.sum_subset (fun i hi => Finset.mem_range.2 (h i hi)) fun i _ hi => ?_
  rw [Finsupp.notMem_support_iff.1 hi]
  rfl

theorem superlinear_eq (m : Mono) : superlinearDegree m = (m.map fun a => if a = 1 then 0 else a).sum := by
  induction m with
  | nil => rfl
  | cons a m ih =>
    unfold superlinearDegree at *
    rw [List.map_cons, List.sum_cons, ← ih, List.filter_cons]
    by_cases h : a = 1
    · rw [if_neg (by simp [h]), if_pos h, zero_add]
    · rw [if_pos (by simp [h]), if_neg h, List.sum_cons]

/-- A monomial as a list of exponents. -/
theorem mono_of {d : ℕ} {t : ℕ →₀ ℕ} (h : ∀ i ∈ t.support, i < d) :
    ∃ m : Mono, m.length = d ∧ superlinearDegree m = slDegree t ∧ expo 0 m = t := by
  refine ⟨(List.range d).map fun i : ℕ => t i, by simp, ?_, ?_⟩
  · rw [superlinear_eq, slDegree_range h, List.map_map, Finset.sum_range, ← List.sum_ofFn]
    congr 1
    rw [List.ofFn_eq_map, ← List.map_coe_finRange_eq_range, List.map_map]
    rfl
  · ext i
    have := expo_apply 0 ((List.range d).map fun i : ℕ => t i) i
    rw [Nat.zero_add] at this
    rw [this]
    by_cases hi : i < d
    · simp [List.getD_eq_getElem?_getD, hi]
    · rw [List.getD_eq_default (hn := by simpa using hi)]
      by_contra hc
      exact hi (h i (Finsupp.mem_support_iff.2 fun h => hc h.symm))

theorem expo_lt (m : Mono) : ∀ i ∈ (expo 0 m).support, i < m.length := by
  intro i hi
  by_contra hc
  have e := expo_apply 0 m i
  rw [Nat.zero_add, List.getD_eq_default (hn := by omega)] at e
  exact Finsupp.mem_support_iff.1 hi e

theorem expo_inj {m m' : Mono} (hl : m.length = m'.length) (h : expo 0 m = expo 0 m') : m = m' := by
  refine List.ext_getElem hl fun i h1 h2 => ?_
  have e := expo_apply 0 m i
  have e' := expo_apply 0 m' i
  rw [Nat.zero_add] at e e'
  rw [h, e', List.getD_eq_getElem _ _ h2, List.getD_eq_getElem _ _ h1] at e
  exact e.symm

/-- The span of the polynomials of the serendipity element. -/
theorem ser_lspan {d : ℕ} (hd : d = 1 ∨ d = 2 ∨ d = 3) (k : ℕ) :
    ∃ l, polySet d k = some l ∧ lspan ((l ++ serSet d k).map (denoteMono ℝ)) = Ser d k := by
  obtain ⟨l, h1, -, h3⟩ := polySet_serSet_spec d k hd
  refine ⟨l, h1, le_antisymm ?_ ?_⟩
  · rw [Submodule.span_le]
    intro q hq
    obtain ⟨m, hm, rfl⟩ := List.mem_map.1 hq
    obtain ⟨a, b⟩ := (h3 m).1 hm
    rw [denoteMono, monoFrom_eq]
    show _ ∈ restrictSupport _ _
    rw [monomial_mem_restrictSupport]
    left
    obtain ⟨m', hl, hs, he⟩ := mono_of (expo_lt m)
    have : m' = m := expo_inj hl he
    subst this
    exact ⟨by rw [← hs]; exact b, fun i hi => a ▸ expo_lt m' i hi⟩
  · intro p hp
    rw [p.as_sum]
    refine Submodule.sum_mem _ fun t ht => ?_
    obtain ⟨h4, h5⟩ := mem_Ser.1 hp t ht
    obtain ⟨m, hl, hs, he⟩ := mono_of h5
    rw [← mul_one (coeff t p), ← smul_eq_mul, ← smul_monomial]
    refine Submodule.smul_mem _ _ (mem_lspan (List.mem_map.2 ⟨m, (h3 m).2 ⟨hl, by rw [hs]; exact h4⟩, ?_⟩))
    rw [denoteMono, monoFrom_eq, he]

theorem exponent_le {d k : ℕ} {p : MvPolynomial ℕ ℝ} (hp : p ∈ Ser d k) : p ∈ QP d ((k : ℤ) + 1) := by
  refine mem_B.2 fun t ht i => ?_
  obtain ⟨h1, h2⟩ := mem_Ser.1 hp t ht
  by_cases hi : i ∈ t.support
  · rw [if_pos (h2 i hi)]
    have : (if t i = 1 then 0 else t i) ≤ slDegree t :=
      Finset.single_le_sum (f := fun i => if t i = 1 then 0 else t i) (fun _ _ => Nat.zero_le _) hi
    split_ifs at this <;> omega
  · rw [Finsupp.notMem_support_iff.1 hi]
    split_ifs <;> simp <;> omega

theorem Ser_P {d k : ℕ} {p : MvPolynomial ℕ ℝ} (hp : p ∈ Ser d k) : p ∈ P d (d * ((k : ℤ) + 1)) :=
  B_P (fun i hi => by rw [if_pos hi]) (fun i hi => by rw [if_neg (by omega)]) (exponent_le hp)

/-- All polynomials of degree at most `k`. -/
theorem P_le_Ser (d k : ℕ) : P d k ≤ Ser d k := by
  intro p hp
  refine mem_Ser.2 fun t ht => ⟨?_, (mem_P.1 hp t ht).2⟩
  have h1 : t.degree ≤ k := by exact_mod_cast (mem_P.1 hp t ht).1
  refine le_trans (Finset.sum_le_sum fun i _ => ?_) h1
  split_ifs <;> omega

/-! ### Restrictions to entities -/

/-- A monomial on an entity. -/
theorem mono_pull {D : Domain} {σ : ℕ → ℕ} (h : Aligned D σ) (t : ℕ →₀ ℕ) (A : Finset ℕ) :
    ∃ (r : ℝ) (s : ℕ →₀ ℕ), ∏ i ∈ A, coordPoly D i ^ t i = C r * monomial s 1 ∧
      ∀ m, s m = if m < D.cell.tdim ∧ σ m ∈ A then t (σ m) else 0 := by
  classical
  induction A using Finset.induction_on with
  | empty => exact ⟨1, 0, by simp, by simp⟩
  | insert a A ha ih =>
    obtain ⟨r, s, h1, h2⟩ := ih
    rw [Finset.prod_insert ha, h1]
    by_cases hj : ∃ m < D.cell.tdim, a = σ m
    · obtain ⟨m, hm, rfl⟩ := hj
      refine ⟨r, Finsupp.single m (t (σ m)) + s, ?_, fun l => ?_⟩
      · rw [h.coord hm, X_pow_eq_monomial, mul_left_comm, monomial_mul, one_mul]
      · rw [Finsupp.add_apply, h2 l]
        by_cases hl : l = m
        · subst hl
          simp [hm, ha]
        · rw [Finsupp.single_apply, if_neg (Ne.symm hl), zero_add]
          by_cases hlt : l < D.cell.tdim
          · have : σ l ≠ σ m := fun hc => hl (h.inj l hlt m hm hc)
            simp [hlt, this]
          · simp [hlt]
    · push Not at hj
      refine ⟨D.v 0 a ^ t a * r, s, ?_, fun l => ?_⟩
      · rw [h.coord_const hj, C_mul, C_pow, mul_assoc]
      · rw [h2 l]
        by_cases hlt : l < D.cell.tdim
        · simp [hlt, (hj l hlt).symm]
        · simp [hlt]

/-- The restriction to an entity has at most the superlinear degree. -/
theorem Ser_pull {D : Domain} {σ : ℕ → ℕ} (h : Aligned D σ) {d k : ℕ} {p : MvPolynomial ℕ ℝ} (hp : p ∈ Ser d k) :
    pull D p ∈ Ser D.cell.tdim k := by
  classical
  unfold pull
  rw [p.as_sum, map_sum]
  refine Submodule.sum_mem _ fun t ht => ?_
  obtain ⟨h1, -⟩ := mem_Ser.1 hp t ht
  rw [aeval_monomial, algebraMap_eq]
  obtain ⟨r, s, e, hs⟩ := mono_pull h t t.support
  rw [Finsupp.prod, e, ← mul_assoc, ← C_mul, C_mul']
  refine Submodule.smul_mem _ _ ?_
  show _ ∈ restrictSupport _ _
  rw [monomial_mem_restrictSupport]
  left
  have hlt : ∀ i ∈ s.support, i < D.cell.tdim ∧ σ i ∈ t.support ∧ s i = t (σ i) := by
    intro i hi
    have h0 := Finsupp.mem_support_iff.1 hi
    rw [hs i] at h0
    have h2 := hs i
    split_ifs at h0 h2 with hc
    · exact ⟨hc.1, hc.2, h2⟩
    · exact absurd rfl h0
  refine ⟨le_trans ?_ h1, fun i hi => (hlt i hi).1⟩
  unfold slDegree
  rw [Finset.sum_congr rfl fun i hi => by rw [(hlt i hi).2.2]]
  rw [← Finset.sum_image (f := fun j => if t j = 1 then 0 else t j) (g := σ) fun a ha b hb hab =>
    h.inj a (hlt a ha).1 b (hlt b hb).1 hab]
  refine Finset.sum_le_sum_of_subset fun j hj => ?_
  obtain ⟨i, hi, rfl⟩ := Finset.mem_image.1 hj
  exact (hlt i hi).2.1

/-! ### Functions that vanish on the boundary -/

/-- The function that vanishes on the boundary. -/
noncomputable def cellBub (n : ℕ) : MvPolynomial ℕ ℝ := ∏ j ∈ Finset.range n, bub j

theorem cellBub_succ (n : ℕ) (q : MvPolynomial ℕ ℝ) : cellBub (n + 1) * q = bub n * (cellBub n * q) := by
  rw [cellBub, Finset.prod_range_succ, cellBub]
  ring

theorem cellBub_cancel {n l : ℕ} (hl : n ≤ l) {a : ℝ} {q : MvPolynomial ℕ ℝ}
    (h : ∀ z : ℕ → ℝ, z l = a → eval z (cellBub n * q) = 0) : ∀ z : ℕ → ℝ, z l = a → eval z q = 0 := by
  induction n with
  | zero => simpa [cellBub] using h
  | succ n ih =>
    refine ih (by omega) (bub_cancel (show n ≠ l by omega) fun z hz => ?_)
    rw [← cellBub_succ]
    exact h z hz

theorem cellBub_factor {n : ℕ} {F : ℕ → ℤ} {g : MvPolynomial ℕ ℝ} (hg : g ∈ B F)
    (h : ∀ j < n, ∀ z : ℕ → ℝ, z j = 0 ∨ z j = 1 → eval z g = 0) : ∃ q ∈ B F, g = cellBub n * q := by
  induction n with
  | zero => exact ⟨g, hg, by simp [cellBub]⟩
  | succ n ih =>
    obtain ⟨q, hq, rfl⟩ := ih fun j hj => h j (by omega)
    obtain ⟨r, hr, rfl⟩ := B_bub n hq (cellBub_cancel le_rfl fun z hz => h n (by omega) z (Or.inl hz))
      (cellBub_cancel le_rfl fun z hz => h n (by omega) z (Or.inr hz))
    refine ⟨r, B_mono (fun i => ?_) hr, ?_⟩
    · split_ifs <;> omega
    · rw [cellBub_succ]
      ring

/-- The coefficients of the highest degree. -/
theorem bub_top {q : MvPolynomial ℕ ℝ} {s : ℕ →₀ ℕ} (h : q.totalDegree ≤ s.degree) (j : ℕ) :
    (bub j * q).totalDegree ≤ (s + Finsupp.single j 2).degree ∧
    coeff (s + Finsupp.single j 2) (bub j * q) = - coeff s q := by
  have hd : (s + Finsupp.single j 2).degree = s.degree + 2 := by rw [map_add, Finsupp.degree_single]
  constructor
  · rw [hd]
    refine (totalDegree_mul _ _).trans ?_
    have : (bub j).totalDegree ≤ 2 := by
      refine (totalDegree_mul _ _).trans ?_
      have h1 : (X j : MvPolynomial ℕ ℝ).totalDegree = 1 := totalDegree_X j
      have h2 : (1 - X j : MvPolynomial ℕ ℝ).totalDegree ≤ 1 := (totalDegree_sub _ _).trans (by simp)
      omega
    omega
  · have e : bub j * q = X j * q - X j * (X j * q) := by rw [bub]; ring
    have e1 : s + Finsupp.single j 2 = Finsupp.single j 1 + (s + Finsupp.single j 1) := by
      rw [show (2 : ℕ) = 1 + 1 from rfl, Finsupp.single_add]
      abel
    rw [e, coeff_sub, e1, coeff_X_mul, coeff_X_mul, add_comm s, coeff_X_mul, ← add_comm s]
    rw [coeff_eq_zero_of_totalDegree_lt, zero_sub]
    have : (s + Finsupp.single j 1).degree = s.degree + 1 := by rw [map_add, Finsupp.degree_single]
    rw [Finsupp.degree_apply] at this
    rw [this]
    omega

/-- Two in each of the first `n` variables. -/
noncomputable def twos (n : ℕ) : ℕ →₀ ℕ := ∑ j ∈ Finset.range n, Finsupp.single j 2

theorem twos_apply (n i : ℕ) : twos n i = if i < n then 2 else 0 := by
  classical
  rw [twos, Finsupp.finsetSum_apply]
  simp [Finsupp.single_apply]

theorem cellBub_top {q : MvPolynomial ℕ ℝ} {s : ℕ →₀ ℕ} (h : q.totalDegree ≤ s.degree) (n : ℕ) :
    (cellBub n * q).totalDegree ≤ (s + twos n).degree ∧ coeff (s + twos n) (cellBub n * q) = (-1) ^ n * coeff s q := by
  induction n with
  | zero => simpa [cellBub, twos] using h
  | succ n ih =>
    obtain ⟨h1, h2⟩ := bub_top ih.1 n
    rw [cellBub_succ, twos, Finset.sum_range_succ, ← add_assoc]
    refine ⟨h1, h2.trans ?_⟩
    rw [ih.2]
    ring

/-- What is left of a function that vanishes on the boundary has the degree of the functions of the moments. -/
theorem Ser_factor {d k : ℕ} {g : MvPolynomial ℕ ℝ} (hg : g ∈ Ser d k)
    (h : ∀ j < d, ∀ z : ℕ → ℝ, z j = 0 ∨ z j = 1 → eval z g = 0) : ∃ q ∈ P d ((k : ℤ) - 2 * d), g = cellBub d * q := by
  obtain ⟨q, hq, rfl⟩ := cellBub_factor (exponent_le hg) h
  refine ⟨q, ?_, rfl⟩
  have hv : ∀ t ∈ q.support, ∀ i ∈ t.support, i < d := by
    intro t ht i hi
    by_contra hc
    have h1 := mem_B.1 hq t ht i
    rw [if_neg hc] at h1
    have h2 := Finsupp.mem_support_iff.1 hi
    omega
  by_cases h0 : q = 0
  · rw [h0]; exact Submodule.zero_mem _
  obtain ⟨t, ht, hdeg⟩ : ∃ t ∈ q.support, q.totalDegree = t.degree := by
    obtain ⟨t, ht, e⟩ := Finset.exists_mem_eq_sup q.support (support_nonempty.2 h0) (fun s : ℕ →₀ ℕ => s.sum fun _ e => e)
    exact ⟨t, ht, e⟩
  have hc := (cellBub_top hdeg.le d).2
  have hs : t + twos d ∈ (cellBub d * q).support := by
    rw [mem_support_iff, hc]
    exact mul_ne_zero (pow_ne_zero _ (by norm_num)) (mem_support_iff.1 ht)
  obtain ⟨h1, h2⟩ := mem_Ser.1 hg _ hs
  have e : slDegree (t + twos d) = t.degree + 2 * d := by
    rw [slDegree_range h2, Finsupp.degree_apply, Finset.sum_subset (fun i hi => Finset.mem_range.2 (hv t ht i hi))
      (fun i _ hi => Finsupp.notMem_support_iff.1 hi)]
    rw [Finset.sum_congr rfl fun i hi => show (if (t + twos d) i = 1 then 0 else (t + twos d) i) = t i + 2 by
      rw [Finsupp.add_apply, twos_apply, if_pos (Finset.mem_range.1 hi), if_neg (by omega)]]
    rw [Finset.sum_add_distrib]
    simp [mul_comm]
  rw [mem_P_iff]
  refine ⟨fun _ => by rw [hdeg]; omega, fun i hi => ?_⟩
  obtain ⟨s, hs, hi'⟩ := (mem_vars_iff_mem_support i).1 hi
  exact hv s hs i hi'

theorem closed_bub1 {c : Cell} (hc : Tensor c) {z : ℕ → ℝ} (h : Closed c z) {i : ℕ} (hi : i < c.tdim) : 0 ≤ eval z (bub i) := by
  rcases hc with rfl | rfl | rfl
  · rw [eval_bub]
    simp only [Closed, Cell.tdim] at h hi
    obtain rfl : i = 0 := by omega
    nlinarith [h.1, h.2]
  · exact closed_bub (Or.inl rfl) h hi
  · exact closed_bub (Or.inr rfl) h hi

theorem tensor_solid {c : Cell} (hc : Tensor c) : Solid c := by
  rcases hc with rfl | rfl | rfl <;> simp [Solid]

/-- A function that vanishes on the boundary and has no moments is 0. -/
theorem ser_zero {c : Cell} (hc : Tensor c) {k : ℕ} {g : MvPolynomial ℕ ℝ} (hg : g ∈ Ser c.tdim k)
    (h : ∀ j < c.tdim, ∀ z : ℕ → ℝ, z j = 0 ∨ z j = 1 → eval z g = 0)
    (hm : ∀ q ∈ P c.tdim ((k : ℤ) - 2 * c.tdim), pairing1 c g q = 0) : g = 0 := by
  obtain ⟨q, hq, rfl⟩ := Ser_factor hg h
  have h0 := hm q hq
  have hq0 : q = 0 := by
    refine squares_zero (tensor_solid hc) (fun _ : Unit => cellBub c.tdim) (fun _ z hz => ?_) (fun _ z hz => ?_) (fun _ => q)
      (fun _ => hq) (Eq.trans ?_ h0) ()
    · rw [cellBub, map_prod]
      exact Finset.prod_nonneg fun i hi => closed_bub1 hc hz (Finset.mem_range.1 hi)
    · rw [cellBub, map_prod]
      exact Finset.prod_pos fun i hi => inner_bub (hz i (Finset.mem_range.1 hi))
    · show _ = cellInt c fun z => eval z (cellBub c.tdim * q * q)
      congr 1
      funext z
      simp [pow_two, mul_assoc]
  rw [hq0, mul_zero]

end Verif.Scalar
