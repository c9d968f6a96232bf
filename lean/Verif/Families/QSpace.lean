import Verif.Families.Spans
import Verif.Elements.Table
import Mathlib.Algebra.MvPolynomial.NoZeroDivisors
/-!
# Polynomials with a bound on the degree in each variable
-/

namespace Verif.Families
open MvPolynomial Verif.References Verif.Orthogonal Verif.Polysets Verif.Elements

/-- Polynomials whose degree in variable `i` is at most `F i`. -/
noncomputable def B (F : ℕ → ℤ) : Submodule ℝ (MvPolynomial ℕ ℝ) := restrictSupport ℝ {t | ∀ i, (t i : ℤ) ≤ F i}

variable {F G : ℕ → ℤ} {p q : MvPolynomial ℕ ℝ}

theorem mem_B : p ∈ B F ↔ ∀ t ∈ p.support, ∀ i, (t i : ℤ) ≤ F i := mem_restrictSupport_iff ℝ

theorem B_mono (h : ∀ i, F i ≤ G i) : B F ≤ B G := fun _ hp => mem_B.2 fun t ht i => (mem_B.1 hp t ht i).trans (h i)

theorem B_neg {i : ℕ} (h : F i < 0) (hp : p ∈ B F) : p = 0 := by
  rw [← support_eq_empty, Finset.eq_empty_iff_forall_notMem]
  intro t ht
  have := mem_B.1 hp t ht i
  omega

theorem mem_B_iff : p ∈ B F ↔ (p ≠ 0 → ∀ i, (p.degreeOf i : ℤ) ≤ F i) := by
  rw [mem_B]
  constructor
  · intro h hp i
    obtain ⟨t, ht⟩ := support_nonempty.2 hp
    obtain ⟨n, hn⟩ := Int.eq_ofNat_of_zero_le ((Int.natCast_nonneg _).trans (h t ht i))
    rw [hn]
    have : p.degreeOf i ≤ n := degreeOf_le_iff.2 fun s hs => by have := h s hs i; omega
    exact_mod_cast this
  · intro h t ht i
    refine le_trans ?_ (h (by rintro rfl; simp at ht) i)
    exact_mod_cast monomial_le_degreeOf i ht

/-- The total degree. -/
theorem B_P {d : ℕ} {k : ℤ} (h : ∀ i < d, F i ≤ k) (h0 : ∀ i, d ≤ i → F i ≤ 0) : B F ≤ P d (d * k) := by
  intro p hp
  rw [mem_P]
  intro t ht
  have hb := mem_B.1 hp t ht
  have hs : ∀ i ∈ t.support, i < d := by
    intro i hi
    by_contra hc
    have := (hb i).trans (h0 i (not_lt.1 hc))
    rw [Finsupp.mem_support_iff] at hi
    omega
  refine ⟨?_, hs⟩
  rw [Finsupp.degree_apply, Nat.cast_sum]
  calc ∑ i ∈ t.support, (t i : ℤ) ≤ ∑ i ∈ Finset.range d, (t i : ℤ) :=
        Finset.sum_le_sum_of_subset_of_nonneg (fun i hi => Finset.mem_range.2 (hs i hi)) fun i _ _ => Int.natCast_nonneg _
    _ ≤ ∑ i ∈ Finset.range d, k := Finset.sum_le_sum fun i hi => (hb i).trans (h i (Finset.mem_range.1 hi))
    _ = d * k := by simp

/-- Division by `x_j - a`. -/
theorem B_dvd (j : ℕ) (a : ℝ) (hp : p ∈ B F) (h : ∀ z : ℕ → ℝ, z j = a → eval z p = 0) :
    ∃ q ∈ B fun i => F i - if i = j then 1 else 0, p = (X j - C a) * q := by
  obtain ⟨q, hq⟩ := dvd_of_vanish (p := p) j (C a) fun z => h _ (by simp)
  refine ⟨q, ?_, hq⟩
  rw [mem_B_iff]
  intro hq0 i
  have hx : (X j - C a : MvPolynomial ℕ ℝ) ≠ 0 := by
    intro hc
    have := congrArg (eval fun _ => a + 1) hc
    simp at this
  have hp0 : p ≠ 0 := by rw [hq]; exact mul_ne_zero hx hq0
  have h1 := mem_B_iff.1 hp hp0 i
  rw [hq, degreeOf_mul_eq hx hq0] at h1
  by_cases hij : i = j
  · subst hij
    have : degreeOf i (X i - C a : MvPolynomial ℕ ℝ) = 1 := by
      rw [sub_eq_add_neg, ← C_neg, degreeOf_add_eq_of_degreeOf_lt] <;> simp
    rw [this] at h1
    rw [if_pos rfl]
    push_cast at h1
    omega
  · rw [if_neg hij]
    push_cast at h1
    omega

/-- The polynomial `x_j (1 - x_j)`. -/
noncomputable def bub (j : ℕ) : MvPolynomial ℕ ℝ := X j * (1 - X j)

theorem eval_bub (j : ℕ) (z : ℕ → ℝ) : eval z (bub j) = z j * (1 - z j) := by simp [bub]

theorem B_bub (j : ℕ) (hp : p ∈ B F) (h0 : ∀ z : ℕ → ℝ, z j = 0 → eval z p = 0) (h1 : ∀ z : ℕ → ℝ, z j = 1 → eval z p = 0) :
    ∃ q ∈ B fun i => F i - if i = j then 2 else 0, p = bub j * q := by
  obtain ⟨q, hq, rfl⟩ := B_dvd j 0 hp h0
  obtain ⟨r, hr, rfl⟩ := B_dvd j 1 hq fun z hz => by
    have := h1 z hz
    simpa [hz] using this
  refine ⟨-r, Submodule.neg_mem _ (B_mono (fun i => ?_) hr), ?_⟩
  · split_ifs <;> omega
  · rw [bub, C_0, C_1]
    ring

/-- Zeros of a multiple of `x_j (1 - x_j)` in another variable. -/
theorem bub_cancel {j l : ℕ} (hjl : j ≠ l) {a : ℝ} (h : ∀ z : ℕ → ℝ, z l = a → eval z (bub j * q) = 0) (z : ℕ → ℝ) (hz : z l = a) :
    eval z q = 0 := by
  let f : MvPolynomial ℕ ℝ →ₐ[ℝ] MvPolynomial ℕ ℝ := aeval fun i => if i = l then C a else X i
  have hf : ∀ (r : MvPolynomial ℕ ℝ) z, eval z (f r) = eval (fun i => if i = l then a else z i) r := by
    intro r z
    rw [aeval_eval]
    congr 2
    funext i
    split_ifs <;> simp
  have h1 : f (bub j * q) = 0 := by
    apply MvPolynomial.funext
    intro z
    rw [hf, map_zero]
    exact h _ (by simp)
  rw [map_mul, mul_eq_zero] at h1
  have h2 : f (bub j) ≠ 0 := by
    intro hc
    have := congrArg (eval fun _ => (2 : ℝ)) hc
    rw [hf, eval_bub, map_zero] at this
    rw [if_neg hjl] at this
    norm_num at this
  have h3 := congrArg (eval z) (h1.resolve_left h2)
  rw [hf, map_zero] at h3
  have e : (fun i => if i = l then a else z i) = z := by
    funext i
    split_ifs with hi
    · rw [hi, hz]
    · rfl
  rwa [e] at h3

/-- Substituting variables or constants for the variables. -/
theorem B_subst {f : ℕ → MvPolynomial ℕ ℝ} (hG : ∀ m, 0 ≤ G m)
    (hf : ∀ j, (∃ r, f j = C r) ∨ ∃ m, f j = X m ∧ F j ≤ G m) (hinj : ∀ j j' m, f j = X m → f j' = X m → j = j')
    (hp : p ∈ B F) : aeval f p ∈ B G := by
  classical
  rw [p.as_sum, map_sum]
  refine Submodule.sum_mem _ fun t ht => ?_
  have hb := mem_B.1 hp t ht
  rw [aeval_monomial, algebraMap_eq, mem_B_iff]
  intro _ m
  have h1 : degreeOf m (C (coeff t p) * t.prod fun i k => f i ^ k) ≤ ∑ j ∈ t.support, t j * degreeOf m (f j) := by
    refine (degreeOf_C_mul_le _ _ _).trans ((degreeOf_prod_le _ _ _).trans (Finset.sum_le_sum fun j _ => degreeOf_pow_le _ _ _))
  have h2 : ∀ j, degreeOf m (f j) ≠ 0 → f j = X m ∧ F j ≤ G m := by
    intro j hj
    rcases hf j with ⟨r, hr⟩ | ⟨n, hn, hn'⟩
    · rw [hr, degreeOf_C] at hj; exact absurd rfl hj
    · rw [hn, degreeOf_X] at hj
      have : m = n := by by_contra hc; rw [if_neg hc] at hj; exact hj rfl
      subst this
      exact ⟨hn, hn'⟩
  refine le_trans (Int.ofNat_le.2 h1) ?_
  by_cases hex : ∃ j, degreeOf m (f j) ≠ 0
  · obtain ⟨j, hj⟩ := hex
    obtain ⟨hj1, hj2⟩ := h2 j hj
    have : ∑ l ∈ t.support, t l * degreeOf m (f l) ≤ t j := by
      have e : ∀ l ∈ t.support, l ≠ j → t l * degreeOf m (f l) = 0 := by
        intro l _ hl
        by_contra hc
        exact hl (hinj l j m (h2 l fun h0 => hc (by rw [h0, mul_zero])).1 hj1)
      by_cases hjs : j ∈ t.support
      · rw [Finset.sum_eq_single j e fun h => absurd hjs h, hj1]
        simp
      · rw [Finset.sum_eq_zero fun l hl => e l hl fun h => hjs (h ▸ hl)]
        exact Nat.zero_le _
    calc ((∑ l ∈ t.support, t l * degreeOf m (f l) : ℕ) : ℤ) ≤ t j := by exact_mod_cast this
      _ ≤ G m := (hb j).trans hj2
  · push Not at hex
    rw [Finset.sum_eq_zero fun l _ => by rw [hex l, mul_zero]]
    exact hG m

/-! ### The spaces of the Q elements -/

/-- Degree at most `a` in `x_i` and at most `b` in the other variables. -/
def degs (d i : ℕ) (a b : ℤ) (j : ℕ) : ℤ := if j < d then if j = i then a else b else 0

/-- Polynomials of degree at most `k` in each variable. -/
noncomputable def QP (d : ℕ) (k : ℤ) : Submodule ℝ (MvPolynomial ℕ ℝ) := B fun j => if j < d then k else 0

/-- The Raviart–Thomas space on a quadrilateral or hexahedron. -/
def RTQ (d : ℕ) (k : ℤ) (v : Fin d → MvPolynomial ℕ ℝ) : Prop := ∀ i : Fin d, v i ∈ B (degs d i k (k - 1))

/-- The Nédélec space on a quadrilateral or hexahedron. -/
def NCQ (d : ℕ) (k : ℤ) (v : Fin d → MvPolynomial ℕ ℝ) : Prop := ∀ i : Fin d, v i ∈ B (degs d i (k - 1) k)

theorem RTQ.mem {d : ℕ} {k : ℤ} {v : Fin d → MvPolynomial ℕ ℝ} (h : RTQ d k v) (i : Fin d) : v i ∈ P d (d * k) :=
  B_P (fun j hj => by unfold degs; split_ifs <;> omega) (fun j hj => by unfold degs; split_ifs <;> omega) (h i)

theorem NCQ.mem {d : ℕ} {k : ℤ} {v : Fin d → MvPolynomial ℕ ℝ} (h : NCQ d k v) (i : Fin d) : v i ∈ P d (d * k) :=
  B_P (fun j hj => by unfold degs; split_ifs <;> omega) (fun j hj => by unfold degs; split_ifs <;> omega) (h i)

theorem rtq_neg {d : ℕ} (hd : 2 ≤ d) {k : ℤ} (hk : k < 1) {v : Fin d → MvPolynomial ℕ ℝ} (h : RTQ d k v) : v = 0 := by
  funext i
  obtain ⟨j, hj⟩ : ∃ j : Fin d, j ≠ i := by
    by_cases h0 : i.val = 0
    · exact ⟨⟨1, hd⟩, fun hc => by have := congrArg Fin.val hc; simp at this; omega⟩
    · exact ⟨⟨0, by omega⟩, fun hc => by have := congrArg Fin.val hc; simp at this; omega⟩
  refine B_neg (i := j.val) ?_ (h i)
  rw [degs, if_pos j.2, if_neg (fun hc => hj (Fin.ext hc))]
  omega

theorem ncq_neg {d : ℕ} {k : ℤ} (hk : k < 1) {v : Fin d → MvPolynomial ℕ ℝ} (h : NCQ d k v) : v = 0 := by
  funext i
  refine B_neg (i := i.val) ?_ (h i)
  rw [degs, if_pos i.2, if_pos rfl]
  omega

/-- Quadrilaterals and hexahedra. -/
def Box (c : Cell) : Prop := c = .quadrilateral ∨ c = .hexahedron

theorem Box.solid {c : Cell} (h : Box c) : Solid c := by rcases h with rfl | rfl <;> simp [Solid]

theorem Box.tensor {c : Cell} (h : Box c) : Tensor c := by rcases h with rfl | rfl <;> simp [Tensor]

theorem Box.dims {c : Cell} (h : Box c) : c.tdim = 2 ∨ c.tdim = 3 := by rcases h with rfl | rfl <;> simp [Cell.tdim]

theorem closed_bub {c : Cell} (hc : Box c) {z : ℕ → ℝ} (h : Closed c z) {i : ℕ} (hi : i < c.tdim) : 0 ≤ eval z (bub i) := by
  rw [eval_bub]
  rcases hc with rfl | rfl
  · obtain ⟨h0, h1, h2, h3⟩ := h
    simp only [Cell.tdim] at hi
    interval_cases i
    · exact mul_nonneg h0 (by linarith)
    · exact mul_nonneg h2 (by linarith)
  · obtain ⟨h0, h1, h2, h3, h4, h5⟩ := h
    simp only [Cell.tdim] at hi
    interval_cases i
    · exact mul_nonneg h0 (by linarith)
    · exact mul_nonneg h2 (by linarith)
    · exact mul_nonneg h4 (by linarith)

theorem inner_bub {z : ℕ → ℝ} {i : ℕ} (h : 0 < z i ∧ z i < 1 / 4) : 0 < eval z (bub i) := by
  rw [eval_bub]
  exact mul_pos h.1 (by linarith [h.2])

/-- A Raviart–Thomas function with no normal components and no moments against the Nédélec functions of one degree less
is 0. -/
theorem rtq_zero {c : Cell} (hc : Box c) {k : ℤ} {v : Fin c.tdim → MvPolynomial ℕ ℝ} (hv : RTQ c.tdim k v)
    (hn : ∀ (i : Fin c.tdim) (z : ℕ → ℝ), z i.val = 0 ∨ z i.val = 1 → eval z (v i) = 0)
    (h : ∀ q : Fin c.tdim → MvPolynomial ℕ ℝ, NCQ c.tdim (k - 1) q → cellInt c (fun z => eval z (∑ i, v i * q i)) = 0) : v = 0 := by
  choose w hw e using fun i : Fin c.tdim => B_bub i.val (hv i) (fun z hz => hn i z (Or.inl hz)) fun z hz => hn i z (Or.inr hz)
  have hw' : NCQ c.tdim (k - 1) w := fun i => B_mono (fun j => by
    simp only [degs]
    split_ifs <;> omega) (hw i)
  have h0 := h w hw'
  funext i
  rw [e i, squares_zero hc.solid (fun i : Fin c.tdim => bub i.val) (fun j z hz => closed_bub hc hz j.2)
    (fun j z hz => inner_bub (hz j.val j.2)) w (fun j => hw'.mem j) (Eq.trans ?_ h0) i, mul_zero]
  · rfl
  · congr 1
    funext z
    congr 1
    refine Finset.sum_congr rfl fun j _ => ?_
    rw [e j]
    ring

/-- The weights for the Nédélec functions. -/
noncomputable def cobub (d i : ℕ) : MvPolynomial ℕ ℝ := ∏ j ∈ (Finset.range d).erase i, bub j

theorem B_cobub {d i : ℕ} {a b : ℤ} {p : MvPolynomial ℕ ℝ} (hd : d = 2 ∨ d = 3) (hi : i < d) (hp : p ∈ B (degs d i a b))
    (h : ∀ j < d, j ≠ i → ∀ z : ℕ → ℝ, z j = 0 ∨ z j = 1 → eval z p = 0) : ∃ q ∈ B (degs d i a (b - 2)), p = cobub d i * q := by
  have one : ∀ (F : ℕ → ℤ) (r : MvPolynomial ℕ ℝ) (j : ℕ), r ∈ B F → (∀ z : ℕ → ℝ, z j = 0 ∨ z j = 1 → eval z r = 0) →
      ∃ q ∈ B fun i => F i - if i = j then 2 else 0, r = bub j * q := fun F r j hr hz =>
    B_bub j hr (fun z h => hz z (Or.inl h)) fun z h => hz z (Or.inr h)
  have two : ∀ j l : ℕ, j ≠ l → j < d → l < d → j ≠ i → l ≠ i → (Finset.range d).erase i = {j, l} → ∃ q ∈ B (degs d i a (b - 2)), p = cobub d i * q := by
    intro j l hjl hj hl hji hli hs
    obtain ⟨q, hq, hpq⟩ := one _ p j hp (h j hj hji)
    obtain ⟨r, hr, hqr⟩ := one _ q l hq fun z hz => by
      rcases hz with hz | hz
      · exact bub_cancel hjl (fun z hz => by rw [← hpq]; exact h l hl hli z (Or.inl hz)) z hz
      · exact bub_cancel hjl (fun z hz => by rw [← hpq]; exact h l hl hli z (Or.inr hz)) z hz
    refine ⟨r, B_mono (fun m => ?_) hr, ?_⟩
    · have hm : m < d → m ≠ i → m = j ∨ m = l := by
        intro h1 h2
        have : m ∈ (Finset.range d).erase i := Finset.mem_erase.2 ⟨h2, Finset.mem_range.2 h1⟩
        rw [hs] at this
        simpa using this
      simp only [degs]
      by_cases h1 : m < d
      · by_cases h2 : m = i
        · simp only [h1, h2, if_true]; split_ifs <;> omega
        · rcases hm h1 h2 with rfl | rfl
          · simp [h1, h2, hjl]
          · simp [h1, h2, Ne.symm hjl]
      · simp only [h1, if_false]
        split_ifs <;> omega
    · rw [cobub, hs, Finset.prod_pair hjl, hpq, hqr]
      ring
  rcases hd with rfl | rfl
  · have : ∃ j < 2, j ≠ i ∧ (Finset.range 2).erase i = {j} := by
      interval_cases i
      · exact ⟨1, by omega, by omega, by decide⟩
      · exact ⟨0, by omega, by omega, by decide⟩
    obtain ⟨j, hj, hji, hs⟩ := this
    obtain ⟨q, hq, hpq⟩ := one _ p j hp (h j hj hji)
    refine ⟨q, B_mono (fun m => ?_) hq, by rw [cobub, hs, Finset.prod_singleton, hpq]⟩
    simp only [degs]
    split_ifs <;> omega
  · interval_cases i
    · exact two 1 2 (by omega) (by omega) (by omega) (by omega) (by omega) (by decide)
    · exact two 0 2 (by omega) (by omega) (by omega) (by omega) (by omega) (by decide)
    · exact two 0 1 (by omega) (by omega) (by omega) (by omega) (by omega) (by decide)

/-- A Nédélec function with no tangential components and no moments against the Raviart–Thomas functions of one degree less
is 0. -/
theorem ncq_zero {c : Cell} (hc : Box c) {k : ℤ} {v : Fin c.tdim → MvPolynomial ℕ ℝ} (hv : NCQ c.tdim k v)
    (hn : ∀ (i : Fin c.tdim), ∀ j < c.tdim, j ≠ i.val → ∀ z : ℕ → ℝ, z j = 0 ∨ z j = 1 → eval z (v i) = 0)
    (h : ∀ q : Fin c.tdim → MvPolynomial ℕ ℝ, RTQ c.tdim (k - 1) q → cellInt c (fun z => eval z (∑ i, v i * q i)) = 0) : v = 0 := by
  choose w hw e using fun i : Fin c.tdim => B_cobub hc.dims i.2 (hv i) (hn i)
  have hw' : RTQ c.tdim (k - 1) w := fun i => B_mono (fun j => by
    simp only [degs]
    split_ifs <;> omega) (hw i)
  have h0 := h w hw'
  funext i
  have h1 := squares_zero hc.solid (fun i : Fin c.tdim => cobub c.tdim i.val) (fun j z hz => by
    rw [cobub, map_prod]
    exact Finset.prod_nonneg fun l hl => closed_bub hc hz (Finset.mem_range.1 (Finset.mem_of_mem_erase hl)))
    (fun j z hz => by
      rw [cobub, map_prod]
      exact Finset.prod_pos fun l hl => inner_bub (hz l (Finset.mem_range.1 (Finset.mem_of_mem_erase hl))))
    w (fun j => hw'.mem j) (Eq.trans (by
      congr 1
      funext z
      congr 1
      refine Finset.sum_congr rfl fun j _ => ?_
      rw [e j]
      ring) h0) i
  rw [e i, h1, mul_zero]
  rfl

end Verif.Families
