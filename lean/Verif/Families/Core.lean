import Verif.Families.Positive
import Mathlib.Algebra.BigOperators.Fin
/-!
# Vector polynomials on simplices that are determined by their moments

The arguments find test functions for which the sum of the interior moments is the integral of a weighted sum of
squares.
-/

namespace Verif.Families
open MvPolynomial Verif.References Verif.Orthogonal

/-- The Raviart–Thomas space of degree `k`. -/
def RTSpace (d : ℕ) (k : ℤ) (v : Fin d → MvPolynomial ℕ ℝ) : Prop :=
  ∃ r ∈ P d (k - 1), ∀ i : Fin d, v i - X i.val * r ∈ P d (k - 1)

/-- The Nédélec space of the first kind of degree `k`. -/
def N1Space (d : ℕ) (k : ℤ) (v : Fin d → MvPolynomial ℕ ℝ) : Prop :=
  (∀ i, v i ∈ P d k) ∧ ∑ i : Fin d, X i.val * v i ∈ P d k

/-- `1 - x - y - …`, which vanishes on the last facet. -/
noncomputable def opp (d : ℕ) : MvPolynomial ℕ ℝ := 1 - ∑ i : Fin d, X i.val

theorem opp_mem (d : ℕ) : opp d ∈ P d 1 :=
  Submodule.sub_mem _ (one_mem (by norm_num)) (Submodule.sum_mem _ fun i _ => X_mem i.2)

theorem eval_opp (d : ℕ) (z : ℕ → ℝ) : eval z (opp d) = 1 - ∑ i : Fin d, z i.val := by simp [opp]

theorem degree_sum {d : ℕ} (hd : 0 < d) : (∑ i : Fin d, X i.val : MvPolynomial ℕ ℝ).totalDegree = 1 := by
  refine degree_one (Submodule.sum_mem _ fun i _ => X_mem i.2) (i := 0) ?_
  rw [coeff_sum]
  simp only [coeff_X_single]
  rw [Finset.sum_eq_single (⟨0, hd⟩ : Fin d)]
  · simp
  · intro b _ hb
    rw [if_neg]
    intro e
    exact hb (Fin.ext e)
  · simp

theorem degree_opp {d : ℕ} (hd : 0 < d) : (opp d).totalDegree = 1 := by
  refine degree_one (opp_mem d) (i := 0) ?_
  rw [opp, coeff_sub, coeff_one, coeff_sum]
  simp only [coeff_X_single]
  rw [Finset.sum_eq_single (⟨0, hd⟩ : Fin d), if_neg (Finsupp.single_ne_zero.2 one_ne_zero).symm]
  · simp
  · intro b _ hb
    rw [if_neg]
    intro e
    exact hb (Fin.ext e)
  · simp

/-- A polynomial that vanishes on the last facet. -/
theorem opp_dvd {d : ℕ} (hd : 0 < d) {p : MvPolynomial ℕ ℝ}
    (h : ∀ z : ℕ → ℝ, ∑ i : Fin d, z i.val = 1 → eval z p = 0) : opp d ∣ p := by
  obtain ⟨n, rfl⟩ : ∃ n, d = n + 1 := ⟨d - 1, by omega⟩
  have h1 := dvd_of_vanish (p := p) 0 (1 - ∑ i : Fin n, X (i.val + 1)) fun z => h _ (by
    rw [Fin.sum_univ_succ]
    simp)
  have e : opp (n + 1) = -(X 0 - (1 - ∑ i : Fin n, X (i.val + 1) : MvPolynomial ℕ ℝ)) := by
    rw [opp, Fin.sum_univ_succ]
    simp only [Fin.val_zero, Fin.val_succ]
    ring
  rw [e]
  exact (neg_dvd).2 h1

/-- The simplices of dimension 2 and 3. -/
def Simp (c : Cell) : Prop := c = .triangle ∨ c = .tetrahedron

theorem Simp.solid {c : Cell} (h : Simp c) : Solid c := by
  rcases h with rfl | rfl <;> simp [Solid]

theorem Simp.pos {c : Cell} (h : Simp c) : 0 < c.tdim := by rcases h with rfl | rfl <;> decide

theorem closed_X {c : Cell} (hc : Simp c) {z : ℕ → ℝ} (h : Closed c z) (i : Fin c.tdim) : 0 ≤ z i.val := by
  rcases hc with rfl | rfl
  · obtain ⟨h0, h1, -⟩ := h
    fin_cases i
    exacts [h0, h1]
  · obtain ⟨h0, h1, h2, -⟩ := h
    fin_cases i
    exacts [h0, h1, h2]

theorem closed_opp {c : Cell} (hc : Simp c) {z : ℕ → ℝ} (h : Closed c z) : 0 ≤ eval z (opp c.tdim) := by
  rw [eval_opp]
  rcases hc with rfl | rfl
  · obtain ⟨-, -, h⟩ := h
    have e : ∑ i : Fin Cell.triangle.tdim, z i.val = z 0 + z 1 := Fin.sum_univ_two _
    rw [e]
    linarith
  · obtain ⟨-, -, -, h⟩ := h
    have e : ∑ i : Fin Cell.tetrahedron.tdim, z i.val = z 0 + z 1 + z 2 := Fin.sum_univ_three _
    rw [e]
    linarith

theorem inner_opp {c : Cell} (hc : Simp c) {z : ℕ → ℝ} (h : ∀ i < c.tdim, 0 < z i ∧ z i < 1 / 4) :
    0 < eval z (opp c.tdim) := by
  rw [eval_opp]
  rcases hc with rfl | rfl
  · have h0 := h 0 (by decide)
    have h1 := h 1 (by decide)
    have e : ∑ i : Fin Cell.triangle.tdim, z i.val = z 0 + z 1 := Fin.sum_univ_two _
    rw [e]
    linarith
  · have h0 := h 0 (by decide)
    have h1 := h 1 (by decide)
    have h2 := h 2 (by decide)
    have e : ∑ i : Fin Cell.tetrahedron.tdim, z i.val = z 0 + z 1 + z 2 := Fin.sum_univ_three _
    rw [e]
    linarith

/-! ### Normal components -/

/-- The normal components vanish on all facets. -/
structure NormalZero (d : ℕ) (v : Fin d → MvPolynomial ℕ ℝ) : Prop where
  axis : ∀ (i : Fin d) (z : ℕ → ℝ), z i.val = 0 → eval z (v i) = 0
  last : ∀ z : ℕ → ℝ, ∑ i : Fin d, z i.val = 1 → ∑ i, eval z (v i) = 0

theorem NormalZero.factors {d : ℕ} (hd : 0 < d) {k : ℤ} {v : Fin d → MvPolynomial ℕ ℝ} (hv : ∀ i, v i ∈ P d k)
    (h : NormalZero d v) : ∃ (ψ : Fin d → MvPolynomial ℕ ℝ) (g : MvPolynomial ℕ ℝ),
      (∀ i, v i = X i.val * ψ i) ∧ ∑ i, v i = opp d * g ∧ (∀ i, ψ i ∈ P d (k - 1)) ∧ g ∈ P d (k - 1) := by
  choose ψ hψ using fun i : Fin d => X_dvd i.val (h.axis i)
  obtain ⟨g, hg⟩ := opp_dvd hd (p := ∑ i, v i) fun z hz => by rw [map_sum]; exact h.last z hz
  refine ⟨ψ, g, hψ, hg, fun i => ?_, ?_⟩
  · refine X_cancel (i := i.val) ?_
    rw [← hψ]
    exact hv i
  · refine P_cancel (degree_opp hd) ?_
    rw [← hg]
    exact Submodule.sum_mem _ fun i _ => hv i

/-- Only one test function is needed. -/
theorem normal_zero {c : Cell} (hc : Simp c) {v ψ : Fin c.tdim → MvPolynomial ℕ ℝ} {g : MvPolynomial ℕ ℝ} {k : ℤ}
    (hv : ∀ i, v i = X i.val * ψ i) (hg : ∑ i, v i = opp c.tdim * g) (hψ : ∀ i, ψ i ∈ P c.tdim k)
    (hg' : g ∈ P c.tdim k) (h : cellInt c (fun z => eval z (∑ i, v i * (ψ i + g))) = 0) (i : Fin c.tdim) :
    v i = 0 := by
  have e : ∑ i, v i * (ψ i + g) = ∑ j : Option (Fin c.tdim),
      (j.elim (opp c.tdim) fun i => X i.val) * (j.elim g ψ) ^ 2 := by
    rw [Fintype.sum_option]
    simp only [Option.elim_none, Option.elim_some, mul_add, Finset.sum_add_distrib]
    rw [← Finset.sum_mul, hg, add_comm]
    refine congrArg₂ (· + ·) (by ring) (Finset.sum_congr rfl fun i _ => ?_)
    rw [hv i]
    ring
  rw [e] at h
  have := squares_zero hc.solid (fun j : Option (Fin c.tdim) => j.elim (opp c.tdim) fun i => X i.val) (fun j z hz => ?_)
    (fun j z hz => ?_) (fun j => j.elim g ψ) (k := k) (fun j => ?_) h (some i)
  · rw [hv i, show ψ i = 0 from this, mul_zero]
  · cases j with
    | none => exact closed_opp hc hz
    | some i => simpa using closed_X hc hz i
  · cases j with
    | none => exact inner_opp hc hz
    | some i => simpa using (hz i.val i.2).1
  · cases j with
    | none => exact hg'
    | some i => exact hψ i

/-- A Raviart–Thomas function with no normal components and no interior moments against polynomials of degree
`k - 2` is 0. -/
theorem rt_zero {c : Cell} (hc : Simp c) {k : ℤ} {v : Fin c.tdim → MvPolynomial ℕ ℝ} (hv : RTSpace c.tdim k v)
    (hn : NormalZero c.tdim v)
    (h : ∀ q : Fin c.tdim → MvPolynomial ℕ ℝ, (∀ i, q i ∈ P c.tdim (k - 2)) →
      cellInt c (fun z => eval z (∑ i, v i * q i)) = 0) : v = 0 := by
  obtain ⟨r, hr, hvr⟩ := hv
  have hv : ∀ i, v i ∈ P c.tdim k := fun i => by
    have h1 : X i.val * r ∈ P c.tdim (k - 1 + 1) := X_mul_mem i.2 hr
    rw [sub_add_cancel] at h1
    have := Submodule.add_mem _ (P_mono (by omega : k - 1 ≤ k) (hvr i)) h1
    rwa [sub_add_cancel] at this
  obtain ⟨ψ, g, h1, h2, h3, h4⟩ := hn.factors hc.pos hv
  have hψ : ∀ i, ψ i - r ∈ P c.tdim (k - 2) := fun i => by
    have : X i.val * (ψ i - r) ∈ P c.tdim (k - 1) := by rw [mul_sub, ← h1]; exact hvr i
    have := X_cancel this
    rwa [sub_sub] at this
  have hg : g + r ∈ P c.tdim (k - 2) := by
    have e : (∑ i : Fin c.tdim, X i.val) * (g + r) = g - ∑ i, (v i - X i.val * r) := by
      have : ∑ i, v i = g - (∑ i : Fin c.tdim, X i.val) * g := by rw [h2, opp]; ring
      rw [Finset.sum_sub_distrib, this, ← Finset.sum_mul]
      ring
    have := P_cancel (degree_sum hc.pos) (show _ ∈ P c.tdim (k - 1) by
      rw [e]; exact Submodule.sub_mem _ h4 (Submodule.sum_mem _ fun i _ => hvr i))
    rwa [sub_sub] at this
  funext i
  refine normal_zero hc h1 h2 h3 h4 (h _ fun i => ?_) i
  have := Submodule.add_mem _ (hψ i) hg
  rwa [show ψ i - r + (g + r) = ψ i + g by ring] at this

/-- A polynomial of degree `k` with no normal components and no interior moments against Nédélec functions of
degree `k - 1` is 0. -/
theorem bdm_zero {c : Cell} (hc : Simp c) {k : ℤ} {v : Fin c.tdim → MvPolynomial ℕ ℝ}
    (hv : ∀ i, v i ∈ P c.tdim k) (hn : NormalZero c.tdim v)
    (h : ∀ q : Fin c.tdim → MvPolynomial ℕ ℝ, N1Space c.tdim (k - 1) q →
      cellInt c (fun z => eval z (∑ i, v i * q i)) = 0) : v = 0 := by
  obtain ⟨ψ, g, h1, h2, h3, h4⟩ := hn.factors hc.pos hv
  funext i
  refine normal_zero hc h1 h2 h3 h4 (h _ ⟨fun i => Submodule.add_mem _ (h3 i) h4, ?_⟩) i
  have e : ∑ i, X i.val * (ψ i + g) = g := by
    have : ∑ i, X i.val * (ψ i + g) = ∑ i, v i + (∑ i : Fin c.tdim, X i.val) * g := by
      rw [Finset.sum_mul, ← Finset.sum_add_distrib]
      exact Finset.sum_congr rfl fun i _ => by rw [h1 i]; ring
    rw [this, h2, opp]
    ring
  rw [e]
  exact h4

/-! ### Tangential components -/

/-- Polynomials that agree with a multiple of `x + y + …` up to lower degree: the test functions. -/
theorem rtSpace_of_mul {d : ℕ} (hd : 2 ≤ d) {k : ℤ} {q α : Fin d → MvPolynomial ℕ ℝ} {A : MvPolynomial ℕ ℝ}
    (hq : ∀ i, opp d * q i = α i - X i.val * A) (hα : ∀ i, α i ∈ P d k) (hA : A ∈ P d k) : RTSpace d k q := by
  obtain ⟨n, rfl⟩ : ∃ n, d = n + 1 + 1 := ⟨d - 2, by omega⟩
  have hq' : ∀ i, q i ∈ P (n + 1 + 1) k := fun i => by
    have := P_cancel (degree_opp (d := n + 1 + 1) (by omega)) (k := k + 1) (p := q i) (by
      rw [hq i]
      exact Submodule.sub_mem _ (P_mono (by omega) (hα i)) (X_mul_mem i.2 hA))
    rwa [add_sub_cancel_right] at this
  -- the sum of the variables
  set σ : MvPolynomial ℕ ℝ := ∑ i : Fin (n + 1 + 1), X i.val with hσ
  have hop : opp (n + 1 + 1) = 1 - σ := rfl
  -- the polynomial with `X 0` replaced such that the sum is 0
  set L : MvPolynomial ℕ ℝ := -∑ i : Fin (n + 1), X (i.val + 1) with hL
  have hXL : X 0 - L = σ := by
    rw [hL, hσ, Fin.sum_univ_succ (n := n + 1)]
    simp only [Fin.val_zero, Fin.val_succ, sub_neg_eq_add]
  set S : MvPolynomial ℕ ℝ →ₐ[ℝ] MvPolynomial ℕ ℝ := aeval fun j => if j = 0 then L else X j with hS
  have hLm : L ∈ P (n + 1 + 1) 1 := Submodule.neg_mem _ (Submodule.sum_mem _ fun i _ => X_mem (by omega))
  have hSm : ∀ {l : ℤ} {p : MvPolynomial ℕ ℝ}, p ∈ P (n + 1 + 1) l → S p ∈ P (n + 1 + 1) l := fun hp =>
    P_aeval (fun i hi => by split_ifs; exacts [hLm, X_mem hi]) hp
  obtain ⟨r, hr⟩ := dvd_sub_subst 0 L A
  rw [hXL] at hr
  have hr : A - S A = σ * r := hr
  have hrm : r ∈ P (n + 1 + 1) (k - 1) := P_cancel (degree_sum (by omega : 0 < n + 1 + 1)) (by
    rw [← hr]; exact Submodule.sub_mem _ hA (hSm hA))
  have hSX : S (X 1) = X 1 := by rw [hS, aeval_X, if_neg (by omega)]
  have hSσ : S σ = 0 := by
    have h0 : ∀ i : Fin (n + 1), S (X (i.val + 1)) = X (i.val + 1) := fun i => by
      rw [hS, aeval_X, if_neg (by omega)]
    have h1 : S (X 0) = L := by rw [hS, aeval_X, if_pos rfl]
    rw [hσ, map_sum, Fin.sum_univ_succ]
    simp only [Fin.val_zero, Fin.val_succ, h0, h1]
    rw [hL]
    ring
  have hSA : S A ∈ P (n + 1 + 1) (k - 1) := by
    refine X_cancel (i := 1) ?_
    have h1 := congrArg S (hq 1)
    rw [hop, map_mul, map_sub, map_one, hSσ, sub_zero, one_mul, map_sub, map_mul] at h1
    simp only [Fin.val_one] at h1
    rw [hSX] at h1
    have h2 : X 1 * S A = S (α 1) - S (q 1) := by rw [h1]; ring
    rw [h2]
    exact Submodule.sub_mem _ (hSm (hα 1)) (hSm (hq' 1))
  refine ⟨r, hrm, fun i => P_cancel (degree_sum (by omega : 0 < n + 1 + 1)) ?_⟩
  have e : σ * (q i - X i.val * r) = q i - α i + X i.val * S A := by
    have h1 := hq i
    rw [hop] at h1
    linear_combination -h1 + X i.val * hr
  show σ * _ ∈ _
  rw [e]
  refine Submodule.add_mem _ (Submodule.sub_mem _ (hq' i) (hα i)) ?_
  have := X_mul_mem i.2 hSA
  rwa [sub_add_cancel] at this

/-- The tangential components vanish on the edges of the triangle. -/
structure TangentZero2 (v : Fin 2 → MvPolynomial ℕ ℝ) : Prop where
  x : ∀ z : ℕ → ℝ, z 1 = 0 → eval z (v 0) = 0
  y : ∀ z : ℕ → ℝ, z 0 = 0 → eval z (v 1) = 0
  last : ∀ z : ℕ → ℝ, z 0 + z 1 = 1 → eval z (v 0) = eval z (v 1)

theorem TangentZero2.factors {k : ℤ} {v : Fin 2 → MvPolynomial ℕ ℝ} (hv : ∀ i, v i ∈ P 2 k) (h : TangentZero2 v) :
    ∃ α0 α1 β, v 0 = X 1 * α0 ∧ v 1 = X 0 * α1 ∧ X 1 * α0 - X 0 * α1 = opp 2 * β ∧
      α0 ∈ P 2 (k - 1) ∧ α1 ∈ P 2 (k - 1) ∧ β ∈ P 2 (k - 1) := by
  obtain ⟨α0, h0⟩ := X_dvd 1 h.x
  obtain ⟨α1, h1⟩ := X_dvd 0 h.y
  obtain ⟨β, hβ⟩ := opp_dvd (d := 2) (by omega) (p := v 0 - v 1) fun z hz => by
    rw [map_sub, h.last z (by simpa [Fin.sum_univ_two] using hz), sub_self]
  refine ⟨α0, α1, β, h0, h1, by rw [← h0, ← h1, hβ], ?_, ?_, ?_⟩
  · exact X_cancel (h0 ▸ hv 0)
  · exact X_cancel (h1 ▸ hv 1)
  · exact P_cancel (degree_opp (by omega)) (hβ ▸ Submodule.sub_mem _ (hv 0) (hv 1))

theorem opp_two : opp 2 = 1 - (X 0 + X 1) := by simp [opp, Fin.sum_univ_two]

theorem opp_three : opp 3 = 1 - (X 0 + X 1 + X 2) := by simp [opp, Fin.sum_univ_three]

theorem tangent_zero2 {k : ℤ} {v : Fin 2 → MvPolynomial ℕ ℝ} {α0 α1 β : MvPolynomial ℕ ℝ} (h0 : v 0 = X 1 * α0)
    (h1 : v 1 = X 0 * α1) (hβ : X 1 * α0 - X 0 * α1 = opp 2 * β) (m0 : α0 ∈ P 2 k) (m1 : α1 ∈ P 2 k)
    (mβ : β ∈ P 2 k)
    (h : cellInt .triangle (fun z => eval z (v 0 * (α0 + β) + v 1 * (α1 - β))) = 0) : v = 0 := by
  have e : v 0 * (α0 + β) + v 1 * (α1 - β) =
      ∑ j : Fin 3, (![X 1, X 0, opp 2] : Fin 3 → MvPolynomial ℕ ℝ) j * (![α0, α1, β] : Fin 3 → _) j ^ 2 := by
    rw [Fin.sum_univ_three]
    show _ = X 1 * α0 ^ 2 + X 0 * α1 ^ 2 + opp 2 * β ^ 2
    rw [h0, h1]
    linear_combination β * hβ
  rw [e] at h
  have hc : Simp .triangle := Or.inl rfl
  have := squares_zero (c := .triangle) hc.solid _ (fun j z hz => ?_) (fun j z hz => ?_) _ (k := k) (fun j => ?_) h
  · funext i
    fin_cases i
    · show v 0 = 0
      rw [h0, show α0 = 0 from this 0, mul_zero]
    · show v 1 = 0
      rw [h1, show α1 = 0 from this 1, mul_zero]
  · fin_cases j
    · simpa using closed_X hc hz ⟨1, by decide⟩
    · simpa using closed_X hc hz ⟨0, by decide⟩
    · exact closed_opp hc hz
  · fin_cases j
    · simpa using (hz 1 (by decide)).1
    · simpa using (hz 0 (by decide)).1
    · exact inner_opp hc hz
  · fin_cases j
    exacts [m0, m1, mβ]

/-- A Nédélec function on the triangle with no tangential components and no interior moments is 0. -/
theorem n1_zero2 {k : ℤ} {v : Fin 2 → MvPolynomial ℕ ℝ} (hv : N1Space 2 k v) (ht : TangentZero2 v)
    (h : ∀ q : Fin 2 → MvPolynomial ℕ ℝ, (∀ i, q i ∈ P 2 (k - 2)) →
      cellInt .triangle (fun z => eval z (∑ i, v i * q i)) = 0) : v = 0 := by
  obtain ⟨α0, α1, β, h0, h1, hβ, m0, m1, mβ⟩ := ht.factors hv.1
  have hA : α0 + α1 ∈ P 2 (k - 2) := by
    have := hv.2
    rw [Fin.sum_univ_two, h0, h1] at this
    have e : X (0 : Fin 2).val * (X 1 * α0) + X (1 : Fin 2).val * (X 0 * α1) = X 0 * (X 1 * (α0 + α1)) := by
      simp only [Fin.val_zero, Fin.val_one]; ring
    rw [e] at this
    have := X_cancel (X_cancel this)
    rwa [sub_sub] at this
  have x0 : X 0 * (α0 + α1) ∈ P 2 (k - 1) := by
    have := X_mul_mem (i := 0) (by omega) hA
    rwa [show k - 2 + 1 = k - 1 by ring] at this
  have x1 : X 1 * (α0 + α1) ∈ P 2 (k - 1) := by
    have := X_mul_mem (i := 1) (by omega) hA
    rwa [show k - 2 + 1 = k - 1 by ring] at this
  refine tangent_zero2 h0 h1 hβ m0 m1 mβ ?_
  have := h ![α0 + β, α1 - β] fun i => ?_
  · simpa [Fin.sum_univ_two] using this
  · rw [show k - 2 = k - 1 - 1 by ring]
    refine P_cancel (degree_opp (d := 2) (by omega)) ?_
    fin_cases i
    · have e : opp 2 * (α0 + β) = α0 - X 0 * (α0 + α1) := by
        rw [opp_two] at *
        linear_combination -hβ
      exact e ▸ Submodule.sub_mem _ m0 x0
    · have e : opp 2 * (α1 - β) = α1 - X 1 * (α0 + α1) := by
        rw [opp_two] at *
        linear_combination hβ
      exact e ▸ Submodule.sub_mem _ m1 x1

/-- A polynomial on the triangle with no tangential components and no interior moments against Raviart–Thomas
functions is 0. -/
theorem n2_zero2 {k : ℤ} {v : Fin 2 → MvPolynomial ℕ ℝ} (hv : ∀ i, v i ∈ P 2 k) (ht : TangentZero2 v)
    (h : ∀ q : Fin 2 → MvPolynomial ℕ ℝ, RTSpace 2 (k - 1) q →
      cellInt .triangle (fun z => eval z (∑ i, v i * q i)) = 0) : v = 0 := by
  obtain ⟨α0, α1, β, h0, h1, hβ, m0, m1, mβ⟩ := ht.factors hv
  refine tangent_zero2 h0 h1 hβ m0 m1 mβ ?_
  have := h ![α0 + β, α1 - β] (rtSpace_of_mul le_rfl (α := ![α0, α1]) (A := α0 + α1) (fun i => ?_) (fun i => ?_)
    (Submodule.add_mem _ m0 m1))
  · simpa [Fin.sum_univ_two] using this
  · rw [opp_two] at *
    fin_cases i
    · show (1 - (X 0 + X 1)) * (α0 + β) = α0 - X 0 * (α0 + α1)
      linear_combination -hβ
    · show (1 - (X 0 + X 1)) * (α1 - β) = α1 - X 1 * (α0 + α1)
      linear_combination hβ
  · fin_cases i
    exacts [m0, m1]

/-- The tangential components vanish on the faces of the tetrahedron. -/
structure TangentZero3 (v : Fin 3 → MvPolynomial ℕ ℝ) : Prop where
  x : ∀ z : ℕ → ℝ, z 1 = 0 ∨ z 2 = 0 → eval z (v 0) = 0
  y : ∀ z : ℕ → ℝ, z 0 = 0 ∨ z 2 = 0 → eval z (v 1) = 0
  z : ∀ z : ℕ → ℝ, z 0 = 0 ∨ z 1 = 0 → eval z (v 2) = 0
  last : ∀ z : ℕ → ℝ, z 0 + z 1 + z 2 = 1 → eval z (v 0) = eval z (v 1) ∧ eval z (v 1) = eval z (v 2)

/-- A polynomial that vanishes where either of two variables vanishes. -/
theorem X_mul_dvd {p : MvPolynomial ℕ ℝ} {i j : ℕ} (hij : i ≠ j)
    (h : ∀ z : ℕ → ℝ, z i = 0 ∨ z j = 0 → eval z p = 0) : ∃ a, p = X i * (X j * a) := by
  obtain ⟨b, rfl⟩ := X_dvd i fun z hz => h z (Or.inl hz)
  rcases X_dvd_mul_iff.1 (X_dvd j fun z hz => h z (Or.inr hz)) with h1 | ⟨a, rfl⟩
  · exact absurd (X_dvd_X.1 h1).symm hij
  · exact ⟨a, rfl⟩

theorem opp_dvd_of_X_mul {d : ℕ} (hd : 0 < d) {p : MvPolynomial ℕ ℝ} {j : ℕ} (hj : j < d) (hd2 : 2 ≤ d)
    (h : opp d ∣ X j * p) : opp d ∣ p := by
  obtain ⟨g, hg⟩ := h
  rcases X_dvd_mul_iff.1 (⟨p, hg.symm⟩ : X j ∣ opp d * g) with h1 | ⟨g', rfl⟩
  · exfalso
    obtain ⟨a, ha⟩ := h1
    have := congrArg (eval fun _ => (0 : ℝ)) ha
    rw [eval_opp] at this
    simp at this
  · refine ⟨g', ?_⟩
    have : X j * p = X j * (opp d * g') := by rw [hg]; ring
    exact mul_left_cancel₀ (X_ne_zero j) this

theorem TangentZero3.factors {k : ℤ} {v : Fin 3 → MvPolynomial ℕ ℝ} (hv : ∀ i, v i ∈ P 3 k) (h : TangentZero3 v) :
    ∃ α0 α1 α2 β0 β1 β2, v 0 = X 1 * (X 2 * α0) ∧ v 1 = X 0 * (X 2 * α1) ∧ v 2 = X 0 * (X 1 * α2) ∧
      X 2 * α1 - X 1 * α2 = opp 3 * β0 ∧ X 0 * α2 - X 2 * α0 = opp 3 * β1 ∧ X 1 * α0 - X 0 * α1 = opp 3 * β2 ∧
      (α0 ∈ P 3 (k - 2) ∧ α1 ∈ P 3 (k - 2) ∧ α2 ∈ P 3 (k - 2)) ∧
      (β0 ∈ P 3 (k - 2) ∧ β1 ∈ P 3 (k - 2) ∧ β2 ∈ P 3 (k - 2)) := by
  obtain ⟨α0, h0⟩ := X_mul_dvd (by omega) h.x
  obtain ⟨α1, h1⟩ := X_mul_dvd (by omega) h.y
  obtain ⟨α2, h2⟩ := X_mul_dvd (by omega) h.z
  have hsum : ∀ z : ℕ → ℝ, ∑ i : Fin 3, z i.val = 1 → z 0 + z 1 + z 2 = 1 := fun z hz => by
    simpa [Fin.sum_univ_three] using hz
  have d0 : opp 3 ∣ X 0 * (X 2 * α1 - X 1 * α2) := opp_dvd (by omega) fun z hz => by
    have := (h.last z (hsum z hz)).2
    rw [mul_sub, map_sub, ← h1, ← h2, this, sub_self]
  have d1 : opp 3 ∣ X 1 * (X 0 * α2 - X 2 * α0) := opp_dvd (by omega) fun z hz => by
    have := h.last z (hsum z hz)
    rw [show X 1 * (X 0 * α2 - X 2 * α0) = v 2 - v 0 by rw [h2, h0]; ring, map_sub, this.1, this.2, sub_self]
  have d2 : opp 3 ∣ X 2 * (X 1 * α0 - X 0 * α1) := opp_dvd (by omega) fun z hz => by
    have := (h.last z (hsum z hz)).1
    rw [show X 2 * (X 1 * α0 - X 0 * α1) = v 0 - v 1 by rw [h1, h0]; ring, map_sub, this, sub_self]
  obtain ⟨β0, e0⟩ := opp_dvd_of_X_mul (by omega) (by omega : 0 < 3) (by omega) d0
  obtain ⟨β1, e1⟩ := opp_dvd_of_X_mul (by omega) (by omega : 1 < 3) (by omega) d1
  obtain ⟨β2, e2⟩ := opp_dvd_of_X_mul (by omega) (by omega : 2 < 3) (by omega) d2
  have two : ∀ {i j : ℕ} {a : MvPolynomial ℕ ℝ}, X i * (X j * a) ∈ P 3 k → a ∈ P 3 (k - 2) := fun h => by
    have := X_cancel (X_cancel h)
    rwa [sub_sub] at this
  have m0 : α0 ∈ P 3 (k - 2) := two (h0 ▸ hv 0)
  have m1 : α1 ∈ P 3 (k - 2) := two (h1 ▸ hv 1)
  have m2 : α2 ∈ P 3 (k - 2) := two (h2 ▸ hv 2)
  have one : ∀ {i j : ℕ} {a b g : MvPolynomial ℕ ℝ}, i < 3 → j < 3 → a ∈ P 3 (k - 2) → b ∈ P 3 (k - 2) →
      X i * a - X j * b = opp 3 * g → g ∈ P 3 (k - 2) := fun hi hj ha hb e => by
    have := P_cancel (degree_opp (d := 3) (by omega))
      (e ▸ Submodule.sub_mem _ (X_mul_mem hi ha) (X_mul_mem hj hb))
    rwa [add_sub_cancel_right] at this
  exact ⟨α0, α1, α2, β0, β1, β2, h0, h1, h2, e0, e1, e2, ⟨m0, m1, m2⟩, one (by omega) (by omega) m1 m2 e0,
    one (by omega) (by omega) m2 m0 e1, one (by omega) (by omega) m0 m1 e2⟩

theorem tangent_zero3 {k : ℤ} {v : Fin 3 → MvPolynomial ℕ ℝ} {α0 α1 α2 β0 β1 β2 : MvPolynomial ℕ ℝ}
    (h0 : v 0 = X 1 * (X 2 * α0)) (h1 : v 1 = X 0 * (X 2 * α1)) (h2 : v 2 = X 0 * (X 1 * α2))
    (e0 : X 2 * α1 - X 1 * α2 = opp 3 * β0) (e1 : X 0 * α2 - X 2 * α0 = opp 3 * β1)
    (e2 : X 1 * α0 - X 0 * α1 = opp 3 * β2) (m0 : α0 ∈ P 3 k) (m1 : α1 ∈ P 3 k) (m2 : α2 ∈ P 3 k)
    (n0 : β0 ∈ P 3 k) (n1 : β1 ∈ P 3 k) (n2 : β2 ∈ P 3 k)
    (h : cellInt .tetrahedron (fun z => eval z
      (v 0 * (α0 + β2 - β1) + v 1 * (α1 + β0 - β2) + v 2 * (α2 + β1 - β0))) = 0) : v = 0 := by
  have e : v 0 * (α0 + β2 - β1) + v 1 * (α1 + β0 - β2) + v 2 * (α2 + β1 - β0) =
      ∑ j : Fin 6, (![X 1 * X 2, X 0 * X 2, X 0 * X 1, X 0 * opp 3, X 1 * opp 3, X 2 * opp 3] :
        Fin 6 → MvPolynomial ℕ ℝ) j * (![α0, α1, α2, β0, β1, β2] : Fin 6 → _) j ^ 2 := by
    rw [Fin.sum_univ_six]
    show _ = X 1 * X 2 * α0 ^ 2 + X 0 * X 2 * α1 ^ 2 + X 0 * X 1 * α2 ^ 2 + X 0 * opp 3 * β0 ^ 2 +
      X 1 * opp 3 * β1 ^ 2 + X 2 * opp 3 * β2 ^ 2
    rw [h0, h1, h2]
    linear_combination X 0 * β0 * e0 + X 1 * β1 * e1 + X 2 * β2 * e2
  rw [e] at h
  have hc : Simp .tetrahedron := Or.inr rfl
  have := squares_zero (c := .tetrahedron) hc.solid _ (fun j z hz => ?_) (fun j z hz => ?_) _ (k := k)
    (fun j => ?_) h
  · funext i
    fin_cases i
    · show v 0 = 0
      rw [h0, show α0 = 0 from this 0, mul_zero, mul_zero]
    · show v 1 = 0
      rw [h1, show α1 = 0 from this 1, mul_zero, mul_zero]
    · show v 2 = 0
      rw [h2, show α2 = 0 from this 2, mul_zero, mul_zero]
  · have a0 := closed_X hc hz ⟨0, by decide⟩
    have a1 := closed_X hc hz ⟨1, by decide⟩
    have a2 := closed_X hc hz ⟨2, by decide⟩
    have a3 := closed_opp hc hz
    have b0 : 0 ≤ z 0 := a0
    have b1 : 0 ≤ z 1 := a1
    have b2 : 0 ≤ z 2 := a2
    have b3 : 0 ≤ eval z (opp 3) := a3
    fin_cases j
    · show 0 ≤ eval z (X 1 * X 2); rw [eval_mul, eval_X, eval_X]; positivity
    · show 0 ≤ eval z (X 0 * X 2); rw [eval_mul, eval_X, eval_X]; positivity
    · show 0 ≤ eval z (X 0 * X 1); rw [eval_mul, eval_X, eval_X]; positivity
    · show 0 ≤ eval z (X 0 * opp 3); rw [eval_mul, eval_X]; positivity
    · show 0 ≤ eval z (X 1 * opp 3); rw [eval_mul, eval_X]; positivity
    · show 0 ≤ eval z (X 2 * opp 3); rw [eval_mul, eval_X]; positivity
  · have b0 := (hz 0 (by decide)).1
    have b1 := (hz 1 (by decide)).1
    have b2 := (hz 2 (by decide)).1
    have b3 : 0 < eval z (opp 3) := inner_opp hc hz
    fin_cases j
    · show 0 < eval z (X 1 * X 2); rw [eval_mul, eval_X, eval_X]; positivity
    · show 0 < eval z (X 0 * X 2); rw [eval_mul, eval_X, eval_X]; positivity
    · show 0 < eval z (X 0 * X 1); rw [eval_mul, eval_X, eval_X]; positivity
    · show 0 < eval z (X 0 * opp 3); rw [eval_mul, eval_X]; positivity
    · show 0 < eval z (X 1 * opp 3); rw [eval_mul, eval_X]; positivity
    · show 0 < eval z (X 2 * opp 3); rw [eval_mul, eval_X]; positivity
  · fin_cases j
    exacts [m0, m1, m2, n0, n1, n2]

/-- The test functions, multiplied by `opp`. -/
theorem test3 {α0 α1 α2 β0 β1 β2 : MvPolynomial ℕ ℝ} (e0 : X 2 * α1 - X 1 * α2 = opp 3 * β0)
    (e1 : X 0 * α2 - X 2 * α0 = opp 3 * β1) (e2 : X 1 * α0 - X 0 * α1 = opp 3 * β2) (i : Fin 3) :
    opp 3 * (![α0 + β2 - β1, α1 + β0 - β2, α2 + β1 - β0] : Fin 3 → MvPolynomial ℕ ℝ) i =
      (![α0, α1, α2] : Fin 3 → MvPolynomial ℕ ℝ) i - X i.val * (α0 + α1 + α2) := by
  rw [opp_three] at *
  fin_cases i
  · show (1 - (X 0 + X 1 + X 2)) * (α0 + β2 - β1) = α0 - X 0 * (α0 + α1 + α2)
    linear_combination e1 - e2
  · show (1 - (X 0 + X 1 + X 2)) * (α1 + β0 - β2) = α1 - X 1 * (α0 + α1 + α2)
    linear_combination e2 - e0
  · show (1 - (X 0 + X 1 + X 2)) * (α2 + β1 - β0) = α2 - X 2 * (α0 + α1 + α2)
    linear_combination e0 - e1

/-- A Nédélec function on the tetrahedron with no tangential components on the faces and no interior moments is 0. -/
theorem n1_zero3 {k : ℤ} {v : Fin 3 → MvPolynomial ℕ ℝ} (hv : N1Space 3 k v) (ht : TangentZero3 v)
    (h : ∀ q : Fin 3 → MvPolynomial ℕ ℝ, (∀ i, q i ∈ P 3 (k - 3)) →
      cellInt .tetrahedron (fun z => eval z (∑ i, v i * q i)) = 0) : v = 0 := by
  obtain ⟨α0, α1, α2, β0, β1, β2, h0, h1, h2, e0, e1, e2, ⟨m0, m1, m2⟩, n0, n1, n2⟩ := ht.factors hv.1
  have hA : α0 + α1 + α2 ∈ P 3 (k - 3) := by
    have := hv.2
    rw [Fin.sum_univ_three, h0, h1, h2] at this
    have e : X (0 : Fin 3).val * (X 1 * (X 2 * α0)) + X (1 : Fin 3).val * (X 0 * (X 2 * α1)) +
        X (2 : Fin 3).val * (X 0 * (X 1 * α2)) = X 0 * (X 1 * (X 2 * (α0 + α1 + α2))) := by
      simp only [Fin.val_zero, Fin.val_one, Fin.val_two]; ring
    rw [e] at this
    have := X_cancel (X_cancel (X_cancel this))
    rwa [sub_sub, sub_sub] at this
  refine tangent_zero3 h0 h1 h2 e0 e1 e2 m0 m1 m2 n0 n1 n2 ?_
  have := h ![α0 + β2 - β1, α1 + β0 - β2, α2 + β1 - β0] fun i => ?_
  · simpa [Fin.sum_univ_three] using this
  · rw [show k - 3 = k - 2 - 1 by ring]
    refine P_cancel (degree_opp (d := 3) (by omega)) ?_
    rw [test3 e0 e1 e2]
    refine Submodule.sub_mem _ ?_ ?_
    · fin_cases i
      exacts [m0, m1, m2]
    · have := X_mul_mem i.2 hA
      rwa [show k - 3 + 1 = k - 2 by ring] at this

/-- A polynomial on the tetrahedron with no tangential components on the faces and no interior moments against
Raviart–Thomas functions is 0. -/
theorem n2_zero3 {k : ℤ} {v : Fin 3 → MvPolynomial ℕ ℝ} (hv : ∀ i, v i ∈ P 3 k) (ht : TangentZero3 v)
    (h : ∀ q : Fin 3 → MvPolynomial ℕ ℝ, RTSpace 3 (k - 2) q →
      cellInt .tetrahedron (fun z => eval z (∑ i, v i * q i)) = 0) : v = 0 := by
  obtain ⟨α0, α1, α2, β0, β1, β2, h0, h1, h2, e0, e1, e2, ⟨m0, m1, m2⟩, n0, n1, n2⟩ := ht.factors hv
  refine tangent_zero3 h0 h1 h2 e0 e1 e2 m0 m1 m2 n0 n1 n2 ?_
  have := h ![α0 + β2 - β1, α1 + β0 - β2, α2 + β1 - β0] (rtSpace_of_mul (by omega) (α := ![α0, α1, α2])
    (test3 e0 e1 e2) (fun i => ?_) (Submodule.add_mem _ (Submodule.add_mem _ m0 m1) m2))
  · simpa [Fin.sum_univ_three] using this
  · fin_cases i
    exacts [m0, m1, m2]

end Verif.Families
