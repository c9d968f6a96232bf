import Verif.Scalar.TntSpace
import Verif.Scalar.Bubble
import Verif.Families.Enrich
import Verif.Families.NotConformAbf
import Verif.Orthogonal.Orthonormal
/-!
# The polynomials of the tiniest tensor product elements

C153.
-/

namespace Verif.Scalar
open Verif.References Verif.Moments Verif.Functionals Verif.Elements Verif.FiniteElement Verif.Polysets Verif.Orthogonal
open Verif.Families
open MvPolynomial

/-! ### Model -/

/-- `p(k, v)` (symfem/elements/tnt.py:31-41): `orthogonal_basis("interval", k, 0, [v])[0][-1]`. -/
noncomputable def tntP (k : ℕ) (v : MvPolynomial ℕ ℝ) : MvPolynomial ℕ ℝ := ((orthogonalInterval v k 0).getD 0 []).getLastD 0

/-- `b(k, v)` (symfem/elements/tnt.py:44-59). -/
noncomputable def tntB (k : ℕ) (v : MvPolynomial ℕ ℝ) : MvPolynomial ℕ ℝ :=
  if k = 1 then 0 else C (1 / (4 + (k : ℝ) - 2)) * (tntP k v - tntP (k - 2) v)

/-- `[x[j] for j in range(d) if j != i]` (symfem/elements/tnt.py:80, 86). -/
noncomputable def tntVars (d i : ℕ) : List (MvPolynomial ℕ ℝ) := ((List.range d).filter fun j => decide (j ≠ i)).map X

/-- The polynomials added to the polynomials of degree at most `order` in every variable (symfem/elements/tnt.py:78-89). -/
noncomputable def tntExtra (d k : ℕ) : List (MvPolynomial ℕ ℝ) :=
  if d = 2 then (List.range 2).flatMap fun i =>
    [1 - (tntVars 2 i).getD 0 0, (tntVars 2 i).getD 0 0].map fun f => f * tntB (k + 1) (X i)
  else if d = 3 then (List.range 3).flatMap fun i =>
    [1 - (tntVars 3 i).getD 0 0, (tntVars 3 i).getD 0 0].flatMap fun f0 =>
      [1 - (tntVars 3 i).getD 1 0, (tntVars 3 i).getD 1 0].map fun f1 => f0 * f1 * tntB (k + 1) (X i)
  else []

/-- `poly` (symfem/elements/tnt.py:76-89). -/
noncomputable def tntPoly (d k : ℕ) : List (MvPolynomial ℕ ℝ) := (quolySet d k).map (denoteMono ℝ) ++ tntExtra d k

/-! ### The functions of one variable -/

/-- The Legendre polynomials of the unit interval. -/
noncomputable def legQ (n : ℕ) : Polynomial ℚ := hjac 0 (2 * Polynomial.X - 1) 1 n

theorem tntP_eq (k i : ℕ) : tntP k (X i) = Polynomial.aeval (X i : MvPolynomial ℕ ℝ) (legQ k) := by
  have h1 := interval_value (X i : MvPolynomial ℕ ℝ) (order := k) (derivs := 0) le_rfl
  have h2 : entry (orthogonalInterval (X i : MvPolynomial ℕ ℝ) k 0) 0 k = some (tntP k (X i)) := by
    unfold tntP orthogonalInterval listing entry
    simp [List.range_succ]
  rw [h1] at h2
  rw [← Option.some.inj h2, legQ, map_hjac]
  simp [map_ofNat (Polynomial.aeval (X i : MvPolynomial ℕ ℝ))]

/-- The function `b` of one variable. -/
noncomputable def bQ (k : ℕ) : Polynomial ℚ := Polynomial.C (1 / (4 + ((k + 1 : ℕ) : ℚ) - 2)) * (legQ (k + 1) - legQ (k + 1 - 2))

theorem degree_bQ {k : ℕ} (hk : 1 ≤ k) : (bQ k).degree = (k + 1 : ℕ) := by
  have h1 : (legQ (k + 1) - legQ (k + 1 - 2)).degree = (k + 1 : ℕ) := by
    rw [Polynomial.degree_sub_eq_left_of_degree_lt]
    · exact degree_leg _
    · rw [legQ, legQ, degree_leg, degree_leg]
      exact_mod_cast (by omega : k + 1 - 2 < k + 1)
  rw [bQ, Polynomial.degree_C_mul, h1]
  have : (0 : ℚ) < 4 + (k + 1 : ℕ) - 2 := by push_cast; linarith [(Nat.cast_nonneg k : (0 : ℚ) ≤ k)]
  positivity

theorem tntB_eq {k : ℕ} (hk : 1 ≤ k) (i : ℕ) : tntB (k + 1) (X i) = Polynomial.aeval (X i : MvPolynomial ℕ ℝ) (bQ k) := by
  rw [tntB, if_neg (by omega), tntP_eq, tntP_eq, bQ, map_mul, map_sub, Polynomial.aeval_C]
  congr 1
  rw [IsScalarTower.algebraMap_apply ℚ ℝ (MvPolynomial ℕ ℝ), algebraMap_eq]
  congr 1
  simp

/-! ### The functions in terms of the vertices -/

/-- The first and the second of the other variables. -/
def oth0 (i : ℕ) : ℕ := if i = 0 then 1 else 0
def oth1 (i : ℕ) : ℕ := if i = 2 then 1 else 2

/-- The function that is 1 at one end and 0 at the other end. -/
noncomputable def lin (a : Bool) (v : MvPolynomial ℕ ℝ) : MvPolynomial ℕ ℝ := if a then v else 1 - v

noncomputable def tntMul (d : ℕ) (q : ℕ × Bool × Bool) : MvPolynomial ℕ ℝ :=
  lin q.2.1 (X (oth0 q.1)) * if d = 3 then lin q.2.2 (X (oth1 q.1)) else 1

def tntKeys (d : ℕ) : List (ℕ × Bool × Bool) :=
  if d = 2 then (List.range 2).flatMap fun i => [false, true].map fun a => (i, a, false)
  else (List.range 3).flatMap fun i => [false, true].flatMap fun a => [false, true].map fun b => (i, a, b)

theorem tntExtra_eq {d : ℕ} (hd : d = 2 ∨ d = 3) (k : ℕ) :
    tntExtra d k = (tntKeys d).map fun q => tntMul d q * tntB (k + 1) (X q.1) := by
  rcases hd with rfl | rfl
  · simp [tntExtra, tntKeys, tntMul, tntVars, lin, oth0, List.range_succ]
  · simp [tntExtra, tntKeys, tntMul, tntVars, lin, oth0, oth1, List.range_succ]

theorem tntKeys_nodup {d : ℕ} (hd : d = 2 ∨ d = 3) : (tntKeys d).Nodup := by
  rcases hd with rfl | rfl <;> decide

theorem tntKeys_length {d : ℕ} (hd : d = 2 ∨ d = 3) : (tntKeys d).length = d * 2 ^ (d - 1) := by
  rcases hd with rfl | rfl <;> rfl

theorem tntKeys_mem {d : ℕ} (hd : d = 2 ∨ d = 3) : ∀ q ∈ tntKeys d, q.1 < d ∧ (d = 2 → q.2.2 = false) := by
  rcases hd with rfl | rfl <;> decide

/-! ### Independence -/

/-- The restriction to a line along axis `i`. -/
noncomputable def lineMap (i : ℕ) (z : ℕ → ℝ) : MvPolynomial ℕ ℝ →ₐ[ℝ] Polynomial ℝ :=
  aeval fun j => if j = i then Polynomial.X else Polynomial.C (z j)

/-- The vertex of a key. -/
def corner (q : ℕ × Bool × Bool) : ℕ → ℝ := fun j => if j = oth0 q.1 then (if q.2.1 then 1 else 0) else if q.2.2 then 1 else 0

noncomputable def lineCoeff (k : ℕ) (q : ℕ × Bool × Bool) : MvPolynomial ℕ ℝ →ₗ[ℝ] ℝ :=
  Polynomial.lcoeff ℝ (k + 1) ∘ₗ (lineMap q.1 (corner q)).toLinearMap

theorem oth_ne (i : ℕ) : oth0 i ≠ i ∧ oth1 i ≠ i ∧ oth0 i ≠ oth1 i := by
  unfold oth0 oth1
  split_ifs <;> omega

theorem line_aeval (i : ℕ) (z : ℕ → ℝ) (p : Polynomial ℚ) :
    lineMap i z (Polynomial.aeval (X i : MvPolynomial ℕ ℝ) p) = p.map (algebraMap ℚ ℝ) := by
  have := Polynomial.aeval_algHom_apply ((lineMap i z).restrictScalars ℚ) (X i : MvPolynomial ℕ ℝ) p
  have h2 : (lineMap i z).restrictScalars ℚ (X i) = Polynomial.X := by
    show lineMap i z (X i) = _
    simp [lineMap]
  rw [h2] at this
  refine this.symm.trans ?_
  rw [Polynomial.aeval_def, Polynomial.map, Polynomial.eval₂_eq_sum, Polynomial.eval₂_eq_sum]
  rfl

theorem line_aeval_ne {i j : ℕ} (h : j ≠ i) (z : ℕ → ℝ) (p : Polynomial ℚ) :
    ∃ r, lineMap i z (Polynomial.aeval (X j : MvPolynomial ℕ ℝ) p) = Polynomial.C r := by
  have := Polynomial.aeval_algHom_apply ((lineMap i z).restrictScalars ℚ) (X j : MvPolynomial ℕ ℝ) p
  have h2 : (lineMap i z).restrictScalars ℚ (X j) = Polynomial.C (z j) := by
    show lineMap i z (X j) = _
    simp [lineMap, h]
  rw [h2] at this
  refine ⟨Polynomial.aeval (z j) p, this.symm.trans ?_⟩
  exact Polynomial.aeval_algHom_apply ((Polynomial.CAlgHom (R := ℝ) (A := ℝ)).restrictScalars ℚ) (z j) p

theorem line_lin (i : ℕ) (z : ℕ → ℝ) (a : Bool) (j : ℕ) :
    (lineMap i z (lin a (X j))).natDegree ≤ if j = i then 1 else 0 := by
  by_cases h : j = i <;> cases a <;> simp [lin, lineMap, h]
  · refine (Polynomial.natDegree_sub_le _ _).trans ?_
    simp

theorem line_mul (q q' : ℕ × Bool × Bool) (d : ℕ) : (lineMap q.1 (corner q) (tntMul d q')).natDegree ≤ 1 := by
  obtain ⟨-, -, h⟩ := oth_ne q'.1
  rw [tntMul, map_mul]
  refine Polynomial.natDegree_mul_le.trans ?_
  have h1 := line_lin q.1 (corner q) q'.2.1 (oth0 q'.1)
  have h2 : (lineMap q.1 (corner q) (if d = 3 then lin q'.2.2 (X (oth1 q'.1)) else 1)).natDegree ≤ if oth1 q'.1 = q.1 then 1 else 0 := by
    split_ifs with h3 h4
    · simpa [h4] using line_lin q.1 (corner q) q'.2.2 (oth1 q'.1)
    · simpa [h4] using line_lin q.1 (corner q) q'.2.2 (oth1 q'.1)
    · simp
    · simp
  have h3 : (if oth0 q'.1 = q.1 then 1 else 0) + (if oth1 q'.1 = q.1 then 1 else 0) ≤ 1 := by
    split_ifs <;> omega
  exact (Nat.add_le_add h1 h2).trans h3

theorem line_mul_same {d : ℕ} (hd : d = 2 ∨ d = 3) {q q' : ℕ × Bool × Bool} (hq : q ∈ tntKeys d) (hq' : q' ∈ tntKeys d) (h : q.1 = q'.1) :
    lineMap q.1 (corner q) (tntMul d q') = if q = q' then 1 else 0 := by
  obtain ⟨i, a, b⟩ := q
  obtain ⟨i', a', b'⟩ := q'
  obtain rfl : i = i' := h
  obtain ⟨h1, h2, h3⟩ := oth_ne i
  have e1 := (tntKeys_mem hd _ hq).2
  have e2 := (tntKeys_mem hd _ hq').2
  have key : ∀ a : Bool, ∀ v, lineMap i v (lin a (X (oth0 i))) = Polynomial.C (if a then v (oth0 i) else 1 - v (oth0 i)) := by
    intro a v
    cases a <;> simp [lin, lineMap, h1]
  have key1 : ∀ a : Bool, ∀ v, lineMap i v (lin a (X (oth1 i))) = Polynomial.C (if a then v (oth1 i) else 1 - v (oth1 i)) := by
    intro a v
    cases a <;> simp [lin, lineMap, h2]
  rcases hd with rfl | rfl
  · obtain rfl : b = false := e1 rfl
    obtain rfl : b' = false := e2 rfl
    simp only [tntMul, map_mul, key, if_neg (by decide : ¬ (2 = 3)), map_one, mul_one]
    cases a <;> cases a' <;> simp [corner]
  · simp only [tntMul, map_mul, key, key1, if_true]
    cases a <;> cases a' <;> cases b <;> cases b' <;> simp [corner, Ne.symm h3]

theorem lineCoeff_fn {d k : ℕ} (hd : d = 2 ∨ d = 3) (hk : 1 ≤ k) {q q' : ℕ × Bool × Bool} (hq : q ∈ tntKeys d) (hq' : q' ∈ tntKeys d) :
    lineCoeff k q (tntMul d q' * tntB (k + 1) (X q'.1)) = if q = q' then ((bQ k).leadingCoeff : ℝ) else 0 := by
  show (lineMap q.1 (corner q) _).coeff (k + 1) = _
  rw [map_mul, tntB_eq hk]
  by_cases h : q.1 = q'.1
  · rw [line_mul_same hd hq hq' h, ← h, line_aeval]
    by_cases e : q = q'
    · rw [if_pos e, if_pos e, one_mul, Polynomial.coeff_map, Polynomial.leadingCoeff,
        Polynomial.natDegree_eq_of_degree_eq_some (degree_bQ hk)]
      rfl
    · rw [if_neg e, if_neg e, zero_mul, Polynomial.coeff_zero]
  · rw [if_neg fun e => h (congrArg Prod.fst e)]
    obtain ⟨r, e⟩ := line_aeval_ne (Ne.symm h) (corner q) (bQ k)
    rw [e, Polynomial.coeff_mul_C, Polynomial.coeff_eq_zero_of_natDegree_lt, zero_mul]
    exact lt_of_le_of_lt (line_mul q q' d) (by omega)

theorem lineCoeff_QP {d k : ℕ} (q : ℕ × Bool × Bool) {p : MvPolynomial ℕ ℝ} (hp : p ∈ QP d k) : lineCoeff k q p = 0 := by
  classical
  rw [p.as_sum, map_sum]
  refine Finset.sum_eq_zero fun t ht => ?_
  show (lineMap q.1 (corner q) (monomial t (coeff t p))).coeff (k + 1) = 0
  refine Polynomial.coeff_eq_zero_of_natDegree_lt ?_
  rw [lineMap, aeval_monomial]
  refine lt_of_le_of_lt (Polynomial.natDegree_C_mul_le _ _) ?_
  rw [Finsupp.prod]
  refine lt_of_le_of_lt (Polynomial.natDegree_prod_le _ _) ?_
  have h1 : ∀ j ∈ t.support, ((if j = q.1 then (Polynomial.X : Polynomial ℝ) else Polynomial.C (corner q j)) ^ t j).natDegree ≤ if j = q.1 then k else 0 := by
    intro j _
    have h2 := mem_B.1 hp t ht j
    by_cases e : j = q.1
    · rw [if_pos e, if_pos e, Polynomial.natDegree_X_pow]
      split_ifs at h2 <;> omega
    · rw [if_neg e, if_neg e, ← Polynomial.C_pow, Polynomial.natDegree_C]
  refine lt_of_le_of_lt (Finset.sum_le_sum h1) ?_
  rw [Finset.sum_ite_eq']
  split_ifs <;> omega

theorem tntPoly_independent {d k : ℕ} (hd : d = 2 ∨ d = 3) (hk : 1 ≤ k) : Independent ℝ (tntPoly d k) := by
  rw [tntPoly, tntExtra_eq hd]
  have h0 : ((bQ k).leadingCoeff : ℝ) ≠ 0 := by
    have h1 : (bQ k).leadingCoeff ≠ 0 := by
      rw [Polynomial.leadingCoeff_ne_zero, Ne, ← Polynomial.degree_eq_bot, degree_bQ hk]
      exact WithBot.natCast_ne_bot _
    exact_mod_cast h1
  refine (enrich_dual (L := lineCoeff k) (low := QP d k) (tntKeys_nodup hd) (fun q hq => ?_) (fun q hq q' hq' hne => ?_)
    (fun q _ p hp => lineCoeff_QP q hp) (quolySet_lspan d k).le ((scalar_sets_independent ℝ).2.1 d k)).1
  · rw [lineCoeff_fn hd hk hq hq, if_pos rfl]
    exact h0
  · rw [lineCoeff_fn hd hk hq hq', if_neg hne]

theorem tntPoly_length {d k : ℕ} (hd : d = 2 ∨ d = 3) : (tntPoly d k).length = (k + 1) ^ d + d * 2 ^ (d - 1) := by
  rw [tntPoly, tntExtra_eq hd, List.length_append, List.length_map, List.length_map, tntKeys_length hd, quolySet_length]

theorem lin_B {a : Bool} {F : ℕ → ℤ} {j : ℕ} (h0 : ∀ i, 0 ≤ F i) (h : 1 ≤ F j) : lin a (X j) ∈ B F := by
  cases a
  · exact Submodule.sub_mem _ (by rw [← C_1]; exact C_B h0 1) (X_B h0 h)
  · exact X_B h0 h

/-- The polynomials are in the space. -/
theorem tntPoly_mem {d k : ℕ} (hd : d = 2 ∨ d = 3) (hk : 1 ≤ k) {p : MvPolynomial ℕ ℝ} (hp : p ∈ tntPoly d k) : p ∈ Tnt d k := by
  rw [tntPoly, tntExtra_eq hd, List.mem_append] at hp
  rcases hp with hp | hp
  · refine QP_Tnt d k ?_
    rw [← quolySet_lspan]
    exact Submodule.subset_span hp
  · obtain ⟨q, hq, rfl⟩ := List.mem_map.1 hp
    obtain ⟨hi, -⟩ := tntKeys_mem hd q hq
    obtain ⟨h1, h2, h3⟩ := oth_ne q.1
    have hlt : oth0 q.1 < d ∧ (d = 3 → oth1 q.1 < d) := by
      unfold oth0 oth1
      rcases hd with rfl | rfl <;> constructor <;> split_ifs <;> omega
    have hm : tntMul d q ∈ B fun j => if j < d ∧ j ≠ q.1 then 1 else 0 := by
      have ha : lin q.2.1 (X (oth0 q.1)) ∈ B fun j => if j = oth0 q.1 then 1 else 0 :=
        lin_B (fun i => by split_ifs <;> omega) (by rw [if_pos rfl])
      have hb : (if d = 3 then lin q.2.2 (X (oth1 q.1)) else 1) ∈ B fun j => if d = 3 ∧ j = oth1 q.1 then 1 else 0 := by
        by_cases e : d = 3
        · rw [if_pos e]
          exact lin_B (fun i => by split_ifs <;> omega) (by rw [if_pos ⟨e, rfl⟩])
        · rw [if_neg e, ← C_1]
          exact C_B (fun i => by split_ifs <;> omega) 1
      refine B_mono (fun j => ?_) (B_mul ha hb)
      show (if j = oth0 q.1 then (1 : ℤ) else 0) + (if d = 3 ∧ j = oth1 q.1 then 1 else 0) ≤ _
      split_ifs with a1 a2 a3 a3 a2 a3 a3 <;> omega
    rw [tntB_eq hk, Polynomial.aeval_eq_sum_range, Finset.mul_sum]
    refine Submodule.sum_mem _ fun n hn => ?_
    rw [Polynomial.natDegree_eq_of_degree_eq_some (degree_bQ hk), Finset.mem_range] at hn
    have e : tntMul d q * (bQ k).coeff n • X q.1 ^ n = ((bQ k).coeff n : ℝ) • (tntMul d q * X q.1 ^ n) := by
      rw [mul_smul_comm, Rat.cast_smul_eq_qsmul]
    rw [e]
    refine Submodule.smul_mem _ _ (mem_Tnt.2 fun t ht => ?_)
    have hx : (X q.1 ^ n : MvPolynomial ℕ ℝ) ∈ B fun j => if j = q.1 then (n : ℤ) else 0 := by
      refine mem_B.2 fun t ht j => ?_
      rw [support_X_pow, Finset.mem_singleton] at ht
      rw [ht, Finsupp.single_apply]
      split_ifs with a1 a2 a2
      · exact le_rfl
      · exact absurd a1.symm a2
      · omega
      · exact le_rfl
    have hb := mem_B.1 (B_mul hm hx) t ht
    have hb1 : ∀ j, j ≠ q.1 → (t j : ℤ) ≤ if j < d then 1 else 0 := by
      intro j hj
      have := hb j
      rw [if_neg hj, add_zero] at this
      refine this.trans ?_
      split_ifs with a1 a2 a2 <;> omega
    have hb2 : t q.1 ≤ n := by
      have := hb q.1
      rw [if_neg (by simp), if_pos rfl] at this
      omega
    refine ⟨fun j hj => ?_, ?_⟩
    · by_contra hn
      have := hb1 j (by rintro rfl; exact hn hi)
      rw [if_neg hn] at this
      exact Finsupp.mem_support_iff.1 hj (by omega)
    · have hb3 : ∀ j, j ≠ q.1 → t j ≤ 1 := fun j hj => by
        have := hb1 j hj
        split_ifs at this <;> omega
      by_cases hle : t q.1 ≤ k
      · left
        intro j
        by_cases hj : j = q.1
        · rw [hj]; exact hle
        · have := hb3 j hj
          omega
      · exact Or.inr ⟨q.1, by omega, hb3⟩

end Verif.Scalar
