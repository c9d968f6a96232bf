import Verif.References.Model
import Mathlib.Algebra.MvPolynomial.PDeriv
import Mathlib.Algebra.MvPolynomial.Degrees
import Mathlib.Data.Real.Basic
import Mathlib.Tactic.Linarith
import Mathlib.Tactic.FinCases

/-!
# `maximum_degree` (C78)

symfem/functions.py:899-931.  Polynomials in the three variables are elements of
`MvPolynomial (Fin 3) ℝ`.
-/

namespace Verif.Functions

open MvPolynomial Verif.References

/-! ### Model -/

/-- `d = 0; while f != 0: d += 1; f = f.diff(v)` (symfem/functions.py:914-919): the value of `d` at the
end, or `none` if there are more than `fuel` rounds. -/
noncomputable def derivLoop (v : Fin 3) : ℕ → MvPolynomial (Fin 3) ℝ → Option ℕ
  | 0, _ => none
  | fuel + 1, f => open Classical in if f = 0 then some 0 else (derivLoop v fuel (pderiv v f)).map (· + 1)

/-- The result of `ScalarFunction.maximum_degree` from the list `degrees` (symfem/functions.py:911-931);
`none`: an exception. -/
def maxDegreeOf (c : Cell) (d : Fin 3 → ℤ) : Option ℤ :=
  match c with
  | .pyramid => none
  | .interval | .triangle | .tetrahedron => some (d 0 + d 1 + d 2)
  | .quadrilateral | .hexahedron => some (max (max (d 0) (d 1)) (d 2))
  | .prism => some (max (d 0 + d 1) (d 2))
  | _ => none

/-- `maximum_degree` returns `r` -/
def MaxDegree (c : Cell) (f : MvPolynomial (Fin 3) ℝ) (r : ℤ) : Prop :=
  ∃ d : Fin 3 → ℕ, (∀ v, ∃ fuel, derivLoop v fuel f = some (d v)) ∧
    maxDegreeOf c (fun v => (d v : ℤ) - 1) = some r

/-! ### Spec -/

/-- The polynomial is in the Lagrange space of order `n` on the cell: total degree at most `n` on
simplices, degree at most `n` in each variable on quadrilaterals and hexahedra, and degree at most `n`
in the first two variables together and in the third on prisms. -/
def InLagrange (c : Cell) (n : ℕ) (f : MvPolynomial (Fin 3) ℝ) : Prop :=
  match c with
  | .interval | .triangle | .tetrahedron => ∀ m ∈ f.support, m 0 + m 1 + m 2 ≤ n
  | .quadrilateral | .hexahedron => ∀ m ∈ f.support, ∀ v, m v ≤ n
  | .prism => ∀ m ∈ f.support, m 0 + m 1 ≤ n ∧ m 2 ≤ n
  | _ => False

/-! ### The loop finds the degree -/

theorem pderiv_eq_zero_iff (v : Fin 3) (f : MvPolynomial (Fin 3) ℝ) :
    pderiv v f = 0 ↔ degreeOf v f = 0 := by
  constructor
  · intro h
    rw [← Nat.le_zero, degreeOf_le_iff]
    intro m hm
    by_contra hne
    have hpos : 0 < m v := by omega
    have hc := congrArg (coeff (m - Finsupp.single v 1)) h
    rw [coeff_pderiv, coeff_zero, tsub_add_cancel_of_le
      (Finsupp.single_le_iff.2 hpos)] at hc
    rcases mul_eq_zero.1 hc with h0 | h0
    · exact (mem_support_iff.1 hm) h0
    · have : (0 : ℝ) < (((m - Finsupp.single v 1 : Fin 3 →₀ ℕ) v : ℕ) : ℝ) + 1 := by positivity
      exact this.ne' h0
  · intro h
    ext m
    rw [coeff_pderiv, coeff_zero]
    have : coeff (m + Finsupp.single v 1) f = 0 := by
      by_contra hne
      have := (degreeOf_le_iff (n := v) (f := f) (d := 0)).1 h.le _ (mem_support_iff.2 hne)
      simp at this
    rw [this, zero_mul]

theorem degreeOf_pderiv (v : Fin 3) (f : MvPolynomial (Fin 3) ℝ) :
    degreeOf v (pderiv v f) = degreeOf v f - 1 := by
  apply le_antisymm
  · rw [degreeOf_le_iff]
    intro m hm
    rw [mem_support_iff, coeff_pderiv] at hm
    have := (degreeOf_le_iff (n := v) (f := f) (d := degreeOf v f)).1 le_rfl _
      (mem_support_iff.2 (left_ne_zero_of_mul hm))
    simp at this
    omega
  · rcases Nat.eq_zero_or_pos (degreeOf v f) with h0 | hpos
    · omega
    · -- a monomial of greatest degree
      have hs : f.support.Nonempty := by
        rw [Finset.nonempty_iff_ne_empty]
        intro he
        rw [degreeOf_eq_sup, he] at hpos
        simp at hpos
      obtain ⟨m, hm, hmax⟩ := Finset.exists_mem_eq_sup f.support hs fun m => m v
      rw [degreeOf_eq_sup v f, hmax]
      rw [degreeOf_eq_sup v f, hmax] at hpos
      have hin : m - Finsupp.single v 1 ∈ (pderiv v f).support := by
        rw [mem_support_iff, coeff_pderiv, tsub_add_cancel_of_le (Finsupp.single_le_iff.2 hpos)]
        refine mul_ne_zero (mem_support_iff.1 hm) ?_
        have : (0 : ℝ) < (((m - Finsupp.single v 1 : Fin 3 →₀ ℕ) v : ℕ) : ℝ) + 1 := by positivity
        exact this.ne'
      have := (degreeOf_le_iff (n := v) (f := pderiv v f) (d := degreeOf v (pderiv v f))).1 le_rfl _ hin
      simpa using this

/-- The loop ends, after one round more than the degree in the variable. -/
theorem derivLoop_eq (v : Fin 3) (f : MvPolynomial (Fin 3) ℝ) (hf : f ≠ 0) (fuel : ℕ)
    (h : degreeOf v f + 2 ≤ fuel) : derivLoop v fuel f = some (degreeOf v f + 1) := by
  induction fuel generalizing f with
  | zero => omega
  | succ fuel ih =>
    rw [derivLoop, if_neg hf]
    by_cases hd : pderiv v f = 0
    · obtain ⟨k, rfl⟩ : ∃ k, fuel = k + 1 := ⟨fuel - 1, by omega⟩
      rw [hd, derivLoop, if_pos rfl, (pderiv_eq_zero_iff v f).1 hd]
      rfl
    · have hpos : degreeOf v f ≠ 0 := fun h0 => hd ((pderiv_eq_zero_iff v f).2 h0)
      rw [ih (pderiv v f) hd (by rw [degreeOf_pderiv]; omega), degreeOf_pderiv, Option.map_some]
      congr 1
      omega

theorem derivLoop_mono (v : Fin 3) (f : MvPolynomial (Fin 3) ℝ) (n k d : ℕ)
    (h : derivLoop v n f = some d) : derivLoop v (n + k) f = some d := by
  induction n generalizing f d with
  | zero => simp [derivLoop] at h
  | succ n ih =>
    rw [Nat.add_right_comm, derivLoop]
    rw [derivLoop] at h
    split_ifs at h ⊢ with h0
    · exact h
    · rw [Option.map_eq_some_iff] at h ⊢
      obtain ⟨e, he, rfl⟩ := h
      exact ⟨e, ih _ _ he, rfl⟩

/-- The value returned, for polynomials that are not zero. -/
theorem maxDegree_iff (c : Cell) (f : MvPolynomial (Fin 3) ℝ) (hf : f ≠ 0) (r : ℤ) :
    MaxDegree c f r ↔ maxDegreeOf c (fun v => (degreeOf v f : ℤ)) = some r := by
  constructor
  · rintro ⟨d, hd, h⟩
    have : ∀ v, d v = degreeOf v f + 1 := by
      intro v
      obtain ⟨fuel, h1⟩ := hd v
      have h2 := derivLoop_mono v f fuel (degreeOf v f + 2) _ h1
      rw [derivLoop_eq v f hf _ (by omega)] at h2
      exact (Option.some.inj h2).symm
    simpa [this] using h
  · intro h
    exact ⟨fun v => degreeOf v f + 1, fun v => ⟨_, derivLoop_eq v f hf _ le_rfl⟩, by simpa using h⟩

/-! ### Theorems -/

/-- **C78** On quadrilaterals and hexahedra `maximum_degree` is the order of the smallest Lagrange
space that includes the polynomial. -/
theorem maxDegree_tensor_partial {c : Cell} (hc : c = .quadrilateral ∨ c = .hexahedron)
    (f : MvPolynomial (Fin 3) ℝ) (hf : f ≠ 0) :
    ∃ r : ℕ, MaxDegree c f r ∧ ∀ n, InLagrange c n f ↔ r ≤ n := by
  refine ⟨max (max (degreeOf 0 f) (degreeOf 1 f)) (degreeOf 2 f), ?_, fun n => ?_⟩
  · rw [maxDegree_iff c f hf]
    rcases hc with rfl | rfl <;> simp [maxDegreeOf]
  · have : InLagrange c n f ↔ ∀ m ∈ f.support, ∀ v, m v ≤ n := by
      rcases hc with rfl | rfl <;> rfl
    rw [this, max_le_iff, max_le_iff, degreeOf_le_iff, degreeOf_le_iff, degreeOf_le_iff]
    constructor
    · intro h; exact ⟨⟨fun m hm => h m hm 0, fun m hm => h m hm 1⟩, fun m hm => h m hm 2⟩
    · rintro ⟨⟨h0, h1⟩, h2⟩ m hm v
      fin_cases v
      · exact h0 m hm
      · exact h1 m hm
      · exact h2 m hm

/-- **C78** On simplices and prisms the polynomial is in the Lagrange space of the order returned. -/
theorem maxDegree_upper_partial {c : Cell}
    (hc : c = .interval ∨ c = .triangle ∨ c = .tetrahedron ∨ c = .prism)
    (f : MvPolynomial (Fin 3) ℝ) (hf : f ≠ 0) : ∃ r : ℕ, MaxDegree c f r ∧ InLagrange c r f := by
  have hle : ∀ m ∈ f.support, ∀ v, m v ≤ degreeOf v f := fun m hm v => degreeOf_le_iff.1 le_rfl m hm
  rcases hc with rfl | rfl | rfl | rfl
  · refine ⟨degreeOf 0 f + degreeOf 1 f + degreeOf 2 f, ?_, fun m hm => ?_⟩
    · rw [maxDegree_iff _ f hf]; simp [maxDegreeOf]
    · have := hle m hm 0; have := hle m hm 1; have := hle m hm 2; omega
  · refine ⟨degreeOf 0 f + degreeOf 1 f + degreeOf 2 f, ?_, fun m hm => ?_⟩
    · rw [maxDegree_iff _ f hf]; simp [maxDegreeOf]
    · have := hle m hm 0; have := hle m hm 1; have := hle m hm 2; omega
  · refine ⟨degreeOf 0 f + degreeOf 1 f + degreeOf 2 f, ?_, fun m hm => ?_⟩
    · rw [maxDegree_iff _ f hf]; simp [maxDegreeOf]
    · have := hle m hm 0; have := hle m hm 1; have := hle m hm 2; omega
  · refine ⟨max (degreeOf 0 f + degreeOf 1 f) (degreeOf 2 f), ?_, fun m hm => ?_⟩
    · rw [maxDegree_iff _ f hf]; simp [maxDegreeOf]
    · have := hle m hm 0; have := hle m hm 1; have := hle m hm 2; omega

/-- **C78** For polynomials in one variable the value is right on simplices too. -/
theorem maxDegree_one_variable_partial {c : Cell} (hc : c = .interval ∨ c = .triangle ∨ c = .tetrahedron)
    (f : MvPolynomial (Fin 3) ℝ) (hf : f ≠ 0) (h1 : degreeOf 1 f = 0) (h2 : degreeOf 2 f = 0) :
    ∃ r : ℕ, MaxDegree c f r ∧ ∀ n, InLagrange c n f ↔ r ≤ n := by
  refine ⟨degreeOf 0 f, ?_, fun n => ?_⟩
  · rw [maxDegree_iff c f hf]
    rcases hc with rfl | rfl | rfl <;> simp [maxDegreeOf, h1, h2]
  · have : InLagrange c n f ↔ ∀ m ∈ f.support, m 0 + m 1 + m 2 ≤ n := by
      rcases hc with rfl | rfl | rfl <;> rfl
    rw [this, degreeOf_le_iff]
    have e1 := (degreeOf_le_iff (n := (1 : Fin 3)) (f := f) (d := 0)).1 h1.le
    have e2 := (degreeOf_le_iff (n := (2 : Fin 3)) (f := f) (d := 0)).1 h2.le
    constructor
    · intro h m hm; have := h m hm; omega
    · intro h m hm; have := h m hm; have := e1 m hm; have := e2 m hm; omega

/-- **C78** is false on triangles, for every degree: `x ^ k + y ^ k` is in the space of order `k`, but
the value is `2 k`. -/
theorem maxDegree_wrong (k : ℕ) (hk : 0 < k) : ∃ r : ℕ, r ≠ k ∧
    MaxDegree .triangle (X 0 ^ k + X 1 ^ k) r ∧ ∀ n, InLagrange .triangle n (X 0 ^ k + X 1 ^ k) ↔ k ≤ n := by
  have hne : Finsupp.single (0 : Fin 3) k ≠ Finsupp.single 1 k := by
    intro h
    have := DFunLike.congr_fun h 0
    simp at this
    omega
  have hcoeff : ∀ m, coeff m (X 0 ^ k + X 1 ^ k : MvPolynomial (Fin 3) ℝ) =
      (if Finsupp.single 0 k = m then 1 else 0) + if Finsupp.single 1 k = m then 1 else 0 := by
    intro m
    rw [coeff_add, coeff_X_pow, coeff_X_pow]
  have hsupp : ∀ m, m ∈ (X 0 ^ k + X 1 ^ k : MvPolynomial (Fin 3) ℝ).support ↔
      m = Finsupp.single 0 k ∨ m = Finsupp.single 1 k := by
    intro m
    rw [mem_support_iff, hcoeff]
    by_cases h0 : Finsupp.single 0 k = m
    · subst h0
      simp [hne.symm]
    · by_cases h1 : Finsupp.single 1 k = m
      · subst h1; simp [hne]
      · simp [h0, h1, Ne.symm h0, Ne.symm h1]
  have hf : (X 0 ^ k + X 1 ^ k : MvPolynomial (Fin 3) ℝ) ≠ 0 := by
    intro h
    have := (hsupp (Finsupp.single 0 k)).2 (Or.inl rfl)
    rw [h] at this
    simp at this
  have hdeg : ∀ v, degreeOf v (X 0 ^ k + X 1 ^ k : MvPolynomial (Fin 3) ℝ) =
      max ((Finsupp.single (0 : Fin 3) k) v) ((Finsupp.single (1 : Fin 3) k) v) := by
    intro v
    apply le_antisymm
    · rw [degreeOf_le_iff]
      intro m hm
      rcases (hsupp m).1 hm with rfl | rfl
      · exact le_max_left _ _
      · exact le_max_right _ _
    · exact max_le (degreeOf_le_iff.1 le_rfl _ ((hsupp _).2 (Or.inl rfl)))
        (degreeOf_le_iff.1 le_rfl _ ((hsupp _).2 (Or.inr rfl)))
  refine ⟨k + k, by omega, ?_, fun n => ?_⟩
  · rw [maxDegree_iff _ _ hf]
    simp [maxDegreeOf, hdeg]
  · simp only [InLagrange]
    constructor
    · intro h
      have := h _ ((hsupp _).2 (Or.inl rfl))
      simpa using this
    · intro h m hm
      rcases (hsupp m).1 hm with rfl | rfl <;> simpa using h

/-- The value for the zero function is negative. -/
theorem maxDegree_zero : MaxDegree .triangle 0 (-3) ∧ MaxDegree .quadrilateral 0 (-1) := by
  have : ∀ v, derivLoop v 1 0 = some 0 := fun v => by simp [derivLoop]
  exact ⟨⟨fun _ => 0, fun v => ⟨1, this v⟩, by simp [maxDegreeOf]⟩,
    ⟨fun _ => 0, fun v => ⟨1, this v⟩, by simp [maxDegreeOf]⟩⟩

end Verif.Functions
