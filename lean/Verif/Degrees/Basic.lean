import Verif.Scalar.Lag
import Verif.Families.Hdiv
import Mathlib.Order.Bounds.Basic
/-!
# Degrees of the polynomial space of an element

`lagrange_subdegree`, `lagrange_superdegree`, `polynomial_subdegree` and `polynomial_superdegree` (symfem/finite_element.py:91-125): what
they mean, and a criterion.
-/

namespace Verif.Degrees
open Verif.References Verif.Elements Verif.FiniteElement Verif.Polysets
open Verif.Families Verif.Scalar
open MvPolynomial

/-- The four degrees which an element class declares, in the order of symfem/finite_element.py:91-125. -/
structure Declared where
  lagSub : ℤ
  lagSuper : ℤ
  polySub : ℤ
  polySuper : ℤ

/-- The meaning (symfem/finite_element.py:93-124): `lagSub` is the highest degree of a Lagrange space inside the space, `lagSuper` the lowest degree
of a Lagrange space around it, and the same for complete polynomial spaces. Spaces of negative degree contain only 0. -/
def HasDegrees {V : Type} [AddCommGroup V] [Module ℝ V] (L P : ℤ → Submodule ℝ V) (S : V → Prop) (D : Declared) : Prop :=
  IsGreatest {n | ∀ v ∈ L n, S v} D.lagSub ∧ IsLeast {n | ∀ v, S v → v ∈ L n} D.lagSuper ∧
  IsGreatest {n | ∀ v ∈ P n, S v} D.polySub ∧ IsLeast {n | ∀ v, S v → v ∈ P n} D.polySuper

/-- The functions of an element have the degrees. -/
def ElementDegrees {V : Type} [AddCommGroup V] [Module ℝ V] (L P : ℤ → Submodule ℝ V) (e : Option (Element ℝ V)) (D : Declared) : Prop :=
  ∃ el fs, e = some el ∧ getBasis el = some fs ∧ HasDegrees L P (· ∈ lspan fs) D

theorem of_created {V : Type} [AddCommGroup V] [Module ℝ V] {L P : ℤ → Submodule ℝ V} {e : Option (Element ℝ V)} {S : V → Prop} {n : ℕ}
    {T : List (Dof ℝ V) → Prop} {D : Declared} (h : Created e S n T) (hd : HasDegrees L P S D) : ElementDegrees L P e D := by
  obtain ⟨basis, dofs, fs, h1, h2, -, -, h3, -⟩ := h
  refine ⟨_, fs, h1, h2, ?_⟩
  have : (fun v => v ∈ lspan fs) = S := funext fun v => propext (h3 v)
  rw [this]
  exact hd

/-- Degrees from inclusions and functions outside. -/
theorem greatest_of {V : Type} [AddCommGroup V] [Module ℝ V] {L : ℤ → Submodule ℝ V} (hL : Monotone L) {S : V → Prop} {a : ℤ}
    (h1 : ∀ v ∈ L a, S v) (v : V) (h2 : v ∈ L (a + 1)) (h3 : ¬ S v) : IsGreatest {n | ∀ v ∈ L n, S v} a := by
  refine ⟨h1, fun n hn => ?_⟩
  by_contra h
  exact h3 (hn v (hL (show a + 1 ≤ n by omega) h2))

theorem least_of {V : Type} [AddCommGroup V] [Module ℝ V] {L : ℤ → Submodule ℝ V} (hL : Monotone L) {S : V → Prop} {a : ℤ}
    (h1 : ∀ v, S v → v ∈ L a) (v : V) (h2 : S v) (h3 : v ∉ L (a - 1)) : IsLeast {n | ∀ v, S v → v ∈ L n} a := by
  refine ⟨h1, fun n hn => ?_⟩
  by_contra h
  exact h3 (hL (show n ≤ a - 1 by omega) (hn v h2))

theorem HasDegrees.mk {V : Type} [AddCommGroup V] [Module ℝ V] {L P : ℤ → Submodule ℝ V} {S : V → Prop} {a b c e : ℤ}
    (h1 : IsGreatest {n | ∀ v ∈ L n, S v} a) (h2 : IsLeast {n | ∀ v, S v → v ∈ L n} b) (h3 : IsGreatest {n | ∀ v ∈ P n, S v} c)
    (h4 : IsLeast {n | ∀ v, S v → v ∈ P n} e) : HasDegrees L P S ⟨a, b, c, e⟩ := ⟨h1, h2, h3, h4⟩

theorem P_monotone (d : ℕ) : Monotone (P d) := fun _ _ h => P_mono h

theorem QP_monotone (d : ℕ) : Monotone (QP d) := fun a b h => B_mono fun i => by split_ifs <;> omega

theorem W_monotone (c : Cell) : Monotone (W c) := by
  unfold W
  split_ifs
  · exact P_monotone _
  · exact QP_monotone _

/-! ### Monomials -/

theorem mono_mem_P {d : ℕ} {k : ℤ} {t : ℕ →₀ ℕ} : monomial t (1 : ℝ) ∈ P d k ↔ (t.degree : ℤ) ≤ k ∧ ∀ i ∈ t.support, i < d := by
  rw [mem_P]
  simp [support_monomial]

theorem mono_mem_B {F : ℕ → ℤ} {t : ℕ →₀ ℕ} : monomial t (1 : ℝ) ∈ B F ↔ ∀ i, (t i : ℤ) ≤ F i := by
  rw [mem_B]
  simp [support_monomial]

/-- The exponents `n` of the first `d` variables. -/
noncomputable def box (d n : ℕ) : ℕ →₀ ℕ := ∑ j ∈ Finset.range d, Finsupp.single j n

theorem box_apply (d n i : ℕ) : box d n i = if i < d then n else 0 := by
  simp [box, Finsupp.finset_sum_apply, Finsupp.single_apply]

theorem box_degree (d n : ℕ) : (box d n).degree = d * n := by
  simp [box]

theorem box_support {d n i : ℕ} (h : i ∈ (box d n).support) : i < d := by
  rw [Finsupp.mem_support_iff, box_apply] at h
  by_contra h'
  rw [if_neg h'] at h
  exact h rfl

theorem box_mem_P {d n : ℕ} {k : ℤ} : monomial (box d n) (1 : ℝ) ∈ P d k ↔ (d * n : ℤ) ≤ k := by
  rw [mono_mem_P, box_degree]
  push_cast
  exact ⟨fun h => h.1, fun h => ⟨h, fun i hi => box_support hi⟩⟩

theorem box_mem_QP {d n : ℕ} (hd : 0 < d) {k : ℤ} : monomial (box d n) (1 : ℝ) ∈ QP d k ↔ (n : ℤ) ≤ k := by
  rw [QP, mono_mem_B]
  constructor
  · intro h
    simpa [box_apply, hd] using h 0
  · intro h i
    rw [box_apply]
    split_ifs <;> simp [h]

theorem single_mem_P {d n j : ℕ} (hj : j < d) {k : ℤ} (hk : 0 ≤ k ∨ 0 < n) :
    monomial (Finsupp.single j n) (1 : ℝ) ∈ P d k ↔ (n : ℤ) ≤ k := by
  rw [mono_mem_P, Finsupp.degree_single]
  refine ⟨fun h => h.1, fun h => ⟨h, fun i hi => ?_⟩⟩
  have := Finsupp.support_single_subset hi
  simp at this
  omega

theorem single_mem_QP {d n j : ℕ} (hj : j < d) {k : ℤ} (hk : 0 ≤ k ∨ d = 1) :
    monomial (Finsupp.single j n) (1 : ℝ) ∈ QP d k ↔ (n : ℤ) ≤ k := by
  rw [QP, mono_mem_B]
  constructor
  · intro h
    simpa [hj] using h j
  · intro h i
    rw [Finsupp.single_apply]
    split_ifs <;> (try simp) <;> omega

theorem P_le_QP (d : ℕ) (k : ℤ) : P d k ≤ QP d k := by
  intro p hp
  rw [QP, mem_B]
  intro t ht i
  obtain ⟨h1, h2⟩ := mem_P.1 hp t ht
  have h3 : (t i : ℤ) ≤ k := by
    have : t i ≤ t.degree := Finsupp.le_degree i t
    omega
  split_ifs with hi
  · exact h3
  · have : t i = 0 := by
      by_contra hne
      exact hi (h2 i (Finsupp.mem_support_iff.2 hne))
    simp [this]

theorem QP_le_P (d : ℕ) (k : ℤ) : QP d k ≤ P d (d * k) :=
  B_P (fun i hi => by rw [if_pos hi]) fun i hi => by rw [if_neg (by omega)]

/-! ### Complete spaces -/

/-- The degrees of `P_k` on a simplex. -/
theorem degrees_P {d : ℕ} (hd : 0 < d) (k : ℕ) : HasDegrees (P d) (P d) (· ∈ P d k) ⟨k, k, k, k⟩ := by
  have h1 : IsGreatest {n | ∀ v ∈ P d n, v ∈ P d k} (k : ℤ) :=
    greatest_of (P_monotone d) (fun v hv => hv) (monomial (Finsupp.single 0 (k + 1)) 1) ((single_mem_P hd (Or.inl (by omega))).2 (by push_cast; rfl))
      fun h => by
        have := (single_mem_P hd (Or.inl (by omega))).1 h
        push_cast at this
        omega
  have h2 : IsLeast {n | ∀ v, v ∈ P d k → v ∈ P d n} (k : ℤ) :=
    least_of (P_monotone d) (fun v hv => hv) (monomial (Finsupp.single 0 k) 1) ((single_mem_P hd (Or.inl (by omega))).2 le_rfl)
      fun h => by
        have := (mono_mem_P.1 h).1
        simp at this
  exact ⟨h1, h2, h1, h2⟩

/-- The degrees of `P_k` on a tensor-product cell. -/
theorem degrees_P_box {d : ℕ} (hd : 0 < d) (k : ℕ) : HasDegrees (QP d) (P d) (· ∈ P d k) ⟨(k / d : ℕ), k, k, k⟩ := by
  obtain ⟨-, -, h3, h4⟩ := degrees_P hd k
  refine .mk (greatest_of (QP_monotone d) (fun v hv => ?_) (monomial (box d (k / d + 1)) 1) ((box_mem_QP hd).2 (by push_cast; rfl)) fun h => ?_)
    (least_of (QP_monotone d) (fun v hv => P_le_QP d k hv) (monomial (Finsupp.single 0 k) 1) ((single_mem_P hd (Or.inl (by omega))).2 le_rfl)
      fun h => ?_) h3 h4
  · refine P_mono ?_ (QP_le_P d _ hv)
    have := Nat.mul_div_le k d
    exact_mod_cast this
  · have h := box_mem_P.1 h
    have := Nat.lt_mul_div_succ k hd
    push_cast at h
    have h' : d * (k / d + 1) ≤ k := by exact_mod_cast h
    omega
  · rw [QP, mono_mem_B] at h
    have := h 0
    simp [hd] at this

/-- The degrees of `Q_k`. -/
theorem degrees_QP {d : ℕ} (hd : 0 < d) (k : ℕ) : HasDegrees (QP d) (P d) (· ∈ QP d k) ⟨k, k, k, k * d⟩ := by
  refine .mk (greatest_of (QP_monotone d) (fun v hv => hv) (monomial (Finsupp.single 0 (k + 1)) 1)
      ((single_mem_QP hd (Or.inl (by omega))).2 (by push_cast; rfl)) fun h => ?_)
    (least_of (QP_monotone d) (fun v hv => hv) (monomial (Finsupp.single 0 k) 1) ((single_mem_QP hd (Or.inl (by omega))).2 le_rfl) fun h => ?_)
    (greatest_of (P_monotone d) (fun v hv => P_le_QP d k hv) (monomial (Finsupp.single 0 (k + 1)) 1)
      ((single_mem_P hd (Or.inl (by omega))).2 (by push_cast; rfl)) fun h => ?_)
    (least_of (P_monotone d) (fun v hv => by rw [mul_comm]; exact QP_le_P d k hv) (monomial (box d k) 1) ((box_mem_QP hd).2 le_rfl) fun h => ?_)
  · have := (single_mem_QP hd (Or.inl (by omega))).1 h
    push_cast at this
    omega
  · rw [QP, mono_mem_B] at h
    have := h 0
    simp [hd] at this
  · have := (single_mem_QP hd (Or.inl (by omega))).1 h
    push_cast at this
    omega
  · have := box_mem_P.1 h
    rw [mul_comm] at this
    omega

end Verif.Degrees
