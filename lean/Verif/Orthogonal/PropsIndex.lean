import Verif.Orthogonal.Model
import Mathlib.Algebra.BigOperators.Group.Finset.Basic
import Mathlib.Algebra.BigOperators.Intervals
import Mathlib.Data.Set.Function
import Mathlib.Tactic.Linarith
import Mathlib.Tactic.LinearCombination
import Mathlib.Algebra.Order.BigOperators.Group.Finset
import Mathlib.Tactic.SplitIfs

/-!
# The index functions are bijections (C30)
-/

set_option linter.unusedSectionVars false

namespace Verif.Orthogonal

open Finset

/-! ### Counting in blocks -/

theorem block_lt {w : ℕ → ℕ} {s s' a : ℕ} (h : s < s') (ha : a < w s) :
    ∑ i ∈ range s, w i + a < ∑ i ∈ range s', w i := by
  have h1 : ∑ i ∈ range (s + 1), w i ≤ ∑ i ∈ range s', w i :=
    sum_le_sum_of_subset (range_subset_range.2 h)
  rw [sum_range_succ] at h1
  omega

theorem block_inj {w : ℕ → ℕ} {s s' a a' : ℕ} (ha : a < w s) (ha' : a' < w s')
    (h : ∑ i ∈ range s, w i + a = ∑ i ∈ range s', w i + a') : s = s' ∧ a = a' := by
  rcases lt_trichotomy s s' with hs | rfl | hs
  · have := block_lt hs ha; omega
  · exact ⟨rfl, by omega⟩
  · have := block_lt hs ha'; omega

theorem block_exists {w : ℕ → ℕ} {n i : ℕ} (h : i < ∑ j ∈ range n, w j) :
    ∃ s < n, ∃ a < w s, i = ∑ j ∈ range s, w j + a := by
  induction n with
  | zero => simp at h
  | succ n ih =>
    by_cases h' : i < ∑ j ∈ range n, w j
    · obtain ⟨s, hs, a, ha, e⟩ := ih h'
      exact ⟨s, by omega, a, ha, e⟩
    · rw [sum_range_succ] at h
      exact ⟨n, by omega, i - ∑ j ∈ range n, w j, by omega, by omega⟩

/-! ### Triangle -/

theorem two_tri (s : ℕ) : 2 * ∑ i ∈ range s, (i + 1) = (s + 1) * s := by
  induction s with
  | zero => simp
  | succ s ih => rw [sum_range_succ, mul_add, ih]; ring

theorem tri_sum (s : ℕ) : (s + 1) * s / 2 = ∑ i ∈ range s, (i + 1) := by
  rw [← two_tri, Nat.mul_div_cancel_left _ (by norm_num)]

theorem triIndex_eq (p q : ℕ) : triIndex p q = ∑ i ∈ range (p + q), (i + 1) + q := by
  rw [triIndex, tri_sum]

theorem triIndex_inj {p q p' q' : ℕ} (h : triIndex p q = triIndex p' q') : p = p' ∧ q = q' := by
  rw [triIndex_eq, triIndex_eq] at h
  have := block_inj (w := fun i => i + 1) (by omega) (by omega) h
  omega

/-- **C30** Triangles: the index pairs of order at most `n` are numbered from `0` to
`(n+1)(n+2)/2 - 1`. -/
theorem triIndex_bijOn (n : ℕ) :
    Set.BijOn (fun s : ℕ × ℕ => triIndex s.1 s.2) {s | s.1 + s.2 ≤ n}
      {i | i < (n + 1) * (n + 2) / 2} := by
  have hsize : (n + 1) * (n + 2) / 2 = ∑ i ∈ range (n + 1), (i + 1) := by
    rw [← tri_sum, Nat.mul_comm]
  refine ⟨?_, ?_, ?_⟩
  · intro s hs
    have hs : s.1 + s.2 ≤ n := hs
    change triIndex s.1 s.2 < _
    rw [hsize, triIndex_eq]
    exact block_lt (w := fun i => i + 1) (by omega) (by omega)
  · intro s _ s' _ h
    obtain ⟨h1, h2⟩ := triIndex_inj h
    exact Prod.ext h1 h2
  · intro i hi
    have hi : i < (n + 1) * (n + 2) / 2 := hi
    rw [hsize] at hi
    obtain ⟨s, hs, a, ha, rfl⟩ := block_exists (w := fun i => i + 1) hi
    refine ⟨(s - a, a), ?_, ?_⟩
    · change s - a + a ≤ n; omega
    · change triIndex (s - a) a = _
      rw [triIndex_eq, Nat.sub_add_cancel (by omega)]

/-! ### Tetrahedron -/

theorem six_tet (s : ℕ) :
    6 * ∑ j ∈ range s, ((j + 1 + 1) * (j + 1) / 2) = s * (s + 1) * (s + 2) := by
  induction s with
  | zero => simp
  | succ s ih =>
    rw [sum_range_succ, mul_add, ih, tri_sum]
    have := two_tri (s + 1)
    nlinarith

theorem tetIndex_eq (p q r : ℕ) : tetIndex p q r =
    ∑ j ∈ range (p + q + r), ((j + 1 + 1) * (j + 1) / 2) + triIndex q r := by
  rw [tetIndex, ← six_tet, Nat.mul_div_cancel_left _ (by norm_num), triIndex,
    Nat.mul_comm (q + r) (q + r + 1), add_assoc]

theorem triIndex_lt {q r s : ℕ} (h : q + r ≤ s) : triIndex q r < (s + 1 + 1) * (s + 1) / 2 := by
  rw [tri_sum, triIndex_eq]
  exact block_lt (w := fun i => i + 1) (by omega) (by omega)

theorem tetIndex_inj {p q r p' q' r' : ℕ} (h : tetIndex p q r = tetIndex p' q' r') :
    p = p' ∧ q = q' ∧ r = r' := by
  rw [tetIndex_eq, tetIndex_eq] at h
  obtain ⟨h1, h2⟩ := block_inj (w := fun j => (j + 1 + 1) * (j + 1) / 2) (triIndex_lt (by omega)) (triIndex_lt (by omega)) h
  obtain ⟨h3, h4⟩ := triIndex_inj h2
  omega

/-- **C30** Tetrahedra: the index triples of order at most `n` are numbered from `0` to
`(n+1)(n+2)(n+3)/6 - 1`. -/
theorem tetIndex_bijOn (n : ℕ) :
    Set.BijOn (fun s : ℕ × ℕ × ℕ => tetIndex s.1 s.2.1 s.2.2) {s | s.1 + s.2.1 + s.2.2 ≤ n}
      {i | i < (n + 1) * (n + 2) * (n + 3) / 6} := by
  have hsize : (n + 1) * (n + 2) * (n + 3) / 6 =
      ∑ j ∈ range (n + 1), ((j + 1 + 1) * (j + 1) / 2) := by
    have := six_tet (n + 1)
    rw [show (n + 1) * (n + 2) * (n + 3) = (n + 1) * (n + 1 + 1) * (n + 1 + 2) by ring, ← this,
      Nat.mul_div_cancel_left _ (by norm_num)]
  refine ⟨?_, ?_, ?_⟩
  · intro s hs
    have hs : s.1 + s.2.1 + s.2.2 ≤ n := hs
    change tetIndex s.1 s.2.1 s.2.2 < _
    rw [hsize, tetIndex_eq]
    exact block_lt (w := fun j => (j + 1 + 1) * (j + 1) / 2) (by omega) (triIndex_lt (by omega))
  · intro s _ s' _ h
    obtain ⟨h1, h2, h3⟩ := tetIndex_inj h
    exact Prod.ext h1 (Prod.ext h2 h3)
  · intro i hi
    have hi : i < (n + 1) * (n + 2) * (n + 3) / 6 := hi
    rw [hsize] at hi
    obtain ⟨s, hs, a, ha, rfl⟩ := block_exists hi
    have ha' : a < (s + 1) * (s + 2) / 2 := by
      rw [Nat.mul_comm]; exact ha
    obtain ⟨⟨q, r⟩, hqr, rfl⟩ := (triIndex_bijOn s).surjOn ha'
    have hqr : q + r ≤ s := hqr
    refine ⟨(s - (q + r), q, r), ?_, ?_⟩
    · change s - (q + r) + q + r ≤ n; omega
    · change tetIndex (s - (q + r)) q r = _
      rw [tetIndex_eq, show s - (q + r) + q + r = s by omega]

/-! ### Pyramid -/

/-- The number of `k` for given `i` and `j`. -/
def pyrW (n i j : ℕ) : ℕ := n + 1 - max i j

/-- The number of pairs `(j, k)` for given `i`. -/
def pyrN (n i : ℕ) : ℕ := ∑ j ∈ range (n + 1), pyrW n i j

theorem two_tri' (j : ℕ) : 2 * ∑ x ∈ range j, (x : ℤ) = j * (j - 1) := by
  induction j with
  | zero => simp
  | succ j ih => rw [sum_range_succ, mul_add, ih]; push_cast; ring

/-- The pairs `(j', k)` with `j' < j`, for given `i`. -/
theorem pyr_row (n i j : ℕ) (hi : i ≤ n) (hj : j ≤ n + 1) :
    2 * (∑ x ∈ range j, pyrW n i x : ℕ) =
      (if i > j then 2 * (j * (n + 1 - i) : ℤ)
        else 2 * j * (n + 1) - j * (j - 1) - i * (i + 1)) := by
  induction j with
  | zero =>
    split_ifs with h
    · simp
    · have : i = 0 := by omega
      subst this; simp
  | succ j ih =>
    have ih := ih (by omega)
    rw [sum_range_succ]
    push_cast at ih ⊢
    rw [mul_add, ih]
    have hw : (pyrW n i j : ℤ) = n + 1 - max (i : ℤ) j := by
      unfold pyrW
      rw [Nat.cast_sub (by simp; omega)]
      push_cast; ring
    rw [hw]
    rcases lt_trichotomy i j with h | h | h
    · rw [if_neg (by omega), if_neg (by omega), max_eq_right (by exact_mod_cast h.le)]
      ring
    · subst h
      rw [if_neg (by omega), if_neg (by omega), max_self]
      ring
    · rw [if_pos (by omega), max_eq_left (by exact_mod_cast h.le)]
      split_ifs with h'
      · ring
      · have : i = j + 1 := by omega
        subst this; push_cast; ring

theorem pyr_blocks (n i : ℕ) (hi : i ≤ n + 1) :
    6 * (∑ x ∈ range i, pyrN n x : ℕ) = (3 * i * (n + 1) * (n + 2) - i * (i ^ 2 - 1) : ℤ) := by
  induction i with
  | zero => simp
  | succ i ih =>
    have ih := ih (by omega)
    rw [sum_range_succ]
    have h := pyr_row n i (n + 1) (by omega) le_rfl
    rw [if_neg (by omega)] at h
    have h' : 2 * (pyrN n i : ℤ) = 2 * (n + 1) * (n + 1) - (n + 1) * n - i * (i + 1) := by
      unfold pyrN
      rw [h]; push_cast; ring
    push_cast at ih ⊢
    linear_combination ih + 3 * h'

/-- The index is a position in the lexicographic list of triples. -/
theorem pyrIndexInt_eq (n i j k : ℕ) (hi : i ≤ n) (hj : j ≤ n + 1) :
    pyrIndexInt n i j k =
      (∑ x ∈ range i, pyrN n x + (∑ x ∈ range j, pyrW n i x + k) : ℕ) := by
  have h1 := pyr_blocks n i (by omega)
  have h2 := pyr_row n i j hi hj
  set B : ℤ := ((∑ x ∈ range i, pyrN n x : ℕ) : ℤ)
  set C : ℤ := ((∑ x ∈ range j, pyrW n i x : ℕ) : ℤ)
  obtain ⟨m, hm⟩ : ∃ m : ℤ, (n + 1) * (n + 2) = 2 * m := by
    have := two_tri' (n + 2)
    exact ⟨∑ x ∈ range (n + 2), (x : ℤ), by rw [this]; push_cast; ring⟩
  obtain ⟨e, he⟩ : ∃ e : ℤ, (i : ℤ) * (i ^ 2 + 5) = 6 * e := by
    refine ⟨i * m - B + i, ?_⟩
    have : (3 * i * (n + 1) * (n + 2) : ℤ) = 6 * (i * m) := by linear_combination 3 * i * hm
    linear_combination h1 + this
  have e1 : (i * (n + 1) * (n + 2) / 2 : ℤ) = i * m := by
    rw [mul_assoc, hm, show (i : ℤ) * (2 * m) = 2 * (i * m) by ring]
    exact Int.mul_ediv_cancel_left _ (by norm_num)
  have e2 : ((i : ℤ) * (i ^ 2 + 5) / 6) = e := by
    rw [he]; exact Int.mul_ediv_cancel_left _ (by norm_num)
  obtain ⟨a, ha⟩ : ∃ a : ℤ, (j : ℤ) * (j - 1) = 2 * a := ⟨_, (two_tri' j).symm⟩
  obtain ⟨b, hb⟩ : ∃ b : ℤ, (i : ℤ) * (i - 1) = 2 * b := ⟨_, (two_tri' i).symm⟩
  have e3 : (j : ℤ) * (j - 1) / 2 = a := by
    rw [ha]; exact Int.mul_ediv_cancel_left _ (by norm_num)
  have e4 : (i : ℤ) * (i - 1) / 2 = b := by
    rw [hb]; exact Int.mul_ediv_cancel_left _ (by norm_num)
  have hB : B = i * m - e + i := by
    have : (3 * i * (n + 1) * (n + 2) : ℤ) = 6 * (i * m) := by linear_combination 3 * i * hm
    have : 6 * B = 6 * (i * m - e + i) := by linear_combination h1 + this - he
    omega
  unfold pyrIndexInt
  simp only [e1, e2, e3, e4]
  rw [Nat.cast_add, Nat.cast_add]
  change _ = B + (C + k)
  rw [hB]
  by_cases h : i > j
  · rw [if_pos h] at h2
    rw [if_pos (by exact_mod_cast h)]
    have : C = j * (n + 1 - i) := by omega
    rw [this]; ring
  · rw [if_neg h] at h2
    rw [if_neg (by exact_mod_cast h)]
    have : 2 * C = 2 * (j * (n + 1) - a - b - i) := by
      linear_combination h2 - ha - hb
    have : C = j * (n + 1) - a - b - i := by omega
    rw [this]; ring

theorem pyrIndex_eq (n i j k : ℕ) (hi : i ≤ n) (hj : j ≤ n + 1) : pyrIndex n i j k =
    ∑ x ∈ range i, pyrN n x + (∑ x ∈ range j, pyrW n i x + k) := by
  rw [pyrIndex, pyrIndexInt_eq n i j k hi hj, Int.toNat_natCast]

/-- The index that Python computes is not negative. -/
theorem pyrIndex_cast (n i j k : ℕ) (hi : i ≤ n) (hj : j ≤ n) :
    (pyrIndex n i j k : ℤ) = pyrIndexInt n i j k := by
  rw [pyrIndex_eq n i j k hi (by omega), pyrIndexInt_eq n i j k hi (by omega)]

theorem pyrIndex_inj {n i j k i' j' k' : ℕ} (h1 : i + k ≤ n) (h2 : j + k ≤ n) (h1' : i' + k' ≤ n)
    (h2' : j' + k' ≤ n) (h : pyrIndex n i j k = pyrIndex n i' j' k') :
    i = i' ∧ j = j' ∧ k = k' := by
  rw [pyrIndex_eq _ _ _ _ (by omega) (by omega), pyrIndex_eq _ _ _ _ (by omega) (by omega)] at h
  have hw : k < pyrW n i j := by unfold pyrW; omega
  have hw' : k' < pyrW n i' j' := by unfold pyrW; omega
  obtain ⟨rfl, h⟩ := block_inj (w := pyrN n) (block_lt (w := pyrW n i) (by omega) hw)
    (block_lt (w := pyrW n i') (by omega) hw') h
  obtain ⟨h5, h6⟩ := block_inj (w := pyrW n i) hw hw' h
  exact ⟨rfl, h5, h6⟩

/-- **C30** Pyramids: the index triples of order `n` are numbered from `0` to
`(2n+3)(n+2)(n+1)/6 - 1`. -/
theorem pyrIndex_bijOn (n : ℕ) :
    Set.BijOn (fun s : ℕ × ℕ × ℕ => pyrIndex n s.1 s.2.1 s.2.2)
      {s | s.1 + s.2.2 ≤ n ∧ s.2.1 + s.2.2 ≤ n}
      {i | i < (2 * n + 3) * (n + 2) * (n + 1) / 6} := by
  have hsize : (2 * n + 3) * (n + 2) * (n + 1) / 6 = ∑ x ∈ range (n + 1), pyrN n x := by
    have h := pyr_blocks n (n + 1) le_rfl
    have : (2 * n + 3) * (n + 2) * (n + 1) = 6 * ∑ x ∈ range (n + 1), pyrN n x := by
      have : (((2 * n + 3) * (n + 2) * (n + 1) : ℕ) : ℤ) = (6 * ∑ x ∈ range (n + 1), pyrN n x : ℕ) := by
        push_cast at h ⊢
        rw [h]; ring
      exact_mod_cast this
    rw [this, Nat.mul_div_cancel_left _ (by norm_num)]
  refine ⟨?_, ?_, ?_⟩
  · rintro ⟨i, j, k⟩ hs
    obtain ⟨h1, h2⟩ : i + k ≤ n ∧ j + k ≤ n := hs
    change pyrIndex n i j k < _
    rw [hsize, pyrIndex_eq _ _ _ _ (by omega) (by omega)]
    exact block_lt (by omega) (block_lt (w := pyrW n i) (by omega) (by unfold pyrW; omega))
  · rintro ⟨i, j, k⟩ hs ⟨i', j', k'⟩ hs' h
    obtain ⟨h1, h2, h3⟩ := pyrIndex_inj hs.1 hs.2 hs'.1 hs'.2 h
    exact Prod.ext h1 (Prod.ext h2 h3)
  · intro a ha
    have ha : a < (2 * n + 3) * (n + 2) * (n + 1) / 6 := ha
    rw [hsize] at ha
    obtain ⟨i, hi, b, hb, rfl⟩ := block_exists ha
    obtain ⟨j, hj, k, hk, rfl⟩ := block_exists hb
    have hk : k < n + 1 - max i j := hk
    refine ⟨(i, j, k), ⟨by change i + k ≤ n; omega, by change j + k ≤ n; omega⟩, ?_⟩
    change pyrIndex n i j k = _
    rw [pyrIndex_eq _ _ _ _ (by omega) (by omega)]

example : triIndex 1 2 = 8 ∧ tetIndex 1 0 2 = 15 ∧ pyrIndex 3 2 1 1 = 22 := by decide

end Verif.Orthogonal
