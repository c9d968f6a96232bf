import Verif.Elements.Points
import Mathlib.Data.Nat.Choose.Basic
import Mathlib.Algebra.BigOperators.Group.List.Basic
import Mathlib.Tactic.Ring
/-!
# Numbers of points
-/

namespace Verif.Elements
open Verif.References Verif.Quadrature Verif.Polysets

theorem sum_range_choose' (n d : ℕ) : ∑ u ∈ Finset.range n, u.choose d = n.choose (d + 1) := by
  induction n with
  | zero => simp
  | succ n ih => rw [Finset.sum_range_succ, ih, Nat.choose_succ_succ, add_comm]

theorem length_product (l : List ℕ) (d : ℕ) : (product l d).length = l.length ^ d := by
  induction d with
  | zero => rfl
  | succ d ih => simp [product, List.length_flatMap, ih, pow_succ, mul_comm]

theorem length_innerRange (k : ℕ) : (innerRange k).length = k - 1 := by simp [innerRange]

/-- The number of tuples of positive numbers with sum below `s`. -/
theorem length_filter_sum (M d s : ℕ) (hs : s ≤ M) :
    ((product (List.range' 1 M) d).filter fun i => decide (i.sum < s + 1)).length = s.choose d := by
  induction d generalizing s with
  | zero => simp [product]
  | succ d ih =>
    have e : ∀ i ∈ List.range' 1 M, (((product (List.range' 1 M) d).map fun t => i :: t).filter
        fun i => decide (i.sum < s + 1)).length = if i ≤ s then (s - i).choose d else 0 := by
      intro i _
      rw [List.filter_map, List.length_map]
      split_ifs with h
      · rw [← ih (s - i) (by omega)]
        congr 1
        refine List.filter_congr fun t _ => ?_
        rw [Function.comp_apply]
        refine decide_eq_decide.2 ?_
        rw [List.sum_cons]
        omega
      · rw [List.length_eq_zero_iff, List.filter_eq_nil_iff]
        intro t _
        rw [Function.comp_apply, decide_eq_true_eq, List.sum_cons]
        omega
    rw [product, List.filter_flatMap, List.length_flatMap, List.map_congr_left e, List.range'_eq_map_range,
      List.map_map, ← sum_range_choose']
    have : ∀ n, ((List.range n).map ((fun i => if i ≤ s then (s - i).choose d else 0) ∘ fun x => 1 + x)).sum =
        ∑ x ∈ Finset.range n, if 1 + x ≤ s then (s - (1 + x)).choose d else 0 := by
      intro n
      induction n with
      | zero => simp
      | succ n ih => rw [List.range_succ, List.map_append, List.sum_append, ih, Finset.sum_range_succ]; simp
    rw [this]
    rw [← Finset.sum_range_reflect (n := s)]
    symm
    rw [Finset.sum_congr rfl (g := fun x => if 1 + x ≤ s then (s - (1 + x)).choose d else 0)]
    · refine Finset.sum_subset (by intro x hx; simp at hx ⊢; omega) fun x _ hx => ?_
      rw [if_neg (by simpa [Nat.add_comm] using hx)]
    · intro x hx
      have := Finset.mem_range.1 hx
      rw [if_pos (by omega)]
      congr 1
      omega

theorem length_entityList_lagrange (c : Cell) (v : ℕ → ℕ → ℝ) (points : List ℝ) {k : ℕ} (hk : 0 < k) (edim n : ℕ) :
    (entityList c v points k (fun _ i => decide (i.sum < k)) edim n).length = (k - 1).choose edim := by
  obtain ⟨m, rfl⟩ : ∃ m, k = m + 1 := ⟨k - 1, by omega⟩
  rw [entityList, List.length_map]
  exact length_filter_sum _ _ m (by omega)

theorem length_entityList_q (c : Cell) (v : ℕ → ℕ → ℝ) (points : List ℝ) (k : ℕ) (edim n : ℕ) :
    (entityList c v points k (fun _ _ => true) edim n).length = (k - 1) ^ edim := by
  rw [entityList, List.length_map, List.filter_true, length_product, length_innerRange]

theorem length_allPoints (c : Cell) (v : ℕ → ℕ → ℝ) (points : List ℝ) (k : ℕ) (keep : Cell → List ℕ → Bool)
    (f : ℕ → ℕ) (h : ∀ edim n, (entityList c v points k keep edim n).length = f edim) :
    (allPoints c v points k keep).length = c.nverts + (count c 1 * f 1 + count c 2 * f 2 + count c 3 * f 3) := by
  simp only [allPoints, onVertices, List.length_append, List.length_map, List.length_range, List.length_flatMap,
    show List.range' 1 3 = [1, 2, 3] from rfl, List.map_cons, List.map_nil, List.sum_cons, List.sum_nil, h,
    List.map_const', List.sum_replicate, smul_eq_mul, add_zero]
  ring

/-! ### Numbers of evaluations -/

/-- The number with these digits, most significant first. -/
def digits (n : ℕ) : List ℕ → ℕ
  | [] => 0
  | a :: t => a * n ^ t.length + digits n t

theorem digits_lt {n : ℕ} {l : List ℕ} (h : ∀ a ∈ l, a < n) : digits n l < n ^ l.length := by
  induction l with
  | nil => simp [digits]
  | cons a l ih =>
    have h1 := ih fun b hb => h b (by simp [hb])
    have h2 : a + 1 ≤ n := h a (by simp)
    calc digits n (a :: l) < a * n ^ l.length + n ^ l.length := by simp only [digits]; omega
      _ = (a + 1) * n ^ l.length := by ring
      _ ≤ n * n ^ l.length := Nat.mul_le_mul_right _ h2
      _ = n ^ (a :: l).length := by rw [List.length_cons, pow_succ]; ring

/-- Numbers in a list made of blocks of one length. -/
theorem getElem?_flatMap {A B : Type} (L : List A) (f : A → List B) (m : ℕ) (h : ∀ a ∈ L, (f a).length = m) (q r : ℕ)
    (hr : r < m) : (L.flatMap f)[q * m + r]? = L[q]?.bind fun a => (f a)[r]? := by
  induction L generalizing q with
  | nil => simp
  | cons a L ih =>
    have ha := h a (by simp)
    rw [List.flatMap_cons]
    cases q with
    | zero => rw [List.getElem?_append_left (by omega)]; simp
    | succ q =>
      rw [List.getElem?_append_right (by rw [ha]; nlinarith), ha, List.getElem?_cons_succ,
        ← ih (fun b hb => h b (by simp [hb]))]
      congr 1
      rw [Nat.succ_mul]
      omega

theorem getElem?_product (l : List ℕ) (d : ℕ) (t : List ℕ) (ht : t.length = d) (h : ∀ a ∈ t, a < l.length) :
    (product l d)[digits l.length t]? = some (t.map fun a => l.getD a 0) := by
  induction d generalizing t with
  | zero => rw [List.length_eq_zero_iff.1 ht]; simp [product, digits]
  | succ d ih =>
    match t, ht with
    | a :: t, ht =>
      have ht : t.length = d := by simpa using ht
      have h' : ∀ b ∈ t, b < l.length := fun b hb => h b (by simp [hb])
      have ha : a < l.length := h a (by simp)
      simp only [product, digits]
      rw [ht, getElem?_flatMap _ _ (l.length ^ d) (fun b _ => by rw [List.length_map, length_product]) _ _
        (ht ▸ digits_lt h'), List.getElem?_eq_getElem ha, Option.bind_some, List.getElem?_map, ih t ht h']
      simp [List.getD_eq_getElem?_getD, List.getElem?_eq_getElem ha]

/-- The number of the first evaluation on entities of a dimension. -/
def offset (c : Cell) (n edim : ℕ) : ℕ := c.nverts + ∑ e ∈ Finset.Ico 1 edim, count c e * n ^ e

theorem getElem?_vertex (c : Cell) (v : ℕ → ℕ → ℝ) (points : List ℝ) (k : ℕ) (keep : Cell → List ℕ → Bool) {n : ℕ}
    (hn : n < c.nverts) : (allPoints c v points k keep)[n]? = some ⟨v n, (0, n)⟩ := by
  unfold allPoints
  rw [List.getElem?_append_left (by simpa [onVertices] using hn), onVertices, List.getElem?_map, List.getElem?_range hn]
  rfl

/-- The evaluation with tuple `t + 1` on an entity, when no tuples are left out. -/
theorem getElem?_allPoints (c : Cell) (v : ℕ → ℕ → ℝ) (points : List ℝ) (k : ℕ) {edim n : ℕ} (h1 : 1 ≤ edim)
    (h3 : edim ≤ 3) (hn : n < count c edim) (t : List ℕ) (hl : t.length = edim) (ht : ∀ a ∈ t, a < k - 1) :
    (allPoints c v points k fun _ _ => true)[offset c (k - 1) edim + (n * (k - 1) ^ edim + digits (k - 1) t)]? =
      some ⟨entityPoint (entType c edim n) (entityVerts v (entVerts c edim n))
        ((t.map (· + 1)).reverse.map fun j => points.getD j 0), (edim, n)⟩ := by
  have hlen := fun e => length_entityList_q c v points k e
  have hdl : digits (k - 1) t < (k - 1) ^ edim := hl ▸ digits_lt ht
  have hentry : (entityList c v points k (fun _ _ => true) edim n)[digits (k - 1) t]? =
      some ⟨entityPoint (entType c edim n) (entityVerts v (entVerts c edim n))
        ((t.map (· + 1)).reverse.map fun j => points.getD j 0), (edim, n)⟩ := by
    unfold entityList
    have := getElem?_product (innerRange k) edim t hl (by rw [length_innerRange]; exact ht)
    rw [length_innerRange] at this
    rw [List.filter_true, List.getElem?_map, this, Option.map_some]
    congr 4
    · congr 1
      refine List.map_congr_left fun a ha => ?_
      have := ht a ha
      rw [List.getD_eq_getElem?_getD, innerRange, List.getElem?_range' this]
      simp [add_comm]
  have hlevel : ((List.range (count c edim)).flatMap (entityList c v points k (fun _ _ => true) edim))[
      n * (k - 1) ^ edim + digits (k - 1) t]? = some ⟨entityPoint (entType c edim n) (entityVerts v (entVerts c edim n))
        ((t.map (· + 1)).reverse.map fun j => points.getD j 0), (edim, n)⟩ := by
    rw [getElem?_flatMap _ _ _ (fun m _ => hlen edim m) _ _ hdl, List.getElem?_range hn, Option.bind_some, hentry]
  have hll : ∀ e, ((List.range (count c e)).flatMap (entityList c v points k (fun _ _ => true) e)).length =
      count c e * (k - 1) ^ e := fun e => by
    simp [List.length_flatMap, hlen]
  have hlt : n * (k - 1) ^ edim + digits (k - 1) t < count c edim * (k - 1) ^ edim := by
    have : (n + 1) * (k - 1) ^ edim ≤ count c edim * (k - 1) ^ edim := Nat.mul_le_mul_right _ hn
    rw [Nat.succ_mul] at this
    omega
  unfold allPoints offset
  rw [Nat.add_assoc, List.getElem?_append_right (by simp [onVertices])]
  simp only [onVertices, List.length_map, List.length_range, Nat.add_sub_cancel_left]
  have hcase : edim = 1 ∨ edim = 2 ∨ edim = 3 := by omega
  simp only [show List.range' 1 3 = [1, 2, 3] from rfl, List.flatMap_cons, List.flatMap_nil, List.append_nil]
  rcases hcase with rfl | rfl | rfl
  · simp only [Finset.Ico_self, Finset.sum_empty, Nat.zero_add]
    rw [List.getElem?_append_left (by rw [hll]; exact hlt), hlevel]
  · simp only [show Finset.Ico 1 2 = {1} from rfl, Finset.sum_singleton]
    rw [List.getElem?_append_right (by rw [hll]; omega), hll, Nat.add_sub_cancel_left,
      List.getElem?_append_left (by rw [hll]; exact hlt), hlevel]
  · simp only [show Finset.Ico 1 3 = {1, 2} from rfl, Finset.sum_pair (show (1 : ℕ) ≠ 2 by decide)]
    rw [List.getElem?_append_right (by rw [hll]; omega), hll, Nat.add_assoc, Nat.add_sub_cancel_left,
      List.getElem?_append_right (by rw [hll]; omega), hll, Nat.add_sub_cancel_left, hlevel]

end Verif.Elements
