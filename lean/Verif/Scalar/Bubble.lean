import Verif.Scalar.Lag
/-!
# Bubble elements

`symfem/elements/bubble.py`.  The span of the functions of a bubble element is described as the polynomials of the
Lagrange element of the same order that vanish on the boundary of the cell.
-/

namespace Verif.Scalar
open Verif.References Verif.Moments Verif.Functionals Verif.Elements Verif.FiniteElement Verif.Polysets Verif.Orthogonal
open Verif.Families
open MvPolynomial

/-! ### Model -/

/-- The function `bubble` (symfem/elements/bubble.py:36-47), given the basis functions of the Lagrange element of order
1. -/
noncomputable def bubbleOf (c : Cell) (basis : List (MvPolynomial ℕ ℝ)) : MvPolynomial ℕ ℝ :=
  if c = .quadrilateral then 1 * basis.getD 0 0 * basis.getD 3 0
  else if c = .hexahedron then 1 * basis.getD 0 0 * basis.getD 7 0
  else basis.foldl (fun b f => b * f) 1

/-- `order - o` (symfem/elements/bubble.py:49-56), and the smallest order (lines 110-116). -/
def bubbleShift : Cell → ℕ
  | .triangle => 3
  | .tetrahedron => 4
  | _ => 2

/-- `poly` in `Bubble.__init__` (symfem/elements/bubble.py:36-62).  `create_element` raises an exception for orders below
`min_order`. -/
noncomputable def bubblePoly (c : Cell) (k : ℕ) : Option (List (MvPolynomial ℕ ℝ)) :=
  if k < bubbleShift c then none
  else (lagEl c 1).bind fun p1 => (getBasis p1).bind fun basis => (lagEl c (k - bubbleShift c)).bind fun pn =>
    (getBasis pn).map fun fs => fs.map fun p => bubbleOf c basis * p

/-- `func(i)` in `Bubble.__init__` (symfem/elements/bubble.py:65-73). -/
def bubbleFunc (c : Cell) (i : List ℕ) : ℕ :=
  if c ∈ [Cell.interval, .triangle, .tetrahedron] then i.sum else i.foldr max 0

/-- `dofs` in `Bubble.__init__` (symfem/elements/bubble.py:75-78). -/
noncomputable def bubbleDofs (c : Cell) (k : ℕ) : Option (List PointDof) :=
  ((product (innerRange k) c.tdim).filter fun i => decide (bubbleFunc c i < k)).mapM fun i =>
    (getPoint c (refVertex c) (i.reverse.map fun j : ℕ => (j : ℝ) / k)).map fun p => ⟨p, (c.tdim, 0)⟩

/-- `Bubble(reference, order, variant)` (symfem/elements/bubble.py:25-83) on the default cells. -/
noncomputable def bubbleElement (c : Cell) (k : ℕ) : Option (Element ℝ (MvPolynomial ℕ ℝ)) :=
  (bubblePoly c k).bind fun poly => (bubbleDofs c k).bind fun dofs => ciarlet poly (dofs.map PointDof.functional)

/-! ### The polynomials -/

/-- The points of the boundary of the default cells (and of the planes through the facets). -/
def OnBoundary (c : Cell) (z : ℕ → ℝ) : Prop :=
  if c ∈ [Cell.interval, .triangle, .tetrahedron] then (∃ j < c.tdim, z j = 0) ∨ ∑ j : Fin c.tdim, z j.val = 1
  else ∃ j < c.tdim, z j = 0 ∨ z j = 1

/-- The functions of bubble elements. -/
def BubbleSpace (c : Cell) (k : ℤ) (f : MvPolynomial ℕ ℝ) : Prop :=
  f ∈ W c k ∧ ∀ z, OnBoundary c z → eval z f = 0

theorem B_mul {F G : ℕ → ℤ} {p q : MvPolynomial ℕ ℝ} (hp : p ∈ B F) (hq : q ∈ B G) : p * q ∈ B fun i => F i + G i := by
  rw [mem_B_iff] at *
  intro h i
  have h1 := hp (left_ne_zero_of_mul h) i
  have h2 := hq (right_ne_zero_of_mul h) i
  have := degreeOf_mul_le i p q
  push_cast at this ⊢
  omega

theorem X_mem_B (j : ℕ) : (X j : MvPolynomial ℕ ℝ) ∈ B fun i => if i = j then 1 else 0 := by
  rw [mem_B_iff]
  intro _ i
  rw [degreeOf_X]
  split_ifs <;> simp

theorem C_mem_B {F : ℕ → ℤ} (h : ∀ i, 0 ≤ F i) (a : ℝ) : (C a : MvPolynomial ℕ ℝ) ∈ B F := by
  rw [mem_B_iff]
  intro _ i
  rw [degreeOf_C]
  exact_mod_cast h i

theorem sub_X_mem_B (j : ℕ) : (1 - X j : MvPolynomial ℕ ℝ) ∈ B fun i => if i = j then 1 else 0 :=
  Submodule.sub_mem _ (by simpa using C_mem_B (fun i => by split_ifs <;> simp) 1) (X_mem_B j)

theorem bub_mem_B (j : ℕ) : bub j ∈ B fun i => if i = j then 2 else 0 := by
  refine B_mono (fun i => ?_) (B_mul (X_mem_B j) (sub_X_mem_B j))
  split_ifs <;> simp

/-- The functions of order 1 that are 1 at one vertex and 0 at the others. -/
noncomputable def hats : Cell → List (MvPolynomial ℕ ℝ)
  | .interval => [1 - X 0, X 0]
  | .triangle => [1 - X 0 - X 1, X 0, X 1]
  | .tetrahedron => [1 - X 0 - X 1 - X 2, X 0, X 1, X 2]
  | .quadrilateral => [(1 - X 0) * (1 - X 1), X 0 * (1 - X 1), (1 - X 0) * X 1, X 0 * X 1]
  | .hexahedron => [(1 - X 0) * (1 - X 1) * (1 - X 2), X 0 * (1 - X 1) * (1 - X 2), (1 - X 0) * X 1 * (1 - X 2),
      X 0 * X 1 * (1 - X 2), (1 - X 0) * (1 - X 1) * X 2, X 0 * (1 - X 1) * X 2, (1 - X 0) * X 1 * X 2, X 0 * X 1 * X 2]
  | _ => []

theorem hats_mem {c : Cell} (hc : LagCell c) : ∀ f ∈ hats c, f ∈ W c 1 := by
  rcases hc with hc | hc
  · rw [W_simplex hc]
    have h1 : ∀ d, (1 : MvPolynomial ℕ ℝ) ∈ P d 1 := fun d => Families.one_mem (by norm_num)
    rcases hc with rfl | rfl | rfl <;> intro f hf <;> simp only [hats, List.mem_cons, List.not_mem_nil, or_false] at hf
    · rcases hf with rfl | rfl
      · exact Submodule.sub_mem _ (h1 _) (X_mem (by decide))
      · exact X_mem (by decide)
    · rcases hf with rfl | rfl | rfl
      · exact Submodule.sub_mem _ (Submodule.sub_mem _ (h1 _) (X_mem (by decide))) (X_mem (by decide))
      · exact X_mem (by decide)
      · exact X_mem (by decide)
    · rcases hf with rfl | rfl | rfl | rfl
      · exact Submodule.sub_mem _ (Submodule.sub_mem _ (Submodule.sub_mem _ (h1 _) (X_mem (by decide))) (X_mem (by decide)))
          (X_mem (by decide))
      · exact X_mem (by decide)
      · exact X_mem (by decide)
      · exact X_mem (by decide)
  · rw [W_box hc]
    have m2 : ∀ p q : MvPolynomial ℕ ℝ, (p ∈ B fun i => if i = 0 then 1 else 0) → (q ∈ B fun i => if i = 1 then 1 else 0) →
        p * q ∈ QP 2 1 := fun p q hp hq => B_mono (fun i => by split_ifs <;> omega) (B_mul hp hq)
    have m3 : ∀ p q r : MvPolynomial ℕ ℝ, (p ∈ B fun i => if i = 0 then 1 else 0) → (q ∈ B fun i => if i = 1 then 1 else 0) →
        (r ∈ B fun i => if i = 2 then 1 else 0) → p * q * r ∈ QP 3 1 := fun p q r hp hq hr =>
      B_mono (fun i => by split_ifs <;> omega) (B_mul (B_mul hp hq) hr)
    have hx := X_mem_B
    have hs := sub_X_mem_B
    rcases hc with rfl | rfl <;> intro f hf <;> simp only [hats, List.mem_cons, List.not_mem_nil, or_false] at hf
    · rcases hf with rfl | rfl | rfl | rfl
      · exact m2 _ _ (hs _) (hs _)
      · exact m2 _ _ (hx _) (hs _)
      · exact m2 _ _ (hs _) (hx _)
      · exact m2 _ _ (hx _) (hx _)
    · rcases hf with rfl | rfl | rfl | rfl | rfl | rfl | rfl | rfl
      · exact m3 _ _ _ (hs _) (hs _) (hs _)
      · exact m3 _ _ _ (hx _) (hs _) (hs _)
      · exact m3 _ _ _ (hs _) (hx _) (hs _)
      · exact m3 _ _ _ (hx _) (hx _) (hs _)
      · exact m3 _ _ _ (hs _) (hs _) (hx _)
      · exact m3 _ _ _ (hx _) (hs _) (hx _)
      · exact m3 _ _ _ (hs _) (hx _) (hx _)
      · exact m3 _ _ _ (hx _) (hx _) (hx _)

theorem hats_eval {c : Cell} (hc : LagCell c) (i j : ℕ) (f : MvPolynomial ℕ ℝ) (hf : (hats c)[i]? = some f) (hj : j < c.nverts) :
    eval (refVertex c j) f = if i = j then 1 else 0 := by
  have hi : i < (hats c).length := (List.getElem?_eq_some_iff.1 hf).1
  rcases hc with (rfl | rfl | rfl) | (rfl | rfl) <;> simp only [hats, List.length_cons, List.length_nil] at hi <;>
    simp only [Cell.nverts] at hj <;> interval_cases i <;> simp [hats] at hf <;> subst hf <;> interval_cases j <;>
    simp [refVertex, refVerts, coords]

/-- The basis functions of the Lagrange elements of order 1. -/
theorem lag_hats {c : Cell} (hc : LagCell c) : ∃ e, lagEl c 1 = some e ∧ getBasis e = some (hats c) :=
  lag_one hc (hats_mem hc) (by rcases hc with (rfl | rfl | rfl) | (rfl | rfl) <;> rfl) fun i j f => hats_eval hc i j f

/-- The product of the functions that vanish on the facets. -/
noncomputable def cbub (c : Cell) : MvPolynomial ℕ ℝ :=
  if c ∈ [Cell.interval, .triangle, .tetrahedron] then simpBub c.tdim else cellBub c.tdim

theorem bubbleOf_hats {c : Cell} (hc : LagCell c) : bubbleOf c (hats c) = cbub c := by
  rcases hc with (rfl | rfl | rfl) | (rfl | rfl)
  · have h1 : opp 1 = 1 - X 0 := by rw [opp]; simp
    simp [bubbleOf, hats, cbub, simpBub, Cell.tdim, h1]
    ring
  · simp [bubbleOf, hats, cbub, simpBub, Cell.tdim, opp_two, Finset.prod_range_succ]
    ring
  · simp [bubbleOf, hats, cbub, simpBub, Cell.tdim, opp_three, Finset.prod_range_succ]
    ring
  · simp [bubbleOf, hats, cbub, cellBub, Cell.tdim, Finset.prod_range_succ, bub]
    ring
  · simp [bubbleOf, hats, cbub, cellBub, Cell.tdim, Finset.prod_range_succ, bub]
    ring

theorem eval_cbub {c : Cell} {z : ℕ → ℝ} : eval z (cbub c) = 0 ↔ OnBoundary c z := by
  unfold cbub OnBoundary
  split_ifs with h
  · rw [eval_simpBub, mul_eq_zero, Finset.prod_eq_zero_iff, sub_eq_zero, eq_comm (a := (1 : ℝ))]
    simp
  · rw [cellBub, map_prod, Finset.prod_eq_zero_iff]
    simp only [Finset.mem_range, eval_bub, mul_eq_zero, sub_eq_zero, eq_comm (a := (1 : ℝ))]

/-- The functions that vanish on the boundary are the multiples of the bubble. -/
theorem bubbleSpace_iff {c : Cell} (hc : LagCell c) (k : ℤ) (f : MvPolynomial ℕ ℝ) :
    BubbleSpace c k f ↔ ∃ q ∈ W c (k - bubbleShift c), f = cbub c * q := by
  constructor
  · rintro ⟨hf, h0⟩
    rcases hc with hc | hc
    · rw [W_simplex hc] at *
      simp only [OnBoundary, if_pos (simplex_mem hc)] at h0
      obtain ⟨q, hq, rfl⟩ := simp_factor (d := c.tdim) (by rcases hc with rfl | rfl | rfl <;> decide) hf
        (fun j hj z hz => h0 z (Or.inl ⟨j, hj, hz⟩)) fun z hz => h0 z (Or.inr hz)
      refine ⟨q, ?_, by rw [cbub, if_pos (simplex_mem hc)]⟩
      convert hq using 2
      rcases hc with rfl | rfl | rfl <;> simp [bubbleShift, Cell.tdim] <;> ring
    · rw [W_box hc] at *
      simp only [OnBoundary, if_neg (box_not_mem hc)] at h0
      obtain ⟨q, hq, rfl⟩ := box_factor (n := c.tdim) hf fun j hj z hz => h0 z ⟨j, hj, hz⟩
      refine ⟨q, B_mono (fun i => ?_) hq, by rw [cbub, if_neg (box_not_mem hc)]⟩
      have : bubbleShift c = 2 := by rcases hc with rfl | rfl <;> rfl
      rw [this]
      split_ifs <;> simp
  · rintro ⟨q, hq, rfl⟩
    refine ⟨?_, fun z hz => by rw [map_mul, eval_cbub.2 hz, zero_mul]⟩
    rcases hc with hc | hc
    · rw [W_simplex hc] at *
      rw [cbub, if_pos (simplex_mem hc)]
      have hX : ∀ n ≤ c.tdim, ∏ j ∈ Finset.range n, (X j : MvPolynomial ℕ ℝ) ∈ P c.tdim n := by
        intro n
        induction n with
        | zero => intro _; simpa using Families.one_mem (d := c.tdim) (k := 0) le_rfl
        | succ n ih =>
          intro hn
          rw [Finset.prod_range_succ]
          have := P_mul (ih (by omega)) (X_mem (d := c.tdim) (i := n) (by omega))
          exact_mod_cast this
      have ho := opp_mem c.tdim
      refine P_mono ?_ (P_mul (P_mul (hX _ le_rfl) ho) hq)
      rcases hc with rfl | rfl | rfl <;> simp [bubbleShift, Cell.tdim]
    · rw [W_box hc] at *
      rw [cbub, if_neg (box_not_mem hc)]
      have hb : ∀ n, cellBub n ∈ B fun i => if i < n then 2 else 0 := by
        intro n
        induction n with
        | zero => simpa [cellBub] using C_mem_B (F := fun i => if i < 0 then 2 else 0) (fun i => by simp) 1
        | succ n ih =>
          rw [cellBub, Finset.prod_range_succ]
          refine B_mono (fun i => ?_) (B_mul ih (bub_mem_B n))
          split_ifs <;> omega
      refine B_mono (fun i => ?_) (B_mul (hb _) hq)
      have : bubbleShift c = 2 := by rcases hc with rfl | rfl <;> rfl
      rw [this]
      split_ifs <;> simp

/-! ### Unisolvence -/

/-- The number of functions. -/
def bubbleCount (c : Cell) (k : ℕ) : ℕ :=
  if c ∈ [Cell.interval, .triangle, .tetrahedron] then (k - 1).choose c.tdim else (k - 1) ^ c.tdim

theorem cbub_ne_zero {c : Cell} (hc : LagCell c) : cbub c ≠ 0 := by
  intro h
  have h1 : OnBoundary c fun _ => 1 / 5 := eval_cbub.1 (by rw [h, map_zero])
  rcases hc with (rfl | rfl | rfl) | (rfl | rfl) <;> norm_num [OnBoundary, Cell.tdim] at h1

/-- The polynomials of a bubble element. -/
theorem bubblePoly_spec {c : Cell} (hc : LagCell c) {k : ℕ} (hk : bubbleShift c ≤ k) : ∃ poly, bubblePoly c k = some poly ∧
    poly.length = bubbleCount c k ∧ Independent ℝ poly ∧ ∀ f, f ∈ lspan poly ↔ BubbleSpace c k f := by
  obtain ⟨e1, h1, h2⟩ := lag_hats hc
  obtain ⟨e, l, fs, h3, h4, h5, h6, h7, -, h8, -⟩ := lag_basis hc (k - bubbleShift c)
  have he : (fs.map fun p => cbub c * p) = fs.map (times (cbub c)) := rfl
  refine ⟨fs.map fun p => cbub c * p, ?_, ?_, ?_, fun f => ?_⟩
  · rw [bubblePoly, if_neg (by omega), h1]
    simp only [Option.bind_some, h2, h3, h4, Option.map_some, bubbleOf_hats hc]
  · rw [List.length_map, h6, lagCount, bubbleCount]
    rcases hc with (rfl | rfl | rfl) | (rfl | rfl) <;> simp only [bubbleShift] at hk <;> simp [bubbleShift, Cell.tdim] <;>
      congr 1 <;> omega
  · rw [he]
    exact independent_map _ (times_inj (cbub_ne_zero hc)) (basis_independent h7 h8)
  · rw [he, lspan_map, h5, bubbleSpace_iff hc, Submodule.mem_map]
    push_cast [hk]
    exact ⟨fun ⟨q, hq, h⟩ => ⟨q, hq, h.symm⟩, fun ⟨q, hq, h⟩ => ⟨q, hq, h.symm⟩⟩

/-- The point of a functional. -/
noncomputable def bubblePoint (k : ℕ) (i : List ℕ) : ℕ → ℝ := fun j => (i.reverse.map fun j : ℕ => (j : ℝ) / k).getD j 0

theorem bubbleDofs_spec {c : Cell} (hc : LagCell c) (k : ℕ) : bubbleDofs c k =
    some (((product (innerRange k) c.tdim).filter fun i => decide (bubbleFunc c i < k)).map fun i => ⟨bubblePoint k i, (c.tdim, 0)⟩) := by
  refine mapM_some_of _ _ _ fun i hi => ?_
  have hl : i.length = c.tdim := (mem_product.1 (List.mem_filter.1 hi).1).1
  have h2 : (axisVertices c).length = c.tdim := by rcases hc with (rfl | rfl | rfl) | (rfl | rfl) <;> rfl
  rw [getPoint_eq _ _ _ (by rw [h2, List.length_map, List.length_reverse, hl]), lag_point hc _ (by simpa using hl)]
  rfl

theorem foldr_max_lt {k : ℕ} (hk : 0 < k) (i : List ℕ) : i.foldr max 0 < k ↔ ∀ a ∈ i, a < k := by
  induction i with
  | nil => simpa
  | cons a i ih => simp [ih]

theorem bubbleDofs_count {c : Cell} (hc : LagCell c) {k : ℕ} (hk : bubbleShift c ≤ k) :
    ((product (innerRange k) c.tdim).filter fun i => decide (bubbleFunc c i < k)).length = bubbleCount c k := by
  have hk0 : 0 < k := by rcases hc with (rfl | rfl | rfl) | (rfl | rfl) <;> simp only [bubbleShift] at hk <;> omega
  obtain ⟨m, rfl⟩ : ∃ m, k = m + 1 := ⟨k - 1, by omega⟩
  rcases hc with hc | hc
  · simp only [bubbleFunc, bubbleCount, if_pos (simplex_mem hc)]
    exact length_filter_sum m c.tdim m le_rfl
  · simp only [bubbleFunc, bubbleCount, if_neg (box_not_mem hc)]
    rw [List.filter_eq_self.2, length_product]
    · simp [innerRange]
    · intro i hi
      rw [decide_eq_true_iff, foldr_max_lt hk0]
      intro a ha
      exact (mem_innerRange.1 ((mem_product.1 hi).2 a ha)).2

/-- The functions of a bubble element are determined by their values at the points. -/
theorem bubble_determined {c : Cell} (hc : LagCell c) {k : ℕ} (hk : bubbleShift c ≤ k) {f : MvPolynomial ℕ ℝ}
    (hf : ∃ q ∈ W c (k - bubbleShift c), f = cbub c * q)
    (h0 : ∀ i ∈ product (innerRange k) c.tdim, bubbleFunc c i < k → eval (bubblePoint k i) f = 0) : f = 0 := by
  obtain ⟨q, hq, rfl⟩ := hf
  suffices q = 0 by rw [this, mul_zero]
  have hk0 : 0 < k := by rcases hc with (rfl | rfl | rfl) | (rfl | rfl) <;> simp only [bubbleShift] at hk <;> omega
  have hk' : (0 : ℝ) < k := by exact_mod_cast hk0
  have hd : 0 < c.tdim := by rcases hc with (rfl | rfl | rfl) | (rfl | rfl) <;> decide
  -- the points of the grid
  let node : ℕ → ℝ := fun n => ((n : ℝ) + 1) / k
  have hnode : Function.Injective node := by
    intro a b h
    simp only [node, div_left_inj' hk'.ne', add_left_inj] at h
    exact_mod_cast h
  have key : ∀ t : ℕ → ℕ, (∀ j < c.tdim, t j + 1 < k) →
      bubbleFunc c ((List.range c.tdim).map fun j => t j + 1).reverse < k →
      ¬ OnBoundary c (fun j => if j < c.tdim then node (t j) else 0) →
      ∀ z : ℕ → ℝ, (∀ j < c.tdim, z j = node (t j)) → eval z q = 0 := by
    intro t ht hfun hnb z hz
    have hp := h0 ((List.range c.tdim).map fun j => t j + 1).reverse (mem_product.2 ⟨by simp, fun a ha => by
      simp only [List.mem_reverse, List.mem_map, List.mem_range] at ha
      obtain ⟨j, hj, rfl⟩ := ha
      exact mem_innerRange.2 ⟨by omega, ht j hj⟩⟩) hfun
    have hpt : bubblePoint k ((List.range c.tdim).map fun j => t j + 1).reverse = fun j => if j < c.tdim then node (t j) else 0 := by
      funext j
      rw [bubblePoint, List.reverse_reverse, List.map_map]
      split_ifs with hj
      · rw [List.getD_eq_getElem _ _ (by simpa using hj)]
        simp [node]
      · rw [List.getD_eq_default (hn := by simpa using hj)]
    rw [hpt, map_mul, mul_eq_zero, eval_cbub] at hp
    have := hp.resolve_left hnb
    rcases hc with hc | hc
    · rw [W_simplex hc] at hq
      rw [← this]
      exact eval_congr_P hq fun j hj => by rw [hz j hj, if_pos hj]
    · rw [W_box hc] at hq
      rw [← this]
      exact eval_congr_P (B_P (d := c.tdim) (k := (k : ℤ) - bubbleShift c) (fun i hi => by simp [hi]) (fun i hi => by simp [not_lt.2 hi]) hq)
        fun j hj => by rw [hz j hj, if_pos hj]
  have pos : ∀ n, 0 < node n := fun n => by simp only [node]; positivity
  rcases hc with hc | hc
  · rw [W_simplex hc] at hq
    have hsh : bubbleShift c = c.tdim + 1 := by rcases hc with rfl | rfl | rfl <;> rfl
    refine lattice_zero (m := k - bubbleShift c) (by push_cast [hk]; exact hq) node hnode fun t ht => key t (fun j hj => ?_) ?_ ?_
    · have := Finset.single_le_sum (f := t) (fun i _ => Nat.zero_le _) (Finset.mem_range.2 hj)
      omega
    · rw [bubbleFunc, if_pos (simplex_mem hc), List.sum_reverse]
      have : ((List.range c.tdim).map fun j => t j + 1).sum = ∑ i ∈ Finset.range c.tdim, (t i + 1) := rfl
      rw [this, Finset.sum_add_distrib]
      simp
      omega
    · rw [OnBoundary, if_pos (simplex_mem hc)]
      rintro (⟨j, hj, h⟩ | h)
      · rw [if_pos hj] at h
        exact (pos _).ne' h
      · have e : ∑ j : Fin c.tdim, (if j.val < c.tdim then node (t j.val) else 0) = ((∑ i ∈ Finset.range c.tdim, t i + c.tdim : ℕ) : ℝ) / k := by
          rw [Finset.sum_range, Nat.cast_add, Nat.cast_sum]
          simp only [Fin.is_lt, if_true, node, ← Finset.sum_div, Finset.sum_add_distrib]
          simp
        rw [e, div_eq_one_iff_eq hk'.ne'] at h
        have h' : ∑ i ∈ Finset.range c.tdim, t i + c.tdim = k := by exact_mod_cast h
        omega
  · rw [W_box hc] at hq
    have hsh : bubbleShift c = 2 := by rcases hc with rfl | rfl <;> rfl
    refine grid_zero (m := k - bubbleShift c) (by push_cast [hk]; exact hq) node hnode fun t ht => key t (fun j hj => ?_) ?_ ?_
    · have := ht j
      omega
    · rw [bubbleFunc, if_neg (box_not_mem hc), foldr_max_lt hk0]
      intro a ha
      simp only [List.mem_reverse, List.mem_map, List.mem_range] at ha
      obtain ⟨j, hj, rfl⟩ := ha
      have := ht j
      omega
    · rw [OnBoundary, if_neg (box_not_mem hc)]
      rintro ⟨j, hj, h⟩
      rw [if_pos hj] at h
      rcases h with h | h
      · exact (pos _).ne' h
      · simp only [node] at h
        rw [div_eq_one_iff_eq hk'.ne'] at h
        have h' : t j + 1 = k := by exact_mod_cast h
        have := ht j
        omega

/-- Bubble elements can be created for all orders from `min_order` on; the functions are the polynomials that vanish on
the boundary, and all functionals belong to the interior. -/
theorem bubble_created {c : Cell} (hc : LagCell c) {k : ℕ} (hk : bubbleShift c ≤ k) :
    Created (bubbleElement c k) (BubbleSpace c k) (bubbleCount c k) fun dofs => ∀ d ∈ dofs, d.entity = (c.tdim, 0) := by
  obtain ⟨poly, h1, h2, h3, h4⟩ := bubblePoly_spec hc hk
  refine created_of (by rw [bubbleElement, h1, bubbleDofs_spec hc]; rfl) ?_ h2 h3 h4 (fun f hf h0 => ?_) ?_
  · rw [List.length_map, List.length_map, bubbleDofs_count hc hk]
  · refine bubble_determined hc hk ((bubbleSpace_iff hc _ _).1 hf) fun i hi hi' => ?_
    have := h0 _ (List.mem_map_of_mem (List.mem_map_of_mem (List.mem_filter.2 ⟨hi, by simpa using hi'⟩)))
    rw [eval_functional] at this
    exact this
  · intro d hd
    obtain ⟨p, hp, rfl⟩ := List.mem_map.1 hd
    obtain ⟨i, -, rfl⟩ := List.mem_map.1 hp
    rfl

/-- Smaller orders are refused. -/
theorem bubble_none {c : Cell} {k : ℕ} (hk : k < bubbleShift c) : bubbleElement c k = none := by
  rw [bubbleElement, bubblePoly, if_pos hk]
  rfl

/-- The bubble element of order 4 on a triangle has three functions; `x y (1 - x - y) x` is one of them. -/
example : bubbleShift .triangle ≤ 4 ∧ bubbleCount .triangle 4 = 3 ∧ BubbleSpace .triangle (4 : ℕ) (cbub .triangle * X 0) :=
  ⟨by decide, by decide, (bubbleSpace_iff (Or.inl (Or.inr (Or.inl rfl))) _ _).2 ⟨X 0, by
    rw [W_simplex (Or.inr (Or.inl rfl))]; exact X_mem (by decide), rfl⟩⟩

end Verif.Scalar
