import Verif.Macro.P1IsoP2
/-!
# P1-iso-P2 elements on quadrilaterals and intervals
-/

namespace Verif.Macro
open Verif.References Verif.Elements Verif.FiniteElement Verif.Polysets Verif.Moments Verif.Geometry Verif.Functions
open Verif.Families Verif.Scalar Verif.Functionals Verif.Smooth
open MvPolynomial

/-! ### Bilinear functions -/

theorem QP_one {p : MvPolynomial ℕ ℝ} (hp : p ∈ QP 2 1) : ∃ a b c d, p = C a + C b * X 0 + C c * X 1 + C d * (X 0 * X 1) := by
  have hp' := hp
  rw [← quolySet_lspan 2 1] at hp'
  have hl : quolySet 2 1 = [[0, 0], [0, 1], [1, 0], [1, 1]] := by decide
  rw [hl, list_eq_range (([[0, 0], [0, 1], [1, 0], [1, 1]] : List Mono).map (denoteMono ℝ)), mem_lspan_range] at hp'
  obtain ⟨a, rfl⟩ := hp'
  refine ⟨a 0, a 2, a 1, a 3, ?_⟩
  simp [Finset.sum_range_succ, denoteMono, monoFrom, smul_eq_C_mul]
  ring

theorem QP_mem {l : List (ℤ × Mono)} (h : ∀ t ∈ l, t.2 ∈ quolySet 2 1) : denotePoly ℝ l ∈ QP 2 1 := by
  rw [← quolySet_lspan 2 1]
  unfold denotePoly
  refine list_sum_mem fun q hq => ?_
  obtain ⟨t, ht, rfl⟩ := List.mem_map.1 hq
  rw [← smul_eq_C_mul]
  exact Submodule.smul_mem _ _ (Submodule.subset_span (List.mem_map.2 ⟨_, h t ht, rfl⟩))

theorem bilinear_line {p : MvPolynomial ℕ ℝ} (hp : p ∈ QP 2 1) {a b v : ℝ} (hab : a ≠ b) :
    (eval (coords [v, a]) p = 0 → eval (coords [v, b]) p = 0 → ∀ z : ℕ → ℝ, z 0 = v → eval z p = 0) ∧
    (eval (coords [a, v]) p = 0 → eval (coords [b, v]) p = 0 → ∀ z : ℕ → ℝ, z 1 = v → eval z p = 0) := by
  obtain ⟨p0, p1, p2, p3, rfl⟩ := QP_one hp
  have hs : b - a ≠ 0 := sub_ne_zero.2 hab.symm
  constructor
  · intro h0 h1 z hz
    simp [coords] at h0 h1
    simp only [map_add, map_mul, eval_C, eval_X, hz]
    refine (mul_eq_zero.1 (?_ : (b - a) * _ = 0)).resolve_left hs
    linear_combination (b - z 1) * h0 + (z 1 - a) * h1
  · intro h0 h1 z hz
    simp [coords] at h0 h1
    simp only [map_add, map_mul, eval_C, eval_X, hz]
    refine (mul_eq_zero.1 (?_ : (b - a) * _ = 0)).resolve_left hs
    linear_combination (b - z 0) * h0 + (z 0 - a) * h1

theorem bilinear_zero {p : MvPolynomial ℕ ℝ} (hp : p ∈ QP 2 1) {a b a' b' : ℝ} (ha : a ≠ a') (hb : b ≠ b') (h0 : eval (coords [a, b]) p = 0)
    (h1 : eval (coords [a', b]) p = 0) (h2 : eval (coords [a, b']) p = 0) (h3 : eval (coords [a', b']) p = 0) : p = 0 := by
  have l0 := (bilinear_line hp ha (v := b)).2 h0 h1
  have l1 := (bilinear_line hp ha (v := b')).2 h2 h3
  refine MvPolynomial.funext fun z => ?_
  have := (bilinear_line hp hb (v := z 0)).1 (l0 (coords [z 0, b]) rfl) (l1 (coords [z 0, b']) rfl) z rfl
  simpa using this

/-! ### Quadrilaterals -/

theorem squares_eq (i k : Fin 4) : squares i k 0 = ((i.val % 2 + k.val % 2 : ℕ) : ℝ) / 2 ∧ squares i k 1 = ((i.val / 2 + k.val / 2 : ℕ) : ℝ) / 2 := by
  have h : ∀ a b c d : ℝ, a = c → b = d → (![a, b] : Fin 2 → ℝ) 0 = c ∧ (![a, b] : Fin 2 → ℝ) 1 = d := fun _ _ _ _ h1 h2 => ⟨h1, h2⟩
  fin_cases i <;> fin_cases k
  all_goals exact h _ _ _ _ (by norm_num) (by norm_num)

theorem squares_proper (i : Fin 4) : Proper 2 (squares i) := by
  have h : ∀ a b : ℝ, Proper 2 ![![a, b], ![a + 1 / 2, b], ![a, b + 1 / 2], ![a + 1 / 2, b + 1 / 2]] := by
    intro a b
    refine .quadrilateral _ _ _ _ ?_
    unfold ConvexPositive area2
    simp only [Matrix.cons_val_zero, Matrix.cons_val_one]
    refine ⟨?_, ?_, ?_, ?_, ?_, ?_, ?_, ?_⟩ <;> ring_nf <;> norm_num
  fin_cases i
  · have := h 0 0
    norm_num at this
    exact this
  · have := h (1 / 2) 0
    norm_num at this
    simpa [squares] using this
  · have := h 0 (1 / 2)
    norm_num at this
    simpa [squares] using this
  · have := h (1 / 2) (1 / 2)
    norm_num at this
    simpa [squares] using this

theorem squares_in {i : Fin 4} {z : ℕ → ℝ} (h : Inside (squares i) z) : ((i.val % 2 : ℕ) : ℝ) / 2 ≤ z 0 ∧ z 0 ≤ ((i.val % 2 + 1 : ℕ) : ℝ) / 2 ∧
    ((i.val / 2 : ℕ) : ℝ) / 2 ≤ z 1 ∧ z 1 ≤ ((i.val / 2 + 1 : ℕ) : ℝ) / 2 := by
  have k1 : ∀ k : Fin 4, (((k.val % 2 : ℕ) : ℝ) = 0 ∨ ((k.val % 2 : ℕ) : ℝ) = 1) ∧ (((k.val / 2 : ℕ) : ℝ) = 0 ∨ ((k.val / 2 : ℕ) : ℝ) = 1) := by
    intro k
    fin_cases k <;> norm_num
  push_cast
  refine ⟨?_, ?_, ?_, ?_⟩
  · have := inside_le h (-((i.val % 2 : ℕ) : ℝ) / 2) 1 0 fun k => by
      rw [(squares_eq i k).1]
      push_cast
      rcases (k1 k).1 with e | e <;> push_cast at e <;> linarith
    push_cast at this
    linarith
  · have := inside_le h ((((i.val % 2 : ℕ) : ℝ) + 1) / 2) (-1) 0 fun k => by
      rw [(squares_eq i k).1]
      push_cast
      rcases (k1 k).1 with e | e <;> push_cast at e <;> linarith
    push_cast at this
    linarith
  · have := inside_le h (-((i.val / 2 : ℕ) : ℝ) / 2) 0 1 fun k => by
      rw [(squares_eq i k).2, Nat.cast_add]
      rcases (k1 k).2 with e | e <;> linarith
    linarith
  · have := inside_le h ((((i.val / 2 : ℕ) : ℝ) + 1) / 2) 0 (-1) fun k => by
      rw [(squares_eq i k).2, Nat.cast_add]
      rcases (k1 k).2 with e | e <;> linarith
    linarith

theorem squares_continuous {f : Fin 4 → MvPolynomial ℕ ℝ} (h : ∀ i, f i ∈ QP 2 1) (h01 : ∀ z : ℕ → ℝ, z 0 = 1 / 2 → eval z (f 0) = eval z (f 1))
    (h23 : ∀ z : ℕ → ℝ, z 0 = 1 / 2 → eval z (f 2) = eval z (f 3)) (h02 : ∀ z : ℕ → ℝ, z 1 = 1 / 2 → eval z (f 0) = eval z (f 2))
    (h13 : ∀ z : ℕ → ℝ, z 1 = 1 / 2 → eval z (f 1) = eval z (f 3)) : Continuous0 (QP 2 1) squares f := by
  refine ⟨h, ?_⟩
  have key : ∀ z : ℕ → ℝ, ∀ i j, i < j → Inside (squares i) z → Inside (squares j) z → eval z (f i) = eval z (f j) := by
    intro z i j hij hi hj
    have a := squares_in hi
    have b := squares_in hj
    fin_cases i <;> fin_cases j <;> first | (exfalso; revert hij; decide) | skip
    all_goals norm_num at a b
    · exact h01 z (by linarith)
    · exact h02 z (by linarith)
    · exact (h01 z (by linarith)).trans (h13 z (by linarith))
    · exact (h13 z (by linarith)).trans (h23 z (by linarith)).symm
    · exact h13 z (by linarith)
    · exact h23 z (by linarith)
  intro i j z hi hj
  rcases lt_trichotomy i j with h | rfl | h
  · exact key z i j h hi hj
  · rfl
  · exact (key z j i h hj hi).symm

theorem isoQuadrilateral_mem : ∀ b ∈ isoQuadrilateral.map (ofTerms 4), b ∈ c0Sub (QP 2 1) squares := by
  intro b hb
  obtain ⟨t, ht, rfl⟩ := List.mem_map.1 hb
  have hd : ∀ t ∈ isoQuadrilateral, ∀ i : Fin 4, ∀ s ∈ t.getD i.val [], s.2 ∈ quolySet 2 1 := by decide
  have hm := fun i => QP_mem (hd t ht i)
  simp only [isoQuadrilateral, List.mem_cons, List.not_mem_nil, or_false] at ht
  rcases ht with rfl | rfl | rfl | rfl | rfl | rfl | rfl | rfl | rfl
  all_goals
    refine squares_continuous hm (fun z hz => ?_) (fun z hz => ?_) (fun z hz => ?_) fun z hz => ?_
    all_goals
      simp [ofTerms, denotePoly, denoteMono, monoFrom, hz]
      try ring

theorem isoQuadrilateral_independent : Independent ℝ (isoQuadrilateral.map (ofTerms 4)) := by
  rw [list_eq_range (isoQuadrilateral.map (ofTerms 4))]
  refine independent_range _ _ fun a ha => ?_
  have h : ∀ (i : Fin 4) (x y : ℝ), eval (coords [x, y])
      ((∑ i ∈ Finset.range (isoQuadrilateral.map (ofTerms 4)).length, a i • (isoQuadrilateral.map (ofTerms 4)).getD i 0) i) = 0 := by
    intro i x y
    rw [ha]
    simp
  have h0 := h 0 0 0
  have h1 := h 1 1 0
  have h2 := h 2 0 1
  have h3 := h 3 1 1
  have h4 := h 0 (1 / 2) 0
  have h5 := h 0 0 (1 / 2)
  have h6 := h 1 1 (1 / 2)
  have h7 := h 2 (1 / 2) 1
  have h8 := h 0 (1 / 2) (1 / 2)
  simp [isoQuadrilateral, ofTerms, Finset.sum_range_succ, denotePoly, denoteMono, monoFrom, coords] at h0 h1 h2 h3 h4 h5 h6 h7 h8
  intro i hi
  have hi' : i < 9 := hi
  interval_cases i <;> linarith

/-- The points of the functionals. -/
theorem quadrilateral_nodes : isoNodes .quadrilateral ++ [(References.midpoint .quadrilateral (refVertex .quadrilateral), (2, 0))] =
    [(coords [0, 0], (0, 0)), (coords [1, 0], (0, 1)), (coords [0, 1], (0, 2)), (coords [1, 1], (0, 3)),
    (coords [1 / 2, 0], (1, 0)), (coords [0, 1 / 2], (1, 1)), (coords [1, 1 / 2], (1, 2)), (coords [1 / 2, 1], (1, 3)), (coords [1 / 2, 1 / 2], (2, 0))] := by
  have m0 : References.midpoint (entityDomain .quadrilateral (1, 0)).cell (entityDomain .quadrilateral (1, 0)).v = coords [1 / 2, 0] :=
    (interval_mid _).trans ((mid_coords 0 0 1 0).trans (by norm_num))
  have m1 : References.midpoint (entityDomain .quadrilateral (1, 1)).cell (entityDomain .quadrilateral (1, 1)).v = coords [0, 1 / 2] :=
    (interval_mid _).trans ((mid_coords 0 0 0 1).trans (by norm_num))
  have m2 : References.midpoint (entityDomain .quadrilateral (1, 2)).cell (entityDomain .quadrilateral (1, 2)).v = coords [1, 1 / 2] :=
    (interval_mid _).trans ((mid_coords 1 0 1 1).trans (by norm_num))
  have m3 : References.midpoint (entityDomain .quadrilateral (1, 3)).cell (entityDomain .quadrilateral (1, 3)).v = coords [1 / 2, 1] :=
    (interval_mid _).trans ((mid_coords 0 1 1 1).trans (by norm_num))
  have m4 : (References.midpoint .quadrilateral (refVertex .quadrilateral) : ℕ → ℝ) = coords [1 / 2, 1 / 2] := by
    funext j
    match j with
    | 0 => norm_num [References.midpoint, Cell.nverts, Finset.sum_range_succ, refVertex, refVerts, coords]
    | 1 => norm_num [References.midpoint, Cell.nverts, Finset.sum_range_succ, refVertex, refVerts, coords]
    | j + 2 => simp [References.midpoint, Cell.nverts, Finset.sum_range_succ, refVertex, refVerts, coords]
  show [(refVertex .quadrilateral 0, (0, 0)), (refVertex .quadrilateral 1, (0, 1)), (refVertex .quadrilateral 2, (0, 2)), (refVertex .quadrilateral 3, (0, 3)),
    (_, (1, 0)), (_, (1, 1)), (_, (1, 2)), (_, (1, 3)), (_, (2, 0))] = _
  rw [m0, m1, m2, m3, m4]
  rfl

/-- The line of an edge. -/
def OnSide (e : ℕ) (x y : ℝ) : Prop := (e = 0 → y = 0) ∧ (e = 1 → x = 0) ∧ (e = 2 → x = 1) ∧ (e = 3 → y = 1)

theorem quad_edge {e : ℕ} (he : e < 4) (t : ℕ → ℝ) : OnSide e ((entityDomain .quadrilateral (1, e)).param t 0) ((entityDomain .quadrilateral (1, e)).param t 1) := by
  have d : ∀ e < 4, entityDomain .quadrilateral (1, e) = ⟨.interval, 2, entityVerts (refVertex .quadrilateral) (entVerts .quadrilateral 1 e)⟩ := by
    intro e he
    interval_cases e <;> rfl
  have hE : entVerts .quadrilateral 1 0 = [0, 1] ∧ entVerts .quadrilateral 1 1 = [0, 2] ∧ entVerts .quadrilateral 1 2 = [1, 3] ∧
    entVerts .quadrilateral 1 3 = [2, 3] := ⟨rfl, rfl, rfl, rfl⟩
  rw [d e he, interval_param]
  interval_cases e <;> simp [OnSide, hE, entityVerts, refVertex, refVerts, coords]

/-- Each corner is a point of a functional. -/
theorem squares_node (i k : Fin 4) : ∃ p ∈ isoNodes .quadrilateral ++ [(References.midpoint .quadrilateral (refVertex .quadrilateral), (2, 0))],
    p.1 = coords [squares i k 0, squares i k 1] ∧ Inside (squares i) p.1 ∧
    ∀ e < 4, OnSide e (squares i k 0) (squares i k 1) → entVerts .quadrilateral p.2.1 p.2.2 ⊆ entVerts .quadrilateral 1 e := by
  have hE : entVerts .quadrilateral 1 0 = [0, 1] ∧ entVerts .quadrilateral 1 1 = [0, 2] ∧ entVerts .quadrilateral 1 2 = [1, 3] ∧
    entVerts .quadrilateral 1 3 = [2, 3] := ⟨rfl, rfl, rfl, rfl⟩
  have hV : entVerts .quadrilateral 0 0 = [0] ∧ entVerts .quadrilateral 0 1 = [1] ∧ entVerts .quadrilateral 0 2 = [2] ∧ entVerts .quadrilateral 0 3 = [3] :=
    ⟨rfl, rfl, rfl, rfl⟩
  suffices h : ∀ x y : ℝ, x = squares i k 0 → y = squares i k 1 → ∃ p ∈ isoNodes .quadrilateral ++ [(References.midpoint .quadrilateral (refVertex .quadrilateral), (2, 0))],
      p.1 = coords [x, y] ∧ ∀ e < 4, OnSide e x y → entVerts .quadrilateral p.2.1 p.2.2 ⊆ entVerts .quadrilateral 1 e by
    obtain ⟨p, h1, h2, h3⟩ := h _ _ rfl rfl
    refine ⟨p, h1, h2, inside_corner _ k fun j => ?_, h3⟩
    rw [h2]
    fin_cases j <;> rfl
  rw [quadrilateral_nodes]
  intro x y hx hy
  rw [(squares_eq i k).1] at hx
  rw [(squares_eq i k).2] at hy
  have hx' : x = 0 ∨ x = 1 / 2 ∨ x = 1 := by
    rw [hx]
    have : (i.val % 2 + k.val % 2) < 3 := by omega
    interval_cases (i.val % 2 + k.val % 2) <;> norm_num
  have hy' : y = 0 ∨ y = 1 / 2 ∨ y = 1 := by
    rw [hy]
    have : (i.val / 2 + k.val / 2) < 3 := by omega
    interval_cases (i.val / 2 + k.val / 2) <;> norm_num
  clear hx hy
  rcases hx' with rfl | rfl | rfl <;> rcases hy' with rfl | rfl | rfl
  · refine ⟨(_, (0, 0)), .head _, rfl, fun e he h => ?_⟩
    interval_cases e <;> first | (simp [hE, hV]; done) | (exfalso; norm_num [OnSide] at h; done)
  · refine ⟨(_, (1, 1)), .tail _ (.tail _ (.tail _ (.tail _ (.tail _ (.head _))))), rfl, fun e he h => ?_⟩
    interval_cases e <;> first | (simp [hE, hV]; done) | (exfalso; norm_num [OnSide] at h; done)
  · refine ⟨(_, (0, 2)), .tail _ (.tail _ (.head _)), rfl, fun e he h => ?_⟩
    interval_cases e <;> first | (simp [hE, hV]; done) | (exfalso; norm_num [OnSide] at h; done)
  · refine ⟨(_, (1, 0)), .tail _ (.tail _ (.tail _ (.tail _ (.head _)))), rfl, fun e he h => ?_⟩
    interval_cases e <;> first | (simp [hE, hV]; done) | (exfalso; norm_num [OnSide] at h; done)
  · refine ⟨(_, (2, 0)), .tail _ (.tail _ (.tail _ (.tail _ (.tail _ (.tail _ (.tail _ (.tail _ (.head _)))))))), rfl, fun e he h => ?_⟩
    interval_cases e <;> first | (simp [hE, hV]; done) | (exfalso; norm_num [OnSide] at h; done)
  · refine ⟨(_, (1, 3)), .tail _ (.tail _ (.tail _ (.tail _ (.tail _ (.tail _ (.tail _ (.head _))))))), rfl, fun e he h => ?_⟩
    interval_cases e <;> first | (simp [hE, hV]; done) | (exfalso; norm_num [OnSide] at h; done)
  · refine ⟨(_, (0, 1)), .tail _ (.head _), rfl, fun e he h => ?_⟩
    interval_cases e <;> first | (simp [hE, hV]; done) | (exfalso; norm_num [OnSide] at h; done)
  · refine ⟨(_, (1, 2)), .tail _ (.tail _ (.tail _ (.tail _ (.tail _ (.tail _ (.head _)))))), rfl, fun e he h => ?_⟩
    interval_cases e <;> first | (simp [hE, hV]; done) | (exfalso; norm_num [OnSide] at h; done)
  · refine ⟨(_, (0, 3)), .tail _ (.tail _ (.tail _ (.head _))), rfl, fun e he h => ?_⟩
    interval_cases e <;> first | (simp [hE, hV]; done) | (exfalso; norm_num [OnSide] at h; done)

/-- **C145** P1-iso-P2 elements on quadrilaterals. -/
theorem p1IsoP2Quadrilateral_created :
    Created (p1IsoP2Quadrilateral 1) (Continuous0 (QP 2 1) squares) 9 (C0Macro .quadrilateral squares (Continuous0 (QP 2 1) squares)) := by
  have dist : ∀ n : ℕ, (n : ℝ) / 2 ≠ ((n + 1 : ℕ) : ℝ) / 2 := fun n h => by push_cast at h; linarith
  rw [p1IsoP2Quadrilateral, if_pos rfl]
  refine nodal_created (by simp) squares_proper ?_ (by rw [quadrilateral_nodes]; rfl) isoQuadrilateral_independent isoQuadrilateral_mem ?_ ?_
  · rw [quadrilateral_nodes]
    simp only [List.mem_cons, List.not_mem_nil, or_false, forall_eq_or_imp, forall_eq]
    refine ⟨⟨0, inside_corner _ 0 ?_⟩, ⟨1, inside_corner _ 1 ?_⟩, ⟨2, inside_corner _ 2 ?_⟩, ⟨3, inside_corner _ 3 ?_⟩, ⟨0, inside_corner _ 1 ?_⟩,
      ⟨0, inside_corner _ 2 ?_⟩, ⟨1, inside_corner _ 3 ?_⟩, ⟨2, inside_corner _ 3 ?_⟩, ⟨0, inside_corner _ 3 ?_⟩⟩
    all_goals
      intro j
      fin_cases j <;> rfl
  · intro f hf hz
    funext i
    have w : ∀ k, eval (coords [squares i k 0, squares i k 1]) (f i) = 0 := fun k => by
      obtain ⟨p, h1, h2, h3, -⟩ := squares_node i k
      rw [← h2]
      exact hz p h1 i h3
    have w0 := w 0
    have w1 := w 1
    have w2 := w 2
    have w3 := w 3
    simp only [squares_eq] at w0 w1 w2 w3
    exact bilinear_zero (hf.1 i) (dist (i.val % 2)) (dist (i.val / 2)) w0 w1 w2 w3
  · intro e he f hf hz t j hj
    have he4 : e < 4 := he
    simp only [show (Cell.quadrilateral.tdim - 1) = 1 from rfl] at hz hj ⊢
    have hs := quad_edge he4 t
    have hin := squares_in hj
    generalize (entityDomain .quadrilateral (1, e)).param t = z at hs hin ⊢
    have w : ∀ k, OnSide e (squares j k 0) (squares j k 1) → eval (coords [squares j k 0, squares j k 1]) (f j) = 0 := fun k hk => by
      obtain ⟨p, h1, h2, h3, h4⟩ := squares_node j k
      rw [← h2]
      exact hz p h1 (h4 e he4 hk) j h3
    have w0 := w 0
    have w1 := w 1
    have w2 := w 2
    have w3 := w 3
    simp only [squares_eq] at w0 w1 w2 w3
    have jm : j.val % 2 = 0 ∨ j.val % 2 = 1 := by omega
    have jd : j.val / 2 = 0 ∨ j.val / 2 = 1 := by omega
    interval_cases e
    · have hz0 := hs.1 rfl
      have jd0 : j.val / 2 = 0 := jd.resolve_right fun h => by
        rw [h] at hin
        norm_num at hin
        linarith
      rw [jd0] at w0 w1
      exact (bilinear_line (hf.1 j) (dist (j.val % 2))).2 (w0 (by norm_num [OnSide])) (w1 (by norm_num [OnSide])) z (by rw [hz0]; norm_num)
    · have hz0 := hs.2.1 rfl
      have jd0 : j.val % 2 = 0 := jm.resolve_right fun h => by
        rw [h] at hin
        norm_num at hin
        linarith
      rw [jd0] at w0 w2
      exact (bilinear_line (hf.1 j) (dist (j.val / 2))).1 (w0 (by norm_num [OnSide])) (w2 (by norm_num [OnSide])) z (by rw [hz0]; norm_num)
    · have hz0 := hs.2.2.1 rfl
      have jd0 : j.val % 2 = 1 := jm.resolve_left fun h => by
        rw [h] at hin
        norm_num at hin
        linarith
      rw [jd0] at w1 w3
      exact (bilinear_line (hf.1 j) (dist (j.val / 2))).1 (w1 (by norm_num [OnSide])) (w3 (by norm_num [OnSide])) z (by rw [hz0]; norm_num)
    · have hz0 := hs.2.2.2 rfl
      have jd0 : j.val / 2 = 1 := jd.resolve_left fun h => by
        rw [h] at hin
        norm_num at hin
        linarith
      rw [jd0] at w2 w3
      exact (bilinear_line (hf.1 j) (dist (j.val % 2))).2 (w2 (by norm_num [OnSide])) (w3 (by norm_num [OnSide])) z (by rw [hz0]; norm_num)

/-! ### Intervals -/

theorem P_one_one {p : MvPolynomial ℕ ℝ} (hp : p ∈ P 1 1) : ∃ a b, p = C a + C b * X 0 := by
  obtain ⟨l, l1, l2⟩ := polySet_lspan (d := 1) (by simp) ((1 : ℕ) : ℤ)
  have hl : l = [[0], [1]] := by
    have : polySet 1 ((1 : ℕ) : ℤ) = some [[0], [1]] := by decide
    exact Option.some.inj (l1.symm.trans this)
  have hp' : p ∈ lspan (l.map (denoteMono ℝ)) := by
    rw [l2]
    exact hp
  rw [list_eq_range (l.map (denoteMono ℝ)), mem_lspan_range] at hp'
  obtain ⟨a, rfl⟩ := hp'
  refine ⟨a 0, a 1, ?_⟩
  rw [hl]
  simp [Finset.sum_range_succ, denoteMono, monoFrom, smul_eq_C_mul]

theorem linear_zero {p : MvPolynomial ℕ ℝ} (hp : p ∈ P 1 1) {u v : ℝ} (huv : u ≠ v) (h0 : eval (coords [u]) p = 0) (h1 : eval (coords [v]) p = 0) : p = 0 := by
  obtain ⟨a, b, rfl⟩ := P_one_one hp
  simp [coords] at h0 h1
  have hb : b = 0 := by
    refine (mul_eq_zero.1 (?_ : (v - u) * b = 0)).resolve_left (sub_ne_zero.2 huv.symm)
    linear_combination h1 - h0
  have ha : a = 0 := by
    rw [hb] at h0
    linarith
  rw [ha, hb]
  simp

theorem halves_in {z : ℕ → ℝ} : (Inside (halves 0) z → z 0 ≤ 1 / 2) ∧ (Inside (halves 1) z → 1 / 2 ≤ z 0) := by
  constructor
  all_goals
    rintro ⟨l, h0, h1, h2⟩
    have a := h2 0
    simp [halves, Fin.sum_univ_two] at a h1
    have := h0 0
    have := h0 1
    linarith

theorem isoInterval_mem : ∀ b ∈ isoInterval.map (ofTerms 2), b ∈ c0Sub (P 1 1) halves := by
  intro b hb
  obtain ⟨t, ht, rfl⟩ := List.mem_map.1 hb
  have hd : ∀ t ∈ isoInterval, ∀ i : Fin 2, ∀ s ∈ t.getD i.val [], s.2.length = 1 ∧ (s.2.sum : ℤ) ≤ 1 := by decide
  refine ⟨fun i => denotePoly_mem (hd t ht i), fun i j z hi hj => ?_⟩
  simp only [isoInterval, List.mem_cons, List.not_mem_nil, or_false] at ht
  obtain ⟨q0, q1⟩ := halves_in (z := z)
  fin_cases i <;> fin_cases j
  · rfl
  · have := q0 hi
    have := q1 hj
    have hz : z 0 = 1 / 2 := by linarith
    rcases ht with rfl | rfl | rfl <;> norm_num [ofTerms, denotePoly, denoteMono, monoFrom, hz]
  · have := q1 hi
    have := q0 hj
    have hz : z 0 = 1 / 2 := by linarith
    rcases ht with rfl | rfl | rfl <;> norm_num [ofTerms, denotePoly, denoteMono, monoFrom, hz]
  · rfl

theorem isoInterval_independent : Independent ℝ (isoInterval.map (ofTerms 2)) := by
  rw [list_eq_range (isoInterval.map (ofTerms 2))]
  refine independent_range _ _ fun a ha => ?_
  have h : ∀ (i : Fin 2) (x : ℝ), eval (coords [x])
      ((∑ i ∈ Finset.range (isoInterval.map (ofTerms 2)).length, a i • (isoInterval.map (ofTerms 2)).getD i 0) i) = 0 := by
    intro i x
    rw [ha]
    simp
  have h0 := h 0 0
  have h1 := h 0 (1 / 2)
  have h2 := h 1 1
  simp [isoInterval, ofTerms, Finset.sum_range_succ, denotePoly, denoteMono, monoFrom, coords] at h0 h1 h2
  intro i hi
  have hi' : i < 3 := hi
  interval_cases i <;> linarith

/-- The points of the functionals. -/
theorem interval_nodes : isoNodes .interval = [(coords [0], (0, 0)), (coords [1], (0, 1)), (coords [1 / 2], (1, 0))] := by
  have m0 : References.midpoint (entityDomain .interval (1, 0)).cell (entityDomain .interval (1, 0)).v = coords [1 / 2] := by
    refine (interval_mid _).trans (funext fun j => ?_)
    show (coords [0] j + coords [1] j) / 2 = _
    match j with
    | 0 => norm_num [coords]
    | j + 1 => simp [coords]
  show [(refVertex .interval 0, (0, 0)), (refVertex .interval 1, (0, 1)), (_, (1, 0))] = _
  rw [m0]
  rfl

/-- **C145** P1-iso-P2 elements on intervals. -/
theorem p1IsoP2Interval_created : Created (p1IsoP2Interval 1) (Continuous0 (P 1 1) halves) 3 (C0Macro .interval halves (Continuous0 (P 1 1) halves)) := by
  rw [p1IsoP2Interval, if_pos rfl]
  have hin : ∀ (i k : Fin 2), Inside (halves i) (coords [halves i k 0]) := fun i k => inside_corner _ k fun j => by fin_cases j; rfl
  have i00 : Inside (halves 0) (coords [0]) := hin 0 0
  have i01 : Inside (halves 0) (coords [1 / 2]) := hin 0 1
  have i10 : Inside (halves 1) (coords [1 / 2]) := hin 1 0
  have i11 : Inside (halves 1) (coords [1]) := hin 1 1
  refine nodal_created (by simp) (fun i => ?_) ?_ (by rw [interval_nodes]; rfl) isoInterval_independent isoInterval_mem ?_ ?_
  · fin_cases i
    · exact .interval _ _ (by norm_num)
    · exact .interval _ _ (by norm_num)
  · rw [interval_nodes]
    simp only [List.mem_cons, List.not_mem_nil, or_false, forall_eq_or_imp, forall_eq]
    exact ⟨⟨0, i00⟩, ⟨1, i11⟩, ⟨0, i01⟩⟩
  · intro f hf hz
    rw [interval_nodes] at hz
    simp only [List.mem_cons, List.not_mem_nil, or_false, forall_eq_or_imp, forall_eq] at hz
    obtain ⟨z0, z1, z2⟩ := hz
    funext i
    fin_cases i
    · exact linear_zero (hf.1 0) (by norm_num) (z0 0 i00) (z2 0 i01)
    · exact linear_zero (hf.1 1) (by norm_num) (z2 1 i10) (z1 1 i11)
  · intro e he f hf hz t j hj
    have he2 : e < 2 := he
    rw [interval_nodes] at hz
    simp only [List.mem_cons, List.not_mem_nil, or_false, forall_eq_or_imp, forall_eq] at hz
    obtain ⟨z0, z1, -⟩ := hz
    interval_cases e
    · have hp : (entityDomain .interval (Cell.interval.tdim - 1, 0)).param t = coords [0] := by
        funext j
        exact add_zero _
      rw [hp] at hj ⊢
      exact z0 (fun _ h => h) j hj
    · have hp : (entityDomain .interval (Cell.interval.tdim - 1, 1)).param t = coords [1] := by
        funext j
        exact add_zero _
      rw [hp] at hj ⊢
      exact z1 (fun _ h => h) j hj

theorem p1IsoP2_none {k : ℕ} (h : k ≠ 1) : p1IsoP2Interval k = none ∧ p1IsoP2Triangle k = none ∧ p1IsoP2Quadrilateral k = none :=
  ⟨if_neg h, if_neg h, if_neg h⟩

/-- A function with pieces that differ: the basis function of the midpoint. -/
example : ∃ f, Continuous0 (P 1 1) halves f ∧ f 0 ≠ f 1 := by
  refine ⟨ofTerms 2 [[(2, [1])], [(2, [0]), (-2, [1])]], isoInterval_mem _ (by simp [isoInterval]), fun h => ?_⟩
  have := congrArg (eval (coords [0])) h
  norm_num [ofTerms, denotePoly, denoteMono, monoFrom, coords] at this

end Verif.Macro
