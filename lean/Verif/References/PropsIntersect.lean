import Verif.References.Intersect
import Verif.References.PropsContains
/-!
# `intersection` is sound (C69)
-/

namespace Verif.References

/-- The affine function whose sign `_which_side` looks at. -/
theorem whichSide_sign {g n : ℕ} {vs : ℕ → ℕ → ℝ} {p q : ℕ → ℝ} {x : ℤ}
    (h : whichSide g n vs p q = some x) (hx : x ≠ 0) :
    (g = 2 ∨ g = 3) ∧
    let f := fun y : ℕ → ℝ =>
      if g = 2 then (y 0 - p 0) * (q 1 - p 1) - (y 1 - p 1) * (q 0 - p 0)
      else (y 0 - p 0) * q 0 + (y 1 - p 1) * q 1 + (y 2 - p 2) * q 2
    (0 < x → (∀ i < n, 0 ≤ f (vs i)) ∧ ∃ i < n, 0 < f (vs i)) ∧
    (x < 0 → (∀ i < n, f (vs i) ≤ 0) ∧ ∃ i < n, f (vs i) < 0) := by
  unfold whichSide at h
  by_cases hg : g = 2 ∨ g = 3
  · refine ⟨hg, ?_⟩
    rw [if_pos hg] at h
    intro f
    have hf : ∀ i, (if g = 2 then (vs i 0 - p 0) * (q 1 - p 1) - (vs i 1 - p 1) * (q 0 - p 0)
      else (vs i 0 - p 0) * q 0 + (vs i 1 - p 1) * q 1 + (vs i 2 - p 2) * q 2) = f (vs i) :=
      fun i => rfl
    simp only [hf] at h
    set sides : List ℤ := (List.range n).map fun i =>
      if f (vs i) = 0 then 0 else if f (vs i) > 0 then 1 else -1 with hs
    have mem1 : (1 : ℤ) ∈ sides ↔ ∃ i < n, 0 < f (vs i) := by
      simp only [hs, List.mem_map, List.mem_range]
      refine exists_congr fun i => and_congr_right fun _ => ?_
      by_cases h0 : f (vs i) = 0
      · simp [h0]
      · by_cases h1 : f (vs i) > 0 <;> simp [h0, h1]
    have memm : (-1 : ℤ) ∈ sides ↔ ∃ i < n, f (vs i) < 0 := by
      simp only [hs, List.mem_map, List.mem_range]
      refine exists_congr fun i => and_congr_right fun _ => ?_
      by_cases h0 : f (vs i) = 0
      · simp [h0]
      · by_cases h1 : f (vs i) > 0
        · simp [h0, h1, h1.le]
        · simp only [h0, h1, if_false, true_iff]
          exact lt_of_le_of_ne (not_lt.1 h1) h0
    by_cases ha : -1 ∈ sides ∧ 1 ∈ sides
    · rw [if_pos ha] at h; cases h
    rw [if_neg ha] at h
    by_cases h1 : (1 : ℤ) ∈ sides
    · rw [if_pos h1] at h
      have hm : ¬ (-1 : ℤ) ∈ sides := fun hm => ha ⟨hm, h1⟩
      rw [memm] at hm
      push Not at hm
      refine ⟨fun _ => ⟨hm, mem1.1 h1⟩, fun hneg => ?_⟩
      split at h <;> simp only [Option.some.injEq] at h <;> omega
    · rw [if_neg h1] at h
      by_cases h2 : (-1 : ℤ) ∈ sides
      · rw [if_pos h2] at h
        rw [mem1] at h1
        push Not at h1
        refine ⟨fun hpos => ?_, fun _ => ⟨h1, memm.1 h2⟩⟩
        split at h <;> simp only [Option.some.injEq] at h <;> omega
      · rw [if_neg h2, Option.some.injEq] at h
        exact absurd h.symm hx
  · rw [if_neg hg] at h
    split at h
    · simp only [Option.some.injEq] at h; exact absurd h.symm hx
    · cases h

/-- An affine function of the first three coordinates. -/
def IsAffine (g : ℕ) (f : (ℕ → ℝ) → ℝ) : Prop :=
  ∃ c : ℝ, ∃ a : ℕ → ℝ, ∀ y, f y = c + ∑ j ∈ Finset.range g, a j * y j

theorem affine_strict_pos {g n : ℕ} {f : (ℕ → ℝ) → ℝ} (hf : IsAffine g f) {v : ℕ → ℕ → ℝ}
    (h0 : ∀ i < n, 0 ≤ f (v i)) (h1 : ∃ i < n, 0 < f (v i)) {p : ℕ → ℝ}
    (hp : StrictHull g n v p) : 0 < f p := by
  obtain ⟨c, a, hf⟩ := hf
  obtain ⟨lam, hl, hs, hp⟩ := hp
  have : f p = ∑ i ∈ Finset.range n, lam i * f (v i) := by
    simp only [hf, mul_add, Finset.sum_add_distrib, ← Finset.sum_mul, hs, one_mul]
    congr 1
    rw [Finset.sum_congr rfl fun j hj => by rw [hp j (Finset.mem_range.1 hj)]]
    simp only [Finset.mul_sum]
    rw [Finset.sum_comm]
    exact Finset.sum_congr rfl fun i _ => Finset.sum_congr rfl fun j _ => by ring
  rw [this]
  obtain ⟨i, hi, hpos⟩ := h1
  exact Finset.sum_pos' (fun i hi => mul_nonneg (hl i (Finset.mem_range.1 hi)).le
    (h0 i (Finset.mem_range.1 hi))) ⟨i, Finset.mem_range.2 hi, mul_pos (hl i hi) hpos⟩

theorem opposite_disjoint {g n m : ℕ} {v w : ℕ → ℕ → ℝ} {p q : ℕ → ℝ}
    (h : opposite (whichSide g n v p q) (whichSide g m w p q) = true) (y : ℕ → ℝ) :
    ¬(StrictHull g n v y ∧ StrictHull g m w y) := by
  cases h1 : whichSide g n v p q with
  | none => rw [h1] at h; simp [opposite] at h
  | some x =>
    cases h2 : whichSide g m w p q with
    | none => rw [h1, h2] at h; simp [opposite] at h
    | some z =>
      rw [h1, h2] at h
      simp only [opposite, decide_eq_true_eq] at h
      have hx : x ≠ 0 := by rintro rfl; simp at h
      have hz : z ≠ 0 := by rintro rfl; simp at h
      obtain ⟨hg, px, nx⟩ := whichSide_sign h1 hx
      obtain ⟨-, pz, nz⟩ := whichSide_sign h2 hz
      set f := fun y : ℕ → ℝ =>
        if g = 2 then (y 0 - p 0) * (q 1 - p 1) - (y 1 - p 1) * (q 0 - p 0)
        else (y 0 - p 0) * q 0 + (y 1 - p 1) * q 1 + (y 2 - p 2) * q 2 with hf
      have ha : IsAffine g f := by
        rcases hg with rfl | rfl
        · refine ⟨-(p 0 * (q 1 - p 1)) + p 1 * (q 0 - p 0),
            fun j => if j = 0 then q 1 - p 1 else -(q 0 - p 0), fun y => ?_⟩
          simp [hf, Finset.sum_range_succ]; ring
        · refine ⟨-(p 0 * q 0) - p 1 * q 1 - p 2 * q 2, q, fun y => ?_⟩
          simp [hf, Finset.sum_range_succ]; ring
      have hna : IsAffine g fun y => -f y := by
        obtain ⟨c, a, hc⟩ := ha
        exact ⟨-c, fun j => -a j, fun y => by
          simp only [hc, neg_mul, Finset.sum_neg_distrib]; ring⟩
      rintro ⟨hv, hw⟩
      have key : ∀ {n : ℕ} {v : ℕ → ℕ → ℝ} , (∀ i < n, f (v i) ≤ 0) ∧ (∃ i < n, f (v i) < 0) →
          StrictHull g n v y → f y < 0 := by
        rintro n v ⟨h0, i, hi, hlt⟩ hy
        have := affine_strict_pos hna (v := v) (n := n) (fun i hi => by
          have := h0 i hi; simpa using this) ⟨i, hi, by simpa using hlt⟩ hy
        simpa using this
      rcases lt_or_gt_of_ne hx with hx | hx
      · have hz' : 0 < z := by
          rcases lt_or_gt_of_ne hz with hz | hz
          · exact absurd h (not_lt.2 (mul_nonneg_of_nonpos_of_nonpos hx.le hz.le))
          · exact hz
        have a := key (nx hx) hv
        have b := affine_strict_pos ha (pz hz').1 (pz hz').2 hw
        exact lt_asymm a b
      · have hz' : z < 0 := by
          rcases lt_or_gt_of_ne hz with hz | hz
          · exact hz
          · exact absurd h (not_lt.2 (mul_nonneg hx.le hz.le))
        have a := key (nz hz') hw
        have b := affine_strict_pos ha (px hx).1 (px hx).2 hv
        exact lt_asymm a b

/-- If `intersection` returns `None`, no point is strictly inside both cells. -/
theorem intersection_nothing (g : ℕ) (a b : Placed) (h : intersection g a b = .nothing)
    (y : ℕ → ℝ) :
    ¬(StrictHull g a.cell.nverts a.v y ∧ StrictHull g b.cell.nverts b.v y) := by
  have hsep : ∀ a b : Placed, separated g a b = true →
      ¬(StrictHull g a.cell.nverts a.v y ∧ StrictHull g b.cell.nverts b.v y) := by
    intro a b h
    unfold separated at h
    split at h
    · obtain ⟨e, -, he⟩ := List.any_eq_true.1 h
      exact opposite_disjoint he y
    · split at h
      · obtain ⟨f, -, hf⟩ := List.any_eq_true.1 h
        simp only at hf
        split at hf
        · exact opposite_disjoint hf y
        · cases hf
      · cases h
  unfold intersection at h
  split at h
  · cases h
  split at h
  · cases h
  split at h
  · rename_i hs
    rw [Bool.or_eq_true] at hs
    rcases hs with hs | hs
    · exact hsep a b hs
    · exact fun ⟨h1, h2⟩ => hsep b a hs ⟨h2, h1⟩
  · cases h

/-- A cell for which `contains` is exact. -/
def Reliable (g : ℕ) (b : Placed) : Prop :=
  (∀ n, b.cell ≠ .dualPolygon n) ∧
  (b.cell = .tetrahedron → isDefault b.cell g b.v = true) ∧
  (b.cell = .triangle → isDefault b.cell g b.v = true ∨
    g ≠ 2 ∨ Indep 2 2 fun k => fun j => b.v (k + 1) j - b.v 0 j)

theorem contains_reliable {g : ℕ} {b : Placed} (hb : Reliable g b) {p : ℕ → ℝ}
    (h : contains b.cell g b.v p = some true) : Hull g b.cell.nverts b.v p := by
  obtain ⟨c, v⟩ := b
  obtain ⟨h1, h2, h3⟩ := hb
  simp only at h h1 h2 h3 ⊢
  by_cases hd : isDefault c g v = true
  · obtain ⟨x, hx, hi⟩ := contains_default c h1 v g hd p
    rw [hx, Option.some.injEq] at h
    exact hi.1 h
  · by_cases hp : c = .point
    · subst hp
      obtain ⟨x, hx, hi⟩ := contains_point g v p
      rw [hx, Option.some.injEq] at h
      exact hi.1 h
    by_cases ht : c = .triangle ∧ g = 2
    · obtain ⟨rfl, rfl⟩ := ht
      have hI : Indep 2 2 fun k => fun j => v (k + 1) j - v 0 j := by
        rcases h3 rfl with h | h | h
        · exact absurd h hd
        · exact absurd rfl h
        · exact h
      obtain ⟨x, hx, hi⟩ := contains_triangle v hI p
      rw [hx, Option.some.injEq] at h
      exact hi.1 h
    rw [contains_raises c g v p hp (by simpa using hd) ht (fun he => hd (h2 he))] at h
    cases h

theorem hull_trans {g n m : ℕ} {v w : ℕ → ℕ → ℝ} (h : ∀ i < n, Hull g m w (v i)) {p : ℕ → ℝ}
    (hp : Hull g n v p) : Hull g m w p := by
  obtain ⟨lam, h0, h1, hp⟩ := hp
  choose! mu m0 m1 mp using h
  refine ⟨fun k => ∑ i ∈ Finset.range n, lam i * mu i k, ?_, ?_, ?_⟩
  · intro k hk
    exact Finset.sum_nonneg fun i hi => mul_nonneg (h0 i (Finset.mem_range.1 hi))
      (m0 i (Finset.mem_range.1 hi) k hk)
  · rw [Finset.sum_comm]
    simp only [← Finset.mul_sum]
    rw [← h1]
    exact Finset.sum_congr rfl fun i hi => by rw [m1 i (Finset.mem_range.1 hi), mul_one]
  · intro j hj
    rw [hp j hj]
    simp only [Finset.sum_mul]
    rw [Finset.sum_comm]
    refine Finset.sum_congr rfl fun i hi => ?_
    rw [mp i (Finset.mem_range.1 hi) j hj, Finset.mul_sum]
    exact Finset.sum_congr rfl fun k _ => by ring

/-- If `intersection` returns one of the two cells, that cell is contained in the other one, provided
`contains` is exact for the other one (it is not for tetrahedra other than the default one). -/
theorem intersection_cell_partial (g : ℕ) (a b : Placed) :
    (intersection g a b = .first → Reliable g b →
      ∀ p, Hull g a.cell.nverts a.v p → Hull g b.cell.nverts b.v p) ∧
    (intersection g a b = .second → Reliable g a →
      ∀ p, Hull g b.cell.nverts b.v p → Hull g a.cell.nverts a.v p) := by
  have key : ∀ a b : Placed, allContained g a b = true → Reliable g b →
      ∀ p, Hull g a.cell.nverts a.v p → Hull g b.cell.nverts b.v p := by
    intro a b h hb p hp
    refine hull_trans (fun i hi => contains_reliable hb ?_) hp
    have := List.all_eq_true.1 h i (List.mem_range.2 hi)
    simpa using this
  constructor
  · intro h
    unfold intersection at h
    split at h
    · rename_i hc; exact key a b hc
    · split at h
      · cases h
      · split at h <;> cases h
  · intro h
    unfold intersection at h
    split at h
    · cases h
    · split at h
      · rename_i hc; exact key b a hc
      · split at h <;> cases h

/-- With tetrahedra `intersection` can return a cell although the cells only share a face: for every
non-degenerate tetrahedron `b` other than the default one and its mirror image `a`. -/
theorem intersection_tetrahedron_wrong (w : ℕ → ℕ → ℝ)
    (h : Indep 3 3 fun k => fun j => w (k + 1) j - w 0 j)
    (hd : isDefault .tetrahedron 3 w = false) :
    let a : Placed := ⟨.tetrahedron, fun i => if i = 3 then fun j => w 0 j - (w 3 j - w 0 j) else w i⟩
    let b : Placed := ⟨.tetrahedron, w⟩
    intersection 3 a b = .first ∧ ¬Hull 3 4 w (a.v 3) := by
  intro a b
  constructor
  · unfold intersection
    rw [if_pos]
    refine List.all_eq_true.2 fun i hi => ?_
    rw [List.mem_range] at hi
    obtain ⟨x, hx, hiff⟩ := contains_tetrahedron_partial w h hd (a.v i)
    change (contains .tetrahedron 3 w (a.v i) == some true) = true
    rw [hx]
    have : x = true := by
      rw [hiff]
      change i < 4 at hi
      interval_cases i
      · exact ⟨0, 0, 0, le_refl _, le_refl _, le_refl _, by norm_num, fun j _ => by simp [a]⟩
      · exact ⟨1, 0, 0, by norm_num, le_refl _, le_refl _, by norm_num, fun j _ => by simp [a]⟩
      · exact ⟨0, 1, 0, le_refl _, by norm_num, le_refl _, by norm_num, fun j _ => by simp [a]⟩
      · exact ⟨0, 0, -1, le_refl _, le_refl _, by norm_num, by norm_num, fun j _ => by
          simp [a]; ring⟩
    simp [this]
  · rintro ⟨lam, h0, h1, hp⟩
    have := h (coords [lam 1, lam 2, lam 3 + 1]) (by
      intro j hj
      have := hp j hj
      simp only [Finset.sum_range_succ, Finset.sum_range_zero] at this h1 ⊢
      simp only [a, if_true] at this
      simp only [coords, List.getD_cons_zero, List.getD_cons_succ]
      linear_combination -this - w 0 j * h1) 2 (by norm_num)
    have : lam 3 + 1 = 0 := this
    linarith [h0 3 (by norm_num)]

/-- Two unit squares side by side: `None`. -/
example : intersection 2 ⟨.quadrilateral, refVertex .quadrilateral⟩
    ⟨.quadrilateral, fun i j => refVertex .quadrilateral i j + if j = 0 then 1 else 0⟩
      = .nothing := by
  unfold intersection
  have hd : isDefault .quadrilateral 2 (refVertex (K := ℝ) .quadrilateral) = true := by
    rw [isDefault_iff]; exact ⟨rfl, fun _ _ _ _ => rfl⟩
  rw [if_neg, if_neg, if_pos]
  · rw [Bool.or_eq_true]; left
    unfold separated
    rw [if_pos rfl, List.any_eq_true]
    refine ⟨[1, 3], by simp [Cell.edges], ?_⟩
    norm_num [whichSide, refVertex, refVerts, coords, Cell.nverts, List.range_succ, opposite]
  · simp only [allContained, Cell.nverts, List.all_eq_true, List.mem_range, not_forall]
    refine ⟨1, by norm_num, ?_⟩
    rw [contains, if_pos hd]
    norm_num [refVertex, refVerts, coords]
  · simp only [allContained, Cell.nverts, List.all_eq_true, List.mem_range, not_forall]
    refine ⟨0, by norm_num, ?_⟩
    rw [contains, if_neg]
    · simp
    · rw [isDefault_iff]
      rintro ⟨-, hh⟩
      have := hh 0 (by decide) 0 (by decide)
      simp [refVertex, refVerts, coords] at this

end Verif.References
