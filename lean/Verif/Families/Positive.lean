import Verif.Families.Space
import Verif.Orthogonal.Lobatto
import Mathlib.Topology.Algebra.MvPolynomial
import Mathlib.Tactic.IntervalCases
/-!
# Integrals of nonnegative functions over the default cells
-/

namespace Verif.Families
open MvPolynomial Verif.References Verif.Orthogonal MeasureTheory

/-- Points reached by the iterated integral. -/
def Reach : List (ℕ × Affine × Affine) → (ℕ → ℝ) → (ℕ → ℝ) → Prop
  | [], x, z => z = x
  | (v, lo, hi) :: L, x, z => ∃ y, Reach L x y ∧ ∃ t, lo.eval y ≤ t ∧ t ≤ hi.eval y ∧ z = Function.update y v t

/-- Inner points. -/
def Inner : List (ℕ × Affine × Affine) → (ℕ → ℝ) → (ℕ → ℝ) → Prop
  | [], x, z => z = x
  | (v, lo, hi) :: L, x, z => ∃ y, Inner L x y ∧ ∃ t, lo.eval y < t ∧ t < hi.eval y ∧ z = Function.update y v t

/-- The limits are in order. -/
def Ordered : List (ℕ × Affine × Affine) → (ℕ → ℝ) → Prop
  | [], _ => True
  | (_, lo, hi) :: L, x => Ordered L x ∧ ∀ y, Reach L x y → lo.eval (K := ℝ) y ≤ hi.eval y

theorem Inner.reach {L : List (ℕ × Affine × Affine)} {x z : ℕ → ℝ} (h : Inner L x z) : Reach L x z := by
  induction L generalizing z with
  | nil => exact h
  | cons a L ih =>
    obtain ⟨v, lo, hi⟩ := a
    obtain ⟨y, hy, t, h1, h2, e⟩ := h
    exact ⟨y, ih hy, t, h1.le, h2.le, e⟩

/-- A continuous function that is not negative and whose integral vanishes, is 0. -/
theorem integral_zero {f : ℝ → ℝ} (hf : Continuous f) {a b : ℝ} (hn : ∀ t, a ≤ t → t ≤ b → 0 ≤ f t)
    (h : ∫ t in a..b, f t = 0) {t : ℝ} (h1 : a < t) (h2 : t < b) : f t = 0 := by
  by_contra hne
  have hpos : 0 < f t := lt_of_le_of_ne (hn t h1.le h2.le) (Ne.symm hne)
  have := intervalIntegral.integral_pos (h1.trans h2) hf.continuousOn (fun x hx => hn x hx.1.le hx.2)
    ⟨t, ⟨h1.le, h2.le⟩, hpos⟩
  exact absurd h this.ne'

theorem iterInt_zero {L : List (ℕ × Affine × Affine)} {x : ℕ → ℝ} (ho : Ordered L x) {f : (ℕ → ℝ) → ℝ}
    (hf : Continuous f) (hn : ∀ z, Reach L x z → 0 ≤ f z) (h : iterInt L f x = 0) {z : ℕ → ℝ} (hz : Inner L x z) :
    f z = 0 := by
  induction L generalizing f z with
  | nil => rw [show z = x from hz]; exact h
  | cons a L ih =>
    obtain ⟨v, lo, hi⟩ := a
    obtain ⟨y, hy, t, h1, h2, rfl⟩ := hz
    have hg := inner_continuous hf v lo hi
    have h0 := ih ho.1 hg (fun w hw => intervalIntegral.integral_nonneg (ho.2 w hw) fun s hs =>
      hn _ ⟨w, hw, s, hs.1, hs.2, rfl⟩) h hy
    exact integral_zero (f := fun t => f (Function.update y v t)) (hf.comp (by fun_prop))
      (fun s hs1 hs2 => hn _ ⟨y, hy.reach, s, hs1, hs2, rfl⟩) h0 h1 h2

/-- The closed default cell. -/
def Closed : Cell → (ℕ → ℝ) → Prop
  | .interval, z => 0 ≤ z 0 ∧ z 0 ≤ 1
  | .triangle, z => 0 ≤ z 0 ∧ 0 ≤ z 1 ∧ z 0 + z 1 ≤ 1
  | .tetrahedron, z => 0 ≤ z 0 ∧ 0 ≤ z 1 ∧ 0 ≤ z 2 ∧ z 0 + z 1 + z 2 ≤ 1
  | .quadrilateral, z => 0 ≤ z 0 ∧ z 0 ≤ 1 ∧ 0 ≤ z 1 ∧ z 1 ≤ 1
  | .hexahedron, z => 0 ≤ z 0 ∧ z 0 ≤ 1 ∧ 0 ≤ z 1 ∧ z 1 ≤ 1 ∧ 0 ≤ z 2 ∧ z 2 ≤ 1
  | .prism, z => 0 ≤ z 0 ∧ 0 ≤ z 1 ∧ z 0 + z 1 ≤ 1 ∧ 0 ≤ z 2 ∧ z 2 ≤ 1
  | .pyramid, z => 0 ≤ z 0 ∧ z 0 + z 2 ≤ 1 ∧ 0 ≤ z 1 ∧ z 1 + z 2 ≤ 1 ∧ 0 ≤ z 2
  | _, _ => True

/-- Cells with an integral. -/
def Solid (c : Cell) : Prop := c ∈ [Cell.interval, .triangle, .tetrahedron, .quadrilateral, .hexahedron, .prism, .pyramid]

/-- A small box inside every cell. -/
theorem cell_inner {c : Cell} (hc : Solid c) {z : ℕ → ℝ} (h : ∀ i < c.tdim, 0 < z i ∧ z i < 1 / 4)
    (h0 : ∀ i, c.tdim ≤ i → z i = 0) : Inner ((integrationLimits c).getD []) (fun _ => 0) z := by
  have ext1 : ∀ {y : ℕ → ℝ}, c.tdim = 1 → y = Function.update (fun _ => 0) 0 (z 0) → z = y := by
    rintro y hd rfl
    funext i
    rcases i with _ | i
    · simp
    · rw [Function.update_of_ne (by omega)]; exact h0 _ (by omega)
  have ext2 : ∀ {y : ℕ → ℝ}, c.tdim = 2 → y = Function.update (Function.update (fun _ => 0) 0 (z 0)) 1 (z 1) →
      z = y := by
    rintro y hd rfl
    funext i
    rcases i with _ | _ | i
    · simp
    · simp
    · rw [Function.update_of_ne (by omega), Function.update_of_ne (by omega)]; exact h0 _ (by omega)
  have ext3 : ∀ {y : ℕ → ℝ}, c.tdim = 3 → y 0 = z 0 → y 1 = z 1 → y 2 = z 2 → (∀ i, y (i + 3) = 0) → z = y := by
    intro y hd e0 e1 e2 e3
    funext i
    rcases i with _ | _ | _ | i
    · exact e0.symm
    · exact e1.symm
    · exact e2.symm
    · rw [e3]; exact h0 _ (by omega)
  simp only [Solid, List.mem_cons, List.not_mem_nil, or_false] at hc
  rcases hc with rfl | rfl | rfl | rfl | rfl | rfl | rfl
  · obtain ⟨a1, a2⟩ := h 0 (by decide)
    exact ⟨_, rfl, z 0, by simpa [Affine.eval] using a1, by simp [Affine.eval]; linarith, ext1 rfl rfl⟩
  · obtain ⟨a1, a2⟩ := h 0 (by decide)
    obtain ⟨b1, b2⟩ := h 1 (by decide)
    exact ⟨_, ⟨_, rfl, z 0, by simpa [Affine.eval] using a1, by simp [Affine.eval]; linarith, rfl⟩, z 1,
      by simpa [Affine.eval] using b1, by simp [Affine.eval]; linarith, ext2 rfl rfl⟩
  · obtain ⟨a1, a2⟩ := h 0 (by decide)
    obtain ⟨b1, b2⟩ := h 1 (by decide)
    obtain ⟨c1, c2⟩ := h 2 (by decide)
    refine ⟨_, ⟨_, ⟨_, rfl, z 2, by simpa [Affine.eval] using c1, by simp [Affine.eval]; linarith, rfl⟩, z 1,
      by simpa [Affine.eval] using b1, by simp [Affine.eval, Finset.sum_range_succ]; linarith, rfl⟩, z 0,
      by simpa [Affine.eval] using a1, by simp [Affine.eval, Finset.sum_range_succ]; linarith, ?_⟩
    exact ext3 rfl (by simp) (by simp) (by simp) fun i => by simp
  · obtain ⟨a1, a2⟩ := h 0 (by decide)
    obtain ⟨b1, b2⟩ := h 1 (by decide)
    exact ⟨_, ⟨_, rfl, z 0, by simpa [Affine.eval] using a1, by simp [Affine.eval]; linarith, rfl⟩, z 1,
      by simpa [Affine.eval] using b1, by simp [Affine.eval]; linarith, ext2 rfl rfl⟩
  · obtain ⟨a1, a2⟩ := h 0 (by decide)
    obtain ⟨b1, b2⟩ := h 1 (by decide)
    obtain ⟨c1, c2⟩ := h 2 (by decide)
    refine ⟨_, ⟨_, ⟨_, rfl, z 0, by simpa [Affine.eval] using a1, by simp [Affine.eval]; linarith, rfl⟩, z 1,
      by simpa [Affine.eval] using b1, by simp [Affine.eval]; linarith, rfl⟩, z 2,
      by simpa [Affine.eval] using c1, by simp [Affine.eval]; linarith, ?_⟩
    exact ext3 rfl (by simp) (by simp) (by simp) fun i => by simp
  · obtain ⟨a1, a2⟩ := h 0 (by decide)
    obtain ⟨b1, b2⟩ := h 1 (by decide)
    obtain ⟨c1, c2⟩ := h 2 (by decide)
    refine ⟨_, ⟨_, ⟨_, rfl, z 0, by simpa [Affine.eval] using a1, by simp [Affine.eval]; linarith, rfl⟩, z 1,
      by simpa [Affine.eval] using b1, by simp [Affine.eval]; linarith, rfl⟩, z 2,
      by simpa [Affine.eval] using c1, by simp [Affine.eval]; linarith, ?_⟩
    exact ext3 rfl (by simp) (by simp) (by simp) fun i => by simp
  · obtain ⟨a1, a2⟩ := h 0 (by decide)
    obtain ⟨b1, b2⟩ := h 1 (by decide)
    obtain ⟨c1, c2⟩ := h 2 (by decide)
    refine ⟨_, ⟨_, ⟨_, rfl, z 2, by simpa [Affine.eval] using c1, by simp [Affine.eval]; linarith, rfl⟩, z 1,
      by simpa [Affine.eval] using b1, by simp [Affine.eval, Finset.sum_range_succ]; linarith, rfl⟩, z 0,
      by simpa [Affine.eval] using a1, by simp [Affine.eval, Finset.sum_range_succ]; linarith, ?_⟩
    exact ext3 rfl (by simp) (by simp) (by simp) fun i => by simp

theorem cell_reach {c : Cell} (hc : Solid c) {z : ℕ → ℝ} (h : Reach ((integrationLimits c).getD []) (fun _ => 0) z) :
    Closed c z := by
  simp only [Solid, List.mem_cons, List.not_mem_nil, or_false] at hc
  rcases hc with rfl | rfl | rfl | rfl | rfl | rfl | rfl
  · obtain ⟨_, rfl, a, a1, a2, rfl⟩ := h
    simp [Affine.eval] at a1 a2
    simp [Closed, a1, a2]
  · obtain ⟨_, ⟨_, rfl, a, a1, a2, rfl⟩, b, b1, b2, rfl⟩ := h
    simp [Affine.eval] at a1 a2 b1 b2
    refine ⟨by simpa using a1, by simpa using b1, by simp; linarith⟩
  · obtain ⟨_, ⟨_, ⟨_, rfl, a, a1, a2, rfl⟩, b, b1, b2, rfl⟩, c, c1, c2, rfl⟩ := h
    simp [Affine.eval, Finset.sum_range_succ] at a1 a2 b1 b2 c1 c2
    refine ⟨by simpa using c1, by simpa using b1, by simpa using a1, by simp; linarith⟩
  · obtain ⟨_, ⟨_, rfl, a, a1, a2, rfl⟩, b, b1, b2, rfl⟩ := h
    simp [Affine.eval] at a1 a2 b1 b2
    refine ⟨by simpa using a1, by simpa using a2, by simpa using b1, by simpa using b2⟩
  · obtain ⟨_, ⟨_, ⟨_, rfl, a, a1, a2, rfl⟩, b, b1, b2, rfl⟩, c, c1, c2, rfl⟩ := h
    simp [Affine.eval] at a1 a2 b1 b2 c1 c2
    refine ⟨by simpa using a1, by simpa using a2, by simpa using b1, by simpa using b2, by simpa using c1,
      by simpa using c2⟩
  · obtain ⟨_, ⟨_, ⟨_, rfl, a, a1, a2, rfl⟩, b, b1, b2, rfl⟩, c, c1, c2, rfl⟩ := h
    simp [Affine.eval] at a1 a2 b1 b2 c1 c2
    refine ⟨by simpa using a1, by simpa using b1, by simp; linarith, by simpa using c1, by simpa using c2⟩
  · obtain ⟨_, ⟨_, ⟨_, rfl, a, a1, a2, rfl⟩, b, b1, b2, rfl⟩, c, c1, c2, rfl⟩ := h
    simp [Affine.eval, Finset.sum_range_succ] at a1 a2 b1 b2 c1 c2
    refine ⟨by simpa using c1, by simp; linarith, by simpa using b1, by simp; linarith, by simpa using a1⟩

theorem cell_ordered {c : Cell} (hc : Solid c) : Ordered ((integrationLimits c).getD []) fun _ => 0 := by
  simp only [Solid, List.mem_cons, List.not_mem_nil, or_false] at hc
  rcases hc with rfl | rfl | rfl | rfl | rfl | rfl | rfl
  · exact ⟨trivial, fun y _ => by simp [Affine.eval]⟩
  · refine ⟨⟨trivial, fun y _ => by simp [Affine.eval]⟩, ?_⟩
    rintro _ ⟨_, rfl, a, a1, a2, rfl⟩
    simp [Affine.eval] at a1 a2 ⊢
    linarith
  · refine ⟨⟨⟨trivial, fun y _ => by simp [Affine.eval]⟩, ?_⟩, ?_⟩
    · rintro _ ⟨_, rfl, a, a1, a2, rfl⟩
      simp [Affine.eval, Finset.sum_range_succ] at a1 a2 ⊢
      linarith
    · rintro _ ⟨_, ⟨_, rfl, a, a1, a2, rfl⟩, b, b1, b2, rfl⟩
      simp [Affine.eval, Finset.sum_range_succ] at a1 a2 b1 b2 ⊢
      linarith
  · exact ⟨⟨trivial, fun y _ => by simp [Affine.eval]⟩, fun y _ => by simp [Affine.eval]⟩
  · exact ⟨⟨⟨trivial, fun y _ => by simp [Affine.eval]⟩, fun y _ => by simp [Affine.eval]⟩,
      fun y _ => by simp [Affine.eval]⟩
  · refine ⟨⟨⟨trivial, fun y _ => by simp [Affine.eval]⟩, ?_⟩, fun y _ => by simp [Affine.eval]⟩
    rintro _ ⟨_, rfl, a, a1, a2, rfl⟩
    simp [Affine.eval] at a1 a2 ⊢
    linarith
  · refine ⟨⟨⟨trivial, fun y _ => by simp [Affine.eval]⟩, ?_⟩, ?_⟩
    · rintro _ ⟨_, rfl, a, a1, a2, rfl⟩
      simp [Affine.eval, Finset.sum_range_succ] at a1 a2 ⊢
      linarith
    · rintro _ ⟨_, ⟨_, rfl, a, a1, a2, rfl⟩, b, b1, b2, rfl⟩
      simp [Affine.eval, Finset.sum_range_succ] at a1 a2 b1 b2 ⊢
      linarith

/-- A continuous function that is not negative on the cell and whose integral vanishes, is 0 on a box inside the
cell. -/
theorem cellInt_eq_zero {c : Cell} (hc : Solid c) {f : (ℕ → ℝ) → ℝ} (hf : Continuous f)
    (hn : ∀ z, Closed c z → 0 ≤ f z) (h : cellInt c f = 0) {z : ℕ → ℝ} (hz : ∀ i < c.tdim, 0 < z i ∧ z i < 1 / 4)
    (h0 : ∀ i, c.tdim ≤ i → z i = 0) : f z = 0 :=
  iterInt_zero (cell_ordered hc) hf (fun _ hz => hn _ (cell_reach hc hz)) h (cell_inner hc hz h0)

/-- A polynomial in `d` variables that vanishes on the box is 0. -/
theorem eq_zero_of_box {d : ℕ} {k : ℤ} {p : MvPolynomial ℕ ℝ} (hp : p ∈ P d k)
    (h : ∀ z : ℕ → ℝ, (∀ i < d, 0 < z i ∧ z i < 1 / 4) → (∀ i, d ≤ i → z i = 0) → eval z p = 0) : p = 0 := by
  refine funext_set (fun _ => Set.Ioo (0 : ℝ) (1 / 4)) (fun _ => Set.Ioo_infinite (by norm_num)) fun y hy => ?_
  rw [map_zero, eval_congr_P hp (z := fun i => if i < d then y i else 0) fun i hi => by rw [if_pos hi]]
  refine h _ (fun i hi => ?_) fun i hi => if_neg (by omega)
  rw [if_pos hi]
  exact hy i (Set.mem_univ i)

/-- Weighted sums of squares: if the integral of `∑ w_j p_j ^ 2` vanishes, all `p_j` vanish. -/
theorem squares_zero {c : Cell} (hc : Solid c) {ι : Type} [Fintype ι] (w : ι → MvPolynomial ℕ ℝ)
    (hw : ∀ j z, Closed c z → 0 ≤ eval z (w j))
    (hw' : ∀ j (z : ℕ → ℝ), (∀ i < c.tdim, 0 < z i ∧ z i < 1 / 4) → 0 < eval z (w j)) (p : ι → MvPolynomial ℕ ℝ)
    {k : ℤ} (hp : ∀ j, p j ∈ P c.tdim k)
    (h : cellInt c (fun z => eval z (∑ j, w j * p j ^ 2)) = 0) (j : ι) : p j = 0 := by
  refine eq_zero_of_box (hp j) fun z hz h0 => ?_
  have h1 := cellInt_eq_zero hc (continuous_eval _) (fun z hz => ?_) h hz h0
  · rw [map_sum] at h1
    have h2 := (Finset.sum_eq_zero_iff_of_nonneg fun i _ => ?_).1 h1 j (Finset.mem_univ j)
    · rw [eval_mul, eval_pow] at h2
      rcases mul_eq_zero.1 h2 with h2 | h2
      · exact absurd h2 (hw' j z hz).ne'
      · exact pow_eq_zero_iff (by norm_num) |>.1 h2
    · rw [eval_mul, eval_pow]
      exact mul_nonneg (hw' i z hz).le (sq_nonneg _)
  · rw [map_sum]
    exact Finset.sum_nonneg fun i _ => by
      rw [eval_mul, eval_pow]
      exact mul_nonneg (hw i z hz) (sq_nonneg _)

end Verif.Families
