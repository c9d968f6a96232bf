import Verif.Plotting.Canvas
import Mathlib.Algebra.MvPolynomial.PDeriv
import Mathlib.Algebra.MvPolynomial.Polynomial
import Mathlib.Algebra.MvPolynomial.Degrees
import Mathlib.Data.List.GetD
import Mathlib.RingTheory.Polynomial.Basic
import Mathlib.Algebra.BigOperators.Field
import Mathlib.Algebra.Polynomial.Derivative
import Mathlib.Algebra.Polynomial.Eval.Degree
/-!
# Plots of values (C107, C108)
-/

namespace Verif.Plotting
open MvPolynomial

/-! ### Restriction to a segment -/

/-- The chain rule. -/
theorem derivative_aeval (φ : ℕ → Polynomial ℝ) {N : ℕ} (h : ∀ i ≥ N, Polynomial.derivative (φ i) = 0) (F : MvPolynomial ℕ ℝ) :
    Polynomial.derivative (aeval φ F) = ∑ i ∈ Finset.range N, aeval φ (pderiv i F) * Polynomial.derivative (φ i) := by
  induction F using MvPolynomial.induction_on with
  | C a => simp [algebraMap_eq]
  | add p q hp hq => simp [hp, hq, add_mul, Finset.sum_add_distrib]
  | mul_X p j hp =>
    rw [map_mul, aeval_X, Polynomial.derivative_mul, hp]
    simp only [Derivation.leibniz, smul_eq_mul, map_add, map_mul, aeval_X, add_mul, Finset.sum_add_distrib, pderiv_X]
    rw [add_comm]
    congr 1
    · by_cases hj : j < N
      · rw [Finset.sum_eq_single j]
        · simp
        · intro i _ hi
          simp [Pi.single_apply, Ne.symm hi]
        · intro h'
          exact absurd (Finset.mem_range.2 hj) h'
      · rw [h j (by omega), Finset.sum_eq_zero, mul_zero]
        intro i hi
        have : j ≠ i := by have := Finset.mem_range.1 hi; omega
        simp [Pi.single_apply, this.symm]
    · rw [Finset.sum_mul]
      exact Finset.sum_congr rfl fun i _ => by ring

/-- Cubic polynomials are determined by the values and slopes at both ends. -/
theorem hermite {g : Polynomial ℝ} (hg : g.natDegree ≤ 3) (t : ℝ) :
    (1 - t) ^ 3 * g.eval 0 + 3 * t * (1 - t) ^ 2 * (g.eval 0 + g.derivative.eval 0 / 3) +
      3 * t ^ 2 * (1 - t) * (g.eval 1 - g.derivative.eval 1 / 3) + t ^ 3 * g.eval 1 = g.eval t := by
  have e : ∀ s, g.eval s = g.coeff 0 + g.coeff 1 * s + g.coeff 2 * s ^ 2 + g.coeff 3 * s ^ 3 := by
    intro s
    rw [Polynomial.eval_eq_sum_range' (n := 4) (by omega)]
    simp [Finset.sum_range_succ]
  have e' : ∀ s, g.derivative.eval s = g.coeff 1 + 2 * g.coeff 2 * s + 3 * g.coeff 3 * s ^ 2 := by
    intro s
    rw [Polynomial.eval_eq_sum_range' (n := 3) (lt_of_le_of_lt (Polynomial.natDegree_derivative_le g) (by omega))]
    simp [Finset.sum_range_succ, Polynomial.coeff_derivative]
    ring
  rw [e, e, e, e', e']
  ring

/-- The coordinates of a point. -/
def coords (p : List ℝ) : ℕ → ℝ := fun i => p.getD i 0

/-- A polynomial as a function of points. -/
noncomputable def polyFun (F : MvPolynomial ℕ ℝ) (p : List ℝ) : ℝ := eval (coords p) F

/-- Its gradient. -/
noncomputable def polyGrad (d : ℕ) (F : MvPolynomial ℕ ℝ) (p : List ℝ) : List ℝ :=
  (List.range d).map fun i => eval (coords p) (pderiv i F)

/-- The polynomial on the segment from `p` to `q`. -/
noncomputable def segment (p q : List ℝ) (F : MvPolynomial ℕ ℝ) : Polynomial ℝ :=
  aeval (fun i => Polynomial.C (coords p i) + Polynomial.C (coords q i - coords p i) * Polynomial.X) F

theorem eval_segment (p q : List ℝ) (F : MvPolynomial ℕ ℝ) (t : ℝ) :
    (segment p q F).eval t = eval (fun i => coords p i + t * (coords q i - coords p i)) F := by
  have : (Polynomial.eval t) = (Polynomial.evalRingHom t : Polynomial ℝ → ℝ) := rfl
  rw [segment, this, aeval_def, eval₂_comp_left]
  have h1 : (Polynomial.evalRingHom t).comp (algebraMap ℝ (Polynomial ℝ)) = RingHom.id ℝ := by
    ext a
    simp
  rw [h1]
  show eval₂ (RingHom.id ℝ) _ F = eval₂ (RingHom.id ℝ) _ F
  congr 1
  funext i
  simp
  ring

theorem natDegree_segment (p q : List ℝ) {F : MvPolynomial ℕ ℝ} {n : ℕ} (hF : F.totalDegree ≤ n) :
    (segment p q F).natDegree ≤ n := by
  have := aeval_natDegree_le F hF (fun i => Polynomial.C (coords p i) + Polynomial.C (coords q i - coords p i) * Polynomial.X)
    (n := 1) fun j => by
      refine (Polynomial.natDegree_add_le _ _).trans (max_le (by simp) ?_)
      exact (Polynomial.natDegree_C_mul_le _ _).trans Polynomial.natDegree_X_le
  rw [segment]
  omega

theorem derivative_segment {p q : List ℝ} {d : ℕ} (hp : p.length = d) (hq : q.length = d) (F : MvPolynomial ℕ ℝ) (t : ℝ) :
    (segment p q F).derivative.eval t = ∑ i ∈ Finset.range d,
      eval (fun i => coords p i + t * (coords q i - coords p i)) (pderiv i F) * (coords q i - coords p i) := by
  rw [segment, derivative_aeval (N := d), Polynomial.eval_finset_sum]
  · refine Finset.sum_congr rfl fun i _ => ?_
    rw [Polynomial.eval_mul, ← segment, eval_segment]
    simp
  · intro i hi
    have h1 : coords p i = 0 := List.getD_eq_default _ _ (by omega)
    have h2 : coords q i = 0 := List.getD_eq_default _ _ (by omega)
    simp [h1, h2]

/-! ### Curves -/

/-- A point of a Bézier curve. -/
noncomputable def bezierPoint (s m1 m2 e : Pt) (t : ℝ) : Pt :=
  (1 - t) ^ 3 • s + (3 * t * (1 - t) ^ 2) • m1 + (3 * t ^ 2 * (1 - t)) • m2 + t ^ 3 • e

/-- The point of the segment. -/
def between (p q : List ℝ) (t : ℝ) : List ℝ := List.zipWith (fun a b => a + t * (b - a)) p q

theorem coords_between {p q : List ℝ} (h : p.length = q.length) (t : ℝ) :
    coords (between p q t) = fun i => coords p i + t * (coords q i - coords p i) := by
  funext i
  by_cases hi : i < p.length
  · simp [coords, between, List.getD_eq_getElem?_getD, List.getElem?_zipWith, List.getElem?_eq_getElem hi,
      List.getElem?_eq_getElem (h ▸ hi : i < q.length)]
  · simp [coords, between, List.getD_eq_getElem?_getD, List.getElem?_zipWith, List.getElem?_eq_none (Nat.le_of_not_lt hi),
      List.getElem?_eq_none (h ▸ Nat.le_of_not_lt hi : q.length ≤ i)]

theorem sum_grad {d : ℕ} (g : ℕ → ℝ) {l : List ℝ} (hl : l.length = d) :
    (List.zipWith (· * ·) ((List.range d).map g) l).sum = ∑ i ∈ Finset.range d, g i * coords l i := by
  subst hl
  induction l using List.reverseRecOn with
  | nil => rfl
  | append_singleton l a ih =>
    rw [List.length_append, List.length_singleton, List.range_succ, List.map_append, List.zipWith_append (by simp), List.sum_append,
      ih, Finset.sum_range_succ]
    congr 1
    · refine Finset.sum_congr rfl fun i hi => ?_
      have := Finset.mem_range.1 hi
      simp [coords, List.getD_eq_getElem?_getD, List.getElem?_append_left this]
    · simp [coords, List.getD_eq_getElem?_getD]

/-- The control points of the curve, in terms of the polynomial on the segment. -/
theorem valueCurve_eq (F : MvPolynomial ℕ ℝ) (scale : ℝ) {p q : List ℝ} (hq : q.length = p.length) :
    let g := segment p q F
    let k := scale * (5 / 8)
    valueCurve (polyFun F) (polyGrad p.length F) scale p q =
      (p ++ [g.eval 0 * k], between p q (1 / 3) ++ [(g.eval 0 + g.derivative.eval 0 / 3) * k],
        between p q (2 / 3) ++ [(g.eval 1 - g.derivative.eval 1 / 3) * k], q ++ [g.eval 1 * k]) := by
  have h0 : (segment p q F).eval 0 = polyFun F p := by rw [eval_segment, polyFun]; simp
  have h1 : (segment p q F).eval 1 = polyFun F q := by rw [eval_segment, polyFun]; simp
  have hd0 := derivative_segment rfl hq F 0
  have hd1 := derivative_segment rfl hq F 1
  have e0 : (fun i => coords p i + 0 * (coords q i - coords p i)) = coords p := by funext i; ring
  have e1 : (fun i => coords p i + 1 * (coords q i - coords p i)) = coords q := by funext i; ring
  rw [e0] at hd0
  rw [e1] at hd1
  have c0 : ∀ i, coords (List.zipWith (· - ·) (List.zipWith (fun a b => (2 * a + b) / 3) p q) p) i = (coords q i - coords p i) / 3 := by
    intro i
    by_cases hi : i < p.length
    · simp [coords, List.getD_eq_getElem?_getD, List.getElem?_zipWith, List.getElem?_eq_getElem hi,
        List.getElem?_eq_getElem (hq.symm ▸ hi : i < q.length)]
      ring
    · simp [coords, List.getD_eq_getElem?_getD, List.getElem?_zipWith, List.getElem?_eq_none (Nat.le_of_not_lt hi),
        List.getElem?_eq_none (hq.symm ▸ Nat.le_of_not_lt hi : q.length ≤ i)]
  have c1 : ∀ i, coords (List.zipWith (· - ·) (List.zipWith (fun a b => (2 * a + b) / 3) q p) q) i = -((coords q i - coords p i) / 3) := by
    intro i
    by_cases hi : i < p.length
    · simp [coords, List.getD_eq_getElem?_getD, List.getElem?_zipWith, List.getElem?_eq_getElem hi,
        List.getElem?_eq_getElem (hq.symm ▸ hi : i < q.length)]
      ring
    · simp [coords, List.getD_eq_getElem?_getD, List.getElem?_zipWith, List.getElem?_eq_none (Nat.le_of_not_lt hi),
        List.getElem?_eq_none (hq.symm ▸ Nat.le_of_not_lt hi : q.length ≤ i)]
  have s0 : (List.zipWith (· * ·) (polyGrad p.length F p) (List.zipWith (· - ·) (List.zipWith (fun a b => (2 * a + b) / 3) p q) p)).sum =
      (segment p q F).derivative.eval 0 / 3 := by
    rw [polyGrad, sum_grad _ (by simp [hq]), hd0, Finset.sum_div]
    refine Finset.sum_congr rfl fun i _ => ?_
    rw [c0]
    ring
  have s1 : (List.zipWith (· * ·) (polyGrad p.length F q) (List.zipWith (· - ·) (List.zipWith (fun a b => (2 * a + b) / 3) q p) q)).sum =
      -((segment p q F).derivative.eval 1 / 3) := by
    rw [polyGrad, sum_grad _ (by simp [hq]), hd1, Finset.sum_div, ← Finset.sum_neg_distrib]
    refine Finset.sum_congr rfl fun i _ => ?_
    rw [c1]
    ring
  have b0 : List.zipWith (fun a b => (2 * a + b) / 3) p q = between p q (1 / 3) := by
    rw [between]
    congr 1
    funext a b
    ring
  have b1 : List.zipWith (fun a b => (2 * a + b) / 3) q p = between p q (2 / 3) := by
    rw [between, List.zipWith_comm]
    congr 1
    funext a b
    ring
  simp only [valueCurve]
  rw [s0, s1, b0, b1, h0, h1, add_mul, sub_mul, neg_mul, ← sub_eq_add_neg]

/-- The picture of a curve in space over a segment. -/
theorem bezierShape_between (pic : Picture) {p q : List ℝ} (hp : p.length = 1 ∨ p.length = 2) (hq : q.length = p.length)
    (h0 h1 h2 h3 : ℝ) : ∃ s m1 m2 e,
      pic.bezierShape (p ++ [h0]) (between p q (1 / 3) ++ [h1]) (between p q (2 / 3) ++ [h2]) (q ++ [h3]) "#FF8800" =
        some (.bezier s m1 m2 e "#FF8800" 4) ∧
      ∀ t, pic.parsePoint (between p q t ++ [(1 - t) ^ 3 * h0 + 3 * t * (1 - t) ^ 2 * h1 + 3 * t ^ 2 * (1 - t) * h2 + t ^ 3 * h3]) =
        some (bezierPoint s m1 m2 e t) := by
  rcases hp with hp | hp
  · match p, q, hp, hq with
    | [a], [b], _, _ =>
      refine ⟨_, _, _, _, rfl, fun t => congrArg some ?_⟩
      simp only [between, List.zipWith_cons_cons, List.zipWith_nil_left, List.cons_append, List.nil_append,
        List.getD_cons_zero, List.getD_cons_succ, bezierPoint]
      ext
      · simp; ring
      · simp
  · match p, q, hp, hq with
    | [a, a'], [b, b'], _, _ =>
      refine ⟨_, _, _, _, rfl, fun t => congrArg some ?_⟩
      simp only [between, List.zipWith_cons_cons, List.zipWith_nil_left, List.cons_append, List.nil_append,
        List.getD_cons_zero, List.getD_cons_succ, bezierPoint]
      ext
      · simp; ring
      · simp; ring

/-- **C107.** The curve drawn between two points of an interval or of a two dimensional cell, for a polynomial of degree at most
3, is the graph of the polynomial on the segment between the points, times 5/8 of the value scale, as it is seen in the picture. -/
theorem valueCurve_graph {F : MvPolynomial ℕ ℝ} (hF : F.totalDegree ≤ 3) (pic : Picture) (scale : ℝ) {p q : List ℝ}
    (hp : p.length = 1 ∨ p.length = 2) (hq : q.length = p.length) :
    let c := valueCurve (polyFun F) (polyGrad p.length F) scale p q
    ∃ s m1 m2 e, pic.bezierShape c.1 c.2.1 c.2.2.1 c.2.2.2 "#FF8800" = some (.bezier s m1 m2 e "#FF8800" 4) ∧
      ∀ t, pic.parsePoint (between p q t ++ [polyFun F (between p q t) * (scale * (5 / 8))]) = some (bezierPoint s m1 m2 e t) := by
  have hh := hermite (natDegree_segment p q hF)
  intro c
  have hc : c = _ := valueCurve_eq F scale hq
  rw [hc]
  obtain ⟨s, m1, m2, e, h1, h2⟩ := bezierShape_between pic hp hq ((segment p q F).eval 0 * (scale * (5 / 8)))
    (((segment p q F).eval 0 + (segment p q F).derivative.eval 0 / 3) * (scale * (5 / 8)))
    (((segment p q F).eval 1 - (segment p q F).derivative.eval 1 / 3) * (scale * (5 / 8))) ((segment p q F).eval 1 * (scale * (5 / 8)))
  refine ⟨s, m1, m2, e, h1, fun t => ?_⟩
  rw [← h2 t, polyFun, coords_between hq.symm, ← eval_segment, ← hh t]
  congr 3
  ring

/-- The path in the SVG file is the image of the curve. -/
theorem path_points (s m1 m2 e : Pt) {m : Pt → Pt} {a b k : ℝ} (hm : ∀ p, m p = (a + k * p.1, b - k * p.2)) (t : ℝ) :
    m (bezierPoint s m1 m2 e t) = bezierPoint (m s) (m m1) (m m2) (m e) t := by
  simp only [hm, bezierPoint]
  ext <;> simp <;> ring

/-- For polynomials of higher degree, the ends of the curve are on the graph. -/
theorem valueCurve_ends (F : MvPolynomial ℕ ℝ) (scale : ℝ) (p q : List ℝ) :
    let c := valueCurve (polyFun F) (polyGrad p.length F) scale p q
    c.1 = p ++ [polyFun F p * (scale * (5 / 8))] ∧ c.2.2.2 = q ++ [polyFun F q * (scale * (5 / 8))] := ⟨rfl, rfl⟩

/-- The cubic `x y²` between two points of a triangle: the middle of the curve. -/
example (pic : Picture) : ∃ s m1 m2 e, pic.bezierShape (valueCurve (polyFun (X 0 * X 1 ^ 2)) (polyGrad 2 (X 0 * X 1 ^ 2)) 1 [0, 0] [1, 1]).1
      (valueCurve (polyFun (X 0 * X 1 ^ 2)) (polyGrad 2 (X 0 * X 1 ^ 2)) 1 [0, 0] [1, 1]).2.1
      (valueCurve (polyFun (X 0 * X 1 ^ 2)) (polyGrad 2 (X 0 * X 1 ^ 2)) 1 [0, 0] [1, 1]).2.2.1
      (valueCurve (polyFun (X 0 * X 1 ^ 2)) (polyGrad 2 (X 0 * X 1 ^ 2)) 1 [0, 0] [1, 1]).2.2.2 "#FF8800" =
        some (.bezier s m1 m2 e "#FF8800" 4) ∧
    pic.parsePoint [1 / 2, 1 / 2, 5 / 64] = some (bezierPoint s m1 m2 e (1 / 2)) := by
  have hd : (X 0 * X 1 ^ 2 : MvPolynomial ℕ ℝ).totalDegree ≤ 3 := by
    refine (totalDegree_mul _ _).trans ?_
    have := totalDegree_pow (X 1 : MvPolynomial ℕ ℝ) 2
    simp only [totalDegree_X] at *
    omega
  obtain ⟨s, m1, m2, e, h1, h2⟩ := valueCurve_graph hd pic 1 (p := [0, 0]) (q := [1, 1]) (Or.inr rfl) rfl
  refine ⟨s, m1, m2, e, h1, ?_⟩
  rw [← h2 (1 / 2)]
  simp [between, polyFun, coords]
  norm_num

/-- **C107.** The arrow drawn at a point for a vector function starts at the point, and the vector from the start to the end is
the value times a quarter of the value scale, as it is seen in the picture. -/
theorem valueArrow_shape (f : List ℝ → List ℝ) (pic : Picture) (scale : ℝ) {p : List ℝ} (hp : p.length = 2 ∨ p.length = 3)
    (hf : (f p).length = p.length) :
    let a := valueArrow f scale p
    ∃ s v : Pt, pic.parsePoint p = some s ∧ pic.parsePoint (f p) = some v ∧
      pic.arrowShape a.1 a.2.1 "#FF8800" a.2.2 = some (.arrow s (s + (scale / 4) • v) "#FF8800" a.2.2) := by
  generalize hv : f p = v at hf
  rcases hp with hp | hp
  · match p, v, hp, hf with
    | [a, b], [c, d], _, _ =>
      refine ⟨_, _, rfl, rfl, ?_⟩
      simp only [valueArrow, hv, Picture.arrowShape, Picture.parsePoint, Picture.toTwoD, Option.map_some, Option.bind_some,
        List.map_cons, List.map_nil, List.zipWith_cons_cons, List.zipWith_nil_left]
      congr 2
      ext <;> simp <;> ring
  · match p, v, hp, hf with
    | [a, b, e], [c, d, g], _, _ =>
      refine ⟨_, _, rfl, rfl, ?_⟩
      simp only [valueArrow, hv, Picture.arrowShape, Picture.parsePoint, Picture.toTwoD, Option.map_some, Option.bind_some,
        List.map_cons, List.map_nil, List.zipWith_cons_cons, List.zipWith_nil_left]
      congr 2
      ext <;> simp <;> ring

/-! ### Plotting twice -/

section cache
variable {K A : Type} [DecidableEq K]

theorem plotCalls_get (make : K → ℝ → A) (cache : K → Option A) (l : List (K × ℝ)) (i : ℕ) (key : K) (scale : ℝ)
    (h : l[i]? = some (key, scale)) :
    (plotCalls make cache l)[i]? = some ((cache key).getD (make key (((l.find? fun c => decide (c.1 = key)).map Prod.snd).getD 0))) := by
  induction l generalizing cache i with
  | nil => simp at h
  | cons c l ih =>
    obtain ⟨k, s⟩ := c
    have hr : ((plotCached make cache k s).2) key = if k = key then some ((cache key).getD (make key s)) else cache key := by
      rw [plotCached]
      split
      · rename_i a ha
        split
        · rename_i e; subst e; simp [ha]
        · rfl
      · rename_i ha
        split
        · rename_i e; subst e; rw [ha]; simp
        · rename_i e
          exact Function.update_of_ne (Ne.symm e) _ _
    cases i with
    | zero =>
      simp at h
      obtain ⟨rfl, rfl⟩ := h
      rw [plotCalls]
      simp only [List.getElem?_cons_zero, List.find?_cons, decide_true, Option.map_some, Option.getD_some, Option.some.injEq]
      rw [plotCached]
      split
      · rename_i a ha; rw [ha]; rfl
      · rename_i ha; rw [ha]; rfl
    | succ i =>
      rw [List.getElem?_cons_succ] at h
      rw [plotCalls, List.getElem?_cons_succ, ih _ _ h, hr]
      rw [List.find?_cons]
      by_cases e : k = key
      · simp [e]
      · simp [e]

/-- What every call draws: the values with the scale of the first call for the same cell. -/
theorem plotCalls_first (make : K → ℝ → A) (l : List (K × ℝ)) (i : ℕ) (key : K) (scale : ℝ) (h : l[i]? = some (key, scale)) :
    (plotCalls make (fun _ => none) l)[i]? = some (make key (((l.find? fun c => decide (c.1 = key)).map Prod.snd).getD 0)) := by
  rw [plotCalls_get make _ l i key scale h]
  rfl

/-- **C108.** If all calls for the same cell have the same scale, then every call draws the values with its scale. -/
theorem plotCalls_partial (make : K → ℝ → A) (l : List (K × ℝ)) (hl : ∀ c ∈ l, ∀ c' ∈ l, c.1 = c'.1 → c.2 = c'.2) (i : ℕ) (key : K)
    (scale : ℝ) (h : l[i]? = some (key, scale)) : (plotCalls make (fun _ => none) l)[i]? = some (make key scale) := by
  rw [plotCalls_first make l i key scale h]
  have hm := List.mem_of_getElem? h
  cases hf : l.find? fun c => decide (c.1 = key) with
  | none => simpa using List.find?_eq_none.1 hf _ hm
  | some c =>
    have h1 : c.1 = key := by simpa using List.find?_some hf
    have h2 := List.mem_of_find?_eq_some hf
    rw [Option.map_some, Option.getD_some, hl c h2 _ hm h1]

/-- **C108 is violated**: a second plot with another scale shows the values with the first scale. -/
theorem plotCalls_stale (make : K → ℝ → A) (key : K) (s s' : ℝ) :
    plotCalls make (fun _ => none) [(key, s), (key, s')] = [make key s, make key s] := by
  simp [plotCalls, plotCached]

/-- The curves for two scales differ, if the function is not zero at the start. -/
theorem valueCurve_scale {f : List ℝ → ℝ} {g : List ℝ → List ℝ} {s s' : ℝ} (hs : s ≠ s') {p q : List ℝ} (hf : f p ≠ 0) :
    valueCurve f g s p q ≠ valueCurve f g s' p q := by
  intro h
  have := congrArg Prod.fst h
  simp only [valueCurve, List.append_cancel_left_eq, List.cons.injEq, and_true] at this
  have := mul_left_cancel₀ hf this
  exact hs (by linarith)

/-- The wrong picture for two calls of `plot_values` for the constant function 1 on a segment. -/
example : plotCalls (fun _ : Unit => fun s => valueCurve (fun _ => 1) (fun _ => [0]) s [0] [1]) (fun _ => none) [((), 1), ((), 2)] ≠
    [valueCurve (fun _ => 1) (fun _ => [0]) 1 [0] [1], valueCurve (fun _ => 1) (fun _ => [0]) 2 [0] [1]] := by
  rw [plotCalls_stale]
  intro h
  simp only [List.cons.injEq, true_and, and_true] at h
  exact valueCurve_scale (by norm_num) one_ne_zero h

end cache

end Verif.Plotting
