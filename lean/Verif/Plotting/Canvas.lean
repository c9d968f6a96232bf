import Verif.Plotting.Model
import Verif.Moments.Props
import Mathlib.Tactic.Linarith
/-!
# The size of a picture (C99, C100)
-/

namespace Verif.Plotting
open Verif.Moments

/-! ### Spec -/

/-- The point is on the canvas, at distance `pad` from the border. -/
def OnCanvas (w h pad : ℝ) (p : Pt) : Prop := pad ≤ p.1 ∧ p.1 ≤ w - pad ∧ pad ≤ p.2 ∧ p.2 ≤ h - pad

/-- The points of a tag; for a path, a point of the curve for each parameter between 0 and 1. -/
def Draws (p : Pt) : Picture.Svg → Prop
  | .line a b _ _ => p = a ∨ p = b
  | .path s m1 m2 e _ _ => ∃ t : ℝ, 0 ≤ t ∧ t ≤ 1 ∧
      p = (1 - t) ^ 3 • s + (3 * t * (1 - t) ^ 2) • m1 + (3 * t ^ 2 * (1 - t)) • m2 + t ^ 3 • e
  | .circle c _ _ _ => p = c
  | .text q _ _ => p = q
  | .polygon l _ => p ∈ l

/-- The sizes that are given are positive. -/
def Positive (pic : Picture) : Prop :=
  (∀ s ∈ pic.scale, 0 < s) ∧ (∀ s ∈ pic.width, 0 < s) ∧ (∀ s ∈ pic.height, 0 < s)

/-! ### Bounds -/

theorem foldl_min_le (l : List ℝ) (a : ℝ) : l.foldl min a ≤ a ∧ ∀ x ∈ l, l.foldl min a ≤ x := by
  induction l generalizing a with
  | nil => simp
  | cons b l ih =>
    obtain ⟨h1, h2⟩ := ih (min a b)
    refine ⟨h1.trans (min_le_left _ _), fun x hx => ?_⟩
    rcases List.mem_cons.1 hx with rfl | hx
    · exact h1.trans (min_le_right _ _)
    · exact h2 x hx

theorem le_foldl_max (l : List ℝ) (a : ℝ) : a ≤ l.foldl max a ∧ ∀ x ∈ l, x ≤ l.foldl max a := by
  induction l generalizing a with
  | nil => simp
  | cons b l ih =>
    obtain ⟨h1, h2⟩ := ih (max a b)
    refine ⟨(le_max_left _ _).trans h1, fun x hx => ?_⟩
    rcases List.mem_cons.1 hx with rfl | hx
    · exact (le_max_right _ _).trans h1
    · exact h2 x hx

theorem minOf_le {l : List ℝ} {m : ℝ} (h : minOf l = some m) : ∀ x ∈ l, m ≤ x := by
  cases l with
  | nil => cases h
  | cons a l =>
    obtain rfl := Option.some.inj h
    intro x hx
    rcases List.mem_cons.1 hx with rfl | hx
    · exact (foldl_min_le l _).1
    · exact (foldl_min_le l _).2 x hx

theorem le_maxOf {l : List ℝ} {m : ℝ} (h : maxOf l = some m) : ∀ x ∈ l, x ≤ m := by
  cases l with
  | nil => cases h
  | cons a l =>
    obtain rfl := Option.some.inj h
    intro x hx
    rcases List.mem_cons.1 hx with rfl | hx
    · exact (le_foldl_max l _).1
    · exact (le_foldl_max l _).2 x hx

theorem mapM_mem {A B : Type} {f : A → Option B} {l : List A} {r : List B} (h : l.mapM f = some r) {a : A} (ha : a ∈ l) :
    ∃ b ∈ r, f a = some b := by
  have hf := mapM_forall h
  clear h
  induction hf with
  | nil => cases ha
  | cons h _ ih =>
    rcases List.mem_cons.1 ha with rfl | ha
    · exact ⟨_, by simp, h⟩
    · obtain ⟨b, hb, e⟩ := ih ha
      exact ⟨b, by simp [hb], e⟩

theorem mapM_mem' {A B : Type} {f : A → Option B} {l : List A} {r : List B} (h : l.mapM f = some r) {b : B} (hb : b ∈ r) :
    ∃ a ∈ l, f a = some b := by
  have hf := mapM_forall h
  clear h
  induction hf with
  | nil => cases hb
  | cons h _ ih =>
    rcases List.mem_cons.1 hb with rfl | hb
    · exact ⟨_, by simp, h⟩
    · obtain ⟨b, hb, e⟩ := ih hb
      exact ⟨b, by simp [hb], e⟩

theorem min_bound {es : List Shape} {g : Pt → ℝ} {m : ℝ}
    (h : (es.mapM fun e => minOf (e.points.map g)).bind minOf = some m) : ∀ e ∈ es, ∀ p ∈ e.points, m ≤ g p := by
  obtain ⟨r, hr, hm⟩ := Option.bind_eq_some_iff.1 h
  intro e he p hp
  obtain ⟨b, hb, e'⟩ := mapM_mem hr he
  exact (minOf_le hm b hb).trans (minOf_le e' _ (List.mem_map_of_mem hp))

theorem max_bound {es : List Shape} {g : Pt → ℝ} {m : ℝ}
    (h : (es.mapM fun e => maxOf (e.points.map g)).bind maxOf = some m) : ∀ e ∈ es, ∀ p ∈ e.points, g p ≤ m := by
  obtain ⟨r, hr, hm⟩ := Option.bind_eq_some_iff.1 h
  intro e he p hp
  obtain ⟨b, hb, e'⟩ := mapM_mem hr he
  exact (le_maxOf e' _ (List.mem_map_of_mem hp)).trans (le_maxOf hm b hb)

/-- What `compute_scale` returns. -/
theorem computeScale_spec {pic : Picture} {unit : String} {rev : Bool} {s : Picture.Scaled}
    (h : pic.computeScale unit rev = some s) :
    ∃ minx miny maxx maxy : ℝ, (∀ e ∈ pic.elements, ∀ p ∈ e.points, minx ≤ p.1 ∧ p.1 ≤ maxx ∧ miny ≤ p.2 ∧ p.2 ≤ maxy) ∧
      (pic.unscaled minx miny maxx maxy).bind (Picture.unitScale unit) = some s.scale ∧
      s.width = 2 * pic.padding + (maxx - minx) * s.scale ∧ s.height = 2 * pic.padding + (maxy - miny) * s.scale ∧
      (∀ p, (s.map p).1 = pic.padding + (p.1 - minx) * s.scale) ∧
      (∀ p, (s.map p).2 = if rev then s.height - pic.padding - (p.2 - miny) * s.scale
        else pic.padding + (p.2 - miny) * s.scale) := by
  rw [Picture.computeScale] at h
  obtain ⟨minx, h1, h⟩ := Option.bind_eq_some_iff.1 h
  obtain ⟨miny, h2, h⟩ := Option.bind_eq_some_iff.1 h
  obtain ⟨maxx, h3, h⟩ := Option.bind_eq_some_iff.1 h
  obtain ⟨maxy, h4, h⟩ := Option.bind_eq_some_iff.1 h
  obtain ⟨k, h5, rfl⟩ := Option.map_eq_some_iff.1 h
  refine ⟨minx, miny, maxx, maxy, fun e he p hp =>
    ⟨min_bound (g := Prod.fst) h1 e he p hp, max_bound (g := Prod.fst) h3 e he p hp, min_bound (g := Prod.snd) h2 e he p hp, max_bound (g := Prod.snd) h4 e he p hp⟩,
    h5, rfl, rfl, fun p => ?_, fun p => ?_⟩
  · cases rev <;> rfl
  · cases rev <;> rfl

theorem exists_point {pic : Picture} {unit : String} {rev : Bool} {s : Picture.Scaled}
    (h : pic.computeScale unit rev = some s) : ∃ e ∈ pic.elements, ∃ p, p ∈ e.points := by
  rw [Picture.computeScale] at h
  obtain ⟨minx, h1, -⟩ := Option.bind_eq_some_iff.1 h
  obtain ⟨r, hr, hm⟩ := Option.bind_eq_some_iff.1 h1
  cases hp : pic.elements with
  | nil =>
    rw [hp] at hr
    obtain rfl := Option.some.inj hr
    cases hm
  | cons e l =>
    rw [hp] at hr
    obtain ⟨b, -, hb⟩ := mapM_mem hr (List.mem_cons_self (a := e))
    refine ⟨e, by simp, ?_⟩
    cases hq : e.points with
    | nil => rw [Shape.minx, hq] at hb; cases hb
    | cons p _ => exact ⟨p, by simp⟩

/-- Lengths are multiplied by a positive number. -/
theorem scale_pos {pic : Picture} (hpos : Positive pic) {unit : String} {rev : Bool} {s : Picture.Scaled}
    (h : pic.computeScale unit rev = some s) : 0 < s.scale := by
  obtain ⟨minx, miny, maxx, maxy, hb, hs, -⟩ := computeScale_spec h
  obtain ⟨e, he, p, hp⟩ := exists_point h
  obtain ⟨b1, b2, b3, b4⟩ := hb e he p hp
  obtain ⟨k, hk, hu⟩ := Option.bind_eq_some_iff.1 hs
  have hk0 : 0 < k := by
    rw [Picture.unscaled] at hk
    obtain ⟨p1, p2, p3⟩ := hpos
    split at hk
    · rename_i s h1 _ _
      obtain rfl := Option.some.inj hk
      exact_mod_cast p1 s h1
    · cases hk
    · rename_i w _ h1 _
      split at hk
      · cases hk
      · rename_i h0
        obtain rfl := Option.some.inj hk
        have : (0 : ℝ) < w := by exact_mod_cast p2 w h1
        exact div_pos this (lt_of_le_of_ne (by linarith) (Ne.symm h0))
    · cases hk
    · rename_i w _ _ h1
      split at hk
      · cases hk
      · rename_i h0
        obtain rfl := Option.some.inj hk
        have : (0 : ℝ) < w := by exact_mod_cast p3 w h1
        exact div_pos this (lt_of_le_of_ne (by linarith) (Ne.symm h0))
    · obtain rfl := Option.some.inj hk
      norm_num
  rw [Picture.unitScale] at hu
  split at hu
  · obtain e := Option.some.inj hu
    rw [← e]; positivity
  · split at hu
    · obtain e := Option.some.inj hu
      rw [← e]; positivity
    · split at hu
      · obtain e := Option.some.inj hu
        rw [← e]; exact hk0
      · cases hu

/-- **C99.** The map to the coordinates of the output multiplies all lengths by the same positive number; the vertical axis is
reversed in the SVG format and not in TikZ. -/
theorem map_similar {pic : Picture} (hpos : Positive pic) {unit : String} {rev : Bool} {s : Picture.Scaled}
    (h : pic.computeScale unit rev = some s) :
    0 < s.scale ∧ ∀ p q : Pt, (s.map p).1 - (s.map q).1 = s.scale * (p.1 - q.1) ∧
      (s.map p).2 - (s.map q).2 = (if rev then -1 else 1) * (s.scale * (p.2 - q.2)) := by
  refine ⟨scale_pos hpos h, fun p q => ?_⟩
  obtain ⟨minx, miny, maxx, maxy, -, -, -, -, h1, h2⟩ := computeScale_spec h
  rw [h1, h1, h2, h2]
  constructor
  · ring
  · cases rev <;> simp <;> ring

/-- The points of the elements are on the canvas. -/
theorem points_on_canvas {pic : Picture} (hpos : Positive pic) {unit : String} {rev : Bool} {s : Picture.Scaled}
    (h : pic.computeScale unit rev = some s) {e : Shape} (he : e ∈ pic.elements) {p : Pt} (hp : p ∈ e.points) :
    OnCanvas s.width s.height pic.padding (s.map p) := by
  have hk := scale_pos hpos h
  obtain ⟨minx, miny, maxx, maxy, hb, -, hw, hh, h1, h2⟩ := computeScale_spec h
  obtain ⟨b1, b2, b3, b4⟩ := hb e he p hp
  have e1 := mul_le_mul_of_nonneg_right (sub_le_sub_right b2 minx) hk.le
  have e2 := mul_le_mul_of_nonneg_right (sub_le_sub_right b4 miny) hk.le
  have e3 := mul_nonneg (sub_nonneg.2 b1) hk.le
  have e4 := mul_nonneg (sub_nonneg.2 b3) hk.le
  rw [OnCanvas, h1, h2, hw]
  cases rev
  · rw [if_neg (by simp), hh]
    refine ⟨by linarith, by linarith, by linarith, by linarith⟩
  · rw [if_pos rfl, hh]
    refine ⟨by linarith, by linarith, by linarith, by linarith⟩

/-- The head of an arrow is near its end. -/
theorem arrowHead_near {s e : Pt} {w : ℝ} (hw : 0 ≤ w) {l : List Pt} (h : Picture.arrowHead s e w = some l) :
    ∀ p ∈ l, |p.1 - e.1| ≤ w / 4 * (7 / 150) ∧ |p.2 - e.2| ≤ w / 4 * (7 / 150) := by
  rw [Picture.arrowHead] at h
  simp only at h
  split at h
  · cases h
  · rename_i h0
    obtain rfl := Option.some.inj h
    set n : ℝ := √((e.1 - s.1) ^ 2 + (e.2 - s.2) ^ 2) with hn
    have hn0 : 0 < n := lt_of_le_of_ne (Real.sqrt_nonneg _) (Ne.symm h0)
    have hx : |(e.1 - s.1) / n| ≤ 1 := by
      rw [abs_div, abs_of_pos hn0, div_le_one hn0]
      exact Real.abs_le_sqrt (by nlinarith [sq_nonneg (e.2 - s.2)])
    have hy : |(e.2 - s.2) / n| ≤ 1 := by
      rw [abs_div, abs_of_pos hn0, div_le_one hn0]
      exact Real.abs_le_sqrt (by nlinarith [sq_nonneg (e.1 - s.1)])
    generalize (e.1 - s.1) / n = X at *
    generalize (e.2 - s.2) / n = Y at *
    rw [abs_le] at hx hy
    have a1 : w * X ≤ w := by nlinarith
    have a2 : -w ≤ w * X := by nlinarith
    have a3 : w * Y ≤ w := by nlinarith
    have a4 : -w ≤ w * Y := by nlinarith
    intro p hp
    rcases List.mem_cons.1 hp with rfl | hp
    · simp only [abs_le]
      refine ⟨⟨?_, ?_⟩, ?_, ?_⟩ <;> linarith
    · rcases List.mem_singleton.1 hp with rfl
      simp only [abs_le]
      refine ⟨⟨?_, ?_⟩, ?_, ?_⟩ <;> linarith

/-- **C99.** If a picture has no Bézier curves, and the heads of arrows are not too large, then everything in the SVG is on
the canvas. -/
theorem svg_on_canvas_partial {pic : Picture} (hpos : Positive pic) (hpad : 0 ≤ pic.padding) {w h : ℝ} {l : List Picture.Svg}
    (hsvg : pic.asSvg = some (w, h, l)) (hbez : ∀ e ∈ pic.elements, ∀ a b c d col wd, e ≠ .bezier a b c d col wd)
    (harrow : ∀ e ∈ pic.elements, ∀ a b col wd, e = .arrow a b col wd →
      0 ≤ wd ∧ ∀ s, pic.computeScale "px" true = some s → s.scale * (wd / 4 * (7 / 150)) ≤ pic.padding) :
    ∀ tag ∈ l, ∀ p, Draws p tag → OnCanvas w h 0 p := by
  rw [Picture.asSvg] at hsvg
  obtain ⟨s, hs, hsvg⟩ := Option.bind_eq_some_iff.1 hsvg
  obtain ⟨r, hr, e⟩ := Option.map_eq_some_iff.1 hsvg
  injection e with ew e
  injection e with eh el
  subst ew eh el
  have weak : ∀ p, OnCanvas s.width s.height pic.padding p → OnCanvas s.width s.height 0 p := fun p hp =>
    ⟨by linarith [hp.1], by linarith [hp.2.1], by linarith [hp.2.2.1], by linarith [hp.2.2.2]⟩
  intro tag htag p hp
  obtain ⟨r', hr', htag⟩ := List.mem_flatten.1 htag
  obtain ⟨e, he, hes⟩ := mapM_mem' hr hr'
  have on : ∀ q ∈ e.points, OnCanvas s.width s.height 0 (s.map q) := fun q hq => weak _ (points_on_canvas hpos hs he hq)
  cases e with
  | line a b c wd =>
    obtain rfl := Option.some.inj hes
    rcases List.mem_singleton.1 htag with rfl
    rcases hp with rfl | rfl
    · exact on _ (by simp [Shape.points])
    · exact on _ (by simp [Shape.points])
  | bezier a b c d col wd => exact absurd rfl (hbez _ he a b c d col wd)
  | arrow a b c wd =>
    obtain ⟨hd, hhd, rfl⟩ := Option.map_eq_some_iff.1 hes
    obtain ⟨hw, hlen⟩ := harrow _ he a b c wd rfl
    rcases List.mem_cons.1 htag with rfl | htag
    · rcases hp with rfl | rfl
      · exact on _ (by simp [Shape.points])
      · exact on _ (by simp [Shape.points])
    · obtain ⟨q, hq, rfl⟩ := List.mem_map.1 htag
      rcases hp with rfl | rfl
      · obtain ⟨n1, n2⟩ := arrowHead_near hw hhd q hq
        have hb := points_on_canvas hpos hs he (p := b) (by simp [Shape.points])
        obtain ⟨hk, hsim⟩ := map_similar hpos hs
        obtain ⟨m1, m2⟩ := hsim q b
        rw [if_pos rfl] at m2
        have hl := hlen s hs
        rw [abs_le] at n1 n2
        have c1 := mul_le_mul_of_nonneg_left n1.1 hk.le
        have c2 := mul_le_mul_of_nonneg_left n1.2 hk.le
        have c3 := mul_le_mul_of_nonneg_left n2.1 hk.le
        have c4 := mul_le_mul_of_nonneg_left n2.2 hk.le
        obtain ⟨b1, b2, b3, b4⟩ := hb
        exact ⟨by linarith, by linarith, by linarith, by linarith⟩
      · exact on _ (by simp [Shape.points])
  | ncircle q n c t f r =>
    obtain rfl := Option.some.inj hes
    rcases List.mem_cons.1 htag with rfl | htag
    · obtain rfl := hp
      exact on _ (by simp [Shape.points])
    · rcases List.mem_singleton.1 htag with rfl
      obtain rfl := hp
      exact on _ (by simp [Shape.points])
  | fill vs c o =>
    obtain rfl := Option.some.inj hes
    rcases List.mem_singleton.1 htag with rfl
    obtain ⟨q, hq, rfl⟩ := List.mem_map.1 hp
    exact on _ hq
  | math q t c a =>
    obtain rfl := Option.some.inj hes
    rcases List.mem_singleton.1 htag with rfl
    obtain rfl := hp
    exact on _ (by simp [Shape.points])

/-- The condition on arrows holds for the default settings. -/
theorem default_arrows {pic : Picture} (h1 : pic.scale = none) (h2 : pic.width = none) (h3 : pic.height = none)
    (h4 : pic.padding = 25) {s : Picture.Scaled} (hs : pic.computeScale "px" true = some s) :
    s.scale * (4 / 4 * (7 / 150)) ≤ pic.padding := by
  obtain ⟨_, _, _, _, -, h, -⟩ := computeScale_spec hs
  rw [Picture.unscaled, h1, h2, h3] at h
  have : (450 : ℝ) = s.scale := Option.some.inj h
  rw [← this, h4]
  norm_num

/-- **C99 is violated for Bézier curves**: for every padding and every scale, there is a curve such that a picture of it shows
points above the canvas. -/
theorem bezier_leaves_canvas (pic : Picture) (hpic : pic.elements = []) {k : ℤ} (hk : 0 < k) (hs : pic.scale = some k)
    (hw : pic.width = none) (hh : pic.height = none) (hpad : 0 ≤ pic.padding) :
    ∃ m : ℝ, ∃ e, pic.bezierShape [0, 0] [0, m] [1, m] [1, 0] "#FF8800" = some e ∧
      ∃ w h tag, (pic.add [e]).asSvg = some (w, h, [tag]) ∧ ∃ p, Draws p tag ∧ ¬ OnCanvas w h 0 p := by
  have hk0 : (0 : ℝ) < k := by exact_mod_cast hk
  set m : ℝ := 2 * (pic.padding + 1) / k with hm
  have hmk : m * k = 2 * (pic.padding + 1) := by rw [hm]; field_simp
  refine ⟨m, .bezier (0, 0) (0, m) (1, m) (1, 0) "#FF8800" 4, rfl, ?_⟩
  have hcs : (pic.add [.bezier (0, 0) (0, m) (1, m) (1, 0) "#FF8800" 4]).computeScale "px" true =
      some ⟨k, 2 * pic.padding, 2 * pic.padding + k, fun p =>
        (pic.padding + p.1 * k, 2 * pic.padding - pic.padding - p.2 * k)⟩ := by
    simp [Picture.computeScale, Picture.add, hpic, Shape.minx, Shape.miny, Shape.maxx, Shape.maxy, Shape.points, minOf, maxOf,
      Picture.unscaled, hs, hw, hh, Picture.unitScale]
  refine ⟨2 * pic.padding + k, 2 * pic.padding, _, by
    rw [Picture.asSvg, hcs]
    simp [Picture.add, hpic, Picture.shapeSvg]
    exact rfl, ?_⟩
  refine ⟨_, ⟨1 / 2, by norm_num, by norm_num, rfl⟩, fun hc => ?_⟩
  have := hc.2.2.1
  simp only [Prod.snd_add, Prod.smul_snd, smul_eq_mul] at this
  norm_num at this
  linarith

/-- A picture with a line, an arrow, a circle and a polygon. -/
noncomputable def samplePicture : Picture :=
  { axes := defaultAxes, elements := [.line (0, 0) (1, 0) "#000000" 4, .arrow (0, 0) (0, 1) "#000000" 4,
      .ncircle (1, 1) 0 "red" "#000000" "#FFFFFF" 20, .fill [(0, 0), (2, 0), (0, 3)] "red" 1] }

theorem sample_scale : ∃ s, samplePicture.computeScale "px" true = some s ∧ s.width = 950 ∧ s.height = 1400 := by
  refine ⟨_, by
    simp [Picture.computeScale, samplePicture, Shape.minx, Shape.miny, Shape.maxx, Shape.maxy, Shape.points, minOf, maxOf,
      Picture.unscaled, Picture.unitScale, List.mapM_cons]
    exact rfl, ?_, ?_⟩ <;> norm_num

/-- The sample meets the hypotheses of `svg_on_canvas_partial`. -/
example : ∃ w h l, samplePicture.asSvg = some (w, h, l) ∧ ∀ tag ∈ l, ∀ p, Draws p tag → OnCanvas w h 0 p := by
  obtain ⟨s, hs, -⟩ := sample_scale
  have : ∃ l, samplePicture.asSvg = some (s.width, s.height, l) := by
    rw [Picture.asSvg, hs]
    simp [samplePicture, Picture.shapeSvg, Picture.arrowHead, List.mapM_cons]
  obtain ⟨l, hl⟩ := this
  refine ⟨_, _, l, hl, svg_on_canvas_partial ⟨by simp [samplePicture], by simp [samplePicture], by simp [samplePicture]⟩
    (by simp [samplePicture]) hl (by simp [samplePicture]) ?_⟩
  intro e he a b col wd hea
  subst hea
  have hwd : wd = 4 := by
    simp [samplePicture] at he
    exact he.2.2.2
  subst hwd
  exact ⟨by norm_num, fun s hs => default_arrows rfl rfl rfl rfl hs⟩

/-! ### Requested sizes -/

/-- **C100.** A picture with a requested width is wider by twice the padding, and the same for heights. -/
theorem size_partial {pic : Picture} {W H : ℝ} {l : List Picture.Svg} (h : pic.asSvg = some (W, H, l)) :
    (∀ w ∈ pic.width, W = w + 2 * pic.padding) ∧ (∀ k ∈ pic.height, H = k + 2 * pic.padding) := by
  rw [Picture.asSvg] at h
  obtain ⟨s, hs, h⟩ := Option.bind_eq_some_iff.1 h
  obtain ⟨r, hr, e⟩ := Option.map_eq_some_iff.1 h
  injection e with ew e
  injection e with eh el
  obtain ⟨minx, miny, maxx, maxy, -, hsc, hw, hh, -⟩ := computeScale_spec hs
  obtain ⟨k, hk, hu⟩ := Option.bind_eq_some_iff.1 hsc
  rw [Picture.unitScale, if_neg (by decide), if_neg (by decide), if_pos rfl] at hu
  obtain rfl := Option.some.inj hu
  rw [Picture.unscaled] at hk
  constructor
  · intro w hw'
    rw [show pic.width = some w from hw'] at hk
    split at hk
    · simp at *
    · cases hk
    · rename_i w' _ e _
      obtain rfl := Option.some.inj e
      split at hk
      · cases hk
      · rename_i h0
        rw [← ew, hw, ← Option.some.inj hk]
        field_simp
        ring
    · cases hk
    · simp at *
    · simp at *
  · intro w hw'
    rw [show pic.height = some w from hw'] at hk
    split at hk
    · simp at *
    · cases hk
    · simp at *
    · cases hk
    · rename_i w' _ _ e
      obtain rfl := Option.some.inj e
      split at hk
      · cases hk
      · rename_i h0
        rw [← eh, hh, ← Option.some.inj hk]
        field_simp
        ring
    · simp at *

/-- **C100 is violated**: with padding, a picture never has the requested width or height. -/
theorem size_never_requested {pic : Picture} (hpad : pic.padding ≠ 0) {W H : ℝ} {l : List Picture.Svg}
    (h : pic.asSvg = some (W, H, l)) : (∀ w ∈ pic.width, W ≠ w) ∧ ∀ k ∈ pic.height, H ≠ k := by
  obtain ⟨h1, h2⟩ := size_partial h
  refine ⟨fun w hw e => hpad ?_, fun w hw e => hpad ?_⟩
  · have := h1 w hw; linarith
  · have := h2 w hw; linarith

example : ∃ W H l, ({ axes := defaultAxes, width := some 100, elements := [.line (0, 0) (2, 1) "#000000" 4] } : Picture).asSvg =
    some (W, H, l) ∧ W = 150 ∧ H = 100 := by
  refine ⟨_, _, _, by
    simp [Picture.asSvg, Picture.computeScale, Shape.minx, Shape.miny, Shape.maxx, Shape.maxy, Shape.points, minOf, maxOf,
      Picture.unscaled, Picture.unitScale, Picture.shapeSvg]
    exact ⟨rfl, rfl, rfl⟩, ?_, ?_⟩ <;> norm_num

/-- **C100.** PNG files have the requested width or height, and the proportions of the picture. -/
theorem png_size {pic : Picture} {s : Option ℝ} {w h : Option ℤ} {a b : ℝ} (hp : pic.pngSize s w h = some (a, b)) :
    (∀ k ∈ w, a = k) ∧ (∀ k ∈ h, b = k) ∧ (∀ W H l, pic.asSvg = some (W, H, l) → a * H = b * W ∧ ∀ k ∈ s, a = k * W ∧ b = k * H) := by
  rw [Picture.pngSize] at hp
  obtain ⟨k, hk, hp⟩ := Option.bind_eq_some_iff.1 hp
  obtain ⟨⟨W, H, l⟩, hsvg, e⟩ := Option.map_eq_some_iff.1 hp
  injection e with ea eb
  simp only at ea eb
  have hsvg' := hsvg
  rw [Picture.asSvg] at hsvg'
  obtain ⟨sc, hsc, h'⟩ := Option.bind_eq_some_iff.1 hsvg'
  obtain ⟨r, hr, e⟩ := Option.map_eq_some_iff.1 h'
  injection e with ew e
  injection e with eh el
  unfold Picture.pngScale at hk
  rw [hsc] at hk
  refine ⟨fun x hx => ?_, fun x hx => ?_, fun W' H' l' hW' => ?_⟩
  · rw [show w = some x from hx] at hk
    split at hk
    · simp at *
    · cases hk
    · rename_i e
      obtain rfl := Option.some.inj e
      simp only [Option.bind_some] at hk
      split at hk
      · cases hk
      · rename_i h0
        rw [← ea, ← Option.some.inj hk, ← ew]
        field_simp
    · cases hk
    · simp at *
    · simp at *
  · rw [show h = some x from hx] at hk
    split at hk
    · simp at *
    · cases hk
    · simp at *
    · cases hk
    · rename_i e
      obtain rfl := Option.some.inj e
      simp only [Option.bind_some] at hk
      split at hk
      · cases hk
      · rename_i h0
        rw [← eb, ← Option.some.inj hk, ← eh]
        field_simp
    · simp at *
  · rw [hsvg] at hW'
    injection hW' with e
    injection e with e1 e
    injection e with e2 e3
    subst e1 e2
    refine ⟨by rw [← ea, ← eb]; ring, fun x hx => ?_⟩
    rw [show s = some x from hx] at hk
    split at hk
    · rename_i e
      obtain rfl := Option.some.inj e
      obtain rfl := Option.some.inj hk
      exact ⟨ea.symm, eb.symm⟩
    · cases hk
    all_goals simp at *

end Verif.Plotting
