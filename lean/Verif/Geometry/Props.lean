import Verif.Geometry.Model
import Verif.Geometry.Spec
import Mathlib.Tactic.FieldSimp
import Mathlib.Tactic.Ring
import Mathlib.Tactic.Linarith
import Mathlib.Tactic.LinearCombination
import Mathlib.Tactic.Positivity
import Mathlib.Tactic.FinCases
import Mathlib.Data.Fin.VecNotation
/-!
# Properties of the point-in-cell tests (C14, C15)
-/

set_option linter.unusedSectionVars false

namespace Verif.Geometry

variable {K : Type} [Field K] [LinearOrder K] [IsStrictOrderedRing K]

/-! ## Interval -/

/-- **C14, interval.** -/
theorem pointInInterval_iff (p a b : Fin 1 → K) (h : a 0 ≠ b 0) :
    pointInInterval (tup p) [tup a, tup b] = true ↔ InHull p ![a, b] := by
  have hba : b 0 - a 0 ≠ 0 := sub_ne_zero.2 (Ne.symm h)
  have hm : pointInInterval (tup p) [tup a, tup b] = true ↔
      0 ≤ (p 0 - a 0) / (b 0 - a 0) ∧ (p 0 - a 0) / (b 0 - a 0) ≤ 1 := by
    simp [pointInInterval, tup, vertex, vsub, at']
  rw [hm]
  constructor
  · rintro ⟨h0, h1⟩
    refine ⟨![1 - (p 0 - a 0) / (b 0 - a 0), (p 0 - a 0) / (b 0 - a 0)], ?_, ?_, ?_⟩
    · intro i; fin_cases i
      · simpa using h1
      · simpa using h0
    · simp
    · intro j; fin_cases j
      simp
      field_simp
      ring
  · rintro ⟨lam, h0, h1, h2⟩
    have h2' := h2 0
    simp only [Fin.sum_univ_two] at h1 h2'
    simp at h2'
    have e : (p 0 - a 0) / (b 0 - a 0) = lam 1 := by
      rw [div_eq_iff hba, h2']
      linear_combination a 0 * h1
    rw [e]
    exact ⟨h0 1, by linarith [h0 0]⟩

/-! ## Triangle -/

/-- The coordinates computed by `point_in_triangle`, for inner products that come from a point in the
plane of the triangle. -/
theorem gram2 {d00 d01 d11 d02 d12 s t : K} (hdet : d00 * d11 - d01 * d01 ≠ 0)
    (h0 : d02 = s * d00 + t * d01) (h1 : d12 = s * d01 + t * d11) :
    (d11 * d02 - d01 * d12) / (d00 * d11 - d01 * d01) = s ∧
      (d00 * d12 - d01 * d02) / (d00 * d11 - d01 * d01) = t := by
  constructor
  · rw [div_eq_iff hdet, h0, h1]; ring
  · rw [div_eq_iff hdet, h0, h1]; ring

/-- Conversely, the computed coordinates solve the normal equations. -/
theorem gram2' {d00 d01 d11 d02 d12 : K} (hdet : d00 * d11 - d01 * d01 ≠ 0) :
    let u := (d11 * d02 - d01 * d12) / (d00 * d11 - d01 * d01)
    let v := (d00 * d12 - d01 * d02) / (d00 * d11 - d01 * d01)
    d02 = u * d00 + v * d01 ∧ d12 = u * d01 + v * d11 := by
  intro u v
  constructor
  · simp only [u, v]
    rw [div_mul_eq_mul_div, div_mul_eq_mul_div, ← add_div, eq_div_iff hdet]; ring
  · simp only [u, v]
    rw [div_mul_eq_mul_div, div_mul_eq_mul_div, ← add_div, eq_div_iff hdet]; ring

/-- Inner products of differences of points, as computed by the code. -/
theorem vdot_tup2 (a b c d : Fin 2 → K) :
    vdot (vsub (tup a) (tup b)) (vsub (tup c) (tup d)) =
      (a 0 - b 0) * (c 0 - d 0) + (a 1 - b 1) * (c 1 - d 1) := by
  simp [vdot, vsub, tup]

/-- Inner products of differences of points, as computed by the code. -/
theorem vdot_tup3 (a b c d : Fin 3 → K) :
    vdot (vsub (tup a) (tup b)) (vsub (tup c) (tup d)) =
      (a 0 - b 0) * (c 0 - d 0) + (a 1 - b 1) * (c 1 - d 1) + (a 2 - b 2) * (c 2 - d 2) := by
  simp [vdot, vsub, tup]

/-- **C14, triangle in the plane.** -/
theorem pointInTriangle_iff (p a b c : Fin 2 → K) (h : area2 a b c ≠ 0) :
    pointInTriangle (tup p) [tup a, tup b, tup c] = true ↔ InHull p ![a, b, c] := by
  have hv : vertex [tup a, tup b, tup c] 0 = tup a ∧ vertex [tup a, tup b, tup c] 1 = tup b ∧
    vertex [tup a, tup b, tup c] 2 = tup c := ⟨rfl, rfl, rfl⟩
  simp only [pointInTriangle, hv.1, hv.2.1, hv.2.2, vdot_tup2, Bool.and_eq_true, decide_eq_true_eq]
  have hdet : ((c 0 - a 0) * (c 0 - a 0) + (c 1 - a 1) * (c 1 - a 1)) *
      ((b 0 - a 0) * (b 0 - a 0) + (b 1 - a 1) * (b 1 - a 1)) -
      ((c 0 - a 0) * (b 0 - a 0) + (c 1 - a 1) * (b 1 - a 1)) *
      ((c 0 - a 0) * (b 0 - a 0) + (c 1 - a 1) * (b 1 - a 1)) ≠ 0 := by
    have : ((c 0 - a 0) * (c 0 - a 0) + (c 1 - a 1) * (c 1 - a 1)) *
      ((b 0 - a 0) * (b 0 - a 0) + (b 1 - a 1) * (b 1 - a 1)) -
      ((c 0 - a 0) * (b 0 - a 0) + (c 1 - a 1) * (b 1 - a 1)) *
      ((c 0 - a 0) * (b 0 - a 0) + (c 1 - a 1) * (b 1 - a 1)) = area2 a b c ^ 2 := by
      unfold area2; ring
    rw [this]; exact pow_ne_zero 2 h
  constructor
  · -- the point always has coordinates; they are the computed ones
    obtain ⟨s, t, e0, e1⟩ : ∃ s t : K, p 0 - a 0 = s * (c 0 - a 0) + t * (b 0 - a 0) ∧
        p 1 - a 1 = s * (c 1 - a 1) + t * (b 1 - a 1) := by
      refine ⟨((b 0 - a 0) * (p 1 - a 1) - (b 1 - a 1) * (p 0 - a 0)) / area2 a b c,
        ((p 0 - a 0) * (c 1 - a 1) - (p 1 - a 1) * (c 0 - a 0)) / area2 a b c, ?_, ?_⟩
      · rw [div_mul_eq_mul_div, div_mul_eq_mul_div, ← add_div, eq_div_iff h]; unfold area2; ring
      · rw [div_mul_eq_mul_div, div_mul_eq_mul_div, ← add_div, eq_div_iff h]; unfold area2; ring
    obtain ⟨hu, hw⟩ := gram2 hdet (s := s) (t := t)
      (d02 := (c 0 - a 0) * (p 0 - a 0) + (c 1 - a 1) * (p 1 - a 1))
      (d12 := (b 0 - a 0) * (p 0 - a 0) + (b 1 - a 1) * (p 1 - a 1))
      (by rw [e0, e1]; ring) (by rw [e0, e1]; ring)
    rw [hu, hw]
    rintro ⟨⟨hs, ht⟩, hst⟩
    refine ⟨![1 - s - t, t, s], ?_, ?_, ?_⟩
    · intro i; fin_cases i
      · simp; linarith
      · simpa using ht
      · simpa using hs
    · simp [Fin.sum_univ_three]
    · intro j
      rw [Fin.sum_univ_three]
      change p j = (1 - s - t) * a j + t * b j + s * c j
      fin_cases j
      · change p 0 = (1 - s - t) * a 0 + t * b 0 + s * c 0
        linear_combination e0
      · change p 1 = (1 - s - t) * a 1 + t * b 1 + s * c 1
        linear_combination e1
  · rintro ⟨lam, hlam, hsum, hp⟩
    simp only [Fin.sum_univ_three] at hsum hp
    have p0 : p 0 = lam 0 * a 0 + lam 1 * b 0 + lam 2 * c 0 := hp 0
    have p1 : p 1 = lam 0 * a 1 + lam 1 * b 1 + lam 2 * c 1 := hp 1
    obtain ⟨hu, hw⟩ := gram2 hdet (s := lam 2) (t := lam 1)
      (d02 := (c 0 - a 0) * (p 0 - a 0) + (c 1 - a 1) * (p 1 - a 1))
      (d12 := (b 0 - a 0) * (p 0 - a 0) + (b 1 - a 1) * (p 1 - a 1))
      (by rw [p0, p1]; linear_combination ((c 0 - a 0) * a 0 + (c 1 - a 1) * a 1) * hsum)
      (by rw [p0, p1]; linear_combination ((b 0 - a 0) * a 0 + (b 1 - a 1) * a 1) * hsum)
    rw [hu, hw]
    exact ⟨⟨hlam 2, hlam 1⟩, by linarith [hlam 0]⟩

/-- **C14, triangle in space.** The test decides whether the orthogonal projection `q` of the point
onto the plane of the triangle lies in the triangle. -/
theorem pointInTriangle_3d_iff (p a b c : Fin 3 → K)
    (h : inner' (c - a) (c - a) * inner' (b - a) (b - a) - inner' (c - a) (b - a) ^ 2 ≠ 0) :
    pointInTriangle (tup p) [tup a, tup b, tup c] = true ↔
      ∃ q : Fin 3 → K, InHull q ![a, b, c] ∧ inner' (p - q) (b - a) = 0 ∧
        inner' (p - q) (c - a) = 0 := by
  have hv : vertex [tup a, tup b, tup c] 0 = tup a ∧ vertex [tup a, tup b, tup c] 1 = tup b ∧
    vertex [tup a, tup b, tup c] 2 = tup c := ⟨rfl, rfl, rfl⟩
  simp only [pointInTriangle, hv.1, hv.2.1, hv.2.2, vdot_tup3, Bool.and_eq_true, decide_eq_true_eq]
  simp only [inner', Fin.sum_univ_three, Pi.sub_apply] at h ⊢
  have hdet : ((c 0 - a 0) * (c 0 - a 0) + (c 1 - a 1) * (c 1 - a 1) + (c 2 - a 2) * (c 2 - a 2)) *
      ((b 0 - a 0) * (b 0 - a 0) + (b 1 - a 1) * (b 1 - a 1) + (b 2 - a 2) * (b 2 - a 2)) -
      ((c 0 - a 0) * (b 0 - a 0) + (c 1 - a 1) * (b 1 - a 1) + (c 2 - a 2) * (b 2 - a 2)) *
      ((c 0 - a 0) * (b 0 - a 0) + (c 1 - a 1) * (b 1 - a 1) + (c 2 - a 2) * (b 2 - a 2)) ≠ 0 := by
    rw [← pow_two (_ + _)]; exact h
  constructor
  · obtain ⟨h0, h1⟩ := gram2' hdet
      (d02 := (c 0 - a 0) * (p 0 - a 0) + (c 1 - a 1) * (p 1 - a 1) + (c 2 - a 2) * (p 2 - a 2))
      (d12 := (b 0 - a 0) * (p 0 - a 0) + (b 1 - a 1) * (p 1 - a 1) + (b 2 - a 2) * (p 2 - a 2))
    revert h0 h1
    generalize (_ / _ : K) = u
    generalize (_ / _ : K) = v
    rintro h0 h1 ⟨⟨hu, hv⟩, huv⟩
    refine ⟨fun j => (1 - u - v) * a j + v * b j + u * c j, ⟨![1 - u - v, v, u], ?_, ?_, ?_⟩, ?_, ?_⟩
    · intro i; fin_cases i
      · simp; linarith
      · simpa using hv
      · simpa using hu
    · simp [Fin.sum_univ_three]
    · intro j; rw [Fin.sum_univ_three]; rfl
    · linear_combination h1
    · linear_combination h0
  · rintro ⟨q, ⟨lam, hlam, hsum, hq⟩, hb, hc⟩
    simp only [Fin.sum_univ_three] at hsum hq
    have q0 : q 0 = lam 0 * a 0 + lam 1 * b 0 + lam 2 * c 0 := hq 0
    have q1 : q 1 = lam 0 * a 1 + lam 1 * b 1 + lam 2 * c 1 := hq 1
    have q2 : q 2 = lam 0 * a 2 + lam 1 * b 2 + lam 2 * c 2 := hq 2
    rw [q0, q1, q2] at hb hc
    obtain ⟨hu, hw⟩ := gram2 hdet (s := lam 2) (t := lam 1)
      (d02 := (c 0 - a 0) * (p 0 - a 0) + (c 1 - a 1) * (p 1 - a 1) + (c 2 - a 2) * (p 2 - a 2))
      (d12 := (b 0 - a 0) * (p 0 - a 0) + (b 1 - a 1) * (p 1 - a 1) + (b 2 - a 2) * (p 2 - a 2))
      (by linear_combination hc +
            ((c 0 - a 0) * a 0 + (c 1 - a 1) * a 1 + (c 2 - a 2) * a 2) * hsum)
      (by linear_combination hb +
            ((b 0 - a 0) * a 0 + (b 1 - a 1) * a 1 + (b 2 - a 2) * a 2) * hsum)
    rw [hu, hw]
    exact ⟨⟨hlam 2, hlam 1⟩, by linarith [hlam 0]⟩

/-! ## Tetrahedron -/

theorem gram3 {d00 d01 d02 d11 d12 d22 d03 d13 d23 r s t : K}
    (hdet : d00 * (d11 * d22 - d12 * d12) + d01 * (d02 * d12 - d01 * d22)
      + d02 * (d01 * d12 - d11 * d02) ≠ 0)
    (h0 : d03 = r * d00 + s * d01 + t * d02) (h1 : d13 = r * d01 + s * d11 + t * d12)
    (h2 : d23 = r * d02 + s * d12 + t * d22) :
    ((d11 * d22 - d12 * d12) * d03 + (d02 * d12 - d01 * d22) * d13
      + (d01 * d12 - d02 * d11) * d23) / (d00 * (d11 * d22 - d12 * d12)
      + d01 * (d02 * d12 - d01 * d22) + d02 * (d01 * d12 - d11 * d02)) = r ∧
    ((d12 * d02 - d01 * d22) * d03 + (d00 * d22 - d02 * d02) * d13
      + (d02 * d01 - d00 * d12) * d23) / (d00 * (d11 * d22 - d12 * d12)
      + d01 * (d02 * d12 - d01 * d22) + d02 * (d01 * d12 - d11 * d02)) = s ∧
    ((d01 * d12 - d11 * d02) * d03 + (d01 * d02 - d00 * d12) * d13
      + (d00 * d11 - d01 * d01) * d23) / (d00 * (d11 * d22 - d12 * d12)
      + d01 * (d02 * d12 - d01 * d22) + d02 * (d01 * d12 - d11 * d02)) = t := by
  refine ⟨?_, ?_, ?_⟩ <;> rw [div_eq_iff hdet, h0, h1, h2] <;> ring

/-- **C14, tetrahedron.** -/
theorem pointInTetrahedron_iff (p a b c d : Fin 3 → K) (h : volume6 a b c d ≠ 0) :
    pointInTetrahedron (tup p) [tup a, tup b, tup c, tup d] = true ↔ InHull p ![a, b, c, d] := by
  have hv : vertex [tup a, tup b, tup c, tup d] 0 = tup a ∧
    vertex [tup a, tup b, tup c, tup d] 1 = tup b ∧
    vertex [tup a, tup b, tup c, tup d] 2 = tup c ∧
    vertex [tup a, tup b, tup c, tup d] 3 = tup d := ⟨rfl, rfl, rfl, rfl⟩
  simp only [pointInTetrahedron, hv.1, hv.2.1, hv.2.2.1, hv.2.2.2, vdot_tup3, Bool.and_eq_true,
    decide_eq_true_eq]
  -- edge vectors
  obtain ⟨b0, hb0⟩ : ∃ e, e = b 0 - a 0 := ⟨_, rfl⟩
  obtain ⟨b1, hb1⟩ : ∃ e, e = b 1 - a 1 := ⟨_, rfl⟩
  obtain ⟨b2, hb2⟩ : ∃ e, e = b 2 - a 2 := ⟨_, rfl⟩
  obtain ⟨c0, hc0⟩ : ∃ e, e = c 0 - a 0 := ⟨_, rfl⟩
  obtain ⟨c1, hc1⟩ : ∃ e, e = c 1 - a 1 := ⟨_, rfl⟩
  obtain ⟨c2, hc2⟩ : ∃ e, e = c 2 - a 2 := ⟨_, rfl⟩
  obtain ⟨d0, hd0⟩ : ∃ e, e = d 0 - a 0 := ⟨_, rfl⟩
  obtain ⟨d1, hd1⟩ : ∃ e, e = d 1 - a 1 := ⟨_, rfl⟩
  obtain ⟨d2, hd2⟩ : ∃ e, e = d 2 - a 2 := ⟨_, rfl⟩
  obtain ⟨p0, hp0⟩ : ∃ e, e = p 0 - a 0 := ⟨_, rfl⟩
  obtain ⟨p1, hp1⟩ : ∃ e, e = p 1 - a 1 := ⟨_, rfl⟩
  obtain ⟨p2, hp2⟩ : ∃ e, e = p 2 - a 2 := ⟨_, rfl⟩
  have hvol : volume6 a b c d = b0 * (c1 * d2 - c2 * d1) - b1 * (c0 * d2 - c2 * d0)
      + b2 * (c0 * d1 - c1 * d0) := by
    rw [volume6, ← hb0, ← hb1, ← hb2, ← hc0, ← hc1, ← hc2, ← hd0, ← hd1, ← hd2]
  rw [hvol] at h
  rw [← hb0, ← hb1, ← hb2, ← hc0, ← hc1, ← hc2, ← hd0, ← hd1, ← hd2, ← hp0, ← hp1, ← hp2]
  have hdet : (d0 * d0 + d1 * d1 + d2 * d2) * ((c0 * c0 + c1 * c1 + c2 * c2) *
        (b0 * b0 + b1 * b1 + b2 * b2) - (c0 * b0 + c1 * b1 + c2 * b2) *
        (c0 * b0 + c1 * b1 + c2 * b2)) +
      (d0 * c0 + d1 * c1 + d2 * c2) * ((d0 * b0 + d1 * b1 + d2 * b2) *
        (c0 * b0 + c1 * b1 + c2 * b2) - (d0 * c0 + d1 * c1 + d2 * c2) *
        (b0 * b0 + b1 * b1 + b2 * b2)) +
      (d0 * b0 + d1 * b1 + d2 * b2) * ((d0 * c0 + d1 * c1 + d2 * c2) *
        (c0 * b0 + c1 * b1 + c2 * b2) - (c0 * c0 + c1 * c1 + c2 * c2) *
        (d0 * b0 + d1 * b1 + d2 * b2)) ≠ 0 := by
    have e : (d0 * d0 + d1 * d1 + d2 * d2) * ((c0 * c0 + c1 * c1 + c2 * c2) *
        (b0 * b0 + b1 * b1 + b2 * b2) - (c0 * b0 + c1 * b1 + c2 * b2) *
        (c0 * b0 + c1 * b1 + c2 * b2)) +
      (d0 * c0 + d1 * c1 + d2 * c2) * ((d0 * b0 + d1 * b1 + d2 * b2) *
        (c0 * b0 + c1 * b1 + c2 * b2) - (d0 * c0 + d1 * c1 + d2 * c2) *
        (b0 * b0 + b1 * b1 + b2 * b2)) +
      (d0 * b0 + d1 * b1 + d2 * b2) * ((d0 * c0 + d1 * c1 + d2 * c2) *
        (c0 * b0 + c1 * b1 + c2 * b2) - (c0 * c0 + c1 * c1 + c2 * c2) *
        (d0 * b0 + d1 * b1 + d2 * b2)) =
      (b0 * (c1 * d2 - c2 * d1) - b1 * (c0 * d2 - c2 * d0) + b2 * (c0 * d1 - c1 * d0)) ^ 2 := by
      ring
    rw [e]; exact pow_ne_zero 2 h
  constructor
  · obtain ⟨r, s, t, e0, e1, e2⟩ : ∃ r s t : K, p0 = r * d0 + s * c0 + t * b0 ∧
        p1 = r * d1 + s * c1 + t * b1 ∧ p2 = r * d2 + s * c2 + t * b2 := by
      refine ⟨(b0 * (c1 * p2 - c2 * p1) - b1 * (c0 * p2 - c2 * p0) + b2 * (c0 * p1 - c1 * p0)) /
          (b0 * (c1 * d2 - c2 * d1) - b1 * (c0 * d2 - c2 * d0) + b2 * (c0 * d1 - c1 * d0)),
        (b0 * (p1 * d2 - p2 * d1) - b1 * (p0 * d2 - p2 * d0) + b2 * (p0 * d1 - p1 * d0)) /
          (b0 * (c1 * d2 - c2 * d1) - b1 * (c0 * d2 - c2 * d0) + b2 * (c0 * d1 - c1 * d0)),
        (p0 * (c1 * d2 - c2 * d1) - p1 * (c0 * d2 - c2 * d0) + p2 * (c0 * d1 - c1 * d0)) /
          (b0 * (c1 * d2 - c2 * d1) - b1 * (c0 * d2 - c2 * d0) + b2 * (c0 * d1 - c1 * d0)),
        ?_, ?_, ?_⟩ <;>
      · rw [div_mul_eq_mul_div, div_mul_eq_mul_div, div_mul_eq_mul_div, ← add_div, ← add_div,
          eq_div_iff h]
        ring
    obtain ⟨hr, hs, ht⟩ := gram3 hdet (r := r) (s := s) (t := t)
      (d03 := d0 * p0 + d1 * p1 + d2 * p2) (d13 := c0 * p0 + c1 * p1 + c2 * p2)
      (d23 := b0 * p0 + b1 * p1 + b2 * p2)
      (by rw [e0, e1, e2]; ring) (by rw [e0, e1, e2]; ring) (by rw [e0, e1, e2]; ring)
    rw [hr, hs, ht]
    rintro ⟨⟨⟨h1, h2⟩, h3⟩, h4⟩
    refine ⟨![1 - r - s - t, t, s, r], ?_, ?_, ?_⟩
    · intro i; fin_cases i
      · simp; linarith
      · simpa using h3
      · simpa using h2
      · simpa using h1
    · simp [Fin.sum_univ_four]
    · intro j
      rw [Fin.sum_univ_four]
      fin_cases j
      · change p 0 = (1 - r - s - t) * a 0 + t * b 0 + s * c 0 + r * d 0
        linear_combination e0 - hp0 + r * hd0 + s * hc0 + t * hb0
      · change p 1 = (1 - r - s - t) * a 1 + t * b 1 + s * c 1 + r * d 1
        linear_combination e1 - hp1 + r * hd1 + s * hc1 + t * hb1
      · change p 2 = (1 - r - s - t) * a 2 + t * b 2 + s * c 2 + r * d 2
        linear_combination e2 - hp2 + r * hd2 + s * hc2 + t * hb2
  · rintro ⟨lam, hlam, hsum, hp⟩
    simp only [Fin.sum_univ_four] at hsum hp
    have q0 : p 0 = lam 0 * a 0 + lam 1 * b 0 + lam 2 * c 0 + lam 3 * d 0 := hp 0
    have q1 : p 1 = lam 0 * a 1 + lam 1 * b 1 + lam 2 * c 1 + lam 3 * d 1 := hp 1
    have q2 : p 2 = lam 0 * a 2 + lam 1 * b 2 + lam 2 * c 2 + lam 3 * d 2 := hp 2
    have e0 : p0 = lam 3 * d0 + lam 2 * c0 + lam 1 * b0 := by
      rw [hp0, hd0, hc0, hb0, q0]; linear_combination a 0 * hsum
    have e1 : p1 = lam 3 * d1 + lam 2 * c1 + lam 1 * b1 := by
      rw [hp1, hd1, hc1, hb1, q1]; linear_combination a 1 * hsum
    have e2 : p2 = lam 3 * d2 + lam 2 * c2 + lam 1 * b2 := by
      rw [hp2, hd2, hc2, hb2, q2]; linear_combination a 2 * hsum
    obtain ⟨hr, hs, ht⟩ := gram3 hdet (r := lam 3) (s := lam 2) (t := lam 1)
      (d03 := d0 * p0 + d1 * p1 + d2 * p2) (d13 := c0 * p0 + c1 * p1 + c2 * p2)
      (d23 := b0 * p0 + b1 * p1 + b2 * p2)
      (by rw [e0, e1, e2]; ring) (by rw [e0, e1, e2]; ring) (by rw [e0, e1, e2]; ring)
    rw [hr, hs, ht]
    exact ⟨⟨⟨hlam 3, hlam 2⟩, hlam 1⟩, by linarith [hlam 0]⟩

/-! ## Quadrilateral -/

/-- The four numbers computed by `point_in_quadrilateral` are twice signed areas. -/
theorem pointInQuadrilateral_eq (p q0 q1 q2 q3 : Fin 2 → K) :
    pointInQuadrilateral (tup p) [tup q0, tup q1, tup q2, tup q3] = true ↔
      0 ≤ area2 q0 q1 p ∧ 0 ≤ area2 q2 q0 p ∧ 0 ≤ area2 q1 q3 p ∧ 0 ≤ area2 q3 q2 p := by
  have hv : vertex [tup q0, tup q1, tup q2, tup q3] 0 = tup q0 ∧
    vertex [tup q0, tup q1, tup q2, tup q3] 1 = tup q1 ∧
    vertex [tup q0, tup q1, tup q2, tup q3] 2 = tup q2 ∧
    vertex [tup q0, tup q1, tup q2, tup q3] 3 = tup q3 := ⟨rfl, rfl, rfl, rfl⟩
  have key : ∀ a b : Fin 2 → K,
      vdot [-(at' (vsub (tup b) (tup a)) 1), at' (vsub (tup b) (tup a)) 0]
        (vsub (tup p) (tup a)) = area2 a b p := by
    intro a b
    simp [vdot, vsub, tup, at', area2]
    ring
  simp only [pointInQuadrilateral, hv.1, hv.2.1, hv.2.2.1, hv.2.2.2, key, Bool.and_eq_true,
    decide_eq_true_eq, ge_iff_le, and_assoc]

/-- A quadrilateral with corners `q0 q1 q3 q2` in anticlockwise order, strictly convex: each edge has
the other two corners strictly on its left. -/
def ConvexPositive (q0 q1 q2 q3 : Fin 2 → K) : Prop :=
  0 < area2 q0 q1 q3 ∧ 0 < area2 q0 q1 q2 ∧ 0 < area2 q1 q3 q2 ∧ 0 < area2 q1 q3 q0 ∧
  0 < area2 q3 q2 q0 ∧ 0 < area2 q3 q2 q1 ∧ 0 < area2 q2 q0 q1 ∧ 0 < area2 q2 q0 q3

/-- The signed area is affine in the last corner. -/
theorem area2_combination (a b p v0 v1 v2 v3 : Fin 2 → K) (l0 l1 l2 l3 : K)
    (hs : l0 + l1 + l2 + l3 = 1)
    (hp : ∀ j, p j = l0 * v0 j + l1 * v1 j + l2 * v2 j + l3 * v3 j) :
    area2 a b p = l0 * area2 a b v0 + l1 * area2 a b v1 + l2 * area2 a b v2 + l3 * area2 a b v3 := by
  unfold area2
  rw [hp 0, hp 1]
  linear_combination ((b 0 - a 0) * a 1 - (b 1 - a 1) * a 0) * hs

/-- **C15.** For every strictly convex, positively oriented quadrilateral (in particular every
positively oriented parallelogram) the test decides membership. -/
theorem pointInQuadrilateral_iff (p q0 q1 q2 q3 : Fin 2 → K) (h : ConvexPositive q0 q1 q2 q3) :
    pointInQuadrilateral (tup p) [tup q0, tup q1, tup q2, tup q3] = true ↔
      InHull p ![q0, q1, q2, q3] := by
  rw [pointInQuadrilateral_eq]
  obtain ⟨h1, h2, h3, h4, h5, h6, h7, h8⟩ := h
  have self : ∀ a b : Fin 2 → K, area2 a b a = 0 ∧ area2 a b b = 0 := by
    intro a b; unfold area2; constructor <;> ring
  constructor
  · rintro ⟨g0, g1, g2, g3⟩
    rcases le_total 0 (area2 q3 q0 p) with g | g
    · -- the triangle q0 q1 q3
      have hA : area2 q0 q1 q3 ≠ 0 := ne_of_gt h1
      refine ⟨![area2 q1 q3 p / area2 q0 q1 q3, area2 q3 q0 p / area2 q0 q1 q3, 0,
        area2 q0 q1 p / area2 q0 q1 q3], ?_, ?_, ?_⟩
      · intro i; fin_cases i
        · simp; positivity
        · simp; positivity
        · simp
        · simp; positivity
      · simp [Fin.sum_univ_four]
        rw [← add_div, ← add_div, div_eq_one_iff_eq hA]
        unfold area2; ring
      · intro j
        rw [Fin.sum_univ_four]
        change p j = area2 q1 q3 p / area2 q0 q1 q3 * q0 j + area2 q3 q0 p / area2 q0 q1 q3 * q1 j + 0 * q2 j +
          area2 q0 q1 p / area2 q0 q1 q3 * q3 j
        rw [zero_mul, add_zero, div_mul_eq_mul_div, div_mul_eq_mul_div, div_mul_eq_mul_div, ← add_div, ← add_div,
          eq_div_iff hA]
        fin_cases j <;> simp [area2] <;> ring
    · -- the triangle q0 q3 q2
      have g' : 0 ≤ area2 q0 q3 p := by
        have : area2 q0 q3 p = - area2 q3 q0 p := by unfold area2; ring
        rw [this]; linarith
      have hA : area2 q3 q2 q0 ≠ 0 := ne_of_gt h5
      refine ⟨![area2 q3 q2 p / area2 q3 q2 q0, 0, area2 q0 q3 p / area2 q3 q2 q0,
        area2 q2 q0 p / area2 q3 q2 q0], ?_, ?_, ?_⟩
      · intro i; fin_cases i
        · simp; positivity
        · simp
        · simp; positivity
        · simp; positivity
      · simp [Fin.sum_univ_four]
        rw [← add_div, ← add_div, div_eq_one_iff_eq hA]
        unfold area2; ring
      · intro j
        rw [Fin.sum_univ_four]
        change p j = area2 q3 q2 p / area2 q3 q2 q0 * q0 j + 0 * q1 j + area2 q0 q3 p / area2 q3 q2 q0 * q2 j +
          area2 q2 q0 p / area2 q3 q2 q0 * q3 j
        rw [zero_mul, add_zero, div_mul_eq_mul_div, div_mul_eq_mul_div, div_mul_eq_mul_div, ← add_div, ← add_div,
          eq_div_iff hA]
        fin_cases j <;> simp [area2] <;> ring
  · rintro ⟨lam, hlam, hsum, hp⟩
    simp only [Fin.sum_univ_four] at hsum hp
    have hp' : ∀ j, p j = lam 0 * q0 j + lam 1 * q1 j + lam 2 * q2 j + lam 3 * q3 j := by
      intro j; exact hp j
    have l0 := hlam 0
    have l1 := hlam 1
    have l2 := hlam 2
    have l3 := hlam 3
    refine ⟨?_, ?_, ?_, ?_⟩ <;>
      rw [area2_combination _ _ p q0 q1 q2 q3 _ _ _ _ hsum hp'] <;>
      simp only [self] <;> positivity

/-- **C15.** For a parallelogram given with negative orientation, the test is `False` for every point,
so in particular at the points of the cell. -/
theorem pointInQuadrilateral_negative (p q0 q1 q2 q3 : Fin 2 → K)
    (hpar : ∀ j, q3 j = q1 j + q2 j - q0 j) (h : area2 q0 q1 q2 < 0) :
    pointInQuadrilateral (tup p) [tup q0, tup q1, tup q2, tup q3] = false := by
  rw [Bool.eq_false_iff]
  intro ht
  obtain ⟨g0, g1, g2, g3⟩ := (pointInQuadrilateral_eq p q0 q1 q2 q3).1 ht
  have : area2 q0 q1 p + area2 q3 q2 p = area2 q0 q1 q2 := by
    unfold area2; rw [hpar 0, hpar 1]; ring
  linarith

/-- A positively oriented parallelogram is convex and positively oriented. -/
theorem parallelogram_convexPositive (q0 q1 q2 q3 : Fin 2 → K)
    (hpar : ∀ j, q3 j = q1 j + q2 j - q0 j) (h : 0 < area2 q0 q1 q2) :
    ConvexPositive q0 q1 q2 q3 := by
  unfold ConvexPositive area2 at *
  rw [hpar 0, hpar 1]
  refine ⟨?_, ?_, ?_, ?_, ?_, ?_, ?_, ?_⟩ <;> nlinarith

/-! ### Concrete cases -/

example : area2 ![(0 : ℚ), 0] ![2, 0] ![1, 3] ≠ 0 := by norm_num [area2]
example : ConvexPositive ![(0 : ℚ), 0] ![2, 0] ![0, 1] ![3, 4] := by
  unfold ConvexPositive area2; norm_num
example : volume6 ![(0 : ℚ), 0, 0] ![1, 0, 0] ![1, 2, 0] ![0, 1, 3] ≠ 0 := by
  unfold volume6; decide +kernel
example : pointInTriangle (K := ℚ) [1, 1] [[0, 0], [2, 0], [1, 3]] = true := by decide +kernel
example : pointInTriangle (K := ℚ) [2, 1] [[0, 0], [2, 0], [1, 3]] = false := by decide +kernel
example : pointInQuadrilateral (K := ℚ) [1, 1] [[0, 0], [2, 0], [0, 1], [3, 4]] = true := by
  decide +kernel

end Verif.Geometry
