import Verif.Dual.Model

/-!
# The triangles of a dual polygon (C64)

Two of the triangles meet in a common edge or in the origin.
-/

namespace Verif.Dual

open Real Verif.References

/-- The distances of the vertices from the origin. -/
noncomputable def rad (n i : ℕ) : ℝ := if i % 2 = 0 then 1 else cos (π / n)

theorem vertex_polar {n : ℕ} (hn : 0 < n) (i : ℕ) :
    dualVertex n i 0 = rad n i * cos (i * (π / n)) ∧ dualVertex n i 1 = rad n i * sin (i * (π / n)) := by
  have h0 : (n : ℝ) ≠ 0 := by exact_mod_cast hn.ne'
  rcases Nat.mod_two_eq_zero_or_one i with h | h
  · obtain ⟨q, rfl⟩ : ∃ q, i = 2 * q := ⟨i / 2, by omega⟩
    have e : π * 2 * ((2 * q / 2 : ℕ) : ℝ) / n = ((2 * q : ℕ) : ℝ) * (π / n) := by
      rw [Nat.mul_div_cancel_left _ two_pos]; push_cast; ring
    simp only [dualVertex, rad, h, if_true, e]
    simp [coords]
  · obtain ⟨q, rfl⟩ : ∃ q, i = 2 * q + 1 := ⟨i / 2, by omega⟩
    have e0 : (2 * q + 1) / 2 = q := by omega
    have e1 : π * 2 * (q : ℝ) / n = ((2 * q + 1 : ℕ) : ℝ) * (π / n) - π / n := by push_cast; ring
    have e2 : π * 2 * ((q : ℝ) + 1) / n = ((2 * q + 1 : ℕ) : ℝ) * (π / n) + π / n := by push_cast; field_simp; ring
    simp only [dualVertex, rad, h, e0, e1, e2, if_neg one_ne_zero]
    simp only [coords, List.getD_cons_zero, List.getD_cons_succ, cos_add, cos_sub, sin_add, sin_sub]
    constructor <;> ring

theorem angle_pos {n : ℕ} (hn : 3 ≤ n) : 0 < π / n ∧ (n : ℝ) * (π / n) = π ∧ π / n < π / 2 := by
  have h3 : (3 : ℝ) ≤ n := by exact_mod_cast hn
  have h0 : (0 : ℝ) < n := by linarith
  refine ⟨div_pos pi_pos h0, by field_simp, ?_⟩
  rw [div_lt_div_iff_of_pos_left pi_pos h0 two_pos]
  linarith

theorem rad_pos {n : ℕ} (hn : 3 ≤ n) (i : ℕ) : 0 < rad n i := by
  obtain ⟨a, -, b⟩ := angle_pos hn
  rw [rad]
  split_ifs
  · exact one_pos
  · exact cos_pos_of_mem_Ioo ⟨by linarith [pi_pos], b⟩

theorem vertex_period {n : ℕ} (hn : 0 < n) (i : ℕ) {r : ℕ} (hr : r < 2) :
    dualVertex n (i + 2 * n) r = dualVertex n i r := by
  have h0 : (n : ℝ) ≠ 0 := by exact_mod_cast hn.ne'
  have e : ((i + 2 * n : ℕ) : ℝ) * (π / n) = i * (π / n) + 2 * π := by push_cast; field_simp
  have e2 : rad n (i + 2 * n) = rad n i := by rw [rad, rad, Nat.add_mul_mod_self_left]
  interval_cases r
  · rw [(vertex_polar hn _).1, (vertex_polar hn _).1, e, e2, cos_add_two_pi]
  · rw [(vertex_polar hn _).2, (vertex_polar hn _).2, e, e2, sin_add_two_pi]

theorem vertex_succ {n : ℕ} (hn : 0 < n) {i : ℕ} (hi : i < 2 * n) {r : ℕ} (hr : r < 2) :
    dualVertex n ((i + 1) % (2 * n)) r = dualVertex n (i + 1) r := by
  by_cases h : i + 1 = 2 * n
  · rw [h, Nat.mod_self, ← vertex_period hn 0 hr, Nat.zero_add]
  · rw [Nat.mod_eq_of_lt (by omega)]

/-- Two wedges between consecutive rays of a regular star have only the origin or a ray in common. -/
theorem wedge {n d i : ℕ} (hn : 3 ≤ n) (hd : 1 ≤ d) (hdn : d ≤ n) {a b c e : ℝ} (ha : 0 ≤ a) (hb : 0 ≤ b) (hc : 0 ≤ c)
    (he : 0 ≤ e)
    (h0 : a * cos (i * (π / n)) + b * cos ((i + 1 : ℕ) * (π / n)) =
      c * cos ((i + d : ℕ) * (π / n)) + e * cos ((i + d + 1 : ℕ) * (π / n)))
    (h1 : a * sin (i * (π / n)) + b * sin ((i + 1 : ℕ) * (π / n)) =
      c * sin ((i + d : ℕ) * (π / n)) + e * sin ((i + d + 1 : ℕ) * (π / n))) :
    d = 1 ∧ a = 0 ∧ e = 0 ∧ b = c ∨ a = 0 ∧ b = 0 ∧ c = 0 ∧ e = 0 := by
  obtain ⟨hp, hpi, hlt⟩ := angle_pos hn
  set δ := π / (n : ℝ) with hδ
  have hs : 0 < sin δ := sin_pos_of_pos_of_lt_pi hp (by linarith [pi_pos])
  -- the cross products with the rays number `i` and `i + 1`
  have k1 : b * sin δ = c * sin (d * δ) + e * sin ((d + 1 : ℕ) * δ) := by
    have e1 : ((i + 1 : ℕ) : ℝ) * δ = i * δ + δ := by push_cast; ring
    have e2 : ((i + d : ℕ) : ℝ) * δ = i * δ + d * δ := by push_cast; ring
    have e3 : ((i + d + 1 : ℕ) : ℝ) * δ = i * δ + (d + 1 : ℕ) * δ := by push_cast; ring
    rw [e1, e2, e3] at h0 h1
    simp only [cos_add, sin_add] at h0 h1
    have p := sin_sq_add_cos_sq (i * δ)
    linear_combination (cos (i * δ)) * h1 - (sin (i * δ)) * h0 -
      (b * sin δ - c * sin (d * δ) - e * sin ((d + 1 : ℕ) * δ)) * p
  have k2 : -(a * sin δ) = c * sin (d * δ - δ) + e * sin (d * δ) := by
    have e1 : (i : ℝ) * δ = (i + 1 : ℕ) * δ - δ := by push_cast; ring
    have e2 : ((i + d : ℕ) : ℝ) * δ = (i + 1 : ℕ) * δ + (d * δ - δ) := by push_cast; ring
    have e3 : ((i + d + 1 : ℕ) : ℝ) * δ = (i + 1 : ℕ) * δ + d * δ := by push_cast; ring
    rw [e1, e2, e3] at h0 h1
    set y := ((i + 1 : ℕ) : ℝ) * δ with hy
    rw [cos_sub y, cos_add y, cos_add y] at h0
    rw [sin_sub y, sin_add y, sin_add y] at h1
    have p := sin_sq_add_cos_sq y
    linear_combination (cos y) * h1 - (sin y) * h0 +
      (a * sin δ + c * sin (d * δ - δ) + e * sin (d * δ)) * p
  have hd1 : (1 : ℝ) ≤ d := by exact_mod_cast hd
  rcases Nat.lt_or_ge d n with hlt' | hge
  · have hdn' : (d : ℝ) + 1 ≤ n := by exact_mod_cast hlt'
    have hdlt : d * δ < π := by nlinarith
    have sd : 0 < sin (d * δ) := sin_pos_of_pos_of_lt_pi (by positivity) hdlt
    have sd1 : 0 ≤ sin (d * δ - δ) := sin_nonneg_of_nonneg_of_le_pi (by nlinarith) (by linarith)
    have e0 : e = 0 := by
      have := mul_nonneg hc sd1
      have := mul_nonneg ha hs.le
      have : e * sin (d * δ) ≤ 0 := by linarith
      nlinarith
    have a0 : a = 0 := by
      have := mul_nonneg hc sd1
      have : a * sin δ ≤ 0 := by rw [e0] at k2; linarith
      nlinarith
    rcases Nat.eq_or_lt_of_le hd with h | h
    · left
      rw [e0, ← h] at k1
      have : (b - c) * sin δ = 0 := by push_cast at k1; rw [one_mul] at k1; linarith
      exact ⟨h.symm, a0, e0, by linarith [(mul_eq_zero.1 this).resolve_right hs.ne']⟩
    · right
      have hd2 : (2 : ℝ) ≤ d := by exact_mod_cast h
      have sd2 : 0 < sin (d * δ - δ) := sin_pos_of_pos_of_lt_pi (by nlinarith) (by linarith)
      have c0 : c = 0 := by
        rw [a0, e0] at k2
        have : c * sin (d * δ - δ) = 0 := by linarith
        exact (mul_eq_zero.1 this).resolve_right sd2.ne'
      rw [c0, e0] at k1
      have : b * sin δ = 0 := by linarith
      exact ⟨a0, (mul_eq_zero.1 this).resolve_right hs.ne', c0, e0⟩
  · right
    obtain rfl : d = n := le_antisymm hdn hge
    have f1 : ((d + 1 : ℕ) : ℝ) * δ = δ + π := by push_cast; linarith
    rw [hpi, f1, sin_pi, sin_add_pi] at k1
    rw [hpi, sin_pi, sin_pi_sub] at k2
    have b0 : b = 0 := by nlinarith
    have e0 : e = 0 := by nlinarith
    have a0 : a = 0 := by nlinarith
    have c0 : c = 0 := by nlinarith
    exact ⟨a0, b0, c0, e0⟩

/-- A point of the plane in the wedge between the vertices number `i` and `i + 1`. -/
noncomputable def comb (n i : ℕ) (t1 t2 : ℝ) (r : ℕ) : ℝ :=
  t1 * dualVertex n i r + t2 * dualVertex n ((i + 1) % (2 * n)) r

theorem comb_polar {n : ℕ} (hn : 3 ≤ n) {i : ℕ} (hi : i < 2 * n) (t1 t2 : ℝ) :
    comb n i t1 t2 0 = t1 * rad n i * cos (i * (π / n)) + t2 * rad n (i + 1) * cos ((i + 1 : ℕ) * (π / n)) ∧
    comb n i t1 t2 1 = t1 * rad n i * sin (i * (π / n)) + t2 * rad n (i + 1) * sin ((i + 1 : ℕ) * (π / n)) := by
  rw [comb, comb, vertex_succ (by omega) hi (by omega), vertex_succ (by omega) hi (by omega),
    (vertex_polar (by omega) _).1, (vertex_polar (by omega) _).2, (vertex_polar (by omega) _).1,
    (vertex_polar (by omega) _).2]
  constructor <;> ring

/-- The determinant of a triangle. -/
theorem cross_pos {n : ℕ} (hn : 3 ≤ n) {i : ℕ} (hi : i < 2 * n) :
    0 < dualVertex n i 0 * dualVertex n ((i + 1) % (2 * n)) 1 - dualVertex n i 1 * dualVertex n ((i + 1) % (2 * n)) 0 := by
  obtain ⟨hp, -, hlt⟩ := angle_pos hn
  rw [vertex_succ (by omega) hi (by omega), vertex_succ (by omega) hi (by omega),
    (vertex_polar (by omega) _).1, (vertex_polar (by omega) _).2, (vertex_polar (by omega) _).1,
    (vertex_polar (by omega) _).2]
  have e1 : ((i + 1 : ℕ) : ℝ) * (π / n) = i * (π / n) + π / n := by push_cast; ring
  rw [e1, cos_add, sin_add]
  have p := sin_sq_add_cos_sq (i * (π / n))
  have hs : 0 < sin (π / n) := sin_pos_of_pos_of_lt_pi hp (by linarith [pi_pos])
  have := mul_pos (mul_pos (rad_pos hn i) (rad_pos hn (i + 1))) hs
  have e : rad n i * rad n (i + 1) * sin (π / n) = rad n i * rad n (i + 1) * sin (π / n) *
    (sin (i * (π / n)) ^ 2 + cos (i * (π / n)) ^ 2) := by rw [p, mul_one]
  rw [e] at this
  linarith

/-- With two triangles, the polygon is flat and the triangles are degenerate. -/
theorem two_degenerate (i : ℕ) (hi : i < 4) :
    dualVertex 2 i 0 * dualVertex 2 ((i + 1) % 4) 1 - dualVertex 2 i 1 * dualVertex 2 ((i + 1) % 4) 0 = 0 := by
  have e1 : π * 2 * ((1 : ℕ) : ℝ) / (2 : ℕ) = π := by push_cast; ring
  have e2 : π * 2 * (((1 : ℕ) : ℝ) + 1) / (2 : ℕ) = 2 * π := by push_cast; ring
  have e3 : π * 2 * (((0 : ℕ) : ℝ) + 1) / (2 : ℕ) = π := by push_cast; ring
  have e4 : π * 2 * ((0 : ℕ) : ℝ) / (2 : ℕ) = 0 := by push_cast; ring
  interval_cases i <;> simp [dualVertex, e1, e2, e3, e4, coords] <;> norm_num <;>
    rw [mul_comm, sin_two_pi]

/-- Interpolation between values at the vertices does not depend on the triangle. -/
theorem interp_aux {n : ℕ} (hn : 3 ≤ n) {h : ℕ → ℝ} {i k : ℕ} (hik : i ≤ k) (hkn : k ≤ i + n)
    {t1 t2 s1 s2 : ℝ} (h1 : 0 ≤ t1) (h2 : 0 ≤ t2) (h3 : 0 ≤ s1) (h4 : 0 ≤ s2)
    (e0 : t1 * rad n i * cos (i * (π / n)) + t2 * rad n (i + 1) * cos ((i + 1 : ℕ) * (π / n)) =
      s1 * rad n k * cos (k * (π / n)) + s2 * rad n (k + 1) * cos ((k + 1 : ℕ) * (π / n)))
    (e1 : t1 * rad n i * sin (i * (π / n)) + t2 * rad n (i + 1) * sin ((i + 1 : ℕ) * (π / n)) =
      s1 * rad n k * sin (k * (π / n)) + s2 * rad n (k + 1) * sin ((k + 1 : ℕ) * (π / n))) :
    t1 * h i + t2 * h (i + 1) = s1 * h k + s2 * h (k + 1) := by
  have r := rad_pos hn
  rcases Nat.eq_or_lt_of_le hik with rfl | hlt
  · obtain ⟨hp, -, hlt⟩ := angle_pos hn
    have hs : 0 < sin (π / n) := sin_pos_of_pos_of_lt_pi hp (by linarith [pi_pos])
    have ea : ((i + 1 : ℕ) : ℝ) * (π / n) = i * (π / n) + π / n := by push_cast; ring
    rw [ea, cos_add] at e0
    rw [ea, sin_add] at e1
    have p := sin_sq_add_cos_sq (i * (π / n))
    have q2 : (t2 - s2) * (rad n (i + 1) * sin (π / n)) = 0 := by
      linear_combination (cos (i * (π / n))) * e1 - (sin (i * (π / n))) * e0 -
        (t2 - s2) * (rad n (i + 1) * sin (π / n)) * p
    have t2e : t2 = s2 := by
      have := (mul_eq_zero.1 q2).resolve_right (mul_pos (r _) hs).ne'
      linarith
    have q1 : (t1 - s1) * rad n i = 0 := by
      rw [t2e] at e0 e1
      linear_combination (cos (i * (π / n))) * e0 + (sin (i * (π / n))) * e1 - (t1 - s1) * rad n i * p
    have t1e : t1 = s1 := by
      have := (mul_eq_zero.1 q1).resolve_right (r _).ne'
      linarith
    rw [t1e, t2e]
  · obtain ⟨d, rfl⟩ := Nat.exists_eq_add_of_le hik
    have w := wedge hn (d := d) (i := i) (by omega) (by omega) (mul_nonneg h1 (r i).le) (mul_nonneg h2 (r _).le)
      (mul_nonneg h3 (r _).le) (mul_nonneg h4 (r _).le) e0 e1
    have c := fun {t : ℝ} {j : ℕ} (hz : t * rad n j = 0) => (mul_eq_zero.1 hz).resolve_right (r j).ne'
    rcases w with ⟨rfl, wa, we, wb⟩ | ⟨wa, wb, wc, we⟩
    · rw [c wa, c we, mul_right_cancel₀ (r _).ne' wb]
      ring
    · rw [c wa, c we, c wb, c wc]
      ring

theorem interp {n : ℕ} (hn : 3 ≤ n) (h : ℕ → ℝ) {i k : ℕ} (hi : i < 2 * n) (hk : k < 2 * n)
    {t1 t2 s1 s2 : ℝ} (h1 : 0 ≤ t1) (h2 : 0 ≤ t2) (h3 : 0 ≤ s1) (h4 : 0 ≤ s2)
    (e : ∀ r < 2, comb n i t1 t2 r = comb n k s1 s2 r) :
    t1 * h i + t2 * h ((i + 1) % (2 * n)) = s1 * h k + s2 * h ((k + 1) % (2 * n)) := by
  have hn0 : (n : ℝ) ≠ 0 := by
    have : (3 : ℝ) ≤ n := by exact_mod_cast hn
    linarith
  -- reduce to vertices numbered periodically
  have main : ∀ {i k : ℕ}, i < 2 * n → k < 2 * n → ∀ {t1 t2 s1 s2 : ℝ}, 0 ≤ t1 → 0 ≤ t2 → 0 ≤ s1 → 0 ≤ s2 →
      (∀ r < 2, comb n i t1 t2 r = comb n k s1 s2 r) → i ≤ k →
      t1 * h (i % (2 * n)) + t2 * h ((i + 1) % (2 * n)) = s1 * h (k % (2 * n)) + s2 * h ((k + 1) % (2 * n)) := by
    intro i k hi hk t1 t2 s1 s2 h1 h2 h3 h4 e hik
    have e0 := e 0 (by omega)
    have e1 := e 1 (by omega)
    rw [(comb_polar hn hi _ _).1, (comb_polar hn hk _ _).1] at e0
    rw [(comb_polar hn hi _ _).2, (comb_polar hn hk _ _).2] at e1
    rcases Nat.lt_or_ge (i + n) k with hlt | hge
    · have f : ∀ j : ℕ, ((j + 2 * n : ℕ) : ℝ) * (π / n) = j * (π / n) + 2 * π := by intro j; push_cast; field_simp
      have g : ∀ j : ℕ, rad n (j + 2 * n) = rad n j := by intro j; rw [rad, rad, Nat.add_mul_mod_self_left]
      have := interp_aux hn (h := fun j => h (j % (2 * n))) (i := k) (k := i + 2 * n) (by omega) (by omega) h3 h4 h1 h2
        (by rw [f i, show i + 2 * n + 1 = i + 1 + 2 * n by ring, f (i + 1), g, g, cos_add_two_pi, cos_add_two_pi]
            exact e0.symm)
        (by rw [f i, show i + 2 * n + 1 = i + 1 + 2 * n by ring, f (i + 1), g, g, sin_add_two_pi, sin_add_two_pi]
            exact e1.symm)
      simp only [show i + 2 * n + 1 = i + 1 + 2 * n by ring, Nat.add_mod_right] at this
      exact this.symm
    · exact interp_aux hn (h := fun j => h (j % (2 * n))) hik hge h1 h2 h3 h4 e0 e1
  rcases Nat.le_total i k with hik | hik
  · have := main hi hk h1 h2 h3 h4 e hik
    rwa [Nat.mod_eq_of_lt hi, Nat.mod_eq_of_lt hk] at this
  · have := main hk hi h3 h4 h1 h2 (fun r hr => (e r hr).symm) hik
    rw [Nat.mod_eq_of_lt hi, Nat.mod_eq_of_lt hk] at this
    exact this.symm

end Verif.Dual
