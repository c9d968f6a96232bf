import Verif.Quadrature.Lemmas
import Mathlib.Tactic.IntervalCases
/-! # Exactness of the individual tables -/

namespace Verif.Quadrature

theorem exact_lobatto2 : ExactTo [0, 1] [1 / 2, 1 / 2] 1 := by
  refine exactTo_of_centred fun k hk => ?_
  interval_cases k <;> (simp only [quadValue_cons, quadValue_nil]; push_cast; ring)

theorem exact_lobatto3 : ExactTo [0, 1 / 2, 1] [1 / 6, 2 / 3, 1 / 6] 3 := by
  refine exactTo_of_centred fun k hk => ?_
  interval_cases k <;> (simp only [quadValue_cons, quadValue_nil]; push_cast; ring)

theorem exact_lobatto4 (r : ℝ) (hr : r ^ 2 = 1 / 5) :
    ExactTo [0, (1 - r) / 2, (1 + r) / 2, 1] [1 / 12, 5 / 12, 5 / 12, 1 / 12] 5 := by
  refine exactTo_of_centred fun k hk => ?_
  have r4 : r ^ 4 = 1 / 25 := by linear_combination (r ^ 2 + 1 / 5) * hr
  interval_cases k
  · simp only [quadValue_cons, quadValue_nil]; push_cast; ring
  · simp only [quadValue_cons, quadValue_nil]; push_cast; ring
  · simp only [quadValue_cons, quadValue_nil]; push_cast; linear_combination (5 / 6) * hr
  · simp only [quadValue_cons, quadValue_nil]; push_cast; ring
  · simp only [quadValue_cons, quadValue_nil]; push_cast; linear_combination (5 / 6) * r4
  · simp only [quadValue_cons, quadValue_nil]; push_cast; ring

theorem exact_lobatto5 (r : ℝ) (hr : r ^ 2 = 3 / 7) :
    ExactTo [0, (1 - r) / 2, 1 / 2, (1 + r) / 2, 1] [1 / 20, 49 / 180, 16 / 45, 49 / 180, 1 / 20] 7
    := by
  refine exactTo_of_centred fun k hk => ?_
  have r4 : r ^ 4 = 9 / 49 := by linear_combination (r ^ 2 + 3 / 7) * hr
  have r6 : r ^ 6 = 27 / 343 := by linear_combination r ^ 2 * r4 + 9 / 49 * hr
  interval_cases k
  · simp only [quadValue_cons, quadValue_nil]; push_cast; ring
  · simp only [quadValue_cons, quadValue_nil]; push_cast; ring
  · simp only [quadValue_cons, quadValue_nil]; push_cast; linear_combination (49 / 90) * hr
  · simp only [quadValue_cons, quadValue_nil]; push_cast; ring
  · simp only [quadValue_cons, quadValue_nil]; push_cast; linear_combination (49 / 90) * r4
  · simp only [quadValue_cons, quadValue_nil]; push_cast; ring
  · simp only [quadValue_cons, quadValue_nil]; push_cast; linear_combination (49 / 90) * r6
  · simp only [quadValue_cons, quadValue_nil]; push_cast; ring

theorem exact_lobatto6 (s a b : ℝ) (hs : s ^ 2 = 7) (ha : a ^ 2 = 1 / 3 + 2 * s / 21)
    (hb : b ^ 2 = 1 / 3 - 2 * s / 21) :
    ExactTo [0, (1 - a) / 2, (1 - b) / 2, (1 + b) / 2, (1 + a) / 2, 1]
      [1 / 30, (14 - s) / 60, (14 + s) / 60, (14 + s) / 60, (14 - s) / 60, 1 / 30] 9 := by
  refine exactTo_of_centred fun k hk => ?_
  have a2 : a ^ 2 = (1 / 3) + (2 / 21) * s := by rw [ha]; ring
  have a4 : a ^ 4 = (11 / 63) + (4 / 63) * s := by
    linear_combination a ^ 2 * a2 + ((1 / 3) + (2 / 21) * s) * a2 + (4 / 441) * hs
  have a6 : a ^ 6 = (19 / 189) + (50 / 1323) * s := by
    linear_combination a ^ 2 * a4 + ((11 / 63) + (4 / 63) * s) * a2 + (8 / 1323) * hs
  have a8 : a ^ 8 = (233 / 3969) + (88 / 3969) * s := by
    linear_combination a ^ 2 * a6 + ((19 / 189) + (50 / 1323) * s) * a2 + (100 / 27783) * hs
  have b2 : b ^ 2 = (1 / 3) + (-2 / 21) * s := by rw [hb]; ring
  have b4 : b ^ 4 = (11 / 63) + (-4 / 63) * s := by
    linear_combination b ^ 2 * b2 + ((1 / 3) + (-2 / 21) * s) * b2 + (4 / 441) * hs
  have b6 : b ^ 6 = (19 / 189) + (-50 / 1323) * s := by
    linear_combination b ^ 2 * b4 + ((11 / 63) + (-4 / 63) * s) * b2 + (8 / 1323) * hs
  have b8 : b ^ 8 = (233 / 3969) + (-88 / 3969) * s := by
    linear_combination b ^ 2 * b6 + ((19 / 189) + (-50 / 1323) * s) * b2 + (100 / 27783) * hs
  interval_cases k
  · simp only [quadValue_cons, quadValue_nil]; push_cast; ring
  · simp only [quadValue_cons, quadValue_nil]; push_cast; ring
  · simp only [quadValue_cons, quadValue_nil]
    linear_combination 2 * ((7 / 30) + (-1 / 60) * s) * a2 + 2 * ((7 / 30) - (-1 / 60) * s) * b2 + (-2 / 315) * hs
  · simp only [quadValue_cons, quadValue_nil]; push_cast; ring
  · simp only [quadValue_cons, quadValue_nil]
    linear_combination 2 * ((7 / 30) + (-1 / 60) * s) * a4 + 2 * ((7 / 30) - (-1 / 60) * s) * b4 + (-4 / 945) * hs
  · simp only [quadValue_cons, quadValue_nil]; push_cast; ring
  · simp only [quadValue_cons, quadValue_nil]
    linear_combination 2 * ((7 / 30) + (-1 / 60) * s) * a6 + 2 * ((7 / 30) - (-1 / 60) * s) * b6 + (-10 / 3969) * hs
  · simp only [quadValue_cons, quadValue_nil]; push_cast; ring
  · simp only [quadValue_cons, quadValue_nil]
    linear_combination 2 * ((7 / 30) + (-1 / 60) * s) * a8 + 2 * ((7 / 30) - (-1 / 60) * s) * b8 + (-88 / 59535) * hs
  · simp only [quadValue_cons, quadValue_nil]; push_cast; ring

theorem exact_lobatto7 (s a b : ℝ) (hs : s ^ 2 = 15) (ha : a ^ 2 = (5 + 2 * s / 3) / 11)
    (hb : b ^ 2 = (5 - 2 * s / 3) / 11) :
    ExactTo [0, (1 - a) / 2, (1 - b) / 2, 1 / 2, (1 + b) / 2, (1 + a) / 2, 1]
      [1 / 42, (124 - 7 * s) / 700, (124 + 7 * s) / 700, 128 / 525, (124 + 7 * s) / 700,
        (124 - 7 * s) / 700, 1 / 42] 11 := by
  refine exactTo_of_centred fun k hk => ?_
  have a2 : a ^ 2 = (5 / 11) + (2 / 33) * s := by rw [ha]; ring
  have a4 : a ^ 4 = (95 / 363) + (20 / 363) * s := by
    linear_combination a ^ 2 * a2 + ((5 / 11) + (2 / 33) * s) * a2 + (4 / 1089) * hs
  have a6 : a ^ 6 = (225 / 1331) + (490 / 11979) * s := by
    linear_combination a ^ 2 * a4 + ((95 / 363) + (20 / 363) * s) * a2 + (40 / 11979) * hs
  have a8 : a ^ 8 = (15025 / 131769) + (3800 / 131769) * s := by
    linear_combination a ^ 2 * a6 + ((225 / 1331) + (490 / 11979) * s) * a2 + (980 / 395307) * hs
  have a10 : a ^ 10 = (113125 / 1449459) + (87050 / 4348377) * s := by
    linear_combination a ^ 2 * a8 + ((15025 / 131769) + (3800 / 131769) * s) * a2 + (7600 / 4348377) * hs
  have b2 : b ^ 2 = (5 / 11) + (-2 / 33) * s := by rw [hb]; ring
  have b4 : b ^ 4 = (95 / 363) + (-20 / 363) * s := by
    linear_combination b ^ 2 * b2 + ((5 / 11) + (-2 / 33) * s) * b2 + (4 / 1089) * hs
  have b6 : b ^ 6 = (225 / 1331) + (-490 / 11979) * s := by
    linear_combination b ^ 2 * b4 + ((95 / 363) + (-20 / 363) * s) * b2 + (40 / 11979) * hs
  have b8 : b ^ 8 = (15025 / 131769) + (-3800 / 131769) * s := by
    linear_combination b ^ 2 * b6 + ((225 / 1331) + (-490 / 11979) * s) * b2 + (980 / 395307) * hs
  have b10 : b ^ 10 = (113125 / 1449459) + (-87050 / 4348377) * s := by
    linear_combination b ^ 2 * b8 + ((15025 / 131769) + (-3800 / 131769) * s) * b2 + (7600 / 4348377) * hs
  interval_cases k
  · simp only [quadValue_cons, quadValue_nil]; push_cast; ring
  · simp only [quadValue_cons, quadValue_nil]; push_cast; ring
  · simp only [quadValue_cons, quadValue_nil]
    linear_combination 2 * ((31 / 175) + (-1 / 100) * s) * a2 + 2 * ((31 / 175) - (-1 / 100) * s) * b2 + (-2 / 825) * hs
  · simp only [quadValue_cons, quadValue_nil]; push_cast; ring
  · simp only [quadValue_cons, quadValue_nil]
    linear_combination 2 * ((31 / 175) + (-1 / 100) * s) * a4 + 2 * ((31 / 175) - (-1 / 100) * s) * b4 + (-4 / 1815) * hs
  · simp only [quadValue_cons, quadValue_nil]; push_cast; ring
  · simp only [quadValue_cons, quadValue_nil]
    linear_combination 2 * ((31 / 175) + (-1 / 100) * s) * a6 + 2 * ((31 / 175) - (-1 / 100) * s) * b6 + (-98 / 59895) * hs
  · simp only [quadValue_cons, quadValue_nil]; push_cast; ring
  · simp only [quadValue_cons, quadValue_nil]
    linear_combination 2 * ((31 / 175) + (-1 / 100) * s) * a8 + 2 * ((31 / 175) - (-1 / 100) * s) * b8 + (-152 / 131769) * hs
  · simp only [quadValue_cons, quadValue_nil]; push_cast; ring
  · simp only [quadValue_cons, quadValue_nil]
    linear_combination 2 * ((31 / 175) + (-1 / 100) * s) * a10 + 2 * ((31 / 175) - (-1 / 100) * s) * b10 + (-3482 / 4348377) * hs
  · simp only [quadValue_cons, quadValue_nil]; push_cast; ring

theorem exact_radau2 : ExactTo [0, 2 / 3] [1 / 4, 3 / 4] 2 := by
  refine exactTo_of_monomials fun k hk => ?_
  interval_cases k <;> (simp only [quadValue_cons, quadValue_nil]; push_cast; ring)

theorem exact_radau3 (s : ℝ) (hs : s ^ 2 = 6) :
    ExactTo [0, (6 - s) / 10, (6 + s) / 10] [1 / 9, (16 + s) / 36, (16 - s) / 36] 4 := by
  refine exactTo_of_monomials fun k hk => ?_
  interval_cases k
  · simp only [quadValue_cons, quadValue_nil]; push_cast; ring
  · simp only [quadValue_cons, quadValue_nil]; push_cast; linear_combination (-1 / 180) * hs
  · simp only [quadValue_cons, quadValue_nil]; push_cast; linear_combination (1 / 450) * hs
  · simp only [quadValue_cons, quadValue_nil]; push_cast
    linear_combination ((29 / 3000) + (-1 / 18000) * s ^ 2) * hs
  · simp only [quadValue_cons, quadValue_nil]; push_cast
    linear_combination ((53 / 3750) + (-1 / 22500) * s ^ 2) * hs

theorem exact_legendre1 : ExactTo [1 / 2] [1] 1 := by
  refine exactTo_of_centred fun k hk => ?_
  interval_cases k <;> (simp only [quadValue_cons, quadValue_nil]; push_cast; ring)

theorem exact_legendre2 (s : ℝ) (hs : s ^ 2 = 3) :
    ExactTo [(3 - s) / 6, (3 + s) / 6] [1 / 2, 1 / 2] 3 := by
  refine exactTo_of_centred fun k hk => ?_
  interval_cases k
  · simp only [quadValue_cons, quadValue_nil]; push_cast; ring
  · simp only [quadValue_cons, quadValue_nil]; push_cast; ring
  · simp only [quadValue_cons, quadValue_nil]; push_cast; linear_combination (1 / 9) * hs
  · simp only [quadValue_cons, quadValue_nil]; push_cast; ring

theorem exact_legendre3 (s : ℝ) (hs : s ^ 2 = 15) :
    ExactTo [(5 - s) / 10, 1 / 2, (5 + s) / 10] [5 / 18, 4 / 9, 5 / 18] 5 := by
  refine exactTo_of_centred fun k hk => ?_
  have s4 : s ^ 4 = 225 := by linear_combination (s ^ 2 + 15) * hs
  interval_cases k
  · simp only [quadValue_cons, quadValue_nil]; push_cast; ring
  · simp only [quadValue_cons, quadValue_nil]; push_cast; ring
  · simp only [quadValue_cons, quadValue_nil]; push_cast; linear_combination (1 / 45) * hs
  · simp only [quadValue_cons, quadValue_nil]; push_cast; ring
  · simp only [quadValue_cons, quadValue_nil]; push_cast; linear_combination (1 / 1125) * s4
  · simp only [quadValue_cons, quadValue_nil]; push_cast; ring

end Verif.Quadrature
