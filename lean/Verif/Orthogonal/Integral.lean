import Verif.References.Shape
import Verif.Orthogonal.Rings
import Mathlib.MeasureTheory.Integral.Prod
import Mathlib.MeasureTheory.Integral.IntervalIntegral.Basic

/-!
# Integration over a default cell

Model of `integral` (symfem/functions.py:784-826) for the default references: iterated integration
with the limits of `Reference.integration_limits`. `sympy`'s symbolic integration is modelled by the
interval integral of real functions.
-/

set_option linter.unusedSectionVars false
set_option linter.unusedSimpArgs false

namespace Verif.Orthogonal

open MeasureTheory Verif.References

/-- Iterated integrals; the first limit is the innermost (symfem/functions.py:815-824). -/
noncomputable def iterInt : List (ℕ × Affine × Affine) → ((ℕ → ℝ) → ℝ) → (ℕ → ℝ) → ℝ
  | [], f => f
  | (v, lo, hi) :: L, f =>
    iterInt L fun x => ∫ t in (lo.eval x)..(hi.eval x), f (Function.update x v t)

/-- Integral of `f` over the default cell. -/
noncomputable def cellInt (c : Cell) (f : (ℕ → ℝ) → ℝ) : ℝ :=
  iterInt ((integrationLimits c).getD []) f fun _ => 0

theorem cellInt_interval (f : (ℕ → ℝ) → ℝ) :
    cellInt .interval f = ∫ x in (0 : ℝ)..1, f (Function.update (fun _ => 0) 0 x) := by
  simp [cellInt, integrationLimits, iterInt, Affine.eval]

theorem cellInt_triangle (f : ℝ → ℝ → ℝ) : cellInt .triangle (fun x => f (x 0) (x 1)) =
    ∫ x in (0 : ℝ)..1, ∫ y in (0 : ℝ)..1 - x, f x y := by
  simp [cellInt, integrationLimits, iterInt, Affine.eval, sub_eq_add_neg]

theorem cellInt_quadrilateral (f : ℝ → ℝ → ℝ) : cellInt .quadrilateral (fun x => f (x 0) (x 1)) =
    ∫ x in (0 : ℝ)..1, ∫ y in (0 : ℝ)..1, f x y := by
  simp [cellInt, integrationLimits, iterInt, Affine.eval, sub_eq_add_neg]

theorem cellInt_hexahedron (f : ℝ → ℝ → ℝ → ℝ) :
    cellInt .hexahedron (fun x => f (x 0) (x 1) (x 2)) =
      ∫ x in (0 : ℝ)..1, ∫ y in (0 : ℝ)..1, ∫ z in (0 : ℝ)..1, f x y z := by
  simp [cellInt, integrationLimits, iterInt, Affine.eval, sub_eq_add_neg]

theorem cellInt_prism (f : ℝ → ℝ → ℝ → ℝ) :
    cellInt .prism (fun x => f (x 0) (x 1) (x 2)) =
      ∫ x in (0 : ℝ)..1, ∫ y in (0 : ℝ)..1 - x, ∫ z in (0 : ℝ)..1, f x y z := by
  simp [cellInt, integrationLimits, iterInt, Affine.eval, sub_eq_add_neg]

theorem cellInt_tetrahedron (f : ℝ → ℝ → ℝ → ℝ) :
    cellInt .tetrahedron (fun x => f (x 0) (x 1) (x 2)) =
      ∫ z in (0 : ℝ)..1, ∫ y in (0 : ℝ)..1 - z, ∫ x in (0 : ℝ)..1 - y - z, f x y z := by
  simp [cellInt, integrationLimits, iterInt, Affine.eval, Finset.sum_range_succ, sub_eq_add_neg,
    add_assoc]

theorem cellInt_pyramid (f : ℝ → ℝ → ℝ → ℝ) :
    cellInt .pyramid (fun x => f (x 0) (x 1) (x 2)) =
      ∫ z in (0 : ℝ)..1, ∫ y in (0 : ℝ)..1 - z, ∫ x in (0 : ℝ)..1 - z, f x y z := by
  simp [cellInt, integrationLimits, iterInt, Affine.eval, Finset.sum_range_succ, sub_eq_add_neg,
    add_assoc]

/-! ### Change of the order of integration on the triangle -/

theorem integral_below (g : ℝ → ℝ) {x : ℝ} (hx : x ∈ Set.Icc (0 : ℝ) 1) :
    ∫ y in (0 : ℝ)..1 - x, g y = ∫ y in Set.Ioc (0 : ℝ) 1, if x + y ≤ 1 then g y else 0 := by
  rw [intervalIntegral.integral_of_le (by linarith [hx.2])]
  have e : ∀ y, (if x + y ≤ 1 then g y else 0) = Set.indicator (Set.Iic (1 - x)) g y := by
    intro y
    by_cases h : x + y ≤ 1
    · rw [if_pos h, Set.indicator_of_mem (by simp; linarith)]
    · rw [if_neg h, Set.indicator_of_notMem (by simp; linarith)]
  simp_rw [e]
  rw [setIntegral_indicator measurableSet_Iic]
  congr 2
  ext y
  simp only [Set.mem_Ioc, Set.mem_inter_iff, Set.mem_Iic]
  constructor
  · intro h; exact ⟨⟨h.1, by linarith [hx.1, h.2]⟩, h.2⟩
  · intro h; exact ⟨h.1.1, h.2⟩

/-- On the triangle the order of integration does not matter. -/
theorem triangle_swap {f : ℝ → ℝ → ℝ} (hf : Continuous (Function.uncurry f)) :
    ∫ x in (0 : ℝ)..1, ∫ y in (0 : ℝ)..1 - x, f x y
      = ∫ y in (0 : ℝ)..1, ∫ x in (0 : ℝ)..1 - y, f x y := by
  rw [intervalIntegral.integral_of_le zero_le_one, intervalIntegral.integral_of_le zero_le_one]
  have h1 : ∫ x in Set.Ioc (0 : ℝ) 1, ∫ y in (0 : ℝ)..1 - x, f x y =
      ∫ x in Set.Ioc (0 : ℝ) 1, ∫ y in Set.Ioc (0 : ℝ) 1, if x + y ≤ 1 then f x y else 0 :=
    setIntegral_congr_fun measurableSet_Ioc fun x hx =>
      integral_below (f x) ⟨hx.1.le, hx.2⟩
  have h2 : ∫ y in Set.Ioc (0 : ℝ) 1, ∫ x in (0 : ℝ)..1 - y, f x y =
      ∫ y in Set.Ioc (0 : ℝ) 1, ∫ x in Set.Ioc (0 : ℝ) 1, if x + y ≤ 1 then f x y else 0 := by
    refine setIntegral_congr_fun measurableSet_Ioc fun y hy => ?_
    have := integral_below (fun x => f x y) (x := y) ⟨hy.1.le, hy.2⟩
    simp_rw [add_comm y] at this
    exact this
  rw [h1, h2]
  apply integral_integral_swap
  rw [Measure.prod_restrict]
  have hs : MeasurableSet {p : ℝ × ℝ | p.1 + p.2 ≤ 1} :=
    measurableSet_le (by fun_prop) (by fun_prop)
  have e : (Function.uncurry fun x y => if x + y ≤ 1 then f x y else 0) =
      Set.indicator {p : ℝ × ℝ | p.1 + p.2 ≤ 1} (Function.uncurry f) := by
    funext p
    by_cases h : p.1 + p.2 ≤ 1
    · rw [Set.indicator_of_mem (s := {p : ℝ × ℝ | p.1 + p.2 ≤ 1}) h]; simp [Function.uncurry, h]
    · rw [Set.indicator_of_notMem (s := {p : ℝ × ℝ | p.1 + p.2 ≤ 1}) h]; simp [Function.uncurry, h]
  rw [e]
  apply Integrable.indicator _ hs
  have hc : IsCompact (Set.Icc (0 : ℝ) 1 ×ˢ Set.Icc (0 : ℝ) 1) := isCompact_Icc.prod isCompact_Icc
  exact (hf.continuousOn.integrableOn_compact hc).mono_set
    (Set.prod_mono Set.Ioc_subset_Icc_self Set.Ioc_subset_Icc_self)

end Verif.Orthogonal
