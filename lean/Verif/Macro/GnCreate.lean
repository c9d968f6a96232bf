import Verif.Macro.GnBr
/-!
# Creation of Guzmán–Neilan elements on triangles
-/

namespace Verif.Macro
open Verif.References Verif.Elements Verif.FiniteElement Verif.Polysets Verif.Moments Verif.Geometry Verif.Functions
open Verif.Families Verif.Scalar Verif.Smooth Verif.Functionals Verif.Orthogonal
open MvPolynomial

/-- A quadratic polynomial along an edge. -/
theorem side_quadratic (i : Fin 3) {p : MvPolynomial ℕ ℝ} (hp : p ∈ P 2 2) : ∃ a b c, ∀ t, eval (sidePoint i t) p = a + b * t + c * t ^ 2 := by
  obtain ⟨k, hv, -⟩ := quadratic hp
  fin_cases i
  · refine ⟨qua k 1 0, qua k 0 1 - qua k 1 0 - (k 2 - k 4 + k 5), k 2 - k 4 + k 5, fun t => ?_⟩
    show eval (coords [1 - t, t]) p = _
    rw [hv]
    simp [qua, coords]
    ring
  · refine ⟨k 0, k 3, k 5, fun t => ?_⟩
    show eval (coords [0, t]) p = _
    rw [hv]
    simp [qua, coords]
  · refine ⟨k 0, k 1, k 2, fun t => ?_⟩
    show eval (coords [t, 0]) p = _
    rw [hv]
    simp [qua, coords]

theorem mapM_three {A B : Type} {f : A → Option B} {a b c : A} {x y z : B} (h0 : f a = some x) (h1 : f b = some y) (h2 : f c = some z) :
    [a, b, c].mapM f = some [x, y, z] := by
  simp only [List.mapM_cons, List.mapM_nil, h0, h1, h2]
  rfl

/-- The values at the ends and the integral determine the normal component on an edge. -/
theorem normal_zero (i : Fin 3) {f : Fin 3 → Field 2} (hf : GNSpace f)
    (h0 : ∀ t, (t = 0 ∨ t = 1) → ∑ c, sideNormal i c * eval (sidePoint i t) (f i.rev c) = 0)
    (h1 : ∫ t in (0 : ℝ)..1, ∑ c, sideNormal i c * eval (sidePoint i t) (f i.rev c) = 0) (t : ℝ) :
    ∑ c, sideNormal i c * eval (sidePoint i t) (f i.rev c) = 0 := by
  obtain ⟨a, b, c, h⟩ := side_quadratic i (hf.1 i.rev 0)
  obtain ⟨a', b', c', h'⟩ := side_quadratic i (hf.1 i.rev 1)
  have hq : ∀ t, ∑ c, sideNormal i c * eval (sidePoint i t) (f i.rev c) = (sideNormal i 0 * a + sideNormal i 1 * a') +
      (sideNormal i 0 * b + sideNormal i 1 * b') * t + (sideNormal i 0 * c + sideNormal i 1 * c') * t ^ 2 := fun t => by
    rw [Fin.sum_univ_two, h, h']
    ring
  generalize sideNormal i 0 * a + sideNormal i 1 * a' = α at hq
  generalize sideNormal i 0 * b + sideNormal i 1 * b' = β at hq
  generalize sideNormal i 0 * c + sideNormal i 1 * c' = γ at hq
  simp only [hq] at h0 h1 ⊢
  have e0 := h0 0 (Or.inl rfl)
  have e1 := h0 1 (Or.inr rfl)
  have c1 : Continuous fun t : ℝ => α + β * t := by fun_prop
  have c2 : Continuous fun t : ℝ => γ * t ^ 2 := by fun_prop
  have c3 : Continuous fun _ : ℝ => α := by fun_prop
  have c4 : Continuous fun t : ℝ => β * t := by fun_prop
  rw [intervalIntegral.integral_add (c1.intervalIntegrable 0 1) (c2.intervalIntegrable 0 1),
    intervalIntegral.integral_add (c3.intervalIntegrable 0 1) (c4.intervalIntegrable 0 1), intervalIntegral.integral_const_mul,
    intervalIntegral.integral_const_mul, integral_id, integral_pow, intervalIntegral.integral_const] at h1
  norm_num at e0 e1 h1
  have g : γ = 0 := by linarith
  have b0 : β = 0 := by linarith
  rw [e0, b0, g]
  ring

theorem side_range {i j : Fin 3} {t : ℝ} (h : Inside (gnCells j) (sidePoint i t)) : 0 ≤ t ∧ t ≤ 1 := by
  fin_cases j
  · have h' := inside_zero.1 h
    fin_cases i <;> simp [sidePoint, coords] at h' <;> constructor <;> linarith
  · have h' := inside_one.1 h
    fin_cases i <;> simp [sidePoint, coords] at h' <;> constructor <;> linarith
  · have h' := inside_two.1 h
    fin_cases i <;> simp [sidePoint, coords] at h' <;> constructor <;> linarith

/-- A function whose normal components on the edges are zero is zero on the edges. -/
theorem edges_zero {f : Fin 3 → Field 2} (hf : GNSpace f) (h : ∀ i t, ∑ c, sideNormal i c * eval (sidePoint i t) (f i.rev c) = 0) (i : Fin 3) (c : Fin 2) (t : ℝ) :
    eval (sidePoint i t) (f i.rev c) = 0 := by
  have s01 : sidePoint 1 0 = sidePoint 2 0 := by simp [sidePoint]
  have s02 : sidePoint 0 0 = sidePoint 2 1 := by simp [sidePoint]
  have s12 : sidePoint 0 1 = sidePoint 1 1 := by simp [sidePoint]
  have i0 := fun i : Fin 3 => side_inside i (t := 0) le_rfl zero_le_one
  have i1 := fun i : Fin 3 => side_inside i (t := 1) zero_le_one le_rfl
  have k01 : ∀ c, eval (sidePoint 1 0) (f 1 c) = eval (sidePoint 2 0) (f 0 c) := fun c => by
    have a : Inside (gnCells 1) (sidePoint 1 0) := i0 1
    have b : Inside (gnCells 0) (sidePoint 2 0) := i0 2
    rw [s01] at a ⊢
    exact hf.2.1 1 0 _ a b c
  have k02 : ∀ c, eval (sidePoint 0 0) (f 2 c) = eval (sidePoint 2 1) (f 0 c) := fun c => by
    have a : Inside (gnCells 2) (sidePoint 0 0) := i0 0
    have b : Inside (gnCells 0) (sidePoint 2 1) := i1 2
    rw [s02] at a ⊢
    exact hf.2.1 2 0 _ a b c
  have k12 : ∀ c, eval (sidePoint 0 1) (f 2 c) = eval (sidePoint 1 1) (f 1 c) := fun c => by
    have a : Inside (gnCells 2) (sidePoint 0 1) := i1 0
    have b : Inside (gnCells 1) (sidePoint 1 1) := i1 1
    rw [s12] at a ⊢
    exact hf.2.1 2 1 _ a b c
  have n0 : ∀ t, eval (sidePoint 0 t) (f 2 0) + eval (sidePoint 0 t) (f 2 1) = 0 := fun t => by
    have := h 0 t
    rw [Fin.sum_univ_two] at this
    simp [sideNormal] at this
    linarith
  have n1 : ∀ t, eval (sidePoint 1 t) (f 1 0) = 0 := fun t => by
    have := h 1 t
    rw [Fin.sum_univ_two] at this
    simp [sideNormal] at this
    linarith
  have n2 : ∀ t, eval (sidePoint 2 t) (f 0 1) = 0 := fun t => by
    have := h 2 t
    rw [Fin.sum_univ_two] at this
    simp [sideNormal] at this
    linarith
  obtain ⟨a0, b0, t0⟩ := hf.2.2.2 0
  obtain ⟨a1, b1, t1⟩ := hf.2.2.2 1
  obtain ⟨a2, b2, t2⟩ := hf.2.2.2 2
  have t0' : ∀ t, eval (sidePoint 0 t) (f 2 1) - eval (sidePoint 0 t) (f 2 0) = a0 + b0 * t := fun t => by
    have := t0 t
    rw [Fin.sum_univ_two] at this
    simp [sideTangent] at this
    linarith
  have t1' : ∀ t, eval (sidePoint 1 t) (f 1 1) = a1 + b1 * t := fun t => by
    have := t1 t
    rw [Fin.sum_univ_two] at this
    simp [sideTangent] at this
    linarith
  have t2' : ∀ t, eval (sidePoint 2 t) (f 0 0) = a2 + b2 * t := fun t => by
    have := t2 t
    rw [Fin.sum_univ_two] at this
    simp [sideTangent] at this
    linarith
  have u0 := t0' 0
  have u1 := t0' 1
  have v0 := t1' 0
  have v1 := t1' 1
  have w0 := t2' 0
  have w1 := t2' 1
  rw [k01] at v0
  rw [← k12] at v1
  rw [← k02] at w1
  rw [← k01] at w0
  have x0 := k02 1
  have x1 := k12 0
  rw [n2] at x0 v0
  rw [n1] at x1 w0
  have y0 := n0 0
  have y1 := n0 1
  have ha0 : a0 = 0 := by linarith
  have hb0 : b0 = 0 := by linarith
  have ha1 : a1 = 0 := by linarith
  have hb1 : b1 = 0 := by linarith
  have ha2 : a2 = 0 := by linarith
  have hb2 : b2 = 0 := by linarith
  subst ha0 hb0 ha1 hb1 ha2 hb2
  have p0 := n0 t
  have q0 := t0' t
  have q1 := t1' t
  have q2 := t2' t
  fin_cases i <;> fin_cases c
  · show eval (sidePoint 0 t) (f 2 0) = 0
    linarith
  · show eval (sidePoint 0 t) (f 2 1) = 0
    linarith
  · exact n1 t
  · show eval (sidePoint 1 t) (f 1 1) = 0
    linarith
  · show eval (sidePoint 2 t) (f 0 0) = 0
    linarith
  · exact n2 t

/-- **C155** Guzmán–Neilan elements on triangles. -/
theorem gn_created : Created (guzmanNeilan 1) GNSpace 11 NormalMacro := by
  obtain ⟨e, fs, b1, b2, b3⟩ := br_last
  choose l l1 l2 l3 l4 using gnEnds_eq
  obtain ⟨ms, d0, d1, d2, m1, m2, -, m5⟩ := normal_moments
  choose D o1 o2 o3 using fun i : Fin 3 => onEntity_eq (![d0, d1, d2] i) i (m5 i).1
  obtain ⟨lm, c1, c2, c3, c4⟩ := gnMid_eq
  have hends : (List.range 3).mapM gnEnds = some [l 0, l 1, l 2] := by
    have e0 : gnEnds 0 = some (l 0) := l1 0
    have e1 : gnEnds 1 = some (l 1) := l1 1
    have e2 : gnEnds 2 = some (l 2) := l1 2
    simp only [show List.range 3 = [0, 1, 2] from rfl, List.mapM_cons, List.mapM_nil, e0, e1, e2]
    rfl
  have hmo : [d0, d1, d2].mapM onEntity = some [D 0, D 1, D 2] := mapM_three (o1 0) (o1 1) (o1 2)
  have hl : ∀ i : Fin 3, ∀ d ∈ l i, d ∈ [l 0, l 1, l 2].flatten ++ [D 0, D 1, D 2] ++ lm := fun i d hd => by
    refine List.mem_append_left _ (List.mem_append_left _ (List.mem_flatten.2 ⟨l i, ?_, hd⟩))
    fin_cases i <;> simp
  have hD : ∀ i : Fin 3, D i ∈ [l 0, l 1, l 2].flatten ++ [D 0, D 1, D 2] ++ lm := fun i => by
    refine List.mem_append_left _ (List.mem_append_right _ ?_)
    fin_cases i <;> simp
  have hnorm : ∀ (i : Fin 3) f, GNSpace f → (∀ d ∈ [l 0, l 1, l 2].flatten ++ [D 0, D 1, D 2] ++ lm, d.entity = (1, i.val) → d.eval f = 0) →
      ∀ t, ∑ c, sideNormal i c * eval (sidePoint i t) (f i.rev c) = 0 := fun i f hf hz => by
    refine normal_zero i hf (l4 i f hf fun d hd => hz d (hl i d hd) (l3 i d hd)) ?_
    exact ((m5 i).2 (f i.rev) (hf.1 i.rev)).symm.trans ((o3 i f).symm.trans (hz _ (hD i) ((o2 i).trans (m5 i).1)))
  have hconf : NormalMacro ([l 0, l 1, l 2].flatten ++ [D 0, D 1, D 2] ++ lm) := fun i f hf hz t j hin => by
    obtain ⟨t0, t1⟩ := side_range hin
    rw [← hnorm i f hf hz t]
    exact Finset.sum_congr rfl fun c _ => by rw [hf.2.1 j i.rev _ hin (side_inside i t0 t1) c]
  have hlen : ([l 0, l 1, l 2].flatten ++ [D 0, D 1, D 2] ++ lm).length = gnExplicit.length := by
    simp only [List.length_append, List.flatten_cons, List.flatten_nil, l2, c2, List.length_nil, List.length_cons]
    rfl
  have key := created_of_unisolvent (S := gnSub) hlen gn_independent gn_mem fun f hf hz => by
    have hs := edges_zero hf fun i => hnorm i f hf fun d hd _ => hz d hd
    have half : (1 : ℝ) - 1 / 2 = 1 / 2 := by norm_num
    refine gn_zero hf (c4 f hf fun d hd => hz d (List.mem_append_right _ hd)) ?_ ?_ ?_
    · intro p hp c
      simp only [List.mem_cons, List.not_mem_nil, or_false] at hp
      rcases hp with rfl | rfl | rfl
      · exact hs 2 c 0
      · exact hs 2 c 1
      · exact hs 2 c (1 / 2)
    · intro p hp c
      simp only [List.mem_cons, List.not_mem_nil, or_false] at hp
      rcases hp with rfl | rfl | rfl
      · exact hs 1 c 0
      · exact hs 1 c 1
      · exact hs 1 c (1 / 2)
    · intro p hp c
      have h0 : eval (coords [1 - 0, 0]) (f 2 c) = 0 := hs 0 c 0
      have h1 : eval (coords [1 - 1, 1]) (f 2 c) = 0 := hs 0 c 1
      have h2 : eval (coords [1 - 1 / 2, 1 / 2]) (f 2 c) = 0 := hs 0 c (1 / 2)
      rw [sub_zero] at h0
      rw [sub_self] at h1
      rw [half] at h2
      simp only [List.mem_cons, List.not_mem_nil, or_false] at hp
      rcases hp with rfl | rfl | rfl
      · exact h0
      · exact h1
      · exact h2
  have hmodel : guzmanNeilan 1 = ciarlet gnExplicit ([l 0, l 1, l 2].flatten ++ [D 0, D 1, D 2] ++ lm) := by
    rw [guzmanNeilan, if_pos rfl]
    simp only [b1, b2, hends, m1, m2, hmo, c1, Option.bind_eq_bind, Option.bind_some]
    exact congrArg (ciarlet · _) ((congrArg gnBasis b3).trans gnBasis_eq)
  rw [hmodel]
  obtain ⟨basis, dofs, gs, k1, k2, k3, k4, k5, k6, k7⟩ := key
  subst k7
  exact ⟨basis, _, gs, k1, k2, k3, k4, k5, k6, hconf⟩

/-- There is no element of another order. -/
theorem gn_none {k : ℕ} (hk : k ≠ 1) : guzmanNeilan k = none := if_neg hk

/-- The identity is a function of the element, and the field with the second component `x²` is not: its tangential component on the edge `x = 0` and that on
the edge `y = 0` are affine, but not the one on the third edge. -/
example : GNSpace (fun _ => ![X 0, X 1]) ∧ ¬ GNSpace (fun _ => ![0, X 0 ^ 2]) := by
  constructor
  · refine gn_of (fun i c => ?_) (fun z hz c => rfl) (fun z hz c => rfl) (fun z hz c => rfl) (fun i => ⟨2, fun z => ?_⟩) ⟨-1, 2, fun t => ?_⟩ ⟨0, 1, fun t => ?_⟩
      ⟨0, 1, fun t => ?_⟩
    · have h : ∀ m < 2, (X m : MvPolynomial ℕ ℝ) ∈ P 2 2 := fun m hm => P_mono (show (1 : ℤ) ≤ 2 by norm_num) (X_mem hm)
      fin_cases c
      · exact h 0 (by omega)
      · exact h 1 (by omega)
    · simp [divAt, Fin.sum_univ_two]
      norm_num
    · simp [coords]; ring
    · simp [coords]
    · simp [coords]
  · rintro ⟨-, -, -, h⟩
    obtain ⟨a, b, h⟩ := h 0
    have h0 := h 0
    have h1 := h 1
    have h2 := h 2
    simp [Fin.sum_univ_two, sideTangent, sidePoint, coords] at h0 h1 h2
    linarith

end Verif.Macro
