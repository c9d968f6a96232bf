import Verif.Matrices.Aw
/-!
# The nonconforming Arnold–Winther element (C149)
-/

namespace Verif.Matrices
open Verif.References Verif.Moments Verif.Functionals Verif.Elements Verif.FiniteElement Verif.Polysets Verif.Orthogonal Verif.Families
open MvPolynomial

/-- The component of a matrix in the direction of the normal (on both sides). -/
noncomputable def edgeNormal (e : ℕ) (u : MField 2) (z : ℕ → ℝ) : ℝ :=
  ∑ i : Fin 2, ∑ j : Fin 2, facetNormal e i.val * facetNormal e j.val * eval z (u i j)

/-- The symmetric matrices of polynomials of degree at most 2 whose components in the directions of the normals are linear along the
edges of the triangle. -/
def NcSpace (u : MField 2) : Prop :=
  SymSpace 2 2 u ∧ ∀ e < 3, ∃ a b : ℝ, ∀ t, edgeNormal e u (edgePoint e t) = a + b * t

def ncSub : Submodule ℝ (MField 2) where
  carrier := {u | NcSpace u}
  zero_mem' := ⟨⟨fun _ _ => rfl, fun _ _ => Submodule.zero_mem _⟩, fun e _ => ⟨0, 0, fun t => by simp [edgeNormal]⟩⟩
  add_mem' := by
    rintro u v ⟨hu, hu'⟩ ⟨hv, hv'⟩
    refine ⟨⟨fun i j => ?_, fun i j => Submodule.add_mem _ (hu.2 i j) (hv.2 i j)⟩, fun e he => ?_⟩
    · show u i j + v i j = u j i + v j i
      rw [hu.1 i j, hv.1 i j]
    · obtain ⟨a, b, h⟩ := hu' e he
      obtain ⟨a', b', h'⟩ := hv' e he
      refine ⟨a + a', b + b', fun t => ?_⟩
      have : edgeNormal e (u + v) (edgePoint e t) = edgeNormal e u (edgePoint e t) + edgeNormal e v (edgePoint e t) := by
        simp only [edgeNormal, Pi.add_apply, map_add, mul_add, Finset.sum_add_distrib]
      rw [this, h, h']; ring
  smul_mem' := by
    rintro c u ⟨hu, hu'⟩
    refine ⟨⟨fun i j => ?_, fun i j => Submodule.smul_mem _ _ (hu.2 i j)⟩, fun e he => ?_⟩
    · show c • u i j = c • u j i
      rw [hu.1 i j]
    · obtain ⟨a, b, h⟩ := hu' e he
      refine ⟨c * a, c * b, fun t => ?_⟩
      have : edgeNormal e (c • u) (edgePoint e t) = c * edgeNormal e u (edgePoint e t) := by
        simp only [edgeNormal, Pi.smul_apply, smul_eval, Finset.mul_sum]
        exact Finset.sum_congr rfl fun i _ => Finset.sum_congr rfl fun j _ => by ring
      rw [this, h]; ring

/-! ### Polynomials -/

/-- A second difference. -/
noncomputable def dif (i j : Fin 2) (a b c d : ℝ) : MField 2 →ₗ[ℝ] ℝ where
  toFun u := eval (coords [a + c, b + d]) (u i j) - eval (coords [a, b]) (u i j) - eval (coords [c, d]) (u i j) + eval (coords [0, 0]) (u i j)
  map_add' u v := by
    simp only [Pi.add_apply, map_add]; ring
  map_smul' r u := by
    simp only [Pi.smul_apply, smul_eval, RingHom.id_apply, smul_eq_mul]; ring

theorem dif_apply (i j : Fin 2) (a b c d : ℝ) (u : MField 2) : dif i j a b c d u =
    eval (coords [a + c, b + d]) (u i j) - eval (coords [a, b]) (u i j) - eval (coords [c, d]) (u i j) + eval (coords [0, 0]) (u i j) := rfl

theorem dif_low {i j : Fin 2} {u : MField 2} (h : u i j ∈ P 2 1) (a b c d : ℝ) : dif i j a b c d u = 0 := by
  obtain ⟨r, s, t, e⟩ := P_one h
  rw [dif_apply, e]
  simp only [map_add, map_mul, eval_C, eval_X]
  norm_num [coords]
  ring

/-- Differences that are dual to the additional polynomials. -/
noncomputable def ncDual (a : ℕ) : MField 2 →ₗ[ℝ] ℝ :=
  if a = 0 then dif 0 1 0 1 0 1 else if a = 1 then dif 0 1 1 0 1 0 else if a = 2 then dif 0 1 1 0 0 1
  else if a = 3 then dif 0 0 1 0 0 1 + (2 : ℝ) • dif 0 1 1 0 0 1 else if a = 4 then dif 1 1 1 0 0 1
  else dif 1 1 0 1 0 1 + (2 : ℝ) • dif 0 1 0 1 0 1

theorem nc_dual : ∀ a < 6, ∀ b < 6, (ncDual a (ncTop.getD b 0) ≠ 0 ↔ a = b) := by
  intro a ha b hb
  interval_cases a <;> interval_cases b <;>
    norm_num [ncDual, ncTop, symMat, dif_apply, coords]

set_option maxHeartbeats 4000000 in
theorem ncTop_mem : ∀ u ∈ ncTop, NcSpace u := by
  have x0 : (X 0 : MvPolynomial ℕ ℝ) ∈ P 2 1 := X_mem (by omega)
  have x1 : (X 1 : MvPolynomial ℕ ℝ) ∈ P 2 1 := X_mem (by omega)
  have m : ∀ {p q : MvPolynomial ℕ ℝ}, p ∈ P 2 1 → q ∈ P 2 1 → p * q ∈ P 2 2 := fun hp hq => P_mul hp hq
  have s : ∀ (r : ℝ) {p : MvPolynomial ℕ ℝ}, p ∈ P 2 2 → C r * p ∈ P 2 2 := fun r p hp => C_mul_mem r hp
  have two : (2 : MvPolynomial ℕ ℝ) = C 2 := (map_ofNat C 2).symm
  have q00 : (X 0 ^ 2 : MvPolynomial ℕ ℝ) ∈ P 2 2 := by rw [sq]; exact m x0 x0
  have q01 : (X 0 * X 1 : MvPolynomial ℕ ℝ) ∈ P 2 2 := m x0 x1
  have q11 : (X 1 ^ 2 : MvPolynomial ℕ ℝ) ∈ P 2 2 := by rw [sq]; exact m x1 x1
  have mem : ∀ u ∈ ncTop, SymSpace 2 2 u := by
    intro u hu
    have hz : (0 : MvPolynomial ℕ ℝ) ∈ P 2 (2 : ℕ) := Submodule.zero_mem _
    have t00 : (-2 * X 0 ^ 2 : MvPolynomial ℕ ℝ) ∈ P 2 2 := by
      rw [show (-2 * X 0 ^ 2 : MvPolynomial ℕ ℝ) = -(C 2 * X 0 ^ 2) by rw [← two]; ring]
      exact Submodule.neg_mem _ (s _ q00)
    have t11 : (-2 * X 1 ^ 2 : MvPolynomial ℕ ℝ) ∈ P 2 2 := by
      rw [show (-2 * X 1 ^ 2 : MvPolynomial ℕ ℝ) = -(C 2 * X 1 ^ 2) by rw [← two]; ring]
      exact Submodule.neg_mem _ (s _ q11)
    have t01 : (-2 * X 0 * X 1 : MvPolynomial ℕ ℝ) ∈ P 2 2 := by
      rw [show (-2 * X 0 * X 1 : MvPolynomial ℕ ℝ) = -(C 2 * (X 0 * X 1)) by rw [← two]; ring]
      exact Submodule.neg_mem _ (s _ q01)
    have gen : ∀ p q r : MvPolynomial ℕ ℝ, p ∈ P 2 2 → q ∈ P 2 2 → r ∈ P 2 2 → SymSpace 2 2 (symMat p q r) := fun p q r hp hq hr =>
      ⟨symMat_sym p q r, symMat_mem hp hq hr⟩
    simp only [ncTop, List.mem_cons, List.not_mem_nil, or_false] at hu
    rcases hu with rfl | rfl | rfl | rfl | rfl | rfl
    · exact gen _ _ _ hz q11 t11
    · exact gen _ _ _ t00 q00 hz
    · exact gen _ _ _ t01 q01 hz
    · exact gen _ _ _ (m x0 (Submodule.add_mem _ x0 x1)) hz hz
    · exact gen _ _ _ q00 hz q01
    · exact gen _ _ _ q00 hz (Submodule.neg_mem _ q11)
  intro u hu
  refine ⟨mem u hu, ?_⟩
  simp only [ncTop, List.mem_cons, List.not_mem_nil, or_false] at hu
  have key : ∀ e < 3, ∀ p q r : MvPolynomial ℕ ℝ, ∀ a b : ℝ, (∀ t, facetNormal e 0 ^ 2 * eval (edgePoint e t) p +
      2 * facetNormal e 0 * facetNormal e 1 * eval (edgePoint e t) q + facetNormal e 1 ^ 2 * eval (edgePoint e t) r = a + b * t) →
      ∃ a b : ℝ, ∀ t, edgeNormal e (symMat p q r) (edgePoint e t) = a + b * t := by
    intro e _ p q r a b h
    refine ⟨a, b, fun t => ?_⟩
    rw [← h t]
    simp only [edgeNormal, Fin.sum_univ_two, symMat]
    simp
    ring
  intro e he
  rcases hu with rfl | rfl | rfl | rfl | rfl | rfl <;> interval_cases e
  · exact key 0 (by omega) _ _ _ 0 0 fun t => by norm_num [facetNormal, edgePoint, coords]
  · exact key 1 (by omega) _ _ _ 0 0 fun t => by norm_num [facetNormal, edgePoint, coords]
  · exact key 2 (by omega) _ _ _ 0 0 fun t => by norm_num [facetNormal, edgePoint, coords]
  · exact key 0 (by omega) _ _ _ 0 0 fun t => by norm_num [facetNormal, edgePoint, coords]
  · exact key 1 (by omega) _ _ _ 0 0 fun t => by norm_num [facetNormal, edgePoint, coords]
  · exact key 2 (by omega) _ _ _ 0 0 fun t => by norm_num [facetNormal, edgePoint, coords]
  · exact key 0 (by omega) _ _ _ 0 0 fun t => by norm_num [facetNormal, edgePoint, coords]; ring
  · exact key 1 (by omega) _ _ _ 0 0 fun t => by norm_num [facetNormal, edgePoint, coords]
  · exact key 2 (by omega) _ _ _ 0 0 fun t => by norm_num [facetNormal, edgePoint, coords]
  · exact key 0 (by omega) _ _ _ 1 (-1) fun t => by norm_num [facetNormal, edgePoint, coords]; ring
  · exact key 1 (by omega) _ _ _ 0 0 fun t => by norm_num [facetNormal, edgePoint, coords]
  · exact key 2 (by omega) _ _ _ 0 0 fun t => by norm_num [facetNormal, edgePoint, coords]
  · exact key 0 (by omega) _ _ _ 1 (-1) fun t => by norm_num [facetNormal, edgePoint, coords]; ring
  · exact key 1 (by omega) _ _ _ 0 0 fun t => by norm_num [facetNormal, edgePoint, coords]
  · exact key 2 (by omega) _ _ _ 0 0 fun t => by norm_num [facetNormal, edgePoint, coords]
  · exact key 0 (by omega) _ _ _ 1 (-2) fun t => by norm_num [facetNormal, edgePoint, coords]; ring
  · exact key 1 (by omega) _ _ _ 0 0 fun t => by norm_num [facetNormal, edgePoint, coords]
  · exact key 2 (by omega) _ _ _ 0 0 fun t => by norm_num [facetNormal, edgePoint, coords]

theorem nc_low {u : MField 2} (hu : SymSpace 2 1 u) : NcSpace u := by
  refine ⟨⟨hu.1, fun i j => P_mono (by norm_num) (hu.2 i j)⟩, fun e he => ?_⟩
  have hl : ∀ i j, ∃ a b : ℝ, ∀ t, eval (edgePoint e t) (u i j) = a + b * t := by
    intro i j
    obtain ⟨r, s, t, h⟩ := P_one (show u i j ∈ P 2 1 from hu.2 i j)
    rw [h]
    interval_cases e
    · exact ⟨r + s, t - s, fun x => by norm_num [edgePoint, coords]; ring⟩
    · exact ⟨r, t, fun x => by norm_num [edgePoint, coords]⟩
    · exact ⟨r, s, fun x => by norm_num [edgePoint, coords]⟩
  choose a b h using hl
  refine ⟨∑ i : Fin 2, ∑ j : Fin 2, facetNormal e i.val * facetNormal e j.val * a i j,
    ∑ i : Fin 2, ∑ j : Fin 2, facetNormal e i.val * facetNormal e j.val * b i j, fun t => ?_⟩
  simp only [edgeNormal, h, Finset.sum_mul, ← Finset.sum_add_distrib]
  exact Finset.sum_congr rfl fun i _ => Finset.sum_congr rfl fun j _ => by ring

theorem nc_poly : ∃ l, polySetVector 2 3 1 = some l ∧ ((l.map fun p => matrixOf index2 (denoteVec ℝ 3 p)) ++ ncTop).length = 15 ∧
    Independent ℝ ((l.map fun p => matrixOf index2 (denoteVec ℝ 3 p)) ++ ncTop) ∧
    ∀ u ∈ (l.map fun p => matrixOf index2 (denoteVec ℝ 3 p)) ++ ncTop, NcSpace u := by
  obtain ⟨l, h1, h2, h3, h4⟩ := sym_poly (d := 2) (Or.inr (Or.inl rfl)) index2_sym 1
  have e : ncTop = (List.range 6).map fun b => ncTop.getD b 0 := rfl
  have hL : ∀ a ∈ List.range 6, ∀ v ∈ lspan (l.map fun p => matrixOf index2 (denoteVec ℝ 3 p)), ncDual a v = 0 := by
    intro a ha v hv
    have hv : ∀ i j, v i j ∈ P 2 1 := ((h4 v).1 hv).2
    have ha := List.mem_range.1 ha
    interval_cases a <;> simp [ncDual, dif_low (hv _ _)]
  obtain ⟨hind, -⟩ := enrich_dual (f := fun b => ncTop.getD b 0) (L := ncDual) (keys := List.range 6) List.nodup_range
    (fun a ha => (nc_dual a (List.mem_range.1 ha) a (List.mem_range.1 ha)).2 rfl)
    (fun a ha b hb hab => not_not.1 fun hn => hab ((nc_dual a (List.mem_range.1 ha) b (List.mem_range.1 hb)).1 hn)) hL le_rfl h3
  refine ⟨l, h1, ?_, by rw [e]; exact hind, fun u hu => ?_⟩
  · rw [List.length_append, List.length_map, h2]; rfl
  · rcases List.mem_append.1 hu with hu | hu
    · exact nc_low ((h4 u).1 (Submodule.subset_span hu))
    · exact ncTop_mem u hu

end Verif.Matrices
