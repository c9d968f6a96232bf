import Verif.Degrees.Scalar
import Verif.Smooth.WuXu
/-!
# Degrees of Morley-Wang-Xu and Wu-Xu elements
-/

namespace Verif.Degrees
open Verif.References Verif.Elements Verif.FiniteElement Verif.Polysets Verif.Families Verif.Scalar Verif.Smooth
open MvPolynomial

/-- `WuXu` (symfem/elements/wu_xu.py:114-134). -/
def declWuXu (c : Cell) (k : ℕ) : Declared :=
  ⟨if c = .interval then 3 else k, (k : ℤ) + 1, if c = .interval then 3 else k, (k : ℤ) + 1⟩

/-- **C146.** The declared degrees of Morley-Wang-Xu elements (symfem/elements/morley_wang_xu.py:110-124). -/
theorem mwx_degrees {c : Cell} {k : ℕ} (h : MwxOrder c k) : ElementDegrees (W c) (P c.tdim) (mwx c k) (declComplete k) := by
  refine of_created (mwx_created h) ?_
  rw [W_eq_simplex h.1]
  exact degrees_P (by obtain ⟨rfl | rfl | rfl, -⟩ := h <;> decide) k

theorem zero_of_jet {B : List Poly} {T : Jet} (h : ∀ b ∈ B, jetVal T b = 0) {f : MvPolynomial ℕ ℝ} (hf : f ∈ lspan (B.map (denotePoly ℝ))) :
    jetMap T f = 0 :=
  implied (G := []) (n := []) (fun b hb => by rw [h b hb]; rfl) hf (by simp)

theorem not_mem_of_jet {B : List Poly} {T : Jet} (h : ∀ b ∈ B, jetVal T b = 0) {p : Poly} (hp : jetVal T p ≠ 0) :
    denotePoly ℝ p ∉ lspan (B.map (denotePoly ℝ)) := by
  intro hf
  have := zero_of_jet h hf
  rw [jetMap_poly] at this
  exact hp (by exact_mod_cast this)

/-- The differences of order `n` along the first axis. -/
def differences (d n : ℕ) : Jet := (List.range (n + 1)).map fun j : ℕ => ((-1) ^ j * (n.choose j : ℚ), [], (j : ℚ) :: List.replicate (d - 1) 0)

theorem wuXu_contains (d : ℕ) : ∀ f ∈ P d (d + 1), f ∈ wuXuSpace d := fun _ hf => Submodule.mem_sup_left hf

theorem wuXu_interval : wuXuSpace 1 = P 1 3 := by
  refine le_antisymm (wuXu_sub (c := .interval) (Or.inl rfl)) ?_
  rw [← monoPolys_lspan (Or.inl rfl)]
  refine Submodule.span_le.2 fun x hx => ?_
  obtain ⟨b, hb, rfl⟩ := List.mem_map.1 hx
  have hl : monoPolys 1 3 = [[(1, [0])], [(1, [1])], [(1, [2])], [(1, [3])]] := by decide
  rw [hl] at hb
  have h2 : ∀ j : ℕ, j ≤ 2 → denotePoly ℝ [(1, [j])] ∈ wuXuSpace 1 := fun j hj =>
    wuXu_contains 1 _ (denotePoly_mem (by simpa using (by exact_mod_cast hj : (j : ℤ) ≤ 1 + 1)))
  simp only [List.mem_cons, List.not_mem_nil, or_false] at hb
  rcases hb with rfl | rfl | rfl | rfl
  · exact h2 0 (by omega)
  · exact h2 1 (by omega)
  · exact h2 2 (by omega)
  · have hb : simplexBubble 1 * X 0 ∈ wuXuSpace 1 := Submodule.mem_sup_right (Submodule.subset_span ⟨0, by omega, rfl⟩)
    have e : denotePoly ℝ [(1, [3])] = denotePoly ℝ [(1, [2])] - simplexBubble 1 * X 0 := by
      simp [denotePoly, denoteMono, monoFrom, simplexBubble]
      ring
    rw [e]
    exact Submodule.sub_mem _ (h2 2 (by omega)) hb

theorem degrees_wuXu {c : Cell} (hc : Simplex c) : HasDegrees (P c.tdim) (P c.tdim) (· ∈ wuXuSpace c.tdim) (declWuXu c (c.tdim + 1)) := by
  have hp := P_monotone c.tdim
  have hsub := wuXu_sub hc
  have hlsp := wuXu_lspan hc
  have hbub : ∀ i < c.tdim, simplexBubble c.tdim * X i ∈ wuXuSpace c.tdim := fun i hi => Submodule.mem_sup_right (Submodule.subset_span ⟨i, hi, rfl⟩)
  rcases hc with rfl | rfl | rfl
  · show HasDegrees (P 1) (P 1) (· ∈ wuXuSpace 1) ⟨3, 3, 3, 3⟩
    rw [wuXu_interval]
    exact degrees_P (by decide) 3
  · have h1 : IsGreatest {n | ∀ f ∈ P 2 n, f ∈ wuXuSpace 2} (3 : ℤ) := by
      refine greatest_of hp (wuXu_contains 2) (denotePoly ℝ [(1, [4, 0])]) (denotePoly_mem (by decide)) ?_
      show _ ∉ wuXuSpace 2
      rw [← show lspan ((wuXuPolys 2).map (denotePoly ℝ)) = wuXuSpace 2 from hlsp]
      exact not_mem_of_jet (T := differences 2 4) (by decide +kernel) (by decide +kernel)
    have h2 : IsLeast {n | ∀ f, f ∈ wuXuSpace 2 → f ∈ P 2 n} (4 : ℤ) := by
      refine least_of hp hsub (denotePoly ℝ [(1, [2, 1]), (-1, [3, 1]), (-1, [2, 2])]) ?_ ?_
      · have := hbub 0 (by decide)
        have e : denotePoly ℝ [(1, [2, 1]), (-1, [3, 1]), (-1, [2, 2])] = simplexBubble 2 * X 0 := by
          simp [denotePoly, denoteMono, monoFrom, simplexBubble, Finset.prod_range_succ, Finset.sum_range_succ]
          ring
        rw [e]
        exact this
      · show _ ∉ P 2 3
        rw [← monoPolys_lspan (Or.inr (Or.inl rfl))]
        exact not_mem_of_jet (T := [(1, [3, 1], [0, 0])]) (by decide +kernel) (by decide +kernel)
    exact ⟨h1, h2, h1, h2⟩
  · have h1 : IsGreatest {n | ∀ f ∈ P 3 n, f ∈ wuXuSpace 3} (4 : ℤ) := by
      refine greatest_of hp (wuXu_contains 3) (denotePoly ℝ [(1, [5, 0, 0])]) (denotePoly_mem (by decide)) ?_
      show _ ∉ wuXuSpace 3
      rw [← show lspan ((wuXuPolys 3).map (denotePoly ℝ)) = wuXuSpace 3 from hlsp]
      exact not_mem_of_jet (T := differences 3 5) (by decide +kernel) (by decide +kernel)
    have h2 : IsLeast {n | ∀ f, f ∈ wuXuSpace 3 → f ∈ P 3 n} (5 : ℤ) := by
      refine least_of hp hsub (denotePoly ℝ [(1, [2, 1, 1]), (-1, [3, 1, 1]), (-1, [2, 2, 1]), (-1, [2, 1, 2])]) ?_ ?_
      · have := hbub 0 (by decide)
        have e : denotePoly ℝ [(1, [2, 1, 1]), (-1, [3, 1, 1]), (-1, [2, 2, 1]), (-1, [2, 1, 2])] = simplexBubble 3 * X 0 := by
          simp [denotePoly, denoteMono, monoFrom, simplexBubble, Finset.prod_range_succ, Finset.sum_range_succ]
          ring
        rw [e]
        exact this
      · show _ ∉ P 3 4
        rw [← monoPolys_lspan (Or.inr (Or.inr rfl))]
        exact not_mem_of_jet (T := [(1, [3, 1, 1], [0, 0, 0])]) (by decide +kernel) (by decide +kernel)
    exact ⟨h1, h2, h1, h2⟩

/-- **C146.** The declared degrees of Wu-Xu elements. -/
theorem wuXu_degrees {c : Cell} (hc : Simplex c) : ElementDegrees (W c) (P c.tdim) (wuXu c (c.tdim + 1)) (declWuXu c (c.tdim + 1)) := by
  refine of_created (wuXu_created hc) ?_
  rw [W_eq_simplex hc]
  exact degrees_wuXu hc

end Verif.Degrees
