import Verif.Matrices.AwEdge
import Verif.Families.KmvCreated
import Verif.Families.Mtw
/-!
# The Arnold–Winther element (C148)
-/

namespace Verif.Matrices
open Verif.References Verif.Moments Verif.Functionals Verif.Elements Verif.FiniteElement Verif.Polysets Verif.Orthogonal Verif.Families
open MvPolynomial

/-- Symmetric matrices with products with the normals that vanish. -/
theorem bubble_form {k : ℕ} {u : MField 2} (hu : SymSpace 2 k u)
    (h : ∀ e < 3, ∀ z, OnFacet 2 e z → ∀ i : Fin 2, ∑ j : Fin 2, facetNormal e j.val * eval z (u i j) = 0) :
    ∃ L f g : MvPolynomial ℕ ℝ, L ∈ P 2 (k - 2 : ℤ) ∧ f ∈ P 2 (k - 2 : ℤ) ∧ g ∈ P 2 (k - 2 : ℤ) ∧ u 0 1 = X 0 * (X 1 * L) ∧
      u 0 0 = X 0 * (opp 2 * f - X 1 * L) ∧ u 1 1 = X 1 * (opp 2 * g - X 0 * L) := by
  obtain ⟨hs, hm⟩ := hu
  have a1 : ∀ z : ℕ → ℝ, z 0 = 0 → eval z (u 0 0) = 0 ∧ eval z (u 0 1) = 0 := by
    intro z hz
    have h0 := h 1 (by omega) z (by simpa [OnFacet] using hz) 0
    have h1 := h 1 (by omega) z (by simpa [OnFacet] using hz) 1
    rw [Fin.sum_univ_two] at h0 h1
    rw [hs 0 1]
    norm_num [facetNormal] at h0 h1
    exact ⟨h0, h1⟩
  have a2 : ∀ z : ℕ → ℝ, z 1 = 0 → eval z (u 0 1) = 0 ∧ eval z (u 1 1) = 0 := by
    intro z hz
    have h0 := h 2 (by omega) z (by simpa [OnFacet] using hz) 0
    have h1 := h 2 (by omega) z (by simpa [OnFacet] using hz) 1
    rw [Fin.sum_univ_two] at h0 h1
    norm_num [facetNormal] at h0 h1
    exact ⟨h0, h1⟩
  have a0 : ∀ z : ℕ → ℝ, ∑ i : Fin 2, z i.val = 1 → eval z (u 0 0) + eval z (u 0 1) = 0 ∧ eval z (u 0 1) + eval z (u 1 1) = 0 := by
    intro z hz
    have h0 := h 0 (by omega) z (by simpa [OnFacet] using hz) 0
    have h1 := h 0 (by omega) z (by simpa [OnFacet] using hz) 1
    rw [Fin.sum_univ_two] at h0 h1
    rw [hs 1 0] at h1
    norm_num [facetNormal] at h0 h1
    constructor <;> linarith
  obtain ⟨b, hb⟩ := X_dvd 0 fun z hz => (a1 z hz).2
  have hX : ¬ (X 1 : MvPolynomial ℕ ℝ) ∣ X 0 := by
    rintro ⟨q, hq⟩
    have := congrArg (eval (coords [1, 0])) hq
    simp [coords] at this
  obtain ⟨L, rfl⟩ : X 1 ∣ b := by
    have := X_dvd 1 fun z hz => (a2 z hz).1
    rw [hb] at this
    exact (X_dvd_mul_iff.1 this).resolve_left hX
  have hL : L ∈ P 2 (k - 2 : ℤ) := by
    have := hm 0 1
    rw [hb] at this
    have := X_cancel (X_cancel this)
    rwa [show (k : ℤ) - 1 - 1 = k - 2 by ring] at this
  have part : ∀ (i j : ℕ) (p : MvPolynomial ℕ ℝ), i < 2 → p ∈ P 2 k → (∀ z : ℕ → ℝ, z i = 0 → eval z p = 0) →
      (∀ z : ℕ → ℝ, ∑ i : Fin 2, z i.val = 1 → eval z p + eval z (X i * (X j * L)) = 0) → j < 2 →
      ∃ f, f ∈ P 2 (k - 2 : ℤ) ∧ p = X i * (opp 2 * f - X j * L) := by
    intro i j p hi hp h0 h1 hj
    obtain ⟨q, rfl⟩ := X_dvd i h0
    have hq := X_cancel hp
    have hd : opp 2 ∣ X i * (q + X j * L) := opp_dvd (by omega) fun z hz => by
      have := h1 z hz
      rw [← map_add] at this
      rw [mul_add]
      exact this
    obtain ⟨f, hf⟩ := opp_dvd_of_X_mul (d := 2) (by omega) hi (by omega) hd
    refine ⟨f, ?_, by rw [← hf]; ring⟩
    have : opp 2 * f ∈ P 2 (k - 1 : ℤ) := by
      rw [← hf]
      refine Submodule.add_mem _ hq ?_
      have := P_mul (X_mem (d := 2) hj) hL
      rwa [show (1 : ℤ) + (k - 2) = k - 1 by ring] at this
    have := P_cancel (degree_opp (d := 2) (by omega)) this
    rwa [show (k : ℤ) - 1 - 1 = k - 2 by ring] at this
  obtain ⟨f, hf, hf'⟩ := part 0 1 (u 0 0) (by omega) (hm 0 0) (fun z hz => (a1 z hz).1) (fun z hz => by
    rw [← hb]; exact (a0 z hz).1) (by omega)
  obtain ⟨g, hg, hg'⟩ := part 1 0 (u 1 1) (by omega) (hm 1 1) (fun z hz => (a2 z hz).2) (fun z hz => by
    have := (a0 z hz).2
    rw [hb] at this
    rw [show (X 1 * (X 0 * L) : MvPolynomial ℕ ℝ) = X 0 * (X 1 * L) by ring]
    linarith) (by omega)
  exact ⟨L, f, g, hL, hf, hg, hb, hf', hg'⟩

theorem eval_opp2 (z : ℕ → ℝ) : eval z (opp 2) = 1 - (z 0 + z 1) := by
  rw [eval_opp]
  congr 1
  exact Fin.sum_univ_two _

theorem opp2 : opp 2 = 1 - (X 0 + X 1) := by
  rw [opp]
  congr 1
  exact Fin.sum_univ_two _

/-- Second differences of polynomials of degree one. -/
theorem second_differences {p : MvPolynomial ℕ ℝ} (hp : p ∈ P 2 1) :
    eval (coords [2, 0]) p - 2 * eval (coords [1, 0]) p + eval (coords [0, 0]) p = 0 ∧
    eval (coords [1, 1]) p - eval (coords [1, 0]) p - eval (coords [0, 1]) p + eval (coords [0, 0]) p = 0 ∧
    eval (coords [0, 2]) p - 2 * eval (coords [0, 1]) p + eval (coords [0, 0]) p = 0 := by
  obtain ⟨a, b, c, rfl⟩ := P_one hp
  simp only [map_add, map_mul, eval_C, eval_X]
  norm_num [coords]
  refine ⟨by ring, by ring⟩

theorem integral_term (c : ℝ) (a b : ℕ) : pairing1 .triangle 1 (C c * (X 0 ^ a * X 1 ^ b)) =
    c * ((a.factorial : ℝ) * b.factorial / (a + b + 2).factorial) := by
  have e : (C c * (X 0 ^ a * X 1 ^ b) : MvPolynomial ℕ ℝ) = c • denoteMono ℝ [a, b] := by
    rw [smul_eq_C_mul]
    simp [denoteMono, monoFrom]
  rw [e, map_smul, smul_eq_mul]
  congr 1
  rw [← cellInt_tri_mono]
  show cellInt .triangle (fun z => eval z (1 * denoteMono ℝ [a, b])) = _
  rw [one_mul]

theorem integral_eq {q r : MvPolynomial ℕ ℝ} (h : pairing1 .triangle q 1 = 0) (e : q = r) : pairing1 .triangle 1 r = 0 := by
  rw [← e, pairing1_comm]
  exact h

theorem bubble_zero {u : MField 2} (hu : AwSpace 3 u)
    (h : ∀ e < 3, ∀ z, OnFacet 2 e z → ∀ i : Fin 2, ∑ j : Fin 2, facetNormal e j.val * eval z (u i j) = 0)
    (h00 : pairing1 .triangle (u 0 0) 1 = 0) (h01 : pairing1 .triangle (u 0 1) 1 = 0) (h11 : pairing1 .triangle (u 1 1) 1 = 0) : u = 0 := by
  obtain ⟨L, f, g, hL, hf, hg, e01, e00, e11⟩ := bubble_form hu.1 h
  obtain ⟨l0, l1, l2, rfl⟩ := P_one (show L ∈ P 2 1 from hL)
  obtain ⟨f0, f1, f2, rfl⟩ := P_one (show f ∈ P 2 1 from hf)
  obtain ⟨g0, g1, g2, rfl⟩ := P_one (show g ∈ P 2 1 from hg)
  have e10 := (hu.1.1 1 0).trans e01
  have d0 := second_differences (show rowDiv u 0 ∈ P 2 1 from hu.2 0)
  have d1 := second_differences (show rowDiv u 1 ∈ P 2 1 from hu.2 1)
  rw [opp2] at e00 e11
  simp only [rowDiv, e00, e01, e10, e11] at d0 d1
  simp only [map_add, map_sub, map_mul, Derivation.leibniz, pderiv_C, pderiv_X, smul_eq_mul, eval_C, eval_X, map_one, Pi.single_apply,
    Derivation.map_one_eq_zero, map_zero] at d0 d1
  norm_num [coords] at d0 d1
  have i01 := integral_eq h01 (e01.trans (show _ = C l0 * (X 0 ^ 1 * X 1 ^ 1) + C l1 * (X 0 ^ 2 * X 1 ^ 1) + C l2 * (X 0 ^ 1 * X 1 ^ 2) by ring))
  have i00 := integral_eq h00 (e00.trans (show _ = C f0 * (X 0 ^ 1 * X 1 ^ 0) + C (f1 - f0) * (X 0 ^ 2 * X 1 ^ 0) +
    C (f2 - f0 - l0) * (X 0 ^ 1 * X 1 ^ 1) + C (-f1) * (X 0 ^ 3 * X 1 ^ 0) + C (-f1 - f2 - l1) * (X 0 ^ 2 * X 1 ^ 1) +
    C (-f2 - l2) * (X 0 ^ 1 * X 1 ^ 2) by simp only [C_sub, C_neg]; ring))
  have i11 := integral_eq h11 (e11.trans (show _ = C g0 * (X 0 ^ 0 * X 1 ^ 1) + C (g2 - g0) * (X 0 ^ 0 * X 1 ^ 2) +
    C (g1 - g0 - l0) * (X 0 ^ 1 * X 1 ^ 1) + C (-g2) * (X 0 ^ 0 * X 1 ^ 3) + C (-g1 - g2 - l2) * (X 0 ^ 1 * X 1 ^ 2) +
    C (-g1 - l1) * (X 0 ^ 2 * X 1 ^ 1) by simp only [C_sub, C_neg]; ring))
  simp only [map_add, integral_term] at i01 i00 i11
  norm_num [Nat.factorial] at i01 i00 i11
  obtain ⟨d1a, d1b, d1c⟩ := d0
  obtain ⟨d2a, d2b, d2c⟩ := d1
  have hz : l0 = 0 ∧ l1 = 0 ∧ l2 = 0 ∧ f0 = 0 ∧ f1 = 0 ∧ f2 = 0 ∧ g0 = 0 ∧ g1 = 0 ∧ g2 = 0 := by
    refine ⟨?_, ?_, ?_, ?_, ?_, ?_, ?_, ?_, ?_⟩ <;> linarith
  obtain ⟨rfl, rfl, rfl, rfl, rfl, rfl, rfl, rfl, rfl⟩ := hz
  simp only [C_0, zero_mul, mul_zero, add_zero, sub_zero] at e00 e01 e10 e11
  funext i j
  fin_cases i <;> fin_cases j
  exacts [e00, e01, e10, e11]

/-- The functionals of the Arnold–Winther element of order 3 or greater. -/
theorem aw_dofs {k : ℕ} {extra : List (Dof ℝ (MField 2))} (he : awExtra "equispaced" k = some extra) :
    ∃ edges interior xs, awDofs "equispaced" k = some (awVertices ++ edges ++ interior ++ extra) ∧
    edges.length = 6 * (k - 2 + 1) ∧ interior.length = (k - 3 + 2).choose 2 * 3 ∧ lspan xs = P 1 (k - 2 : ℕ) ∧
    (∀ d ∈ edges, d.entity.1 = 1 ∧ d.mapping = some "double_contravariant") ∧
    (∀ d ∈ interior, d.entity = (2, 0) ∧ d.mapping = some "double_contravariant") ∧
    (∀ e < 3, ∀ u, (entityFunctionals edges (1, e)).map (·.eval u) =
      xs.flatMap fun x => [pairing1 .interval (line e false u) x, pairing1 .interval (line e true u) x]) ∧
    ∀ (u : MField 2) (n : ℤ), (∀ i j, u i j ∈ P 2 n) → (∀ d ∈ interior, d.eval u = 0) → ∀ q ∈ P 2 (k - 3 : ℕ),
      pairing1 .triangle (u 0 0) q = 0 ∧ pairing1 .triangle (u 0 1) q = 0 ∧ pairing1 .triangle (u 1 1) q = 0 := by
  obtain ⟨edges, xs, a1, a2, a3, a4, a5⟩ := aw_edges (k - 2)
  obtain ⟨interior, b1, b2, b3, b4⟩ := aw_interior "double_contravariant" (k - 3)
  refine ⟨edges, interior, xs, ?_, a2, b2, a3, a4, b3, a5, b4⟩
  rw [awDofs, a1, b1, he]
  rfl

/-- C148 (order 3).  The Arnold–Winther element of order 3 is created, has 24 functionals and basis functions, its basis functions span
the symmetric matrices of cubics with linear divergences, its functionals determine them, and the products with the normal on an edge
are determined by the functionals of the edge and its ends. -/
theorem aw_created : Created (awElement "equispaced" 3) (AwSpace 3) 24 (NormalTrace (AwSpace 3)) := by
  obtain ⟨l, h1, h2, h3, h4⟩ := aw_poly (k := 3) (by omega)
  obtain ⟨edges, interior, xs, b1, b2, b3, b4, -, -, b5, b6⟩ := aw_dofs (k := 3) (extra := []) (by simp [awExtra])
  have htr : NormalTrace (AwSpace 3) (awVertices ++ edges ++ (interior ++ [])) :=
    aw_trace (k := 3) (by omega) (fun u hu => hu.1) b4 b5
  rw [← List.append_assoc] at htr
  have hlen : (awVertices ++ edges ++ interior ++ []).length = 24 := by
    simp only [List.length_append, b2, b3, List.length_nil]
    rfl
  have hzero : ∀ u, AwSpace 3 u → (∀ d ∈ awVertices ++ edges ++ interior ++ [], d.eval u = 0) → u = 0 := by
    intro u hu hz
    obtain ⟨i0, i1, i2⟩ := b6 u 3 hu.1.2 (fun d hd => hz d (by simp [hd])) 1 (one_mem (by omega))
    exact bubble_zero hu (fun e he z hzf i => htr e he u hu (fun d hd _ => hz d hd) z hzf i) i0 i1 i2
  have hl2 : l.length = 24 := h2.trans (by decide)
  obtain ⟨c1, fs, c2, c3, c4⟩ := ciarlet_basis (basis := l) (hlen.trans hl2.symm) h3 fun u hu hz => hzero u ((h4 u).1 hu) hz
  refine ⟨l, _, fs, ?_, c2, hlen, c4.trans hl2, fun v => ?_, hzero, htr⟩
  · rw [awElement, h1, Option.bind_some, b1, Option.bind_some, c1]
  · rw [c3]
    exact h4 v

end Verif.Matrices
