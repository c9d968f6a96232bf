import Verif.Smooth.Argyris
/-!
# Bell elements

symfem/elements/bell.py, on triangles with any vertices.
-/

namespace Verif.Smooth
open Verif.References Verif.Moments Verif.Functionals Verif.Elements Verif.FiniteElement Verif.Polysets Verif.Orthogonal
open Verif.Families Verif.Scalar
open MvPolynomial

/-! ### Model -/

/-- The functionals of a vertex (symfem/elements/bell.py:33-38). -/
noncomputable def bellVertex (v : ℕ → ℕ → ℝ) (n : ℕ) : List (Dof ℝ (MvPolynomial ℕ ℝ)) :=
  PointDof.functional ⟨v n, (0, n)⟩ :: [[1, 0], [0, 1], [2, 0], [1, 1], [0, 2]].map fun s => derivDof (v n) s (0, n) none

/-- `poly` (symfem/elements/bell.py:40-44). -/
def bellPolys : List Poly :=
  monoPolys 2 4 ++ [[(1, [5, 0]), (-1, [0, 5])], [(1, [3, 2]), (-1, [2, 3])], [(5, [2, 3]), (-1, [5, 0])]]

/-- `Bell(reference, order)` (symfem/elements/bell.py:19-46) on a triangle with vertices `v`. -/
noncomputable def bell (v : ℕ → ℕ → ℝ) (k : ℕ) : Option (Element ℝ (MvPolynomial ℕ ℝ)) :=
  if k = 5 then ciarlet (bellPolys.map (denotePoly ℝ)) ((List.range 3).flatMap (bellVertex v)) else none

/-! ### Specification -/

/-- The polynomials of degree at most 5 whose derivatives across each edge of the triangle are cubic on the edge. -/
def BellSpace (v : ℕ → ℕ → ℝ) (f : MvPolynomial ℕ ℝ) : Prop :=
  f ∈ P 2 5 ∧ ∀ i < 3, ∀ n : ℕ → ℝ, (∀ z w, ∑ j ∈ Finset.range 2, n j * ((edgeOf v i).param z j - (edgeOf v i).param w j) = 0) →
    pull (edgeOf v i) (directional 2 n f) ∈ P 1 3

/-! ### The terms of degree 5 -/

/-- The terms of degree 5. -/
theorem quintic_terms {f : MvPolynomial ℕ ℝ} (hf : f ∈ P 2 5) : ∃ q ∈ P 2 4, ∃ a : ℕ → ℝ,
    f = q + ∑ i ∈ Finset.range 6, C (a i) * denoteMono ℝ [i, 5 - i] := by
  refine ⟨f - ∑ i ∈ Finset.range 6, C (coeff (expo 0 [i, 5 - i]) f) * denoteMono ℝ [i, 5 - i], ?_, fun i => coeff (expo 0 [i, 5 - i]) f, by ring⟩
  have hm : f - ∑ i ∈ Finset.range 6, C (coeff (expo 0 [i, 5 - i]) f) * denoteMono ℝ [i, 5 - i] ∈ P 2 5 := by
    refine Submodule.sub_mem _ hf (Submodule.sum_mem _ fun i hi => ?_)
    have := Finset.mem_range.1 hi
    exact C_mul_mem _ (denoteMono_mem rfl (by simp; omega))
  rw [mem_P] at hm ⊢
  intro s hs
  obtain ⟨h1, h2⟩ := hm s hs
  refine ⟨?_, h2⟩
  by_contra h
  have e : s = expo 0 [s 0, s 1] := by
    ext j
    match j with
    | 0 => simp [expo]
    | 1 => simp [expo]
    | j + 2 =>
      have : s (j + 2) = 0 := by
        by_contra h0
        have := h2 _ (Finsupp.mem_support_iff.2 h0)
        omega
      simp [expo, this]
  have hd : s 0 + s 1 = 5 := by
    rw [e, expo_degree] at h1 h
    simp at h1 h
    omega
  refine mem_support_iff.1 hs ?_
  have h5 : s 1 = 5 - s 0 := by omega
  rw [e, coeff_sub, coeff_sum, Finset.sum_eq_single (s 0), coeff_C_mul, coeff_mono (m := [s 0, s 1]) (m' := [s 0, 5 - s 0]) rfl, h5, if_pos rfl,
    mul_one, sub_self]
  · intro i _ hi
    rw [coeff_C_mul, coeff_mono (m := [s 0, s 1]) (m' := [i, 5 - i]) rfl, if_neg (by simpa using fun h => absurd h hi), mul_zero]
  · intro hn
    exact absurd (Finset.mem_range.2 (by omega)) hn

def bellInv : List (List ℚ) := [
    [1, 0, 0, 0, 0, 0, 0, 0, 0, 0, 0, 0, 0, 0, 0, 0, 0, 0],
    [0, 1, 0, 0, 0, 0, 0, 0, 0, 0, 0, 0, 0, 0, 0, 0, 0, 0],
    [0, 0, 0, 1/2, 0, 0, 0, 0, 0, 0, 0, 0, 0, 0, 0, 0, 0, 0],
    [-10, -6, 0, -3/2, 0, 0, 10, -4, 0, 1/2, 0, 0, 0, 0, 0, 0, 0, 0],
    [15, 8, 0, 3/2, 0, 0, -15, 7, 0, -1, 0, 0, 0, 0, 0, 0, 0, 0],
    [0, 0, 1, 0, 0, 0, 0, 0, 0, 0, 0, 0, 0, 0, 0, 0, 0, 0],
    [0, 0, 0, 0, 1, 0, 0, 0, 0, 0, 0, 0, 0, 0, 0, 0, 0, 0],
    [0, 0, -3, 0, -2, 0, 0, 0, 3, 0, -1, 0, 0, 0, 0, 0, 0, 0],
    [0, 0, 2, 0, 1, 0, 0, 0, -2, 0, 1, 0, 0, 0, 0, 0, 0, 0],
    [0, 0, 0, 0, 0, 1/2, 0, 0, 0, 0, 0, 0, 0, 0, 0, 0, 0, 0],
    [0, -3, 0, 0, -2, 0, 0, 0, 0, 0, 0, 0, 0, 3, 0, 0, -1, 0],
    [-30, -6, -6, -3/2, 2, -3/2, 15, -15/2, -3/2, 5/4, 1/2, 1/4, 15, -3/2, -15/2, 1/4, 1/2, 5/4],
    [-10, 0, -6, 0, 0, -3/2, 0, 0, 0, 0, 0, 0, 10, 0, -4, 0, 0, 1/2],
    [0, 2, 0, 0, 1, 0, 0, 0, 0, 0, 0, 0, 0, -2, 0, 0, 1, 0],
    [15, 0, 8, 0, 0, 3/2, 0, 0, 0, 0, 0, 0, -15, 0, 7, 0, 0, -1],
    [6, 0, 3, 0, 0, 1/2, 0, 0, 0, 0, 0, 0, -6, 0, 3, 0, 0, -1/2],
    [30, 9, 6, 3/2, 0, 1, -15, 15/2, 3/2, -5/4, -1/2, 1/4, -15, -3/2, 15/2, -1/4, 1/2, -5/4],
    [12, 3, 3, 1/2, 0, 1/2, -6, 3, 0, -1/2, 0, 0, -6, 0, 3, 0, 0, -1/2]]

/-- The coefficient of degree 4 of the derivatives across the edges. -/
def lead (a : ℕ → ℝ) : ℕ → ℝ
  | 0 => 5 * a 0 - 3 * a 1 + a 2 + a 3 - 3 * a 4 + 5 * a 5
  | 1 => a 1
  | _ => a 4

theorem cubic_mem (b : ℕ → ℝ) : ∑ k ∈ Finset.range 4, C (b k) * X 0 ^ k ∈ P 1 3 := by
  refine Submodule.sum_mem _ fun k hk => C_mul_mem _ ?_
  have h := P_pow (X_mem (d := 1) (i := 0) (by omega)) k
  refine P_mono ?_ h
  have := Finset.mem_range.1 hk
  push_cast
  omega

theorem lead_eq {i : ℕ} (hi : i < 3) (a : ℕ → ℝ) : ∃ r ∈ P 1 3,
    pull (entityDomain .triangle (1, i)) (directional 2 (across i) (∑ l ∈ Finset.range 6, C (a l) * denoteMono ℝ [l, 5 - l])) =
      C (lead a i) * X 0 ^ 4 + r := by
  obtain ⟨p, q, h, e⟩ := triangle_edges hi
  have key : ∀ b : ℕ → ℝ, (∀ z, eval ((entityDomain .triangle (1, i)).param z) (directional 2 (across i) (∑ l ∈ Finset.range 6, C (a l) * denoteMono ℝ [l, 5 - l])) =
      lead a i * z 0 ^ 4 + ∑ k ∈ Finset.range 4, b k * z 0 ^ k) → ∃ r ∈ P 1 3,
    pull (entityDomain .triangle (1, i)) (directional 2 (across i) (∑ l ∈ Finset.range 6, C (a l) * denoteMono ℝ [l, 5 - l])) =
      C (lead a i) * X 0 ^ 4 + r := fun b hb => ⟨_, cubic_mem b, MvPolynomial.funext fun z => by
        rw [eval_pull, hb]
        simp [map_sum]⟩
  rcases h with ⟨rfl, rfl, rfl⟩ | ⟨rfl, rfl, rfl⟩ | ⟨rfl, rfl, rfl⟩
  · refine key (fun k => [a 4 + 5 * a 5, 2 * a 3 - 20 * a 5, 3 * a 2 - 3 * a 3 - 6 * a 4 + 30 * a 5, 4 * a 1 - 4 * a 2 + 8 * a 4 - 20 * a 5].getD k 0) fun z => ?_
    rw [e, interval_param, directional_apply]
    simp [Finset.sum_range_succ, across, denoteMono, monoFrom, entityVerts, refTriangle, Derivation.leibniz, pderiv_X, lead]
    ring
  · refine key (fun _ => 0) fun z => ?_
    rw [e, interval_param, directional_apply]
    simp [Finset.sum_range_succ, across, denoteMono, monoFrom, entityVerts, refTriangle, Derivation.leibniz, pderiv_X, lead]
  · refine key (fun _ => 0) fun z => ?_
    rw [e, interval_param, directional_apply]
    simp [Finset.sum_range_succ, across, denoteMono, monoFrom, entityVerts, refTriangle, Derivation.leibniz, pderiv_X, lead]

theorem lead_iff {c : ℝ} {r : MvPolynomial ℕ ℝ} (hr : r ∈ P 1 3) : C c * X 0 ^ 4 + r ∈ P 1 3 ↔ c = 0 := by
  refine ⟨fun h => ?_, fun h => by rw [h]; simpa using hr⟩
  have h1 : C c * X 0 ^ 4 ∈ P 1 3 := by
    have := Submodule.sub_mem _ h hr
    rwa [add_sub_cancel_right] at this
  by_contra hc
  have h2 : Finsupp.single 0 4 ∈ (C c * X 0 ^ 4 : MvPolynomial ℕ ℝ).support := by
    rw [mem_support_iff, coeff_C_mul, coeff_X_pow, if_pos rfl, mul_one]
    exact hc
  have := (mem_P.1 h1 _ h2).1
  simp at this

theorem across_perp {i : ℕ} (hi : i < 3) (z w : ℕ → ℝ) :
    ∑ j ∈ Finset.range 2, across i j * ((entityDomain .triangle (1, i)).param z j - (entityDomain .triangle (1, i)).param w j) = 0 := by
  obtain ⟨a, b, h, e⟩ := triangle_edges hi
  rw [e, interval_param, interval_param]
  rcases h with ⟨rfl, rfl, rfl⟩ | ⟨rfl, rfl, rfl⟩ | ⟨rfl, rfl, rfl⟩ <;> simp [Finset.sum_range_succ, across, entityVerts, refTriangle]

theorem edge_pull_mem {i : ℕ} (hi : i < 3) {k : ℤ} {f : MvPolynomial ℕ ℝ} (hf : f ∈ P 2 k) : pull (entityDomain .triangle (1, i)) f ∈ P 1 k := by
  have := Families.pull_mem (entityDomain .triangle (1, i)) hf
  have hd : (entityDomain .triangle (1, i)).cell.tdim = 1 := edge_dim _ hi
  rwa [hd] at this

theorem bell_iff (q : MvPolynomial ℕ ℝ) (hq : q ∈ P 2 4) (a : ℕ → ℝ) :
    BellSpace (refVertex .triangle) (q + ∑ i ∈ Finset.range 6, C (a i) * denoteMono ℝ [i, 5 - i]) ↔ ∀ i < 3, lead a i = 0 := by
  have h5 : q + ∑ i ∈ Finset.range 6, C (a i) * denoteMono ℝ [i, 5 - i] ∈ P 2 5 :=
    Submodule.add_mem _ (P_mono (by norm_num) hq) (Submodule.sum_mem _ fun i hi => C_mul_mem _ (denoteMono_mem rfl (by
      have := Finset.mem_range.1 hi
      simp; omega)))
  have key : ∀ i < 3, pull (entityDomain .triangle (1, i)) (directional 2 (across i) (q + ∑ i ∈ Finset.range 6, C (a i) * denoteMono ℝ [i, 5 - i])) ∈ P 1 3 ↔
      lead a i = 0 := by
    intro i hi
    obtain ⟨r, hr, e⟩ := lead_eq hi a
    rw [map_add, pull_add, e, ← add_assoc, add_comm (pull _ _) (C _ * _), add_assoc]
    have h3 : directional 2 (across i) q ∈ P 2 3 := by
      have := directional_mem (across i) hq
      norm_num at this
      exact this
    exact lead_iff (Submodule.add_mem _ (edge_pull_mem hi h3) hr)
  refine ⟨fun h i hi => (key i hi).1 (h.2 i hi _ (across_perp hi)), fun h => ⟨h5, fun i hi n hn => ?_⟩⟩
  obtain ⟨t, ht⟩ := perp_across hi n hn
  have := (key i hi).2 (h i hi)
  rw [ht, smul_eq_C_mul, pull_mul]
  have hC : pull (edgeOf (refVertex .triangle) i) (C t) = C t := by simp [pull]
  rw [hC]
  exact C_mul_mem _ this

theorem bell_lspan (f : MvPolynomial ℕ ℝ) : f ∈ lspan (bellPolys.map (denotePoly ℝ)) ↔
    ∃ q ∈ P 2 4, ∃ b : ℕ → ℝ, f = q + (C (b 0) * (X 0 ^ 5 - X 1 ^ 5) + C (b 1) * (X 0 ^ 3 * X 1 ^ 2 - X 0 ^ 2 * X 1 ^ 3) +
      C (b 2) * (5 * (X 0 ^ 2 * X 1 ^ 3) - X 0 ^ 5)) := by
  have hs : lspan ([[(1, [5, 0]), (-1, [0, 5])], [(1, [3, 2]), (-1, [2, 3])], [(5, [2, 3]), (-1, [5, 0])]].map (denotePoly ℝ)) =
      Submodule.span ℝ {X 0 ^ 5 - X 1 ^ 5, X 0 ^ 3 * X 1 ^ 2 - X 0 ^ 2 * X 1 ^ 3, 5 * (X 0 ^ 2 * X 1 ^ 3) - X 0 ^ 5} := by
    rw [lspan]
    congr 1
    ext p
    have e1 : denotePoly ℝ [(1, [5, 0]), (-1, [0, 5])] = X 0 ^ 5 - X 1 ^ 5 := by
      simp [denotePoly, denoteMono, monoFrom, sub_eq_add_neg]
    have e2 : denotePoly ℝ [(1, [3, 2]), (-1, [2, 3])] = X 0 ^ 3 * X 1 ^ 2 - X 0 ^ 2 * X 1 ^ 3 := by
      simp [denotePoly, denoteMono, monoFrom, sub_eq_add_neg]
    have e3 : denotePoly ℝ [(5, [2, 3]), (-1, [5, 0])] = 5 * (X 0 ^ 2 * X 1 ^ 3) - X 0 ^ 5 := by
      simp [denotePoly, denoteMono, monoFrom, sub_eq_add_neg]
    simp only [List.map_cons, List.map_nil, e1, e2, e3, Set.mem_ofPred_eq, List.mem_cons, List.not_mem_nil, or_false, Set.mem_insert_iff,
      Set.mem_singleton_iff]
  rw [bellPolys, List.map_append, lspan_append, monoPolys_lspan (Or.inr (Or.inl rfl)), hs, Submodule.mem_sup]
  constructor
  · rintro ⟨q, hq, r, hr, rfl⟩
    obtain ⟨b0, b1, b2, rfl⟩ := Submodule.mem_span_triple.1 hr
    refine ⟨q, hq, fun k => [b0, b1, b2].getD k 0, ?_⟩
    simp only [smul_eq_C_mul, List.getD_cons_zero, List.getD_cons_succ]
  · rintro ⟨q, hq, b, rfl⟩
    refine ⟨q, hq, _, Submodule.mem_span_triple.2 ⟨b 0, b 1, b 2, ?_⟩, rfl⟩
    simp only [smul_eq_C_mul]

/-- The polynomials of the code are those of the space on the default triangle. -/
theorem bell_space (f : MvPolynomial ℕ ℝ) : f ∈ lspan (bellPolys.map (denotePoly ℝ)) ↔ BellSpace (refVertex .triangle) f := by
  have hm : ∀ i, denoteMono ℝ [i, 5 - i] = X 0 ^ i * X 1 ^ (5 - i) := fun i => by simp [denoteMono, monoFrom]
  rw [bell_lspan]
  constructor
  · rintro ⟨q, hq, b, rfl⟩
    have e : C (b 0) * (X 0 ^ 5 - X 1 ^ 5) + C (b 1) * (X 0 ^ 3 * X 1 ^ 2 - X 0 ^ 2 * X 1 ^ 3) + C (b 2) * (5 * (X 0 ^ 2 * X 1 ^ 3) - X 0 ^ 5) =
        ∑ i ∈ Finset.range 6, C ([-b 0, 0, -b 1 + 5 * b 2, b 1, 0, b 0 - b 2].getD i 0) * denoteMono ℝ [i, 5 - i] := by
      simp only [hm, Finset.sum_range_succ, Finset.sum_range_zero, List.getD_cons_zero, List.getD_cons_succ, map_add, map_sub, map_neg, map_mul,
        map_zero, map_ofNat]
      ring
    rw [e, bell_iff q hq]
    intro i hi
    interval_cases i <;> simp [lead]
    ring
  · intro h
    obtain ⟨q, hq, a, rfl⟩ := quintic_terms h.1
    rw [bell_iff q hq] at h
    have h0 : 5 * a 0 - 3 * a 1 + a 2 + a 3 - 3 * a 4 + 5 * a 5 = 0 := h 0 (by omega)
    have h1 : a 1 = 0 := h 1 (by omega)
    have h2 : a 4 = 0 := h 2 (by omega)
    have h3 : a 2 = -a 3 + 5 * (-a 0 - a 5) := by linarith
    refine ⟨q, hq, fun k => [-a 0, a 3, -a 0 - a 5].getD k 0, ?_⟩
    simp only [hm, Finset.sum_range_succ, Finset.sum_range_zero, List.getD_cons_zero, List.getD_cons_succ, h1, h2, h3, map_add, map_sub, map_neg,
      map_mul, map_zero, map_ofNat]
    ring

/-! ### The functionals -/

theorem bell_flat {v : ℕ → ℕ → ℝ} {n : ℕ} {f : MvPolynomial ℕ ℝ} : (∀ d ∈ bellVertex v n, d.eval f = 0) ↔ Flat (v n) f := by
  have hd : ∀ s, (derivDof (v n) s (0, n) none).eval f = eval (v n) (multiDeriv s 0 f) := fun _ => rfl
  have e10 : multiDeriv [1, 0] 0 f = pderiv 0 f := rfl
  have e01 : multiDeriv [0, 1] 0 f = pderiv 1 f := rfl
  have e20 : multiDeriv [2, 0] 0 f = pderiv 0 (pderiv 0 f) := rfl
  have e11 : multiDeriv [1, 1] 0 f = pderiv 1 (pderiv 0 f) := rfl
  have e02 : multiDeriv [0, 2] 0 f = pderiv 1 (pderiv 1 f) := rfl
  simp only [bellVertex, List.forall_mem_cons, List.map_cons, List.map_nil, hd, e10, e01, e20, e11, e02, eval_functional, List.not_mem_nil,
    false_implies, implies_true, and_true]
  constructor
  · rintro ⟨h0, h1, h2, h3, h4, h5⟩
    refine ⟨h0, fun i hi => ?_, fun i hi j hj => ?_⟩
    · interval_cases i
      · exact h1
      · exact h2
    · interval_cases i <;> interval_cases j
      · exact h3
      · exact h4
      · rw [pderiv_comm]; exact h4
      · exact h5
  · rintro ⟨h0, h1, h2⟩
    exact ⟨h0, h1 0 (by omega), h1 1 (by omega), h2 0 (by omega) 0 (by omega), h2 0 (by omega) 1 (by omega), h2 1 (by omega) 1 (by omega)⟩

theorem bellVertex_entity {v : ℕ → ℕ → ℝ} {n : ℕ} : ∀ d ∈ bellVertex v n, d.entity = (0, n) := by
  intro d hd
  rcases List.mem_cons.1 hd with rfl | hd
  · rfl
  · obtain ⟨i, -, rfl⟩ := List.mem_map.1 hd
    rfl

/-- **C119.** On the default triangle the Bell element can be created. Its functions are those of degree at most 5 whose derivatives across
the edges are cubic, and the values and the first derivatives on each vertex and edge are determined by the functionals of the closure. -/
theorem bell_created_partial : Created (bell (refVertex .triangle) 5) (BellSpace (refVertex .triangle)) 18 (C1Trace .triangle (refVertex .triangle) (BellSpace (refVertex .triangle))) := by
  have hfl : ∀ n < 3, ∀ f, (∀ d ∈ (List.range 3).flatMap (bellVertex (refVertex .triangle)), d.entity = (0, n) → d.eval f = 0) → Flat (refVertex .triangle n) f :=
    fun n hn f h => bell_flat.1 fun d hd => h d (List.mem_flatMap.2 ⟨n, List.mem_range.2 hn, hd⟩) (bellVertex_entity d hd)
  have hc := certified (B := bellPolys) (G := flatJets) bellInv (by decide +kernel)
  have hu : ∀ f, BellSpace (refVertex .triangle) f → (∀ d ∈ (List.range 3).flatMap (bellVertex (refVertex .triangle)), d.eval f = 0) → f = 0 := fun f hf hz =>
    hc.2 f ((bell_space f).2 hf) (flatJets_zero fun n hn => hfl n hn f fun d hd _ => hz d hd)
  refine created_of (basis := bellPolys.map (denotePoly ℝ)) (dofs := (List.range 3).flatMap (bellVertex (refVertex .triangle))) (if_pos rfl) ?_ ?_ hc.1
    bell_space hu (c1_of (fun _ h => h.1) hfl (fun i hi f hf hv _ => ?_) hu fun d hd => ?_)
  · rw [List.length_flatMap]
    simp [bellVertex, List.range_succ]
  · rw [List.length_map]
    decide
  · exact cubic (hf.2 i hi _ (across_perp hi)) (edge_ends (refVertex .triangle) hi hf.1 (across i) hv)
  · obtain ⟨n, hn, hd⟩ := List.mem_flatMap.1 hd
    rw [bellVertex_entity d hd]
    have := List.mem_range.1 hn
    interval_cases n <;> decide

/-- On any triangle, the values on an edge are determined by the functionals of its ends. -/
theorem bell_values (v : ℕ → ℕ → ℝ) {i : ℕ} (hi : i < 3) {f : MvPolynomial ℕ ℝ} (hf : f ∈ lspan (bellPolys.map (denotePoly ℝ)))
    (h : ∀ n ∈ entVerts .triangle 1 i, ∀ d ∈ bellVertex v n, d.eval f = 0) (z : ℕ → ℝ) : eval ((edgeOf v i).param z) f = 0 := by
  rw [← eval_pull, edge_value v hi ((bell_space f).1 hf).1 fun n hn => bell_flat.1 (h _ (by revert n; interval_cases i <;> decide)), map_zero]

/-! ### Other triangles -/

/-- The triangle with vertices `(a, b)`, `(a + h, b)` and `(a + h, b + h)`. -/
noncomputable def turned (a b h : ℝ) : ℕ → ℕ → ℝ
  | 0 => coords [a, b]
  | 1 => coords [a + h, b]
  | _ => coords [a + h, b + h]

/-- **C119.** On the triangles of this shape the element can be created, but it has no basis functions: the set of polynomials is not that of
the triangle, and the matrix is singular. -/
theorem bell_turned (a b h : ℝ) : ∃ basis dofs, bell (turned a b h) 5 = some (.ciarlet basis dofs) ∧
    getBasis (.ciarlet basis dofs) = none := by
  refine ⟨bellPolys.map (denotePoly ℝ), (List.range 3).flatMap (bellVertex (turned a b h)), ?_, ?_⟩
  · rw [bell, if_pos rfl, ciarlet, if_pos]
    rw [List.length_flatMap]
    simp [bellVertex, List.range_succ]
    decide
  · refine getBasis_none (p := (X 1 - C b) ^ 2 * (X 0 - C (a + h)) ^ 2 * ((X 0 - C a) - (X 1 - C b))) ?_ ?_ ?_
    · refine (bell_lspan _).2 ⟨(X 1 - C b) ^ 2 * (X 0 - C (a + h)) ^ 2 * ((X 0 - C a) - (X 1 - C b)) - (X 0 ^ 3 * X 1 ^ 2 - X 0 ^ 2 * X 1 ^ 3), ?_,
        fun k => if k = 1 then 1 else 0, by simp⟩
      have hx : (X 0 : MvPolynomial ℕ ℝ) ∈ P 2 1 := X_mem (by omega)
      have hy : (X 1 : MvPolynomial ℕ ℝ) ∈ P 2 1 := X_mem (by omega)
      have hC : ∀ c : ℝ, C c ∈ P 2 1 := fun c => C_mem c (by norm_num)
      have h1 : C (-b) * X 0 + C (-(a + h)) * X 1 + C ((a + h) * b) ∈ P 2 1 :=
        Submodule.add_mem _ (Submodule.add_mem _ (C_mul_mem _ hx) (C_mul_mem _ hy)) (hC _)
      have hw : X 1 - C b ∈ P 2 1 := Submodule.sub_mem _ hy (hC _)
      have hu : X 0 - C (a + h) ∈ P 2 1 := Submodule.sub_mem _ hx (hC _)
      have h2 : (X 1 - C b) * (X 0 - C (a + h)) + X 0 * X 1 ∈ P 2 (1 + 1) := Submodule.add_mem _ (P_mul hw hu) (P_mul hx hy)
      have h3 : (X 0 - C a) - (X 1 - C b) ∈ P 2 1 := Submodule.sub_mem _ (Submodule.sub_mem _ hx (hC _)) hw
      have h4 : (C (-b) * X 0 + C (-(a + h)) * X 1 + C ((a + h) * b)) * ((X 1 - C b) * (X 0 - C (a + h)) + X 0 * X 1) * ((X 0 - C a) - (X 1 - C b)) ∈
          P 2 (1 + (1 + 1) + 1) := P_mul (P_mul h1 h2) h3
      have h5 : C (b - a) * ((X 0 * X 1) * (X 0 * X 1)) ∈ P 2 ((1 + 1) + (1 + 1)) := C_mul_mem _ (P_mul (P_mul hx hy) (P_mul hx hy))
      have h6 : (X 1 - C b) ^ 2 * (X 0 - C (a + h)) ^ 2 * ((X 0 - C a) - (X 1 - C b)) - (X 0 ^ 3 * X 1 ^ 2 - X 0 ^ 2 * X 1 ^ 3) =
          (C (-b) * X 0 + C (-(a + h)) * X 1 + C ((a + h) * b)) * ((X 1 - C b) * (X 0 - C (a + h)) + X 0 * X 1) * ((X 0 - C a) - (X 1 - C b)) +
          C (b - a) * ((X 0 * X 1) * (X 0 * X 1)) := by
        simp only [map_add, map_mul, map_neg, map_sub]
        ring
      rw [h6]
      exact Submodule.add_mem _ h4 h5
    · intro d hd
      obtain ⟨n, hn, hd⟩ := List.mem_flatMap.1 hd
      have hn' := List.mem_range.1 hn
      refine bell_flat.2 ?_ d hd
      refine ⟨?_, fun i hi => ?_, fun i hi j hj => ?_⟩
      · interval_cases n <;> simp [turned, coords]
      · interval_cases n <;> interval_cases i <;> simp [turned, coords, Derivation.leibniz, pderiv_X]
      · interval_cases n <;> interval_cases i <;> interval_cases j <;> simp [turned, coords, Derivation.leibniz, pderiv_X]
    · intro h0
      have h1 : (|h| + 2) ^ 2 * (h + 1 - (|h| + 2)) = 0 := by
        have := congrArg (eval (coords [a + h + 1, b + (|h| + 2)])) h0
        simp only [map_mul, map_pow, map_sub, eval_X, eval_C, map_zero, coords, List.getD_cons_zero, List.getD_cons_succ] at this
        linear_combination this
      rcases mul_eq_zero.1 h1 with h2 | h2
      · have := abs_nonneg h
        have : |h| + 2 = 0 := by simpa using h2
        linarith
      · have := le_abs_self h
        linarith

/-- These triangles are not degenerate. -/
theorem turned_nonDegenerate (a b : ℝ) {h : ℝ} (hh : h ≠ 0) : NonDegenerate .triangle (turned a b h) := by
  intro t ht
  have h0 := ht 0 (by decide)
  have h1 := ht 1 (by decide)
  simp [Cell.tdim, Finset.sum_range_succ, axis, psub, axisVertices, turned, coords] at h0 h1
  have e1 : t 1 = 0 := by tauto
  have e0 : t 0 = 0 := by
    rw [e1] at h0
    simp at h0
    tauto
  intro k hk
  have hk2 : k < 2 := hk
  interval_cases k
  · exact e0
  · exact e1

example : NonDegenerate .triangle (turned 0 0 1) := turned_nonDegenerate 0 0 one_ne_zero

end Verif.Smooth
