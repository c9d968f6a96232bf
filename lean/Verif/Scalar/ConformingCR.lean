import Verif.Scalar.Simplex
/-!
# Conforming Crouzeix-Raviart elements

`symfem/elements/conforming_crouzeix_raviart.py`.  The code raises an error if the triangle is not the default one.
-/

namespace Verif.Scalar
open Verif.References Verif.Moments Verif.Functionals Verif.Elements Verif.FiniteElement Verif.Polysets Verif.Orthogonal
open Verif.Families
open MvPolynomial

/-- The additional polynomials (symfem/elements/conforming_crouzeix_raviart.py:40). -/
noncomputable def ccrExtra (k : ℕ) : List (MvPolynomial ℕ ℝ) :=
  (List.range' 1 (k - 1)).map fun i => X 0 ^ i * X 1 ^ (k - i) * (X 0 + X 1)

/-- The points on the edges (symfem/elements/conforming_crouzeix_raviart.py:46-52). -/
noncomputable def ccrEdges (k : ℕ) : List PointDof :=
  ((Cell.triangle.subEntities 1).getD []).zipIdx.flatMap fun e => (List.range' 1 (k - 1)).map fun p : ℕ =>
    ⟨fun j => (((k : ℝ) - p) * refVertex .triangle (e.1.getD 0 0) j + p * refVertex .triangle (e.1.getD 1 0) j) / k, (1, e.2)⟩

/-- The interior points (symfem/elements/conforming_crouzeix_raviart.py:53-59). -/
noncomputable def ccrInterior (k : ℕ) : List PointDof :=
  (List.range' 1 (k - 1)).flatMap fun i : ℕ => (List.range' 1 (k - i)).map fun j : ℕ =>
    ⟨fun n => [(3 * (i : ℝ) - 1) / (3 * k), (3 * (j : ℝ) - 1) / (3 * k)].getD n 0, (2, 0)⟩

/-- The points (symfem/elements/conforming_crouzeix_raviart.py:42-59). -/
noncomputable def ccrDofs (k : ℕ) : List PointDof :=
  onVertices .triangle (refVertex .triangle) ++ if 2 ≤ k then ccrEdges k ++ ccrInterior k else []

/-- `ConformingCrouzeixRaviart(reference, order)` (symfem/elements/conforming_crouzeix_raviart.py:24-61). -/
noncomputable def ccrElement (k : ℕ) : Option (Element ℝ (MvPolynomial ℕ ℝ)) :=
  (polySet 2 k).bind fun l => ciarlet (l.map (denoteMono ℝ) ++ ccrExtra k) ((ccrDofs k).map PointDof.functional)

/-- The functions: polynomials of degree `k` and the multiples of `x + y` by the products of degree `k` of both
variables. -/
noncomputable def Ccr (k : ℕ) : Submodule ℝ (MvPolynomial ℕ ℝ) :=
  P 2 k ⊔ Submodule.span ℝ {p | ∃ a b : ℕ, 0 < a ∧ 0 < b ∧ a + b = k ∧ p = X 0 ^ a * X 1 ^ b * (X 0 + X 1)}

theorem ccrExtra_span (k : ℕ) : lspan (ccrExtra k) =
    Submodule.span ℝ {p | ∃ a b : ℕ, 0 < a ∧ 0 < b ∧ a + b = k ∧ p = X 0 ^ a * X 1 ^ b * (X 0 + X 1)} := by
  rw [lspan]
  congr 1
  ext p
  simp only [ccrExtra, List.mem_map, List.mem_range'_1, Set.mem_ofPred_eq]
  constructor
  · rintro ⟨i, hi, rfl⟩
    exact ⟨i, k - i, by omega, by omega, by omega, rfl⟩
  · rintro ⟨a, b, ha, hb, h, rfl⟩
    exact ⟨a, by omega, by rw [show k - a = b by omega]⟩

theorem ccrExtra_eq (k i : ℕ) : (X 0 ^ i * X 1 ^ (k - i) * (X 0 + X 1) : MvPolynomial ℕ ℝ) =
    denoteMono ℝ [i + 1, k - i] + denoteMono ℝ [i, k - i + 1] := by
  simp only [denoteMono, monoFrom]
  ring

/-- The additional functions on the edges. -/
theorem ccrExtra_edges {k : ℕ} {w : MvPolynomial ℕ ℝ} (hw : w ∈ lspan (ccrExtra k)) : w ∈ P 2 (k + 1) ∧
    (∀ z : ℕ → ℝ, z 0 = 0 ∨ z 1 = 0 → eval z w = 0) ∧ ∃ w' ∈ P 2 k, ∀ z : ℕ → ℝ, z 0 + z 1 = 1 → eval z w = eval z w' := by
  induction hw using Submodule.span_induction with
  | mem p hp =>
    simp only [ccrExtra, List.mem_map, List.mem_range'_1, Set.mem_ofPred_eq] at hp
    obtain ⟨i, hi, rfl⟩ := hp
    refine ⟨?_, fun z hz => ?_, denoteMono ℝ [i, k - i], denoteMono_mem rfl ?_, fun z hz => ?_⟩
    · rw [ccrExtra_eq]
      refine Submodule.add_mem _ (denoteMono_mem rfl ?_) (denoteMono_mem rfl ?_) <;> simp <;> omega
    · have h1 : i ≠ 0 := by omega
      have h2 : k - i ≠ 0 := by omega
      rcases hz with hz | hz <;> simp [hz, h1, h2]
    · simp; omega
    · rw [eval_mono2]
      simp [hz]
  | zero => exact ⟨Submodule.zero_mem _, fun z _ => by simp, 0, Submodule.zero_mem _, fun z _ => rfl⟩
  | add p q _ _ hp hq =>
    obtain ⟨a1, a2, a, a3, a4⟩ := hp
    obtain ⟨b1, b2, b, b3, b4⟩ := hq
    exact ⟨Submodule.add_mem _ a1 b1, fun z hz => by rw [map_add, a2 z hz, b2 z hz, add_zero], a + b, Submodule.add_mem _ a3 b3,
      fun z hz => by rw [map_add, map_add, a4 z hz, b4 z hz]⟩
  | smul r p _ hp =>
    obtain ⟨a1, a2, a, a3, a4⟩ := hp
    exact ⟨Submodule.smul_mem _ _ a1, fun z hz => by rw [smul_eval, a2 z hz, mul_zero], r • a, Submodule.smul_mem _ _ a3,
      fun z hz => by rw [smul_eval, smul_eval, a4 z hz]⟩

/-- The functions on the edges. -/
theorem ccr_edges {k : ℕ} {f : MvPolynomial ℕ ℝ} (hf : f ∈ Ccr k) : f ∈ P 2 (k + 1) ∧
    (∃ g ∈ P 2 k, ∀ z : ℕ → ℝ, z 0 = 0 ∨ z 1 = 0 → eval z f = eval z g) ∧
    ∃ g ∈ P 2 k, ∀ z : ℕ → ℝ, z 0 + z 1 = 1 → eval z f = eval z g := by
  rw [Ccr, ← ccrExtra_span] at hf
  obtain ⟨p, hp, w, hw, rfl⟩ := Submodule.mem_sup.1 hf
  obtain ⟨h1, h2, w', h3, h4⟩ := ccrExtra_edges hw
  refine ⟨Submodule.add_mem _ (P_mono (by omega) hp) h1, ⟨p, hp, fun z hz => by rw [map_add, h2 z hz, add_zero]⟩, p + w',
    Submodule.add_mem _ hp h3, fun z hz => by rw [map_add, map_add, h4 z hz]⟩

/-- The polynomials are independent. -/
theorem ccr_independent {k : ℕ} {l : List Mono} (hl : polySet 2 k = some l) :
    Independent ℝ (l.map (denoteMono ℝ) ++ ccrExtra k) := by
  obtain ⟨l', l3, l4, l5⟩ := polySet_spec 2 (by simp) (k : ℤ)
  obtain rfl : l = l' := Option.some.inj (hl.symm.trans l3)
  obtain ⟨l', l1, l2⟩ := polySet_lspan (d := 2) (by simp) (k : ℤ)
  obtain rfl : l = l' := Option.some.inj (hl.symm.trans l1)
  let L : ℕ → MvPolynomial ℕ ℝ →ₗ[ℝ] ℝ := fun a =>
    ∑ b ∈ Finset.range (a + 1), (-1 : ℝ) ^ (a - b) • lcoeff ℝ (expo 0 [b, k + 1 - b])
  have hL : ∀ a p, L a p = ∑ b ∈ Finset.range (a + 1), (-1 : ℝ) ^ (a - b) * coeff (expo 0 [b, k + 1 - b]) p := fun a p => by
    simp [L, LinearMap.sum_apply]
  have hf : ∀ a i, 1 ≤ a → a < k → 1 ≤ i → i < k → L a (X 0 ^ i * X 1 ^ (k - i) * (X 0 + X 1)) = if i = a then 1 else 0 := by
    intro a i h1 h2 h3 h4
    rw [hL, ccrExtra_eq]
    have e : ∀ b ∈ Finset.range (a + 1), (-1 : ℝ) ^ (a - b) * coeff (expo 0 [b, k + 1 - b])
        (denoteMono ℝ [i + 1, k - i] + denoteMono ℝ [i, k - i + 1]) =
        (if b = i + 1 then (-1 : ℝ) ^ (a - b) else 0) + if b = i then (-1 : ℝ) ^ (a - b) else 0 := by
      intro b hb
      rw [Finset.mem_range] at hb
      rw [coeff_add, coeff_mono (m' := [i + 1, k - i]) (m := [b, k + 1 - b]) rfl,
        coeff_mono (m' := [i, k - i + 1]) (m := [b, k + 1 - b]) rfl]
      have e1 : ([i + 1, k - i] = [b, k + 1 - b]) ↔ b = i + 1 := by
        simp only [List.cons.injEq, and_true]; omega
      have e2 : ([i, k - i + 1] = [b, k + 1 - b]) ↔ b = i := by
        simp only [List.cons.injEq, and_true]; omega
      simp only [if_congr e1 rfl rfl, if_congr e2 rfl rfl, mul_add, mul_ite, mul_one, mul_zero]
    rw [Finset.sum_congr rfl e, Finset.sum_add_distrib, Finset.sum_ite_eq', Finset.sum_ite_eq']
    simp only [Finset.mem_range]
    rcases lt_trichotomy i a with h | h | h
    · rw [if_pos (by omega), if_pos (by omega), if_neg (by omega), show a - i = a - (i + 1) + 1 by omega, pow_succ]
      ring
    · rw [if_neg (by omega), if_pos (by omega), if_pos h, h]
      simp
    · rw [if_neg (by omega), if_neg (by omega), if_neg (by omega)]
      simp
  refine (enrich_dual (low := P 2 k) (L := L) (f := fun i => X 0 ^ i * X 1 ^ (k - i) * (X 0 + X 1)) (List.nodup_range' ..)
    (fun a ha => ?_) (fun a ha b hb hab => ?_) (fun a ha v hv => ?_) (le_of_eq l2)
    (independent_monos ℝ l4 fun m hm => ((l5 m).1 hm).1)).1
  · rw [List.mem_range'_1] at ha
    rw [hf a a (by omega) (by omega) (by omega) (by omega), if_pos rfl]
    exact one_ne_zero
  · rw [List.mem_range'_1] at ha hb
    rw [hf a b (by omega) (by omega) (by omega) (by omega), if_neg (Ne.symm hab)]
  · rw [List.mem_range'_1] at ha
    rw [hL]
    refine Finset.sum_eq_zero fun b hb => ?_
    rw [Finset.mem_range] at hb
    rw [coeff_low (k := k) (by simp; omega) hv, mul_zero]

/-- The functionals of an entity: the vertices, the points on the edges, the interior points. -/
theorem ccr_length {k : ℕ} (hk : 1 ≤ k) : (ccrDofs k).length = (k + 2).choose 2 + (k - 1) := by
  have h0 : (onVertices .triangle (refVertex .triangle)).length = 3 := by simp [onVertices, Cell.nverts]
  have h1 : (ccrEdges k).length = 3 * (k - 1) := by
    rw [ccrEdges, tri_edges]
    simp
    omega
  have h2 : (ccrInterior k).length = k.choose 2 := by
    rw [ccrInterior, List.length_flatMap]
    simp only [List.length_map, List.length_range']
    obtain ⟨m, rfl⟩ : ∃ m, k = m + 1 := ⟨k - 1, by omega⟩
    rw [Nat.add_sub_cancel, List.range'_eq_map_range, List.map_map]
    have e : ((fun i => m + 1 - i) ∘ fun i => 1 + i) = fun i => m - i := by
      funext i; simp; omega
    rw [e]
    have : ∀ m : ℕ, ((List.range m).map fun i => m - i).sum = (m + 1).choose 2 := by
      intro m
      induction m with
      | zero => rfl
      | succ m ih =>
        rw [List.range_succ_eq_map, List.map_cons, List.map_map, List.sum_cons]
        have e : ((fun i => m + 1 - i) ∘ Nat.succ) = fun i => m - i := by
          funext i; simp
        rw [e, ih, Nat.choose_succ_succ' (m + 1) 1, Nat.choose_one_right]
        exact Nat.sub_zero _ ▸ rfl
    exact this m
  have h3 : (k + 2).choose 2 = k.choose 2 + k + (k + 1) := by
    have e1 : (k + 2).choose 2 = _ := Nat.choose_succ_succ' (k + 1) 1
    have e2 := Nat.choose_succ_succ' k 1
    rw [Nat.choose_one_right] at e1 e2
    simp only [Nat.reduceAdd] at e1 e2
    omega
  rw [ccrDofs, List.length_append, h0]
  split_ifs with h
  · rw [List.length_append, h1, h2, h3]; omega
  · obtain rfl : k = 1 := by omega
    rfl

/-- The set of parameters of the points of an edge. -/
noncomputable def nodes (k : ℕ) : Finset ℝ := (Finset.range (k + 1)).image fun p : ℕ => (p : ℝ) / k

theorem nodes_card {k : ℕ} (hk : 1 ≤ k) : (nodes k).card = k + 1 := by
  have hk' : (k : ℝ) ≠ 0 := by positivity
  rw [nodes, Finset.card_image_of_injective _ fun a b h => by
    simpa [div_left_inj' hk'] using h, Finset.card_range]

theorem ccr_edge_zero {k : ℕ} (hk : 1 ≤ k) {i : ℕ} (hi : i < 3) {f : MvPolynomial ℕ ℝ} (hf : f ∈ Ccr k)
    (h : ∀ d ∈ ccrDofs k, entVerts .triangle d.entity.1 d.entity.2 ⊆ entVerts .triangle 1 i → eval d.point f = 0) (t : ℝ) :
    eval (onLine (refVertex .triangle ((entVerts .triangle 1 i).getD 0 0)) (refVertex .triangle ((entVerts .triangle 1 i).getD 1 0)) t) f = 0 := by
  have hk' : (k : ℝ) ≠ 0 := by positivity
  obtain ⟨-, ⟨g1, hg1, e1⟩, g2, hg2, e2⟩ := ccr_edges hf
  obtain ⟨r1, r2, r3, r4, r5, r6⟩ := ref_tri
  obtain ⟨g, hg, e⟩ : ∃ g ∈ P 2 k, ∀ t, eval (onLine (refVertex .triangle ((entVerts .triangle 1 i).getD 0 0))
      (refVertex .triangle ((entVerts .triangle 1 i).getD 1 0)) t) f = eval (onLine (refVertex .triangle ((entVerts .triangle 1 i).getD 0 0))
      (refVertex .triangle ((entVerts .triangle 1 i).getD 1 0)) t) g := by
    have v0 : entVerts .triangle 1 0 = [1, 2] := rfl
    have v1 : entVerts .triangle 1 1 = [0, 2] := rfl
    have v2 : entVerts .triangle 1 2 = [0, 1] := rfl
    interval_cases i
    · exact ⟨g2, hg2, fun t => e2 _ (by simp [v0, onLine, r3, r4, r5, r6])⟩
    · exact ⟨g1, hg1, fun t => e1 _ (Or.inl (by simp [v1, onLine, r1, r5]))⟩
    · exact ⟨g1, hg1, fun t => e1 _ (Or.inr (by simp [v2, onLine, r2, r4]))⟩
  rw [e]
  refine line_zero_of hg _ _ (S := nodes k) (by rw [nodes_card hk]; omega) (fun t ht => ?_) t
  obtain ⟨p, hp, rfl⟩ := Finset.mem_image.1 ht
  rw [Finset.mem_range] at hp
  rw [← e]
  have hvert : ∀ n < 3, n ∈ entVerts .triangle 1 i → eval (refVertex .triangle n) f = 0 := by
    intro n hn hm
    refine h ⟨refVertex .triangle n, (0, n)⟩ (List.mem_append_left _ (List.mem_map.2 ⟨n, List.mem_range.2 hn, rfl⟩)) ?_
    have : entVerts .triangle 0 n = [n] := by interval_cases n <;> rfl
    simp only [this]
    simpa using hm
  have hlt : (entVerts .triangle 1 i).getD 0 0 < 3 ∧ (entVerts .triangle 1 i).getD 1 0 < 3 ∧
      (entVerts .triangle 1 i).getD 0 0 ∈ entVerts .triangle 1 i ∧ (entVerts .triangle 1 i).getD 1 0 ∈ entVerts .triangle 1 i := by
    interval_cases i <;> decide
  rcases Nat.eq_zero_or_pos p with rfl | hp0
  · have := hvert _ hlt.1 hlt.2.2.1
    rw [← this]
    congr 2
    funext j
    simp [onLine]
  rcases eq_or_ne p k with rfl | hpk
  · have := hvert _ hlt.2.1 hlt.2.2.2
    rw [← this]
    congr 2
    funext j
    simp [onLine, hk']
  · have hm : (⟨fun j => (((k : ℝ) - p) * refVertex .triangle ((entVerts .triangle 1 i).getD 0 0) j +
        p * refVertex .triangle ((entVerts .triangle 1 i).getD 1 0) j) / k, (1, i)⟩ : PointDof) ∈ ccrDofs k := by
      refine List.mem_append_right _ ?_
      rw [if_pos (by omega)]
      refine List.mem_append_left _ (List.mem_flatMap.2 ⟨(entVerts .triangle 1 i, i), ?_, List.mem_map.2 ⟨p, ?_, rfl⟩⟩)
      · interval_cases i <;> decide
      · rw [List.mem_range'_1]; omega
    have := h _ hm (fun _ hx => hx)
    rw [← this]
    congr 2
    funext j
    simp only [onLine]
    field_simp
    ring

/-- A polynomial that vanishes at the interior points vanishes. -/
theorem ccr_interior_zero {k : ℕ} (hk : 2 ≤ k) {g : MvPolynomial ℕ ℝ} (hg : g ∈ P 2 ((k : ℤ) - 2))
    (h : ∀ d ∈ ccrInterior k, eval d.point g = 0) : g = 0 := by
  have hk' : (k : ℝ) ≠ 0 := by positivity
  refine eq_zero_of_lower' g {t | t.degree ≤ k - 2 ∧ ∀ i ∈ t.support, i < 2} ?_ (fun t ht => ?_)
    (fun i n => if i < 2 then (3 * ((n + 1 : ℕ) : ℝ) - 1) / (3 * k) else n) ?_ ?_
  · intro a b hab ha
    exact ⟨(Finsupp.degree_mono hab).trans ha.1, fun i hi => ha.2 i (by
      rw [Finsupp.mem_support_iff] at hi ⊢
      have := hab i
      omega)⟩
  · have := mem_P.1 hg t ht
    exact ⟨by omega, this.2⟩
  · intro t _ i a _ b _ hab
    simp only at hab
    split_ifs at hab
    · field_simp at hab
      have : (a : ℝ) = b := by push_cast at hab; linarith
      exact_mod_cast this
    · exact_mod_cast hab
  · intro t ht
    have hs : t 0 + t 1 ≤ k - 2 := by
      have : t.degree = t 0 + t 1 := by
        rw [Finsupp.degree_apply, Finset.sum_subset (s₁ := t.support) (s₂ := Finset.range 2)]
        · simp [Finset.sum_range_succ]
        · intro i hi; exact Finset.mem_range.2 (ht.2 i hi)
        · intro i _ hi; simpa using hi
      rw [← this]; exact ht.1
    have hm : (⟨fun n => [(3 * ((t 0 + 1 : ℕ) : ℝ) - 1) / (3 * k), (3 * ((t 1 + 1 : ℕ) : ℝ) - 1) / (3 * k)].getD n 0, (2, 0)⟩ : PointDof) ∈
        ccrInterior k :=
      List.mem_flatMap.2 ⟨t 0 + 1, by rw [List.mem_range'_1]; omega, List.mem_map.2 ⟨t 1 + 1, by rw [List.mem_range'_1]; omega, rfl⟩⟩
    have := h _ hm
    rw [← this]
    refine eval_congr_P hg fun i hi => ?_
    interval_cases i <;> simp

/-- **C111** Conforming Crouzeix-Raviart elements can be created for all orders, and the values on vertices and edges are
determined by the functionals there. -/
theorem ccr_created {k : ℕ} (hk : 1 ≤ k) : Created (ccrElement k) (· ∈ Ccr k) ((k + 2).choose 2 + (k - 1))
    (C0Trace .triangle (· ∈ Ccr k)) := by
  obtain ⟨l, l1, l2⟩ := polySet_lspan (d := 2) (by simp) (k : ℤ)
  have hdof : ∀ f, (∀ d ∈ (ccrDofs k).map PointDof.functional, d.eval f = 0) → ∀ d ∈ ccrDofs k, eval d.point f = 0 := by
    intro f h d hd
    rw [← eval_functional]
    exact h _ (List.mem_map_of_mem hd)
  have hu : ∀ f, f ∈ Ccr k → (∀ d ∈ (ccrDofs k).map PointDof.functional, d.eval f = 0) → f = 0 := by
    intro f hf h
    have hz := hdof f h
    have he := fun i (hi : i < 3) => ccr_edge_zero hk hi hf fun d hd _ => hz d hd
    obtain ⟨hP, -, -⟩ := ccr_edges hf
    have edge : ∀ i < 3, ∀ (z : ℕ → ℝ) (t : ℝ),
        (∀ j < 2, onLine (refVertex .triangle ((entVerts .triangle 1 i).getD 0 0)) (refVertex .triangle ((entVerts .triangle 1 i).getD 1 0)) t j = z j) →
        eval z f = 0 := by
      intro i hi z t hzt
      rw [← he i hi t]
      exact (eval_congr_P hP hzt).symm
    obtain ⟨r1, r2, r3, r4, r5, r6⟩ := ref_tri
    have v0 : entVerts .triangle 1 0 = [1, 2] := rfl
    have v1 : entVerts .triangle 1 1 = [0, 2] := rfl
    have v2 : entVerts .triangle 1 2 = [0, 1] := rfl
    obtain ⟨g, hg, rfl⟩ := tri_factor hP
      (fun z hz => edge 1 (by omega) z (z 1) fun j hj => by
        interval_cases j <;> simp [v1, onLine, r1, r2, r5, r6, hz])
      (fun z hz => edge 2 (by omega) z (z 0) fun j hj => by
        interval_cases j <;> simp [v2, onLine, r1, r2, r3, r4, hz])
      (fun z hz => edge 0 (by omega) z (z 1) fun j hj => by
        interval_cases j <;> simp [v0, onLine, r3, r4, r5, r6]; linarith)
    rcases Nat.lt_or_ge k 2 with h2 | h2
    · rw [P_neg (by omega) hg, mul_zero]
    · suffices hg0 : g = 0 by rw [hg0, mul_zero]
      refine ccr_interior_zero h2 (by convert hg using 2; ring) fun d hd => ?_
      have h1 := hz d (List.mem_append_right _ (by rw [if_pos h2]; exact List.mem_append_right _ hd))
      rw [map_mul, mul_eq_zero] at h1
      refine h1.resolve_left ?_
      simp only [ccrInterior, List.mem_flatMap, List.mem_map, List.mem_range'_1] at hd
      obtain ⟨i, hi, j, hj, rfl⟩ := hd
      have hk' : (0 : ℝ) < k := by positivity
      have i1 : (1 : ℝ) ≤ i := by exact_mod_cast hi.1
      have j1 : (1 : ℝ) ≤ j := by exact_mod_cast hj.1
      have ij : (i : ℝ) + j ≤ k := by exact_mod_cast (by omega : i + j ≤ k)
      rw [eval_triB]
      simp only [List.getD_cons_zero, List.getD_cons_succ]
      have p1 : 0 < (3 * (i : ℝ) - 1) / (3 * k) := div_pos (by linarith) (by linarith)
      have p2 : 0 < (3 * (j : ℝ) - 1) / (3 * k) := div_pos (by linarith) (by linarith)
      have p3 : 1 - (3 * (i : ℝ) - 1) / (3 * k) - (3 * (j : ℝ) - 1) / (3 * k) = (3 * k - 3 * i - 3 * j + 2) / (3 * k) := by
        field_simp
        ring
      rw [p3]
      have p4 : 0 < (3 * (k : ℝ) - 3 * i - 3 * j + 2) / (3 * k) := div_pos (by linarith) (by linarith)
      positivity
  refine created_of (basis := l.map (denoteMono ℝ) ++ ccrExtra k) (by rw [ccrElement, l1]; rfl)
    (by rw [List.length_map, ccr_length hk])
    (by rw [List.length_append, List.length_map, polySet_length _ _ _ l1, ccrExtra, List.length_map, List.length_range'])
    (ccr_independent l1) (fun v => by rw [lspan_append, l2, ccrExtra_span]; rfl) hu ?_
  intro dim hdim i hi f hf h
  have hz : ∀ d ∈ ccrDofs k, entVerts .triangle d.entity.1 d.entity.2 ⊆ entVerts .triangle dim i → eval d.point f = 0 := by
    intro d hd hs
    rw [← eval_functional]
    exact h _ (List.mem_map_of_mem hd) hs
  have hdim' : dim ≤ 2 := hdim
  intro z
  have hs : Simplex .triangle := Or.inr (Or.inl rfl)
  interval_cases dim
  · rw [point_param hs hi]
    have hi' : i < 3 := hi
    exact hz ⟨refVertex .triangle i, (0, i)⟩ (List.mem_append_left _ (List.mem_map.2 ⟨i, List.mem_range.2 hi', rfl⟩)) fun _ h => h
  · rw [edge_param hs]
    exact ccr_edge_zero hk hi hf hz _
  · have hi' : i < 1 := hi
    obtain rfl : i = 0 := by omega
    rw [hu f hf fun d hd => h d hd ?_, map_zero]
    obtain ⟨d, hd', rfl⟩ := List.mem_map.1 hd
    have key : ∀ dim ≤ 2, ∀ i < 3, entVerts .triangle dim i ⊆ entVerts .triangle 2 0 := by decide
    have hent : d.entity.1 ≤ 2 ∧ d.entity.2 < 3 := by
      rw [ccrDofs, ccrEdges, tri_edges] at hd'
      rcases List.mem_append.1 hd' with hd | hd
      · obtain ⟨n, hn, rfl⟩ := List.mem_map.1 hd
        exact ⟨by simp, List.mem_range.1 hn⟩
      · split_ifs at hd
        · rcases List.mem_append.1 hd with hd | hd
          · obtain ⟨e, he, hd⟩ := List.mem_flatMap.1 hd
            obtain ⟨p, -, rfl⟩ := List.mem_map.1 hd
            simp at he
            rcases he with rfl | rfl | rfl <;> simp
          · simp only [ccrInterior, List.mem_flatMap, List.mem_map] at hd
            obtain ⟨i, -, j, -, rfl⟩ := hd
            simp
        · simp at hd
    exact key _ hent.1 _ hent.2

/-- The element of order 2 has seven functions; one is `x y (x + y)`. -/
example : (2 + 2).choose 2 + (2 - 1) = 7 ∧ (X 0 ^ 1 * X 1 ^ 1 * (X 0 + X 1) : MvPolynomial ℕ ℝ) ∈ Ccr 2 :=
  ⟨rfl, Submodule.mem_sup_right (Submodule.subset_span ⟨1, 1, by norm_num, by norm_num, rfl, rfl⟩)⟩

end Verif.Scalar
