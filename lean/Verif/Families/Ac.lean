import Verif.Families.HuangZhang
import Verif.Families.TrimmedDiv
import Verif.Smooth.Chain
import Mathlib.LinearAlgebra.Dimension.OrzechProperty
/-!
# Arbogast–Correa elements

`AC` on quadrilaterals (symfem/elements/ac.py).
-/

namespace Verif.Families
open Verif.References Verif.Moments Verif.Functionals Verif.Elements Verif.FiniteElement Verif.Polysets Verif.Orthogonal
open MvPolynomial

/-! ### Model -/

/-- The polynomials (symfem/elements/ac.py:35-44). -/
def acSet (k : ℕ) : Option (List VecPoly) :=
  (polySetVector 2 2 k).bind fun a => if k = 0 then some (a ++ [[[(1, [1, 0])], []], [[], [(1, [0, 1])]]])
    else (hdivSerSet 2 k).map fun b => a ++ (b ++ (List.range (k + 1)).map fun i : ℕ => [[(1, [i + 1, k - i])], [(1, [i, 1 + k - i])]])

/-- The gradients (symfem/elements/ac.py:51-55). -/
noncomputable def acGrads (k : ℕ) : List (List (MvPolynomial ℕ ℝ)) :=
  (List.range (k + 1)).flatMap fun i : ℕ => (List.range (k + 1 - i)).flatMap fun j : ℕ => if 0 < i + j then
    [[C (i : ℝ) * denoteMono ℝ [i - 1, j], C (j : ℝ) * denoteMono ℝ [i, j - 1]]] else []

/-- The functions with no divergence (symfem/elements/ac.py:60-65); `i - 1` and `j - 1` of the code are `i` and `j` here. -/
noncomputable def acWhirls (k : ℕ) : List (List (MvPolynomial ℕ ℝ)) :=
  (List.range (k - 2)).flatMap fun i : ℕ => (List.range (k - 2 - i)).map fun j : ℕ =>
    [X 0 ^ (i + 1) * (1 - X 0) * X 1 ^ j * (C ((j : ℝ) + 1) * (1 - X 1) - X 1),
     -(X 0 ^ i) * (C ((i : ℝ) + 1) * (1 - X 0) - X 0) * X 1 ^ (j + 1) * (1 - X 1)]

/-- `AC(reference, order, variant)` (symfem/elements/ac.py:25-69). -/
noncomputable def ac (variant : String) (k : ℕ) : Option (Element ℝ (Field Cell.quadrilateral.tdim)) :=
  momentElementWith dpcClasses .quadrilateral (acSet k)
    { facets := some (.single [.cls "NormalIntegralMoment", .cls "DPC", .int (k : ℤ), .dict [("variant", variant)]]) }
    ((acGrads k ++ acWhirls k).mapM fun f => againstDof .quadrilateral (2, 0) "contravariant" f)

/-! ### Stream functions -/

/-- A polynomial whose derivative in a direction is zero and that vanishes where the coordinate is zero. -/
theorem zero_of_pderiv {j : ℕ} {p : MvPolynomial ℕ ℝ} (h : pderiv j p = 0) (h0 : ∀ z : ℕ → ℝ, z j = 0 → eval z p = 0) : p = 0 := by
  classical
  refine MvPolynomial.funext fun z => ?_
  rw [map_zero, ← h0 (Function.update z j 0) (by simp)]
  rw [eval_eq, eval_eq]
  refine Finset.sum_congr rfl fun t ht => ?_
  have htj : t j = 0 := by
    by_contra hne
    have hc := congrArg (coeff (t - Finsupp.single j 1)) h
    have hs : t - Finsupp.single j 1 + Finsupp.single j 1 = t := tsub_add_cancel_of_le (Finsupp.single_le_iff.2 (by omega))
    rw [coeff_pderiv, coeff_zero, hs, mul_eq_zero] at hc
    rcases hc with hc | hc
    · exact (mem_support_iff.1 ht) hc
    · exact absurd hc (by positivity)
  congr 1
  refine Finset.prod_congr rfl fun i hi => ?_
  rw [Function.update_of_ne]
  rintro rfl
  exact (Finsupp.mem_support_iff.1 hi) htj

/-- The primitive in a direction that is zero where the coordinate is zero. -/
theorem primitive {d : ℕ} {k : ℤ} {j : ℕ} (hj : j < d) {p : MvPolynomial ℕ ℝ} (hp : p ∈ P d k) :
    ∃ q ∈ P d (k + 1), pderiv j q = p ∧ ∀ z : ℕ → ℝ, z j = 0 → eval z q = 0 := by
  classical
  refine ⟨p.support.sum fun t => monomial (t + Finsupp.single j 1) (coeff t p / ((t j : ℝ) + 1)), ?_, ?_, ?_⟩
  · refine Submodule.sum_mem _ fun t ht => ?_
    have h := mem_P.1 hp t ht
    refine mem_P.2 fun u hu => ?_
    have hu' : u = t + Finsupp.single j 1 := by
      by_contra hne
      exact (mem_support_iff.1 hu) (by rw [coeff_monomial, if_neg (Ne.symm hne)])
    subst hu'
    constructor
    · rw [map_add, Finsupp.degree_single]
      push_cast
      linarith [h.1]
    · intro i hi
      rcases Finset.mem_union.1 (Finsupp.support_add hi) with hi | hi
      · exact h.2 i hi
      · rw [Finset.mem_singleton.1 (Finsupp.support_single_subset hi)]
        exact hj
  · rw [map_sum]
    conv_rhs => rw [p.as_sum]
    refine Finset.sum_congr rfl fun t _ => ?_
    rw [pderiv_monomial]
    simp
    congr 1
    field_simp
  · intro z hz
    rw [map_sum]
    refine Finset.sum_eq_zero fun t _ => ?_
    rw [eval_monomial, Finsupp.prod, Finset.prod_eq_zero (i := j) (by simp) (by rw [hz]; simp), mul_zero]

/-- A polynomial whose derivative vanishes on a line. -/
theorem slice_zero {k : ℤ} {p : MvPolynomial ℕ ℝ} (hp : p ∈ P 2 k) (h : ∀ z : ℕ → ℝ, z 1 = 1 → eval z (pderiv 0 p) = 0)
    (h0 : ∀ z : ℕ → ℝ, z 0 = 0 → eval z p = 0) (z : ℕ → ℝ) (hz : z 1 = 1) : eval z p = 0 := by
  have hg : aeval (fun i : ℕ => if i = 1 then (1 : MvPolynomial ℕ ℝ) else X i) p = 0 := by
    have he : ∀ (q : MvPolynomial ℕ ℝ) (z : ℕ → ℝ), eval z (aeval (fun i : ℕ => if i = 1 then (1 : MvPolynomial ℕ ℝ) else X i) q) =
        eval (fun i => if i = 1 then 1 else z i) q := by
      intro q z
      rw [aeval_eval]
      congr 2
      funext i
      split_ifs <;> simp
    refine zero_of_pderiv (j := 0) ?_ fun z hz => ?_
    · refine MvPolynomial.funext fun z => ?_
      rw [Smooth.pderiv_aeval hp, Finset.sum_range_succ, Finset.sum_range_one]
      simp [he]
      exact h _ rfl
    · rw [he]
      exact h0 _ (by simpa using hz)
  have := congrArg (eval z) hg
  rw [aeval_eval, map_zero] at this
  rw [← this]
  congr 2
  funext i
  split_ifs with hi
  · rw [hi, hz, map_one]
  · simp

/-- The curl of a function. -/
noncomputable def curl2 : MvPolynomial ℕ ℝ →ₗ[ℝ] Field 2 := LinearMap.pi ![(pderiv 1).toLinearMap, -(pderiv 0).toLinearMap]

theorem curl2_zero (p : MvPolynomial ℕ ℝ) : curl2 p 0 = pderiv 1 p := rfl
theorem curl2_one (p : MvPolynomial ℕ ℝ) : curl2 p 1 = -pderiv 0 p := rfl

/-- Fields with no divergence and no normal components. -/
theorem stream {k : ℤ} {v : Field 2} (hv : ∀ i, v i ∈ P 2 k) (hd : divergence ℝ v = 0)
    (hn : ∀ (i : Fin 2) (z : ℕ → ℝ), z i.val = 0 ∨ z i.val = 1 → eval z (v i) = 0) :
    ∃ p ∈ P 2 (k - 3), v = curl2 (bub 0 * bub 1 * p) := by
  obtain ⟨q, hq, e⟩ := P_bub 0 (hv 0) (hn 0)
  obtain ⟨Q, hQ, hQ1, hQ0⟩ := primitive (d := 2) (j := 1) (by omega) hq
  have h0 : pderiv 1 (bub 0 * Q) = v 0 := by
    rw [Derivation.leibniz, hQ1, e]
    simp [bub, Derivation.leibniz, pderiv_X, Pi.single_apply]
  have hb : bub 0 * Q ∈ P 2 ((k - 2 + 1) + 1 + 1) := by
    rw [show bub 0 * Q = X 0 * Q - X 0 * (X 0 * Q) by rw [bub]; ring]
    exact Submodule.sub_mem _ (P_mono (by omega) (X_mul_mem (by omega) hQ)) (X_mul_mem (by omega) (X_mul_mem (by omega) hQ))
  have h1 : pderiv 0 (bub 0 * Q) + v 1 = 0 := by
    refine zero_of_pderiv (j := 1) ?_ fun z hz => ?_
    · rw [map_add, pderiv_comm ℝ 1 0, h0]
      rw [divergence, Fin.sum_univ_two] at hd
      exact hd
    · rw [map_add, hn 1 z (Or.inl hz), add_zero]
      have hdv := X_dvd (p := Q) 1 hQ0
      obtain ⟨R, rfl⟩ := hdv
      rw [Derivation.leibniz, Derivation.leibniz]
      simp [pderiv_X, Pi.single_apply, hz]
  have h2 : ∀ z : ℕ → ℝ, z 1 = 1 → eval z (bub 0 * Q) = 0 := by
    refine slice_zero hb (fun z hz => ?_) fun z hz => ?_
    · have h4 : eval z (v 1) = 0 := hn 1 z (Or.inr hz)
      rw [eq_neg_of_add_eq_zero_left h1, map_neg, h4, neg_zero]
    · simp [bub, hz]
  have h3 : ∀ z : ℕ → ℝ, z 1 = 1 → eval z Q = 0 := bub_cancel (by omega) h2
  obtain ⟨p, hp, rfl⟩ := P_bub 1 hQ fun z hz => hz.elim (hQ0 z) (h3 z)
  refine ⟨p, P_mono (by omega) hp, ?_⟩
  rw [mul_assoc]
  funext i
  fin_cases i
  · exact h0.symm
  · exact eq_neg_of_add_eq_zero_right h1

/-! ### The space -/

/-- A list as long as an independent list with the same span. -/
theorem independent_of_span {V : Type} [AddCommGroup V] [Module ℝ V] {l l' : List V} (h : Independent ℝ l) (hs : lspan l = lspan l')
    (hl : l.length = l'.length) : Independent ℝ l' := by
  have hr : ∀ l : List V, Set.range (fun i : Fin l.length => l[i]) = {x | x ∈ l} := by
    intro l
    ext x
    simp [List.mem_iff_getElem, Fin.exists_iff]
  unfold Independent at h ⊢
  rw [linearIndependent_iff_card_eq_finrank_span, hr, Set.finrank, Fintype.card_fin] at h ⊢
  rw [← hl, h]
  exact congrArg (fun S : Submodule ℝ V => Module.finrank ℝ S) hs

theorem hdivSer2_eq {k : ℕ} (hk : k ≠ 0) : hdivSerSet 2 k = some [sdivFn2 k 0, sdivFn2 k 1] := by
  simp [hdivSerSet, hk, sdivFn2]

/-- The polynomials: those of the trimmed serendipity element of the next order, with other functions of the same span. -/
theorem ac_spec (k : ℕ) : ∃ pl, acSet k = some pl ∧ Independent ℝ (pl.map (denoteVec ℝ 2)) ∧
    (∀ v, v ∈ lspan (pl.map (denoteVec ℝ 2)) ↔ TSdiv 2 (k + 1) (tsdivExt2 (k + 1)) v) ∧
    pl.length = if k = 0 then 4 else k ^ 2 + 4 * k + 5 := by
  obtain ⟨a, ha, hi, hS, hlen⟩ := ts_spec (Or.inl rfl) (tsMs2_nodup k) (fun _ => mem_tsMs2) (tsRads2_eq k) (ts2_dual k) (ts2_div k)
  rw [TSdiv_congr (ts2_ext k)] at hS
  have key : ∀ ex : List VecPoly, ex.length = (tsRads2 k ++ (tsKeys2 k).map (tsFn2 k)).length →
      lspan ((tsRads2 k ++ (tsKeys2 k).map (tsFn2 k)).map (denoteVec ℝ 2)) = lspan (ex.map (denoteVec ℝ 2)) →
      Independent ℝ ((a ++ ex).map (denoteVec ℝ 2)) ∧
      (∀ v, v ∈ lspan ((a ++ ex).map (denoteVec ℝ 2)) ↔ TSdiv 2 (k + 1) (tsdivExt2 (k + 1)) v) ∧
      (a ++ ex).length = if k = 0 then 4 else k ^ 2 + 4 * k + 5 := by
    intro ex h1 h2
    have hs : lspan ((a ++ (tsRads2 k ++ (tsKeys2 k).map (tsFn2 k))).map (denoteVec ℝ 2)) = lspan ((a ++ ex).map (denoteVec ℝ 2)) := by
      rw [List.map_append, lspan_append, h2, ← lspan_append, ← List.map_append]
    have hl : (a ++ (tsRads2 k ++ (tsKeys2 k).map (tsFn2 k))).length = (a ++ ex).length := by
      simp only [List.length_append] at h1 ⊢
      omega
    refine ⟨independent_of_span hi hs (by simpa using hl), fun v => by rw [← hs, hS], ?_⟩
    rw [← hl, hlen]
    have h2 := choose_two k
    have hml : (tsMs2 k).length = k + 1 := by simp [tsMs2]
    rw [hml]
    unfold tsKeys2
    by_cases h0 : k = 0
    · subst h0; rfl
    · rw [if_neg h0, if_neg h0]
      simp only [List.length_cons, List.length_nil]
      nlinarith
  unfold acSet
  rw [ha, Option.bind_some]
  by_cases h0 : k = 0
  · subst h0
    rw [if_pos rfl]
    refine ⟨_, rfl, key _ rfl ?_⟩
    have e : ∀ x y : Field 2, lspan [x, y] = Submodule.span ℝ {x, y} := by
      intro x y
      show Submodule.span ℝ {z | z ∈ [x, y]} = _
      refine congrArg (Submodule.span ℝ) (Set.ext fun z => ?_)
      simp [Set.mem_ofPred_eq]
    have e1 : denoteVec ℝ 2 [[(1, [1, 0])], [(1, [0, 1])]] = ![X 0, X 1] := by
      funext i; fin_cases i <;> simp [denoteVec, denotePoly, denoteMono, monoFrom]
    have e2 : denoteVec ℝ 2 (tsFn2 0 0) = ![X 0, -X 1] := by
      funext i; fin_cases i <;> simp [denoteVec, denotePoly, denoteMono, monoFrom, tsFn2]
    have e3 : denoteVec ℝ 2 [[(1, [1, 0])], []] = ![X 0, 0] := by
      funext i; fin_cases i <;> simp [denoteVec, denotePoly, denoteMono, monoFrom]
    have e4 : denoteVec ℝ 2 [[], [(1, [0, 1])]] = ![0, X 1] := by
      funext i; fin_cases i <;> simp [denoteVec, denotePoly, denoteMono, monoFrom]
    show lspan [denoteVec ℝ 2 [[(1, [1, 0])], [(1, [0, 1])]], denoteVec ℝ 2 (tsFn2 0 0)] =
      lspan [denoteVec ℝ 2 [[(1, [1, 0])], []], denoteVec ℝ 2 [[], [(1, [0, 1])]]]
    rw [e, e, e1, e2, e3, e4]
    have m : ∀ (x y : Field 2), x ∈ Submodule.span ℝ {x, y} ∧ y ∈ Submodule.span ℝ {x, y} := fun x y =>
      ⟨Submodule.subset_span (by simp), Submodule.subset_span (by simp)⟩
    have cast : ∀ (M : Submodule ℝ (Field 2)) {x y : Field 2}, y ∈ M → x = y → x ∈ M := fun M x y h e => e ▸ h
    apply le_antisymm <;> rw [Submodule.span_le]
    · rintro w (rfl | rfl)
      · refine cast _ (Submodule.add_mem _ (m (![X 0, 0] : Field 2) ![0, X 1]).1 (m ![X 0, 0] ![0, X 1]).2) ?_
        funext i; fin_cases i <;> simp
      · refine cast _ (Submodule.sub_mem _ (m (![X 0, 0] : Field 2) ![0, X 1]).1 (m ![X 0, 0] ![0, X 1]).2) ?_
        funext i; fin_cases i <;> simp
    · rintro w (rfl | rfl)
      · refine cast _ (Submodule.smul_mem _ (1 / 2 : ℝ) (Submodule.add_mem _ (m (![X 0, X 1] : Field 2) ![X 0, -X 1]).1 (m ![X 0, X 1] ![X 0, -X 1]).2)) ?_
        funext i; fin_cases i
        · show (X 0 : MvPolynomial ℕ ℝ) = (1 / 2 : ℝ) • (X 0 + X 0)
          rw [← two_smul ℝ (X 0), smul_smul]; norm_num
        · simp
      · refine cast _ (Submodule.smul_mem _ (1 / 2 : ℝ) (Submodule.sub_mem _ (m (![X 0, X 1] : Field 2) ![X 0, -X 1]).1 (m ![X 0, X 1] ![X 0, -X 1]).2)) ?_
        funext i; fin_cases i
        · simp
        · show (X 1 : MvPolynomial ℕ ℝ) = (1 / 2 : ℝ) • (X 1 - -X 1)
          rw [sub_neg_eq_add, ← two_smul ℝ (X 1), smul_smul]; norm_num
  · rw [if_neg h0, hdivSer2_eq h0, Option.map_some]
    refine ⟨_, rfl, key _ (by simp [tsRads2, tsKeys2, h0]) ?_⟩
    have hrad : ((List.range (k + 1)).map fun i : ℕ => ([[(1, [i + 1, k - i])], [(1, [i, 1 + k - i])]] : VecPoly)) = tsRads2 k := by
      simp only [tsRads2, Nat.add_comm 1 k]
    rw [hrad, tsKeys2, if_neg h0]
    have r0 : radial 2 (denoteMono ℝ [k, 0]) ∈ lspan ((tsRads2 k).map (denoteVec ℝ 2)) := by
      rw [tsRads2_eq]
      exact mem_lspan (List.mem_map_of_mem (mem_tsMs2.2 ⟨rfl, by simp⟩))
    have r1 : radial 2 (denoteMono ℝ [0, k]) ∈ lspan ((tsRads2 k).map (denoteVec ℝ 2)) := by
      rw [tsRads2_eq]
      exact mem_lspan (List.mem_map_of_mem (mem_tsMs2.2 ⟨rfl, by simp⟩))
    have hk : (0 : ℝ) < k := by exact_mod_cast Nat.pos_of_ne_zero h0
    have c2 : (C 2 : MvPolynomial ℕ ℝ) = 2 := map_ofNat C 2
    have i0 : ((k : ℝ) + 2) • denoteVec ℝ 2 (sdivFn2 k 0) = (k : ℝ) • denoteVec ℝ 2 (tsFn2 k 1) + (2 * (k : ℝ) + 2) • radial 2 (denoteMono ℝ [k, 0]) := by
      funext i
      fin_cases i <;> simp [denoteVec, sdivFn2, tsFn2, denotePoly, denoteMono, monoFrom, radial_apply, smul_eq_C_mul, c2] <;> ring
    have i1 : ((k : ℝ) + 2) • denoteVec ℝ 2 (sdivFn2 k 1) = (k : ℝ) • denoteVec ℝ 2 (tsFn2 k 0) + (2 * (k : ℝ) + 2) • radial 2 (denoteMono ℝ [0, k]) := by
      funext i
      fin_cases i <;> simp [denoteVec, sdivFn2, tsFn2, denotePoly, denoteMono, monoFrom, radial_apply, smul_eq_C_mul, c2] <;> ring
    have solve : ∀ (M : Submodule ℝ (Field 2)) {c : ℝ} (hc : c ≠ 0) {x y : Field 2}, c • x = y → y ∈ M → x ∈ M := by
      intro M c hc x y h hy
      rw [← h] at hy
      exact (Submodule.smul_mem_iff _ hc).1 hy
    simp only [List.map_append, List.map_cons, List.map_nil]
    apply le_antisymm <;> refine Submodule.span_le.2 fun w hw => ?_
    · have hin : ∀ u ∈ lspan ((tsRads2 k).map (denoteVec ℝ 2)), u ∈ lspan ([denoteVec ℝ 2 (sdivFn2 k 0), denoteVec ℝ 2 (sdivFn2 k 1)] ++
          (tsRads2 k).map (denoteVec ℝ 2)) := fun u hu => by
        rw [lspan_append]; exact Submodule.mem_sup_right hu
      have s0 : denoteVec ℝ 2 (sdivFn2 k 0) ∈ lspan ([denoteVec ℝ 2 (sdivFn2 k 0), denoteVec ℝ 2 (sdivFn2 k 1)] ++
          (tsRads2 k).map (denoteVec ℝ 2)) := mem_lspan (by simp)
      have s1 : denoteVec ℝ 2 (sdivFn2 k 1) ∈ lspan ([denoteVec ℝ 2 (sdivFn2 k 0), denoteVec ℝ 2 (sdivFn2 k 1)] ++
          (tsRads2 k).map (denoteVec ℝ 2)) := mem_lspan (by simp)
      rcases List.mem_append.1 hw with hw | hw
      · exact hin w (mem_lspan hw)
      · simp only [List.mem_cons, List.not_mem_nil, or_false] at hw
        rcases hw with rfl | rfl
        · exact solve _ hk.ne' (eq_sub_of_add_eq i1.symm) (Submodule.sub_mem _ (Submodule.smul_mem _ _ s1) (Submodule.smul_mem _ _ (hin _ r1)))
        · exact solve _ hk.ne' (eq_sub_of_add_eq i0.symm) (Submodule.sub_mem _ (Submodule.smul_mem _ _ s0) (Submodule.smul_mem _ _ (hin _ r0)))
    · have hin : ∀ u ∈ lspan ((tsRads2 k).map (denoteVec ℝ 2)), u ∈ lspan ((tsRads2 k).map (denoteVec ℝ 2) ++
          [denoteVec ℝ 2 (tsFn2 k 0), denoteVec ℝ 2 (tsFn2 k 1)]) := fun u hu => by
        rw [lspan_append]; exact Submodule.mem_sup_left hu
      have s0 : denoteVec ℝ 2 (tsFn2 k 0) ∈ lspan ((tsRads2 k).map (denoteVec ℝ 2) ++
          [denoteVec ℝ 2 (tsFn2 k 0), denoteVec ℝ 2 (tsFn2 k 1)]) := mem_lspan (by simp)
      have s1 : denoteVec ℝ 2 (tsFn2 k 1) ∈ lspan ((tsRads2 k).map (denoteVec ℝ 2) ++
          [denoteVec ℝ 2 (tsFn2 k 0), denoteVec ℝ 2 (tsFn2 k 1)]) := mem_lspan (by simp)
      rcases List.mem_append.1 hw with hw | hw
      · simp only [List.mem_cons, List.not_mem_nil, or_false] at hw
        rcases hw with rfl | rfl
        · exact solve _ (by positivity) i0 (Submodule.add_mem _ (Submodule.smul_mem _ _ s1) (Submodule.smul_mem _ _ (hin _ r0)))
        · exact solve _ (by positivity) i1 (Submodule.add_mem _ (Submodule.smul_mem _ _ s0) (Submodule.smul_mem _ _ (hin _ r1)))
      · exact hin w (mem_lspan hw)

/-! ### Unisolvence -/

theorem TSdiv.xp {n : ℕ} {v : Field 2} (hv : TSdiv 2 (n + 1) (tsdivExt2 (n + 1)) v) (j : Fin 2) : v j ∈ XP 2 ((n : ℤ) + 1) j := by
  rw [← TSdiv_congr (ts2_ext n)] at hv
  obtain ⟨p, ⟨r, hr, hp⟩, w, hw, rfl⟩ := hv
  push_cast at hr hp
  exact Submodule.add_mem _ (mem_XP.2 ⟨_, hp j, r, hr, by rw [sub_add_cancel]⟩) ((ts2_dual n).XP hw j)

theorem TSdiv.mem {n : ℕ} {v : Field 2} (hv : TSdiv 2 (n + 1) (tsdivExt2 (n + 1)) v) (j : Fin 2) : v j ∈ P 2 ((n : ℤ) + 1) :=
  XP_le j.2 (hv.xp j)

/-- A function with no normal components and no moments with gradients. -/
theorem ts2_low {n : ℕ} {v : Field 2} (hv : TSdiv 2 (n + 1) (tsdivExt2 (n + 1)) v)
    (hn : ∀ (i : Fin 2) (z : ℕ → ℝ), z i.val = 0 ∨ z i.val = 1 → eval z (v i) = 0)
    (hg : ∀ q ∈ P 2 (n : ℤ), pairing .quadrilateral v (gradient ℝ 2 q) = 0) : divergence ℝ v = 0 ∧ ∀ i, v i ∈ P 2 (n : ℤ) := by
  have hm := hv.mem
  obtain ⟨pl, h1, hi, hS, hlen, hlow⟩ := (ts2_dual n).spec (Or.inl rfl)
  rw [← TSdiv_congr (ts2_ext n)] at hv
  obtain ⟨p, hRT, w, hw, rfl⟩ := hv
  push_cast at hRT
  have hw0 : divL 2 w = 0 := by
    have : lspan (((tsKeys2 n).map (tsFn2 n)).map (denoteVec ℝ 2)) ≤ LinearMap.ker (divL 2) := by
      refine Submodule.span_le.2 fun v hv => ?_
      obtain ⟨F, hF, rfl⟩ := List.mem_map.1 hv
      obtain ⟨b, hb, rfl⟩ := List.mem_map.1 hF
      exact ts2_div n b hb
    exact this hw
  have h0 : divL 2 (p + w) = 0 := by
    have h2 := divL_mem hm
    rw [add_sub_cancel_right] at h2
    rw [divL_apply] at h2 ⊢
    exact box_div_zero (c := .quadrilateral) (Or.inl rfl) hm h2 hn hg
  have hpn : ∀ i, p i ∈ P 2 (n : ℤ) := rt_low (by omega) hRT (by
    rw [map_add, hw0, add_zero] at h0
    rw [h0]
    exact Submodule.zero_mem _)
  refine ⟨by rw [← divL_apply]; exact h0, hlow (p + w) ⟨p, hpn, w, hw, rfl⟩ fun j m _ h2 h3 => ?_⟩
  exact coeff_of_bub (hm j) (hn j) h2 h3

theorem whirl_eq (i j : ℕ) : (fun l : Fin 2 => ([X 0 ^ (i + 1) * (1 - X 0) * X 1 ^ j * (C ((j : ℝ) + 1) * (1 - X 1) - X 1),
     -(X 0 ^ i) * (C ((i : ℝ) + 1) * (1 - X 0) - X 0) * X 1 ^ (j + 1) * (1 - X 1)] : List (MvPolynomial ℕ ℝ)).getD l.val 0) =
    curl2 (bub 0 * bub 1 * denoteMono ℝ [i, j]) := by
  have e : ∀ n : ℕ, (C ((n : ℝ) + 1) : MvPolynomial ℕ ℝ) = (n : MvPolynomial ℕ ℝ) + 1 := fun n => by simp
  have e0 : bub 0 * bub 1 * denoteMono ℝ [i, j] = X 0 ^ (i + 1) * (1 - X 0) * (X 1 ^ (j + 1) * (1 - X 1)) := by
    simp [bub, denoteMono, monoFrom]
    ring
  rw [e0]
  funext l
  fin_cases l
  · refine Eq.trans ?_ (curl2_zero _).symm
    rw [Derivation.leibniz, Derivation.leibniz, Derivation.leibniz, Derivation.leibniz_pow, Derivation.leibniz_pow]
    simp [pderiv_X, Pi.single_apply]
    ring
  · refine Eq.trans ?_ (curl2_one _).symm
    rw [Derivation.leibniz, Derivation.leibniz, Derivation.leibniz, Derivation.leibniz_pow, Derivation.leibniz_pow]
    simp [pderiv_X, Pi.single_apply]
    ring

/-- A function with no normal components and no moments is zero. -/
theorem ac_zero {n : ℕ} {v : Field 2} (hv : TSdiv 2 (n + 1) (tsdivExt2 (n + 1)) v)
    (hn : ∀ (i : Fin 2) (z : ℕ → ℝ), z i.val = 0 ∨ z i.val = 1 → eval z (v i) = 0)
    (hg : ∀ q ∈ P 2 (n : ℤ), pairing .quadrilateral v (gradient ℝ 2 q) = 0)
    (hc : ∀ q ∈ P 2 ((n : ℤ) - 3), pairing .quadrilateral v (curl2 (bub 0 * bub 1 * q)) = 0) : v = 0 := by
  obtain ⟨h0, hm⟩ := ts2_low hv hn hg
  obtain ⟨p, hp, e⟩ := stream hm h0 hn
  have h1 := hc p hp
  rw [← e] at h1
  have h2 := squares_zero (c := .quadrilateral) (Box.solid (Or.inl rfl)) (fun _ : Fin 2 => 1) (fun _ z _ => by simp) (fun _ z _ => by simp) v
    hm (Eq.trans ?_ h1)
  · exact funext h2
  · refine Eq.trans ?_ (pairing_apply (c := .quadrilateral) (d := 2) v v).symm
    congr 1
    funext z
    congr 1
    refine Finset.sum_congr rfl fun i _ => ?_
    ring

/-! ### Creation -/

theorem sum_down (n : ℕ) : 2 * ((List.range n).map fun i => n - i).sum = n * (n + 1) := by
  induction n with
  | zero => rfl
  | succ n ih =>
    rw [List.range_succ_eq_map, List.map_cons, List.sum_cons, List.map_map, mul_add]
    have : ((fun i => n + 1 - i) ∘ Nat.succ) = fun i => n - i := by
      funext i; simp
    rw [this, ih]
    simp
    ring

theorem length_acWhirls (k : ℕ) : 2 * (acWhirls k).length = (k - 2) * (k - 1) := by
  rw [acWhirls, List.length_flatMap]
  simp only [List.length_map, List.length_range]
  rw [sum_down]
  rcases k with _ | _ | k <;> rfl

theorem length_acGrads (k : ℕ) : 2 * (acGrads k).length = k * (k + 3) := by
  rw [acGrads, List.range_succ_eq_map, List.flatMap_cons, List.length_append, mul_add, List.flatMap_map]
  have h1 : ∀ (n : ℕ) (g : ℕ → List (MvPolynomial ℕ ℝ)), ((List.range (n + 1)).flatMap fun j : ℕ => if 0 < 0 + j then [g j] else []).length = n := by
    intro n g
    rw [List.range_succ_eq_map, List.flatMap_cons, List.flatMap_map, List.length_append, List.length_flatMap]
    simp
  have h2 : ((List.range k).flatMap fun i : ℕ => (List.range (k + 1 - i.succ)).flatMap fun j : ℕ => if 0 < i.succ + j then
      [[C ((i.succ : ℕ) : ℝ) * denoteMono ℝ [i.succ - 1, j], C (j : ℝ) * denoteMono ℝ [i.succ, j - 1]]] else []).length =
      ((List.range k).map fun i => k - i).sum := by
    rw [List.length_flatMap]
    congr 1
    refine List.map_congr_left fun i _ => ?_
    rw [List.length_flatMap]
    simp
  rw [show (List.flatMap (fun j : ℕ => if 0 < 0 + j then [[C ((0 : ℕ) : ℝ) * denoteMono ℝ [0 - 1, j], C (j : ℝ) * denoteMono ℝ [0, j - 1]]]
    else []) (List.range (k + 1 - 0))).length = k from h1 k _, h2, sum_down]
  ring

theorem mem_acGrads {k : ℕ} {f : List (MvPolynomial ℕ ℝ)} :
    f ∈ acGrads k ↔ ∃ i j : ℕ, i + j ≤ k ∧ 0 < i + j ∧ f = [C (i : ℝ) * denoteMono ℝ [i - 1, j], C (j : ℝ) * denoteMono ℝ [i, j - 1]] := by
  simp only [acGrads, List.mem_flatMap, List.mem_range]
  constructor
  · rintro ⟨i, hi, j, hj, h⟩
    split_ifs at h with h0
    · exact ⟨i, j, by omega, h0, by simpa using h⟩
    · simp at h
  · rintro ⟨i, j, h1, h2, rfl⟩
    exact ⟨i, by omega, j, by omega, by rw [if_pos h2]; simp⟩

theorem grad_eq (i j : ℕ) :
    (fun l : Fin 2 => ([C (i : ℝ) * denoteMono ℝ [i - 1, j], C (j : ℝ) * denoteMono ℝ [i, j - 1]] : List (MvPolynomial ℕ ℝ)).getD l.val 0) =
    gradient ℝ 2 (denoteMono ℝ [i, j]) := by
  funext l
  fin_cases l <;> simp [gradient, denoteMono, monoFrom, Derivation.leibniz, Derivation.leibniz_pow, pderiv_X, Pi.single_apply] <;> ring

theorem mem_acWhirls {k : ℕ} {f : List (MvPolynomial ℕ ℝ)} :
    f ∈ acWhirls k ↔ ∃ i j : ℕ, i + j + 3 ≤ k ∧ f = [X 0 ^ (i + 1) * (1 - X 0) * X 1 ^ j * (C ((j : ℝ) + 1) * (1 - X 1) - X 1),
     -(X 0 ^ i) * (C ((i : ℝ) + 1) * (1 - X 0) - X 0) * X 1 ^ (j + 1) * (1 - X 1)] := by
  simp only [acWhirls, List.mem_flatMap, List.mem_map, List.mem_range]
  constructor
  · rintro ⟨i, hi, j, hj, rfl⟩
    exact ⟨i, j, by omega, rfl⟩
  · rintro ⟨i, j, h, rfl⟩
    exact ⟨i, by omega, j, by omega, rfl⟩

theorem xp_facet {k : ℕ} {i : ℕ} (hi : i < 2 * Cell.quadrilateral.tdim) {p : MvPolynomial ℕ ℝ} (hp : p ∈ XP 2 ((k : ℤ) + 1) (qAxis 2 i)) :
    pull (entityDomain .quadrilateral (1, i)) p ∈ P 1 (k : ℤ) := by
  have hc : Box .quadrilateral := Or.inl rfl
  obtain ⟨q, hq, r, hr, e⟩ := mem_XP.1 hp
  rw [add_sub_cancel_right] at hq hr
  rw [e, pull_add, pull_mul]
  have h2 : pull (entityDomain .quadrilateral (1, i)) (X (qAxis 2 i)) = _ := facet_coord hc hi
  rw [h2]
  exact Submodule.add_mem _ (facet_pull hc hi hq) (C_mul_mem _ (facet_pull hc hi hr))

/-- **C134.** Arbogast–Correa elements: at every order the element can be created, its basis functions span the space of the
trimmed serendipity element of the next order, the functionals determine the functions, and the functionals of an edge
determine the normal component on that edge. -/
theorem ac_created (k : ℕ) :
    Created (ac "equispaced" k) (TSdiv 2 (k + 1) (tsdivExt2 (k + 1))) (if k = 0 then 4 else k ^ 2 + 4 * k + 5)
      (QNormalTrace .quadrilateral (TSdiv 2 (k + 1) (tsdivExt2 (k + 1)))) := by
  have hc : Box .quadrilateral := Or.inl rfl
  obtain ⟨pl, hpl, hi, hS, hlen⟩ := ac_spec k
  obtain ⟨xs, hx, hxs, hxl⟩ := sub_dpc (qFacetCell_tensor .quadrilateral) (classes := dpcClasses) rfl "NormalIntegralMoment" (k : ℤ) none
  have hms : makeIntegralMomentDofs dpcClasses .quadrilateral
      { facets := some (.single [.cls "NormalIntegralMoment", .cls "DPC", .int (k : ℤ), .dict [("variant", "equispaced")]]) } =
      some (boxMoments .quadrilateral none none xs []) := by
    rw [facet_moments (A := [.cls "NormalIntegralMoment", .cls "DPC", .int (k : ℤ), .dict [("variant", "equispaced")]]) rfl hx]
    simp only [boxMoments, List.map_nil, List.append_nil]
    rfl
  have hlen2 : ∀ f ∈ acGrads k ++ acWhirls k, f.length = Cell.quadrilateral.tdim := by
    intro f hf
    rcases List.mem_append.1 hf with hf | hf
    · obtain ⟨i, j, -, -, rfl⟩ := mem_acGrads.1 hf
      rfl
    · obtain ⟨i, j, -, rfl⟩ := mem_acWhirls.1 hf
      rfl
  obtain ⟨ex, hex⟩ := mapM_exists (f := fun f => againstDof .quadrilateral (2, 0) "contravariant" f)
    (l := acGrads k ++ acWhirls k) fun f hf => by
      obtain ⟨d, hd, -⟩ := against_vector hc (hlen2 f hf) "contravariant"
      exact ⟨d, hd⟩
  have hexl : 2 * ex.length = k * (k + 3) + (k - 2) * (k - 1) := by
    rw [← (mapM_forall hex).length_eq, List.length_append, mul_add, length_acGrads, length_acWhirls]
  have hxl' : xs.length = k + 1 := by
    rw [hxl, if_neg (by omega)]
    refine (Nat.choose_one_right _).trans ?_
    rfl
  have := box_created_with (classes := dpcClasses) hc (pl := pl) hi (S := TSdiv 2 (k + 1) (tsdivExt2 (k + 1))) hS
    (k := (k : ℤ) + 1) (fun v hv => hv.mem) hms (ex := ex) (fun v hv i hi => ?_) (fun v hv hn hp hd => ?_) ?_
  · unfold ac
    have h1 : acSet k = some pl := hpl
    rw [h1, hex]
    rw [hlen] at this
    exact this
  · rw [hxs]
    exact xp_facet hi (TSdiv.xp hv ⟨qAxis 2 i, qAxis_lt hi⟩)
  · have h1 : ∀ f ∈ acGrads k ++ acWhirls k, pairing .quadrilateral (d := 2) v (fun j => f.getD j.val 0) = 0 := by
      intro f hf
      obtain ⟨d, hd1, he⟩ := forall₂_mem_right (mapM_forall hex) hf
      obtain ⟨d', hd', -, h2⟩ := against_vector hc (hlen2 f hf) "contravariant"
      obtain rfl := Option.some.inj (hd'.symm.trans he)
      exact (h2 v _ (TSdiv.mem hv)).symm.trans (hd d' hd1)
    refine ac_zero hv hn (fun q hq => ?_) fun q hq => ?_
    · refine (Submodule.mem_bot ℝ).1 (P_le (pairing .quadrilateral (d := 2) v ∘ₗ LinearMap.pi fun i : Fin 2 => (pderiv i.val).toLinearMap) ⊥
        (fun m hl hs => ?_) hq)
      rw [Submodule.mem_bot]
      show pairing .quadrilateral (d := 2) v (gradient ℝ 2 (denoteMono ℝ m)) = 0
      obtain ⟨a, b, rfl⟩ := List.length_eq_two.1 hl
      by_cases h0 : a + b = 0
      · obtain ⟨rfl, rfl⟩ : a = 0 ∧ b = 0 := by omega
        rw [show gradient ℝ 2 (denoteMono ℝ [0, 0]) = 0 by
          funext i
          simp [gradient, denoteMono, monoFrom], map_zero]
      · have h2 := h1 _ (List.mem_append_left _ (mem_acGrads.2 ⟨a, b, by simp at hs; omega, by omega, rfl⟩))
        rw [grad_eq] at h2
        exact h2
    · refine (Submodule.mem_bot ℝ).1 (P_le (pairing .quadrilateral (d := 2) v ∘ₗ curl2 ∘ₗ LinearMap.mulLeft ℝ (bub 0 * bub 1)) ⊥
        (fun m hl hs => ?_) hq)
      rw [Submodule.mem_bot]
      show pairing .quadrilateral (d := 2) v (curl2 (bub 0 * bub 1 * denoteMono ℝ m)) = 0
      obtain ⟨a, b, rfl⟩ := List.length_eq_two.1 hl
      have h2 := h1 _ (List.mem_append_right _ (mem_acWhirls.2 ⟨a, b, by simp at hs; omega, rfl⟩))
      rw [whirl_eq] at h2
      exact h2
  · rw [hlen, hxl']
    show 2 * 2 * (k + 1) + 0 + ex.length = _
    rcases k with _ | _ | k
    · simp at hexl ⊢
      exact hexl
    · simp at hexl ⊢
      omega
    · rw [if_neg (by omega)]
      rw [show k + 1 + 1 - 2 = k by omega, show k + 1 + 1 - 1 = k + 1 by omega] at hexl
      nlinarith

example : ∃ b dofs, ac "equispaced" 3 = some (.ciarlet b dofs) ∧ dofs.length = 26 := by
  obtain ⟨b, dofs, fs, h1, -, h2, -⟩ := ac_created 3
  exact ⟨b, dofs, h1, h2⟩

end Verif.Families
