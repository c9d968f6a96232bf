import Verif.Families.Count
/-!
# `BDFM` on triangles and tetrahedra
-/

namespace Verif.Families
open Verif.References Verif.Moments Verif.Functionals Verif.Elements Verif.FiniteElement Verif.Polysets Verif.Orthogonal
open MvPolynomial

/-! ### Model -/

/-- The polynomials added by `bdfm_polyset` on a triangle (symfem/elements/bdfm.py:41-47), the products being written out:
`(0, i)` and `(1, i)` are the two made from `x^i y^(order-2-i)`, and `(2, _)` is the last. -/
def bdfmTriFn (k : ℕ) (a : ℕ × ℕ) : VecPoly :=
  if a.1 = 0 then [[(1, [a.2 + 2, k - 2 - a.2]), (1, [a.2 + 1, k - 2 - a.2 + 1])], []]
  else if a.1 = 1 then [[], [(1, [a.2 + 1, k - 2 - a.2 + 1]), (1, [a.2, k - 2 - a.2 + 2])]]
  else [[(1, [k - 1 + 1, 0])], [(1, [k - 1, 1])]]

/-- The order of these (symfem/elements/bdfm.py:41-47). -/
def bdfmTriKeys (k : ℕ) : List (ℕ × ℕ) :=
  ((List.range (k - 1)).flatMap fun i : ℕ => [(0, i), (1, i)]) ++ [(2, 0)]

/-- The polynomials added by `bdfm_polyset` on a tetrahedron (symfem/elements/bdfm.py:55-67), the products being written out. -/
def bdfmTetFns (k : ℕ) : List VecPoly :=
  ((List.range (k - 1)).flatMap fun i : ℕ => (List.range (k - i - 1)).flatMap fun j : ℕ =>
    let l := k - 2 - i - j
    [[[(1, [i + 2, j, l]), (1, [i + 1, j + 1, l]), (1, [i + 1, j, l + 1])], [], []],
     [[], [(1, [i + 1, j + 1, l]), (1, [i, j + 2, l]), (1, [i, j + 1, l + 1])], []],
     [[], [], [(1, [i + 1, j, l + 1]), (1, [i, j + 1, l + 1]), (1, [i, j, l + 2])]]]) ++
  ((List.range k).map fun i : ℕ => [[(1, [i + 1, k - 1 - i, 0])], [(1, [i, k - 1 - i + 1, 0])], [(1, [i, k - 1 - i, 1])]]) ++
  ((List.range' 1 (k - 1)).map fun i : ℕ =>
    [[(1, [i + 1, k - 1 - i, 0]), (1, [i, k - 1 - i + 1, 0])], [], [(1, [i, k - 1 - i + 1, 0])]])

/-- `bdfm_polyset(reference, order)` (symfem/elements/bdfm.py:23-70) on a triangle or tetrahedron. -/
def bdfmSimpSet (d k : ℕ) : Option (List VecPoly) :=
  (polySetVector d d ((k : ℤ) - 1)).map fun a => a ++
    if d = 2 then (bdfmTriKeys k).map (bdfmTriFn k) else bdfmTetFns k

/-- `BDFM(reference, order, variant)` (symfem/elements/bdfm.py:76-102) on a triangle or tetrahedron. -/
noncomputable def bdfmSimp (variant : String) (c : Cell) (k : ℕ) : Option (Element ℝ (Field c.tdim)) :=
  momentElement classes2 c (bdfmSimpSet c.tdim k)
    { facets := some (.single [.cls "NormalIntegralMoment", .cls "Lagrange", .int ((k : ℤ) - 1), .dict [("variant", variant)]])
      cells := some (.single [.cls "IntegralMoment", .cls "NedelecFirstKind", .int ((k : ℤ) - 1), .dict [("variant", variant)]]) }

/-! ### The space -/

/-- The BDFM space on a triangle or tetrahedron: polynomials of degree `k` whose normal components on the facets have degree
`k - 1`. -/
def BDFMS (d : ℕ) (k : ℤ) : Submodule ℝ (Field d) where
  carrier := {v | (∀ i, v i ∈ P d k) ∧ ∀ i ≤ d, ∃ q ∈ P d (k - 1), ∀ z, OnFacet d i z →
    ∑ j : Fin d, facetNormal i j.val * eval z (v j) = eval z q}
  zero_mem' := ⟨fun _ => Submodule.zero_mem _, fun _ _ => ⟨0, Submodule.zero_mem _, fun z _ => by simp⟩⟩
  add_mem' := by
    rintro u v ⟨h1, h2⟩ ⟨h3, h4⟩
    refine ⟨fun i => Submodule.add_mem _ (h1 i) (h3 i), fun i hi => ?_⟩
    obtain ⟨q, hq, e⟩ := h2 i hi
    obtain ⟨r, hr, e'⟩ := h4 i hi
    refine ⟨q + r, Submodule.add_mem _ hq hr, fun z hz => ?_⟩
    rw [map_add, ← e z hz, ← e' z hz, ← Finset.sum_add_distrib]
    refine Finset.sum_congr rfl fun j _ => ?_
    rw [Pi.add_apply, map_add, mul_add]
  smul_mem' := by
    rintro a v ⟨h1, h2⟩
    refine ⟨fun i => Submodule.smul_mem _ a (h1 i), fun i hi => ?_⟩
    obtain ⟨q, hq, e⟩ := h2 i hi
    refine ⟨a • q, Submodule.smul_mem _ a hq, fun z hz => ?_⟩
    rw [smul_eval, ← e z hz, Finset.mul_sum]
    refine Finset.sum_congr rfl fun j _ => ?_
    rw [Pi.smul_apply, smul_eval]
    ring

theorem mem_BDFMS {d : ℕ} {k : ℤ} {v : Field d} : v ∈ BDFMS d k ↔ (∀ i, v i ∈ P d k) ∧
    ∀ i ≤ d, ∃ q ∈ P d (k - 1), ∀ z, OnFacet d i z → ∑ j : Fin d, facetNormal i j.val * eval z (v j) = eval z q := Iff.rfl

theorem param_onFacet {c : Cell} (hc : Simp c) {i : ℕ} (hi : i ≤ c.tdim) (y : ℕ → ℝ) :
    OnFacet c.tdim i ((entityDomain c (c.tdim - 1, i)).param y) := by
  rcases hc with rfl | rfl
  · have hd : ∀ i, entityDomain .triangle (Cell.triangle.tdim - 1, i) = entityDomain .triangle (1, i) := fun _ => rfl
    have hc : ∀ i, (entityDomain .triangle (1, i)).cell = .interval := fun _ => rfl
    have hs : ∀ f : ℕ → ℝ, ∑ j : Fin Cell.triangle.tdim, f j.val = f 0 + f 1 := fun f => Fin.sum_univ_two _
    have hv : ∀ i j k, (entityDomain .triangle (1, i)).v j k = refVertex .triangle ((entVerts .triangle 1 i).getD j 0) k := fun _ _ _ => rfl
    have e0 : entVerts .triangle 1 0 = [1, 2] := rfl
    have e1 : entVerts .triangle 1 1 = [0, 2] := rfl
    have e2 : entVerts .triangle 1 2 = [0, 1] := rfl
    unfold OnFacet
    simp only [Cell.tdim] at hi
    rw [hs]
    interval_cases i <;> norm_num [Domain.param, hd, hc, hv, e0, e1, e2, Finset.sum_range_succ, axisVertices, refVertex, refVerts, coords,
        Cell.tdim]
  · have hd : ∀ i, entityDomain .tetrahedron (Cell.tetrahedron.tdim - 1, i) = entityDomain .tetrahedron (2, i) := fun _ => rfl
    have hc : ∀ i, (entityDomain .tetrahedron (2, i)).cell = .triangle := fun _ => rfl
    have hs : ∀ f : ℕ → ℝ, ∑ j : Fin Cell.tetrahedron.tdim, f j.val = f 0 + f 1 + f 2 := fun f => Fin.sum_univ_three _
    have hv : ∀ i j k, (entityDomain .tetrahedron (2, i)).v j k =
      refVertex .tetrahedron ((entVerts .tetrahedron 2 i).getD j 0) k := fun _ _ _ => rfl
    have e0 : entVerts .tetrahedron 2 0 = [1, 2, 3] := rfl
    have e1 : entVerts .tetrahedron 2 1 = [0, 2, 3] := rfl
    have e2 : entVerts .tetrahedron 2 2 = [0, 1, 3] := rfl
    have e3 : entVerts .tetrahedron 2 3 = [0, 1, 2] := rfl
    unfold OnFacet
    simp only [Cell.tdim] at hi
    rw [hs]
    interval_cases i <;> norm_num [Domain.param, hd, hc, hv, e0, e1, e2, e3, Finset.sum_range_succ, axisVertices, refVertex, refVerts, coords,
        Cell.tdim]
    ring

theorem comp_of_onFacet (D : Domain) {n : ℕ → ℝ} {v : Field D.g} {q : MvPolynomial ℕ ℝ} {k : ℤ} (hq : q ∈ P D.g k)
    (h : ∀ y, ∑ j : Fin D.g, n j.val * eval (D.param y) (v j) = eval (D.param y) q) : comp D n v ∈ P D.cell.tdim k := by
  rw [show comp D n v = pull D q from MvPolynomial.funext fun y => by rw [eval_comp, eval_pull, h y]]
  exact pull_mem D hq

theorem BDFMS.comp {c : Cell} (hc : Simp c) {k : ℤ} {v : Field c.tdim} (hv : v ∈ BDFMS c.tdim k) {i : ℕ} (hi : i ≤ c.tdim) :
    comp (entityDomain c (c.tdim - 1, i)) (facetNormal i) v ∈ P (c.tdim - 1) (k - 1) := by
  obtain ⟨q, hq, e⟩ := hv.2 i hi
  have := comp_of_onFacet (entityDomain c (c.tdim - 1, i)) (n := facetNormal i) (v := v) hq fun y => e _ (param_onFacet hc hi y)
  rwa [(facet_facts hc hi).cell] at this

theorem PV_le_BDFMS {d : ℕ} {k : ℤ} : PV d d (k - 1) ≤ BDFMS d k := by
  intro v hv
  have hv := mem_PV.1 hv
  refine ⟨fun i => P_mono (by omega) (hv i), fun i hi => ⟨∑ j : Fin d, C (facetNormal i j.val) * v j, ?_, fun z hz => ?_⟩⟩
  · exact Submodule.sum_mem _ fun j _ => C_mul_mem _ (hv j)
  · rw [map_sum]
    exact Finset.sum_congr rfl fun j _ => by rw [map_mul, eval_C]

theorem den2 (a b : ℕ) : denoteMono ℝ [a, b] = X 0 ^ a * X 1 ^ b := by simp [denoteMono, monoFrom]
theorem den3 (a b c : ℕ) : denoteMono ℝ [a, b, c] = X 0 ^ a * X 1 ^ b * X 2 ^ c := by simp [denoteMono, monoFrom, mul_assoc]

theorem mem_bdfmTriKeys {k : ℕ} {a : ℕ × ℕ} (h : a ∈ bdfmTriKeys k) :
    (a.1 = 0 ∧ a.2 + 2 ≤ k) ∨ (a.1 = 1 ∧ a.2 + 2 ≤ k) ∨ (a.1 = 2 ∧ a.2 = 0) := by
  simp only [bdfmTriKeys, List.mem_append, List.mem_flatMap, List.mem_range, List.mem_cons, List.not_mem_nil, or_false] at h
  rcases h with ⟨i, hi, rfl | rfl⟩ | rfl
  · exact Or.inl ⟨rfl, by show i + 2 ≤ k; omega⟩
  · exact Or.inr (Or.inl ⟨rfl, by show i + 2 ≤ k; omega⟩)
  · exact Or.inr (Or.inr ⟨rfl, rfl⟩)

theorem nodup_bdfmTriKeys (k : ℕ) : (bdfmTriKeys k).Nodup := by
  rw [bdfmTriKeys, List.nodup_append]
  refine ⟨?_, by simp, ?_⟩
  · refine nodup_flatMap_of_key (key := Prod.snd) (k := fun i => i) Function.injective_id List.nodup_range (fun i _ => by simp)
      fun i _ b hb => ?_
    simp only [List.mem_cons, List.not_mem_nil, or_false] at hb
    rcases hb with rfl | rfl <;> rfl
  · intro a ha b hb
    simp only [List.mem_flatMap, List.mem_cons, List.not_mem_nil, or_false] at ha hb
    obtain ⟨i, -, rfl | rfl⟩ := ha <;> subst hb <;> simp

theorem bdfmTriFn_mem {k : ℕ} (hk : 1 ≤ k) {a : ℕ × ℕ} (ha : a ∈ bdfmTriKeys k) :
    denoteVec ℝ 2 (bdfmTriFn k a) ∈ BDFMS 2 (k : ℤ) := by
  obtain ⟨t, i⟩ := a
  have hX : ∀ m : Mono, m.length = 2 → m.sum = k → denoteMono ℝ m ∈ P 2 (k : ℤ) := fun m h1 h2 => denoteMono_mem h1 (by omega)
  have hY : ∀ m : Mono, m.length = 2 → m.sum + 1 = k → denoteMono ℝ m ∈ P 2 ((k : ℤ) - 1) := fun m h1 h2 => denoteMono_mem h1 (by omega)
  rcases mem_bdfmTriKeys ha with ⟨h, hi⟩ | ⟨h, hi⟩ | h
  · obtain rfl : t = 0 := h
    simp only at hi
    have e0 : denoteVec ℝ 2 (bdfmTriFn k (0, i)) 0 = denoteMono ℝ [i + 2, k - 2 - i] + denoteMono ℝ [i + 1, k - 2 - i + 1] := by
      simp [denoteVec, bdfmTriFn, denotePoly]
    have e1 : denoteVec ℝ 2 (bdfmTriFn k (0, i)) 1 = 0 := by simp [denoteVec, bdfmTriFn, denotePoly]
    refine ⟨fun j => ?_, fun f hf => ?_⟩
    · fin_cases j
      · show denoteVec ℝ 2 (bdfmTriFn k (0, i)) 0 ∈ P 2 (k : ℤ)
        rw [e0]
        exact Submodule.add_mem _ (hX _ rfl (by simp; omega)) (hX _ rfl (by simp; omega))
      · show denoteVec ℝ 2 (bdfmTriFn k (0, i)) 1 ∈ P 2 (k : ℤ)
        rw [e1]
        exact Submodule.zero_mem _
    · simp only [Fin.sum_univ_two, e0, e1, den2]
      interval_cases f
      · refine ⟨denoteMono ℝ [i + 1, k - 2 - i], hY _ rfl (by simp; omega), fun z hz => ?_⟩
        simp [OnFacet] at hz
        simp [facetNormal, den2]
        linear_combination (z 0 ^ (i + 1) * z 1 ^ (k - 2 - i)) * hz
      · refine ⟨0, Submodule.zero_mem _, fun z hz => ?_⟩
        simp [OnFacet] at hz
        simp [facetNormal, hz]
      · refine ⟨0, Submodule.zero_mem _, fun z hz => ?_⟩
        simp [facetNormal]
  · obtain rfl : t = 1 := h
    simp only at hi
    have e1 : denoteVec ℝ 2 (bdfmTriFn k (1, i)) 1 = denoteMono ℝ [i + 1, k - 2 - i + 1] + denoteMono ℝ [i, k - 2 - i + 2] := by
      simp [denoteVec, bdfmTriFn, denotePoly]
    have e0 : denoteVec ℝ 2 (bdfmTriFn k (1, i)) 0 = 0 := by simp [denoteVec, bdfmTriFn, denotePoly]
    refine ⟨fun j => ?_, fun f hf => ?_⟩
    · fin_cases j
      · show denoteVec ℝ 2 (bdfmTriFn k (1, i)) 0 ∈ P 2 (k : ℤ)
        rw [e0]
        exact Submodule.zero_mem _
      · show denoteVec ℝ 2 (bdfmTriFn k (1, i)) 1 ∈ P 2 (k : ℤ)
        rw [e1]
        exact Submodule.add_mem _ (hX _ rfl (by simp; omega)) (hX _ rfl (by simp; omega))
    · simp only [Fin.sum_univ_two, e0, e1, den2]
      interval_cases f
      · refine ⟨denoteMono ℝ [i, k - 2 - i + 1], hY _ rfl (by simp; omega), fun z hz => ?_⟩
        simp [OnFacet] at hz
        simp [facetNormal, den2]
        linear_combination (z 0 ^ i * z 1 ^ (k - 2 - i + 1)) * hz
      · refine ⟨0, Submodule.zero_mem _, fun z hz => ?_⟩
        simp [facetNormal]
      · refine ⟨0, Submodule.zero_mem _, fun z hz => ?_⟩
        simp [OnFacet] at hz
        simp [facetNormal, hz]
  · obtain ⟨rfl, rfl⟩ : t = 2 ∧ i = 0 := h
    have e0 : denoteVec ℝ 2 (bdfmTriFn k (2, 0)) 0 = denoteMono ℝ [k - 1 + 1, 0] := by
      simp [denoteVec, bdfmTriFn, denotePoly]
    have e1 : denoteVec ℝ 2 (bdfmTriFn k (2, 0)) 1 = denoteMono ℝ [k - 1, 1] := by simp [denoteVec, bdfmTriFn, denotePoly]
    refine ⟨fun j => ?_, fun f hf => ?_⟩
    · fin_cases j
      · show denoteVec ℝ 2 (bdfmTriFn k (2, 0)) 0 ∈ P 2 (k : ℤ)
        rw [e0]
        exact hX _ rfl (by simp; omega)
      · show denoteVec ℝ 2 (bdfmTriFn k (2, 0)) 1 ∈ P 2 (k : ℤ)
        rw [e1]
        exact hX _ rfl (by simp; omega)
    · simp only [Fin.sum_univ_two, e0, e1, den2]
      interval_cases f
      · refine ⟨denoteMono ℝ [k - 1, 0], hY _ rfl (by simp; omega), fun z hz => ?_⟩
        simp [OnFacet] at hz
        simp [facetNormal, den2]
        linear_combination (z 0 ^ (k - 1)) * hz
      · refine ⟨0, Submodule.zero_mem _, fun z hz => ?_⟩
        simp [OnFacet] at hz
        simp [facetNormal, hz]
      · refine ⟨0, Submodule.zero_mem _, fun z hz => ?_⟩
        simp [OnFacet] at hz
        simp [facetNormal, hz]

theorem bdfmTri_independent {k : ℕ} (hk : 1 ≤ k) {ps : List Mono} (hps : polySet 2 ((k : ℤ) - 1) = some ps) :
    Independent ℝ ((vectorSet 2 ps ++ (bdfmTriKeys k).map (bdfmTriFn k)).map (denoteVec ℝ 2)) := by
  obtain ⟨ps', hps', hnd, hmem⟩ := polySet_spec 2 (by omega) ((k : ℤ) - 1)
  obtain rfl := Option.some.inj (hps.symm.trans hps')
  refine independent_vec_append 2 2 hnd (M := (k : ℤ) - 1) (fun m hm => (hmem m).1 hm) _ _
    (fun a => if a.1 = 1 then 1 else 0)
    (fun a => if a.1 = 0 then [a.2 + 1, k - 2 - a.2 + 1] else if a.1 = 1 then [a.2, k - 2 - a.2 + 2] else [k - 1 + 1, 0])
    (fun a => if a.1 = 2 then k else a.2) (nodup_bdfmTriKeys k) ?_ ?_ ?_ ?_ ?_
  · rintro ⟨t, i⟩ ha p hp s hs
    rcases mem_bdfmTriKeys ha with ⟨h, hi⟩ | ⟨h, hi⟩ | h
    · obtain rfl : t = 0 := h
      simp only [bdfmTriFn, if_true, List.mem_cons, List.not_mem_nil, or_false] at hp
      rcases hp with rfl | rfl
      · simp only [List.mem_cons, List.not_mem_nil, or_false] at hs hi
        rcases hs with rfl | rfl <;> simp <;> omega
      · simp at hs
    · obtain rfl : t = 1 := h
      simp only [bdfmTriFn, if_true, one_ne_zero, if_false, List.mem_cons, List.not_mem_nil, or_false] at hp
      rcases hp with rfl | rfl
      · simp at hs
      · simp only [List.mem_cons, List.not_mem_nil, or_false] at hs hi
        rcases hs with rfl | rfl <;> simp <;> omega
    · obtain ⟨rfl, rfl⟩ : t = 2 ∧ i = 0 := h
      simp [bdfmTriFn] at hp
      rcases hp with rfl | rfl
      · simp only [List.mem_cons, List.not_mem_nil, or_false] at hs
        subst hs
        simp
        omega
      · simp only [List.mem_cons, List.not_mem_nil, or_false] at hs
        subst hs
        simp
        omega
  · rintro ⟨t, i⟩ ha
    simp only
    split_ifs <;> omega
  · rintro ⟨t, i⟩ ha
    simp only
    split_ifs <;> rfl
  · rintro ⟨t, i⟩ ha
    rcases mem_bdfmTriKeys ha with ⟨h, hi⟩ | ⟨h, hi⟩ | h
    · obtain rfl : t = 0 := h
      simp [vcoeff, termCoeff, bdfmTriFn]
    · obtain rfl : t = 1 := h
      simp [vcoeff, termCoeff, bdfmTriFn]
    · obtain ⟨rfl, rfl⟩ : t = 2 ∧ i = 0 := h
      simp [vcoeff, termCoeff, bdfmTriFn]
  · rintro ⟨t, i⟩ ha ⟨s, j⟩ hb hab hc
    rcases mem_bdfmTriKeys ha with ⟨h, hi⟩ | ⟨h, hi⟩ | ⟨h, hi⟩ <;> rcases mem_bdfmTriKeys hb with ⟨h', hi'⟩ | ⟨h', hi'⟩ | ⟨h', hi'⟩ <;>
      simp only at h h' hi hi' <;> subst h <;> subst h' <;>
      simp [vcoeff, termCoeff, bdfmTriFn] at hc hab ⊢ <;> (try split_ifs at hc) <;> (try simp at hc) <;> omega

theorem length_bdfmTriKeys {k : ℕ} (hk : 1 ≤ k) : (bdfmTriKeys k).length = 2 * k - 1 := by
  simp [bdfmTriKeys, List.length_flatMap]
  omega

/-- The number of basis functions. -/
def bdfmSimpCount (d k : ℕ) : ℕ := if d = 2 then k ^ 2 + 3 * k - 1 else 3 * (k + 2).choose 3 + 3 * k.choose 2 + 2 * k - 1

/-- **C94.** `BDFM` elements on triangles. -/
theorem bdfmTri_created {k : ℕ} (hk : 1 ≤ k) :
    Created (bdfmSimp "equispaced" .triangle k) (· ∈ BDFMS 2 k) (bdfmSimpCount 2 k)
      (fun dofs => NormalTrace .triangle (· ∈ BDFMS 2 k) dofs ∧ NormalConform .triangle (· ∈ BDFMS 2 k) dofs) := by
  obtain ⟨ps, hps, hnd, hmem⟩ := polySet_spec 2 (by omega) ((k : ℤ) - 1)
  have hpv : polySetVector 2 2 ((k : ℤ) - 1) = some (vectorSet 2 ps) := by rw [polySetVector, hps, Option.map_some]
  have hpoly : bdfmSimpSet Cell.triangle.tdim k = some (vectorSet 2 ps ++ (bdfmTriKeys k).map (bdfmTriFn k)) := by
    show (polySetVector 2 2 ((k : ℤ) - 1)).map _ = _
    rw [hpv, Option.map_some]
    rfl
  obtain ⟨l, hl, hls⟩ := polySetVector_lspan (d := 2) (by omega) 2 ((k : ℤ) - 1)
  obtain rfl := Option.some.inj (hpv.symm.trans hl)
  have hc : Simp .triangle := Or.inl rfl
  obtain ⟨xs, hx, hxs, hxl⟩ := sub_lagrange (facetCell_simplex .triangle) (classes := classes2) (by simp [classes2, classes1])
    "NormalIntegralMoment" ((k : ℤ) - 1) none
  obtain ⟨ys, hy, hys, hyl⟩ := sub_n1 hc "IntegralMoment" ((k : ℤ) - 1) none
  rw [facetCell_tdim hc] at hxs
  have hlen : (vectorSet 2 ps ++ (bdfmTriKeys k).map (bdfmTriFn k)).length = bdfmSimpCount 2 k := by
    obtain ⟨n, rfl⟩ := Nat.exists_eq_add_of_le' hk
    rw [show ((n + 1 : ℕ) : ℤ) - 1 = (n : ℕ) by push_cast; ring] at hps
    have h1 := polySet_length _ _ _ hps
    have h2 := choose_two n
    rw [List.length_append, List.length_map, length_bdfmTriKeys (by omega), vectorSet_eq_vkeys, List.length_map]
    simp only [vkeys, List.length_flatMap, List.length_map, List.length_range, List.map_const', List.sum_replicate, smul_eq_mul, h1,
      bdfmSimpCount, if_true]
    have e : (n + 1) ^ 2 + 3 * (n + 1) - 1 = (n + 1) ^ 2 + 3 * n + 2 := by omega
    rw [e, show 2 * (n + 1) - 1 = 2 * n + 1 by omega]
    nlinarith
  have hle : lspan ((vectorSet 2 ps ++ (bdfmTriKeys k).map (bdfmTriFn k)).map (denoteVec ℝ 2)) ≤ BDFMS 2 k := by
    rw [List.map_append, lspan_append]
    refine sup_le (hls.le.trans PV_le_BDFMS) ?_
    rw [Submodule.span_le]
    intro q hq
    simp only [List.mem_map, Set.mem_ofPred_eq, exists_exists_and_eq_and] at hq
    obtain ⟨a, ha, rfl⟩ := hq
    exact bdfmTriFn_mem hk ha
  rw [← hlen]
  refine hdiv_created_full hc hpoly (bdfmTri_independent hk hps) (W := BDFMS 2 k) hle (fun v hv => hv.1) (fun v hv i hi => BDFMS.comp hc hv hi)
    rfl rfl hx hy rfl rfl hxs (fun v hv hn hp => bdm_zero hc hv.1 hn fun q hq => pairing_lspan hp ((hys q).2 hq)) ?_
  · rw [hlen, hxl, hyl]
    obtain ⟨n, rfl⟩ := Nat.exists_eq_add_of_le' hk
    rw [if_neg (by omega), show (((n + 1 : ℕ) : ℤ) - 1).toNat = n by omega]
    simp only [facetCell, n1Count, bdfmSimpCount, if_true, Cell.tdim, Nat.choose_one_right]
    have e : (n + 1) ^ 2 + 3 * (n + 1) - 1 = (n + 1) ^ 2 + 3 * n + 2 := by omega
    rw [e]
    ring

example : ∃ basis dofs fs, bdfmSimp "equispaced" .triangle 3 = some (.ciarlet basis dofs) ∧
    getBasis (.ciarlet basis dofs) = some fs ∧ fs.length = 17 := by
  obtain ⟨b, d, fs, h1, h2, -, h3, -⟩ := bdfmTri_created (k := 3) (by omega)
  exact ⟨b, d, fs, h1, h2, h3⟩

end Verif.Families
