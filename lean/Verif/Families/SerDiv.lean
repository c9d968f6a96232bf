import Verif.Families.Enrich
import Verif.Polysets.PropsSer
/-!
# `SerendipityDiv` and `BDDF`
-/

namespace Verif.Families
open Verif.References Verif.Moments Verif.Functionals Verif.Elements Verif.FiniteElement Verif.Polysets Verif.Orthogonal
open MvPolynomial

/-! ### Model -/

/-- `SerendipityDiv(reference, order, variant)` (symfem/elements/serendipity.py:163-187). -/
noncomputable def sdiv (variant : String) (c : Cell) (k : ℕ) : Option (Element ℝ (Field c.tdim)) :=
  momentElement dpcClasses c
    ((polySetVector c.tdim c.tdim k).bind fun a => (hdivSerSet c.tdim k).map fun b => a ++ b)
    { facets := some (.single [.cls "NormalIntegralMoment", .cls "DPC", .int (k : ℤ), .dict [("variant", variant)]])
      cells := some (.single [.cls "IntegralMoment", .cls "VectorDPC", .int ((k : ℤ) - 2), .str "contravariant",
        .dict [("variant", variant)]]) }

/-- The fields whose curls are added by `bddf_polyset` (symfem/elements/bddf.py:36-42). -/
def bddfPotentials (k : ℕ) : List VecPoly :=
  [[[], [], [(1, [k + 1, 1, 0])]], [[], [(1, [1, 0, k + 1])], []], [[(1, [0, k + 1, 1])], [], []]] ++
  (List.range' 1 k).flatMap fun i : ℕ =>
    [[[], [], [(1, [1, i + 1, k - i])]], [[], [(1, [i + 1, k - i, 1])], []], [[(1, [k - i, 1, i + 1])], [], []]]

/-- `bddf_polyset(reference, order)` (symfem/elements/bddf.py:21-44). -/
def bddfSet (k : ℕ) : Option (List VecPoly) :=
  (polySetVector 3 3 k).map fun a => a ++ (bddfPotentials k).map curlVec

/-- `BDDF(reference, order, variant)` (symfem/elements/bddf.py:50-72). -/
noncomputable def bddf (variant : String) (k : ℕ) : Option (Element ℝ (Field 3)) :=
  momentElement dpcClasses .hexahedron (bddfSet k)
    { facets := some (.single [.cls "NormalIntegralMoment", .cls "DPC", .int (k : ℤ), .dict [("variant", variant)]])
      cells := some (.single [.cls "IntegralMoment", .cls "VectorDPC", .int ((k : ℤ) - 2), .dict [("variant", variant)]]) }

/-! ### The spaces -/

/-- The curl of a field. -/
noncomputable def curlF (v : Field 3) : Field 3 :=
  ![pderiv 1 (v 2) - pderiv 2 (v 1), pderiv 2 (v 0) - pderiv 0 (v 2), pderiv 0 (v 1) - pderiv 1 (v 0)]

theorem denoteVec_curl (F : VecPoly) : denoteVec ℝ 3 (curlVec F) = curlF (denoteVec ℝ 3 F) := by
  funext j
  fin_cases j <;> simp [denoteVec, curlVec, curlF, denotePoly_append, denotePoly_neg, denotePoly_diff, sub_eq_add_neg]

/-- The functions `symfem` adds to the polynomials of degree `k` on a quadrilateral. -/
def sdivExt2 (k : ℕ) : Set (Field 2) :=
  {![X 0 ^ (k + 1), ((k : ℝ) + 1) • (X 0 ^ k * X 1)], ![((k : ℝ) + 1) • (X 0 * X 1 ^ k), X 1 ^ (k + 1)]}

/-- The functions added to the polynomials of degree `k` on a hexahedron: the curls of
`p (0, x z, -x y)`, `q (y z, 0, -x y)` and `r (y z, -x z, 0)` where `p`, `q`, `r` are monomials of degree `k` in `y` and `z`, in
`x` and `z`, and in `x` and `y`. -/
def sdivExt3 (k : ℕ) : Set (Field 3) :=
  {w | ∃ i ≤ k, w = curlF ![0, X 1 ^ i * X 2 ^ (k - i) * (X 0 * X 2), -(X 1 ^ i * X 2 ^ (k - i) * (X 0 * X 1))] ∨
    w = curlF ![X 0 ^ i * X 2 ^ (k - i) * (X 1 * X 2), 0, -(X 0 ^ i * X 2 ^ (k - i) * (X 0 * X 1))] ∨
    w = curlF ![X 0 ^ i * X 1 ^ (k - i) * (X 1 * X 2), -(X 0 ^ i * X 1 ^ (k - i) * (X 0 * X 2)), 0]}

/-- The functions added to the polynomials of degree `k` by the element of Brezzi, Douglas, Durán and Fortin. -/
def bddfExt (k : ℕ) : Set (Field 3) :=
  {w | w = curlF ![0, 0, X 0 ^ (k + 1) * X 1] ∨ w = curlF ![0, X 0 * X 2 ^ (k + 1), 0] ∨
    w = curlF ![X 1 ^ (k + 1) * X 2, 0, 0] ∨
    ∃ i, 1 ≤ i ∧ i ≤ k ∧ (w = curlF ![0, 0, X 0 * X 1 ^ (i + 1) * X 2 ^ (k - i)] ∨
      w = curlF ![0, X 0 ^ (i + 1) * X 1 ^ (k - i) * X 2, 0] ∨ w = curlF ![X 0 ^ (k - i) * X 1 * X 2 ^ (i + 1), 0, 0])}

/-! ### Keys and dual combinations of coefficients -/

/-- The numbers of the added functions in three dimensions. -/
def keys3 (k : ℕ) : List (ℕ × ℕ) := (List.range (k + 1)).flatMap fun i : ℕ => [(0, i), (1, i), (2, i)]

theorem mem_keys3 {k : ℕ} {a : ℕ × ℕ} : a ∈ keys3 k ↔ a.1 < 3 ∧ a.2 ≤ k := by
  obtain ⟨t, i⟩ := a
  simp only [keys3, List.mem_flatMap, List.mem_range, List.mem_cons, List.not_mem_nil, or_false, Prod.mk.injEq]
  constructor
  · rintro ⟨j, hj, ⟨rfl, rfl⟩ | ⟨rfl, rfl⟩ | ⟨rfl, rfl⟩⟩ <;> omega
  · rintro ⟨h1, h2⟩
    refine ⟨i, by omega, ?_⟩
    omega

theorem keys3_nodup (k : ℕ) : (keys3 k).Nodup := by
  refine nodup_flatMap_of_key (fun a : ℕ × ℕ => a.2) id Function.injective_id List.nodup_range ?_ ?_
  · intro i _
    simp
  · intro i _ a ha
    simp only [List.mem_cons, List.not_mem_nil, or_false] at ha
    rcases ha with rfl | rfl | rfl <;> rfl

theorem keys3_length (k : ℕ) : (keys3 k).length = 3 * (k + 1) := by
  simp [keys3, List.length_flatMap]
  ring

/-- The potentials of the functions added on a hexahedron. -/
def sdivPot (k : ℕ) (a : ℕ × ℕ) : VecPoly :=
  match a.1 with
  | 0 => [[], [(1, [1, a.2, k - a.2 + 1])], [(-1, [1, a.2 + 1, k - a.2])]]
  | 1 => [[(1, [a.2, 1, k - a.2 + 1])], [], [(-1, [a.2 + 1, 1, k - a.2])]]
  | _ => [[(1, [a.2, k - a.2 + 1, 1])], [(-1, [a.2 + 1, k - a.2, 1])], []]

/-- Combinations of coefficients dual to these functions. -/
def sdivDual (k : ℕ) (a : ℕ × ℕ) : List (ℤ × ℕ × Mono) :=
  match a.1 with
  | 0 => ((k : ℤ) + 2, 0, [1, a.2, k - a.2]) :: ((if a.2 = 0 then [(1, 1, [0, 1, k])] else []) ++
      (if a.2 = k then [(1, 2, [0, k, 1])] else []))
  | 1 => ((k : ℤ) + 2, 1, [a.2, 1, k - a.2]) :: ((if a.2 = 0 then [(1, 0, [1, 0, k])] else []) ++
      (if a.2 = k then [(1, 2, [k, 0, 1])] else []))
  | _ => ((k : ℤ) + 2, 2, [a.2, k - a.2, 1]) :: ((if a.2 = 0 then [(1, 0, [1, k, 0])] else []) ++
      (if a.2 = k then [(1, 1, [k, 1, 0])] else []))

theorem sdiv3_dual {k : ℕ} (hk : 1 ≤ k) : Dual 3 k (keys3 k) (fun a => curlVec (sdivPot k a)) (sdivDual k) where
  nodup := keys3_nodup k
  len := by
    rintro ⟨t, i⟩ ha p hp q hq
    obtain ⟨h1, h2⟩ := mem_keys3.1 ha
    simp only at h1 h2
    interval_cases t <;>
    · simp only [curlVec, sdivPot, diffPoly, negPoly, diffTerm, List.mem_cons, List.not_mem_nil, or_false] at hp
      rcases hp with rfl | rfl | rfl <;> simp at hq <;> (try rcases hq with rfl | rfl) <;> simp_all [diffTerm]
  term := by
    rintro ⟨t, i⟩ ha j hj q hq h0
    obtain ⟨h1, h2⟩ := mem_keys3.1 ha
    simp only at h1 h2
    interval_cases t <;> interval_cases j <;>
    · simp [curlVec, sdivPot, diffPoly, negPoly, diffTerm] at hq
      (try rcases hq with rfl | rfl) <;> simp_all <;> omega
  low := by
    rintro ⟨t, i⟩ ha q hq
    obtain ⟨h1, h2⟩ := mem_keys3.1 ha
    simp only at h1 h2
    interval_cases t <;>
    · simp only [sdivDual, List.mem_cons, List.mem_append] at hq
      rcases hq with rfl | hq | hq
      · simp; omega
      · split_ifs at hq
        · simp at hq; subst hq; simp; try omega
        · simp at hq
      · split_ifs at hq
        · simp at hq; subst hq; simp; try omega
        · simp at hq
  diag := by
    rintro ⟨t, i⟩ ha
    obtain ⟨h1, h2⟩ := mem_keys3.1 ha
    simp only at h1 h2
    have e : ((k - i : ℕ) : ℤ) = k - i := by omega
    have hk' : (1 : ℤ) ≤ k := by omega
    interval_cases t <;>
    · simp only [sdivDual]
      split_ifs <;> simp [flVal, vcoeff, termCoeff, curlVec, sdivPot, diffPoly, negPoly, diffTerm, e, -mul_eq_zero] <;>
        (try split_ifs) <;> first | omega | (intro h; nlinarith)
  off := by
    rintro ⟨t, i⟩ ha ⟨s, j⟩ hb hab
    obtain ⟨h1, h2⟩ := mem_keys3.1 ha
    obtain ⟨h3, h4⟩ := mem_keys3.1 hb
    simp only at h1 h2 h3 h4
    have e : ((k - j : ℕ) : ℤ) = k - j := by omega
    rw [ne_eq, Prod.mk.injEq] at hab
    interval_cases t <;> interval_cases s <;>
    · simp only [sdivDual]
      split_ifs <;> simp [flVal, vcoeff, termCoeff, curlVec, sdivPot, diffPoly, negPoly, diffTerm, e, -mul_eq_zero] <;>
        (try split_ifs) <;> first | omega | (ring_nf; omega)

/-- The functions added on a quadrilateral. -/
def sdivFn2 (k a : ℕ) : VecPoly :=
  if a = 0 then [[(1, [k + 1, 0])], [((k : ℤ) + 1, [k, 1])]] else [[((k : ℤ) + 1, [1, k])], [(1, [0, k + 1])]]

/-- Coefficients dual to these functions. -/
def sdivDual2 (k a : ℕ) : List (ℤ × ℕ × Mono) := if a = 0 then [(1, 1, [k, 1])] else [(1, 0, [1, k])]

theorem sdiv2_dual {k : ℕ} (hk : 1 ≤ k) : Dual 2 k [0, 1] (sdivFn2 k) (sdivDual2 k) where
  nodup := by decide
  len := by
    intro a ha p hp q hq
    simp only [List.mem_cons, List.not_mem_nil, or_false] at ha
    rcases ha with rfl | rfl <;>
    · simp [sdivFn2] at hp
      rcases hp with rfl | rfl <;> simp at hq <;> subst hq <;> rfl
  term := by
    intro a ha j hj q hq h0
    simp only [List.mem_cons, List.not_mem_nil, or_false] at ha
    rcases ha with rfl | rfl <;> interval_cases j <;> simp [sdivFn2] at hq <;> subst hq <;> simp <;> omega
  low := by
    intro a ha q hq
    simp only [List.mem_cons, List.not_mem_nil, or_false] at ha
    rcases ha with rfl | rfl <;> simp [sdivDual2] at hq <;> subst hq <;> simp <;> omega
  diag := by
    intro a ha
    simp only [List.mem_cons, List.not_mem_nil, or_false] at ha
    rcases ha with rfl | rfl <;> simp [sdivFn2, sdivDual2, flVal, vcoeff, termCoeff] <;> omega
  off := by
    intro a ha b hb hab
    simp only [List.mem_cons, List.not_mem_nil, or_false] at ha hb
    rcases ha with rfl | rfl <;> rcases hb with rfl | rfl <;>
      simp [sdivFn2, sdivDual2, flVal, vcoeff, termCoeff] at hab ⊢ <;> omega

/-- The potentials of the functions added by `bddf_polyset`. -/
def bddfPot (k : ℕ) (a : ℕ × ℕ) : VecPoly :=
  if a.2 = 0 then
    match a.1 with
    | 0 => [[], [], [(1, [k + 1, 1, 0])]]
    | 1 => [[], [(1, [1, 0, k + 1])], []]
    | _ => [[(1, [0, k + 1, 1])], [], []]
  else
    match a.1 with
    | 0 => [[], [], [(1, [1, a.2 + 1, k - a.2])]]
    | 1 => [[], [(1, [a.2 + 1, k - a.2, 1])], []]
    | _ => [[(1, [k - a.2, 1, a.2 + 1])], [], []]

/-- Coefficients dual to these functions. -/
def bddfDual (k : ℕ) (a : ℕ × ℕ) : List (ℤ × ℕ × Mono) :=
  if a.2 = 0 then
    match a.1 with
    | 0 => [(1, 1, [k, 1, 0])]
    | 1 => [(1, 0, [1, 0, k])]
    | _ => [(1, 2, [0, k, 1])]
  else
    match a.1 with
    | 0 => [(1, 0, [1, a.2, k - a.2])]
    | 1 => [(1, 2, [a.2, k - a.2, 1])]
    | _ => [(1, 1, [k - a.2, 1, a.2])]

theorem bddf_dual {k : ℕ} (hk : 1 ≤ k) : Dual 3 k (keys3 k) (fun a => curlVec (bddfPot k a)) (bddfDual k) where
  nodup := keys3_nodup k
  len := by
    rintro ⟨t, i⟩ ha p hp q hq
    obtain ⟨h1, h2⟩ := mem_keys3.1 ha
    simp only at h1 h2
    by_cases h0 : i = 0 <;> interval_cases t <;>
    · simp only [curlVec, bddfPot, h0, if_true, if_false, diffPoly, negPoly, List.mem_cons, List.not_mem_nil, or_false] at hp
      rcases hp with rfl | rfl | rfl <;> simp at hq <;> (try rcases hq with rfl | rfl) <;> simp_all [diffTerm]
  term := by
    rintro ⟨t, i⟩ ha j hj q hq h0
    obtain ⟨h1, h2⟩ := mem_keys3.1 ha
    simp only at h1 h2
    by_cases hi : i = 0 <;> interval_cases t <;> interval_cases j <;>
    · simp [curlVec, bddfPot, hi, diffPoly, negPoly, diffTerm] at hq <;> (try subst hq) <;> (try simp_all) <;> (try omega)
  low := by
    rintro ⟨t, i⟩ ha q hq
    obtain ⟨h1, h2⟩ := mem_keys3.1 ha
    simp only at h1 h2
    by_cases hi : i = 0 <;> interval_cases t <;>
    · simp [bddfDual, hi] at hq
      subst hq
      simp <;> omega
  diag := by
    rintro ⟨t, i⟩ ha
    obtain ⟨h1, h2⟩ := mem_keys3.1 ha
    simp only at h1 h2
    by_cases hi : i = 0 <;> interval_cases t <;>
    · simp [flVal, vcoeff, termCoeff, curlVec, bddfPot, bddfDual, diffPoly, negPoly, diffTerm, hi] <;> omega
  off := by
    rintro ⟨t, i⟩ ha ⟨s, j⟩ hb hab
    obtain ⟨h1, h2⟩ := mem_keys3.1 ha
    obtain ⟨h3, h4⟩ := mem_keys3.1 hb
    simp only at h1 h2 h3 h4
    rw [ne_eq, Prod.mk.injEq] at hab
    by_cases hi : i = 0 <;> by_cases hj : j = 0 <;> interval_cases t <;> interval_cases s <;>
    · simp [flVal, vcoeff, termCoeff, curlVec, bddfPot, bddfDual, diffPoly, negPoly, diffTerm, hi, hj] <;> omega

/-! ### The elements -/

theorem enriched_congr {d k : ℕ} {A B : Set (Field d)} (h : A = B) : Enriched d k A = Enriched d k B := by rw [h]

theorem sdiv2_ext (k : ℕ) : {w | w ∈ (([0, 1] : List ℕ).map (sdivFn2 k)).map (denoteVec ℝ 2)} = sdivExt2 k := by
  ext w
  simp only [List.map_cons, List.map_nil, List.mem_cons, List.not_mem_nil, or_false, Set.mem_ofPred_eq, sdivExt2,
    Set.mem_insert_iff, Set.mem_singleton_iff]
  have h0 : denoteVec ℝ 2 (sdivFn2 k 0) = ![X 0 ^ (k + 1), ((k : ℝ) + 1) • (X 0 ^ k * X 1)] := by
    funext j
    fin_cases j <;> simp [denoteVec, sdivFn2, denotePoly, denoteMono, monoFrom, smul_eq_C_mul]
  have h1 : denoteVec ℝ 2 (sdivFn2 k 1) = ![((k : ℝ) + 1) • (X 0 * X 1 ^ k), X 1 ^ (k + 1)] := by
    funext j
    fin_cases j <;> simp [denoteVec, sdivFn2, denotePoly, denoteMono, monoFrom, smul_eq_C_mul]
  rw [h0, h1]

theorem sdiv3_ext (k : ℕ) :
    {w | w ∈ ((keys3 k).map fun a => curlVec (sdivPot k a)).map (denoteVec ℝ 3)} = sdivExt3 k := by
  have h0 : ∀ i, denoteVec ℝ 3 (sdivPot k (0, i)) =
      ![0, X 1 ^ i * X 2 ^ (k - i) * (X 0 * X 2), -(X 1 ^ i * X 2 ^ (k - i) * (X 0 * X 1))] := fun i => by
    funext j
    fin_cases j <;> simp [denoteVec, sdivPot, denotePoly, denoteMono, monoFrom] <;> ring
  have h1 : ∀ i, denoteVec ℝ 3 (sdivPot k (1, i)) =
      ![X 0 ^ i * X 2 ^ (k - i) * (X 1 * X 2), 0, -(X 0 ^ i * X 2 ^ (k - i) * (X 0 * X 1))] := fun i => by
    funext j
    fin_cases j <;> simp [denoteVec, sdivPot, denotePoly, denoteMono, monoFrom] <;> ring
  have h2 : ∀ i, denoteVec ℝ 3 (sdivPot k (2, i)) =
      ![X 0 ^ i * X 1 ^ (k - i) * (X 1 * X 2), -(X 0 ^ i * X 1 ^ (k - i) * (X 0 * X 2)), 0] := fun i => by
    funext j
    fin_cases j <;> simp [denoteVec, sdivPot, denotePoly, denoteMono, monoFrom] <;> ring
  ext w
  simp only [List.map_map, Set.mem_ofPred_eq, List.mem_map, Function.comp_apply, denoteVec_curl, sdivExt3]
  constructor
  · rintro ⟨⟨t, i⟩, ha, rfl⟩
    obtain ⟨h3, h4⟩ := mem_keys3.1 ha
    simp only at h3 h4
    refine ⟨i, h4, ?_⟩
    interval_cases t
    · left; rw [h0]
    · right; left; rw [h1]
    · right; right; rw [h2]
  · rintro ⟨i, hi, rfl | rfl | rfl⟩
    · exact ⟨(0, i), mem_keys3.2 ⟨by simp, hi⟩, by rw [h0]⟩
    · exact ⟨(1, i), mem_keys3.2 ⟨by simp, hi⟩, by rw [h1]⟩
    · exact ⟨(2, i), mem_keys3.2 ⟨by simp, hi⟩, by rw [h2]⟩

theorem bddf_ext (k : ℕ) :
    {w | w ∈ ((keys3 k).map fun a => curlVec (bddfPot k a)).map (denoteVec ℝ 3)} = bddfExt k := by
  have h0 : ∀ i, denoteVec ℝ 3 (bddfPot k (0, i)) =
      if i = 0 then ![0, 0, X 0 ^ (k + 1) * X 1] else ![0, 0, X 0 * X 1 ^ (i + 1) * X 2 ^ (k - i)] := fun i => by
    split_ifs with h <;> funext j <;> fin_cases j <;> simp [denoteVec, bddfPot, denotePoly, denoteMono, monoFrom, h] <;> ring
  have h1 : ∀ i, denoteVec ℝ 3 (bddfPot k (1, i)) =
      if i = 0 then ![0, X 0 * X 2 ^ (k + 1), 0] else ![0, X 0 ^ (i + 1) * X 1 ^ (k - i) * X 2, 0] := fun i => by
    split_ifs with h <;> funext j <;> fin_cases j <;> simp [denoteVec, bddfPot, denotePoly, denoteMono, monoFrom, h] <;> ring
  have h2 : ∀ i, denoteVec ℝ 3 (bddfPot k (2, i)) =
      if i = 0 then ![X 1 ^ (k + 1) * X 2, 0, 0] else ![X 0 ^ (k - i) * X 1 * X 2 ^ (i + 1), 0, 0] := fun i => by
    split_ifs with h <;> funext j <;> fin_cases j <;> simp [denoteVec, bddfPot, denotePoly, denoteMono, monoFrom, h] <;> ring
  ext w
  simp only [List.map_map, Set.mem_ofPred_eq, List.mem_map, Function.comp_apply, denoteVec_curl, bddfExt]
  constructor
  · rintro ⟨⟨t, i⟩, ha, rfl⟩
    obtain ⟨h3, h4⟩ := mem_keys3.1 ha
    simp only at h3 h4
    by_cases hi : i = 0
    · interval_cases t
      · left; rw [h0, if_pos hi]
      · right; left; rw [h1, if_pos hi]
      · right; right; left; rw [h2, if_pos hi]
    · right; right; right
      refine ⟨i, by omega, h4, ?_⟩
      interval_cases t
      · left; rw [h0, if_neg hi]
      · right; left; rw [h1, if_neg hi]
      · right; right; rw [h2, if_neg hi]
  · rintro (rfl | rfl | rfl | ⟨i, hi, hk, rfl | rfl | rfl⟩)
    · exact ⟨(0, 0), mem_keys3.2 ⟨by simp, by simp⟩, by rw [h0, if_pos rfl]⟩
    · exact ⟨(1, 0), mem_keys3.2 ⟨by simp, by simp⟩, by rw [h1, if_pos rfl]⟩
    · exact ⟨(2, 0), mem_keys3.2 ⟨by simp, by simp⟩, by rw [h2, if_pos rfl]⟩
    · exact ⟨(0, i), mem_keys3.2 ⟨by simp, hk⟩, by rw [h0, if_neg (by omega)]⟩
    · exact ⟨(1, i), mem_keys3.2 ⟨by simp, hk⟩, by rw [h1, if_neg (by omega)]⟩
    · exact ⟨(2, i), mem_keys3.2 ⟨by simp, hk⟩, by rw [h2, if_neg (by omega)]⟩

theorem hdivSer3_eq {k : ℕ} (hk : 1 ≤ k) : hdivSerSet 3 k = some ((keys3 k).map fun a => curlVec (sdivPot k a)) := by
  simp only [hdivSerSet, hdivSerPotentials, show ¬ k = 0 by omega, if_false, keys3, List.map_flatMap]
  rfl

theorem bddfPotentials_eq (k : ℕ) : (bddfPotentials k).map curlVec = (keys3 k).map fun a => curlVec (bddfPot k a) := by
  rw [keys3, List.range_succ_eq_map, List.flatMap_cons, bddfPotentials, List.map_append, List.map_append]
  congr 1
  rw [List.flatMap_map, List.range'_eq_map_range, List.flatMap_map, List.map_flatMap, List.map_flatMap]
  refine List.flatMap_congr fun i _ => ?_
  simp [bddfPot, Nat.add_comm 1 i]

theorem count3 {k : ℕ} (hk : 1 ≤ k) : 6 * (k + 2).choose 2 + (if (k : ℤ) - 2 < 0 then 0 else (((k : ℤ) - 2).toNat + 3).choose 3 * 3) =
    (k + 3).choose 3 * 3 + 3 * (k + 1) := by
  rcases k with _ | _ | n
  · omega
  · rfl
  · rw [if_neg (by omega), show (((n + 1 + 1 : ℕ) : ℤ) - 2).toNat = n by omega]
    have h1 := choose_three n
    have h2 := choose_three (n + 2)
    have h3 := choose_two (n + 2)
    nlinarith

theorem count2 {k : ℕ} (hk : 1 ≤ k) : 4 * (k + 1).choose 1 + (if (k : ℤ) - 2 < 0 then 0 else (((k : ℤ) - 2).toNat + 2).choose 2 * 2) =
    (k + 2).choose 2 * 2 + 2 := by
  rcases k with _ | _ | n
  · omega
  · rfl
  · rw [if_neg (by omega), show (((n + 1 + 1 : ℕ) : ℤ) - 2).toNat = n by omega, Nat.choose_one_right]
    have h1 := choose_two n
    have h2 := choose_two (n + 2)
    nlinarith

/-- C95: the H(div) serendipity element on a quadrilateral. -/
theorem sdiv_created_quadrilateral {k : ℕ} (hk : 1 ≤ k) :
    Created (sdiv "equispaced" .quadrilateral k) (Enriched 2 k (sdivExt2 k)) ((k + 1) * (k + 2) + 2)
      (QNormalTrace .quadrilateral (Enriched 2 k (sdivExt2 k))) := by
  have h := enriched_created (c := .quadrilateral) (Or.inl rfl) (sdiv2_dual hk) (poly := _) rfl
    (B := [.cls "IntegralMoment", .cls "VectorDPC", .int ((k : ℤ) - 2), .str "contravariant", .dict [("variant", "equispaced")]]) rfl
    (count2 hk)
  have hp : (polySetVector 2 2 k).bind (fun a => (hdivSerSet 2 k).map fun b => a ++ b) =
      (polySetVector 2 2 k).map fun a => a ++ ([0, 1] : List ℕ).map (sdivFn2 k) := by
    cases polySetVector 2 2 k <;> rfl
  have hn : (k + 2).choose 2 * 2 + ([0, 1] : List ℕ).length = (k + 1) * (k + 2) + 2 := by
    have := choose_two k
    simp only [List.length_cons, List.length_nil]
    nlinarith
  rw [← hn, ← enriched_congr (sdiv2_ext k)]
  unfold sdiv
  refine Eq.mp ?_ h
  congr 1

/-- C95: the H(div) serendipity element on a hexahedron. -/
theorem sdiv_created_hexahedron {k : ℕ} (hk : 1 ≤ k) :
    Created (sdiv "equispaced" .hexahedron k) (Enriched 3 k (sdivExt3 k)) ((k + 3).choose 3 * 3 + 3 * (k + 1))
      (QNormalTrace .hexahedron (Enriched 3 k (sdivExt3 k))) := by
  have h := enriched_created (c := .hexahedron) (Or.inr rfl) (sdiv3_dual hk) (poly := _) rfl
    (B := [.cls "IntegralMoment", .cls "VectorDPC", .int ((k : ℤ) - 2), .str "contravariant", .dict [("variant", "equispaced")]]) rfl
    (by rw [keys3_length]; exact count3 hk)
  have hp : (polySetVector 3 3 k).bind (fun a => (hdivSerSet 3 k).map fun b => a ++ b) =
      (polySetVector 3 3 k).map fun a => a ++ (keys3 k).map fun a => curlVec (sdivPot k a) := by
    rw [hdivSer3_eq hk]
    cases polySetVector 3 3 k <;> rfl
  rw [keys3_length] at h
  rw [← enriched_congr (sdiv3_ext k)]
  unfold sdiv
  refine Eq.mp ?_ h
  congr 1
  congr 1
  exact hp.symm

example : ∃ basis dofs fs, sdiv "equispaced" .hexahedron 2 = some (.ciarlet basis dofs) ∧
    getBasis (.ciarlet basis dofs) = some fs ∧ fs.length = 39 := by
  obtain ⟨b, d, fs, h1, h2, -, h3, -⟩ := sdiv_created_hexahedron (k := 2) (by omega)
  exact ⟨b, d, fs, h1, h2, h3⟩

/-- C96: the element of Brezzi, Douglas, Durán and Fortin. -/
theorem bddf_created {k : ℕ} (hk : 1 ≤ k) :
    Created (bddf "equispaced" k) (Enriched 3 k (bddfExt k)) ((k + 3).choose 3 * 3 + 3 * (k + 1))
      (QNormalTrace .hexahedron (Enriched 3 k (bddfExt k))) := by
  have h := enriched_created (c := .hexahedron) (Or.inr rfl) (bddf_dual hk) (poly := _) rfl
    (B := [.cls "IntegralMoment", .cls "VectorDPC", .int ((k : ℤ) - 2), .dict [("variant", "equispaced")]]) rfl
    (by rw [keys3_length]; exact count3 hk)
  have hp : bddfSet k = (polySetVector 3 3 k).map fun a => a ++ (keys3 k).map fun a => curlVec (bddfPot k a) := by
    rw [bddfSet, bddfPotentials_eq]
  rw [keys3_length] at h
  rw [← enriched_congr (bddf_ext k)]
  unfold bddf
  rw [hp]
  exact h

example : ∃ basis dofs fs, bddf "equispaced" 1 = some (.ciarlet basis dofs) ∧
    getBasis (.ciarlet basis dofs) = some fs ∧ fs.length = 18 := by
  obtain ⟨b, d, fs, h1, h2, -, h3, -⟩ := bddf_created (k := 1) (by omega)
  exact ⟨b, d, fs, h1, h2, h3⟩

end Verif.Families
