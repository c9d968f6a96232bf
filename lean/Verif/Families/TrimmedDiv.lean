import Verif.Families.Trimmed
/-!
# `TrimmedSerendipityHdiv` on quadrilaterals and hexahedra
-/

namespace Verif.Families
open Verif.References Verif.Moments Verif.Functionals Verif.Elements Verif.FiniteElement Verif.Polysets Verif.Orthogonal
open MvPolynomial

/-! ### Quadrilaterals -/

/-- The monomials `q` of the functions `x q`. -/
def tsMs2 (n : ℕ) : List Mono := (List.range (n + 1)).map fun j : ℕ => [j, n - j]

theorem tsMs2_nodup (n : ℕ) : (tsMs2 n).Nodup := List.nodup_range.map (by intro a b h; simp at h; exact h.1)

theorem mem_tsMs2 {n : ℕ} {m : Mono} : m ∈ tsMs2 n ↔ m.length = 2 ∧ m.sum = n := by
  simp only [tsMs2, List.mem_map, List.mem_range]
  constructor
  · rintro ⟨j, hj, rfl⟩; simp; omega
  · rintro ⟨hl, hs⟩
    obtain ⟨a, b, rfl⟩ := List.length_eq_two.1 hl
    simp at hs
    exact ⟨a, by omega, by rw [show n - a = b by omega]⟩

def tsRads2 (n : ℕ) : List VecPoly := (List.range (n + 1)).map fun j : ℕ => [[(1, [j + 1, n - j])], [(1, [j, n + 1 - j])]]

theorem tsRads2_eq (n : ℕ) : (tsRads2 n).map (denoteVec ℝ 2) = (tsMs2 n).map fun m => radial 2 (denoteMono ℝ m) := by
  rw [tsRads2, tsMs2, List.map_map, List.map_map]
  refine List.map_congr_left fun j hj => ?_
  rw [List.mem_range] at hj
  funext i
  have e : n + 1 - j = n - j + 1 := by omega
  fin_cases i <;> simp [radial_apply, denoteVec, denotePoly, denoteMono, monoFrom, e] <;> ring

def tsKeys2 (n : ℕ) : List ℕ := if n = 0 then [0] else [0, 1]

/-- The functions added on a quadrilateral. -/
def tsFn2 (n a : ℕ) : VecPoly :=
  if a = 0 then [[((n : ℤ) + 1, [1, n])], [(-1, [0, n + 1])]] else [[(-1, [n + 1, 0])], [((n : ℤ) + 1, [n, 1])]]

def tsDual2 (n a : ℕ) : List (ℤ × ℕ × Mono) := if a = 0 then [(1, 0, [1, n])] else [(1, 1, [n, 1])]

theorem mem_tsKeys2 {n a : ℕ} : a ∈ tsKeys2 n ↔ a = 0 ∨ (a = 1 ∧ n ≠ 0) := by
  unfold tsKeys2
  split_ifs with h <;> simp [h]

theorem ts2_dual (n : ℕ) : Dual 2 n (tsKeys2 n) (tsFn2 n) (tsDual2 n) where
  nodup := by unfold tsKeys2; split_ifs <;> decide
  len := by
    intro a ha p hp q hq
    rcases mem_tsKeys2.1 ha with rfl | ⟨rfl, -⟩ <;>
    · simp [tsFn2] at hp
      rcases hp with rfl | rfl <;> simp at hq <;> subst hq <;> rfl
  term := by
    intro a ha j hj q hq h0
    rcases mem_tsKeys2.1 ha with rfl | ⟨rfl, -⟩ <;> interval_cases j <;> simp [tsFn2] at hq <;> subst hq <;> simp <;> omega
  low := by
    intro a ha q hq
    rcases mem_tsKeys2.1 ha with rfl | ⟨rfl, -⟩ <;> simp [tsDual2] at hq <;> subst hq <;> simp <;> omega
  diag := by
    intro a ha
    rcases mem_tsKeys2.1 ha with rfl | ⟨rfl, -⟩ <;> simp [tsFn2, tsDual2, flVal, vcoeff, termCoeff] <;> omega
  off := by
    intro a ha b hb hab
    rcases mem_tsKeys2.1 ha with rfl | ⟨rfl, h⟩ <;> rcases mem_tsKeys2.1 hb with rfl | ⟨rfl, h'⟩ <;>
      simp [tsFn2, tsDual2, flVal, vcoeff, termCoeff] at hab ⊢ <;> omega

theorem tsFn2_zero (n : ℕ) : denoteVec ℝ 2 (tsFn2 n 0) = ![pderiv 1 (X 0 * X 1 ^ (n + 1)), -pderiv 0 (X 0 * X 1 ^ (n + 1))] := by
  funext i
  fin_cases i <;> simp [denoteVec, tsFn2, denotePoly, denoteMono, monoFrom, pderiv_X, Pi.single_apply, Derivation.leibniz_pow] <;> ring

theorem tsFn2_one (n : ℕ) : denoteVec ℝ 2 (tsFn2 n 1) = -![pderiv 1 (X 0 ^ (n + 1) * X 1), -pderiv 0 (X 0 ^ (n + 1) * X 1)] := by
  funext i
  fin_cases i <;> simp [denoteVec, tsFn2, denotePoly, denoteMono, monoFrom, pderiv_X, Pi.single_apply, Derivation.leibniz_pow] <;> ring

theorem ts2_div (n : ℕ) : ∀ a ∈ tsKeys2 n, divL 2 (denoteVec ℝ 2 (tsFn2 n a)) = 0 := by
  have key : ∀ p : MvPolynomial ℕ ℝ, divL 2 ![pderiv 1 p, -pderiv 0 p] = 0 := by
    intro p
    rw [divL_apply, divergence, Fin.sum_univ_two]
    simp [pderiv_comm ℝ 0 1 p]
  intro a ha
  rcases mem_tsKeys2.1 ha with rfl | ⟨rfl, -⟩
  · rw [tsFn2_zero, key]
  · rw [tsFn2_one, map_neg, key, neg_zero]

theorem ts2_set (n : ℕ) : tsdivSet 2 (n + 1) = (polySetVector 2 2 n).map fun a => a ++ (tsRads2 n ++ (tsKeys2 n).map (tsFn2 n)) := by
  rw [tsdivSet, show ((n + 1 : ℕ) : ℤ) - 1 = n by push_cast; ring]
  have : tsdivAdd2 (n + 1) = tsRads2 n ++ (tsKeys2 n).map (tsFn2 n) := by
    rw [tsdivAdd2, tsRads2]
    congr 1
    unfold tsKeys2
    rcases Nat.eq_zero_or_pos n with rfl | h
    · simp [tsFn2]
    · rw [if_neg (by omega), if_neg (by omega)]
      simp [tsFn2]
  simp only [if_pos, this]

theorem ts2_ext (n : ℕ) : Submodule.span ℝ {w | w ∈ ((tsKeys2 n).map (tsFn2 n)).map (denoteVec ℝ 2)} =
    Submodule.span ℝ (tsdivExt2 (n + 1)) := by
  have h0 : denoteVec ℝ 2 (tsFn2 n 0) ∈ Submodule.span ℝ {w | w ∈ ((tsKeys2 n).map (tsFn2 n)).map (denoteVec ℝ 2)} :=
    Submodule.subset_span (List.mem_map_of_mem (List.mem_map_of_mem (mem_tsKeys2.2 (Or.inl rfl))))
  apply le_antisymm
  · rw [Submodule.span_le]
    intro w hw
    obtain ⟨F, hF, rfl⟩ := List.mem_map.1 hw
    obtain ⟨a, ha, rfl⟩ := List.mem_map.1 hF
    rcases mem_tsKeys2.1 ha with rfl | ⟨rfl, -⟩
    · rw [tsFn2_zero]
      exact Submodule.subset_span (Or.inl rfl)
    · rw [tsFn2_one]
      exact Submodule.neg_mem _ (Submodule.subset_span (Or.inr rfl))
  · rw [Submodule.span_le]
    rintro w (rfl | rfl)
    · rw [tsFn2_zero] at h0
      exact h0
    · by_cases h : n = 0
      · subst h
        rw [tsFn2_zero] at h0
        simpa using h0
      · have h1 : denoteVec ℝ 2 (tsFn2 n 1) ∈ Submodule.span ℝ {w | w ∈ ((tsKeys2 n).map (tsFn2 n)).map (denoteVec ℝ 2)} :=
          Submodule.subset_span (List.mem_map_of_mem (List.mem_map_of_mem (mem_tsKeys2.2 (Or.inr ⟨rfl, h⟩))))
        rw [tsFn2_one] at h1
        have := Submodule.neg_mem _ h1
        rwa [neg_neg] at this

theorem TSdiv_congr {d k : ℕ} {A B : Set (Field d)} (h : Submodule.span ℝ A = Submodule.span ℝ B) : TSdiv d k A = TSdiv d k B := by
  funext v
  rw [TSdiv, TSdiv, h]

theorem tsdivMonos2_iff (n : ℕ) (m : Mono) : m ∈ tsdivMonos 2 (n + 1) ↔ m.length = 2 ∧ m.sum = n := by
  have := mem_hdivMonos2 (order := n + 1) (m := m)
  rw [show tsdivMonos 2 (n + 1) = hdivMonos2 (n + 1) from rfl, this]
  omega

/-- **C124** The trimmed serendipity H(div) element on a quadrilateral. -/
theorem tsdiv_created_quadrilateral {k : ℕ} (hk : 1 ≤ k) :
    Created (tsdiv "equispaced" .quadrilateral k) (TSdiv 2 k (tsdivExt2 k)) (if k = 1 then 4 else k ^ 2 + 2 * k + 2)
      (QNormalTrace .quadrilateral (TSdiv 2 k (tsdivExt2 k))) := by
  obtain ⟨n, rfl⟩ := Nat.exists_eq_add_of_le' hk
  have hl : (tsdivMonos 2 (n + 1)).length = n + 1 := by simp [tsdivMonos]
  have hml : (tsMs2 n).length = n + 1 := by simp [tsMs2]
  have h2 := choose_two n
  have h := ts_created (c := .quadrilateral) (Or.inl rfl) (tsMs2_nodup n) (fun _ => mem_tsMs2) (tsRads2_eq n) (ts2_dual n) (ts2_div n)
    (ts2_set n) (tsdivMonos2_iff n) (by
      show 2 * 2 * (n + 1).choose 1 + (if (n : ℤ) - 2 < 0 then 0 else (((n : ℤ) - 2).toNat + 2).choose 2 * 2) +
        (if 1 ≤ n then (tsdivMonos 2 (n + 1)).length else 0) = (n + 2).choose 2 * 2 + ((tsMs2 n).length + (tsKeys2 n).length)
      rw [hl, hml, Nat.choose_one_right]
      unfold tsKeys2
      rcases n with _ | _ | n
      · rfl
      · rfl
      · rw [if_neg (by omega), show (((n + 1 + 1 : ℕ) : ℤ) - 2).toNat = n by omega, if_pos (by omega), if_neg (by omega)]
        have h3 := choose_two n
        simp only [List.length_cons, List.length_nil]
        nlinarith)
  have hn : (n + Cell.quadrilateral.tdim).choose Cell.quadrilateral.tdim * Cell.quadrilateral.tdim + ((tsMs2 n).length + (tsKeys2 n).length) =
      if n + 1 = 1 then 4 else (n + 1) ^ 2 + 2 * (n + 1) + 2 := by
    show (n + 2).choose 2 * 2 + _ = _
    rw [hml]
    unfold tsKeys2
    by_cases h0 : n = 0
    · subst h0; rfl
    · rw [if_neg h0, if_neg (by omega)]
      simp only [List.length_cons, List.length_nil]
      nlinarith
  rw [hn] at h
  rw [← TSdiv_congr (ts2_ext n)]
  exact h

example : ∃ basis dofs fs, tsdiv "equispaced" .quadrilateral 3 = some (.ciarlet basis dofs) ∧
    getBasis (.ciarlet basis dofs) = some fs ∧ fs.length = 17 := by
  obtain ⟨b, d, fs, h1, h2, -, h3, -⟩ := tsdiv_created_quadrilateral (k := 3) (by omega)
  exact ⟨b, d, fs, h1, h2, h3⟩

/-! ### Hexahedra -/

def tsMs3 (n : ℕ) : List Mono :=
  (List.range (n + 1)).flatMap fun i : ℕ => (List.range (n + 1 - i)).map fun j : ℕ => [i, j, n - i - j]

theorem tsMs3_nodup (n : ℕ) : (tsMs3 n).Nodup := by
  refine nodup_flatMap_of_key (key := fun m => m[0]?) (k := fun j => some j) (fun a b h => by simpa using h) List.nodup_range ?_ ?_
  · intro j _
    exact List.nodup_range.map (by intro a b h; simp at h; exact h.1)
  · intro j _ m hm
    obtain ⟨i, _, rfl⟩ := List.mem_map.1 hm
    rfl

theorem mem_tsMs3 {n : ℕ} {m : Mono} : m ∈ tsMs3 n ↔ m.length = 3 ∧ m.sum = n := by
  simp only [tsMs3, List.mem_flatMap, List.mem_map, List.mem_range]
  constructor
  · rintro ⟨j, hj, k, hk, rfl⟩; simp; omega
  · rintro ⟨hl, hs⟩
    obtain ⟨a, b, c, rfl⟩ := List.length_eq_three.1 hl
    simp at hs
    exact ⟨a, by omega, b, by omega, by rw [show n - a - b = c by omega]⟩

theorem tsMs3_length (n : ℕ) : (tsMs3 n).length = (n + 2).choose 2 := by
  have h := hdivSet_length (n + 1)
  obtain ⟨l, h1, h2⟩ := h.2
  rw [hdivSet3_eq] at h1
  obtain rfl := Option.some.inj h1
  rw [List.length_map] at h2
  have : (tsMs3 n).length = (hdivMonos3 (n + 1)).length := by
    rw [← List.toFinset_card_of_nodup (tsMs3_nodup n), ← List.toFinset_card_of_nodup (nodup_hdivMonos3 (n + 1))]
    congr 1
    ext m
    rw [List.mem_toFinset, List.mem_toFinset, mem_tsMs3, mem_hdivMonos3]
    omega
  rw [this, h2]

def tsRads3 (n : ℕ) : List VecPoly :=
  (List.range (n + 1)).flatMap fun i : ℕ => (List.range (n + 1 - i)).map fun j : ℕ =>
    [[(1, [i + 1, j, n - i - j])], [(1, [i, j + 1, n - i - j])], [(1, [i, j, n - i - j + 1])]]

theorem tsRads3_eq (n : ℕ) : (tsRads3 n).map (denoteVec ℝ 3) = (tsMs3 n).map fun m => radial 3 (denoteMono ℝ m) := by
  rw [tsRads3, tsMs3, List.map_flatMap, List.map_flatMap]
  refine List.flatMap_congr fun i _ => ?_
  rw [List.map_map, List.map_map]
  refine List.map_congr_left fun j _ => ?_
  funext t
  fin_cases t <;> simp [radial_apply, denoteVec, denotePoly, denoteMono, monoFrom] <;> ring

def tsKeys3 (n : ℕ) : List (ℕ × ℕ) := if n = 0 then [(0, 0), (1, 0)] else keys3 n

/-- The potentials of the functions added on a hexahedron. -/
def tsPot (n : ℕ) (a : ℕ × ℕ) : VecPoly :=
  match a.1 with
  | 0 => [[], [(-1, [1, a.2, n - a.2 + 1])], [(1, [1, a.2 + 1, n - a.2])]]
  | 1 => [[(-1, [a.2, 1, n - a.2 + 1])], [], [(1, [a.2 + 1, 1, n - a.2])]]
  | _ => [[(-1, [a.2, n - a.2 + 1, 1])], [(1, [a.2 + 1, n - a.2, 1])], []]

def tsDual3 (n : ℕ) (a : ℕ × ℕ) : List (ℤ × ℕ × Mono) :=
  if n = 0 then (if a.1 = 0 then [(2, 0, [1, 0, 0]), (1, 1, [0, 1, 0])] else [(1, 0, [1, 0, 0]), (2, 1, [0, 1, 0])])
  else sdivDual n a

theorem ts3_dual_pos {n : ℕ} (hk : 1 ≤ n) : Dual 3 n (keys3 n) (fun a => curlVec (tsPot n a)) (sdivDual n) where
  nodup := keys3_nodup n
  len := by
    rintro ⟨t, i⟩ ha p hp q hq
    obtain ⟨h1, h2⟩ := mem_keys3.1 ha
    simp only at h1 h2
    interval_cases t <;>
    · simp only [curlVec, tsPot, diffPoly, negPoly, diffTerm, List.mem_cons, List.not_mem_nil, or_false] at hp
      rcases hp with rfl | rfl | rfl <;> simp at hq <;> (try rcases hq with rfl | rfl) <;> simp_all [diffTerm]
  term := by
    rintro ⟨t, i⟩ ha j hj q hq h0
    obtain ⟨h1, h2⟩ := mem_keys3.1 ha
    simp only at h1 h2
    interval_cases t <;> interval_cases j <;>
    · simp [curlVec, tsPot, diffPoly, negPoly, diffTerm] at hq
      (try rcases hq with rfl | rfl) <;> simp_all <;> omega
  low := (sdiv3_dual hk).low
  diag := by
    rintro ⟨t, i⟩ ha
    obtain ⟨h1, h2⟩ := mem_keys3.1 ha
    simp only at h1 h2
    have e : ((n - i : ℕ) : ℤ) = n - i := by omega
    have hk' : (1 : ℤ) ≤ n := by omega
    interval_cases t <;>
    · simp only [sdivDual]
      split_ifs <;> simp [flVal, vcoeff, termCoeff, curlVec, tsPot, diffPoly, negPoly, diffTerm, e, -mul_eq_zero] <;>
        (try split_ifs) <;> first | omega | (intro h; nlinarith)
  off := by
    rintro ⟨t, i⟩ ha ⟨s, j⟩ hb hab
    obtain ⟨h1, h2⟩ := mem_keys3.1 ha
    obtain ⟨h3, h4⟩ := mem_keys3.1 hb
    simp only at h1 h2 h3 h4
    have e : ((n - j : ℕ) : ℤ) = n - j := by omega
    rw [ne_eq, Prod.mk.injEq] at hab
    interval_cases t <;> interval_cases s <;>
    · simp only [sdivDual]
      split_ifs <;> simp [flVal, vcoeff, termCoeff, curlVec, tsPot, diffPoly, negPoly, diffTerm, e, -mul_eq_zero] <;>
        (try split_ifs) <;> first | omega | (ring_nf; omega)

theorem ts3_dual (n : ℕ) : Dual 3 n (tsKeys3 n) (fun a => curlVec (tsPot n a)) (tsDual3 n) := by
  rcases Nat.eq_zero_or_pos n with rfl | h
  · constructor <;> decide
  · have e1 : tsKeys3 n = keys3 n := if_neg (by omega)
    have e2 : tsDual3 n = sdivDual n := funext fun a => if_neg (by omega)
    rw [e1, e2]
    exact ts3_dual_pos h

theorem ts3_div (n : ℕ) : ∀ a ∈ tsKeys3 n, divL 3 (denoteVec ℝ 3 (curlVec (tsPot n a))) = 0 := by
  intro a _
  rw [divL_apply]
  exact divergence_curl ℝ _

theorem ts3_set (n : ℕ) :
    tsdivSet 3 (n + 1) = (polySetVector 3 3 n).map fun a => a ++ (tsRads3 n ++ (tsKeys3 n).map fun a => curlVec (tsPot n a)) := by
  rw [tsdivSet, show ((n + 1 : ℕ) : ℤ) - 1 = n by push_cast; ring]
  have : tsdivAdd3 (n + 1) = tsRads3 n ++ (tsKeys3 n).map fun a => curlVec (tsPot n a) := by
    rw [tsdivAdd3, tsRads3]
    congr 1
    unfold tsKeys3
    rcases Nat.eq_zero_or_pos n with rfl | h
    · rfl
    · rw [if_neg (by omega), keys3, List.map_flatMap]
      simp only [if_pos (show 1 < n + 1 by omega)]
      rfl
  simp only [this]
  rfl

theorem tsPot_neg (n : ℕ) (a : ℕ × ℕ) : denoteVec ℝ 3 (tsPot n a) = - denoteVec ℝ 3 (sdivPot n a) := by
  obtain ⟨t, i⟩ := a
  funext j
  rcases t with _ | _ | t <;> fin_cases j <;> simp [denoteVec, tsPot, sdivPot, denotePoly]

theorem curlF_neg (v : Field 3) : curlF (-v) = - curlF v := by
  funext j
  fin_cases j <;> simp [curlF] <;> ring

theorem tsFn3_neg (n : ℕ) (a : ℕ × ℕ) : denoteVec ℝ 3 (curlVec (tsPot n a)) = - denoteVec ℝ 3 (curlVec (sdivPot n a)) := by
  rw [denoteVec_curl, denoteVec_curl, tsPot_neg, curlF_neg]

theorem ts3_ext (n : ℕ) : Submodule.span ℝ {w | w ∈ ((tsKeys3 n).map fun a => curlVec (tsPot n a)).map (denoteVec ℝ 3)} =
    Submodule.span ℝ (sdivExt3 n) := by
  rw [← sdiv3_ext n]
  have hsub : ∀ a ∈ tsKeys3 n, denoteVec ℝ 3 (curlVec (sdivPot n a)) ∈
      Submodule.span ℝ {w | w ∈ ((tsKeys3 n).map fun a => curlVec (tsPot n a)).map (denoteVec ℝ 3)} := by
    intro a ha
    have h1 : denoteVec ℝ 3 (curlVec (tsPot n a)) ∈
      Submodule.span ℝ {w | w ∈ ((tsKeys3 n).map fun a => curlVec (tsPot n a)).map (denoteVec ℝ 3)} :=
      Submodule.subset_span (List.mem_map_of_mem (List.mem_map_of_mem ha))
    rw [tsFn3_neg] at h1
    have := Submodule.neg_mem _ h1
    rwa [neg_neg] at this
  apply le_antisymm
  · rw [Submodule.span_le]
    intro w hw
    obtain ⟨F, hF, rfl⟩ := List.mem_map.1 hw
    obtain ⟨a, ha, rfl⟩ := List.mem_map.1 hF
    rw [tsFn3_neg]
    refine Submodule.neg_mem _ (Submodule.subset_span (List.mem_map_of_mem (List.mem_map.2 ⟨a, ?_, rfl⟩)))
    unfold tsKeys3 at ha
    split_ifs at ha with h
    · subst h
      simp at ha
      rcases ha with rfl | rfl <;> simp [mem_keys3]
    · exact ha
  · rw [Submodule.span_le]
    intro w hw
    obtain ⟨F, hF, rfl⟩ := List.mem_map.1 hw
    obtain ⟨a, ha, rfl⟩ := List.mem_map.1 hF
    by_cases h : n = 0
    · subst h
      obtain ⟨t, i⟩ := a
      obtain ⟨h1, h2⟩ := mem_keys3.1 ha
      simp only at h1 h2
      obtain rfl : i = 0 := by omega
      interval_cases t
      · exact hsub _ (by simp [tsKeys3])
      · exact hsub _ (by simp [tsKeys3])
      · have e : denoteVec ℝ 3 (curlVec (sdivPot 0 (2, 0))) =
            denoteVec ℝ 3 (curlVec (sdivPot 0 (1, 0))) - denoteVec ℝ 3 (curlVec (sdivPot 0 (0, 0))) := by
          funext j
          fin_cases j <;> simp [denoteVec, curlVec, sdivPot, diffPoly, negPoly, diffTerm, denotePoly, denoteMono, monoFrom] <;> ring
        show denoteVec ℝ 3 (curlVec (sdivPot 0 (2, 0))) ∈ _
        rw [e]
        exact Submodule.sub_mem _ (hsub _ (by simp [tsKeys3])) (hsub _ (by simp [tsKeys3]))
    · refine hsub a ?_
      unfold tsKeys3
      rwa [if_neg h]

theorem tsdivMonos3_iff (n : ℕ) (m : Mono) : m ∈ tsdivMonos 3 (n + 1) ↔ m.length = 3 ∧ m.sum = n := by
  have := mem_hdivMonos3 (order := n + 1) (m := m)
  rw [show tsdivMonos 3 (n + 1) = hdivMonos3 (n + 1) from rfl, this]
  omega

/-- **C124** The trimmed serendipity H(div) element on a hexahedron. -/
theorem tsdiv_created_hexahedron {k : ℕ} (hk : 1 ≤ k) :
    Created (tsdiv "equispaced" .hexahedron k) (TSdiv 3 k (sdivExt3 (k - 1)))
      ((k + 2).choose 3 * 3 + (k + 1).choose 2 + if k = 1 then 2 else 3 * k)
      (QNormalTrace .hexahedron (TSdiv 3 k (sdivExt3 (k - 1)))) := by
  obtain ⟨n, rfl⟩ := Nat.exists_eq_add_of_le' hk
  have hl : (tsdivMonos 3 (n + 1)).length = (n + 2).choose 2 := by
    obtain ⟨l, h1, h2⟩ := (hdivSet_length (n + 1)).2
    rw [hdivSet3_eq] at h1
    obtain rfl := Option.some.inj h1
    rw [List.length_map] at h2
    exact h2
  have hkl : (tsKeys3 n).length = if n = 0 then 2 else 3 * (n + 1) := by
    unfold tsKeys3
    split_ifs
    · rfl
    · exact keys3_length n
  have h2 := choose_two n
  have h3 := choose_three n
  have h := ts_created (c := .hexahedron) (Or.inr rfl) (tsMs3_nodup n) (fun _ => mem_tsMs3) (tsRads3_eq n) (ts3_dual n) (ts3_div n)
    (ts3_set n) (tsdivMonos3_iff n) (by
      show 2 * 3 * (n + 2).choose 2 + (if (n : ℤ) - 2 < 0 then 0 else (((n : ℤ) - 2).toNat + 3).choose 3 * 3) +
        (if 1 ≤ n then (tsdivMonos 3 (n + 1)).length else 0) = (n + 3).choose 3 * 3 + ((tsMs3 n).length + (tsKeys3 n).length)
      rw [hl, tsMs3_length, hkl]
      rcases n with _ | _ | n
      · rfl
      · rfl
      · rw [if_neg (by omega), show (((n + 1 + 1 : ℕ) : ℤ) - 2).toNat = n by omega, if_pos (by omega), if_neg (by omega)]
        have h4 := choose_three n
        have h5 := choose_two n
        nlinarith)
  have hn : (n + Cell.hexahedron.tdim).choose Cell.hexahedron.tdim * Cell.hexahedron.tdim + ((tsMs3 n).length + (tsKeys3 n).length) =
      (n + 1 + 2).choose 3 * 3 + (n + 1 + 1).choose 2 + if n + 1 = 1 then 2 else 3 * (n + 1) := by
    show (n + 3).choose 3 * 3 + _ = _
    rw [tsMs3_length, hkl, ← add_assoc]
    congr 1
    by_cases h0 : n = 0
    · rw [if_pos h0, if_pos (by omega)]
    · rw [if_neg h0, if_neg (by omega)]
  rw [hn] at h
  rw [Nat.add_one_sub_one, ← TSdiv_congr (ts3_ext n)]
  exact h

example : ∃ basis dofs fs, tsdiv "equispaced" .hexahedron 2 = some (.ciarlet basis dofs) ∧
    getBasis (.ciarlet basis dofs) = some fs ∧ fs.length = 21 := by
  obtain ⟨b, d, fs, h1, h2, -, h3, -⟩ := tsdiv_created_hexahedron (k := 2) (by omega)
  exact ⟨b, d, fs, h1, h2, h3⟩

end Verif.Families
