import Verif.Polysets.Independence
import Mathlib.RingTheory.MvPolynomial.Homogeneous
import Mathlib.Tactic.LinearCombination
/-!
# Properties of the polynomial sets (C21–C27)
-/

namespace Verif.Polysets

open MvPolynomial

/-! ## C21 -/

/-- **C21.** For dimensions 1, 2 and 3 and every integer order, `polynomial_set_1d` lists every
monomial of total degree at most the order exactly once, and nothing else. -/
theorem polySet_spec (dim : ℕ) (hd : dim = 1 ∨ dim = 2 ∨ dim = 3) (order : ℤ) :
    ∃ l, polySet dim order = some l ∧ l.Nodup ∧
      ∀ m : Mono, m ∈ l ↔ m.length = dim ∧ (m.sum : ℤ) ≤ order := by
  rcases hd with rfl | rfl | rfl
  · exact ⟨_, rfl, nodup_polySet1 order, fun m => mem_polySet1⟩
  · exact ⟨_, rfl, nodup_polySet2 order, fun m => mem_polySet2⟩
  · exact ⟨_, rfl, nodup_polySet3 order, fun m => mem_polySet3⟩

/-- **C21.** The number of members is `binomial(k + dim, dim)`. -/
theorem polySet_length (dim k : ℕ) (l : List Mono) (h : polySet dim k = some l) :
    l.length = (k + dim).choose dim := by
  unfold polySet at h
  split at h <;> cases h
  · exact length_polySet1 k
  · exact length_polySet2 k
  · exact length_polySet3 k

/-- **C21.** Other dimensions raise. -/
theorem polySet_raises (dim : ℕ) (order : ℤ) : polySet dim order = none ↔ dim = 0 ∨ 4 ≤ dim := by
  unfold polySet
  split
  · simp
  · simp
  · simp
  · simp only [true_iff]
    rename_i h1 h2 h3
    by_contra h
    push Not at h
    have : dim < 4 := h.2
    interval_cases dim <;> simp_all

example : polySet 2 2 = some [[0, 0], [1, 0], [2, 0], [0, 1], [1, 1], [0, 2]] := by decide
example : polySet 3 (-1) = some [] := by decide

/-! ## C22 -/

/-- **C22.** `quolynomial_set_1d` lists every monomial whose exponents are all at most the order
exactly once, and nothing else. -/
theorem quolySet_spec (dim : ℕ) (order : ℤ) :
    (quolySet dim order).Nodup ∧
      ∀ m : Mono, m ∈ quolySet dim order ↔ m.length = dim ∧ ∀ a ∈ m, (a : ℤ) ≤ order := by
  refine ⟨nodup_prodRange _ _, fun m => ?_⟩
  rw [quolySet, mem_prodRange]
  simp [Int.lt_add_one_iff]

/-- **C22.** It has `(k+1)^dim` members. -/
theorem quolySet_length (dim k : ℕ) : (quolySet dim k).length = (k + 1) ^ dim := by
  rw [quolySet, length_prodRange]; norm_cast

example : quolySet 2 1 = [[0, 0], [0, 1], [1, 0], [1, 1]] := by decide

/-! ## C23 -/

/-- **C23.** `serendipity_set_1d` lists exactly once each monomial whose degree is above the order
and whose superlinear degree is at most the order. -/
theorem serSet_spec (dim order : ℕ) (hd : 1 ≤ dim) :
    (serSet dim order).Nodup ∧
      ∀ m : Mono, m ∈ serSet dim order ↔
        m.length = dim ∧ order < m.sum ∧ superlinearDegree m ≤ order :=
  ⟨nodup_serSet dim order, fun _ => mem_serSet hd⟩

/-- **C23.** Together with the polynomials of degree at most the order, this is exactly the set of
monomials of superlinear degree at most the order, each once. -/
theorem polySet_serSet_spec (dim order : ℕ) (hd : dim = 1 ∨ dim = 2 ∨ dim = 3) :
    ∃ l, polySet dim order = some l ∧ (l ++ serSet dim order).Nodup ∧
      ∀ m : Mono, m ∈ l ++ serSet dim order ↔
        m.length = dim ∧ superlinearDegree m ≤ order := by
  obtain ⟨l, h1, h2, h3⟩ := polySet_spec dim hd order
  have hd' : 1 ≤ dim := by omega
  refine ⟨l, h1, ?_, fun m => ?_⟩
  · rw [List.nodup_append]
    refine ⟨h2, nodup_serSet _ _, ?_⟩
    rintro a ha b hb rfl
    have := (h3 a).1 ha
    have := (mem_serSet hd').1 hb
    omega
  · rw [List.mem_append, h3, mem_serSet hd']
    have := sum_eq_count_add m
    constructor
    · rintro (⟨h, h'⟩ | ⟨h, h', h''⟩)
      · exact ⟨h, by omega⟩
      · exact ⟨h, h''⟩
    · rintro ⟨h, h'⟩
      by_cases hs : m.sum ≤ order
      · exact Or.inl ⟨h, by omega⟩
      · exact Or.inr ⟨h, by omega, h'⟩

example : serSet 2 2 = [[1, 2], [2, 1]] := by decide
example : serSet 3 1 = [[0, 1, 1], [1, 0, 1], [1, 1, 0], [1, 1, 1]] := by decide

/-! ## C24 -/

/-- **C24.** `prism_polynomial_set_1d` lists exactly once each monomial of degree at most the order
in `(x, y)` and of degree at most the order in `z`. -/
theorem prismSet_spec (order : ℤ) :
    (prismSet order).Nodup ∧
      ∀ m : Mono, m ∈ prismSet order ↔
        ∃ a b c : ℕ, m = [a, b, c] ∧ (a : ℤ) + b ≤ order ∧ (c : ℤ) ≤ order := by
  constructor
  · refine nodup_flatMap_of_key (key := fun m => m[2]?) (k := fun j => some j)
      (fun a b h => by simpa using h) (nodup_pyRange _) ?_ ?_
    · intro k _
      refine nodup_flatMap_of_key (key := fun m => m[1]?) (k := fun j => some j)
        (fun a b h => by simpa using h) (nodup_pyRange _) ?_ ?_
      · intro j _
        exact (nodup_pyRange _).map (by intro a b h; simpa using h)
      · intro j _ m hm
        obtain ⟨i, _, rfl⟩ := List.mem_map.1 hm
        rfl
    · intro k _ m hm
      obtain ⟨j, _, hm⟩ := List.mem_flatMap.1 hm
      obtain ⟨i, _, rfl⟩ := List.mem_map.1 hm
      rfl
  · intro m
    simp only [prismSet, List.mem_flatMap, List.mem_map, mem_pyRange]
    constructor
    · rintro ⟨k, hk, j, hj, i, hi, rfl⟩
      exact ⟨i, j, k, rfl, by omega, by omega⟩
    · rintro ⟨a, b, c, rfl, h1, h2⟩
      exact ⟨c, by omega, b, by omega, a, by omega, rfl⟩

/-- **C24.** `pyramid_polynomial_set_1d` has exactly one function for each index triple `(i, j, k)`
with `max(i, j) + k` at most the order. -/
theorem pyramidSet_spec (order : ℤ) :
    (pyramidSet order).Nodup ∧
      ∀ m : Mono, m ∈ pyramidSet order ↔
        ∃ i j k : ℕ, m = [i, j, k] ∧ (max i j : ℤ) + k ≤ order := by
  constructor
  · refine nodup_flatMap_of_key (key := fun m => m[2]?) (k := fun j => some j)
      (fun a b h => by simpa using h) (nodup_pyRange _) ?_ ?_
    · intro k _
      refine nodup_flatMap_of_key (key := fun m => m[0]?) (k := fun j => some j)
        (fun a b h => by simpa using h) (nodup_pyRange _) ?_ ?_
      · intro j _
        exact (nodup_pyRange _).map (by intro a b h; simpa using h)
      · intro j _ m hm
        obtain ⟨i, _, rfl⟩ := List.mem_map.1 hm
        rfl
    · intro k _ m hm
      obtain ⟨j, _, hm⟩ := List.mem_flatMap.1 hm
      obtain ⟨i, _, rfl⟩ := List.mem_map.1 hm
      rfl
  · intro m
    simp only [pyramidSet, List.mem_flatMap, List.mem_map, mem_pyRange]
    constructor
    · rintro ⟨k, hk, i, hi, j, hj, rfl⟩
      exact ⟨i, j, k, rfl, by omega⟩
    · rintro ⟨a, b, c, rfl, h⟩
      exact ⟨c, by omega, a, by omega, b, by omega, rfl⟩

/-- **C24.** The prism set has `(k+1)² (k+2) / 2` members. -/
theorem prismSet_length (k : ℕ) : (prismSet k).length = (k + 1) * (k + 2).choose 2 := by
  unfold prismSet
  rw [List.length_flatMap, pyRange_nat]
  have : ∀ l : ℕ, ((List.range (k + 1)).flatMap fun j : ℕ =>
      (pyRange ((k : ℤ) + 1 - j)).map fun i : ℕ => [i, j, l]).length = (k + 2).choose 2 := by
    intro l
    rw [← length_polySet2 k, List.length_flatMap, List.length_flatMap, pyRange_nat]
    simp
  simp [this]

/-- **C24.** The pyramid set has `(k+1)(k+2)(2k+3)/6` members. -/
theorem pyramidSet_length (k : ℕ) :
    6 * (pyramidSet k).length = (k + 1) * (k + 2) * (2 * k + 3) := by
  have h : (pyramidSet k).length = ∑ l ∈ Finset.range (k + 1), (l + 1) ^ 2 := by
    unfold pyramidSet
    rw [List.length_flatMap, pyRange_nat, sum_map_range, ← Finset.sum_range_reflect]
    refine Finset.sum_congr rfl fun j hj => ?_
    rw [Finset.mem_range] at hj
    simp only [List.length_flatMap, List.length_map, pyRange, List.length_range, List.map_const',
      List.sum_replicate, smul_eq_mul]
    have : ((k : ℤ) + 1 - ((k + 1 - 1 - j : ℕ) : ℤ)).toNat = j + 1 := by omega
    rw [this]; ring
  rw [h]
  clear h
  induction k with
  | zero => simp
  | succ k ih => rw [Finset.sum_range_succ, mul_add, ih]; ring

example : pyramidSet 1 = [[0, 0, 0], [0, 1, 0], [1, 0, 0], [1, 1, 0], [0, 0, 1]] := by decide
example : prismSet 1 = [[0, 0, 0], [1, 0, 0], [0, 1, 0], [0, 0, 1], [1, 0, 1], [0, 1, 1]] := by
  decide

/-! ## C25 -/

theorem denotePoly_monoPoly (K : Type) [CommRing K] (m : Mono) :
    denotePoly K (monoPoly m) = denoteMono K m := by
  simp [denotePoly, monoPoly]

theorem denoteVec_unitVec (K : Type) [CommRing K] (r : ℕ) (i : Fin r) (m : Mono) :
    denoteVec K r (unitVec r i (monoPoly m)) = Pi.single i (denoteMono K m) := by
  funext j
  unfold denoteVec unitVec
  rw [List.getElem?_map, List.getElem?_range j.2]
  simp only [Option.map_some, Option.getD_some]
  by_cases h : (i : ℕ) = j
  · have : i = j := Fin.ext h
    subst this
    simp [denotePoly_monoPoly]
  · have : i ≠ j := fun e => h (by rw [e])
    rw [if_neg h, Pi.single_eq_of_ne (Ne.symm this)]
    simp [denotePoly]

/-- **C25.** A vector-valued set consists, for each member of the scalar set in order and each
component in order, of the vector with that member in that component and zero elsewhere. -/
theorem vectorSet_spec (K : Type) [CommRing K] (r : ℕ) (l : List Mono) :
    (vectorSet r l).map (denoteVec K r) =
      l.flatMap fun m => (List.finRange r).map fun i => Pi.single i (denoteMono K m) := by
  unfold vectorSet
  rw [List.map_flatMap]
  congr 1
  funext m
  rw [← List.map_coe_finRange_eq_range]
  simp only [List.map_map]
  congr 1
  funext i
  simp [denoteVec_unitVec]

/-- **C25.** The number of members is multiplied by the number of components. -/
theorem vectorSet_length (r : ℕ) (l : List Mono) : (vectorSet r l).length = l.length * r := by
  simp [vectorSet, List.length_flatMap]

example : polySetVector 1 2 1 =
    some [[[(1, [0])], []], [[], [(1, [0])]], [[(1, [1])], []], [[], [(1, [1])]]] := by decide

/-! ## C26 -/

/-- **C26.** The scalar sets are linearly independent. -/
theorem scalar_sets_independent (K : Type) [Field K] :
    (∀ dim order l, polySet dim order = some l → Independent K (l.map (denoteMono K))) ∧
    (∀ dim order, Independent K ((quolySet dim order).map (denoteMono K))) ∧
    (∀ dim order, Independent K ((serSet dim order).map (denoteMono K))) ∧
    (∀ dim order l, polySet dim (order : ℕ) = some l →
      Independent K ((l ++ serSet dim order).map (denoteMono K))) ∧
    (∀ order, Independent K ((prismSet order).map (denoteMono K))) := by
  have hdim : ∀ dim order l, polySet dim order = some l → dim = 1 ∨ dim = 2 ∨ dim = 3 := by
    intro dim order l h
    by_contra hc
    have : polySet dim order = none := (polySet_raises dim order).2 (by omega)
    rw [this] at h; cases h
  refine ⟨?_, ?_, ?_, ?_, ?_⟩
  · intro dim order l h
    obtain ⟨l', h1, h2, h3⟩ := polySet_spec dim (hdim _ _ _ h) order
    rw [h] at h1; cases h1
    exact independent_monos K h2 fun m hm => ((h3 m).1 hm).1
  · intro dim order
    obtain ⟨h2, h3⟩ := quolySet_spec dim order
    exact independent_monos K h2 fun m hm => ((h3 m).1 hm).1
  · intro dim order
    rcases Nat.eq_zero_or_pos dim with rfl | hd
    · exact independent_monos K (d := 0) (nodup_serSet 0 order) (by simp [serSet])
    · obtain ⟨h2, h3⟩ := serSet_spec dim order hd
      exact independent_monos K h2 fun m hm => ((h3 m).1 hm).1
  · intro dim order l h
    obtain ⟨l', h1, h2, h3⟩ := polySet_serSet_spec dim order (hdim _ _ _ h)
    rw [h] at h1; cases h1
    exact independent_monos K h2 fun m hm => ((h3 m).1 hm).1
  · intro order
    obtain ⟨h2, h3⟩ := prismSet_spec order
    refine independent_monos K (d := 3) h2 fun m hm => ?_
    obtain ⟨a, b, c, rfl, -⟩ := (h3 m).1 hm
    rfl

theorem vcoeff_unitVec (r i j : ℕ) (m m' : Mono) :
    vcoeff (unitVec r i (monoPoly m)) j m' = if j < r ∧ i = j ∧ m = m' then 1 else 0 := by
  unfold vcoeff unitVec
  rw [List.getElem?_map]
  by_cases hj : j < r
  · rw [List.getElem?_range hj]
    simp only [Option.map_some, Option.getD_some]
    by_cases h : i = j
    · simp [h, hj, monoPoly, termCoeff]
    · simp [h, termCoeff]
  · rw [List.getElem?_eq_none (by simpa using hj)]
    simp [hj, termCoeff]

theorem length_unitVec_terms {r i d : ℕ} {m : Mono} (hm : m.length = d) :
    ∀ p ∈ unitVec r i (monoPoly m), ∀ t ∈ p, t.2.length = d := by
  intro p hp t ht
  simp only [unitVec, List.mem_map] at hp
  obtain ⟨j, _, rfl⟩ := hp
  split at ht
  · simp only [monoPoly, List.mem_singleton] at ht; subst ht; exact hm
  · simp at ht

/-- Distinct unit vectors of monomials are independent. -/
theorem independent_units (K : Type) [Field K] [CharZero K] (r d : ℕ) (keys : List (ℕ × Mono))
    (hn : keys.Nodup) (hi : ∀ a ∈ keys, a.1 < r) (hm : ∀ a ∈ keys, a.2.length = d) :
    Independent K ((keys.map fun a => unitVec r a.1 (monoPoly a.2)).map (denoteVec K r)) := by
  refine independent_of_pivots K r d keys _ (fun a => a.1) (fun a => a.2) (fun _ => 0) hn ?_ hi hm
    ?_ ?_
  · intro a ha; exact length_unitVec_terms (hm a ha)
  · intro a ha; simp [vcoeff_unitVec, hi a ha]
  · intro a _ b _ hab h
    rw [vcoeff_unitVec] at h
    split at h
    · rename_i h'
      exact absurd (Prod.ext h'.2.1.symm h'.2.2.symm) hab
    · exact absurd rfl h

/-- The keys (component, monomial) of a vector set, in order. -/
def vkeys (r : ℕ) (l : List Mono) : List (ℕ × Mono) :=
  l.flatMap fun m => (List.range r).map fun i : ℕ => (i, m)

theorem vectorSet_eq_vkeys (r : ℕ) (l : List Mono) :
    vectorSet r l = (vkeys r l).map fun a => unitVec r a.1 (monoPoly a.2) := by
  simp [vectorSet, vkeys, List.map_flatMap, Function.comp_def]

theorem mem_vkeys {r : ℕ} {l : List Mono} {a : ℕ × Mono} :
    a ∈ vkeys r l ↔ a.1 < r ∧ a.2 ∈ l := by
  simp only [vkeys, List.mem_flatMap, List.mem_map, List.mem_range]
  constructor
  · rintro ⟨m, hm, i, hi, rfl⟩; exact ⟨hi, hm⟩
  · rintro ⟨h1, h2⟩; exact ⟨a.2, h2, a.1, h1, rfl⟩

theorem nodup_vkeys {r : ℕ} {l : List Mono} (h : l.Nodup) : (vkeys r l).Nodup := by
  refine nodup_flatMap_of_key (key := Prod.snd) (k := fun m => m) Function.injective_id h ?_ ?_
  · intro m _
    exact List.nodup_range.map (by intro a b h; simpa using h)
  · intro m _ a ha
    obtain ⟨i, _, rfl⟩ := List.mem_map.1 ha
    rfl

theorem vectorSet_independent (K : Type) [Field K] [CharZero K] (r d : ℕ) (l : List Mono)
    (hn : l.Nodup) (hl : ∀ m ∈ l, m.length = d) :
    Independent K ((vectorSet r l).map (denoteVec K r)) := by
  rw [vectorSet_eq_vkeys]
  exact independent_units K r d _ (nodup_vkeys hn) (fun a ha => (mem_vkeys.1 ha).1)
    (fun a ha => hl _ (mem_vkeys.1 ha).2)

/-- **C26.** The vector-valued sets are linearly independent. -/
theorem vector_sets_independent (K : Type) [Field K] [CharZero K] (r : ℕ) :
    (∀ dim order l, polySetVector dim r order = some l → Independent K (l.map (denoteVec K r))) ∧
    (∀ dim order, Independent K ((quolySetVector dim r order).map (denoteVec K r))) ∧
    (∀ dim order, Independent K ((serSetVector dim r order).map (denoteVec K r))) ∧
    (∀ order, Independent K ((prismSetVector r order).map (denoteVec K r))) := by
  refine ⟨?_, ?_, ?_, ?_⟩
  · intro dim order l h
    simp only [polySetVector, Option.map_eq_some_iff] at h
    obtain ⟨l', h1, rfl⟩ := h
    have hdim : dim = 1 ∨ dim = 2 ∨ dim = 3 := by
      by_contra hc
      have : polySet dim order = none := (polySet_raises dim order).2 (by omega)
      rw [this] at h1; cases h1
    obtain ⟨l'', h2, h3, h4⟩ := polySet_spec dim hdim order
    rw [h1] at h2; cases h2
    exact vectorSet_independent K r dim l' h3 fun m hm => ((h4 m).1 hm).1
  · intro dim order
    obtain ⟨h2, h3⟩ := quolySet_spec dim order
    exact vectorSet_independent K r dim _ h2 fun m hm => ((h3 m).1 hm).1
  · intro dim order
    rcases Nat.eq_zero_or_pos dim with rfl | hd
    · exact vectorSet_independent K r 0 _ (nodup_serSet 0 order) (by simp [serSet])
    · obtain ⟨h2, h3⟩ := serSet_spec dim order hd
      exact vectorSet_independent K r dim _ h2 fun m hm => ((h3 m).1 hm).1
  · intro order
    obtain ⟨h2, h3⟩ := prismSet_spec order
    refine vectorSet_independent K r 3 _ h2 fun m hm => ?_
    obtain ⟨a, b, c, rfl, -⟩ := (h3 m).1 hm
    rfl

end Verif.Polysets
