import Verif.Polysets.PropsVec
/-!
# The tensor-product H(div) and H(curl) sets, and the dispatch by cell name (C66, C67)
-/

namespace Verif.Polysets

open MvPolynomial

theorem forall_mem_iff_getD {m : Mono} {P : ℕ → Prop} :
    (∀ a ∈ m, P a) ↔ ∀ i < m.length, P (m.getD i 0) := by
  constructor
  · intro h i hi
    rw [List.getD_eq_getElem _ _ hi]
    exact h _ (List.getElem_mem _)
  · intro h a ha
    obtain ⟨i, hi, rfl⟩ := List.mem_iff_getElem.1 ha
    have := h i hi
    rwa [List.getD_eq_getElem _ _ hi] at this

theorem mem_prodRanges_range {dim : ℕ} {b : ℕ → ℕ} {m : Mono} :
    m ∈ prodRanges ((List.range dim).map b) ↔ m.length = dim ∧ ∀ i < dim, m.getD i 0 < b i := by
  rw [mem_prodRanges, List.forall₂_iff_get]
  simp only [List.length_map, List.length_range]
  constructor
  · rintro ⟨h1, h2⟩
    refine ⟨h1, fun i hi => ?_⟩
    have := h2 i (by omega) hi
    rw [List.getD_eq_getElem _ _ (by omega)]
    simpa using this
  · rintro ⟨h1, h2⟩
    refine ⟨h1, fun i hi hi' => ?_⟩
    have := h2 i hi'
    rw [List.getD_eq_getElem _ _ hi] at this
    simpa using this

/-- The monomials in component `d` of `Hdiv_quolynomials`. -/
theorem mem_insert {dim order d : ℕ} (hd : d < dim) {m : Mono} :
    (∃ j ∈ prodRange order (dim - 1), j.take d ++ [order] ++ j.drop d = m) ↔
      m.length = dim ∧ ∀ i < dim, if i = d then m.getD i 0 = order else m.getD i 0 < order := by
  constructor
  · rintro ⟨j, hj, rfl⟩
    obtain ⟨hl, hb⟩ := mem_prodRange.1 hj
    have hlen : (j.take d).length = d := by simp; omega
    refine ⟨by simp; omega, fun i hi => ?_⟩
    have hb' := forall_mem_iff_getD.1 hb
    rcases lt_trichotomy i d with h | h | h
    · rw [if_neg (by omega), List.append_assoc, List.getD_append _ _ _ _ (by omega)]
      have := hb' i (by omega)
      rw [List.getD_eq_getElem _ _ (by omega)] at this
      rw [List.getD_eq_getElem _ _ (by omega), List.getElem_take]
      exact_mod_cast this
    · subst h
      rw [if_pos rfl, List.append_assoc, List.getD_append_right _ _ _ _ (by omega), hlen]
      simp
    · rw [if_neg (by omega), List.getD_append_right _ _ _ _ (by simp; omega)]
      have := hb' (i - 1) (by omega)
      simp only [List.length_append, hlen, List.length_singleton]
      rw [List.getD_eq_getElem _ _ (by omega)] at this
      rw [List.getD_eq_getElem _ _ (by simp; omega), List.getElem_drop]
      have e : d + (i - (d + 1)) = i - 1 := by omega
      simp only [e]
      exact_mod_cast this
  · rintro ⟨hl, hb⟩
    have hlen : (m.take d).length = d := by simp; omega
    refine ⟨m.take d ++ m.drop (d + 1), mem_prodRange.2 ⟨by simp; omega, ?_⟩, ?_⟩
    · intro a ha
      rw [List.mem_append] at ha
      rcases ha with ha | ha
      · obtain ⟨i, hi, rfl⟩ := List.mem_iff_getElem.1 ha
        have := hb i (by omega)
        rw [if_neg (by omega), List.getD_eq_getElem _ _ (by omega)] at this
        rw [List.getElem_take]
        exact_mod_cast this
      · obtain ⟨i, hi, rfl⟩ := List.mem_iff_getElem.1 ha
        have hi' : i < m.length - (d + 1) := by simpa using hi
        have := hb (d + 1 + i) (by omega)
        rw [if_neg (by omega), List.getD_eq_getElem _ _ (by omega)] at this
        rw [List.getElem_drop]
        exact_mod_cast this
    · have hd' := hb d hd
      rw [if_pos rfl, List.getD_eq_getElem _ _ (by omega)] at hd'
      rw [List.take_append_of_le_length (by omega), List.take_of_length_le (by omega),
        List.drop_append_of_le_length (by omega), List.drop_of_length_le (by omega)]
      rw [← hd']
      simp

/-- The keys of `Hdiv_quolynomials`. -/
def hdivQKeys (dim order : ℕ) : List (ℕ × Mono) :=
  (List.range dim).flatMap fun d : ℕ =>
    (prodRange order (dim - 1)).map fun j => (d, j.take d ++ [order] ++ j.drop d)

theorem hdivQuolySet_eq (dim order : ℕ) :
    hdivQuolySet dim order = (hdivQKeys dim order).map fun a => unitVec dim a.1 (monoPoly a.2) := by
  simp [hdivQuolySet, hdivQKeys, List.map_flatMap, Function.comp_def]

theorem mem_hdivQKeys {dim order : ℕ} {a : ℕ × Mono} :
    a ∈ hdivQKeys dim order ↔ a.1 < dim ∧ a.2.length = dim ∧
      ∀ i < dim, if i = a.1 then a.2.getD i 0 = order else a.2.getD i 0 < order := by
  obtain ⟨d, m⟩ := a
  simp only [hdivQKeys, List.mem_flatMap, List.mem_map, List.mem_range, Prod.mk.injEq]
  constructor
  · rintro ⟨d', hd', j, hj, rfl, rfl⟩
    exact ⟨hd', (mem_insert hd').1 ⟨j, hj, rfl⟩⟩
  · rintro ⟨hd, h⟩
    obtain ⟨j, hj, rfl⟩ := (mem_insert hd).2 h
    exact ⟨d, hd, j, hj, rfl, rfl⟩

theorem nodup_hdivQKeys (dim order : ℕ) : (hdivQKeys dim order).Nodup := by
  refine nodup_flatMap_of_key (key := Prod.fst) (k := fun d => d) Function.injective_id
    List.nodup_range ?_ ?_
  · intro d hd
    rw [List.mem_range] at hd
    refine (nodup_prodRange _ _).map_on ?_
    intro a ha b hb h
    have hla := (mem_prodRange.1 ha).1
    have hlb := (mem_prodRange.1 hb).1
    simp only [Prod.mk.injEq, true_and] at h
    rw [List.append_assoc, List.append_assoc] at h
    obtain ⟨h1, h2⟩ := List.append_inj h (by simp; omega)
    simp only [List.singleton_append, List.cons.injEq, true_and] at h2
    rw [← List.take_append_drop d a, ← List.take_append_drop d b, h1, h2]
  · intro d _ a ha
    obtain ⟨j, _, rfl⟩ := List.mem_map.1 ha
    rfl

/-- The keys of `Hcurl_quolynomials`. -/
def hcurlQKeys (dim order : ℕ) : List (ℕ × Mono) :=
  (List.range dim).flatMap fun d : ℕ =>
    ((prodRanges ((List.range dim).map fun i : ℕ => if i = d then order else order + 1)).filter
      fun j => j.contains order).map fun j => (d, j)

theorem hcurlQuolySet_eq (dim order : ℕ) :
    hcurlQuolySet dim order =
      (hcurlQKeys dim order).map fun a => unitVec dim a.1 (monoPoly a.2) := by
  simp [hcurlQuolySet, hcurlQKeys, List.map_flatMap, Function.comp_def]

theorem mem_hcurlQKeys {dim order : ℕ} {a : ℕ × Mono} :
    a ∈ hcurlQKeys dim order ↔ a.1 < dim ∧ a.2.length = dim ∧
      (∀ i < dim, a.2.getD i 0 < if i = a.1 then order else order + 1) ∧ order ∈ a.2 := by
  obtain ⟨d, m⟩ := a
  simp only [hcurlQKeys, List.mem_flatMap, List.mem_map, List.mem_range, Prod.mk.injEq,
    List.mem_filter, List.contains_iff_mem, mem_prodRanges_range]
  constructor
  · rintro ⟨d', hd', j, ⟨⟨h1, h2⟩, h3⟩, rfl, rfl⟩
    exact ⟨hd', h1, h2, h3⟩
  · rintro ⟨hd, h1, h2, h3⟩
    exact ⟨d, hd, m, ⟨⟨h1, h2⟩, h3⟩, rfl, rfl⟩

theorem nodup_hcurlQKeys (dim order : ℕ) : (hcurlQKeys dim order).Nodup := by
  refine nodup_flatMap_of_key (key := Prod.fst) (k := fun d => d) Function.injective_id
    List.nodup_range ?_ ?_
  · intro d _
    exact ((nodup_prodRanges _).filter _).map (by intro a b h; simpa using h)
  · intro d _ a ha
    obtain ⟨j, _, rfl⟩ := List.mem_map.1 ha
    rfl

/-- What a list of unit vectors denotes, from its keys. -/
theorem mem_map_units (K : Type) [CommRing K] (r : ℕ) (keys : List (ℕ × Mono))
    (hk : ∀ a ∈ keys, a.1 < r) (q : Fin r → MvPolynomial ℕ K) :
    q ∈ ((keys.map fun a => unitVec r a.1 (monoPoly a.2)).map (denoteVec K r)) ↔
      ∃ d : Fin r, ∃ m, ((d : ℕ), m) ∈ keys ∧ q = Pi.single d (denoteMono K m) := by
  rw [List.map_map, List.mem_map]
  constructor
  · rintro ⟨⟨d, m⟩, ha, rfl⟩
    refine ⟨⟨d, hk _ ha⟩, m, ha, ?_⟩
    exact denoteVec_unitVec K r ⟨d, hk _ ha⟩ m
  · rintro ⟨d, m, ha, rfl⟩
    exact ⟨_, ha, denoteVec_unitVec K r d m⟩

/-- **C66.** The list given to the H(div) tensor element (`poly` in `q.py: RaviartThomas`),
`quolynomial_set_vector(k-1) + Hdiv_quolynomials(k)`, consists of linearly independent vectors, and
its members are exactly the unit vectors times monomials of degree at most `k` in the variable of
their component and at most `k - 1` in the others. -/
theorem hdivQuoly_list_spec (K : Type) [Field K] [CharZero K] (dim k : ℕ) :
    Independent K ((quolySetVector dim dim k ++ hdivQuolySet dim (k + 1)).map (denoteVec K dim)) ∧
    ∀ q, q ∈ (quolySetVector dim dim k ++ hdivQuolySet dim (k + 1)).map (denoteVec K dim) ↔
      ∃ (d : Fin dim) (m : Mono), m.length = dim ∧
        (∀ i < dim, m.getD i 0 ≤ if i = d then k + 1 else k) ∧
        q = Pi.single d (denoteMono K m) := by
  have hlist : quolySetVector dim dim k ++ hdivQuolySet dim (k + 1) =
      (vkeys dim (quolySet dim k) ++ hdivQKeys dim (k + 1)).map
        fun a => unitVec dim a.1 (monoPoly a.2) := by
    rw [hdivQuolySet_eq, quolySetVector, vectorSet_eq_vkeys, List.map_append]
  obtain ⟨hqn, hqm⟩ := quolySet_spec dim (k : ℤ)
  have hmem : ∀ a : ℕ × Mono, a ∈ vkeys dim (quolySet dim k) ++ hdivQKeys dim (k + 1) ↔
      a.1 < dim ∧ a.2.length = dim ∧ ∀ i < dim, a.2.getD i 0 ≤ if i = a.1 then k + 1 else k := by
    rintro ⟨d, m⟩
    rw [List.mem_append, mem_vkeys, hqm, mem_hdivQKeys]
    simp only
    constructor
    · rintro (⟨h1, h2, h3⟩ | ⟨h1, h2, h3⟩)
      · refine ⟨h1, h2, fun i hi => ?_⟩
        have := forall_mem_iff_getD.1 h3 i (by omega)
        split <;> omega
      · refine ⟨h1, h2, fun i hi => ?_⟩
        have := h3 i hi
        split at this <;> simp_all
    · rintro ⟨h1, h2, h3⟩
      by_cases hc : m.getD d 0 = k + 1
      · right
        refine ⟨h1, h2, fun i hi => ?_⟩
        have := h3 i hi
        split
        · rename_i h; rw [h]; exact hc
        · rename_i h; rw [if_neg h] at this; omega
      · left
        refine ⟨h1, h2, forall_mem_iff_getD.2 fun i hi => ?_⟩
        have := h3 i (by omega)
        split at this
        · rename_i h; subst h; omega
        · omega
  have hnd : (vkeys dim (quolySet dim k) ++ hdivQKeys dim (k + 1)).Nodup := by
    rw [List.nodup_append]
    refine ⟨nodup_vkeys hqn, nodup_hdivQKeys _ _, ?_⟩
    rintro a ha b hb rfl
    have h1 := (hqm a.2).1 (mem_vkeys.1 ha).2
    obtain ⟨h2, h3, h4⟩ := mem_hdivQKeys.1 hb
    have h5 := h4 a.1 h2
    have h6 := forall_mem_iff_getD.1 h1.2 a.1 (by omega)
    simp at h5
    simp [h5] at h6
  rw [hlist]
  refine ⟨independent_units K dim dim _ hnd (fun a ha => ((hmem a).1 ha).1)
    (fun a ha => ((hmem a).1 ha).2.1), fun q => ?_⟩
  rw [mem_map_units K dim _ (fun a ha => ((hmem a).1 ha).1)]
  constructor
  · rintro ⟨d, m, h, rfl⟩
    have := (hmem _).1 h
    exact ⟨d, m, this.2.1, this.2.2, rfl⟩
  · rintro ⟨d, m, h1, h2, rfl⟩
    exact ⟨d, m, (hmem _).2 ⟨d.2, h1, h2⟩, rfl⟩

/-- **C66.** The list given to the H(curl) tensor element (`poly` in `q.py: Nedelec`),
`quolynomial_set_vector(k-1) + Hcurl_quolynomials(k)`, consists of linearly independent vectors, and
its members are exactly the unit vectors times monomials of degree at most `k - 1` in the variable of
their component and at most `k` in the others. -/
theorem hcurlQuoly_list_spec (K : Type) [Field K] [CharZero K] (dim k : ℕ) :
    Independent K ((quolySetVector dim dim k ++ hcurlQuolySet dim (k + 1)).map (denoteVec K dim)) ∧
    ∀ q, q ∈ (quolySetVector dim dim k ++ hcurlQuolySet dim (k + 1)).map (denoteVec K dim) ↔
      ∃ (d : Fin dim) (m : Mono), m.length = dim ∧
        (∀ i < dim, m.getD i 0 ≤ if i = d then k else k + 1) ∧
        q = Pi.single d (denoteMono K m) := by
  have hlist : quolySetVector dim dim k ++ hcurlQuolySet dim (k + 1) =
      (vkeys dim (quolySet dim k) ++ hcurlQKeys dim (k + 1)).map
        fun a => unitVec dim a.1 (monoPoly a.2) := by
    rw [hcurlQuolySet_eq, quolySetVector, vectorSet_eq_vkeys, List.map_append]
  obtain ⟨hqn, hqm⟩ := quolySet_spec dim (k : ℤ)
  have hmem : ∀ a : ℕ × Mono, a ∈ vkeys dim (quolySet dim k) ++ hcurlQKeys dim (k + 1) ↔
      a.1 < dim ∧ a.2.length = dim ∧ ∀ i < dim, a.2.getD i 0 ≤ if i = a.1 then k else k + 1 := by
    rintro ⟨d, m⟩
    rw [List.mem_append, mem_vkeys, hqm, mem_hcurlQKeys]
    simp only
    constructor
    · rintro (⟨h1, h2, h3⟩ | ⟨h1, h2, h3, -⟩)
      · refine ⟨h1, h2, fun i hi => ?_⟩
        have := forall_mem_iff_getD.1 h3 i (by omega)
        split <;> omega
      · refine ⟨h1, h2, fun i hi => ?_⟩
        have := h3 i hi
        split at this <;> simp_all
    · rintro ⟨h1, h2, h3⟩
      by_cases hc : k + 1 ∈ m
      · right
        refine ⟨h1, h2, fun i hi => ?_, hc⟩
        have := h3 i hi
        split at this <;> simp_all
      · left
        refine ⟨h1, h2, fun a ha => ?_⟩
        obtain ⟨i, hi, rfl⟩ := List.mem_iff_getElem.1 ha
        have := h3 i (by omega)
        rw [List.getD_eq_getElem _ _ hi] at this
        have hne : m[i] ≠ k + 1 := fun e => hc (e ▸ ha)
        split at this <;> omega
  have hnd : (vkeys dim (quolySet dim k) ++ hcurlQKeys dim (k + 1)).Nodup := by
    rw [List.nodup_append]
    refine ⟨nodup_vkeys hqn, nodup_hcurlQKeys _ _, ?_⟩
    rintro a ha b hb rfl
    have h1 := (hqm a.2).1 (mem_vkeys.1 ha).2
    obtain ⟨h2, h3, h4, h5⟩ := mem_hcurlQKeys.1 hb
    have := h1.2 _ h5
    omega
  rw [hlist]
  refine ⟨independent_units K dim dim _ hnd (fun a ha => ((hmem a).1 ha).1)
    (fun a ha => ((hmem a).1 ha).2.1), fun q => ?_⟩
  rw [mem_map_units K dim _ (fun a ha => ((hmem a).1 ha).1)]
  constructor
  · rintro ⟨d, m, h, rfl⟩
    have := (hmem _).1 h
    exact ⟨d, m, this.2.1, this.2.2, rfl⟩
  · rintro ⟨d, m, h1, h2, rfl⟩
    exact ⟨d, m, (hmem _).2 ⟨d.2, h1, h2⟩, rfl⟩

example : hdivQuolySet 2 1 = [[[(1, [1, 0])], []], [[], [(1, [0, 1])]]] := by decide
example : hcurlQuolySet 2 1 = [[[(1, [0, 1])], []], [[], [(1, [1, 0])]]] := by decide

end Verif.Polysets
