import Verif.Polysets.Props
/-!
# Properties of the H(div) and H(curl) polynomial sets (C26, C27)
-/

namespace Verif.Polysets

open MvPolynomial

/-! ## Vocabulary -/

/-- The position vector times a scalar polynomial. -/
noncomputable def positionTimes (K : Type) [CommRing K] (d : ℕ) (p : MvPolynomial ℕ K) :
    Fin d → MvPolynomial ℕ K := fun i => X (i : ℕ) * p

/-- The dot product of the position vector with a vector of polynomials. -/
noncomputable def positionDot (K : Type) [CommRing K] {d : ℕ} (q : Fin d → MvPolynomial ℕ K) :
    MvPolynomial ℕ K := ∑ i : Fin d, X (i : ℕ) * q i

/-! ## Lemmas -/

theorem degree_expo (s : ℕ) (m : Mono) : (expo s m).degree = m.sum := by
  induction m generalizing s with
  | nil => simp [expo]
  | cons a t ih => simp [expo, ih, map_add]

theorem denoteMono_homogeneous (K : Type) [CommRing K] (m : Mono) :
    (denoteMono K m).IsHomogeneous m.sum := by
  rw [denoteMono, monoFrom_eq]
  exact isHomogeneous_monomial _ (degree_expo 0 m)

theorem denotePoly_homogeneous (K : Type) [CommRing K] (p : Poly) (n : ℕ)
    (h : ∀ t ∈ p, t.2.sum = n) : (denotePoly K p).IsHomogeneous n := by
  unfold denotePoly
  induction p with
  | nil => simpa using isHomogeneous_zero _ _ _
  | cons t p ih =>
    simp only [List.map_cons, List.sum_cons]
    refine IsHomogeneous.add ?_ (ih fun t ht => h t (by simp [ht]))
    have := (isHomogeneous_C ℕ (t.1 : K)).mul (denoteMono_homogeneous K t.2)
    rw [h t (by simp), zero_add] at this
    exact this

/-- The monomials of degree `order - 1` in the order used by `Hdiv_polynomials`. -/
def hdivMonos2 (order : ℕ) : List Mono := (List.range order).map fun j : ℕ => [order - 1 - j, j]

/-- The monomials of degree `order - 1` in the order used by `Hdiv_polynomials`. -/
def hdivMonos3 (order : ℕ) : List Mono :=
  (List.range order).flatMap fun j : ℕ => (List.range (order - j)).map fun k : ℕ =>
    [order - 1 - j - k, j, k]

theorem nodup_hdivMonos2 (order : ℕ) : (hdivMonos2 order).Nodup :=
  List.nodup_range.map (by intro a b h; simp at h; exact h.2)

theorem nodup_hdivMonos3 (order : ℕ) : (hdivMonos3 order).Nodup := by
  refine nodup_flatMap_of_key (key := fun m => m[1]?) (k := fun j => some j)
    (fun a b h => by simpa using h) List.nodup_range ?_ ?_
  · intro j _
    exact List.nodup_range.map (by intro a b h; simp at h; exact h.2)
  · intro j _ m hm
    obtain ⟨i, _, rfl⟩ := List.mem_map.1 hm
    rfl

theorem mem_hdivMonos2 {order : ℕ} {m : Mono} :
    m ∈ hdivMonos2 order ↔ m.length = 2 ∧ m.sum + 1 = order := by
  simp only [hdivMonos2, List.mem_map, List.mem_range]
  constructor
  · rintro ⟨j, hj, rfl⟩; simp; omega
  · rintro ⟨hl, hs⟩
    obtain ⟨a, b, rfl⟩ := List.length_eq_two.1 hl
    simp at hs
    refine ⟨b, by omega, ?_⟩
    have : order - 1 - b = a := by omega
    rw [this]

theorem mem_hdivMonos3 {order : ℕ} {m : Mono} :
    m ∈ hdivMonos3 order ↔ m.length = 3 ∧ m.sum + 1 = order := by
  simp only [hdivMonos3, List.mem_flatMap, List.mem_map, List.mem_range]
  constructor
  · rintro ⟨j, hj, k, hk, rfl⟩; simp; omega
  · rintro ⟨hl, hs⟩
    obtain ⟨a, b, c, rfl⟩ := List.length_eq_three.1 hl
    simp at hs
    refine ⟨b, by omega, c, by omega, ?_⟩
    have : order - 1 - b - c = a := by omega
    rw [this]

/-- The model's vector for "position vector times monomial". -/
def hvec : Mono → VecPoly
  | [a, b] => [[(1, [a + 1, b])], [(1, [a, b + 1])]]
  | [a, b, c] => [[(1, [a + 1, b, c])], [(1, [a, b + 1, c])], [(1, [a, b, c + 1])]]
  | _ => []

theorem hdivSet2_eq (order : ℕ) : hdivSet 2 order = some ((hdivMonos2 order).map hvec) := by
  simp [hdivSet, hdivMonos2, hvec]

theorem hdivSet3_eq (order : ℕ) : hdivSet 3 order = some ((hdivMonos3 order).map hvec) := by
  simp [hdivSet, hdivMonos3, hvec, List.map_flatMap, Function.comp_def]

theorem denote_hvec2 (K : Type) [CommRing K] {m : Mono} (h : m.length = 2) :
    denoteVec K 2 (hvec m) = positionTimes K 2 (denoteMono K m) := by
  obtain ⟨a, b, rfl⟩ := List.length_eq_two.1 h
  funext i
  fin_cases i <;>
    simp [denoteVec, hvec, denotePoly, positionTimes, denoteMono, monoFrom, pow_succ] <;> ring

theorem denote_hvec3 (K : Type) [CommRing K] {m : Mono} (h : m.length = 3) :
    denoteVec K 3 (hvec m) = positionTimes K 3 (denoteMono K m) := by
  obtain ⟨a, b, c, rfl⟩ := List.length_eq_three.1 h
  funext i
  fin_cases i <;>
    simp [denoteVec, hvec, denotePoly, positionTimes, denoteMono, monoFrom, pow_succ] <;> ring

/-! ## C27 -/

/-- **C27.** `Hdiv_polynomials(dim, dim, k)` consists of the position vector times each monomial of
degree `k - 1`, each exactly once. -/
theorem hdivSet_spec (K : Type) [CommRing K] (dim : ℕ) (hd : dim = 2 ∨ dim = 3) (order : ℕ) :
    ∃ (l : List VecPoly) (ms : List Mono), hdivSet dim order = some l ∧ ms.Nodup ∧
      (∀ m : Mono, m ∈ ms ↔ m.length = dim ∧ m.sum + 1 = order) ∧
      l.map (denoteVec K dim) = ms.map fun m => positionTimes K dim (denoteMono K m) := by
  rcases hd with rfl | rfl
  · refine ⟨_, _, hdivSet2_eq order, nodup_hdivMonos2 order, fun _ => mem_hdivMonos2, ?_⟩
    rw [List.map_map]
    exact List.map_congr_left fun m hm => denote_hvec2 K (mem_hdivMonos2.1 hm).1
  · refine ⟨_, _, hdivSet3_eq order, nodup_hdivMonos3 order, fun _ => mem_hdivMonos3, ?_⟩
    rw [List.map_map]
    exact List.map_congr_left fun m hm => denote_hvec3 K (mem_hdivMonos3.1 hm).1

/-- **C27.** The sizes of `Hdiv_polynomials`. -/
theorem hdivSet_length (order : ℕ) :
    (∃ l, hdivSet 2 order = some l ∧ l.length = order) ∧
    (∃ l, hdivSet 3 order = some l ∧ l.length = (order + 1).choose 2) := by
  refine ⟨⟨_, hdivSet2_eq order, by simp [hdivMonos2]⟩, ⟨_, hdivSet3_eq order, ?_⟩⟩
  simp only [List.length_map, hdivMonos3, List.length_flatMap, List.length_range]
  rw [sum_map_range]
  cases order with
  | zero => simp
  | succ n =>
    rw [← sum_sub_choose n 1]
    refine Finset.sum_congr rfl fun j hj => ?_
    rw [Finset.mem_range] at hj
    rw [Nat.choose_one_right]; omega

/-- The three families of `Hcurl_polynomials` in 3D, by loop indices. -/
def cvec (order : ℕ) : ℕ × ℕ × ℕ → VecPoly
  | (0, n, m) => [[(1, [m - 1, n, order - m - n + 1])], [], [(-1, [m, n, order - m - n])]]
  | (1, m, n) => [[], [(1, [m, n - 1, order - m - n + 1])], [(-1, [m, n, order - m - n])]]
  | (_, n, _) => [[(1, [order - n, n, 0])], [(-1, [order + 1 - n, n - 1, 0])], []]

/-- The loop indices of `Hcurl_polynomials` in 3D, with the number of the family in front. -/
def ckeys (order : ℕ) : List (ℕ × ℕ × ℕ) :=
  ((List.range order).flatMap fun n : ℕ => (List.range' 1 (order - n)).map fun m : ℕ => (0, n, m)) ++
  ((List.range order).flatMap fun m : ℕ => (List.range' 1 (order - m)).map fun n : ℕ => (1, m, n)) ++
  ((List.range' 1 order).map fun n : ℕ => (2, n, 0))

theorem hcurlSet3_eq (order : ℕ) : hcurlSet 3 order = some ((ckeys order).map (cvec order)) := by
  simp [hcurlSet, ckeys, cvec, List.map_flatMap, Function.comp_def]

theorem mem_ckeys {order : ℕ} {a : ℕ × ℕ × ℕ} :
    a ∈ ckeys order ↔ ((a.1 = 0 ∨ a.1 = 1) ∧ 1 ≤ a.2.2 ∧ a.2.1 + a.2.2 ≤ order) ∨
      (a.1 = 2 ∧ 1 ≤ a.2.1 ∧ a.2.1 ≤ order ∧ a.2.2 = 0) := by
  obtain ⟨t, p, q⟩ := a
  simp only [ckeys, List.mem_append, List.mem_flatMap, List.mem_map, List.mem_range,
    List.mem_range'_1, Prod.mk.injEq]
  constructor
  · rintro ((⟨n, h1, m, h2, rfl, rfl, rfl⟩ | ⟨n, h1, m, h2, rfl, rfl, rfl⟩) | ⟨n, h1, rfl, rfl, rfl⟩)
    · left; simp; omega
    · left; simp; omega
    · right; simp; omega
  · rintro (⟨rfl | rfl, h1, h2⟩ | ⟨rfl, h1, h2, rfl⟩)
    · exact Or.inl (Or.inl ⟨p, by omega, q, by omega, rfl, rfl, rfl⟩)
    · exact Or.inl (Or.inr ⟨p, by omega, q, by omega, rfl, rfl, rfl⟩)
    · exact Or.inr ⟨p, by omega, rfl, rfl, rfl⟩

theorem nodup_ckeys (order : ℕ) : (ckeys order).Nodup := by
  have hfam : ∀ t : ℕ, ((List.range order).flatMap fun n : ℕ =>
      (List.range' 1 (order - n)).map fun m : ℕ => (t, n, m)).Nodup := by
    intro t
    refine nodup_flatMap_of_key (key := fun a : ℕ × ℕ × ℕ => a.2.1) (k := fun j => j)
      Function.injective_id List.nodup_range ?_ ?_
    · intro n _
      exact (List.nodup_range' (step := 1)).map (by intro a b h; simpa using h)
    · intro n _ a ha
      obtain ⟨m, _, rfl⟩ := List.mem_map.1 ha
      rfl
  unfold ckeys
  rw [List.nodup_append, List.nodup_append]
  refine ⟨⟨hfam 0, hfam 1, ?_⟩,
    (List.nodup_range' (step := 1)).map (by intro a b h; simpa using h), ?_⟩
  · rintro a ha b hb rfl
    simp only [List.mem_flatMap, List.mem_map] at ha hb
    obtain ⟨_, _, _, _, rfl⟩ := ha
    obtain ⟨_, _, _, _, h⟩ := hb
    simp at h
  · rintro a ha b hb rfl
    simp only [List.mem_append, List.mem_flatMap, List.mem_map] at ha hb
    obtain ⟨_, _, rfl⟩ := hb
    rcases ha with ⟨_, _, _, _, h⟩ | ⟨_, _, _, _, h⟩ <;> simp at h

/-- **C27.** Every member `q` of `Hcurl_polynomials(dim, dim, k)` satisfies `x · q = 0` and has
homogeneous components of degree `k`. -/
theorem hcurlSet_spec (K : Type) [CommRing K] (dim : ℕ) (hd : dim = 2 ∨ dim = 3) (order : ℕ) :
    ∃ l, hcurlSet dim order = some l ∧ ∀ v ∈ l,
      positionDot K (denoteVec K dim v) = 0 ∧
      ∀ i, (denoteVec K dim v i).IsHomogeneous order := by
  rcases hd with rfl | rfl
  · refine ⟨_, rfl, ?_⟩
    intro v hv
    obtain ⟨j, hj, rfl⟩ := List.mem_map.1 hv
    rw [List.mem_range] at hj
    obtain ⟨e, rfl⟩ : ∃ e, order = e + 1 + j := ⟨order - 1 - j, by omega⟩
    have h1 : e + 1 + j - 1 - j = e := by omega
    have h2 : e + 1 + j - j = e + 1 := by omega
    rw [h1, h2]
    constructor
    · simp [positionDot, Fin.sum_univ_two, denoteVec, denotePoly, denoteMono, monoFrom]
      ring
    · intro i
      refine denotePoly_homogeneous K _ _ ?_
      fin_cases i <;> simp <;> omega
  · refine ⟨_, hcurlSet3_eq order, ?_⟩
    intro v hv
    obtain ⟨⟨t, p, q⟩, ha, rfl⟩ := List.mem_map.1 hv
    rw [mem_ckeys] at ha
    simp only at ha
    rcases ha with ⟨rfl | rfl, h1, h2⟩ | ⟨rfl, h1, h2, rfl⟩
    · obtain ⟨q, rfl⟩ : ∃ e, q = e + 1 := ⟨q - 1, by omega⟩
      obtain ⟨e, rfl⟩ : ∃ e, order = p + (q + 1) + e := ⟨order - (p + (q + 1)), by omega⟩
      have h3 : p + (q + 1) + e - (q + 1) - p = e := by omega
      simp only [cvec, h3]
      constructor
      · simp [positionDot, Fin.sum_univ_three, denoteVec, denotePoly, denoteMono, monoFrom]
        ring
      · intro i
        refine denotePoly_homogeneous K _ _ ?_
        fin_cases i <;> simp <;> omega
    · obtain ⟨q, rfl⟩ : ∃ e, q = e + 1 := ⟨q - 1, by omega⟩
      obtain ⟨e, rfl⟩ : ∃ e, order = p + (q + 1) + e := ⟨order - (p + (q + 1)), by omega⟩
      have h3 : p + (q + 1) + e - p - (q + 1) = e := by omega
      simp only [cvec, h3]
      constructor
      · simp [positionDot, Fin.sum_univ_three, denoteVec, denotePoly, denoteMono, monoFrom]
        ring
      · intro i
        refine denotePoly_homogeneous K _ _ ?_
        fin_cases i <;> simp <;> omega
    · obtain ⟨p, rfl⟩ : ∃ e, p = e + 1 := ⟨p - 1, by omega⟩
      obtain ⟨e, rfl⟩ : ∃ e, order = p + 1 + e := ⟨order - (p + 1), by omega⟩
      have h3 : p + 1 + e - (p + 1) = e := by omega
      have h4 : p + 1 + e + 1 - (p + 1) = e + 1 := by omega
      simp only [cvec, h3, h4]
      constructor
      · simp [positionDot, Fin.sum_univ_three, denoteVec, denotePoly, denoteMono, monoFrom]
        ring
      · intro i
        refine denotePoly_homogeneous K _ _ ?_
        fin_cases i <;> simp <;> omega

/-- **C27.** The sizes of `Hcurl_polynomials`: `k` in 2D and `k (k + 2)` in 3D. -/
theorem hcurlSet_length (order : ℕ) :
    (∃ l, hcurlSet 2 order = some l ∧ l.length = order) ∧
    (∃ l, hcurlSet 3 order = some l ∧ l.length = order * (order + 2)) := by
  refine ⟨⟨_, rfl, by simp⟩, ⟨_, hcurlSet3_eq order, ?_⟩⟩
  simp only [List.length_map, ckeys, List.length_append, List.length_flatMap, List.length_range']
  rw [sum_map_range]
  have h : 2 * ∑ i ∈ Finset.range order, (order - i) = order * (order + 1) := by
    cases order with
    | zero => simp
    | succ n =>
      have h := sum_sub_choose n 1
      simp only [Nat.choose_one_right] at h
      have : ∀ i ∈ Finset.range (n + 1), n + 1 - i = n - i + 1 := by
        intro i hi; rw [Finset.mem_range] at hi; omega
      rw [Finset.sum_congr rfl this, h, Nat.choose_two_right,
        Nat.mul_div_cancel' (Nat.even_mul_pred_self _).two_dvd]
      simp; ring
  have : order * (order + 2) = order * (order + 1) + order := by ring
  omega

example : hdivSet 2 2 = some [[[(1, [2, 0])], [(1, [1, 1])]], [[(1, [1, 1])], [(1, [0, 2])]]] := by
  decide
example : hcurlSet 2 1 = some [[[(1, [0, 1])], [(-1, [1, 0])]]] := by decide
example : (hcurlSet 3 2).map List.length = some 8 := by decide

/-! ## C26 for the Raviart–Thomas and Nédélec spaces -/

theorem exists_term_of_vcoeff {v : VecPoly} {i : ℕ} {m : Mono} (h : vcoeff v i m ≠ 0) :
    ∃ p ∈ v, ∃ t ∈ p, t.2 = m := by
  unfold vcoeff at h
  cases hq : v[i]? with
  | none => rw [hq] at h; exact absurd rfl h
  | some p =>
    rw [hq, Option.getD_some] at h
    refine ⟨p, List.mem_of_getElem? hq, ?_⟩
    by_contra hc
    push Not at hc
    apply h
    unfold termCoeff
    rw [List.map_congr_left (g := fun _ => (0 : ℤ)) (fun t ht => if_neg (hc t ht))]
    simp

/-- Vectors of monomials of degree below `order`, followed by a family homogeneous of degree `order`
with its own pivots, are independent. -/
theorem independent_append {κ : Type} (K : Type) [Field K] [CharZero K] (r d order : ℕ)
    (ps : List Mono) (hn : ps.Nodup) (hps : ∀ m ∈ ps, m.length = d ∧ m.sum < order)
    (keys : List κ) (g : κ → VecPoly) (pi : κ → ℕ) (pm : κ → Mono) (hkn : keys.Nodup)
    (hg : ∀ a ∈ keys, ∀ p ∈ g a, ∀ t ∈ p, t.2.length = d ∧ t.2.sum = order)
    (hpi : ∀ a ∈ keys, pi a < r) (hpm : ∀ a ∈ keys, (pm a).length = d)
    (h1 : ∀ a ∈ keys, vcoeff (g a) (pi a) (pm a) ≠ 0)
    (h2 : ∀ a ∈ keys, ∀ b ∈ keys, vcoeff (g b) (pi a) (pm a) ≠ 0 → a = b) :
    Independent K ((vectorSet r ps ++ keys.map g).map (denoteVec K r)) := by
  have hdeg : ∀ a ∈ keys, ∀ i m, vcoeff (g a) i m ≠ 0 → m.sum = order := by
    intro a ha i m h
    obtain ⟨p, hp, t, ht, rfl⟩ := exists_term_of_vcoeff h
    exact (hg a ha p hp t ht).2
  let f : (ℕ × Mono) ⊕ κ → VecPoly := Sum.elim (fun a => unitVec r a.1 (monoPoly a.2)) g
  have hlist : vectorSet r ps ++ keys.map g =
      ((vkeys r ps).map Sum.inl ++ keys.map Sum.inr).map f := by
    simp [vectorSet_eq_vkeys, f, Function.comp_def]
  rw [hlist]
  refine independent_of_pivots K r d _ f (Sum.elim Prod.fst pi)
    (Sum.elim Prod.snd pm) (fun _ => 0) ?_ ?_ ?_ ?_ ?_ ?_
  · rw [List.nodup_append]
    refine ⟨(nodup_vkeys hn).map Sum.inl_injective, hkn.map Sum.inr_injective, ?_⟩
    rintro a ha b hb rfl
    obtain ⟨_, _, rfl⟩ := List.mem_map.1 ha
    obtain ⟨_, _, h⟩ := List.mem_map.1 hb
    cases h
  · rintro (a | a) ha
    · simp [mem_vkeys] at ha
      exact length_unitVec_terms (hps _ ha.2).1
    · simp at ha
      exact fun p hp t ht => (hg a ha p hp t ht).1
  · rintro (a | a) ha
    · simp [mem_vkeys] at ha; exact ha.1
    · simp at ha; exact hpi a ha
  · rintro (a | a) ha
    · simp [mem_vkeys] at ha; exact (hps _ ha.2).1
    · simp at ha; exact hpm a ha
  · rintro (a | a) ha
    · simp [mem_vkeys] at ha
      simp [f, vcoeff_unitVec, ha.1]
    · simp at ha
      exact h1 a ha
  · rintro (a | a) ha (b | b) hb hab hne
    · simp only [f, Sum.elim_inl, vcoeff_unitVec] at hne
      split at hne
      · rename_i h'
        exact absurd (congrArg Sum.inl (Prod.ext h'.2.1.symm h'.2.2.symm)) hab
      · exact absurd rfl hne
    · simp [mem_vkeys] at ha hb
      have h1 := hdeg b hb _ _ hne
      have h2 := (hps a.2 ha.2).2
      simp at h1; omega
    · simp [mem_vkeys] at ha hb
      simp only [f, Sum.elim_inl, Sum.elim_inr, vcoeff_unitVec] at hne
      split at hne
      · rename_i h'
        have h1 := hdeg a ha _ _ (h1 a ha)
        have h2 := (hps b.2 hb.2).2
        rw [h'.2.2] at h2; omega
      · exact absurd rfl hne
    · simp at ha hb
      exact absurd (congrArg Sum.inr (h2 a ha b hb hne)) hab

theorem polySetVector_eq {dim r : ℕ} (hd : dim = 1 ∨ dim = 2 ∨ dim = 3) {order : ℤ}
    {l : List VecPoly} (h : polySetVector dim r order = some l) :
    ∃ ps : List Mono, l = vectorSet r ps ∧ ps.Nodup ∧
      ∀ m, m ∈ ps ↔ m.length = dim ∧ (m.sum : ℤ) ≤ order := by
  obtain ⟨ps, hps, hn, hm⟩ := polySet_spec dim hd order
  rw [polySetVector, hps] at h
  cases h
  exact ⟨ps, rfl, hn, hm⟩

/-- **C26.** The list given to the Raviart–Thomas constructor,
`polynomial_set_vector(dim, dim, k-1) + Hdiv_polynomials(dim, dim, k)`, is linearly independent. -/
theorem raviartThomas_list_independent (K : Type) [Field K] [CharZero K] (dim : ℕ)
    (hd : dim = 2 ∨ dim = 3) (order : ℕ) :
    ∃ l l', polySetVector dim dim ((order : ℤ) - 1) = some l ∧ hdivSet dim order = some l' ∧
      Independent K ((l ++ l').map (denoteVec K dim)) := by
  rcases hd with rfl | rfl
  · refine ⟨_, _, rfl, hdivSet2_eq order, ?_⟩
    obtain ⟨ps, hps, hn, hm⟩ := polySetVector_eq (dim := 2) (r := 2) (by omega)
      (order := (order : ℤ) - 1) rfl
    rw [hps]
    refine independent_append K 2 2 order ps hn
      (fun m h => ⟨((hm m).1 h).1, by have := ((hm m).1 h).2; omega⟩)
      (hdivMonos2 order) hvec (fun _ => 0) (fun m => (m.head! + 1) :: m.tail)
      (nodup_hdivMonos2 order) ?_ (by simp) ?_ ?_ ?_
    · intro m h p hp t ht
      obtain ⟨hl, hs⟩ := mem_hdivMonos2.1 h
      obtain ⟨a, b, rfl⟩ := List.length_eq_two.1 hl
      simp at hs
      simp only [hvec, List.mem_cons, List.not_mem_nil, or_false] at hp
      rcases hp with rfl | rfl <;> simp at ht <;> subst ht <;> simp <;> omega
    · intro m h
      obtain ⟨a, b, rfl⟩ := List.length_eq_two.1 (mem_hdivMonos2.1 h).1
      simp
    · intro m h
      obtain ⟨a, b, rfl⟩ := List.length_eq_two.1 (mem_hdivMonos2.1 h).1
      simp [vcoeff, hvec, termCoeff]
    · intro m h m' h' hne
      obtain ⟨a, b, rfl⟩ := List.length_eq_two.1 (mem_hdivMonos2.1 h).1
      obtain ⟨a', b', rfl⟩ := List.length_eq_two.1 (mem_hdivMonos2.1 h').1
      simp [vcoeff, hvec, termCoeff] at hne
      simp [hne]
  · refine ⟨_, _, rfl, hdivSet3_eq order, ?_⟩
    obtain ⟨ps, hps, hn, hm⟩ := polySetVector_eq (dim := 3) (r := 3) (by omega)
      (order := (order : ℤ) - 1) rfl
    rw [hps]
    refine independent_append K 3 3 order ps hn
      (fun m h => ⟨((hm m).1 h).1, by have := ((hm m).1 h).2; omega⟩)
      (hdivMonos3 order) hvec (fun _ => 0) (fun m => (m.head! + 1) :: m.tail)
      (nodup_hdivMonos3 order) ?_ (by simp) ?_ ?_ ?_
    · intro m h p hp t ht
      obtain ⟨hl, hs⟩ := mem_hdivMonos3.1 h
      obtain ⟨a, b, c, rfl⟩ := List.length_eq_three.1 hl
      simp at hs
      simp only [hvec, List.mem_cons, List.not_mem_nil, or_false] at hp
      rcases hp with rfl | rfl | rfl <;> simp at ht <;> subst ht <;> simp <;> omega
    · intro m h
      obtain ⟨a, b, c, rfl⟩ := List.length_eq_three.1 (mem_hdivMonos3.1 h).1
      simp
    · intro m h
      obtain ⟨a, b, c, rfl⟩ := List.length_eq_three.1 (mem_hdivMonos3.1 h).1
      simp [vcoeff, hvec, termCoeff]
    · intro m h m' h' hne
      obtain ⟨a, b, c, rfl⟩ := List.length_eq_three.1 (mem_hdivMonos3.1 h).1
      obtain ⟨a', b', c', rfl⟩ := List.length_eq_three.1 (mem_hdivMonos3.1 h').1
      simp [vcoeff, hvec, termCoeff] at hne
      simp [hne]

/-- **C26.** The list given to the first-kind Nédélec constructor,
`polynomial_set_vector(dim, dim, k-1) + Hcurl_polynomials(dim, dim, k)`, is linearly independent. -/
theorem nedelec_list_independent (K : Type) [Field K] [CharZero K] (dim : ℕ)
    (hd : dim = 2 ∨ dim = 3) (order : ℕ) :
    ∃ l l', polySetVector dim dim ((order : ℤ) - 1) = some l ∧ hcurlSet dim order = some l' ∧
      Independent K ((l ++ l').map (denoteVec K dim)) := by
  rcases hd with rfl | rfl
  · refine ⟨_, _, rfl, rfl, ?_⟩
    obtain ⟨ps, hps, hn, hm⟩ := polySetVector_eq (dim := 2) (r := 2) (by omega)
      (order := (order : ℤ) - 1) rfl
    rw [hps]
    refine independent_append K 2 2 order ps hn
      (fun m h => ⟨((hm m).1 h).1, by have := ((hm m).1 h).2; omega⟩)
      (List.range order) _ (fun _ => 0) (fun j => [order - 1 - j, j + 1])
      List.nodup_range ?_ (by simp) ?_ ?_ ?_
    · intro j h p hp t ht
      rw [List.mem_range] at h
      simp only [List.mem_cons, List.not_mem_nil, or_false] at hp
      rcases hp with rfl | rfl <;> simp at ht <;> subst ht <;> simp <;> omega
    · intro m h; rfl
    · intro m h
      simp [vcoeff, termCoeff]
    · intro m h m' h' hne
      simp [vcoeff, termCoeff] at hne
      omega
  · refine ⟨_, _, rfl, hcurlSet3_eq order, ?_⟩
    obtain ⟨ps, hps, hn, hm⟩ := polySetVector_eq (dim := 3) (r := 3) (by omega)
      (order := (order : ℤ) - 1) rfl
    rw [hps]
    refine independent_append K 3 3 order ps hn
      (fun m h => ⟨((hm m).1 h).1, by have := ((hm m).1 h).2; omega⟩)
      (ckeys order) (cvec order) (fun a => if a.1 = 1 then 1 else 0)
      (fun a => if a.1 = 0 then [a.2.2 - 1, a.2.1, order - a.2.2 - a.2.1 + 1]
        else if a.1 = 1 then [a.2.1, a.2.2 - 1, order - a.2.1 - a.2.2 + 1]
        else [order - a.2.1, a.2.1, 0])
      (nodup_ckeys order) ?_ ?_ ?_ ?_ ?_
    · rintro ⟨t, p, q⟩ ha c hc u hu
      rw [mem_ckeys] at ha
      simp only at ha
      rcases ha with ⟨rfl | rfl, h1, h2⟩ | ⟨rfl, h1, h2, rfl⟩ <;>
        simp only [cvec, List.mem_cons, List.not_mem_nil, or_false] at hc <;>
        rcases hc with rfl | rfl | rfl <;> simp at hu <;> subst hu <;> simp <;> omega
    · rintro ⟨t, p, q⟩ _
      simp only; split <;> omega
    · rintro ⟨t, p, q⟩ _
      simp only; split
      · rfl
      · split <;> rfl
    · rintro ⟨t, p, q⟩ ha
      rw [mem_ckeys] at ha
      simp only at ha
      rcases ha with ⟨rfl | rfl, h1, h2⟩ | ⟨rfl, h1, h2, rfl⟩ <;>
        simp [vcoeff, cvec, termCoeff]
    · rintro ⟨t, p, q⟩ ha ⟨t', p', q'⟩ hb hne
      rw [mem_ckeys] at ha hb
      simp only at ha hb
      rcases ha with ⟨rfl | rfl, h1, h2⟩ | ⟨rfl, h1, h2, rfl⟩ <;>
        rcases hb with ⟨rfl | rfl, h1', h2'⟩ | ⟨rfl, h1', h2', rfl⟩ <;>
        simp [vcoeff, cvec, termCoeff] at hne <;> simp <;> omega

end Verif.Polysets
