import Verif.Families.SerCurlLemmas
/-!
# The polynomials of `SerendipityCurl` on hexahedra
-/

namespace Verif.Families
open Verif.References Verif.Moments Verif.Functionals Verif.Elements Verif.FiniteElement Verif.Polysets Verif.Orthogonal
open Verif.Scalar Verif.Smooth
open MvPolynomial

/-! ### Specification -/

/-- The fields orthogonal to `x` that are added on a hexahedron: `x_0 p (0, x_2, -x_1)` for monomials `p` of degree `k - 1` in
`x_1` and `x_2`, and the same for the other variables. -/
def scurlExt3 (k : ℕ) : Set (Field 3) :=
  {w | ∃ i j, i + j + 1 = k ∧ (w = ![0, X 0 * X 1 ^ i * X 2 ^ (j + 1), -(X 0 * X 1 ^ (i + 1) * X 2 ^ j)] ∨
    w = ![X 0 ^ i * X 1 * X 2 ^ (j + 1), 0, -(X 0 ^ (i + 1) * X 1 * X 2 ^ j)] ∨
    w = ![X 0 ^ i * X 1 ^ (j + 1) * X 2, -(X 0 ^ (i + 1) * X 1 ^ j * X 2), 0])}

/-- The polynomials of degree `k`, the fields above, and the gradients of the serendipity functions of order `k + 1`. -/
def SC3 (k : ℕ) (v : Field 3) : Prop :=
  ∃ p : Field 3, (∀ j, p j ∈ P 3 (k : ℤ)) ∧ ∃ w ∈ Submodule.span ℝ (scurlExt3 k), ∃ s ∈ Ser 3 (k + 1), v = p + w + gradient ℝ 3 s

/-! ### The added functions -/

/-- The numbers of the functions in the order of the code. -/
def scKeys (n : ℕ) : List (ℕ × ℕ) :=
  if n = 0 then [(0, 0), (1, 0)] else (List.range (n + 1)).flatMap fun i : ℕ => [(1, i), (0, i), (2, i)]

theorem mem_scKeys {n : ℕ} {a : ℕ × ℕ} : a ∈ scKeys n ↔ a ∈ tsKeys3 n := by
  unfold scKeys tsKeys3
  split_ifs with h
  · rfl
  · rw [mem_keys3]
    obtain ⟨t, i⟩ := a
    simp only [List.mem_flatMap, List.mem_range, List.mem_cons, List.not_mem_nil, or_false, Prod.mk.injEq]
    constructor
    · rintro ⟨j, hj, ⟨rfl, rfl⟩ | ⟨rfl, rfl⟩ | ⟨rfl, rfl⟩⟩ <;> omega
    · rintro ⟨h1, h2⟩
      exact ⟨i, by omega, by omega⟩

theorem scKeys_nodup (n : ℕ) : (scKeys n).Nodup := by
  unfold scKeys
  split_ifs
  · decide
  · refine nodup_flatMap_of_key (fun a : ℕ × ℕ => a.2) id Function.injective_id List.nodup_range ?_ ?_
    · intro i _
      simp
    · intro i _ a ha
      simp only [List.mem_cons, List.not_mem_nil, or_false] at ha
      rcases ha with rfl | rfl | rfl <;> rfl

theorem scKeys_length (n : ℕ) : (scKeys n).length = if n = 0 then 2 else 3 * (n + 1) := by
  unfold scKeys
  split_ifs
  · rfl
  · simp [List.length_flatMap]
    ring

theorem hcurlSerFirst_eq (n : ℕ) : hcurlSerFirst (n + 1) = (scKeys n).map (sdivPot n) := by
  unfold hcurlSerFirst scKeys
  rcases Nat.eq_zero_or_pos n with rfl | h
  · rfl
  · rw [if_neg (by omega), if_neg (by omega), List.map_flatMap]
    rfl

/-- The curl of a field as a linear map. -/
noncomputable def curlLin : Field 3 →ₗ[ℝ] Field 3 where
  toFun := curlF
  map_add' v w := by funext i; fin_cases i <;> simp [curlF] <;> ring
  map_smul' a v := by funext i; fin_cases i <;> simp [curlF, smul_sub]

theorem scFirst_independent (n : ℕ) : Independent ℝ (((scKeys n).map (sdivPot n)).map (denoteVec ℝ 3)) := by
  have D := ts3_dual n
  have e : ∀ a b, (flMap 3 (tsDual3 n a) ∘ₗ curlLin) (denoteVec ℝ 3 (sdivPot n b)) =
      - flMap 3 (tsDual3 n a) (denoteVec ℝ 3 (curlVec (tsPot n b))) := by
    intro a b
    rw [tsFn3_neg, map_neg, neg_neg, denoteVec_curl]
    rfl
  rw [List.map_map]
  refine independent_of_dual (L := fun a => flMap 3 (tsDual3 n a) ∘ₗ curlLin) (scKeys_nodup n) (fun a ha => ?_) fun a ha b hb hab => ?_
  · rw [mem_scKeys] at ha
    show (flMap 3 (tsDual3 n a) ∘ₗ curlLin) (denoteVec ℝ 3 (sdivPot n a)) ≠ 0
    rw [e, flMap_eq (D.len a ha) fun t ht => ⟨(D.low a ha t ht).1, (D.low a ha t ht).2.1⟩, neg_ne_zero]
    exact_mod_cast D.diag a ha
  · rw [mem_scKeys] at ha hb
    show (flMap 3 (tsDual3 n a) ∘ₗ curlLin) (denoteVec ℝ 3 (sdivPot n b)) = 0
    rw [e, flMap_eq (D.len b hb) fun t ht => ⟨(D.low a ha t ht).1, (D.low a ha t ht).2.1⟩, neg_eq_zero]
    exact_mod_cast D.off a ha b hb hab

theorem pot_zero (n i : ℕ) (h : i ≤ n) : denoteVec ℝ 3 (sdivPot n (0, i)) =
    ![0, X 0 * X 1 ^ i * X 2 ^ (n - i + 1), -(X 0 * X 1 ^ (i + 1) * X 2 ^ (n - i))] := by
  funext j
  fin_cases j <;> simp [denoteVec, sdivPot, denotePoly, denoteMono, monoFrom] <;> ring

theorem pot_one (n i : ℕ) (h : i ≤ n) : denoteVec ℝ 3 (sdivPot n (1, i)) =
    ![X 0 ^ i * X 1 * X 2 ^ (n - i + 1), 0, -(X 0 ^ (i + 1) * X 1 * X 2 ^ (n - i))] := by
  funext j
  fin_cases j <;> simp [denoteVec, sdivPot, denotePoly, denoteMono, monoFrom] <;> ring

theorem pot_two (n i : ℕ) (h : i ≤ n) : denoteVec ℝ 3 (sdivPot n (2, i)) =
    ![X 0 ^ i * X 1 ^ (n - i + 1) * X 2, -(X 0 ^ (i + 1) * X 1 ^ (n - i) * X 2), 0] := by
  funext j
  fin_cases j <;> simp [denoteVec, sdivPot, denotePoly, denoteMono, monoFrom] <;> ring

theorem scFirst_span (n : ℕ) : lspan (((scKeys n).map (sdivPot n)).map (denoteVec ℝ 3)) = Submodule.span ℝ (scurlExt3 (n + 1)) := by
  have hsub : ∀ a ∈ tsKeys3 n, denoteVec ℝ 3 (sdivPot n a) ∈ lspan (((scKeys n).map (sdivPot n)).map (denoteVec ℝ 3)) := fun a ha =>
    mem_lspan (List.mem_map_of_mem (List.mem_map_of_mem (mem_scKeys.2 ha)))
  have hall : ∀ t < 3, ∀ i ≤ n, denoteVec ℝ 3 (sdivPot n (t, i)) ∈ lspan (((scKeys n).map (sdivPot n)).map (denoteVec ℝ 3)) := by
    intro t ht i hi
    by_cases h : n = 0
    · subst h
      obtain rfl : i = 0 := by omega
      interval_cases t
      · exact hsub _ (by simp [tsKeys3])
      · exact hsub _ (by simp [tsKeys3])
      · have e : denoteVec ℝ 3 (sdivPot 0 (2, 0)) = denoteVec ℝ 3 (sdivPot 0 (1, 0)) - denoteVec ℝ 3 (sdivPot 0 (0, 0)) := by
          rw [pot_two 0 0 le_rfl, pot_one 0 0 le_rfl, pot_zero 0 0 le_rfl]
          funext j
          fin_cases j <;> simp
        rw [e]
        exact Submodule.sub_mem _ (hsub _ (by simp [tsKeys3])) (hsub _ (by simp [tsKeys3]))
    · refine hsub _ ?_
      unfold tsKeys3
      rw [if_neg h, mem_keys3]
      exact ⟨ht, hi⟩
  apply le_antisymm
  · rw [lspan, Submodule.span_le]
    intro w hw
    obtain ⟨F, hF, rfl⟩ := List.mem_map.1 hw
    obtain ⟨⟨t, i⟩, ha, rfl⟩ := List.mem_map.1 hF
    rw [mem_scKeys] at ha
    have h2 : t < 3 ∧ i ≤ n := by
      unfold tsKeys3 at ha
      split_ifs at ha with h
      · simp at ha; omega
      · exact mem_keys3.1 ha
    refine Submodule.subset_span ⟨i, n - i, by omega, ?_⟩
    obtain ⟨h2, h3⟩ := h2
    interval_cases t
    · exact Or.inl (pot_zero n i h3)
    · exact Or.inr (Or.inl (pot_one n i h3))
    · exact Or.inr (Or.inr (pot_two n i h3))
  · rw [Submodule.span_le]
    rintro w ⟨i, j, hij, h⟩
    obtain rfl : j = n - i := by omega
    rcases h with rfl | rfl | rfl
    · rw [← pot_zero n i (by omega)]; exact hall 0 (by omega) i (by omega)
    · rw [← pot_one n i (by omega)]; exact hall 1 (by omega) i (by omega)
    · rw [← pot_two n i (by omega)]; exact hall 2 (by omega) i (by omega)

theorem crossTerm_expo {k j a b c : ℕ} (h1 : a + b + c = k + 1) (h2 : j ≠ 0 → 1 ≤ a) (h3 : j ≠ 1 → 1 ≤ b) (h4 : j ≠ 2 → 1 ≤ c)
    (h5 : (j ≠ 0 ∧ a = 1) ∨ (j ≠ 1 ∧ b = 1) ∨ (j ≠ 2 ∧ c = 1)) : CrossTerm k j (expo 0 [a, b, c]) := by
  have e0 : expo 0 [a, b, c] 0 = a := expo_getD [a, b, c] 0 0
  have e1 : expo 0 [a, b, c] 1 = b := expo_getD [a, b, c] 0 1
  have e2 : expo 0 [a, b, c] 2 = c := expo_getD [a, b, c] 0 2
  refine ⟨by rw [expo_degree]; simp; omega, expo_lt _, fun i hi hij => ?_, ?_⟩
  · interval_cases i
    · rw [e0]; exact h2 (Ne.symm hij)
    · rw [e1]; exact h3 (Ne.symm hij)
    · rw [e2]; exact h4 (Ne.symm hij)
  · rcases h5 with ⟨h, h'⟩ | ⟨h, h'⟩ | ⟨h, h'⟩
    · exact ⟨0, by omega, h.symm, e0.trans h'⟩
    · exact ⟨1, by omega, h.symm, e1.trans h'⟩
    · exact ⟨2, by omega, h.symm, e2.trans h'⟩

theorem mono_support {r : ℝ} {m : Mono} {t : ℕ →₀ ℕ} (h : t ∈ (C r * denoteMono ℝ m).support) : t = expo 0 m := by
  rw [denoteMono, monoFrom_eq, C_mul_monomial] at h
  exact Finset.mem_singleton.1 (support_monomial_subset h)

theorem scurlExt3_Cross {k : ℕ} : Submodule.span ℝ (scurlExt3 k) ≤ Cross k := by
  rw [Submodule.span_le]
  have key : ∀ {r : ℝ} {a b c j : ℕ}, a + b + c = k + 1 → (j ≠ 0 → 1 ≤ a) → (j ≠ 1 → 1 ≤ b) → (j ≠ 2 → 1 ≤ c) →
      ((j ≠ 0 ∧ a = 1) ∨ (j ≠ 1 ∧ b = 1) ∨ (j ≠ 2 ∧ c = 1)) → ∀ p : MvPolynomial ℕ ℝ, p = C r * (X 0 ^ a * X 1 ^ b * X 2 ^ c) →
      ∀ t ∈ p.support, CrossTerm k j t := by
    intro r a b c j h1 h2 h3 h4 h5 p hp t ht
    have e : p = C r * denoteMono ℝ [a, b, c] := by rw [hp]; simp only [denoteMono, monoFrom]; ring
    rw [e] at ht
    rw [mono_support ht]
    exact crossTerm_expo h1 h2 h3 h4 h5
  have kz : ∀ (j : ℕ), ∀ t ∈ (0 : MvPolynomial ℕ ℝ).support, CrossTerm k j t := fun j t ht => by simp at ht
  rintro w ⟨i, j, hij, h⟩
  rcases h with rfl | rfl | rfl
  · refine ⟨fun l => ?_, ?_⟩
    · fin_cases l
      · exact kz 0
      · exact key (r := 1) (a := 1) (b := i) (c := j + 1) (j := 1) (by omega) (by omega) (by omega) (by omega) (by omega) _ (by simp)
      · exact key (r := -1) (a := 1) (b := i + 1) (c := j) (j := 2) (by omega) (by omega) (by omega) (by omega) (by omega) _ (by simp)
    · rw [Fin.sum_univ_three]
      simp
      ring
  · refine ⟨fun l => ?_, ?_⟩
    · fin_cases l
      · exact key (r := 1) (a := i) (b := 1) (c := j + 1) (j := 0) (by omega) (by omega) (by omega) (by omega) (by omega) _ (by simp)
      · exact kz 1
      · exact key (r := -1) (a := i + 1) (b := 1) (c := j) (j := 2) (by omega) (by omega) (by omega) (by omega) (by omega) _ (by simp)
    · rw [Fin.sum_univ_three]
      simp
      ring
  · refine ⟨fun l => ?_, ?_⟩
    · fin_cases l
      · exact key (r := 1) (a := i) (b := j + 1) (c := 1) (j := 0) (by omega) (by omega) (by omega) (by omega) (by omega) _ (by simp)
      · exact key (r := -1) (a := i + 1) (b := j) (c := 1) (j := 1) (by omega) (by omega) (by omega) (by omega) (by omega) _ (by simp)
      · exact kz 2
    · rw [Fin.sum_univ_three]
      simp
      ring

/-! ### The whole list -/

/-- The gradient as a linear map. -/
noncomputable def gradLin : MvPolynomial ℕ ℝ →ₗ[ℝ] Field 3 where
  toFun := gradient ℝ 3
  map_add' p q := by funext i; simp [gradient]
  map_smul' a p := by funext i; simp [gradient]

theorem independent_map {V W : Type} [AddCommGroup V] [Module ℝ V] [AddCommGroup W] [Module ℝ W] (f : V →ₗ[ℝ] W) {l : List V}
    (h : Independent ℝ l) (hf : ∀ v ∈ lspan l, f v = 0 → v = 0) : Independent ℝ (l.map f) := by
  have h2 : LinearIndependent ℝ (f ∘ fun i : Fin l.length => l[i]) := LinearIndependent.map h (by
    rw [Submodule.disjoint_def]
    refine fun v hv hv' => hf v ?_ (LinearMap.mem_ker.1 hv')
    refine Submodule.span_mono ?_ hv
    rintro _ ⟨i, rfl⟩
    exact List.getElem_mem _)
  have h3 := h2.comp (fun i : Fin (l.map f).length => (⟨i.val, by simpa using i.2⟩ : Fin l.length)) (by
    intro i j hij
    simp at hij
    exact Fin.ext hij)
  have e : (f ∘ fun i : Fin l.length => l[i]) ∘ (fun i : Fin (l.map f).length => (⟨i.val, by simpa using i.2⟩ : Fin l.length)) =
      fun i : Fin (l.map f).length => (l.map f)[i] := by
    funext i
    simp
  rw [e] at h3
  exact h3

/-- The added scalar functions have larger degree. -/
theorem serSet_zero {n : ℕ} {s : MvPolynomial ℕ ℝ} (hs : s ∈ lspan ((serSet 3 n).map (denoteMono ℝ))) (h : s ∈ P 3 (n : ℤ)) : s = 0 := by
  have hle : lspan ((serSet 3 n).map (denoteMono ℝ)) ≤ restrictSupport ℝ {t : ℕ →₀ ℕ | n < t.degree} := by
    rw [lspan, Submodule.span_le]
    intro v hv
    obtain ⟨m, hm, rfl⟩ := List.mem_map.1 hv
    rw [denoteMono, monoFrom_eq]
    show _ ∈ restrictSupport _ _
    rw [monomial_mem_restrictSupport]
    left
    rw [Set.mem_ofPred_eq, expo_degree]
    exact ((mem_serSet (by omega)).1 hm).2.1
  have key := (mem_restrictSupport_iff ℝ).1 (hle hs)
  ext t
  by_contra hne
  rw [coeff_zero] at hne
  have h1 : n < t.degree := key (mem_support_iff.2 hne)
  have h2 := (mem_P.1 h t (mem_support_iff.2 hne)).1
  omega

/-- The number of functions. -/
def scCount3 (k : ℕ) : ℕ := 12 * (k + 1) + 12 * k.choose 2 + 3 * (k - 1).choose 3

theorem gradient_P {n : ℤ} {s : MvPolynomial ℕ ℝ} (hs : s ∈ P 3 (n + 1)) (j : Fin 3) : gradient ℝ 3 s j ∈ P 3 n := by
  have := pderiv_mem hs j
  rwa [add_sub_cancel_right] at this

theorem scurl3_spec {k : ℕ} (hk : 1 ≤ k) : ∃ pl, ((polySetVector 3 3 k).bind fun a => (hcurlSerSet 3 k).map fun b => a ++ b) = some pl ∧
    Independent ℝ (pl.map (denoteVec ℝ 3)) ∧ (∀ v, v ∈ lspan (pl.map (denoteVec ℝ 3)) ↔ SC3 k v) ∧ pl.length = scCount3 k := by
  obtain ⟨n, rfl⟩ := Nat.exists_eq_add_of_le' hk
  obtain ⟨a, h1, h2, h3, h4⟩ := poly_vector (d := 3) (Or.inr rfl) (n + 1)
  obtain ⟨l, l1, l2⟩ := ser_lspan (d := 3) (by omega) (n + 2)
  obtain ⟨l', l3, l4⟩ := polySet_lspan (d := 3) (by omega) ((n + 2 : ℕ) : ℤ)
  obtain rfl : l = l' := Option.some.inj (l1.symm.trans l3)
  rw [List.map_append, lspan_append, l4] at l2
  have hE2 : ((serSet 3 (n + 2)).map fun p => gradPoly 3 (monoPoly p)).map (denoteVec ℝ 3) =
      ((serSet 3 (n + 2)).map (denoteMono ℝ)).map gradLin := by
    rw [List.map_map, List.map_map]
    refine List.map_congr_left fun m _ => ?_
    show denoteVec ℝ 3 (gradPoly 3 (monoPoly m)) = gradient ℝ 3 (denoteMono ℝ m)
    rw [denote_gradPoly]
    congr 1
    simp [denotePoly, monoPoly]
  have hsN : Independent ℝ ((serSet 3 (n + 2)).map (denoteMono ℝ)) :=
    independent_monos ℝ (nodup_serSet 3 (n + 2)) fun m hm => ((mem_serSet (by omega)).1 hm).1
  have hser : ∀ s ∈ lspan ((serSet 3 (n + 2)).map (denoteMono ℝ)), s ∈ Ser 3 (n + 1 + 1) := fun s hs =>
    l2 ▸ Submodule.mem_sup_right hs
  have key : ∀ p w : Field 3, ∀ s, (∀ j, p j ∈ P 3 ((n + 1 : ℕ) : ℤ)) → w ∈ lspan (((scKeys n).map (sdivPot n)).map (denoteVec ℝ 3)) →
      s ∈ lspan ((serSet 3 (n + 2)).map (denoteMono ℝ)) → p + w + gradient ℝ 3 s = 0 → w = 0 ∧ s = 0 := by
    intro p w s hp hw hs h
    obtain ⟨h5, h6⟩ := cross_key hk hp (scurlExt3_Cross (scFirst_span n ▸ hw)) (hser s hs) h.symm fun i j _ _ z _ => by simp
    exact ⟨h6, serSet_zero hs (by push_cast at h5 ⊢; rw [add_assoc] at h5; exact h5)⟩
  have hi2 : Independent ℝ (((serSet 3 (n + 2)).map (denoteMono ℝ)).map gradLin) := by
    refine independent_map _ hsN fun s hs h => (key 0 0 s (fun j => Submodule.zero_mem _) (Submodule.zero_mem _) hs ?_).2
    rw [zero_add, zero_add]
    exact h
  refine ⟨a ++ (hcurlSerFirst (n + 1) ++ (serSet 3 (n + 2)).map fun p => gradPoly 3 (monoPoly p)), by rw [h1]; rfl, ?_, fun v => ?_, ?_⟩
  · rw [List.map_append, List.map_append, hE2, hcurlSerFirst_eq]
    refine independent_append h2 (independent_append (scFirst_independent n) hi2 ?_) ?_
    · rw [Submodule.disjoint_def, lspan_map]
      rintro w hw ⟨s, hs, hsw⟩
      refine (key 0 w (-s) (fun j => Submodule.zero_mem _) hw (Submodule.neg_mem _ hs) ?_).1
      rw [zero_add, show gradient ℝ 3 (-s) = gradLin (-s) from rfl, map_neg, hsw, add_neg_cancel]
    · rw [Submodule.disjoint_def, lspan_append, lspan_map]
      intro p hp hp'
      obtain ⟨w, hw, _, ⟨s, hs, rfl⟩, e⟩ := Submodule.mem_sup.1 hp'
      obtain ⟨h5, h6⟩ := key (-p) w s (fun j => Submodule.neg_mem _ ((h3 p).1 hp j)) hw hs (by
        rw [add_assoc, show gradient ℝ 3 s = gradLin s from rfl, e, neg_add_cancel])
      rw [← e, h5, h6, map_zero, zero_add]
  · rw [List.map_append, List.map_append, hE2, hcurlSerFirst_eq, lspan_append, lspan_append, scFirst_span, lspan_map, Submodule.mem_sup]
    constructor
    · rintro ⟨p, hp, _, hw, rfl⟩
      obtain ⟨w, hw1, _, ⟨s, hs, rfl⟩, rfl⟩ := Submodule.mem_sup.1 hw
      exact ⟨p, (h3 p).1 hp, w, hw1, s, hser s hs, (add_assoc _ _ _).symm⟩
    · rintro ⟨p, hp, w, hw, s, hs, rfl⟩
      have hs' : s ∈ P 3 ((n + 2 : ℕ) : ℤ) ⊔ lspan ((serSet 3 (n + 2)).map (denoteMono ℝ)) := by rw [l2]; exact hs
      obtain ⟨q, hq, s', hs2, rfl⟩ := Submodule.mem_sup.1 hs'
      refine ⟨p + gradient ℝ 3 q, (h3 _).2 fun j => ?_, w + gradLin s', Submodule.mem_sup.2 ⟨w, hw, _, ⟨s', hs2, rfl⟩, rfl⟩, ?_⟩
      · refine Submodule.add_mem _ (hp j) (gradient_P ?_ j)
        push_cast at hq ⊢
        rw [add_assoc]
        exact hq
      · rw [show gradient ℝ 3 (q + s') = gradLin (q + s') from rfl, map_add, show gradient ℝ 3 q = gradLin q from rfl]
        abel
  · have h5 := ser_length (c := .hexahedron) (Or.inr (Or.inr rfl)) (n + 2) l1
    have h6 : l.length = (n + 2 + 3).choose 3 := polySet_length 3 (n + 2) l l1
    rw [List.length_append, List.length_append, h4, hcurlSerFirst_eq, List.length_map, List.length_map, scKeys_length]
    have h7 : l.length + (serSet 3 (n + 2)).length = 8 + 12 * (n + 1) + 6 * n.choose 2 + (n - 1).choose 3 := by
      rw [← List.length_append]
      refine h5.trans ?_
      simp only [serCount, show entityCount .hexahedron 0 = 8 from rfl, show entityCount .hexahedron 1 = 12 from rfl,
        show entityCount .hexahedron 2 = 6 from rfl, show entityCount .hexahedron 3 = 1 from rfl, one_mul,
        show n + 2 - 1 = n + 1 by omega, show n + 2 - 2 = n by omega, show n + 2 - 3 = n - 1 by omega]
    rw [h6] at h7
    unfold scCount3
    rcases n with _ | _ | _ | _ | n
    · simp [Nat.choose] at h7 ⊢; omega
    · simp [Nat.choose] at h7 ⊢; omega
    · simp [Nat.choose] at h7 ⊢; omega
    · simp [Nat.choose] at h7 ⊢; omega
    · rw [if_neg (by omega)]
      have c1 := choose_three (n + 6)
      have c2 := choose_three (n + 5)
      have c3 := choose_three n
      have c4 := choose_three (n + 1)
      have c5 := choose_two (n + 2)
      have c6 := choose_two (n + 3)
      simp only [Nat.add_sub_cancel, show n + 1 + 1 + 1 + 1 = n + 4 by omega, show n + 4 - 1 = n + 3 by omega, show n + 4 + 1 = n + 5 by omega,
        show n + 4 + 2 + 3 = n + 6 + 3 by omega, show n + 5 + 3 = n + 5 + 3 by omega, show n + 5 - 1 = n + 4 by omega] at h7 ⊢
      simp only [show n + 6 + 3 = n + 9 by omega, show n + 5 + 3 = n + 8 by omega, show n + 1 + 3 = n + 4 by omega,
        show n + 2 + 2 = n + 4 by omega, show n + 3 + 2 = n + 5 by omega] at *
      nlinarith

end Verif.Families
