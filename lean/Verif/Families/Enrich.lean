import Verif.Families.Bdfm
import Verif.Families.Count
import Mathlib.Logic.Equiv.Fin.Basic
/-!
# Spaces of vector polynomials enriched by homogeneous functions of the next degree
-/

namespace Verif.Families
open Verif.References Verif.Moments Verif.Functionals Verif.Elements Verif.FiniteElement Verif.Polysets Verif.Orthogonal
open MvPolynomial

/-! ### Independence modulo a subspace -/

theorem independent_append {V : Type} [AddCommGroup V] [Module ℝ V] {a b : List V} (ha : Independent ℝ a)
    (hb : Independent ℝ b) (hd : Disjoint (lspan a) (lspan b)) : Independent ℝ (a ++ b) := by
  have hr : ∀ l : List V, Submodule.span ℝ (Set.range fun i : Fin l.length => l[i]) = lspan l := by
    intro l
    rw [lspan]
    congr 1
    ext v
    simp only [Set.mem_range, Set.mem_ofPred_eq, Fin.getElem_fin]
    constructor
    · rintro ⟨i, rfl⟩
      exact List.getElem_mem _
    · intro h
      obtain ⟨i, hi, e⟩ := List.getElem_of_mem h
      exact ⟨⟨i, hi⟩, e⟩
  have h := LinearIndependent.sum_type ha hb (by rw [hr, hr]; exact hd)
  unfold Independent
  let e : Fin a.length ⊕ Fin b.length ≃ Fin (a ++ b).length := finSumFinEquiv.trans (finCongr (by simp))
  have he : (fun i : Fin (a ++ b).length => (a ++ b)[i]) ∘ e = Sum.elim (fun i : Fin a.length => a[i]) fun i : Fin b.length => b[i] := by
    funext i
    rcases i with i | i <;> simp [e]
  rw [← he] at h
  exact (linearIndependent_equiv e).1 h

section
variable {V κ : Type} [AddCommGroup V] [Module ℝ V] {low : Submodule ℝ V} {keys : List κ} {f : κ → V} {L : κ → V →ₗ[ℝ] ℝ}

open Classical in
theorem zero_of_dual (h1 : ∀ a ∈ keys, L a (f a) ≠ 0) (h2 : ∀ a ∈ keys, ∀ b ∈ keys, a ≠ b → L a (f b) = 0) {w : V}
    (hw : w ∈ lspan (keys.map f)) (h : ∀ a ∈ keys, L a w = 0) : w = 0 := by
  let T : V →ₗ[ℝ] V := ∑ a ∈ keys.toFinset, (L a (f a))⁻¹ • (L a).smulRight (f a)
  have hT : ∀ v, T v = ∑ a ∈ keys.toFinset, (L a (f a))⁻¹ • (L a v • f a) := fun v => by
    simp [T, LinearMap.sum_apply]
  have h3 : ∀ v ∈ lspan (keys.map f), T v = v := by
    intro v hv
    induction hv using Submodule.span_induction with
    | mem v hv =>
      obtain ⟨b, hb, rfl⟩ := List.mem_map.1 hv
      rw [hT, Finset.sum_eq_single b]
      · rw [smul_smul, inv_mul_cancel₀ (h1 b hb), one_smul]
      · intro a ha hab
        rw [h2 a (List.mem_toFinset.1 ha) b hb hab, zero_smul, smul_zero]
      · intro hn
        exact absurd (List.mem_toFinset.2 hb) hn
    | zero => exact map_zero T
    | add x y _ _ hx hy => rw [map_add, hx, hy]
    | smul c x _ hx => rw [map_smul, hx]
  rw [← h3 w hw, hT]
  refine Finset.sum_eq_zero fun a ha => ?_
  rw [h a (List.mem_toFinset.1 ha), zero_smul, smul_zero]

theorem independent_of_dual (hn : keys.Nodup) (h1 : ∀ a ∈ keys, L a (f a) ≠ 0)
    (h2 : ∀ a ∈ keys, ∀ b ∈ keys, a ≠ b → L a (f b) = 0) : Independent ℝ (keys.map f) := by
  refine linearIndependent_of_triangular _ (fun i : Fin (keys.map f).length => L (keys[i.val]'(by simpa using i.2)))
    (fun _ => 0) ?_ ?_
  · intro i
    simpa using h1 _ (List.getElem_mem _)
  · intro i j hij hne
    exfalso
    apply hne
    have := h2 (keys[i.val]'(by simpa using i.2)) (List.getElem_mem _) (keys[j.val]'(by simpa using j.2)) (List.getElem_mem _)
      (fun e => hij (Fin.ext ((List.Nodup.getElem_inj_iff hn).1 e)))
    simpa using this

/-- Functions on which functionals are dual, added to functions on which these functionals vanish. -/
theorem enrich_dual (hn : keys.Nodup) (h1 : ∀ a ∈ keys, L a (f a) ≠ 0)
    (h2 : ∀ a ∈ keys, ∀ b ∈ keys, a ≠ b → L a (f b) = 0) (hL : ∀ a ∈ keys, ∀ v ∈ low, L a v = 0) {base : List V}
    (hb : lspan base ≤ low) (hi : Independent ℝ base) :
    Independent ℝ (base ++ keys.map f) ∧
      ∀ p ∈ lspan base, ∀ w ∈ lspan (keys.map f), p + w ∈ low → w = 0 := by
  have key : ∀ w ∈ lspan (keys.map f), w ∈ low → w = 0 := fun w hw h =>
    zero_of_dual h1 h2 hw fun a ha => hL a ha w h
  refine ⟨independent_append hi (independent_of_dual hn h1 h2) ?_, fun p hp w hw h => key w hw ?_⟩
  · rw [Submodule.disjoint_def]
    exact fun w hw hw' => key w hw' (hb hw)
  · have := low.sub_mem h (hb hp)
    rwa [add_sub_cancel_left] at this

end

/-! ### Coefficients of terms of low degree in one variable -/

/-- The fields whose components `j` contain no terms of degree `k` with exponent 0 or 1 of `x_j`. -/
def Low (d k : ℕ) : Submodule ℝ (Field d) where
  carrier := {v | ∀ (j : Fin d) (m : Mono), m.length = d → m.sum = k → m.getD j.val 0 ≤ 1 → coeff (expo 0 m) (v j) = 0}
  zero_mem' := fun j m _ _ _ => coeff_zero _
  add_mem' := fun {v w} hv hw j m h1 h2 h3 => by
    show coeff _ (v j + w j) = 0
    rw [coeff_add, hv j m h1 h2 h3, hw j m h1 h2 h3, add_zero]
  smul_mem' := fun c v hv j m h1 h2 h3 => by
    show coeff _ (c • v j) = 0
    rw [coeff_smul, hv j m h1 h2 h3, smul_zero]

theorem expo_degree (m : Mono) (s : ℕ) : (expo s m).degree = m.sum := by
  induction m generalizing s with
  | nil => simp [expo]
  | cons a t ih => simp [expo, map_add, ih]

theorem expo_getD (m : Mono) (s i : ℕ) : expo s m (s + i) = m.getD i 0 := by
  induction m generalizing s i with
  | nil => simp [expo]
  | cons a t ih =>
    cases i with
    | zero => simp [expo, expo_apply_lt]
    | succ i =>
      have := ih (s + 1) i
      rw [show s + 1 + i = s + (i + 1) by ring] at this
      simp [expo, this]

theorem coeff_eq_zero_of_degree {d : ℕ} {k : ℤ} {p : MvPolynomial ℕ ℝ} (hp : p ∈ P d k) {t : ℕ →₀ ℕ}
    (ht : k < (t.degree : ℤ)) : coeff t p = 0 := by
  by_contra h
  have := (mem_P.1 hp t (mem_support_iff.2 h)).1
  omega

theorem PV_le_Low (d k : ℕ) {v : Field d} (hv : ∀ j, v j ∈ P d (k : ℤ)) : v ∈ Low d (k + 1) := by
  intro j m _ h2 _
  refine coeff_eq_zero_of_degree (hv j) ?_
  rw [expo_degree, h2]
  omega

/-- A polynomial of degree `k + 1` that vanishes where `x_j` is 0 and where it is 1 has no terms of degree `k + 1` that are
of degree at most one in `x_j`. -/
theorem coeff_of_bub {d k : ℕ} {p : MvPolynomial ℕ ℝ} (hp : p ∈ P d ((k : ℤ) + 1)) {j : ℕ}
    (h : ∀ z : ℕ → ℝ, z j = 0 ∨ z j = 1 → eval z p = 0) {m : Mono} (h2 : m.sum = k + 1) (h3 : m.getD j 0 ≤ 1) :
    coeff (expo 0 m) p = 0 := by
  classical
  obtain ⟨w, hw, rfl⟩ := P_bub j hp h
  have e : bub j * w = X j * w - X j * (X j * w) := by rw [bub]; ring
  have hm : expo 0 m j = m.getD j 0 := by
    have := expo_getD m 0 j
    rwa [zero_add] at this
  rw [e, coeff_sub, coeff_X_mul', coeff_X_mul']
  split_ifs with hs
  · have hs' : expo 0 m j = 1 := by
      rw [Finsupp.mem_support_iff] at hs
      omega
    have h0 : coeff (expo 0 m - Finsupp.single j 1) w = 0 := by
      refine coeff_eq_zero_of_degree hw ?_
      have h4 : (expo 0 m - Finsupp.single j 1) + Finsupp.single j 1 = expo 0 m := by
        refine tsub_add_cancel_of_le ?_
        rw [Finsupp.single_le_iff]
        omega
      have h5 := congrArg Finsupp.degree h4
      rw [map_add, expo_degree, h2, Finsupp.degree_single] at h5
      omega
    rw [h0, coeff_X_mul', if_neg, sub_zero]
    rw [Finsupp.mem_support_iff, not_not, Finsupp.tsub_apply, Finsupp.single_eq_same]
    omega
  · rw [sub_zero]

/-! ### Functionals given by coefficients -/

/-- The value of the combination `l` of coefficients of a vector of polynomials: `(c, j, m)` is `c` times the coefficient of
`m` in component `j`. -/
def flVal (F : VecPoly) (l : List (ℤ × ℕ × Mono)) : ℤ := (l.map fun t => t.1 * vcoeff F t.2.1 t.2.2).sum

open Classical in
/-- The combination of coefficients `l` as a functional. -/
noncomputable def flMap (d : ℕ) (l : List (ℤ × ℕ × Mono)) : Field d →ₗ[ℝ] ℝ :=
  (l.map fun t => (t.1 : ℝ) • (if h : t.2.1 < d then
    (lcoeff ℝ (expo 0 t.2.2)) ∘ₗ (LinearMap.proj (⟨t.2.1, h⟩ : Fin d)) else (0 : Field d →ₗ[ℝ] ℝ))).sum

theorem flMap_eq {d : ℕ} {F : VecPoly} (hF : ∀ p ∈ F, ∀ t ∈ p, t.2.length = d) {l : List (ℤ × ℕ × Mono)}
    (hl : ∀ t ∈ l, t.2.1 < d ∧ t.2.2.length = d) : flMap d l (denoteVec ℝ d F) = (flVal F l : ℝ) := by
  induction l with
  | nil => simp [flMap, flVal]
  | cons a l ih =>
    have ih := ih fun t ht => hl t (List.mem_cons_of_mem _ ht)
    obtain ⟨h1, h2⟩ := hl a List.mem_cons_self
    rw [flMap, flVal] at *
    rw [List.map_cons, List.sum_cons, List.map_cons, List.sum_cons, LinearMap.add_apply, ih, Int.cast_add, dif_pos h1]
    congr 1
    rw [LinearMap.smul_apply, smul_eq_mul, Int.cast_mul]
    congr 1
    show coeff _ (denoteVec ℝ d F ⟨a.2.1, h1⟩) = _
    unfold denoteVec vcoeff
    apply coeff_denotePoly
    intro t ht
    rw [h2]
    cases hq : F[a.2.1]? with
    | none => simp [hq] at ht
    | some p =>
      simp only [hq, Option.getD_some] at ht
      exact hF p (List.mem_of_getElem? hq) t ht

theorem flMap_low {d k : ℕ} {l : List (ℤ × ℕ × Mono)}
    (hl : ∀ t ∈ l, t.2.1 < d ∧ t.2.2.length = d ∧ t.2.2.sum = k ∧ t.2.2.getD t.2.1 0 ≤ 1) {v : Field d} (hv : v ∈ Low d k) :
    flMap d l v = 0 := by
  induction l with
  | nil => simp [flMap]
  | cons a l ih =>
    have ih := ih fun t ht => hl t (List.mem_cons_of_mem _ ht)
    obtain ⟨h1, h2, h3, h4⟩ := hl a List.mem_cons_self
    rw [flMap] at *
    rw [List.map_cons, List.sum_cons, LinearMap.add_apply, ih, dif_pos h1, add_zero, LinearMap.smul_apply]
    have : coeff (expo 0 a.2.2) (v ⟨a.2.1, h1⟩) = 0 := hv ⟨a.2.1, h1⟩ a.2.2 h2 h3 h4
    show (a.1 : ℝ) • coeff (expo 0 a.2.2) (v ⟨a.2.1, h1⟩) = 0
    rw [this, smul_zero]

/-! ### The elements -/

/-- The fields of degree `k` plus combinations of the fields in `ext`. -/
def Enriched (d k : ℕ) (ext : Set (Field d)) (v : Field d) : Prop :=
  ∃ p : Field d, (∀ j, p j ∈ P d (k : ℤ)) ∧ ∃ w ∈ Submodule.span ℝ ext, v = p + w

theorem term_XP {d k j : ℕ} {m : Mono} (hl : m.length = d) (hs : m.sum = k + 1) (h1 : 1 ≤ m.getD j 0) :
    denoteMono ℝ m ∈ XP d ((k : ℤ) + 1) j := by
  obtain ⟨h2, h3⟩ := sum_set_pred h1
  have hj := getD_lt h1
  rw [mem_XP]
  refine ⟨0, Submodule.zero_mem _, denoteMono ℝ (m.set j (m.getD j 0 - 1)), ?_, ?_⟩
  · refine denoteMono_mem (by simpa using hl) ?_
    omega
  · rw [X_mul_denoteMono (by simpa using hj), h3, zero_add]

theorem poly_XP {d k j : ℕ} {p : Poly} (h : ∀ t ∈ p, t.1 ≠ 0 → t.2.length = d ∧ t.2.sum = k + 1 ∧ 1 ≤ t.2.getD j 0) :
    denotePoly ℝ p ∈ XP d ((k : ℤ) + 1) j := by
  rw [denotePoly]
  refine list_sum_mem fun q hq => ?_
  obtain ⟨t, ht, rfl⟩ := List.mem_map.1 hq
  by_cases h0 : t.1 = 0
  · simp [h0]
  · obtain ⟨h1, h2, h3⟩ := h t ht h0
    rw [← smul_eq_C_mul]
    exact Submodule.smul_mem _ _ (term_XP h1 h2 h3)

theorem XP_le {d k j : ℕ} (hj : j < d) : XP d ((k : ℤ) + 1) j ≤ P d ((k : ℤ) + 1) := by
  intro p hp
  obtain ⟨q, hq, r, hr, rfl⟩ := mem_XP.1 hp
  refine Submodule.add_mem _ (P_mono (by omega) hq) ?_
  have := X_mul_mem hj hr
  rwa [sub_add_cancel] at this

/-- The data of a family of homogeneous fields of degree `k + 1`, with combinations of coefficients that determine the
coefficients of a combination of these fields. -/
structure Dual {κ : Type} (d k : ℕ) (keys : List κ) (f : κ → VecPoly) (l : κ → List (ℤ × ℕ × Mono)) : Prop where
  nodup : keys.Nodup
  len : ∀ a ∈ keys, ∀ p ∈ f a, ∀ t ∈ p, t.2.length = d
  term : ∀ a ∈ keys, ∀ j < d, ∀ t ∈ (f a)[j]?.getD [], t.1 ≠ 0 → t.2.sum = k + 1 ∧ 1 ≤ t.2.getD j 0
  low : ∀ a ∈ keys, ∀ t ∈ l a, t.2.1 < d ∧ t.2.2.length = d ∧ t.2.2.sum = k + 1 ∧ t.2.2.getD t.2.1 0 ≤ 1
  diag : ∀ a ∈ keys, flVal (f a) (l a) ≠ 0
  off : ∀ a ∈ keys, ∀ b ∈ keys, a ≠ b → flVal (f b) (l a) = 0

section
variable {κ : Type} {d k : ℕ} {keys : List κ} {f : κ → VecPoly} {l : κ → List (ℤ × ℕ × Mono)}

theorem Dual.XP (D : Dual d k keys f l) {w : Field d} (hw : w ∈ lspan ((keys.map f).map (denoteVec ℝ d))) (j : Fin d) :
    w j ∈ XP d ((k : ℤ) + 1) j := by
  induction hw using Submodule.span_induction with
  | mem v hv =>
    obtain ⟨F, hF, rfl⟩ := List.mem_map.1 hv
    obtain ⟨a, ha, rfl⟩ := List.mem_map.1 hF
    refine poly_XP fun t ht h0 => ?_
    obtain ⟨h1, h2⟩ := D.term a ha j j.2 t ht h0
    refine ⟨?_, h1, h2⟩
    cases hq : (f a)[j.val]? with
    | none => simp [hq] at ht
    | some p =>
      simp only [hq, Option.getD_some] at ht
      exact D.len a ha p (List.mem_of_getElem? hq) t ht
  | zero => exact Submodule.zero_mem _
  | add x y _ _ hx hy => exact Submodule.add_mem _ hx hy
  | smul c x _ hx => exact Submodule.smul_mem _ _ hx

theorem Dual.spec (D : Dual d k keys f l) (hd : d = 2 ∨ d = 3) : ∃ pl, polySetVector d d k = some pl ∧
    Independent ℝ ((pl ++ keys.map f).map (denoteVec ℝ d)) ∧
    (∀ v, v ∈ lspan ((pl ++ keys.map f).map (denoteVec ℝ d)) ↔
      Enriched d k {w | w ∈ (keys.map f).map (denoteVec ℝ d)} v) ∧
    (pl ++ keys.map f).length = (k + d).choose d * d + keys.length ∧
    ∀ v, Enriched d k {w | w ∈ (keys.map f).map (denoteVec ℝ d)} v → v ∈ Low d (k + 1) → ∀ j, v j ∈ P d (k : ℤ) := by
  obtain ⟨pl, h1, h2, h3, h4⟩ := poly_vector hd k
  have hb : lspan (pl.map (denoteVec ℝ d)) ≤ Low d (k + 1) := fun v hv => PV_le_Low d k ((h3 v).1 hv)
  obtain ⟨hi, hz⟩ := enrich_dual (low := Low d (k + 1)) (keys := keys) (f := fun a => denoteVec ℝ d (f a))
    (L := fun a => flMap d (l a)) D.nodup
    (fun a ha => by
      rw [flMap_eq (D.len a ha) fun t ht => ⟨(D.low a ha t ht).1, (D.low a ha t ht).2.1⟩]
      exact_mod_cast D.diag a ha)
    (fun a ha b hb hab => by
      rw [flMap_eq (D.len b hb) fun t ht => ⟨(D.low a ha t ht).1, (D.low a ha t ht).2.1⟩]
      exact_mod_cast D.off a ha b hb hab)
    (fun a ha v hv => flMap_low (D.low a ha) hv) hb h2
  have he : keys.map (fun a => denoteVec ℝ d (f a)) = (keys.map f).map (denoteVec ℝ d) := by rw [List.map_map]; rfl
  rw [he] at hi hz
  refine ⟨pl, h1, by rw [List.map_append]; exact hi, fun v => ?_, by simp [h4], ?_⟩
  · rw [List.map_append, lspan_append, Submodule.mem_sup]
    constructor
    · rintro ⟨p, hp, w, hw, rfl⟩
      exact ⟨p, (h3 p).1 hp, w, hw, rfl⟩
    · rintro ⟨p, hp, w, hw, rfl⟩
      exact ⟨p, (h3 p).2 hp, w, hw, rfl⟩
  · rintro v ⟨p, hp, w, hw, rfl⟩ hv j
    have := hz p ((h3 p).2 hp) w hw hv
    rw [this, add_zero]
    exact hp j

end

/-- An element on a quadrilateral or hexahedron whose space consists of the polynomials of degree `k` and functions of degree
`k + 1`, with normal moments on the facets against polynomials of degree `k` and moments on the cell against vectors of
degree `k - 2`. -/
theorem enriched_created {κ : Type} {c : Cell} (hc : Box c) {k : ℕ} {keys : List κ} {f : κ → VecPoly}
    {l : κ → List (ℤ × ℕ × Mono)} (D : Dual c.tdim k keys f l) {poly : Option (List VecPoly)}
    (hpoly : poly = (polySetVector c.tdim c.tdim k).map fun a => a ++ keys.map f) {mapping : Option String}
    {B : List Item} (hB : parse B = some ⟨"IntegralMoment", "VectorDPC", (k : ℤ) - 2, mapping, [("variant", "equispaced")]⟩)
    (hcount : 2 * c.tdim * (k + (c.tdim - 1)).choose (c.tdim - 1) +
      (if (k : ℤ) - 2 < 0 then 0 else (((k : ℤ) - 2).toNat + c.tdim).choose c.tdim * c.tdim) =
      (k + c.tdim).choose c.tdim * c.tdim + keys.length) :
    Created (momentElement dpcClasses c poly
        { facets := some (.single [.cls "NormalIntegralMoment", .cls "DPC", .int (k : ℤ), .dict [("variant", "equispaced")]])
          cells := some (.single B) })
      (Enriched c.tdim k {w | w ∈ (keys.map f).map (denoteVec ℝ c.tdim)}) ((k + c.tdim).choose c.tdim * c.tdim + keys.length)
      (QNormalTrace c (Enriched c.tdim k {w | w ∈ (keys.map f).map (denoteVec ℝ c.tdim)})) := by
  obtain ⟨pl, h1, hi, hS, hlen, hlow⟩ := D.spec hc.dims
  obtain ⟨xs, hx, hxs, hxl⟩ := sub_dpc (qFacetCell_tensor c) (classes := dpcClasses) rfl "NormalIntegralMoment" (k : ℤ) none
  obtain ⟨ys, hy, hys, hyl⟩ := sub_vectorDpc hc (classes := dpcClasses) rfl "IntegralMoment" ((k : ℤ) - 2) mapping [("variant", "equispaced")]
  rw [qFacetCell_tdim hc] at hxs hxl
  rw [h1, Option.map_some] at hpoly
  have hX : ∀ v, Enriched c.tdim k {w | w ∈ (keys.map f).map (denoteVec ℝ c.tdim)} v →
      ∀ j : Fin c.tdim, v j ∈ XP c.tdim ((k : ℤ) + 1) j := by
    rintro v ⟨p, hp, w, hw, rfl⟩ j
    refine Submodule.add_mem _ (mem_XP.2 ⟨p j, ?_, 0, Submodule.zero_mem _, by simp⟩) (D.XP hw j)
    rw [add_sub_cancel_right]
    exact hp j
  rw [← hlen]
  refine box_created hc hpoly hi hS (k := (k : ℤ) + 1) (fun v hv j => XP_le j.2 (hX v hv j)) rfl hB hx hy rfl rfl
    (fun v hv i hi => ?_) (fun v hv hn hp => ?_) ?_
  · rw [hxs]
    obtain ⟨q, hq, r, hr, e⟩ := mem_XP.1 (hX v hv ⟨qAxis c.tdim i, qAxis_lt hi⟩)
    rw [add_sub_cancel_right] at hq hr
    rw [e, pull_add, pull_mul, facet_coord hc hi]
    exact Submodule.add_mem _ (facet_pull hc hi hq) (C_mul_mem _ (facet_pull hc hi hr))
  · refine box_zero hc (k := (k : ℤ)) (hlow v hv fun j m h1 h2 h3 => ?_) hn fun q hq => hp q (by rw [hys]; exact hq)
    exact coeff_of_bub (XP_le j.2 (hX v hv j)) (hn j) h2 h3
  · rw [hlen, hxl, hyl, if_neg (by omega), ← hcount, Int.toNat_natCast]

end Verif.Families
