import Verif.Families.TrimmedCurl
/-!
# `SerendipityCurl` on quadrilaterals
-/

namespace Verif.Families
open Verif.References Verif.Moments Verif.Functionals Verif.Elements Verif.FiniteElement Verif.Polysets Verif.Orthogonal
open MvPolynomial

/-! ### Model -/

/-- `SerendipityCurl(reference, order, variant)` (symfem/elements/serendipity.py:98-121). -/
noncomputable def scurl (variant : String) (c : Cell) (k : ℕ) : Option (Element ℝ (Field c.tdim)) :=
  momentElement dpcClasses c ((polySetVector c.tdim c.tdim k).bind fun a => (hcurlSerSet c.tdim k).map fun b => a ++ b)
    { edges := some (.single [.cls "TangentIntegralMoment", .cls "DPC", .int (k : ℤ), .dict [("variant", variant)]])
      faces := some (.single [.cls "IntegralMoment", .cls "VectorDPC", .int ((k : ℤ) - 2), .str "covariant",
        .dict [("variant", variant)]])
      volumes := some (.single [.cls "IntegralMoment", .cls "VectorDPC", .int ((k : ℤ) - 4), .str "covariant",
        .dict [("variant", variant)]]) }

/-! ### Quadrilaterals -/

/-- The functions added to the polynomials of degree `k` on a quadrilateral (the first one is not a gradient). -/
def scurlExt2 (k : ℕ) : Set (Field 2) :=
  {![((k : ℝ) + 1) • (X 0 ^ k * X 1), -X 0 ^ (k + 1)], ![X 1 ^ (k + 1), ((k : ℝ) + 1) • (X 0 * X 1 ^ k)]}

/-- The functions in the code. -/
def scFn2 (k a : ℕ) : VecPoly :=
  if a = 0 then [[((k : ℤ) + 1, [k, 1])], [(-1, [k + 1, 0])]] else [[(1, [0, k + 1])], [((k : ℤ) + 1, [1, k])]]

/-- The same after a quarter of a turn, where the sign of the first one is `s`. -/
def scTurned (s : ℤ) (k a : ℕ) : VecPoly :=
  if a = 0 then [[(s, [k + 1, 0])], [((k : ℤ) + 1, [k, 1])]] else [[(-((k : ℤ) + 1), [1, k])], [(1, [0, k + 1])]]

theorem scTurned_dual (s : ℤ) {k : ℕ} (hk : 1 ≤ k) : Dual 2 k [0, 1] (scTurned s k) (sdivDual2 k) where
  nodup := by decide
  len := by
    intro a ha p hp q hq
    simp only [List.mem_cons, List.not_mem_nil, or_false] at ha
    rcases ha with rfl | rfl <;>
    · simp [scTurned] at hp
      rcases hp with rfl | rfl <;> simp at hq <;> subst hq <;> rfl
  term := by
    intro a ha j hj q hq h0
    simp only [List.mem_cons, List.not_mem_nil, or_false] at ha
    rcases ha with rfl | rfl <;> interval_cases j <;> simp [scTurned] at hq <;> subst hq <;> simp <;> omega
  low := (sdiv2_dual hk).low
  diag := by
    intro a ha
    simp only [List.mem_cons, List.not_mem_nil, or_false] at ha
    rcases ha with rfl | rfl <;> simp [scTurned, sdivDual2, flVal, vcoeff, termCoeff] <;> omega
  off := by
    intro a ha b hb hab
    simp only [List.mem_cons, List.not_mem_nil, or_false] at ha hb
    rcases ha with rfl | rfl <;> rcases hb with rfl | rfl <;>
      simp [scTurned, sdivDual2, flVal, vcoeff, termCoeff] at hab ⊢ <;> omega

theorem rot_scFn (k a : ℕ) : rot (denoteVec ℝ 2 (scFn2 k a)) = denoteVec ℝ 2 (scTurned 1 k a) := by
  funext i
  fin_cases i
  · show rot _ 0 = _
    rw [rot_zero]
    unfold scFn2 scTurned
    split_ifs <;> simp [denoteVec, denotePoly] <;> ring
  · show rot _ 1 = _
    rw [rot_one]
    unfold scFn2 scTurned
    split_ifs <;> simp [denoteVec, denotePoly]

theorem scurl2_ext (k : ℕ) : {w | w ∈ (([0, 1] : List ℕ).map (scFn2 k)).map (denoteVec ℝ 2)} = scurlExt2 k := by
  ext w
  simp only [List.map_cons, List.map_nil, List.mem_cons, List.not_mem_nil, or_false, Set.mem_ofPred_eq, scurlExt2,
    Set.mem_insert_iff, Set.mem_singleton_iff]
  have h0 : denoteVec ℝ 2 (scFn2 k 0) = ![((k : ℝ) + 1) • (X 0 ^ k * X 1), -X 0 ^ (k + 1)] := by
    funext j
    fin_cases j <;> simp [denoteVec, scFn2, denotePoly, denoteMono, monoFrom, smul_eq_C_mul]
  have h1 : denoteVec ℝ 2 (scFn2 k 1) = ![X 1 ^ (k + 1), ((k : ℝ) + 1) • (X 0 * X 1 ^ k)] := by
    funext j
    fin_cases j <;> simp [denoteVec, scFn2, denotePoly, denoteMono, monoFrom, smul_eq_C_mul]
  rw [h0, h1]

/-- Enriched spaces after a quarter of a turn. -/
theorem enriched_rot {k : ℕ} {A B : List (Field 2)} (h : A.map rot = B) (v : Field 2) :
    Enriched 2 k {w | w ∈ A} v ↔ Enriched 2 k {w | w ∈ B} (rot v) := by
  have e : Submodule.span ℝ {w | w ∈ B} = (Submodule.span ℝ {w | w ∈ A}).map rot := by
    rw [← h]
    exact lspan_map rot A
  rw [Enriched, Enriched, e]
  constructor
  · rintro ⟨p, hp, w, hw, rfl⟩
    exact ⟨rot p, fun j => mem_PV.1 (rot_mem (mem_PV.2 hp)) j, rot w, Submodule.mem_map_of_mem hw, map_add _ _ _⟩
  · rintro ⟨p, hp, _, ⟨w, hw, rfl⟩, e⟩
    refine ⟨-rot p, fun j => mem_PV.1 (Submodule.neg_mem _ (rot_mem (mem_PV.2 hp))) j, w, hw, ?_⟩
    have h5 := congrArg rot e
    rw [map_add, rot_rot, rot_rot] at h5
    have h6 := congrArg Neg.neg h5
    rw [neg_neg, neg_add, neg_neg] at h6
    exact h6

/-- A function of an enriched space with no normal components and no moments. -/
theorem enriched_zero {κ : Type} {c : Cell} (hc : Box c) {k : ℕ} {keys : List κ} {f : κ → VecPoly}
    {l : κ → List (ℤ × ℕ × Mono)} (D : Dual c.tdim k keys f l) {v : Field c.tdim}
    (hv : Enriched c.tdim k {w | w ∈ (keys.map f).map (denoteVec ℝ c.tdim)} v)
    (hn : ∀ (i : Fin c.tdim) (z : ℕ → ℝ), z i.val = 0 ∨ z i.val = 1 → eval z (v i) = 0)
    (hp : ∀ q ∈ PV c.tdim c.tdim ((k : ℤ) - 2), pairing c v q = 0) : v = 0 := by
  obtain ⟨pl, h1, hi, hS, hlen, hlow⟩ := D.spec hc.dims
  have hm : ∀ j : Fin c.tdim, v j ∈ P c.tdim ((k : ℤ) + 1) := by
    intro j
    obtain ⟨p, hp', w, hw, rfl⟩ := hv
    exact Submodule.add_mem _ (P_mono (show (k : ℤ) ≤ k + 1 by omega) (hp' j)) (XP_le j.2 (D.XP hw j))
  refine box_zero hc (k := (k : ℤ)) (hlow v hv fun j m h1 h2 h3 => ?_) hn hp
  exact coeff_of_bub (hm j) (hn j) h2 h3

theorem enriched_XP {κ : Type} {d k : ℕ} {keys : List κ} {f : κ → VecPoly} {l : κ → List (ℤ × ℕ × Mono)} (D : Dual d k keys f l)
    {v : Field d} (hv : Enriched d k {w | w ∈ (keys.map f).map (denoteVec ℝ d)} v) (j : Fin d) : v j ∈ XP d ((k : ℤ) + 1) j := by
  obtain ⟨p, hp, w, hw, rfl⟩ := hv
  refine Submodule.add_mem _ (mem_XP.2 ⟨p j, ?_, 0, Submodule.zero_mem _, by simp⟩) (D.XP hw j)
  rw [add_sub_cancel_right]
  exact hp j

/-- **C126** The serendipity H(curl) element on a quadrilateral. -/
theorem scurl_created_quadrilateral {k : ℕ} (hk : 1 ≤ k) :
    Created (scurl "equispaced" .quadrilateral k) (Enriched 2 k (scurlExt2 k)) ((k + 1) * (k + 2) + 2)
      (EdgeTrace .quadrilateral (Enriched 2 k (scurlExt2 k))) := by
  have D := scTurned_dual 1 hk
  obtain ⟨a, ha, hi, hS, hlen, -⟩ := D.spec (Or.inl rfl)
  have hB : ((([0, 1] : List ℕ).map (scFn2 k)).map (denoteVec ℝ 2)).map rot = (([0, 1] : List ℕ).map (scTurned 1 k)).map (denoteVec ℝ 2) := by
    rw [List.map_map, List.map_map, List.map_map]
    exact List.map_congr_left fun a _ => rot_scFn k a
  rw [List.map_append] at hi hS
  obtain ⟨hi', hS'⟩ := rot_spec ha hB hi
  have hE : ∀ v, Enriched 2 k (scurlExt2 k) v ↔
      Enriched 2 k {w | w ∈ (([0, 1] : List ℕ).map (scTurned 1 k)).map (denoteVec ℝ 2)} (rot v) := by
    intro v
    rw [← scurl2_ext k]
    exact enriched_rot hB v
  have hpl : (a ++ ([0, 1] : List ℕ).map (scFn2 k)).length = (k + 1) * (k + 2) + 2 := by
    have := choose_two k
    rw [List.length_append, List.length_map] at hlen ⊢
    rw [hlen]
    simp only [List.length_cons, List.length_nil]
    nlinarith
  have hpoly : ((polySetVector Cell.quadrilateral.tdim Cell.quadrilateral.tdim k).bind fun a =>
      (hcurlSerSet Cell.quadrilateral.tdim k).map fun b => a ++ b) = some (a ++ ([0, 1] : List ℕ).map (scFn2 k)) := by
    show ((polySetVector 2 2 k).bind fun a => (hcurlSerSet 2 k).map fun b => a ++ b) = _
    rw [ha]
    rfl
  have h := curl_created2 (S := Enriched 2 k (scurlExt2 k)) (n := k) (m := (k : ℤ) - 2) (mp := some "covariant") hpoly
    (by rw [List.map_append]; exact hi')
    (fun v => by rw [List.map_append, hS', hS, hE]) (fun v hv j => enriched_XP D ((hE v).1 hv) j)
    (A := [.cls "TangentIntegralMoment", .cls "DPC", .int (k : ℤ), .dict [("variant", "equispaced")]])
    (B := [.cls "IntegralMoment", .cls "VectorDPC", .int ((k : ℤ) - 2), .str "covariant", .dict [("variant", "equispaced")]])
    (C' := [.cls "IntegralMoment", .cls "VectorDPC", .int ((k : ℤ) - 4), .str "covariant", .dict [("variant", "equispaced")]])
    rfl rfl (extra := some []) rfl (fun v hv hn hp _ => enriched_zero (c := .quadrilateral) (Or.inl rfl) D ((hE v).1 hv) hn hp) ?_
  · rw [hpl] at h
    unfold scurl
    rw [momentElement_with]
    exact h
  · have h3 := count2 hk
    rw [List.length_append, List.length_map] at hlen ⊢
    rw [hlen]
    simpa using h3

example : ∃ basis dofs fs, scurl "equispaced" .quadrilateral 3 = some (.ciarlet basis dofs) ∧
    getBasis (.ciarlet basis dofs) = some fs ∧ fs.length = 22 := by
  obtain ⟨b, d, fs, h1, h2, -, h3, -⟩ := scurl_created_quadrilateral (k := 3) (by omega)
  exact ⟨b, d, fs, h1, h2, h3⟩

end Verif.Families
