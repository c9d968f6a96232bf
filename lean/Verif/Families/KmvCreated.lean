import Verif.Families.KmvFail
import Verif.Families.Core
import Verif.Families.Enrich
/-!
# Kong–Mulder–Veldhuizen elements that can be created
-/

namespace Verif.Families
open Verif.References Verif.Quadrature Verif.Polysets Verif.Elements Verif.FiniteElement Verif.Orthogonal MvPolynomial

/-- A polynomial of degree `n` that vanishes at more than `n` points of a line vanishes on the line. -/
theorem line_zero_of {d n : ℕ} {f : MvPolynomial ℕ ℝ} (hf : f ∈ P d n) (a b : ℕ → ℝ) {S : Finset ℝ} (hS : n < S.card)
    (h : ∀ t ∈ S, eval (onLine a b t) f = 0) (t : ℝ) : eval (onLine a b t) f = 0 := by
  obtain ⟨g, h1, h2⟩ := line_poly hf a b 1
  have hg : g = 0 := by
    refine Polynomial.eq_zero_of_natDegree_lt_card_of_eval_eq_zero' g S (fun x hx => ?_) (by omega)
    rw [h2, mul_one]
    exact h x hx
  have := h2 t
  rw [hg, mul_one, Polynomial.eval_zero] at this
  exact this.symm

/-- The bubble function of the triangle. -/
noncomputable def triB : MvPolynomial ℕ ℝ := X 0 * X 1 * (1 - X 0 - X 1)

theorem eval_triB (z : ℕ → ℝ) : eval z triB = z 0 * z 1 * (1 - z 0 - z 1) := by
  simp only [triB, map_mul, map_sub, eval_X, map_one]

/-- A polynomial that vanishes on the boundary of the triangle is a multiple of the bubble function. -/
theorem tri_factor {k : ℤ} {p : MvPolynomial ℕ ℝ} (hp : p ∈ P 2 k) (h0 : ∀ z : ℕ → ℝ, z 0 = 0 → eval z p = 0)
    (h1 : ∀ z : ℕ → ℝ, z 1 = 0 → eval z p = 0) (h2 : ∀ z : ℕ → ℝ, z 0 + z 1 = 1 → eval z p = 0) :
    ∃ a ∈ P 2 (k - 3), p = triB * a := by
  obtain ⟨a, rfl⟩ := X_mul_dvd (i := 0) (j := 1) (by norm_num) fun z hz => hz.elim (h0 z) (h1 z)
  have h3 : opp 2 ∣ X 0 * (X 1 * a) := opp_dvd (by norm_num) fun z hz => h2 z (by simpa [Fin.sum_univ_two] using hz)
  obtain ⟨b, rfl⟩ := opp_dvd_of_X_mul (d := 2) (by norm_num) (by norm_num) (by norm_num)
    (opp_dvd_of_X_mul (d := 2) (by norm_num) (by norm_num) (by norm_num) h3)
  have hb := P_cancel (degree_opp (d := 2) (by norm_num)) (X_cancel (X_cancel hp))
  refine ⟨b, by convert hb using 1; ring, ?_⟩
  rw [triB, opp_two]
  ring

theorem ref_tri : (refVertex .triangle 0 : ℕ → ℝ) 0 = 0 ∧ (refVertex .triangle 0 : ℕ → ℝ) 1 = 0 ∧
    (refVertex .triangle 1 : ℕ → ℝ) 0 = 1 ∧ (refVertex .triangle 1 : ℕ → ℝ) 1 = 0 ∧
    (refVertex .triangle 2 : ℕ → ℝ) 0 = 0 ∧ (refVertex .triangle 2 : ℕ → ℝ) 1 = 1 := by
  simp [refVertex, refVerts, coords]

/-- The functions `p + b q` of the space are determined by the values on the boundary up to a multiple of `b`. -/
theorem tri_determined {m : ℕ} {k : ℤ} (hk : (m : ℤ) - 3 ≤ k) {p q : MvPolynomial ℕ ℝ} (hp : p ∈ P 2 m) (hq : q ∈ P 2 k)
    {S : Finset ℝ} (hS : m < S.card)
    (h0 : ∀ t ∈ S, ∀ z : ℕ → ℝ, z 0 = 0 → z 1 = t → eval z (p + triB * q) = 0)
    (h1 : ∀ t ∈ S, ∀ z : ℕ → ℝ, z 0 = t → z 1 = 0 → eval z (p + triB * q) = 0)
    (h2 : ∀ t ∈ S, ∀ z : ℕ → ℝ, z 0 = 1 - t → z 1 = t → eval z (p + triB * q) = 0) :
    ∃ g ∈ P 2 k, p + triB * q = triB * g := by
  have hz : ∀ z : ℕ → ℝ, z 0 * z 1 * (1 - z 0 - z 1) = 0 → eval z (p + triB * q) = eval z p := by
    intro z hz
    rw [map_add, map_mul, eval_triB, hz, zero_mul, add_zero]
  obtain ⟨a, ha, rfl⟩ := tri_factor hp
    (fun z hz0 => by
      have := line_zero_of hp (fun _ => 0) (fun i => if i = 1 then 1 else 0) hS (fun t ht => by
        rw [← hz _ (by simp [onLine]), h0 t ht _ (by simp [onLine]) (by simp [onLine])]) (z 1)
      rw [← this]
      refine eval_congr_P hp fun i hi => ?_
      interval_cases i <;> simp [onLine, hz0])
    (fun z hz1 => by
      have := line_zero_of hp (fun _ => 0) (fun i => if i = 0 then 1 else 0) hS (fun t ht => by
        rw [← hz _ (by simp [onLine]), h1 t ht _ (by simp [onLine]) (by simp [onLine])]) (z 0)
      rw [← this]
      refine eval_congr_P hp fun i hi => ?_
      interval_cases i <;> simp [onLine, hz1])
    (fun z hz2 => by
      have := line_zero_of hp (fun i => if i = 0 then 1 else 0) (fun i => if i = 1 then 1 else 0) hS (fun t ht => by
        rw [← hz _ (by simp [onLine]), h2 t ht _ (by simp [onLine]; ring) (by simp [onLine])]) (z 1)
      rw [← this]
      refine eval_congr_P hp fun i hi => ?_
      interval_cases i
      · simp [onLine]; linarith
      · simp [onLine])
  exact ⟨a + q, Submodule.add_mem _ (P_mono hk ha) hq, by ring⟩

/-- A polynomial of degree 1 in two variables. -/
theorem P_one {g : MvPolynomial ℕ ℝ} (hg : g ∈ P 2 1) : ∃ c0 c1 c2, g = C c0 + C c1 * X 0 + C c2 * X 1 := by
  obtain ⟨l, l1, l2⟩ := polySet_lspan (d := 2) (by simp) ((1 : ℕ) : ℤ)
  obtain ⟨l', l3, -, l5⟩ := polySet_spec 2 (by simp) ((1 : ℕ) : ℤ)
  obtain rfl : l = l' := Option.some.inj (l1.symm.trans l3)
  have hg' : g ∈ lspan (l.map (denoteMono ℝ)) := by rw [l2]; exact hg
  clear hg
  induction hg' using Submodule.span_induction with
  | mem x hx =>
    obtain ⟨m, hm, rfl⟩ := List.mem_map.1 hx
    obtain ⟨e1, e2⟩ := (l5 m).1 hm
    match m, e1 with
    | [a, b], _ =>
      simp only [List.sum_cons, List.sum_nil, add_zero] at e2
      have ha : a ≤ 1 := by omega
      have hb : b ≤ 1 := by omega
      interval_cases a <;> interval_cases b
      · exact ⟨1, 0, 0, by simp [denoteMono, monoFrom]⟩
      · exact ⟨0, 0, 1, by simp [denoteMono, monoFrom]⟩
      · exact ⟨0, 1, 0, by simp [denoteMono, monoFrom]⟩
      · norm_num at e2
  | zero => exact ⟨0, 0, 0, by simp⟩
  | add x y _ _ hx hy =>
    obtain ⟨a0, a1, a2, rfl⟩ := hx
    obtain ⟨b0, b1, b2, rfl⟩ := hy
    exact ⟨a0 + b0, a1 + b1, a2 + b2, by simp only [C_add]; ring⟩
  | smul r x _ hx =>
    obtain ⟨a0, a1, a2, rfl⟩ := hx
    exact ⟨r * a0, r * a1, r * a2, by simp only [C_mul, smul_eq_C_mul]; ring⟩

theorem forall_vertices_tri (Q : (ℕ → ℝ) → Prop) (w : ℝ) (h : ∀ d ∈ kmvVertices .triangle w, Q d.point) :
    Q (refVertex .triangle 0) ∧ Q (refVertex .triangle 1) ∧ Q (refVertex .triangle 2) :=
  ⟨h ⟨refVertex .triangle 0, w, (0, 0)⟩ (List.mem_map.2 ⟨0, by decide, rfl⟩),
    h ⟨refVertex .triangle 1, w, (0, 1)⟩ (List.mem_map.2 ⟨1, by decide, rfl⟩),
    h ⟨refVertex .triangle 2, w, (0, 2)⟩ (List.mem_map.2 ⟨2, by decide, rfl⟩)⟩

/-- The values of the functionals vanish if and only if the values at the points vanish. -/
theorem weighted_zero {l : List WeightedDof} (hw : ∀ d ∈ l, d.weight ≠ 0) {f : MvPolynomial ℕ ℝ}
    (h : ∀ d ∈ l.map WeightedDof.functional, d.eval f = 0) : ∀ d ∈ l, eval d.point f = 0 := by
  intro d hd
  have := h _ (List.mem_map_of_mem hd)
  rw [weighted_eval] at this
  exact (mul_eq_zero.1 this).resolve_right (hw d hd)

/-- Two points with the same coordinates. -/
theorem eval_same {k : ℤ} {f : MvPolynomial ℕ ℝ} (hf : f ∈ P 2 k) {y z : ℕ → ℝ} (h : eval y f = 0) (h0 : z 0 = y 0)
    (h1 : z 1 = y 1) : eval z f = 0 := by
  rw [← h]
  refine eval_congr_P hf fun i hi => ?_
  interval_cases i <;> assumption

/-- Created with independent basis functions that span the space. -/
def CreatedIn (e : Option (Element ℝ (MvPolynomial ℕ ℝ))) (S : Submodule ℝ (MvPolynomial ℕ ℝ)) : Prop :=
  ∃ basis dofs fs, e = some (.ciarlet basis dofs) ∧ getBasis (.ciarlet basis dofs) = some fs ∧ lspan fs = S

/-- **C62** Order 1 on triangles. -/
theorem kmv_triangle_one_created : CreatedIn (kmvElement .triangle 1) (P 2 1) := by
  obtain ⟨l, l1, l2⟩ := polySet_lspan (d := 2) (by simp) ((1 : ℕ) : ℤ)
  obtain ⟨l', l3, l4, l5⟩ := polySet_spec 2 (by simp) ((1 : ℕ) : ℤ)
  obtain rfl : l = l' := Option.some.inj (l1.symm.trans l3)
  have hk : kmvTriangle 1 = some (kmvVertices .triangle (1 / 6), l.map (denoteMono ℝ)) := by
    rw [kmvTriangle, if_pos rfl, kmvTriPolyset, l1]
    simp
  obtain ⟨k1, fs, k2, k3, -⟩ := ciarlet_basis (basis := l.map (denoteMono ℝ))
    (dofs := (kmvVertices .triangle (1 / 6)).map WeightedDof.functional)
    (by rw [List.length_map, List.length_map, polySet_length _ _ _ l1]; simp [kmvVertices, Cell.nverts])
    (independent_monos ℝ l4 fun m hm => ((l5 m).1 hm).1) fun p hp hz => by
    rw [l2] at hp
    obtain ⟨z0, z1, z2⟩ := forall_vertices_tri (fun z => eval z p = 0) _
      (weighted_zero (fun d hd => by
        obtain ⟨n, _, rfl⟩ := List.mem_map.1 hd
        norm_num) hz)
    obtain ⟨c0, c1, c2, rfl⟩ := P_one hp
    obtain ⟨e1, e2, e3, e4, e5, e6⟩ := ref_tri
    simp only [map_add, map_mul, eval_C, eval_X, e1, e2, e3, e4, e5, e6] at z0 z1 z2
    have a0 : c0 = 0 := by linarith
    have a1 : c1 = 0 := by linarith
    have a2 : c2 = 0 := by linarith
    rw [a0, a1, a2]
    simp
  refine ⟨_, _, fs, ?_, k2, k3.trans l2⟩
  rw [kmvElement]
  show (kmvTriangle 1).bind _ = _
  rw [hk, Option.bind_some]
  exact k1

/-! ### Orders 2 and 3 on triangles -/

/-- `n` points with these coordinates are among the points. -/
def HasPoint (l : List WeightedDof) (x y : ℝ) : Prop := ∃ d ∈ l, d.point 0 = x ∧ d.point 1 = y

theorem HasPoint.eval {l : List WeightedDof} {x y : ℝ} (h : HasPoint l x y) {k : ℤ} {f : MvPolynomial ℕ ℝ} (hf : f ∈ P 2 k)
    (hz : ∀ d ∈ l, eval d.point f = 0) {z : ℕ → ℝ} (h0 : z 0 = x) (h1 : z 1 = y) : eval z f = 0 := by
  obtain ⟨d, hd, e0, e1⟩ := h
  exact eval_same hf (hz d hd) (h0.trans e0.symm) (h1.trans e1.symm)

theorem HasPoint.left {l l' : List WeightedDof} {x y : ℝ} (h : HasPoint l x y) : HasPoint (l ++ l') x y :=
  ⟨h.choose, List.mem_append_left _ h.choose_spec.1, h.choose_spec.2⟩

theorem HasPoint.right {l l' : List WeightedDof} {x y : ℝ} (h : HasPoint l' x y) : HasPoint (l ++ l') x y :=
  ⟨h.choose, List.mem_append_right _ h.choose_spec.1, h.choose_spec.2⟩

theorem hasPoint_vertices (w : ℝ) : HasPoint (kmvVertices .triangle w) 0 0 ∧ HasPoint (kmvVertices .triangle w) 1 0 ∧
    HasPoint (kmvVertices .triangle w) 0 1 := by
  obtain ⟨e1, e2, e3, e4, e5, e6⟩ := ref_tri
  exact ⟨⟨_, List.mem_map.2 ⟨0, by decide, rfl⟩, e1, e2⟩, ⟨_, List.mem_map.2 ⟨1, by decide, rfl⟩, e3, e4⟩,
    ⟨_, List.mem_map.2 ⟨2, by decide, rfl⟩, e5, e6⟩⟩

theorem tri_edges : (Cell.triangle.subEntities 1).getD [] = [[1, 2], [0, 2], [0, 1]] := by decide

theorem hasPoint_mid (w : ℝ) : HasPoint (kmvMid .triangle w) (1 / 2) (1 / 2) ∧ HasPoint (kmvMid .triangle w) 0 (1 / 2) ∧
    HasPoint (kmvMid .triangle w) (1 / 2) 0 := by
  obtain ⟨e1, e2, e3, e4, e5, e6⟩ := ref_tri
  simp only [kmvMid, tri_edges, HasPoint, List.zipIdx_cons, List.zipIdx_nil, List.map_cons, List.map_nil, List.mem_cons,
    List.not_mem_nil, or_false, exists_eq_or_imp, exists_eq_left, List.getD_cons_zero, List.getD_cons_succ, e1, e2, e3, e4,
    e5, e6]
  norm_num

theorem hasPoint_two (t w : ℝ) : (HasPoint (kmvTwo .triangle t w) (1 - t) t ∧ HasPoint (kmvTwo .triangle t w) t (1 - t)) ∧
    (HasPoint (kmvTwo .triangle t w) 0 t ∧ HasPoint (kmvTwo .triangle t w) 0 (1 - t)) ∧
    HasPoint (kmvTwo .triangle t w) t 0 ∧ HasPoint (kmvTwo .triangle t w) (1 - t) 0 := by
  obtain ⟨e1, e2, e3, e4, e5, e6⟩ := ref_tri
  simp only [kmvTwo, tri_edges, HasPoint, List.zipIdx_cons, List.zipIdx_nil, List.flatMap_cons, List.flatMap_nil,
    List.mem_append, List.mem_cons, List.append_nil,
    List.not_mem_nil, or_false, or_assoc, exists_eq_or_imp, exists_eq_left, List.getD_cons_zero, List.getD_cons_succ, e1, e2,
    e3, e4, e5, e6, List.cons_append, List.nil_append]
  refine ⟨⟨Or.inl ⟨by ring, by ring⟩, Or.inr (Or.inl ⟨by ring, by ring⟩)⟩, ⟨?_, ?_⟩, ?_, ?_⟩
  · exact Or.inr (Or.inr (Or.inl ⟨by ring, by ring⟩))
  · exact Or.inr (Or.inr (Or.inr (Or.inl ⟨by ring, by ring⟩)))
  · exact Or.inr (Or.inr (Or.inr (Or.inr (Or.inl ⟨by ring, by ring⟩))))
  · exact Or.inr (Or.inr (Or.inr (Or.inr (Or.inr ⟨by ring, by ring⟩))))

theorem hasPoint_three (t w : ℝ) (e : ℕ × ℕ) : HasPoint (kmvThree .triangle [0, 1, 2] t w e) t t ∧
    HasPoint (kmvThree .triangle [0, 1, 2] t w e) (1 - 2 * t) t ∧
    HasPoint (kmvThree .triangle [0, 1, 2] t w e) t (1 - 2 * t) := by
  obtain ⟨e1, e2, e3, e4, e5, e6⟩ := ref_tri
  simp only [kmvThree, HasPoint, List.map_cons, List.map_nil, List.mem_cons,
    List.not_mem_nil, or_false, exists_eq_or_imp, exists_eq_left, List.getD_cons_zero, List.getD_cons_succ, e1, e2,
    e3, e4, e5, e6]
  exact ⟨Or.inl ⟨by ring, by ring⟩, Or.inr (Or.inl ⟨by ring, by ring⟩), Or.inr (Or.inr ⟨by ring, by ring⟩)⟩

theorem triB_eq : triB = denoteMono ℝ [1, 1] - denoteMono ℝ [2, 1] - denoteMono ℝ [1, 2] := by
  simp only [triB, denoteMono, monoFrom]
  ring

theorem X0_triB : X 0 * triB = denoteMono ℝ [2, 1] - denoteMono ℝ [3, 1] - denoteMono ℝ [2, 2] := by
  simp only [triB, denoteMono, monoFrom]
  ring

theorem X1_triB : X 1 * triB = denoteMono ℝ [1, 2] - denoteMono ℝ [2, 2] - denoteMono ℝ [1, 3] := by
  simp only [triB, denoteMono, monoFrom]
  ring

theorem triB_mem : triB ∈ P 2 3 := by
  rw [triB_eq]
  refine Submodule.sub_mem _ (Submodule.sub_mem _ ?_ ?_) ?_ <;>
    exact denoteMono_mem rfl (by norm_num)

/-- Coefficients of monomials. -/
theorem coeff_mono {m m' : Mono} (h : m.length = m'.length) :
    coeff (expo 0 m) (denoteMono ℝ m') = if m' = m then 1 else 0 := by
  rw [coeff_denoteMono ℝ h.symm]

theorem coeff_low {m : Mono} {k : ℤ} (hk : k < m.sum) {f : MvPolynomial ℕ ℝ} (hf : f ∈ P 2 k) : coeff (expo 0 m) f = 0 := by
  by_contra h
  have := (mem_P.1 hf _ (mem_support_iff.2 h)).1
  rw [expo_degree] at this
  omega

/-- **C62** Order 2 on triangles: the space is that of degree 2 and the bubble function. -/
theorem kmv_triangle_two_created :
    CreatedIn (kmvElement .triangle 2) (P 2 2 ⊔ Submodule.span ℝ {triB}) := by
  obtain ⟨l, l1, l2⟩ := polySet_lspan (d := 2) (by simp) ((2 : ℕ) : ℤ)
  obtain ⟨l', l3, l4, l5⟩ := polySet_spec 2 (by simp) ((2 : ℕ) : ℤ)
  obtain rfl : l = l' := Option.some.inj (l1.symm.trans l3)
  set L : List WeightedDof := kmvVertices .triangle (1 / 40) ++ kmvMid .triangle (1 / 15) ++
    [⟨fun _ => 1 / 3, 9 / 40, (2, 0)⟩] with hL
  have hk : kmvTriangle 2 = some (L, l.map (denoteMono ℝ) ++ [triB]) := by
    rw [kmvTriangle, if_neg (by decide), if_pos rfl, kmvTriPolyset, l1]
    simp [List.range_succ, triB, hL]
  have hspan : lspan (l.map (denoteMono ℝ) ++ [triB]) = P 2 2 ⊔ Submodule.span ℝ {triB} := by
    rw [lspan_append, l2]
    congr 1
    simp [lspan]
  obtain ⟨hi, -⟩ := enrich_dual (keys := [()]) (f := fun _ => triB) (L := fun _ => lcoeff ℝ (expo 0 [2, 1])) (low := P 2 (2 : ℕ))
    (by simp) (by
      intro _ _
      simp only [lcoeff_apply, triB_eq, coeff_sub]
      rw [coeff_mono (m := [2, 1]) (m' := [1, 1]) rfl, coeff_mono (m := [2, 1]) (m' := [2, 1]) rfl, coeff_mono (m := [2, 1]) (m' := [1, 2]) rfl]
      simp) (by simp) (fun _ _ v hv => by rw [lcoeff_apply]; exact coeff_low (by simp) hv) l2.le
    (independent_monos ℝ l4 fun m hm => ((l5 m).1 hm).1)
  obtain ⟨k1, fs, k2, k3, -⟩ := ciarlet_basis (basis := l.map (denoteMono ℝ) ++ [triB])
    (dofs := L.map WeightedDof.functional)
    (by
      rw [List.length_map, List.length_append (as := List.map (denoteMono ℝ) l), List.length_map (as := l), polySet_length _ _ _ l1]
      simp [hL, kmvVertices, kmvMid, tri_edges, Cell.nverts]
      rfl)
    hi fun f hf hz => by
    rw [hspan] at hf
    obtain ⟨p, hp, w, hw, rfl⟩ := Submodule.mem_sup.1 hf
    obtain ⟨r, rfl⟩ := Submodule.mem_span_singleton.1 hw
    have hz' := weighted_zero (fun d hd => by
      simp only [hL, List.mem_append, kmvVertices, kmvMid, List.mem_map, List.mem_singleton] at hd
      rcases hd with (⟨_, _, rfl⟩ | ⟨_, _, rfl⟩) | rfl <;> norm_num) hz
    have e : p + r • triB = p + triB * C r := by rw [smul_eq_C_mul, mul_comm]
    rw [e] at hz' ⊢
    have hP : p + triB * C r ∈ P 2 3 := Submodule.add_mem _ (P_mono (by norm_num) hp)
      (by have := P_mul triB_mem (C_mem (d := 2) (k := 0) r le_rfl); exact this)
    obtain ⟨v0, v1, v2⟩ := hasPoint_vertices (1 / 40)
    obtain ⟨m0, m1, m2⟩ := hasPoint_mid (1 / 15)
    obtain ⟨g, hg, e2⟩ := tri_determined (m := 2) (k := 0) (S := {0, 1, 1 / 2}) (by norm_num) hp
      (C_mem r le_rfl) (by rw [Finset.card_eq_three.2 ⟨0, 1, 1 / 2, by norm_num, by norm_num, by norm_num, rfl⟩]; norm_num)
      (by
        intro t ht z z0 z1
        simp only [Finset.mem_insert, Finset.mem_singleton] at ht
        rcases ht with rfl | rfl | rfl
        · exact v0.left.left.eval hP hz' z0 z1
        · exact v2.left.left.eval hP hz' z0 z1
        · exact m1.right.left.eval hP hz' z0 z1)
      (by
        intro t ht z z0 z1
        simp only [Finset.mem_insert, Finset.mem_singleton] at ht
        rcases ht with rfl | rfl | rfl
        · exact v0.left.left.eval hP hz' z0 z1
        · exact v1.left.left.eval hP hz' z0 z1
        · exact m2.right.left.eval hP hz' z0 z1)
      (by
        intro t ht z z0 z1
        simp only [Finset.mem_insert, Finset.mem_singleton] at ht
        rcases ht with rfl | rfl | rfl
        · exact v1.left.left.eval hP hz' (by rw [z0]; norm_num) z1
        · exact v2.left.left.eval hP hz' (by rw [z0]; norm_num) z1
        · exact m0.right.left.eval hP hz' (by rw [z0]; norm_num) z1)
    have hc := hz' ⟨fun _ => 1 / 3, 9 / 40, (2, 0)⟩ (List.mem_append_right _ (List.mem_singleton.2 rfl))
    rw [e2, map_mul, eval_triB] at hc
    have hg0 : eval (fun _ => 1 / 3) g = 0 := by
      rcases mul_eq_zero.1 hc with h | h
      · norm_num at h
      · exact h
    obtain ⟨c, rfl⟩ : ∃ c, g = C c := ⟨_, totalDegree_eq_zero_iff_eq_C.1 (by
      by_cases h0 : g = 0
      · rw [h0]; simp
      · have := (mem_P_iff.1 hg).1 h0; omega)⟩
    rw [eval_C] at hg0
    rw [e2, hg0, C_0, mul_zero]
  refine ⟨_, _, fs, ?_, k2, k3.trans hspan⟩
  rw [kmvElement]
  show (kmvTriangle 2).bind _ = _
  rw [hk, Option.bind_some]
  exact k1

/-- **C62** Order 3 on triangles: the space is that of degree 3 and the bubble function times linear functions.  (The
points and weights are not those of a quadrature rule.) -/
theorem kmv_triangle_three_created :
    CreatedIn (kmvElement .triangle 3) (P 2 3 ⊔ Submodule.span ℝ {X 1 * triB, X 0 * triB}) := by
  obtain ⟨l, l1, l2⟩ := polySet_lspan (d := 2) (by simp) ((3 : ℕ) : ℤ)
  obtain ⟨l', l3, l4, l5⟩ := polySet_spec 2 (by simp) ((3 : ℕ) : ℤ)
  obtain rfl : l = l' := Option.some.inj (l1.symm.trans l3)
  have s7 : √(7 : ℝ) ^ 2 = 7 := Real.sq_sqrt (by norm_num)
  have p7 : 0 < √(7 : ℝ) := Real.sqrt_pos.2 (by norm_num)
  set al : ℝ := 1 / 2 - √(411 - 84 * (7 - √7)) / 42 with hal
  set be : ℝ := (1 - 1 / √7) / 3 with hbe
  have l7 : 2.6 < √(7 : ℝ) := by nlinarith
  have u7 : √(7 : ℝ) < 2.7 := by nlinarith
  have hr0 : 0 < 411 - 84 * (7 - √(7 : ℝ)) := by linarith
  set r : ℝ := √(411 - 84 * (7 - √7)) with hr
  have rp : 0 < r := Real.sqrt_pos.2 hr0
  have r2 : r ^ 2 = 411 - 84 * (7 - √7) := Real.sq_sqrt hr0.le
  have ru : r < 21 := by nlinarith
  have a0 : 0 < al := by rw [hal]; linarith
  have a1 : al < 1 / 2 := by rw [hal]; linarith
  have b0 : 1 - 3 * be = 1 / √7 := by rw [hbe]; ring
  have b1 : 0 < 1 / √(7 : ℝ) := by positivity
  have b2 : 1 / √(7 : ℝ) < 1 := by rw [div_lt_one p7]; linarith
  set L : List WeightedDof := kmvVertices .triangle (1 / 90 - √7 / 720) ++ kmvTwo .triangle al (7 / 720 - √7 / 180) ++
    kmvThree .triangle [0, 1, 2] be (49 / 360 - 7 * √7 / 720) (2, 0) with hL
  have hk : kmvTriangle 3 = some (L, l.map (denoteMono ℝ) ++ [X 1 * triB, X 0 * triB]) := by
    rw [kmvTriangle, if_neg (by decide), if_neg (by decide), if_pos rfl, kmvTriPolyset, l1]
    simp [List.range_succ, triB, hL, hal, hbe, hr]
  have hspan : lspan (l.map (denoteMono ℝ) ++ [X 1 * triB, X 0 * triB]) =
      P 2 3 ⊔ Submodule.span ℝ {X 1 * triB, X 0 * triB} := by
    rw [lspan_append, l2]
    congr 1
    rw [lspan]
    congr 1
    ext v
    simp
  obtain ⟨hi, -⟩ := enrich_dual (keys := [false, true]) (f := fun i : Bool => if i then X 0 * triB else X 1 * triB)
    (L := fun i : Bool => lcoeff ℝ (expo 0 (if i then [3, 1] else [1, 3]))) (low := P 2 (3 : ℕ))
    (by simp) (by
      intro i _
      cases i
      · simp only [lcoeff_apply, X1_triB, coeff_sub, if_false, Bool.false_eq_true]
        rw [coeff_mono (m := [1, 3]) (m' := [1, 2]) rfl, coeff_mono (m := [1, 3]) (m' := [2, 2]) rfl, coeff_mono (m := [1, 3]) (m' := [1, 3]) rfl]
        simp
      · simp only [lcoeff_apply, X0_triB, coeff_sub, if_true]
        rw [coeff_mono (m := [3, 1]) (m' := [2, 1]) rfl, coeff_mono (m := [3, 1]) (m' := [3, 1]) rfl, coeff_mono (m := [3, 1]) (m' := [2, 2]) rfl]
        simp) (by
      intro i _ j _ hij
      cases i <;> cases j
      · exact absurd rfl hij
      · simp only [lcoeff_apply, X0_triB, coeff_sub, if_false, Bool.false_eq_true, if_true]
        rw [coeff_mono (m := [1, 3]) (m' := [2, 1]) rfl, coeff_mono (m := [1, 3]) (m' := [3, 1]) rfl, coeff_mono (m := [1, 3]) (m' := [2, 2]) rfl]
        simp
      · simp only [lcoeff_apply, X1_triB, coeff_sub, if_false, Bool.false_eq_true, if_true]
        rw [coeff_mono (m := [3, 1]) (m' := [1, 2]) rfl, coeff_mono (m := [3, 1]) (m' := [2, 2]) rfl, coeff_mono (m := [3, 1]) (m' := [1, 3]) rfl]
        simp
      · exact absurd rfl hij) (fun i _ v hv => by rw [lcoeff_apply]; cases i <;> exact coeff_low (by simp) hv) l2.le
    (independent_monos ℝ l4 fun m hm => ((l5 m).1 hm).1)
  have hi' : Independent ℝ (l.map (denoteMono ℝ) ++ [X 1 * triB, X 0 * triB]) := by simpa using hi
  obtain ⟨k1, fs, k2, k3, -⟩ := ciarlet_basis (basis := l.map (denoteMono ℝ) ++ [X 1 * triB, X 0 * triB])
    (dofs := L.map WeightedDof.functional)
    (by
      rw [List.length_map, List.length_append (as := List.map (denoteMono ℝ) l), List.length_map (as := l), polySet_length _ _ _ l1]
      simp [hL, kmvVertices, kmvTwo, kmvThree, tri_edges, Cell.nverts]
      rfl)
    hi' fun f hf hz => by
    rw [hspan] at hf
    obtain ⟨p, hp, w, hw, rfl⟩ := Submodule.mem_sup.1 hf
    obtain ⟨r1, r2', rfl⟩ := Submodule.mem_span_pair.1 hw
    have hz' := weighted_zero (fun d hd => by
      simp only [hL, List.mem_append, kmvVertices, kmvTwo, kmvThree, List.mem_map, List.mem_flatMap, List.mem_cons,
        List.not_mem_nil, or_false] at hd
      rcases hd with (⟨_, _, rfl⟩ | ⟨_, _, rfl | rfl⟩) | ⟨_, _, rfl⟩
      · show 1 / 90 - √7 / 720 ≠ 0
        intro h; linarith
      · show 7 / 720 - √7 / 180 ≠ 0
        intro h; linarith
      · show 7 / 720 - √7 / 180 ≠ 0
        intro h; linarith
      · show 49 / 360 - 7 * √7 / 720 ≠ 0
        intro h; linarith) hz
    have e : p + (r1 • (X 1 * triB) + r2' • (X 0 * triB)) = p + triB * (C r1 * X 1 + C r2' * X 0) := by
      rw [smul_eq_C_mul, smul_eq_C_mul]; ring
    rw [e] at hz' ⊢
    have hq : C r1 * X 1 + C r2' * X 0 ∈ P 2 1 := Submodule.add_mem _
      (by have := P_mul (C_mem (d := 2) (k := 0) r1 le_rfl) (X_mem (d := 2) (i := 1) (by norm_num)); exact this)
      (by have := P_mul (C_mem (d := 2) (k := 0) r2' le_rfl) (X_mem (d := 2) (i := 0) (by norm_num)); exact this)
    have hP : p + triB * (C r1 * X 1 + C r2' * X 0) ∈ P 2 4 := Submodule.add_mem _ (P_mono (by norm_num) hp)
      (by have := P_mul triB_mem hq; exact this)
    obtain ⟨v0, v1, v2⟩ := hasPoint_vertices (1 / 90 - √7 / 720)
    obtain ⟨⟨m0, m0'⟩, ⟨m1, m1'⟩, m2, m2'⟩ := hasPoint_two al (7 / 720 - √7 / 180)
    obtain ⟨t0, t1, t2⟩ := hasPoint_three be (49 / 360 - 7 * √7 / 720) (2, 0)
    have hcard : ({0, 1, al, 1 - al} : Finset ℝ).card = 4 := by
      rw [Finset.card_insert_of_notMem, Finset.card_insert_of_notMem, Finset.card_insert_of_notMem, Finset.card_singleton]
      · rw [Finset.mem_singleton]; intro h; linarith
      · simp only [Finset.mem_insert, Finset.mem_singleton, not_or]
        exact ⟨fun h => by linarith, fun h => by linarith⟩
      · simp only [Finset.mem_insert, Finset.mem_singleton, not_or]
        exact ⟨by norm_num, fun h => by linarith, fun h => by linarith⟩
    obtain ⟨g, hg, e2⟩ := tri_determined (m := 3) (k := 1) (S := {0, 1, al, 1 - al}) (by norm_num) hp hq
      (by rw [hcard]; norm_num)
      (by
        intro t ht z z0 z1
        simp only [Finset.mem_insert, Finset.mem_singleton] at ht
        rcases ht with rfl | rfl | rfl | rfl
        · exact v0.left.left.eval hP hz' z0 z1
        · exact v2.left.left.eval hP hz' z0 z1
        · exact m1.right.left.eval hP hz' z0 z1
        · exact m1'.right.left.eval hP hz' z0 z1)
      (by
        intro t ht z z0 z1
        simp only [Finset.mem_insert, Finset.mem_singleton] at ht
        rcases ht with rfl | rfl | rfl | rfl
        · exact v0.left.left.eval hP hz' z0 z1
        · exact v1.left.left.eval hP hz' z0 z1
        · exact m2.right.left.eval hP hz' z0 z1
        · exact m2'.right.left.eval hP hz' z0 z1)
      (by
        intro t ht z z0 z1
        simp only [Finset.mem_insert, Finset.mem_singleton] at ht
        rcases ht with rfl | rfl | rfl | rfl
        · exact v1.left.left.eval hP hz' (by rw [z0]; norm_num) z1
        · exact v2.left.left.eval hP hz' (by rw [z0]; norm_num) z1
        · exact m0.right.left.eval hP hz' z0 z1
        · exact m0'.right.left.eval hP hz' (by rw [z0]; ring) z1)
    obtain ⟨c0, c1, c2, rfl⟩ := P_one hg
    rw [e2] at hz'
    have hP' : triB * (C c0 + C c1 * X 0 + C c2 * X 1) ∈ P 2 4 := e2 ▸ hP
    have key : ∀ x y : ℝ, x * y * (1 - x - y) ≠ 0 → HasPoint L x y → c0 + c1 * x + c2 * y = 0 := by
      intro x y hne h
      have := h.eval hP' hz' (z := fun i => if i = 0 then x else y) (by simp) (by simp)
      rw [map_mul, eval_triB] at this
      simp only [map_add, map_mul, eval_C, eval_X, if_pos, one_ne_zero, if_false] at this
      exact (mul_eq_zero.1 this).resolve_left hne
    have hb0 : be ≠ 0 := fun h => by rw [h] at b0; linarith
    have hb2 : 1 - 2 * be ≠ 0 := fun h => by linarith
    have q0 := key be be (mul_ne_zero (mul_ne_zero hb0 hb0) (fun h => hb2 (by linarith))) t0.right
    have q1 := key (1 - 2 * be) be (mul_ne_zero (mul_ne_zero hb2 hb0) (fun h => hb0 (by linarith))) t1.right
    have q2 := key be (1 - 2 * be) (mul_ne_zero (mul_ne_zero hb0 hb2) (fun h => hb0 (by linarith))) t2.right
    have hne : (1 - 3 * be) ≠ 0 := by rw [b0]; exact b1.ne'
    have c10 : c1 = 0 := by
      have : c1 * (1 - 3 * be) = 0 := by linarith
      exact (mul_eq_zero.1 this).resolve_right hne
    have c20 : c2 = 0 := by
      have : c2 * (1 - 3 * be) = 0 := by linarith
      exact (mul_eq_zero.1 this).resolve_right hne
    have c00 : c0 = 0 := by rw [c10, c20] at q0; linarith
    rw [e2, c00, c10, c20]
    simp
  refine ⟨_, _, fs, ?_, k2, k3.trans hspan⟩
  rw [kmvElement]
  show (kmvTriangle 3).bind _ = _
  rw [hk, Option.bind_some]
  exact k1

/-- **C62** Order 1 on tetrahedra. -/
theorem kmv_tetrahedron_one_created : CreatedIn (kmvElement .tetrahedron 1) (P 3 1) := by
  obtain ⟨l, l1, l2⟩ := polySet_lspan (d := 3) (by simp) ((1 : ℕ) : ℤ)
  obtain ⟨l', l3, l4, l5⟩ := polySet_spec 3 (by simp) ((1 : ℕ) : ℤ)
  obtain rfl : l = l' := Option.some.inj (l1.symm.trans l3)
  have hk : kmvTetrahedron 1 = some (kmvVertices .tetrahedron (1 / 24), l.map (denoteMono ℝ)) := by
    rw [kmvTetrahedron, if_pos rfl, kmvTetPolyset, l1]
    simp
  obtain ⟨k1, fs, k2, k3, -⟩ := ciarlet_basis (basis := l.map (denoteMono ℝ))
    (dofs := (kmvVertices .tetrahedron (1 / 24)).map WeightedDof.functional)
    (by rw [List.length_map, List.length_map, polySet_length _ _ _ l1]; simp [kmvVertices, Cell.nverts])
    (independent_monos ℝ l4 fun m hm => ((l5 m).1 hm).1) fun p hp hz => by
    rw [l2] at hp
    have hz' := weighted_zero (fun d hd => by
        obtain ⟨n, _, rfl⟩ := List.mem_map.1 hd
        norm_num) hz
    have hv : ∀ i < 4, eval (refVertex .tetrahedron i) p = 0 := fun i hi =>
      hz' ⟨refVertex .tetrahedron i, 1 / 24, (0, i)⟩ (List.mem_map.2 ⟨i, List.mem_range.2 hi, rfl⟩)
    obtain ⟨L, hL, -⟩ := lagrange_count (c := .tetrahedron) (Or.inr (Or.inr rfl)) (refVertex .tetrahedron) 1
    refine lagrange_determined (c := .tetrahedron) (Or.inr (Or.inr rfl)) _ (nonDegenerate_ref (Or.inr (Or.inr rfl))) hL hp
      fun d hd => ?_
    obtain ⟨β, b1, -, b3⟩ := lagrange_lattice (c := .tetrahedron) (Or.inr (Or.inr rfl)) _ one_pos hL hd
    have : ∃ i ∈ Finset.range 4, β i ≠ 0 := Finset.exists_ne_zero_of_sum_ne_zero (f := β) (by
      show ∑ i ∈ Finset.range Cell.tetrahedron.nverts, β i ≠ 0
      rw [b1]; exact one_ne_zero)
    obtain ⟨i, hi, hne⟩ := this
    have hsum := Finset.add_sum_erase (Finset.range 4) β hi
    rw [show ∑ i ∈ Finset.range 4, β i = 1 from b1] at hsum
    have hz0 : ∑ x ∈ (Finset.range 4).erase i, β x = 0 := by omega
    have e : d.point = refVertex .tetrahedron i := by
      rw [b3]
      funext j
      show ∑ x ∈ Finset.range 4, _ = _
      rw [Finset.sum_eq_single_of_mem i hi fun x hx hxi => by
        rw [Finset.sum_eq_zero_iff.1 hz0 x (Finset.mem_erase.2 ⟨hxi, hx⟩)]; simp, show β i = 1 by omega]
      simp
    rw [e]
    exact hv i (Finset.mem_range.1 hi)
  refine ⟨_, _, fs, ?_, k2, k3.trans l2⟩
  rw [kmvElement]
  show (kmvTetrahedron 1).bind _ = _
  rw [hk, Option.bind_some]
  exact k1

end Verif.Families
