import Verif.Dual.Geometry
import Verif.Families.Sub
import Mathlib.Topology.LocallyFinite
import Mathlib.Topology.Algebra.Order.Field

/-!
# The scalar elements on dual polygons (C64)
-/

namespace Verif.Dual

open MvPolynomial Verif.References Verif.Elements Verif.Families Verif.FiniteElement Verif.Functions Verif.Geometry Verif.Polysets

/-! ### Spec -/

/-- The values at the vertices of the polygon that define the function number `j`: 1 at its own vertex `2 j` and one half
at the neighbours `2 j - 1` and `2 j + 1` (counted cyclically). -/
noncomputable def nodal (n j k : ℕ) : ℝ :=
  if k = 2 * j then 1 else if k = 2 * j + 1 ∨ (k + 1) % (2 * n) = 2 * j then 1 / 2 else 0

/-- The points of the triangle between the origin and the vertices number `i` and `i + 1`. -/
def Triangle (n i : ℕ) : Set (Fin 2 → ℝ) :=
  {p | ∃ t1 t2 : ℝ, 0 ≤ t1 ∧ 0 ≤ t2 ∧ t1 + t2 ≤ 1 ∧ p = fun r => comb n i t1 t2 r.val}

/-- The points of the polygon. -/
def Polygon (n : ℕ) : Set (Fin 2 → ℝ) := {p | ∃ i < 2 * n, p ∈ Triangle n i}

/-! ### Coefficients -/

theorem dualRow_eq {n j i : ℕ} (hn : 2 ≤ n) (hj : j < n) (hi : i < 2 * n) :
    dualRow n j i 0 = 1 / n ∧ dualRow n j i 1 = nodal n j i ∧ dualRow n j i 2 = nodal n j ((i + 1) % (2 * n)) := by
  have p0 : pyIndex (2 * n) (2 * j) = 2 * j := by rw [pyIndex]; split_ifs <;> omega
  have p1 : pyIndex (2 * n) (2 * j + 1) = 2 * j + 1 := by rw [pyIndex]; split_ifs <;> omega
  have p2 : ∀ a, a < 2 * n → (a = pyIndex (2 * n) (2 * j - 1) ↔ (a + 1) % (2 * n) = 2 * j) := by
    intro a ha
    rw [pyIndex]
    rcases Nat.eq_or_lt_of_le (Nat.succ_le_of_lt ha) with h | h
    · rw [Nat.succ_eq_add_one] at h
      rw [h, Nat.mod_self]
      split_ifs <;> omega
    · rw [Nat.mod_eq_of_lt h]
      split_ifs <;> omega
  have p3 : ∀ a, a < 2 * n → (a = pyIndex (2 * n) (2 * j - 2) ↔ (a + 2) % (2 * n) = 2 * j) := by
    intro a ha
    rw [pyIndex]
    rcases Nat.lt_or_ge (a + 2) (2 * n) with h | h
    · rw [Nat.mod_eq_of_lt h]
      split_ifs <;> omega
    · rw [Nat.mod_eq_sub_mod h, Nat.mod_eq_of_lt (by omega)]
      split_ifs <;> omega
  refine ⟨by simp [dualRow, setAt], ?_, ?_⟩
  · simp only [dualRow, setAt, nodal, p0, p1, p2 i hi]
    simp only [and_true, OfNat.one_ne_ofNat, and_false, if_false, one_ne_zero]
    by_cases h1 : i = 2 * j + 1
    · rw [if_pos h1, if_neg (by omega), if_pos (Or.inl h1)]
    · by_cases h2 : i = 2 * j
      · have h3 : ¬ (i + 1) % (2 * n) = 2 * j := by rw [Nat.mod_eq_of_lt (by omega)]; omega
        rw [if_neg h1, if_neg h3, if_pos h2, if_pos h2]
      · simp [h1, h2]
  · have e : ((i + 1) % (2 * n) + 1) % (2 * n) = (i + 2) % (2 * n) := by rw [Nat.mod_add_mod]
    have e2 : (i + 1) % (2 * n) = 2 * j + 1 ↔ i = 2 * j := by
      rcases Nat.eq_or_lt_of_le (Nat.succ_le_of_lt hi) with h | h
      · rw [Nat.succ_eq_add_one] at h
        rw [h, Nat.mod_self]; omega
      · rw [Nat.mod_eq_of_lt h]; omega
    simp only [dualRow, setAt, nodal, p0, p1, p2 i hi, p3 i hi, e, e2]
    simp only [and_true, OfNat.ofNat_ne_one, and_false, if_false, OfNat.ofNat_ne_zero]
    by_cases h1 : i = 2 * j
    · have : ¬ (i + 1) % (2 * n) = 2 * j := by rw [Nat.mod_eq_of_lt (by omega)]; omega
      simp only [h1] at this ⊢
      simp [this]
    · by_cases h2 : (i + 2) % (2 * n) = 2 * j
      · have : ¬ (i + 1) % (2 * n) = 2 * j := by
          intro h3
          rcases Nat.lt_or_ge (i + 2) (2 * n) with h | h
          · rw [Nat.mod_eq_of_lt h] at h2; rw [Nat.mod_eq_of_lt (by omega)] at h3; omega
          · rw [Nat.mod_eq_sub_mod h, Nat.mod_eq_of_lt (by omega)] at h2
            rcases Nat.eq_or_lt_of_le (Nat.succ_le_of_lt hi) with h' | h'
            · rw [Nat.succ_eq_add_one] at h'
              rw [h', Nat.mod_self] at h3; omega
            · rw [Nat.mod_eq_of_lt h'] at h3; omega
        simp [h1, h2, this]
      · simp [h1, h2]

/-- The values at each vertex sum to 1. -/
theorem nodal_sum {n k : ℕ} (hn : 2 ≤ n) (hk : k < 2 * n) : ∑ j ∈ Finset.range n, nodal n j k = 1 := by
  rcases Nat.even_or_odd' k with ⟨q, rfl | rfl⟩
  · have : ∀ j ∈ Finset.range n, nodal n j (2 * q) = if j = q then 1 else 0 := by
      intro j hj
      rw [Finset.mem_range] at hj
      rw [nodal, Nat.mod_eq_of_lt (by omega)]
      split_ifs <;> first | rfl | omega
    rw [Finset.sum_congr rfl this, Finset.sum_ite_eq' , if_pos (by rw [Finset.mem_range]; omega)]
  · have : ∀ j ∈ Finset.range n, nodal n j (2 * q + 1) =
        (if j = q then 1 / 2 else 0) + if j = (q + 1) % n then 1 / 2 else 0 := by
      intro j hj
      rw [Finset.mem_range] at hj
      have e : (2 * q + 1 + 1) % (2 * n) = 2 * ((q + 1) % n) := by
        rw [show 2 * q + 1 + 1 = 2 * (q + 1) by ring, Nat.mul_mod_mul_left]
      have hne : q ≠ (q + 1) % n := by
        rcases Nat.lt_or_ge (q + 1) n with h | h
        · rw [Nat.mod_eq_of_lt h]; omega
        · rw [show q + 1 = n by omega, Nat.mod_self]; omega
      rw [nodal, e]
      by_cases h1 : j = q
      · subst h1
        rw [if_neg (by omega), if_pos (Or.inl rfl), if_pos rfl, if_neg hne, add_zero]
      · rw [if_neg (by omega), if_neg h1, zero_add]
        by_cases h2 : j = (q + 1) % n
        · rw [if_pos (Or.inr (by omega)), if_pos h2]
        · rw [if_neg (by omega), if_neg h2]
    rw [Finset.sum_congr rfl this, Finset.sum_add_distrib, Finset.sum_ite_eq', Finset.sum_ite_eq',
      if_pos (by rw [Finset.mem_range]; omega), if_pos (by rw [Finset.mem_range]; exact Nat.mod_lt _ (by omega))]
    norm_num

/-! ### The fine space -/

/-- A Lagrange element of order 1 on a triangle: the barycentric coordinates. -/
theorem lagrange_one : (lagrangeElement "equispaced" .triangle (refVertex .triangle) 1).bind getBasis =
    some [1 - X 0 - X 1, X 0, X 1] := by
  have hs : Simplex .triangle := Or.inr (Or.inl rfl)
  obtain ⟨points, -, hl⟩ := lagrangeDofs_equispaced hs.fixed (refVertex .triangle) (k := 1) one_pos
  have hall : allPoints .triangle (refVertex .triangle) points 1 (fun _ i => decide (i.sum < 1)) =
      onVertices .triangle (refVertex .triangle) := by
    simp [allPoints, show List.range' 1 3 = [1, 2, 3] from rfl, entityList, innerRange, product]
  rw [hall] at hl
  obtain ⟨e, he, hb⟩ := lagrange_created hs _ (nonDegenerate_ref hs) 1
  obtain ⟨fs, hfs⟩ := Option.isSome_iff_exists.1 hb
  obtain ⟨poly, hp, hsp⟩ := polySet_lspan (simplex_dims hs) ((1 : ℕ) : ℤ)
  have hlen : ((onVertices .triangle (refVertex .triangle)).map PointDof.functional).length =
      (poly.map (denoteMono ℝ)).length := by
    rw [List.length_map, List.length_map, polySet_length _ _ _ hp]; rfl
  have he' : e = .ciarlet (poly.map (denoteMono ℝ)) ((onVertices .triangle (refVertex .triangle)).map PointDof.functional) := by
    simp only [lagrangeElement, hl, hp, Option.bind_some, ciarlet, if_pos hlen] at he
    exact (Option.some.inj he).symm
  subst he'
  obtain ⟨n1, n2⟩ := getBasis_ciarlet_dual _ _ _ hfs
  have n3 := getBasis_ciarlet_span _ _ _ hfs
  rw [he, Option.bind_some, hfs]
  congr 1
  have hv : ∀ j : ℕ, j < 3 → ((onVertices .triangle (refVertex .triangle)).map PointDof.functional)[j]? =
      some (PointDof.functional ⟨refVertex .triangle j, (0, j)⟩) := by
    intro j hj
    rw [List.getElem?_map, onVertices, List.getElem?_map, List.getElem?_range (by exact hj)]
    rfl
  have hr : ∀ (z : ℕ → ℝ), z = refVertex .triangle 0 → z 0 = 0 ∧ z 1 = 0 := by
    rintro z rfl; simp [refVertex, refVerts, coords]
  have r00 : refVertex (K := ℝ) .triangle 0 0 = 0 := by simp [refVertex, refVerts, coords]
  have r01 : refVertex (K := ℝ) .triangle 0 1 = 0 := by simp [refVertex, refVerts, coords]
  have r10 : refVertex (K := ℝ) .triangle 1 0 = 1 := by simp [refVertex, refVerts, coords]
  have r11 : refVertex (K := ℝ) .triangle 1 1 = 0 := by simp [refVertex, refVerts, coords]
  have r20 : refVertex (K := ℝ) .triangle 2 0 = 0 := by simp [refVertex, refVerts, coords]
  have r21 : refVertex (K := ℝ) .triangle 2 1 = 1 := by simp [refVertex, refVerts, coords]
  have key : ∀ (i : ℕ) (q : MvPolynomial ℕ ℝ), i < 3 → q ∈ P 2 1 →
      (∀ j < 3, eval (refVertex .triangle j) q = if i = j then 1 else 0) → fs[i]? = some q := by
    intro i q hi hq hqv
    have hlt : i < fs.length := by rw [n1]; exact hi
    have hf : fs[i]? = some fs[i] := List.getElem?_eq_getElem hlt
    rw [hf]
    congr 1
    have hm : fs[i] ∈ P 2 1 := by
      have : fs[i] ∈ lspan fs := Submodule.subset_span (List.getElem_mem hlt)
      rw [lspan] at this
      have h2 : Submodule.span ℝ {f | f ∈ fs} = lspan (poly.map (denoteMono ℝ)) := n3
      rw [h2, hsp] at this
      exact this
    have := lagrange_determined hs _ (nonDegenerate_ref hs) hl (p := fs[i] - q) (Submodule.sub_mem _ hm hq) fun d hd => by
      obtain ⟨j, hj, rfl⟩ := List.mem_map.1 hd
      rw [List.mem_range] at hj
      have := n2 i j _ _ hf (hv j hj)
      rw [eval_functional] at this
      rw [map_sub, this, hqv j hj, sub_self]
    exact sub_eq_zero.1 this
  have x0 : (X 0 : MvPolynomial ℕ ℝ) ∈ P 2 1 := X_mem (by norm_num)
  have x1 : (X 1 : MvPolynomial ℕ ℝ) ∈ P 2 1 := X_mem (by norm_num)
  have k0 := key 0 (1 - X 0 - X 1) (by norm_num) (Submodule.sub_mem _ (Submodule.sub_mem _ (C_mem 1 (by norm_num)) x0) x1)
    (by intro j hj; interval_cases j <;> simp [r00, r01, r10, r11, r20, r21])
  have k1 := key 1 (X 0) (by norm_num) x0 (by intro j hj; interval_cases j <;> simp [r00, r01, r10, r11, r20, r21])
  have k2 := key 2 (X 1) (by norm_num) x1 (by intro j hj; interval_cases j <;> simp [r00, r01, r10, r11, r20, r21])
  have hl3 : fs.length = 3 := n1
  match fs, hl3, k0, k1, k2 with
  | [a, b, c], _, k0, k1, k2 =>
    simp only [List.getElem?_cons_zero, List.getElem?_cons_succ, Option.some.injEq] at k0 k1 k2
    rw [k0, k1, k2]

/-- A Lagrange element of order 0 on a triangle. -/
theorem lagrange_zero {t : Cell} (hs : Simplex t) :
    (lagrangeElement "equispaced" t (refVertex t) 0).bind getBasis = some [1] := by
  obtain ⟨l, hl, hn⟩ := lagrange_count hs (refVertex t) 0
  obtain ⟨e, he, hb⟩ := lagrange_created hs _ (nonDegenerate_ref hs) 0
  obtain ⟨fs, hfs⟩ := Option.isSome_iff_exists.1 hb
  obtain ⟨poly, hp, hsp⟩ := polySet_lspan (simplex_dims hs) ((0 : ℕ) : ℤ)
  have hlen : (l.map PointDof.functional).length = (poly.map (denoteMono ℝ)).length := by
    rw [List.length_map, List.length_map, polySet_length _ _ _ hp, hn]
  have he' : e = .ciarlet (poly.map (denoteMono ℝ)) (l.map PointDof.functional) := by
    simp only [lagrangeElement, hl, hp, Option.bind_some, ciarlet, if_pos hlen] at he
    exact (Option.some.inj he).symm
  subst he'
  obtain ⟨n1, n2⟩ := getBasis_ciarlet_dual _ _ _ hfs
  have n3 : lspan fs = lspan (poly.map (denoteMono ℝ)) := getBasis_ciarlet_span _ _ _ hfs
  rw [he, Option.bind_some, hfs]
  congr 1
  have hl1 : l.length = 1 := by rw [hn]; simp
  have hf1 : fs.length = 1 := by rw [n1, List.length_map, hl1]
  obtain ⟨d, rfl⟩ := List.length_eq_one_iff.1 hl1
  obtain ⟨f, rfl⟩ := List.length_eq_one_iff.1 hf1
  have hm : f ∈ P t.tdim 0 := by
    have : f ∈ lspan [f] := Submodule.subset_span (by simp)
    rw [n3, hsp] at this
    exact this
  have hd := n2 0 0 f d.functional rfl rfl
  rw [eval_functional, if_pos rfl] at hd
  obtain ⟨r, rfl⟩ : ∃ r, f = C r := ⟨_, totalDegree_eq_zero_iff_eq_C.1 (by
    by_cases h0 : f = 0
    · rw [h0]; simp
    · have := (mem_P_iff.1 hm).1 h0; omega)⟩
  rw [eval_C] at hd
  rw [hd, C_1]

/-! ### Values -/

theorem tri_apply (n i r : ℕ) : tri n i 0 r = 0 ∧ tri n i 1 r = dualVertex n i r ∧
    tri n i 2 r = dualVertex n ((i + 1) % (2 * n)) r := ⟨rfl, rfl, rfl⟩

/-- The Jacobian of the map from the reference triangle to the triangle number `i`. -/
noncomputable def triMat (n i : ℕ) : Matrix (Fin 2) (Fin 2) ℝ :=
  mat2 (psub (tri n i 1) (tri n i 0)) (psub (tri n i 2) (tri n i 0))

theorem triMat_det {n : ℕ} (hn : 3 ≤ n) {i : ℕ} (hi : i < 2 * n) : 0 < (triMat n i).det := by
  have := cross_pos hn hi
  rw [triMat, mat2, Matrix.det_fin_two_of]
  simp only [psub, tri_apply, sub_zero]
  linarith

/-- The inverse map recovers the barycentric coordinates. -/
theorem inv_tri {n : ℕ} (hn : 3 ≤ n) {i : ℕ} (hi : i < 2 * n) :
    ∃ F, invMapTo .triangle 2 (tri n i) = some F ∧
      ∀ (x : ℕ → ℝ) (s1 s2 : ℝ), (∀ r < 2, x r = comb n i s1 s2 r) → F x = [s1, s2] := by
  have hd := (triMat_det hn hi).ne'
  refine ⟨_, by rw [invMapTo, if_pos rfl, solve2]; exact if_neg hd, fun x s1 s2 hx => ?_⟩
  refine solve2_unique (M := triMat n i) (v0 := tri n i 0) (by rw [solve2]; exact if_neg hd) x s1 s2 ?_ ?_
  · rw [hx 0 (by omega)]
    simp [triMat, mat2, psub, tri_apply, comb, mul_comm]
  · rw [hx 1 (by omega)]
    simp [triMat, mat2, psub, tri_apply, comb, mul_comm]

/-- The pieces. -/
noncomputable def cells {α : Type} (n : ℕ) (g : ℕ → α) : List (SubCell ℝ 2 × α) :=
  (List.range (2 * n)).map fun i => (⟨3, ![fun r => tri n i 0 r.val, fun r => tri n i 1 r.val, fun r => tri n i 2 r.val]⟩, g i)

theorem piecewise_cells {α : Type} (n : ℕ) (g : ℕ → α) :
    piecewise (cells n g) = ⟨2, (List.range (2 * n)).map fun i => (triCell n i, g i)⟩ := by
  rw [piecewise, cells, List.map_map]
  congr 1

theorem cells_proper {α : Type} {n : ℕ} (hn : 3 ≤ n) (g : ℕ → α) : ∀ s ∈ cells n g, Proper 2 s.1.v := by
  intro s hs
  obtain ⟨i, hi, rfl⟩ := List.mem_map.1 hs
  rw [List.mem_range] at hi
  refine Proper.triangle _ _ _ ?_
  have := cross_pos hn hi
  simp only [area2, tri_apply, sub_zero]
  simp only [Fin.val_zero, Fin.val_one]
  intro h
  linarith

theorem inHull_tri (n i : ℕ) (p : Fin 2 → ℝ) :
    InHull p ![fun r => tri n i 0 r.val, fun r => tri n i 1 r.val, fun r => tri n i 2 r.val] ↔ p ∈ Triangle n i := by
  constructor
  · rintro ⟨lam, h0, h1, h2⟩
    rw [Fin.sum_univ_three] at h1
    refine ⟨lam 1, lam 2, h0 1, h0 2, by linarith [h0 0], ?_⟩
    funext r
    rw [h2 r, Fin.sum_univ_three]
    simp [tri_apply, comb]
  · rintro ⟨t1, t2, h1, h2, h3, rfl⟩
    refine ⟨![1 - t1 - t2, t1, t2], ?_, ?_, ?_⟩
    · intro i
      fin_cases i <;> simp <;> linarith
    · simp [Fin.sum_univ_three]
      ring
    · intro r
      simp [Fin.sum_univ_three, tri_apply, comb]

/-- The code takes a value from one of the triangles that contain the point. -/
theorem valueAt_cells {α : Type} {n : ℕ} (hn : 3 ≤ n) (g : ℕ → (ℕ → ℝ) → α) {p : Fin 2 → ℝ} (hp : p ∈ Polygon n) :
    ∃ k < 2 * n, p ∈ Triangle n k ∧
      valueAt ⟨2, (List.range (2 * n)).map fun i => (triCell n i, g i)⟩ p = .ok (g k (coords (tup p))) := by
  classical
  have hex : ∃ k, k < 2 * n ∧ p ∈ Triangle n k := by
    obtain ⟨i, hi, h⟩ := hp
    exact ⟨i, hi, h⟩
  obtain ⟨hk, hkt⟩ := Nat.find_spec hex
  set k := Nat.find hex with hkdef
  refine ⟨k, hk, hkt, ?_⟩
  have hlen : (cells n g).length = 2 * n := by simp [cells]
  have hget : (cells n g)[k]'(by omega) =
      (⟨3, ![fun r => tri n k 0 r.val, fun r => tri n k 1 r.val, fun r => tri n k 2 r.val]⟩, g k) := by simp [cells]
  have := (getPiece_ok (cells n g) (cells_proper hn g) p (g k)).2
    ⟨(cells n g).take k, (cells n g)[k]'(by omega), (cells n g).drop (k + 1), by
      rw [← List.drop_eq_getElem_cons, List.take_append_drop], by rw [hget], by rw [hget]; exact (inHull_tri n k p).2 hkt, ?_⟩
  · rw [valueAt, ← piecewise_cells, this]
    rfl
  · intro s hs hin
    obtain ⟨i, hi, rfl⟩ := List.mem_iff_getElem.1 hs
    rw [List.length_take] at hi
    have hik : i < k := by omega
    have e : ((cells n g).take k)[i] =
        (⟨3, ![fun r => tri n i 0 r.val, fun r => tri n i 1 r.val, fun r => tri n i 2 r.val]⟩, g i) := by
      simp [cells]
    rw [e] at hin
    exact Nat.find_min hex hik ⟨by omega, (inHull_tri n i p).1 hin⟩

theorem valueAt_outside {α : Type} {n : ℕ} (hn : 3 ≤ n) (g : ℕ → (ℕ → ℝ) → α) {p : Fin 2 → ℝ} (hp : p ∉ Polygon n) :
    valueAt ⟨2, (List.range (2 * n)).map fun i => (triCell n i, g i)⟩ p = .error .notImplemented := by
  have := (getPiece_error (cells n g) (cells_proper hn g) p).2 fun s hs hin => by
    obtain ⟨i, hi, rfl⟩ := List.mem_map.1 hs
    exact hp ⟨i, List.mem_range.1 hi, (inHull_tri n i p).1 hin⟩
  rw [valueAt, ← piecewise_cells, this]
  rfl

theorem mapM_pieces {α : Type} {n : ℕ} {piece : ℕ → Option (List (Geometry.Point ℝ) × ((ℕ → ℝ) → α))}
    {g : ℕ → (ℕ → ℝ) → α} (h : ∀ i < 2 * n, piece i = some (triCell n i, g i)) :
    pieces n piece = some ⟨2, (List.range (2 * n)).map fun i => (triCell n i, g i)⟩ := by
  rw [pieces, mapM_some_of _ (fun i => (triCell n i, g i)) _ fun i hi => h i (List.mem_range.1 hi)]
  rfl

/-- **C64** The functions of order 1: in every triangle, interpolation between the value 1/n at the origin and the values
at the vertices. -/
theorem dual_one {n : ℕ} (hn : 3 ≤ n) : ∃ fs, dualBasis n 1 = some fs ∧ fs.length = n ∧
    ∀ (j : ℕ) (f), fs[j]? = some f →
      (∀ i < 2 * n, ∀ t1 t2 : ℝ, 0 ≤ t1 → 0 ≤ t2 → t1 + t2 ≤ 1 →
        valueAt f (fun r => comb n i t1 t2 r.val) =
          .ok ((1 - t1 - t2) / n + t1 * nodal n j i + t2 * nodal n j ((i + 1) % (2 * n)))) ∧
      ∀ p ∉ Polygon n, valueAt f p = .error .notImplemented := by
  classical
  have hF := fun i (hi : i < 2 * n) => inv_tri hn hi
  choose! F hF1 hF2 using hF
  set g : ℕ → ℕ → (ℕ → ℝ) → ℝ := fun j i x =>
    ((((List.range 3).map (dualRow n j i)).zip [1 - X 0 - X 1, X 0, X 1]).map fun ab =>
      ab.1 * eval (coords (F i x)) ab.2).sum with hg
  have hp : ∀ j, pieces n (scalarPiece n [1 - X 0 - X 1, X 0, X 1] fun i => (List.range 3).map (dualRow n j i)) =
      some ⟨2, (List.range (2 * n)).map fun i => (triCell n i, g j i)⟩ := fun j =>
    mapM_pieces fun i hi => by rw [scalarPiece, hF1 i hi]; rfl
  refine ⟨(List.range n).map fun j => ⟨2, (List.range (2 * n)).map fun i => (triCell n i, g j i)⟩, ?_, by simp, ?_⟩
  · rw [dualBasis, lagrange_one, Option.bind_some, dualCoefficients, if_neg one_ne_zero, List.mapM_map]
    exact mapM_some_of _ _ _ fun j _ => hp j
  · intro j f hf
    obtain ⟨hj, rfl⟩ : j < n ∧ (⟨2, (List.range (2 * n)).map fun i => (triCell n i, g j i)⟩ : Piecewise ℝ _) = f := by
      rw [List.getElem?_map] at hf
      obtain ⟨a, ha, rfl⟩ := Option.map_eq_some_iff.1 hf
      obtain ⟨h1, rfl⟩ := List.getElem?_eq_some_iff.1 ha
      rw [List.length_range] at h1
      simp only [List.getElem_range]
      exact ⟨h1, trivial⟩
    refine ⟨fun i hi t1 t2 h1 h2 h3 => ?_, fun p hp => valueAt_outside hn _ hp⟩
    obtain ⟨k, hk, ⟨s1, s2, g1, g2, g3, e⟩, hval⟩ := valueAt_cells hn (g j) (p := fun r => comb n i t1 t2 r.val)
      ⟨i, hi, t1, t2, h1, h2, h3, rfl⟩
    rw [hval]
    congr 1
    have hr : ∀ r < 2, comb n i t1 t2 r = comb n k s1 s2 r := fun r hr => congrFun e ⟨r, hr⟩
    have hFk : F k (coords (tup fun r : Fin 2 => comb n i t1 t2 r.val)) = [s1, s2] := by
      refine hF2 k hk _ _ _ fun r hr' => ?_
      rw [← hr r hr']
      interval_cases r <;> simp [coords, tup]
    obtain ⟨c0, c1, c2⟩ := dualRow_eq (by omega : 2 ≤ n) hj hk
    have hi1 := interp hn (nodal n j) hi hk h1 h2 g1 g2 hr
    have hi2 := interp hn (fun _ => 1) hi hk h1 h2 g1 g2 hr
    simp only [hg, hFk, show List.range 3 = [0, 1, 2] from rfl, List.map_cons, List.map_nil, List.zip_cons_cons,
      List.zip_nil_left, List.sum_cons, List.sum_nil, c0, c1, c2, map_sub, map_one, eval_X, coords,
      List.getD_cons_zero, List.getD_cons_succ]
    have e1 : 1 - s1 - s2 = 1 - t1 - t2 := by linarith
    rw [e1]
    linear_combination -hi1

/-- **C64** The functions of order 1 sum to 1. -/
theorem dual_one_partition {n : ℕ} (hn : 3 ≤ n) {fs} (hfs : dualBasis n 1 = some fs) {p : Fin 2 → ℝ}
    (hp : p ∈ Polygon n) :
    ∃ values : List ℝ, fs.map (fun f => valueAt f p) = values.map .ok ∧ values.sum = 1 := by
  obtain ⟨fs', h1, h2, h3⟩ := dual_one hn
  obtain rfl := Option.some.inj (hfs.symm.trans h1)
  obtain ⟨i, hi, t1, t2, g1, g2, g3, rfl⟩ := hp
  refine ⟨(List.range n).map fun j => (1 - t1 - t2) / n + t1 * nodal n j i + t2 * nodal n j ((i + 1) % (2 * n)), ?_, ?_⟩
  · refine List.ext_getElem (by simp [h2]) fun j hj hj' => ?_
    rw [List.length_map] at hj
    simp only [List.getElem_map, List.getElem_range]
    exact (h3 j _ (List.getElem?_eq_getElem hj)).1 i hi t1 t2 g1 g2 g3
  · have hn0 : (n : ℝ) ≠ 0 := by
      have : (3 : ℝ) ≤ n := by exact_mod_cast hn
      linarith
    have e : ((List.range n).map fun j : ℕ => (1 - t1 - t2) / n + t1 * nodal n j i + t2 * nodal n j ((i + 1) % (2 * n))).sum =
        ∑ j ∈ Finset.range n, ((1 - t1 - t2) / n + t1 * nodal n j i + t2 * nodal n j ((i + 1) % (2 * n))) := rfl
    rw [e, Finset.sum_add_distrib, Finset.sum_add_distrib, ← Finset.mul_sum, ← Finset.mul_sum, nodal_sum (by omega) hi,
      nodal_sum (by omega) (Nat.mod_lt _ (by omega)), Finset.sum_const, Finset.card_range, nsmul_eq_mul]
    field_simp
    ring

theorem vertex_mem {n k : ℕ} (hk : k < 2 * n) :
    (fun r : Fin 2 => dualVertex n k r.val) = fun r => comb n k 1 0 r.val := by
  funext r
  simp [comb]

/-- **C64** The function number `j` is 1 at the vertex number `2 j` and 0 at the other even vertices. -/
theorem dual_one_vertices {n : ℕ} (hn : 3 ≤ n) {fs} (hfs : dualBasis n 1 = some fs) {j i : ℕ} {f} (hj : fs[j]? = some f)
    (hi : i < n) : valueAt f (fun r => dualVertex n (2 * i) r.val) = .ok (if i = j then 1 else 0) := by
  obtain ⟨fs', h1, h2, h3⟩ := dual_one hn
  obtain rfl := Option.some.inj (hfs.symm.trans h1)
  have hjn : j < n := by
    obtain ⟨h, -⟩ := List.getElem?_eq_some_iff.1 hj
    omega
  rw [vertex_mem (by omega), (h3 j f hj).1 (2 * i) (by omega) 1 0 (by norm_num) le_rfl (by norm_num)]
  congr 1
  have : nodal n j (2 * i) = if i = j then 1 else 0 := by
    rw [nodal, Nat.mod_eq_of_lt (by omega)]
    split_ifs <;> first | rfl | omega
  rw [this]
  simp

/-- The value as a number; 0 when there is an exception. -/
noncomputable def valueOr (f : Piecewise ℝ ((ℕ → ℝ) → ℝ)) (p : Fin 2 → ℝ) : ℝ :=
  match valueAt f p with
  | .ok v => v
  | .error _ => 0

theorem isClosed_triangle (n i : ℕ) : IsClosed (Triangle n i) := by
  have hc : IsCompact {t : ℝ × ℝ | 0 ≤ t.1 ∧ 0 ≤ t.2 ∧ t.1 + t.2 ≤ 1} := by
    refine IsCompact.of_isClosed_subset (isCompact_Icc (a := ((0, 0) : ℝ × ℝ)) (b := (1, 1))) ?_ ?_
    · exact (isClosed_le continuous_const continuous_fst).inter
        ((isClosed_le continuous_const continuous_snd).inter (isClosed_le (continuous_fst.add continuous_snd) continuous_const))
    · rintro ⟨a, b⟩ ⟨h1, h2, h3⟩
      exact ⟨⟨h1, h2⟩, ⟨by dsimp at *; linarith, by dsimp at *; linarith⟩⟩
  have e : Triangle n i = (fun t : ℝ × ℝ => fun r : Fin 2 => comb n i t.1 t.2 r.val) ''
      {t : ℝ × ℝ | 0 ≤ t.1 ∧ 0 ≤ t.2 ∧ t.1 + t.2 ≤ 1} := by
    ext p
    constructor
    · rintro ⟨t1, t2, h1, h2, h3, rfl⟩
      exact ⟨(t1, t2), ⟨h1, h2, h3⟩, rfl⟩
    · rintro ⟨⟨t1, t2⟩, ⟨h1, h2, h3⟩, rfl⟩
      exact ⟨t1, t2, h1, h2, h3, rfl⟩
  rw [e]
  refine (hc.image ?_).isClosed
  refine continuous_pi fun r => ?_
  simp only [comb]
  fun_prop

/-- **C64** The functions of order 1 are continuous on the polygon. -/
theorem dual_one_continuous {n : ℕ} (hn : 3 ≤ n) {fs} (hfs : dualBasis n 1 = some fs) {f} (hf : f ∈ fs) :
    ContinuousOn (valueOr f) (Polygon n) := by
  obtain ⟨fs', h1, h2, h3⟩ := dual_one hn
  obtain rfl := Option.some.inj (hfs.symm.trans h1)
  obtain ⟨j, hj⟩ := List.mem_iff_getElem?.1 hf
  have e : Polygon n = ⋃ i : Fin (2 * n), Triangle n i := by
    ext p
    simp only [Set.mem_iUnion]
    exact ⟨fun ⟨i, hi, h⟩ => ⟨⟨i, hi⟩, h⟩, fun ⟨i, h⟩ => ⟨i, i.2, h⟩⟩
  rw [e]
  refine LocallyFinite.continuousOn_iUnion (locallyFinite_of_finite _) (fun i => isClosed_triangle n i) fun i => ?_
  set a := dualVertex n i.val with ha
  set b := dualVertex n ((i.val + 1) % (2 * n)) with hb
  have hd : 0 < a 0 * b 1 - a 1 * b 0 := cross_pos hn i.2
  set T1 : (Fin 2 → ℝ) → ℝ := fun p => (p 0 * b 1 - p 1 * b 0) / (a 0 * b 1 - a 1 * b 0) with hT1
  set T2 : (Fin 2 → ℝ) → ℝ := fun p => (a 0 * p 1 - a 1 * p 0) / (a 0 * b 1 - a 1 * b 0) with hT2
  have hc : Continuous fun p : Fin 2 → ℝ => (1 - T1 p - T2 p) / n + T1 p * nodal n j i + T2 p * nodal n j ((i.val + 1) % (2 * n)) := by
    simp only [hT1, hT2]
    fun_prop
  refine hc.continuousOn.congr ?_
  rintro p ⟨t1, t2, g1, g2, g3, rfl⟩
  have f1 : T1 (fun r => comb n i t1 t2 r.val) = t1 := by
    simp only [hT1, comb, ← ha, ← hb, Fin.val_zero, Fin.val_one]
    rw [div_eq_iff hd.ne']
    ring
  have f2 : T2 (fun r => comb n i t1 t2 r.val) = t2 := by
    simp only [hT2, comb, ← ha, ← hb, Fin.val_zero, Fin.val_one]
    rw [div_eq_iff hd.ne']
    ring
  dsimp only
  rw [f1, f2, valueOr, (h3 j f hj).1 i.val i.2 t1 t2 g1 g2 g3]

/-- **C64** The function of order 0 is 1 on the polygon. -/
theorem dual_zero {n : ℕ} (hn : 3 ≤ n) : ∃ f, dualBasis n 0 = some [f] ∧ ∀ p ∈ Polygon n, valueAt f p = .ok 1 := by
  have hF := fun i (hi : i < 2 * n) => inv_tri hn hi
  choose! F hF1 hF2 using hF
  have hp : pieces n (scalarPiece n [1] fun _ => [1]) =
      some ⟨2, (List.range (2 * n)).map fun i => (triCell n i, fun x =>
        ((([1].zip [1]).map fun ab : ℝ × MvPolynomial ℕ ℝ => ab.1 * eval (coords (F i x)) ab.2).sum))⟩ :=
    mapM_pieces fun i hi => by rw [scalarPiece, hF1 i hi]; rfl
  refine ⟨⟨2, (List.range (2 * n)).map fun i => (triCell n i, fun x =>
        ((([1].zip [1]).map fun ab : ℝ × MvPolynomial ℕ ℝ => ab.1 * eval (coords (F i x)) ab.2).sum))⟩, ?_, fun p hpp => ?_⟩
  · rw [dualBasis, lagrange_zero (Or.inr (Or.inl rfl)), Option.bind_some, dualCoefficients, if_pos rfl, List.mapM_cons, hp]
    rfl
  · obtain ⟨k, hk, -, hval⟩ := valueAt_cells hn (fun i x =>
        ((([1].zip [1]).map fun ab : ℝ × MvPolynomial ℕ ℝ => ab.1 * eval (coords (F i x)) ab.2).sum)) hpp
    rw [hval]
    simp

/-- The theorems apply: a square. -/
example : ∃ fs, dualBasis 4 1 = some fs ∧ fs.length = 4 := by
  obtain ⟨fs, h, hl, -⟩ := dual_one (n := 4) (by norm_num)
  exact ⟨fs, h, hl⟩

example : (fun _ => 0 : Fin 2 → ℝ) ∈ Polygon 4 :=
  ⟨0, by norm_num, 0, 0, le_rfl, le_rfl, by norm_num, by funext r; simp [comb]⟩

end Verif.Dual
