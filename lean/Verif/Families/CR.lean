import Verif.Families.Sub
import Mathlib.Algebra.Group.ForwardDiff
import Mathlib.RingTheory.Polynomial.Basic
/-!
# Crouzeix–Raviart elements

`symfem/elements/crouzeix_raviart.py`.  On triangles, for the variant "equispaced" (the default), the element can
be created for odd orders and cannot be created for even orders, although these are accepted by the constructor.
-/

namespace Verif.Families
open Verif.References Verif.Quadrature Verif.Polysets Verif.Elements Verif.FiniteElement MvPolynomial

/-- The points of `get_quadrature(variant, n)`, or `none` if the call fails. -/
noncomputable def quadPoints (variant : String) (n : ℕ) : Option (List ℝ) :=
  match getQuadrature variant n with
  | .ok r => some r.1
  | .error _ => none

/-- The point evaluations on facet `e` (symfem/elements/crouzeix_raviart.py:41-54). The code writes out `get_point`. -/
noncomputable def crFacet (c : Cell) (v : ℕ → ℕ → ℝ) (points : List ℝ) (order e : ℕ) : Option (List PointDof) :=
  match c.subEntityType (c.tdim - 1) e, (c.subEntities (c.tdim - 1)).bind (·[e]?) with
  | some t, some verts =>
    ((product (List.range' 1 order) (c.tdim - 1)).filter fun i => decide (i.sum < order + c.tdim - 1)).mapM fun i =>
      (getPoint t (entityVerts v verts) (i.map fun b => points.getD b 0)).map fun p => ⟨p, (c.tdim - 1, e)⟩
  | _, _ => none

/-- The point evaluations in the interior (symfem/elements/crouzeix_raviart.py:57-68). -/
noncomputable def crInterior (c : Cell) (v : ℕ → ℕ → ℝ) (points : List ℝ) (order : ℕ) : Option (List PointDof) :=
  ((product (innerRange order) c.tdim).filter fun i => decide (i.sum < order)).mapM fun i =>
    (getPoint c v (i.map fun b => points.getD b 0)).map fun p => ⟨p, (c.tdim, 0)⟩

/-- The functionals of `CrouzeixRaviart.__init__` (symfem/elements/crouzeix_raviart.py:31-68). -/
noncomputable def crDofs (variant : String) (c : Cell) (v : ℕ → ℕ → ℝ) (order : ℕ) : Option (List PointDof) :=
  if c ∉ [Cell.triangle, Cell.tetrahedron] then none
  else if 1 < order ∧ c ≠ .triangle then none
  else (quadPoints variant (order + c.tdim)).bind fun points =>
    (c.subEntityCount (c.tdim - 1)).bind fun count =>
      ((List.range count).mapM (crFacet c v points order)).bind fun facets =>
        (quadPoints variant (order + c.tdim - 1)).bind fun points' =>
          (crInterior c v points' order).map fun inner => facets.flatten ++ inner

/-- `CrouzeixRaviart(reference, order, variant)` (symfem/elements/crouzeix_raviart.py:24-73). -/
noncomputable def crElement (variant : String) (c : Cell) (v : ℕ → ℕ → ℝ) (order : ℕ) :
    Option (Element ℝ (MvPolynomial ℕ ℝ)) :=
  (crDofs variant c v order).bind fun dofs => (polySet c.tdim order).bind fun poly =>
    ciarlet (poly.map (denoteMono ℝ)) (dofs.map PointDof.functional)

theorem quadPoints_equispaced {n : ℕ} (hn : 0 < n) :
    ∃ points, quadPoints "equispaced" (n + 1) = some points ∧ ∀ i ≤ n, points.getD i 0 = (i : ℝ) / n := by
  obtain ⟨points, h1, h2⟩ := rulePoints_equispaced hn
  refine ⟨points, ?_, h2⟩
  rw [rulePoints, if_neg (by decide)] at h1
  exact h1

/-! ### Polynomials on lines -/

/-- The point `(1 - t) a + t b`. -/
def onLine (a b : ℕ → ℝ) (t : ℝ) : ℕ → ℝ := fun j => a j + t * (b j - a j)

/-- A polynomial of degree `n` restricted to a line. -/
theorem line_poly {d n : ℕ} {f : MvPolynomial ℕ ℝ} (hf : f ∈ P d n) (a b : ℕ → ℝ) (s : ℝ) :
    ∃ g : Polynomial ℝ, g.natDegree ≤ n ∧ ∀ t, g.eval t = eval (onLine a b (t * s)) f := by
  refine ⟨aeval (fun j => Polynomial.C (a j) + Polynomial.C (s * (b j - a j)) * Polynomial.X) f, ?_, fun t => ?_⟩
  · have hd : f.totalDegree ≤ n := by
      by_cases h0 : f = 0
      · rw [h0]; simp
      · exact_mod_cast (mem_P_iff.1 hf).1 h0
    have := aeval_natDegree_le f hd (fun j => Polynomial.C (a j) + Polynomial.C (s * (b j - a j)) * Polynomial.X)
      (n := 1) fun j => by
        refine (Polynomial.natDegree_add_le _ _).trans (max_le (by simp) ?_)
        exact (Polynomial.natDegree_C_mul_le _ _).trans Polynomial.natDegree_X_le
    omega
  · have : (Polynomial.eval t) = (Polynomial.evalRingHom t : Polynomial ℝ → ℝ) := rfl
    rw [this, aeval_def, eval₂_comp_left]
    have h1 : (Polynomial.evalRingHom t).comp (algebraMap ℝ (Polynomial ℝ)) = RingHom.id ℝ := by
      ext x; simp
    rw [h1]
    show eval₂ _ _ f = eval₂ _ _ f
    congr 1
    funext j
    simp only [Function.comp_apply, onLine, Polynomial.coe_evalRingHom, Polynomial.eval_add, Polynomial.eval_mul,
      Polynomial.eval_C, Polynomial.eval_X]
    ring

/-- The relation between the values at equispaced points of a line. -/
theorem line_relation {d n : ℕ} {f : MvPolynomial ℕ ℝ} (hf : f ∈ P d n) (a b : ℕ → ℝ) :
    ∑ i ∈ Finset.range (n + 2), (-1 : ℝ) ^ (n + 1 - i) * ((n + 1).choose i : ℝ) *
      eval (onLine a b ((i : ℝ) / ((n + 1 : ℕ) : ℝ))) f = 0 := by
  obtain ⟨g, h1, h2⟩ := line_poly hf a b (((n + 1 : ℕ) : ℝ)⁻¹)
  have := congrFun (Polynomial.fwdDiff_iter_eq_zero_of_degree_lt (P := g) (n := n + 1) (by omega)) 0
  rw [fwdDiff_iter_eq_sum_shift] at this
  rw [← Pi.zero_apply (M := fun _ => ℝ) (0 : ℝ), ← this]
  refine Finset.sum_congr rfl fun i _ => ?_
  rw [h2]
  simp only [zero_add, nsmul_eq_mul, mul_one, div_eq_mul_inv, zsmul_eq_mul]
  push_cast
  ring

/-- A polynomial of degree `n` that vanishes at `n + 2` equispaced points of a line vanishes on the line. -/
theorem line_zero {d n : ℕ} {f : MvPolynomial ℕ ℝ} (hf : f ∈ P d n) (a b : ℕ → ℝ)
    (h : ∀ i ≤ n + 1, eval (onLine a b ((i : ℝ) / ((n + 1 : ℕ) : ℝ))) f = 0) (t : ℝ) : eval (onLine a b t) f = 0 := by
  obtain ⟨g, h1, h2⟩ := line_poly hf a b 1
  have hg : g = 0 := by
    refine Polynomial.eq_zero_of_natDegree_lt_card_of_eval_eq_zero' g
      ((Finset.range (n + 2)).image fun i : ℕ => (i : ℝ) / ((n + 1 : ℕ) : ℝ)) (fun x hx => ?_) ?_
    · obtain ⟨i, hi, rfl⟩ := Finset.mem_image.1 hx
      rw [h2, mul_one]
      exact h i (by have := Finset.mem_range.1 hi; omega)
    · rw [Finset.card_image_of_injective _ fun i j hij => by
        have : ((n + 1 : ℕ) : ℝ) ≠ 0 := by positivity
        exact_mod_cast (div_left_inj' this).1 hij, Finset.card_range]
      omega
  have := h2 t
  rw [hg, mul_one, Polynomial.eval_zero] at this
  exact this.symm

/-! ### The functionals on triangles -/

/-- The point evaluations on the edge from vertex `a` to vertex `b`. -/
noncomputable def crEdge (v : ℕ → ℕ → ℝ) (n a b e : ℕ) : List PointDof :=
  (List.range' 1 n).map fun i : ℕ => ⟨onLine (v a) (v b) ((i : ℝ) / ((n + 1 : ℕ) : ℝ)), (1, e)⟩

theorem mem_crEdge (v : ℕ → ℕ → ℝ) {n i : ℕ} (a b e : ℕ) (hi : i < n) :
    (⟨onLine (v a) (v b) (((i + 1 : ℕ) : ℝ) / ((n + 1 : ℕ) : ℝ)), (1, e)⟩ : PointDof) ∈ crEdge v n a b e := by
  rw [crEdge, List.mem_map]
  refine ⟨i + 1, List.mem_range'_1.2 (by omega), ?_⟩
  simp only

theorem crFacet_triangle (v : ℕ → ℕ → ℝ) {n : ℕ} {points : List ℝ}
    (hp : ∀ i ≤ n + 1, points.getD i 0 = (i : ℝ) / ((n + 1 : ℕ) : ℝ)) {e a b : ℕ}
    (he : (e, a, b) ∈ [(0, 1, 2), (1, 0, 2), (2, 0, 1)]) :
    crFacet .triangle v points n e = some (crEdge v n a b e) := by
  have h1 : (product (List.range' 1 n) 1).filter (fun i => decide (i.sum < n + 1)) = (List.range' 1 n).map fun i => [i] := by
    have : product (List.range' 1 n) 1 = (List.range' 1 n).map fun i => [i] := by
      rw [product, product, List.map_eq_flatMap]
      rfl
    rw [this, List.filter_eq_self]
    intro x hx
    obtain ⟨i, hi, rfl⟩ := List.mem_map.1 hx
    have := List.mem_range'.1 hi
    simp only [List.sum_singleton, decide_eq_true_eq]
    omega
  have h2 : crFacet .triangle v points n e = ((List.range' 1 n).map fun i => [i]).mapM fun i =>
      (getPoint .interval (entityVerts v [a, b]) (i.map fun b => points.getD b 0)).map fun p => ⟨p, (1, e)⟩ := by
    rw [← h1]
    simp only [List.mem_cons, Prod.mk.injEq, List.not_mem_nil, or_false] at he
    rcases he with ⟨rfl, rfl, rfl⟩ | ⟨rfl, rfl, rfl⟩ | ⟨rfl, rfl, rfl⟩ <;> rfl
  rw [h2, mapM_some_of _ (fun i : List ℕ => (⟨entityPoint .interval (entityVerts v [a, b]) (i.map fun b => points.getD b 0),
    (1, e)⟩ : PointDof)), List.map_map]
  · rw [crEdge]
    refine congrArg some (List.map_congr_left fun i hi => ?_)
    have hi' := List.mem_range'.1 hi
    have e0 : entityPoint .interval (entityVerts v [a, b]) ([i].map fun b => points.getD b 0) =
        onLine (v a) (v b) ((i : ℝ) / ((n + 1 : ℕ) : ℝ)) := by
      funext j
      simp only [entityPoint, List.map_cons, List.map_nil, List.length_singleton, Finset.sum_range_one,
        List.getD_cons_zero]
      rw [hp i (by omega)]
      show v a j + (v b j - v a j) * _ = _
      rw [onLine]
      ring
    simp only [Function.comp_apply, e0]
  · intro x hx
    obtain ⟨i, hi, rfl⟩ := List.mem_map.1 hx
    rw [getPoint_eq _ _ _ (by rfl)]
    rfl

theorem crInterior_triangle (v : ℕ → ℕ → ℝ) {n : ℕ} {points : List ℝ} (hn : 0 < n)
    (hp : ∀ i ≤ n, points.getD i 0 = (i : ℝ) / n) :
    ∃ inner, crInterior .triangle v points n = some inner ∧ inner.length = (n - 1).choose 2 ∧
      (∀ d ∈ inner, d.entity = (2, 0)) ∧
      ∀ a b : ℕ, 0 < a → 0 < b → a + b < n →
        ∃ d ∈ inner, d.point = fun j => v 0 j + (a : ℝ) / n * (v 1 j - v 0 j) + (b : ℝ) / n * (v 2 j - v 0 j) := by
  have h2 : crInterior .triangle v points n =
      some (((product (innerRange n) 2).filter fun i => decide (i.sum < n)).map fun i =>
        ⟨entityPoint .triangle v (i.map fun b => points.getD b 0), (2, 0)⟩) := by
    refine mapM_some_of _ _ _ fun i hi => ?_
    have hl := length_of_mem_product (List.mem_of_mem_filter hi)
    rw [getPoint_eq _ _ _ (by rw [List.length_map, hl]; rfl)]
    rfl
  refine ⟨_, h2, ?_, ?_, fun a b ha hb hab => ?_⟩
  · rw [List.length_map]
    obtain ⟨m, rfl⟩ : ∃ m, n = m + 1 := ⟨n - 1, by omega⟩
    exact length_filter_sum _ _ m (by omega)
  · intro d hd
    obtain ⟨i, _, rfl⟩ := List.mem_map.1 hd
    rfl
  · refine ⟨_, List.mem_map.2 ⟨[a, b], List.mem_filter.2 ⟨?_, by simpa using hab⟩, rfl⟩, ?_⟩
    · simp only [product, innerRange, List.mem_flatMap, List.mem_map, List.mem_range'_1]
      exact ⟨a, by omega, [b], ⟨b, by omega, [], by simp, rfl⟩, rfl⟩
    · funext j
      simp only [entityPoint, List.map_cons, List.map_nil, List.length_cons, List.length_nil, Finset.sum_range_succ,
        Finset.sum_range_zero, List.getD_cons_zero, List.getD_cons_succ]
      rw [hp a (by omega), hp b (by omega)]
      show v 0 j + (0 + (v 1 j - v 0 j) * _ + (v 2 j - v 0 j) * _) = _
      ring

/-- The functionals on a triangle. -/
theorem crDofs_triangle (v : ℕ → ℕ → ℝ) {n : ℕ} (hn : 0 < n) :
    ∃ inner, crDofs "equispaced" .triangle v n =
        some (crEdge v n 1 2 0 ++ (crEdge v n 0 2 1 ++ crEdge v n 0 1 2) ++ inner) ∧
      inner.length = (n - 1).choose 2 ∧ (∀ d ∈ inner, d.entity = (2, 0)) ∧
      ∀ a b : ℕ, 0 < a → 0 < b → a + b < n →
        ∃ d ∈ inner, d.point = fun j => v 0 j + (a : ℝ) / n * (v 1 j - v 0 j) + (b : ℝ) / n * (v 2 j - v 0 j) := by
  obtain ⟨points, h1, h2⟩ := quadPoints_equispaced (n := n + 1) (by omega)
  obtain ⟨points', h3, h4⟩ := quadPoints_equispaced hn
  obtain ⟨inner, h5, h6⟩ := crInterior_triangle v hn h4
  refine ⟨inner, ?_, h6⟩
  have hf : (List.range 3).mapM (crFacet .triangle v points n) =
      some [crEdge v n 1 2 0, crEdge v n 0 2 1, crEdge v n 0 1 2] := by
    have : List.range 3 = [0, 1, 2] := rfl
    rw [this]
    simp only [List.mapM_cons, List.mapM_nil, crFacet_triangle v h2 (e := 0) (a := 1) (b := 2) (by simp),
      crFacet_triangle v h2 (e := 1) (a := 0) (b := 2) (by simp), crFacet_triangle v h2 (e := 2) (a := 0) (b := 1) (by simp)]
    rfl
  unfold crDofs
  rw [if_neg (by simp), if_neg (by simp)]
  show (quadPoints "equispaced" (n + 1 + 1)).bind _ = _
  rw [h1, Option.bind_some]
  show (some 3).bind _ = _
  rw [Option.bind_some, hf, Option.bind_some]
  show (quadPoints "equispaced" (n + 1)).bind _ = _
  rw [h3, Option.bind_some, h5]
  simp

/-- The number of functionals on a triangle. -/
theorem crDofs_triangle_length (v : ℕ → ℕ → ℝ) {n : ℕ} (hn : 0 < n) {l : List PointDof}
    (hl : crDofs "equispaced" .triangle v n = some l) : l.length = (n + 2).choose 2 := by
  obtain ⟨inner, h1, h2, -⟩ := crDofs_triangle v hn
  obtain rfl := Option.some.inj (hl.symm.trans h1)
  simp only [List.length_append, crEdge, List.length_map, List.length_range', h2]
  obtain ⟨m, rfl⟩ : ∃ m, n = m + 1 := ⟨n - 1, by omega⟩
  simp only [Nat.add_sub_cancel, Nat.choose_succ_succ, Nat.choose_zero_right, Nat.choose_one_right]
  have := Nat.choose_one_right m
  simp only [Nat.zero_add, Nat.choose_one_right, show m.choose (Nat.succ 1) = m.choose 2 from rfl]
  omega

theorem onLine_zero (a b : ℕ → ℝ) : onLine a b 0 = a := by funext j; simp [onLine]

theorem onLine_one (a b : ℕ → ℝ) : onLine a b 1 = b := by funext j; simp [onLine]

/-- The relation between the values at the inner points and at the ends. -/
theorem edge_relation {d n : ℕ} {f : MvPolynomial ℕ ℝ} (hf : f ∈ P d n) (a b : ℕ → ℝ) :
    (-1) ^ (n + 1) * eval a f + eval b f + ∑ i ∈ Finset.range n, (-1 : ℝ) ^ (n - i) * ((n + 1).choose (i + 1) : ℝ) *
      eval (onLine a b (((i + 1 : ℕ) : ℝ) / ((n + 1 : ℕ) : ℝ))) f = 0 := by
  have := line_relation hf a b
  rw [Finset.sum_range_succ, Finset.sum_range_succ'] at this
  have h0 : ((n + 1 : ℕ) : ℝ) ≠ 0 := by positivity
  rw [div_self h0, onLine_one, Nat.choose_self, Nat.sub_self, Nat.choose_zero_right, Nat.cast_zero, zero_div, onLine_zero,
    Nat.sub_zero] at this
  rw [← this]
  have e : ∀ i, n + 1 - (i + 1) = n - i := fun i => by omega
  simp only [e]
  ring

/-- **C65** The functionals on a triangle determine the polynomials of the space if the order is odd. -/
theorem cr_determined (v : ℕ → ℕ → ℝ) (hv : NonDegenerate .triangle v) {n : ℕ} (ho : Odd n) {l : List PointDof}
    (hl : crDofs "equispaced" .triangle v n = some l) {f : MvPolynomial ℕ ℝ} (hf : f ∈ P 2 n)
    (hz : ∀ d ∈ l, eval d.point f = 0) : f = 0 := by
  have hn := ho.pos
  obtain ⟨inner, h1, -, -, h2⟩ := crDofs_triangle v hn
  obtain rfl := Option.some.inj (hl.symm.trans h1)
  have hedge : ∀ e a b, (e, a, b) ∈ [(0, 1, 2), (1, 0, 2), (2, 0, 1)] → ∀ i < n,
      eval (onLine (v a) (v b) (((i + 1 : ℕ) : ℝ) / ((n + 1 : ℕ) : ℝ))) f = 0 := by
    intro e a b he i hi
    have hm : (⟨onLine (v a) (v b) (((i + 1 : ℕ) : ℝ) / ((n + 1 : ℕ) : ℝ)), (1, e)⟩ : PointDof) ∈ crEdge v n a b e :=
      mem_crEdge v a b e hi
    have h : (⟨onLine (v a) (v b) (((i + 1 : ℕ) : ℝ) / ((n + 1 : ℕ) : ℝ)), (1, e)⟩ : PointDof) ∈
        crEdge v n 1 2 0 ++ (crEdge v n 0 2 1 ++ crEdge v n 0 1 2) ++ inner := by
      refine List.mem_append_left _ ?_
      simp only [List.mem_cons, Prod.mk.injEq, List.not_mem_nil, or_false] at he
      rcases he with ⟨rfl, rfl, rfl⟩ | ⟨rfl, rfl, rfl⟩ | ⟨rfl, rfl, rfl⟩
      · exact List.mem_append_left _ hm
      · exact List.mem_append_right _ (List.mem_append_left _ hm)
      · exact List.mem_append_right _ (List.mem_append_right _ hm)
    have := hz _ h
    exact this
  have hrel : ∀ e a b, (e, a, b) ∈ [(0, 1, 2), (1, 0, 2), (2, 0, 1)] → eval (v a) f + eval (v b) f = 0 := by
    intro e a b he
    have := edge_relation hf (v a) (v b)
    rw [Finset.sum_eq_zero fun i hi => by rw [hedge e a b he i (Finset.mem_range.1 hi), mul_zero],
      (Nat.even_add_one.2 (Nat.not_even_iff_odd.2 ho)).neg_one_pow] at this
    linarith
  have r0 := hrel 0 1 2 (by simp)
  have r1 := hrel 1 0 2 (by simp)
  have r2 := hrel 2 0 1 (by simp)
  have z0 : eval (v 0) f = 0 := by linarith
  have z1 : eval (v 1) f = 0 := by linarith
  have z2 : eval (v 2) f = 0 := by linarith
  have hzv : ∀ e a b, (e, a, b) ∈ [(0, 1, 2), (1, 0, 2), (2, 0, 1)] → eval (v a) f = 0 ∧ eval (v b) f = 0 := by
    intro e a b he
    simp only [List.mem_cons, Prod.mk.injEq, List.not_mem_nil, or_false] at he
    rcases he with ⟨rfl, rfl, rfl⟩ | ⟨rfl, rfl, rfl⟩ | ⟨rfl, rfl, rfl⟩ <;> exact ⟨by assumption, by assumption⟩
  have hline : ∀ e a b, (e, a, b) ∈ [(0, 1, 2), (1, 0, 2), (2, 0, 1)] → ∀ t, eval (onLine (v a) (v b) t) f = 0 := by
    intro e a b he
    refine line_zero hf _ _ fun i hi => ?_
    rcases Nat.eq_zero_or_pos i with rfl | hi0
    · rw [Nat.cast_zero, zero_div, onLine_zero]
      exact (hzv e a b he).1
    · rcases Nat.lt_or_ge n i with h | h
      · obtain rfl : i = n + 1 := by omega
        rw [div_self (by positivity), onLine_one]
        exact (hzv e a b he).2
      · obtain ⟨m, rfl⟩ : ∃ m, i = m + 1 := ⟨i - 1, by omega⟩
        exact hedge e a b he m (by omega)
  obtain ⟨L, hL, -⟩ := lagrange_count (c := .triangle) (Or.inr (Or.inl rfl)) v n
  refine lagrange_determined (c := .triangle) (Or.inr (Or.inl rfl)) v hv hL hf fun d hd => ?_
  obtain ⟨β, b1, -, b3⟩ := lagrange_lattice (c := .triangle) (Or.inr (Or.inl rfl)) v hn hL hd
  have hs : ∀ g : ℕ → ℝ, ∑ i ∈ Finset.range Cell.triangle.nverts, g i = g 0 + g 1 + g 2 := fun g => by
    show ∑ i ∈ Finset.range 3, g i = _
    simp [Finset.sum_range_succ]
  have hb : β 0 + β 1 + β 2 = n := by
    rw [← b1]
    show _ = ∑ i ∈ Finset.range 3, β i
    simp [Finset.sum_range_succ]
  have hn' : (n : ℝ) ≠ 0 := by exact_mod_cast hn.ne'
  have hb' : (β 0 : ℝ) / n = 1 - (β 1 : ℝ) / n - (β 2 : ℝ) / n := by
    field_simp
    rw [← hb]
    push_cast
    ring
  rw [b3]
  simp only [hs, hb']
  rcases Nat.eq_zero_or_pos (β 0) with h0 | h0
  · have e : (β 1 : ℝ) / n = 1 - (β 2 : ℝ) / n := by
      rw [h0, Nat.cast_zero, zero_div] at hb'
      linarith
    rw [← hline 0 1 2 (by simp) ((β 2 : ℝ) / n), e]
    congr 2
    funext j
    rw [onLine]
    ring
  · rcases Nat.eq_zero_or_pos (β 1) with h1 | h1
    · rw [← hline 1 0 2 (by simp) ((β 2 : ℝ) / n), h1]
      congr 2
      funext j
      rw [onLine, Nat.cast_zero, zero_div]
      ring
    · rcases Nat.eq_zero_or_pos (β 2) with h2 | h2'
      · rw [← hline 2 0 1 (by simp) ((β 1 : ℝ) / n), h2]
        congr 2
        funext j
        rw [onLine, Nat.cast_zero, zero_div]
        ring
      · obtain ⟨d', d1, d2⟩ := h2 (β 1) (β 2) h1 h2' (by omega)
        rw [← hz d' (List.mem_append_right _ d1), d2]
        congr 2
        funext j
        ring

/-- **C65** On triangles the element can be created for odd orders. -/
theorem cr_created_odd_partial (v : ℕ → ℕ → ℝ) (hv : NonDegenerate .triangle v) {n : ℕ} (ho : Odd n) :
    ∃ basis dofs fs, crElement "equispaced" .triangle v n = some (.ciarlet basis dofs) ∧
      getBasis (.ciarlet basis dofs) = some fs ∧ lspan fs = P 2 n ∧ fs.length = (n + 2).choose 2 := by
  obtain ⟨inner, h1, -⟩ := crDofs_triangle v ho.pos
  have hlen := crDofs_triangle_length v ho.pos h1
  obtain ⟨l, l1, l2⟩ := polySet_lspan (d := 2) (by simp) n
  obtain ⟨l', l3, l4, l5⟩ := polySet_spec 2 (by simp) n
  obtain rfl : l = l' := Option.some.inj (l1.symm.trans l3)
  have hl : (List.map PointDof.functional (crEdge v n 1 2 0 ++ (crEdge v n 0 2 1 ++ crEdge v n 0 1 2) ++ inner)).length =
      (l.map (denoteMono ℝ)).length := by
    rw [List.length_map, List.length_map, hlen, polySet_length _ _ _ l1]
  obtain ⟨k1, fs, k2, k3, k4⟩ := ciarlet_basis hl (independent_monos ℝ l4 fun m hm => ((l5 m).1 hm).1) fun p hp hz =>
    cr_determined v hv ho h1 (l2 ▸ hp) fun d hd => by
      rw [← eval_functional]
      exact hz _ (List.mem_map_of_mem hd)
  refine ⟨_, _, fs, ?_, k2, k3.trans l2, by rw [k4, List.length_map, polySet_length _ _ _ l1]⟩
  rw [crElement, h1, Option.bind_some]
  show (polySet 2 n).bind _ = _
  rw [l1, Option.bind_some]
  exact k1

/-- **C65** (violated) On triangles the element cannot be created for even orders: the constructor accepts the order, but
the dual matrix is singular, because the values at the points of the three edges are linearly dependent. -/
theorem cr_even_fails (v : ℕ → ℕ → ℝ) {n : ℕ} (hn : 0 < n) (he : Even n) :
    ∃ basis dofs, crElement "equispaced" .triangle v n = some (.ciarlet basis dofs) ∧
      getBasis (.ciarlet basis dofs) = none := by
  obtain ⟨inner, h1, -⟩ := crDofs_triangle v hn
  have hlen := crDofs_triangle_length v hn h1
  obtain ⟨l, l1, l2⟩ := polySet_lspan (d := 2) (by simp) n
  have hl : (List.map PointDof.functional (crEdge v n 1 2 0 ++ (crEdge v n 0 2 1 ++ crEdge v n 0 1 2) ++ inner)).length =
      (l.map (denoteMono ℝ)).length := by
    rw [List.length_map, List.length_map, hlen, polySet_length _ _ _ l1]
  refine ⟨l.map (denoteMono ℝ),
    List.map PointDof.functional (crEdge v n 1 2 0 ++ (crEdge v n 0 2 1 ++ crEdge v n 0 1 2) ++ inner), ?_, ?_⟩
  · rw [crElement, h1, Option.bind_some]
    show (polySet 2 n).bind _ = _
    rw [l1, Option.bind_some]
    exact if_pos hl
  · rw [Option.eq_none_iff_forall_ne_some]
    intro fs hfs
    obtain ⟨g1, g2⟩ := getBasis_ciarlet_dual _ _ _ hfs
    have hspan := getBasis_ciarlet_span _ _ _ hfs
    obtain ⟨m, rfl⟩ : ∃ m, n = m + 1 := ⟨n - 1, by omega⟩
    have hpos : 0 < fs.length := by
      rw [g1, List.length_map, hlen]
      exact Nat.choose_pos (by omega)
    have hf0 : fs[0]? = some fs[0] := List.getElem?_eq_getElem hpos
    set f := fs[0] with hfd
    have hf : f ∈ P 2 ((m + 1 : ℕ) : ℤ) := by
      rw [← l2, lspan, ← hspan]
      exact Submodule.subset_span (List.getElem_mem hpos)
    have hE : crEdge v (m + 1) 1 2 0 = ⟨onLine (v 1) (v 2) (((0 + 1 : ℕ) : ℝ) / ((m + 1 + 1 : ℕ) : ℝ)), (1, 0)⟩ ::
        (List.range' 2 m).map fun i : ℕ => ⟨onLine (v 1) (v 2) ((i : ℝ) / ((m + 1 + 1 : ℕ) : ℝ)), (1, 0)⟩ := by
      rw [crEdge, List.range'_succ, List.map_cons]
    rw [hE] at g2
    simp only [List.cons_append, List.map_cons] at g2
    have hfirst := g2 0 0 f _ hf0 rfl
    rw [eval_functional, if_pos rfl] at hfirst
    have hrest : ∀ d ∈ (List.range' 2 m).map (fun i : ℕ =>
        (⟨onLine (v 1) (v 2) ((i : ℝ) / ((m + 1 + 1 : ℕ) : ℝ)), (1, 0)⟩ : PointDof)) ++
        (crEdge v (m + 1) 0 2 1 ++ crEdge v (m + 1) 0 1 2) ++ inner, eval d.point f = 0 := by
      intro d hd
      obtain ⟨j, hj⟩ := List.mem_iff_getElem?.1 hd
      have := g2 0 (j + 1) f d.functional hf0 (by
        rw [List.getElem?_cons_succ, List.getElem?_map, hj]
        rfl)
      rw [eval_functional, if_neg (by omega)] at this
      exact this
    have hz : ∀ e a b, (e, a, b) ∈ [(1, 0, 2), (2, 0, 1)] → ∀ i < m + 1,
        eval (onLine (v a) (v b) (((i + 1 : ℕ) : ℝ) / ((m + 1 + 1 : ℕ) : ℝ))) f = 0 := by
      intro e a b he i hi
      have hm : (⟨onLine (v a) (v b) (((i + 1 : ℕ) : ℝ) / ((m + 1 + 1 : ℕ) : ℝ)), (1, e)⟩ : PointDof) ∈
          crEdge v (m + 1) a b e := mem_crEdge v a b e hi
      have h : (⟨onLine (v a) (v b) (((i + 1 : ℕ) : ℝ) / ((m + 1 + 1 : ℕ) : ℝ)), (1, e)⟩ : PointDof) ∈
          crEdge v (m + 1) 0 2 1 ++ crEdge v (m + 1) 0 1 2 := by
        simp only [List.mem_cons, Prod.mk.injEq, List.not_mem_nil, or_false] at he
        rcases he with ⟨rfl, rfl, rfl⟩ | ⟨rfl, rfl, rfl⟩
        · exact List.mem_append_left _ hm
        · exact List.mem_append_right _ hm
      have := hrest _ (List.mem_append_left _ (List.mem_append_right _ h))
      exact this
    have hz0 : ∀ i < m, eval (onLine (v 1) (v 2) (((i + 1 + 1 : ℕ) : ℝ) / ((m + 1 + 1 : ℕ) : ℝ))) f = 0 := by
      intro i hi
      have h : (⟨onLine (v 1) (v 2) (((i + 1 + 1 : ℕ) : ℝ) / ((m + 1 + 1 : ℕ) : ℝ)), (1, 0)⟩ : PointDof) ∈
          (List.range' 2 m).map (fun i : ℕ => (⟨onLine (v 1) (v 2) ((i : ℝ) / ((m + 1 + 1 : ℕ) : ℝ)), (1, 0)⟩ : PointDof)) := by
        rw [List.mem_map]
        exact ⟨i + 1 + 1, List.mem_range'_1.2 (by omega), by simp only⟩
      have := hrest _ (List.mem_append_left _ (List.mem_append_left _ h))
      exact this
    have hodd := (Even.add_one he).neg_one_pow (α := ℝ)
    have r1 := edge_relation hf (v 0) (v 2)
    have r2 := edge_relation hf (v 0) (v 1)
    have r0 := edge_relation hf (v 1) (v 2)
    rw [Finset.sum_eq_zero fun i hi => by rw [hz 1 0 2 (by simp) i (Finset.mem_range.1 hi), mul_zero], hodd] at r1
    rw [Finset.sum_eq_zero fun i hi => by rw [hz 2 0 1 (by simp) i (Finset.mem_range.1 hi), mul_zero], hodd] at r2
    rw [Finset.sum_range_succ', Finset.sum_eq_zero fun i hi => by
      rw [hz0 i (Finset.mem_range.1 hi), mul_zero], hodd, hfirst, Nat.sub_zero, he.neg_one_pow,
      Nat.zero_add, Nat.choose_one_right] at r0
    have : ((m + 1 + 1 : ℕ) : ℝ) = 0 := by linarith
    exact absurd this (by positivity)

/-! ### Order 1 on tetrahedra -/

/-- The mean value of three points. -/
noncomputable def mean3 (a b d : ℕ → ℝ) : ℕ → ℝ := fun j => (a j + b j + d j) / 3

theorem crDofs_tetrahedron (v : ℕ → ℕ → ℝ) :
    crDofs "equispaced" .tetrahedron v 1 = some [⟨mean3 (v 1) (v 2) (v 3), (2, 0)⟩, ⟨mean3 (v 0) (v 2) (v 3), (2, 1)⟩,
      ⟨mean3 (v 0) (v 1) (v 3), (2, 2)⟩, ⟨mean3 (v 0) (v 1) (v 2), (2, 3)⟩] := by
  obtain ⟨points, h1, h2⟩ := quadPoints_equispaced (n := 3) (by omega)
  obtain ⟨points', h3, -⟩ := quadPoints_equispaced (n := 2) (by omega)
  have hp : points.getD 1 0 = 1 / 3 := by rw [h2 1 (by omega)]; norm_num
  have hfac : ∀ e a b d, (e, a, b, d) ∈ [(0, 1, 2, 3), (1, 0, 2, 3), (2, 0, 1, 3), (3, 0, 1, 2)] →
      crFacet .tetrahedron v points 1 e = some [⟨mean3 (v a) (v b) (v d), (2, e)⟩] := by
    intro e a b d he
    have h : crFacet .tetrahedron v points 1 e =
        [[1, 1]].mapM fun i => (getPoint .triangle (entityVerts v [a, b, d]) (i.map fun b => points.getD b 0)).map fun p =>
          ⟨p, (2, e)⟩ := by
      simp only [List.mem_cons, Prod.mk.injEq, List.not_mem_nil, or_false] at he
      rcases he with ⟨rfl, rfl, rfl, rfl⟩ | ⟨rfl, rfl, rfl, rfl⟩ | ⟨rfl, rfl, rfl, rfl⟩ | ⟨rfl, rfl, rfl, rfl⟩ <;> rfl
    have e0 : entityPoint .triangle (entityVerts v [a, b, d]) ([1, 1].map fun b => points.getD b 0) =
        mean3 (v a) (v b) (v d) := by
      funext j
      simp only [entityPoint, List.map_cons, List.map_nil, List.length_cons, List.length_nil, Finset.sum_range_succ,
        Finset.sum_range_zero, List.getD_cons_zero, List.getD_cons_succ, hp]
      show v a j + (0 + (v b j - v a j) * _ + (v d j - v a j) * _) = _
      rw [mean3]
      ring
    rw [h, List.mapM_cons, List.mapM_nil, getPoint_eq _ _ _ (by rfl), e0]
    rfl
  unfold crDofs
  rw [if_neg (by simp), if_neg (by simp)]
  show (quadPoints "equispaced" (3 + 1)).bind _ = _
  rw [h1, Option.bind_some]
  show (some 4).bind _ = _
  have : List.range 4 = [0, 1, 2, 3] := rfl
  rw [Option.bind_some, this]
  simp only [List.mapM_cons, List.mapM_nil, hfac 0 1 2 3 (by simp), hfac 1 0 2 3 (by simp), hfac 2 0 1 3 (by simp),
    hfac 3 0 1 2 (by simp)]
  simp only [Option.bind_eq_bind, Option.bind_some, Option.pure_def]
  show (quadPoints "equispaced" (2 + 1)).bind _ = _
  rw [h3, Option.bind_some]
  rfl

/-- The value of a linear polynomial at the centre of a triangle is the mean value of the values at its vertices. -/
theorem eval_mean3 {f : MvPolynomial ℕ ℝ} (hf : f ∈ P 3 1) (a b d : ℕ → ℝ) :
    eval (mean3 a b d) f = (eval a f + eval b f + eval d f) / 3 := by
  have h1 := edge_relation (n := 1) hf
  simp only [Finset.sum_range_one] at h1
  have e1 := h1 b d
  have hm : ∀ p q : ℕ → ℝ, eval (onLine p q (1 / 2)) f = (eval p f + eval q f) / 2 := by
    intro p q
    have := h1 p q
    norm_num at this
    linarith
  have hl : ∀ (p q : ℕ → ℝ) (t : ℝ), eval (onLine p q t) f = (1 - t) * eval p f + t * eval q f := by
    intro p q t
    obtain ⟨g, g1, g2⟩ := line_poly (n := 1) hf p q 1
    obtain ⟨c1, c0, rfl⟩ := Polynomial.exists_eq_X_add_C_of_natDegree_le_one g1
    have e0 := g2 0
    have e1 := g2 1
    have e2 := g2 t
    simp only [Polynomial.eval_add, Polynomial.eval_mul, Polynomial.eval_C, Polynomial.eval_X, mul_one, zero_mul,
      onLine_zero, onLine_one] at e0 e1 e2
    rw [← e2, ← e0, ← e1]
    ring
  have e : mean3 a b d = onLine a (onLine b d (1 / 2)) (2 / 3) := by
    funext j
    simp only [mean3, onLine]
    ring
  rw [e, hl, hl]
  ring

/-- **C65** On tetrahedra the element of order 1, the only order that is accepted, can be created. -/
theorem cr_created_tetrahedron (v : ℕ → ℕ → ℝ) (hv : NonDegenerate .tetrahedron v) :
    ∃ basis dofs fs, crElement "equispaced" .tetrahedron v 1 = some (.ciarlet basis dofs) ∧
      getBasis (.ciarlet basis dofs) = some fs ∧ lspan fs = P 3 1 ∧ fs.length = 4 := by
  have h1 := crDofs_tetrahedron v
  obtain ⟨l, l1, l2⟩ := polySet_lspan (d := 3) (by simp) ((1 : ℕ) : ℤ)
  obtain ⟨l', l3, l4, l5⟩ := polySet_spec 3 (by simp) ((1 : ℕ) : ℤ)
  obtain rfl : l = l' := Option.some.inj (l1.symm.trans l3)
  have hlen : (l.map (denoteMono ℝ)).length = 4 := by rw [List.length_map, polySet_length _ _ _ l1]; rfl
  obtain ⟨k1, fs, k2, k3, k4⟩ := ciarlet_basis (dofs := List.map PointDof.functional _)
    (basis := l.map (denoteMono ℝ)) (by rw [hlen]; rfl) (independent_monos ℝ l4 fun m hm => ((l5 m).1 hm).1)
    fun p hp (hz : ∀ d ∈ List.map PointDof.functional [⟨mean3 (v 1) (v 2) (v 3), (2, 0)⟩,
      ⟨mean3 (v 0) (v 2) (v 3), (2, 1)⟩, ⟨mean3 (v 0) (v 1) (v 3), (2, 2)⟩, ⟨mean3 (v 0) (v 1) (v 2), (2, 3)⟩],
      d.eval p = 0) => by
    rw [l2] at hp
    simp only [List.map_cons, List.map_nil, List.mem_cons, List.not_mem_nil, or_false, forall_eq_or_imp, forall_eq,
      eval_functional] at hz
    rw [eval_mean3 hp, eval_mean3 hp, eval_mean3 hp, eval_mean3 hp] at hz
    obtain ⟨z0, z1, z2, z3⟩ := hz
    obtain ⟨L, hL, -⟩ := lagrange_count (c := .tetrahedron) (Or.inr (Or.inr rfl)) v 1
    refine lagrange_determined (c := .tetrahedron) (Or.inr (Or.inr rfl)) v hv hL hp fun d hd => ?_
    obtain ⟨β, b1, -, b3⟩ := lagrange_lattice (c := .tetrahedron) (Or.inr (Or.inr rfl)) v one_pos hL hd
    have hb : β 0 + β 1 + β 2 + β 3 = 1 := by
      refine Eq.trans ?_ b1
      show _ = ∑ i ∈ Finset.range 4, β i
      simp [Finset.sum_range_succ]
    have : ∃ i < 4, d.point = v i := by
      have hc : ∃ i < 4, β i = 1 ∧ ∀ j < 4, j ≠ i → β j = 0 := by
        have : β 0 = 1 ∨ β 1 = 1 ∨ β 2 = 1 ∨ β 3 = 1 := by omega
        rcases this with h | h | h | h
        · exact ⟨0, by omega, h, fun j hj hne => by interval_cases j <;> omega⟩
        · exact ⟨1, by omega, h, fun j hj hne => by interval_cases j <;> omega⟩
        · exact ⟨2, by omega, h, fun j hj hne => by interval_cases j <;> omega⟩
        · exact ⟨3, by omega, h, fun j hj hne => by interval_cases j <;> omega⟩
      obtain ⟨i, hi, c1, c2⟩ := hc
      refine ⟨i, hi, ?_⟩
      rw [b3]
      funext j
      show ∑ x ∈ Finset.range 4, _ = _
      rw [Finset.sum_eq_single_of_mem i (Finset.mem_range.2 hi) fun x hx hne => by
        rw [c2 x (Finset.mem_range.1 hx) hne]; simp, c1]
      simp
    obtain ⟨i, hi, e⟩ := this
    rw [e]
    interval_cases i <;> linarith
  refine ⟨_, _, fs, ?_, k2, k3.trans l2, by rw [k4, hlen]⟩
  rw [crElement, h1, Option.bind_some]
  show (polySet 3 (1 : ℕ)).bind _ = _
  rw [l1, Option.bind_some]
  exact k1

/-- The default cells meet the hypotheses. -/
example : (∃ basis dofs fs, crElement "equispaced" .triangle (refVertex .triangle) 5 = some (.ciarlet basis dofs) ∧
    getBasis (.ciarlet basis dofs) = some fs ∧ lspan fs = P 2 (5 : ℕ) ∧ fs.length = 21) ∧
    NonDegenerate .tetrahedron (refVertex .tetrahedron) :=
  ⟨cr_created_odd_partial _ (nonDegenerate_ref (Or.inr (Or.inl rfl))) (by decide), nonDegenerate_ref (Or.inr (Or.inr rfl))⟩

end Verif.Families
