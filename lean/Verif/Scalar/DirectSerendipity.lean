import Verif.Families.BoxDiv
import Verif.Scalar.Trace
import Verif.Scalar.BubbleEnriched
import Verif.Scalar.Barycentric
import Mathlib.Algebra.CharZero.Infinite
/-!
# Direct serendipity elements

symfem/elements/direct_serendipity.py. The functions are not polynomials, so they are modelled as functions of the point.
-/

namespace Verif.Scalar
open Verif.References Verif.Moments Verif.Functionals Verif.Elements Verif.FiniteElement Verif.Polysets Verif.Orthogonal
open Verif.Families
open MvPolynomial

/-! ### Model -/

/-- A function of the point. -/
abbrev PFun := (ℕ → ℝ) → ℝ

/-- `basis_functions` and `basis_entities` of the vertices (symfem/elements/direct_serendipity.py:32-33). -/
def dsVertices : List (PFun × ℕ × ℕ) :=
  [(fun x => (1 - x 1) * (1 - x 0), 0, 0), (fun x => (1 - x 1) * x 0, 0, 1), (fun x => x 1 * (1 - x 0), 0, 2), (fun x => x 1 * x 0, 0, 3)]

/-- `lambda_h` with `alpha_h = 1`, `beta_h = 2`, `gamma_h = 1` (and `lambda_v`), of the coordinate `t`
(symfem/elements/direct_serendipity.py:37-53). -/
def dsLambda (t : ℝ) : ℝ := 1 * (1 - t) + 2 * t + 1

/-- `lambda_12` and `lambda_34` with `xi = 2`, `eta = 1` (symfem/elements/direct_serendipity.py:51-55). -/
def dsOpp (t : ℝ) : ℝ := 2 * (1 - t) + 1 * t

/-- `r_h` and `r_v` with `xi = 2`, `eta = 1` (symfem/elements/direct_serendipity.py:50-54). -/
noncomputable def dsR (t : ℝ) : ℝ := -2 * t / ((1 - t) / 2 + t / 1)

/-- The functions of a pair of opposite edges (symfem/elements/direct_serendipity.py:57-73): `p` is the coordinate along the edges, `q`
the other one. -/
noncomputable def dsEdges (k p q e e' : ℕ) : List (PFun × ℕ × ℕ) :=
  ((List.range (k - 1)).map fun j => (fun x => (1 - x p) * x p * dsLambda (x p) ^ j, 1, e)) ++
  ((List.range (k - 2)).map fun j => (fun x => (1 - x p) * x p * dsOpp (x q) * dsLambda (x p) ^ j, 1, e')) ++
  [(fun x => (1 - x p) * x p * dsR (x q) * dsLambda (x p) ^ (k - 2), 1, e')]

/-- The functions of the interior (symfem/elements/direct_serendipity.py:76-79), from `DPC(reference, 4, "equispaced")`. -/
noncomputable def dsInterior : Option (List (PFun × ℕ × ℕ)) :=
  ((dpcElement .quadrilateral (refVertex .quadrilateral) 4).bind getBasis).map fun fs =>
    fs.map fun f => (fun x => eval x f * x 0 * x 1 * (1 - x 0) * (1 - x 1), 2, 0)

/-- `_basis_functions` and `_basis_entities` of `DirectSerendipity(reference, order)` (symfem/elements/direct_serendipity.py:20-81). -/
noncomputable def directSer (k : ℕ) : Option (List (PFun × ℕ × ℕ)) := do
  let interior ← if 4 ≤ k then dsInterior else some []
  return dsVertices ++ (if 2 ≤ k then dsEdges k 1 0 1 2 ++ dsEdges k 0 1 0 3 else []) ++ interior

/-! ### Number of functions -/

/-- The product of the function of a polynomial with `x * y * (1 - x) * (1 - y)`. -/
noncomputable def dsBub (p : MvPolynomial ℕ ℝ) : PFun := fun x => eval x p * x 0 * x 1 * (1 - x 0) * (1 - x 1)

theorem finrank_P2 (k : ℕ) : Module.finrank ℝ (P 2 k) = (k + 2).choose 2 := by
  obtain ⟨l, hl, hs⟩ := polySet_lspan (Or.inr (Or.inl rfl) : 2 = 1 ∨ 2 = 2 ∨ 2 = 3) (k : ℤ)
  have hi := (scalar_sets_independent ℝ).1 _ _ _ hl
  rw [independent_finrank, hs, List.length_map, polySet_length _ _ _ hl] at hi
  exact hi.symm

theorem dsInterior_spec : ∃ fs, dsInterior = some (fs.map fun f => (dsBub f, 2, 0)) ∧ lspan fs = P 2 4 ∧ fs.length = 15 ∧
    Independent ℝ fs := by
  obtain ⟨fs, h1, h2, h3⟩ := dpc_sub (t := .quadrilateral) (by simp [Tensor]) 4
  unfold scalarBasis at h1
  rw [Option.map_eq_some_iff] at h1
  obtain ⟨gs, hg, he⟩ := h1
  have : gs = fs := List.map_injective_iff.2 (fun a b h => by simpa using h) he
  subst this
  have h3' : gs.length = 15 := h3
  refine ⟨gs, by rw [dsInterior, hg]; rfl, h2, h3', ?_⟩
  rw [independent_finrank, h2, h3']
  exact (finrank_P2 4).symm

theorem length_dsEdges {k : ℕ} (hk : 2 ≤ k) (p q e e' : ℕ) : (dsEdges k p q e e').length = 2 * (k - 1) := by
  simp [dsEdges]
  omega

/-- **C121.** The number of functions. -/
theorem directSer_length (k : ℕ) (hk : 1 ≤ k) : ∃ l, directSer k = some l ∧ l.length = if 4 ≤ k then 4 * k + 15 else 4 * k := by
  obtain ⟨fs, h1, -, h3, -⟩ := dsInterior_spec
  by_cases h4 : 4 ≤ k
  · refine ⟨_, by rw [directSer, if_pos h4, h1]; rfl, ?_⟩
    rw [if_pos (by omega), List.length_append, List.length_append, List.length_append, length_dsEdges (by omega), length_dsEdges (by omega),
      List.length_map, h3, if_pos h4]
    simp [dsVertices]
    omega
  · refine ⟨_, by rw [directSer, if_neg h4]; rfl, ?_⟩
    rw [if_neg h4, List.append_nil]
    by_cases h2 : 2 ≤ k
    · rw [if_pos h2, List.length_append, List.length_append, length_dsEdges h2, length_dsEdges h2]
      simp [dsVertices]
      omega
    · rw [if_neg h2]
      simp [dsVertices]
      omega

/-! ### Independence -/

/-- The function `(1 - x_p) * x_p * w(x_q) * r(lambda(x_p))`. -/
noncomputable def dsG (p q : ℕ) (w : ℝ → ℝ) : Polynomial ℝ →ₗ[ℝ] PFun where
  toFun r := fun x => (1 - x p) * x p * w (x q) * r.eval (dsLambda (x p))
  map_add' a b := by funext x; simp; ring
  map_smul' a b := by funext x; simp; ring

theorem dsEdges_eq (k p q e e' : ℕ) : (dsEdges k p q e e').map Prod.fst =
    ((List.range (k - 1)).map fun j => (Polynomial.X : Polynomial ℝ) ^ j).map (dsG p q fun _ => 1) ++
    (((List.range (k - 2)).map fun j => (Polynomial.X : Polynomial ℝ) ^ j).map (dsG p q dsOpp) ++
    [(Polynomial.X : Polynomial ℝ) ^ (k - 2)].map (dsG p q dsR)) := by
  simp [dsEdges, dsG, Function.comp_def]

theorem powers_coeff {n m : ℕ} (h : n ≤ m) {r : Polynomial ℝ} (hr : r ∈ lspan ((List.range n).map fun j => (Polynomial.X : Polynomial ℝ) ^ j)) :
    r.coeff m = 0 := by
  have : lspan ((List.range n).map fun j => (Polynomial.X : Polynomial ℝ) ^ j) ≤ LinearMap.ker (Polynomial.lcoeff ℝ m) := by
    rw [lspan, Submodule.span_le]
    intro v hv
    rw [Set.mem_ofPred_eq, List.mem_map] at hv
    obtain ⟨j, hj, rfl⟩ := hv
    rw [List.mem_range] at hj
    simp [Polynomial.coeff_X_pow]
    omega
  exact this hr

theorem powers_independent (n : ℕ) : Independent ℝ ((List.range n).map fun j => (Polynomial.X : Polynomial ℝ) ^ j) := by
  refine independent_of_dual (L := fun j => Polynomial.lcoeff ℝ j) List.nodup_range ?_ ?_
  · intro a _
    simp
  · intro a _ b _ hab
    simp [Polynomial.coeff_X_pow, hab]

/-- A polynomial is determined by the values of its function on a line `x_q = s`. -/
theorem dsG_zero {p q : ℕ} (hpq : p ≠ q) {w : ℝ → ℝ} {r : Polynomial ℝ} (s : ℝ) (hs : w s ≠ 0)
    (h : ∀ t : ℝ, 0 < t → t < 1 → dsG p q w r (Function.update (Function.update 0 q s) p t) = 0) : r = 0 := by
  refine Polynomial.eq_zero_of_infinite_isRoot r ?_
  refine Set.Infinite.mono ?_ (Set.Ioo_infinite (show (2 : ℝ) < 3 by norm_num))
  intro t ht
  have h1 := h (t - 2) (by linarith [ht.1]) (by linarith [ht.2])
  simp [dsG, hpq, hpq.symm, dsLambda] at h1
  have e1 : 1 - (t - 2) ≠ 0 := by have := ht.2; intro h; linarith
  have e2 : t - 2 ≠ 0 := by have := ht.1; intro h; linarith
  rcases h1 with ((h1 | h1) | h1) | h1
  · exact absurd h1 e1
  · exact absurd h1 e2
  · exact absurd h1 hs
  · rw [Set.mem_setOf_eq, Polynomial.IsRoot]
    rw [← h1]
    congr 1
    ring

theorem dsEdges_mem {k p q e e' : ℕ} {v : PFun} (hv : v ∈ lspan ((dsEdges k p q e e').map Prod.fst)) : ∃ (a b : Polynomial ℝ) (c : ℝ),
    (∀ m, k - 1 ≤ m → Polynomial.coeff a m = 0) ∧ (∀ m, k - 2 ≤ m → Polynomial.coeff b m = 0) ∧
    v = dsG p q (fun _ => 1) a + (dsG p q dsOpp b + dsG p q dsR (c • Polynomial.X ^ (k - 2))) := by
  rw [dsEdges_eq, lspan_append, lspan_append, Submodule.mem_sup] at hv
  obtain ⟨v1, h1, v', h', rfl⟩ := hv
  rw [Submodule.mem_sup] at h'
  obtain ⟨v2, h2, v3, h3, rfl⟩ := h'
  rw [lspan_map', Submodule.mem_map] at h1 h2 h3
  obtain ⟨a, ha, rfl⟩ := h1
  obtain ⟨b, hb, rfl⟩ := h2
  obtain ⟨r, hr, rfl⟩ := h3
  have : lspan [(Polynomial.X : Polynomial ℝ) ^ (k - 2)] = Submodule.span ℝ {Polynomial.X ^ (k - 2)} := by
    rw [lspan]
    congr 1
    ext v
    simp
  rw [this, Submodule.mem_span_singleton] at hr
  obtain ⟨c, rfl⟩ := hr
  exact ⟨a, b, c, fun m hm => powers_coeff hm ha, fun m hm => powers_coeff hm hb, rfl⟩

/-- Functions of opposite edges which vanish on both of them are zero. -/
theorem dsEdges_zero {k p q e e' : ℕ} (hk : 2 ≤ k) (hpq : p ≠ q) {v : PFun} (hv : v ∈ lspan ((dsEdges k p q e e').map Prod.fst))
    (h : ∀ s : ℝ, s = 0 ∨ s = 1 → ∀ t : ℝ, 0 < t → t < 1 → v (Function.update (Function.update 0 q s) p t) = 0) : v = 0 := by
  obtain ⟨a, b, c, ha, hb, rfl⟩ := dsEdges_mem hv
  have h0 : a + (2 : ℝ) • b = 0 := by
    refine dsG_zero (w := fun _ => 1) hpq 0 one_ne_zero fun t h1 h2 => ?_
    rw [← h 0 (Or.inl rfl) t h1 h2]
    simp [dsG, hpq, hpq.symm, dsOpp, dsR]
    ring
  have h1 : a + b + (-2 * c) • Polynomial.X ^ (k - 2) = 0 := by
    refine dsG_zero (w := fun _ => 1) hpq 0 one_ne_zero fun t h1 h2 => ?_
    rw [← h 1 (Or.inr rfl) t h1 h2]
    simp [dsG, hpq, hpq.symm, dsOpp, dsR]
    ring
  have hak : a.coeff (k - 2) = 0 := by
    have := congrArg (fun r => Polynomial.coeff r (k - 2)) h0
    simpa [hb (k - 2) le_rfl] using this
  have hc : c = 0 := by
    have := congrArg (fun r => Polynomial.coeff r (k - 2)) h1
    simpa [hb (k - 2) le_rfl, hak] using this
  subst hc
  simp only [mul_zero, zero_smul, add_zero] at h1
  have hb0 : b = 0 := by
    have : b = (a + (2 : ℝ) • b) - (a + b) := by module
    rw [this, h0, h1, sub_zero]
  subst hb0
  rw [add_zero] at h1
  subst h1
  simp

theorem dsG_sum_zero {p q : ℕ} (hpq : p ≠ q) {a b r : Polynomial ℝ}
    (h : dsG p q (fun _ => 1) a + (dsG p q dsOpp b + dsG p q dsR r) = 0) : a = 0 ∧ b = 0 ∧ r = 0 := by
  have h0 : a + (2 : ℝ) • b = 0 := by
    refine dsG_zero (w := fun _ => 1) hpq 0 one_ne_zero fun t h1 h2 => ?_
    have := congrFun h (Function.update (Function.update 0 q 0) p t)
    simp only [Pi.zero_apply] at this
    rw [← this]
    simp [dsG, hpq, hpq.symm, dsOpp, dsR]
    ring
  have h1 : a + b + (-2 : ℝ) • r = 0 := by
    refine dsG_zero (w := fun _ => 1) hpq 0 one_ne_zero fun t h1 h2 => ?_
    have := congrFun h (Function.update (Function.update 0 q 1) p t)
    simp only [Pi.zero_apply] at this
    rw [← this]
    simp [dsG, hpq, hpq.symm, dsOpp, dsR]
    ring
  have h2 : a + (3 / 2 : ℝ) • b + (-4 / 3 : ℝ) • r = 0 := by
    refine dsG_zero (w := fun _ => 1) hpq 0 one_ne_zero fun t h1 h2 => ?_
    have := congrFun h (Function.update (Function.update 0 q (1 / 2)) p t)
    simp only [Pi.zero_apply] at this
    rw [← this]
    simp [dsG, hpq, hpq.symm, dsOpp, dsR]
    ring
  have hr : r = 0 := by
    have : r = (3 / 2 : ℝ) • ((a + (2 : ℝ) • b) + (a + b + (-2 : ℝ) • r) - (2 : ℝ) • (a + (3 / 2 : ℝ) • b + (-4 / 3 : ℝ) • r)) := by module
    rw [this, h0, h1, h2]
    simp
  have hb : b = 0 := by
    have : b = (a + (2 : ℝ) • b) - (a + b + (-2 : ℝ) • r) - (2 : ℝ) • r := by module
    rw [this, h0, h1, hr]
    simp
  subst hr hb
  exact ⟨by simpa using h0, rfl, rfl⟩

theorem dsEdges_independent (k : ℕ) {p q e e' : ℕ} (hpq : p ≠ q) : Independent ℝ ((dsEdges k p q e e').map Prod.fst) := by
  rw [dsEdges_eq]
  have hA : ∀ r, dsG p q (fun _ => 1) r = 0 → r = 0 := fun r hr => (dsG_sum_zero hpq (b := 0) (r := 0) (by simpa using hr)).1
  have hB : ∀ r, dsG p q dsOpp r = 0 → r = 0 := fun r hr => (dsG_sum_zero hpq (a := 0) (r := 0) (by simpa using hr)).2.1
  have hC : ∀ r, dsG p q dsR r = 0 → r = 0 := fun r hr => (dsG_sum_zero hpq (a := 0) (b := 0) (by simpa using hr)).2.2
  refine independent_append (independent_map' _ (fun v _ => hA v) (powers_independent _))
    (independent_append (independent_map' _ (fun v _ => hB v) (powers_independent _)) (independent_map' _ (fun v _ => hC v) ?_) ?_) ?_
  · refine independent_of_dual (keys := [k - 2]) (f := fun j => (Polynomial.X : Polynomial ℝ) ^ j)
      (L := fun j => Polynomial.lcoeff ℝ j) (by simp) ?_ ?_
    · intro a _
      simp
    · intro a ha b hb hab
      simp at ha hb
      omega
  · rw [Submodule.disjoint_def]
    intro v h1 h2
    rw [lspan_map', Submodule.mem_map] at h1 h2
    obtain ⟨b, -, rfl⟩ := h1
    obtain ⟨r, -, hr⟩ := h2
    have := (dsG_sum_zero hpq (a := 0) (b := b) (r := -r) (by simp [hr])).2.1
    rw [this, map_zero]
  · rw [Submodule.disjoint_def]
    intro v h1 h2
    rw [lspan_append, Submodule.mem_sup] at h2
    obtain ⟨v1, h3, v2, h4, h5⟩ := h2
    rw [lspan_map', Submodule.mem_map] at h1 h3 h4
    obtain ⟨a, -, rfl⟩ := h1
    obtain ⟨b, -, rfl⟩ := h3
    obtain ⟨r, -, rfl⟩ := h4
    have := (dsG_sum_zero hpq (a := a) (b := -b) (r := -r) (by rw [map_neg, map_neg, ← h5]; abel)).1
    rw [this, map_zero]

theorem dsEdges_vanish {k p q e e' : ℕ} {v : PFun} (hv : v ∈ lspan ((dsEdges k p q e e').map Prod.fst)) {x : ℕ → ℝ}
    (hx : x p = 0 ∨ x p = 1) : v x = 0 := by
  obtain ⟨a, b, c, -, -, rfl⟩ := dsEdges_mem hv
  rcases hx with hx | hx <;> simp [dsG, hx]

/-- The vertices of the square. -/
def sqVert (i j : ℝ) : ℕ → ℝ := Function.update (Function.update 0 0 i) 1 j

theorem dsVertices_mem {v : PFun} (hv : v ∈ lspan (dsVertices.map Prod.fst)) (x : ℕ → ℝ) :
    v x = v (sqVert 0 0) * ((1 - x 1) * (1 - x 0)) + v (sqVert 1 0) * ((1 - x 1) * x 0) + v (sqVert 0 1) * (x 1 * (1 - x 0)) +
      v (sqVert 1 1) * (x 1 * x 0) := by
  induction hv using Submodule.span_induction with
  | mem w hw =>
    simp [dsVertices] at hw
    rcases hw with rfl | rfl | rfl | rfl <;> simp [sqVert]
  | zero => simp
  | add a b _ _ ha hb => simp only [Pi.add_apply, ha, hb]; ring
  | smul c a _ ha => simp only [Pi.smul_apply, smul_eq_mul, ha]; ring

theorem dsVertices_independent : Independent ℝ (dsVertices.map Prod.fst) := by
  let f : ℕ × ℕ → PFun := fun a x => (if a.2 = 0 then 1 - x 1 else x 1) * (if a.1 = 0 then 1 - x 0 else x 0)
  have : dsVertices.map Prod.fst = [(0, 0), (1, 0), (0, 1), (1, 1)].map f := by
    simp [dsVertices, f]
  rw [this]
  refine independent_of_dual (L := fun a => LinearMap.proj (sqVert a.1 a.2)) (by decide) ?_ ?_
  · intro a ha
    simp at ha
    rcases ha with rfl | rfl | rfl | rfl <;> simp [f, sqVert]
  · intro a ha b hb hab
    simp at ha hb
    rcases ha with rfl | rfl | rfl | rfl <;> rcases hb with rfl | rfl | rfl | rfl <;> first | exact absurd rfl hab | simp [f, sqVert]

/-- The boundary of the unit square. -/
def SqBoundary (x : ℕ → ℝ) : Prop := (∀ i, 0 ≤ x i ∧ x i ≤ 1) ∧ (x 0 = 0 ∨ x 0 = 1 ∨ x 1 = 0 ∨ x 1 = 1)

theorem sqVert_boundary {i j : ℝ} (hi : i = 0 ∨ i = 1) (hj : 0 ≤ j) (hj' : j ≤ 1) : SqBoundary (sqVert i j) := by
  refine ⟨fun m => ?_, by rcases hi with rfl | rfl <;> simp [sqVert]⟩
  by_cases h1 : m = 1
  · subst h1
    simp [sqVert, hj, hj']
  · by_cases h0 : m = 0
    · subst h0
      rcases hi with rfl | rfl <;> simp [sqVert]
    · simp [sqVert, h0, h1]

theorem sqVert_boundary' {i j : ℝ} (hi : j = 0 ∨ j = 1) (hj : 0 ≤ i) (hj' : i ≤ 1) : SqBoundary (sqVert i j) := by
  refine ⟨fun m => ?_, by rcases hi with rfl | rfl <;> simp [sqVert]⟩
  by_cases h1 : m = 1
  · subst h1
    rcases hi with rfl | rfl <;> simp [sqVert]
  · by_cases h0 : m = 0
    · subst h0
      simp [sqVert, hj, hj']
    · simp [sqVert, h0, h1]

/-- The functions of the vertices and edges are determined by their values on the boundary. -/
theorem ds_boundary {k : ℕ} (hk : 2 ≤ k) {v a b : PFun} (hv : v ∈ lspan (dsVertices.map Prod.fst))
    (ha : a ∈ lspan ((dsEdges k 1 0 1 2).map Prod.fst)) (hb : b ∈ lspan ((dsEdges k 0 1 0 3).map Prod.fst))
    (h : ∀ x, SqBoundary x → v x + a x + b x = 0) : v = 0 ∧ a = 0 ∧ b = 0 := by
  have hv0 : ∀ i j : ℝ, (i = 0 ∨ i = 1) → (j = 0 ∨ j = 1) → v (sqVert i j) = 0 := by
    intro i j hi hj
    have h1 := h (sqVert i j) (sqVert_boundary hi (by rcases hj with rfl | rfl <;> norm_num) (by rcases hj with rfl | rfl <;> norm_num))
    rwa [dsEdges_vanish ha (x := sqVert i j) (by simpa [sqVert] using hj), dsEdges_vanish hb (x := sqVert i j) (by simpa [sqVert] using hi),
      add_zero, add_zero] at h1
  have hv1 : v = 0 := by
    funext x
    rw [dsVertices_mem hv, hv0 _ _ (Or.inl rfl) (Or.inl rfl), hv0 _ _ (Or.inr rfl) (Or.inl rfl), hv0 _ _ (Or.inl rfl) (Or.inr rfl),
      hv0 _ _ (Or.inr rfl) (Or.inr rfl)]
    simp
  subst hv1
  refine ⟨rfl, ?_, ?_⟩
  · refine dsEdges_zero hk (by norm_num) ha fun s hs t h0 h1 => ?_
    have h2 := h _ (sqVert_boundary hs h0.le h1.le)
    rw [dsEdges_vanish hb (x := sqVert s t) (by simpa [sqVert] using hs)] at h2
    show a (sqVert s t) = 0
    simpa using h2
  · refine dsEdges_zero hk (by norm_num) hb fun s hs t h0 h1 => ?_
    have h2 := h _ (sqVert_boundary' hs h0.le h1.le)
    rw [dsEdges_vanish ha (x := sqVert t s) (by simpa [sqVert] using hs)] at h2
    have e : Function.update (Function.update (0 : ℕ → ℝ) 1 s) 0 t = sqVert t s := by
      rw [sqVert, Function.update_comm (by norm_num)]
    rw [e]
    simpa using h2

/-- `dsBub` as a linear map. -/
noncomputable def dsBubMap : MvPolynomial ℕ ℝ →ₗ[ℝ] PFun where
  toFun := dsBub
  map_add' a b := by funext x; simp [dsBub]; ring
  map_smul' a b := by funext x; simp [dsBub]; ring

theorem dsBub_boundary (p : MvPolynomial ℕ ℝ) {x : ℕ → ℝ} (hx : SqBoundary x) : dsBubMap p x = 0 := by
  show dsBub p x = 0
  rcases hx.2 with h | h | h | h <;> simp [dsBub, h]

theorem dsBub_zero {p : MvPolynomial ℕ ℝ} (h : dsBubMap p = 0) : p = 0 := by
  have h1 : p * X 0 * X 1 * (1 - X 0) * (1 - X 1) = 0 := by
    apply MvPolynomial.funext
    intro x
    have := congrFun h x
    simpa [dsBubMap, dsBub] using this
  have e : ∀ i : ℕ, (1 - X i : MvPolynomial ℕ ℝ) ≠ 0 := by
    intro i hi
    have := congrArg (eval fun _ => (0 : ℝ)) hi
    simp at this
  simpa [X_ne_zero, e] using h1

/-- **C121.** For every order the functions are linearly independent. -/
theorem directSer_independent (k : ℕ) (l : List (PFun × ℕ × ℕ)) (hl : directSer k = some l) : Independent ℝ (l.map Prod.fst) := by
  obtain ⟨fs, h1, -, -, h4⟩ := dsInterior_spec
  have hI : Independent ℝ (fs.map dsBubMap) := independent_map' _ (fun v _ => dsBub_zero) h4
  have hE : 2 ≤ k → Independent ℝ ((dsVertices ++ (dsEdges k 1 0 1 2 ++ dsEdges k 0 1 0 3)).map Prod.fst) := by
    intro h2
    rw [List.map_append, List.map_append]
    refine independent_append dsVertices_independent (independent_append (dsEdges_independent k (by norm_num))
      (dsEdges_independent k (by norm_num)) ?_) ?_
    · rw [Submodule.disjoint_def]
      intro a ha hb
      exact (ds_boundary h2 (Submodule.zero_mem _) ha (Submodule.neg_mem _ hb) fun x _ => by simp).2.1
    · rw [Submodule.disjoint_def]
      intro v hv hw
      rw [lspan_append, Submodule.mem_sup] at hw
      obtain ⟨a, ha, b, hb, rfl⟩ := hw
      exact (ds_boundary h2 hv (Submodule.neg_mem _ ha) (Submodule.neg_mem _ hb) fun x _ => by simp).1
  by_cases h4 : 4 ≤ k
  · rw [directSer, if_pos h4, h1, if_pos (by omega)] at hl
    simp only [Option.pure_def, Option.bind_eq_bind, Option.bind_some, Option.some.injEq] at hl
    subst hl
    rw [List.map_append]
    have e : (fs.map fun f => (dsBub f, 2, 0)).map Prod.fst = fs.map dsBubMap := by
      rw [List.map_map]
      rfl
    rw [e]
    refine independent_append (hE (by omega)) hI ?_
    rw [Submodule.disjoint_def]
    intro v hv hw
    rw [lspan_map', Submodule.mem_map] at hw
    obtain ⟨p, -, rfl⟩ := hw
    rw [List.map_append, List.map_append, lspan_append, lspan_append, Submodule.mem_sup] at hv
    obtain ⟨v, hv, c, hc, h5⟩ := hv
    rw [Submodule.mem_sup] at hc
    obtain ⟨a, ha, b, hb, rfl⟩ := hc
    obtain ⟨rfl, rfl, rfl⟩ := ds_boundary (show 2 ≤ k by omega) hv ha hb fun x hx => by
      rw [← dsBub_boundary p hx, ← h5]
      simp [add_assoc]
    rw [← h5]
    simp
  · rw [directSer, if_neg h4] at hl
    simp only [Option.pure_def, Option.bind_eq_bind, Option.bind_some, Option.some.injEq, List.append_nil] at hl
    subst hl
    by_cases h2 : 2 ≤ k
    · rw [if_pos h2]
      exact hE h2
    · rw [if_neg h2, List.append_nil]
      exact dsVertices_independent

/-! ### Polynomials -/

/-- The function of a polynomial. -/
noncomputable def evMap : MvPolynomial ℕ ℝ →ₗ[ℝ] PFun where
  toFun p := fun x => eval x p
  map_add' a b := by funext x; simp
  map_smul' a b := by funext x; simp

theorem P2_le {k : ℕ} {T : Submodule ℝ (MvPolynomial ℕ ℝ)} (h : ∀ a b, a + b ≤ k → X 0 ^ a * X 1 ^ b ∈ T) : P 2 k ≤ T := by
  intro p hp
  rw [mem_P] at hp
  rw [p.as_sum]
  refine Submodule.sum_mem _ fun t ht => ?_
  obtain ⟨h1, h2⟩ := hp t ht
  have e : t = Finsupp.single 0 (t 0) + Finsupp.single 1 (t 1) := by
    ext i
    by_cases h0 : i = 0
    · subst h0; simp
    · by_cases h1 : i = 1
      · subst h1; simp
      · have : t i = 0 := by
          by_contra hne
          have := h2 i (Finsupp.mem_support_iff.2 hne)
          omega
        simp [this, Finsupp.single_apply, Ne.symm h0, Ne.symm h1]
  have hd : t 0 + t 1 ≤ k := by
    rw [e, map_add, Finsupp.degree_single, Finsupp.degree_single] at h1
    exact_mod_cast h1
  have := T.smul_mem (coeff t p) (h _ _ hd)
  have e2 : monomial t (coeff t p) = coeff t p • ((X 0 : MvPolynomial ℕ ℝ) ^ t 0 * X 1 ^ t 1) := by
    rw [X_pow_eq_monomial, X_pow_eq_monomial, monomial_mul, ← e, smul_monomial]
    simp
  rw [e2]
  exact this

/-- Powers of `lambda` span the polynomials of one variable. -/
theorem powers_shift {n j : ℕ} (h : j < n) : (Polynomial.X - Polynomial.C 2 : Polynomial ℝ) ^ j ∈
    lspan ((List.range n).map fun j => (Polynomial.X : Polynomial ℝ) ^ j) := by
  have hm : ∀ r : Polynomial ℝ, r.natDegree < n → r ∈ lspan ((List.range n).map fun j => (Polynomial.X : Polynomial ℝ) ^ j) := by
    intro r hr
    rw [r.as_sum_range_C_mul_X_pow' hr]
    refine Submodule.sum_mem _ fun i hi => ?_
    rw [← Polynomial.smul_eq_C_mul]
    exact Submodule.smul_mem _ _ (mem_lspan (List.mem_map_of_mem (List.mem_range.2 (Finset.mem_range.1 hi))))
  refine hm _ ?_
  rw [Polynomial.natDegree_pow, Polynomial.natDegree_X_sub_C]
  omega

/-- The functions of the edges contain `y ^ j * y * (1 - y)` and `x * y ^ j * y * (1 - y)`. -/
theorem dsEdges_poly (k p q e e' : ℕ) :
    (∀ j < k - 1, (fun x => (1 - x p) * x p * x p ^ j) ∈ lspan ((dsEdges k p q e e').map Prod.fst)) ∧
    ∀ j < k - 2, (fun x => (1 - x p) * x p * x q * x p ^ j) ∈ lspan ((dsEdges k p q e e').map Prod.fst) := by
  rw [dsEdges_eq, lspan_append, lspan_append]
  have hA : ∀ j < k - 1, (fun x => (1 - x p) * x p * x p ^ j) ∈
      lspan (((List.range (k - 1)).map fun j => (Polynomial.X : Polynomial ℝ) ^ j).map (dsG p q fun _ => 1)) := by
    intro j hj
    rw [lspan_map']
    refine ⟨_, powers_shift hj, ?_⟩
    funext x
    simp [dsG, dsLambda]
    left
    ring
  refine ⟨fun j hj => Submodule.mem_sup_left (hA j hj), fun j hj => ?_⟩
  have hB : (fun x => (1 - x p) * x p * dsOpp (x q) * x p ^ j) ∈
      lspan (((List.range (k - 2)).map fun j => (Polynomial.X : Polynomial ℝ) ^ j).map (dsG p q dsOpp)) := by
    rw [lspan_map']
    refine ⟨_, powers_shift hj, ?_⟩
    funext x
    simp [dsG, dsLambda]
    left
    ring
  have hB' : (fun x : ℕ → ℝ => (1 - x p) * x p * dsOpp (x q) * x p ^ j) ∈
      lspan (((List.range (k - 1)).map fun j => (Polynomial.X : Polynomial ℝ) ^ j).map (dsG p q fun _ => 1)) ⊔
      (lspan (((List.range (k - 2)).map fun j => (Polynomial.X : Polynomial ℝ) ^ j).map (dsG p q dsOpp)) ⊔
      lspan ([(Polynomial.X : Polynomial ℝ) ^ (k - 2)].map (dsG p q dsR))) :=
    Submodule.mem_sup_right (Submodule.mem_sup_left hB)
  have h := Submodule.sub_mem _ (Submodule.smul_mem _ (2 : ℝ) (Submodule.mem_sup_left (hA j (by omega)))) hB'
  refine (Eq.subst (motive := fun v => v ∈ _) ?_ h)
  funext x
  simp [dsOpp]
  ring

theorem directSer_eq (k : ℕ) (l : List (PFun × ℕ × ℕ)) (hl : directSer k = some l) : ∃ fs,
    l.map Prod.fst = dsVertices.map Prod.fst ++
      (if 2 ≤ k then (dsEdges k 1 0 1 2).map Prod.fst ++ (dsEdges k 0 1 0 3).map Prod.fst else []) ++ fs.map dsBubMap ∧
    (4 ≤ k → lspan fs = P 2 4) := by
  obtain ⟨fs, h1, h2, -, -⟩ := dsInterior_spec
  by_cases h4 : 4 ≤ k
  · rw [directSer, if_pos h4, h1] at hl
    simp only [Option.pure_def, Option.bind_eq_bind, Option.bind_some, Option.some.injEq] at hl
    subst hl
    refine ⟨fs, ?_, fun _ => h2⟩
    rw [if_pos (show 2 ≤ k by omega), if_pos (show 2 ≤ k by omega)]
    simp [dsBubMap]
  · rw [directSer, if_neg h4] at hl
    simp only [Option.pure_def, Option.bind_eq_bind, Option.bind_some, Option.some.injEq, List.append_nil] at hl
    subst hl
    refine ⟨[], ?_, fun h => absurd h h4⟩
    by_cases h2 : 2 ≤ k
    · simp [if_pos h2]
    · simp [if_neg h2]

/-- **C121.** The functions contain every polynomial of the order of the element exactly for the orders at most 8. -/
theorem directSer_polynomials (k : ℕ) (hk : 1 ≤ k) (l : List (PFun × ℕ × ℕ)) (hl : directSer k = some l) :
    (∀ p ∈ P 2 k, (fun x => eval x p) ∈ lspan (l.map Prod.fst)) ↔ k ≤ 8 := by
  constructor
  · intro h
    by_contra h8
    obtain ⟨l', hl', hn⟩ := directSer_length k hk
    rw [hl] at hl'
    cases hl'
    rw [if_pos (show 4 ≤ k by omega)] at hn
    have h1 : (P 2 k).map evMap ≤ lspan (l.map Prod.fst) := by
      rintro _ ⟨p, hp, rfl⟩
      exact h p hp
    haveI : Module.Finite ℝ (lspan (l.map Prod.fst)) := by
      have : {v | v ∈ l.map Prod.fst}.Finite := (l.map Prod.fst).finite_toSet
      exact Module.Finite.span_of_finite ℝ this
    have h2 := Submodule.finrank_mono h1
    rw [← (independent_finrank _).1 (directSer_independent k l hl), List.length_map, hn] at h2
    have hinj : Function.Injective evMap := fun p q hpq => MvPolynomial.funext fun x => congrFun hpq x
    rw [(Submodule.equivMapOfInjective evMap hinj (P 2 k)).finrank_eq.symm, finrank_P2, Nat.choose_two_right] at h2
    obtain ⟨m, rfl⟩ : ∃ m, k = m + 9 := ⟨k - 9, by omega⟩
    have h3 : (m + 9 + 2) * (m + 9 + 2 - 1) / 2 * 2 = (m + 9 + 2) * (m + 9 + 2 - 1) :=
      Nat.div_mul_cancel (Nat.even_mul_pred_self _).two_dvd
    rw [show m + 9 + 2 - 1 = m + 10 by omega] at h2 h3
    nlinarith
  · intro h8
    obtain ⟨fs, he, hf⟩ := directSer_eq k l hl
    have hV : lspan (dsVertices.map Prod.fst) ≤ lspan (l.map Prod.fst) := by
      rw [he, lspan_append, lspan_append]
      exact le_sup_left.trans le_sup_left
    have hE1 : 2 ≤ k → lspan ((dsEdges k 1 0 1 2).map Prod.fst) ≤ lspan (l.map Prod.fst) := by
      intro h2
      rw [he, if_pos h2, lspan_append, lspan_append, lspan_append]
      exact (le_sup_left.trans le_sup_right).trans le_sup_left
    have hE2 : 2 ≤ k → lspan ((dsEdges k 0 1 0 3).map Prod.fst) ≤ lspan (l.map Prod.fst) := by
      intro h2
      rw [he, if_pos h2, lspan_append, lspan_append, lspan_append]
      exact (le_sup_right.trans le_sup_right).trans le_sup_left
    have hI : 4 ≤ k → (P 2 4).map dsBubMap ≤ lspan (l.map Prod.fst) := by
      intro h4
      rw [he, lspan_append, lspan_map', hf h4]
      exact le_sup_right
    suffices P 2 k ≤ (lspan (l.map Prod.fst)).comap evMap from fun p hp => this hp
    have hM : ∀ n a b, a + b = n → n ≤ k → (fun x : ℕ → ℝ => x 0 ^ a * x 1 ^ b) ∈ lspan (l.map Prod.fst) := by
      intro n
      induction n using Nat.strong_induction_on with
      | _ n ih =>
        intro a b hab hn
        have hd : (a ≤ 1 ∧ b ≤ 1) ∨ (a ≤ 1 ∧ 2 ≤ b) ∨ (2 ≤ a ∧ b ≤ 1) ∨ (2 ≤ a ∧ 2 ≤ b) := by omega
        rcases hd with ⟨ha, hb⟩ | ⟨ha, hb⟩ | ⟨ha, hb⟩ | ⟨ha, hb⟩
        · have hm : ∀ v ∈ dsVertices.map Prod.fst, v ∈ lspan (l.map Prod.fst) := fun v hv => hV (mem_lspan hv)
          have m0 := hm (fun x => (1 - x 1) * (1 - x 0)) (by simp [dsVertices])
          have m1 := hm (fun x => (1 - x 1) * x 0) (by simp [dsVertices])
          have m2 := hm (fun x => x 1 * (1 - x 0)) (by simp [dsVertices])
          have m3 := hm (fun x => x 1 * x 0) (by simp [dsVertices])
          have hc : (a = 0 ∨ a = 1) ∧ (b = 0 ∨ b = 1) := by omega
          obtain ⟨rfl | rfl, rfl | rfl⟩ := hc
          · refine Eq.subst (motive := fun v => v ∈ _) ?_ (Submodule.add_mem _ (Submodule.add_mem _ m0 m1) (Submodule.add_mem _ m2 m3))
            funext x; simp; ring
          · refine Eq.subst (motive := fun v => v ∈ _) ?_ (Submodule.add_mem _ m2 m3)
            funext x; simp; ring
          · refine Eq.subst (motive := fun v => v ∈ _) ?_ (Submodule.add_mem _ m1 m3)
            funext x; simp; ring
          · refine Eq.subst (motive := fun v => v ∈ _) ?_ m3
            funext x; simp; ring
        · obtain ⟨b, rfl⟩ : ∃ b', b = b' + 2 := ⟨b - 2, by omega⟩
          have h1 := ih (a + (b + 1)) (by omega) a (b + 1) rfl (by omega)
          have hc : a = 0 ∨ a = 1 := by omega
          rcases hc with rfl | rfl
          · refine Eq.subst (motive := fun v => v ∈ _) ?_
              (Submodule.sub_mem _ h1 (hE1 (by omega) ((dsEdges_poly k 1 0 1 2).1 b (by omega))))
            funext x; simp; ring
          · refine Eq.subst (motive := fun v => v ∈ _) ?_
              (Submodule.sub_mem _ h1 (hE1 (by omega) ((dsEdges_poly k 1 0 1 2).2 b (by omega))))
            funext x; simp; ring
        · obtain ⟨a, rfl⟩ : ∃ b', a = b' + 2 := ⟨a - 2, by omega⟩
          have h1 := ih (a + 1 + b) (by omega) (a + 1) b rfl (by omega)
          have hc : b = 0 ∨ b = 1 := by omega
          rcases hc with rfl | rfl
          · refine Eq.subst (motive := fun v => v ∈ _) ?_
              (Submodule.sub_mem _ h1 (hE2 (by omega) ((dsEdges_poly k 0 1 0 3).1 a (by omega))))
            funext x; simp; ring
          · refine Eq.subst (motive := fun v => v ∈ _) ?_
              (Submodule.sub_mem _ h1 (hE2 (by omega) ((dsEdges_poly k 0 1 0 3).2 a (by omega))))
            funext x; simp; ring
        · obtain ⟨a, rfl⟩ : ∃ b', a = b' + 2 := ⟨a - 2, by omega⟩
          obtain ⟨b, rfl⟩ : ∃ b', b = b' + 2 := ⟨b - 2, by omega⟩
          have h1 := ih (a + 1 + (b + 1)) (by omega) (a + 1) (b + 1) rfl (by omega)
          have h2 := ih (a + 2 + (b + 1)) (by omega) (a + 2) (b + 1) rfl (by omega)
          have h3 := ih (a + 1 + (b + 2)) (by omega) (a + 1) (b + 2) rfl (by omega)
          have h4 : dsBubMap (X 0 ^ a * X 1 ^ b) ∈ lspan (l.map Prod.fst) := by
            refine hI (by omega) ⟨_, ?_, rfl⟩
            have e0 := P_pow (X_mem (show 0 < 2 by norm_num) : (X 0 : MvPolynomial ℕ ℝ) ∈ P 2 1) a
            have e1 := P_pow (X_mem (show 1 < 2 by norm_num) : (X 1 : MvPolynomial ℕ ℝ) ∈ P 2 1) b
            refine P_mono ?_ (P_mul e0 e1)
            push_cast
            omega
          refine Eq.subst (motive := fun v => v ∈ _) ?_
            (Submodule.sub_mem _ (Submodule.add_mem _ (Submodule.add_mem _ h2 h3) h4) h1)
          funext x
          simp [dsBubMap, dsBub]
          ring
    refine P2_le fun a b hab => ?_
    rw [Submodule.mem_comap]
    refine Eq.subst (motive := fun v => v ∈ _) ?_ (hM _ a b rfl hab)
    funext x
    simp [evMap]

/-- **C121.** The number of functions is that of the space `DS_k` exactly for the orders 2, 3 and 8. -/
theorem directSer_count (k : ℕ) (hk : 2 ≤ k) (l : List (PFun × ℕ × ℕ)) (hl : directSer k = some l) :
    l.length = (k + 2).choose 2 + 2 ↔ k = 2 ∨ k = 3 ∨ k = 8 := by
  obtain ⟨l', hl', hn⟩ := directSer_length k (by omega)
  rw [hl] at hl'
  cases hl'
  rw [hn]
  by_cases h4 : 4 ≤ k
  · rw [if_pos h4, Nat.choose_two_right]
    have h3 : (k + 2) * (k + 2 - 1) / 2 * 2 = (k + 2) * (k + 2 - 1) := Nat.div_mul_cancel (Nat.even_mul_pred_self _).two_dvd
    rw [show k + 2 - 1 = k + 1 by omega] at *
    constructor
    · intro h
      right; right
      have : (k + 2) * (k + 1) = 2 * (4 * k + 13) := by omega
      by_contra hne
      have hne : k < 8 ∨ 8 < k := by omega
      rcases hne with h8 | h8
      · interval_cases k <;> omega
      · nlinarith
    · rintro (rfl | rfl | rfl) <;> first | omega | rfl
  · rw [if_neg h4]
    have : k = 2 ∨ k = 3 := by omega
    rcases this with rfl | rfl <;> simp [Nat.choose]

/-! ### Entities -/

/-- The sub-entities of the unit square, as sets. -/
def SqEntity : ℕ × ℕ → (ℕ → ℝ) → Prop
  | (0, 0), x => x 0 = 0 ∧ x 1 = 0
  | (0, 1), x => x 0 = 1 ∧ x 1 = 0
  | (0, 2), x => x 0 = 0 ∧ x 1 = 1
  | (0, 3), x => x 0 = 1 ∧ x 1 = 1
  | (1, 0), x => x 1 = 0
  | (1, 1), x => x 0 = 0
  | (1, 2), x => x 0 = 1
  | (1, 3), x => x 1 = 1
  | _, _ => True

/-- **C121.** For every order at least 2, a function assigned to the left edge does not vanish on the right edge. -/
theorem directSer_entities_fail (k : ℕ) (hk : 2 ≤ k) (l : List (PFun × ℕ × ℕ)) (hl : directSer k = some l) :
    ∃ f x, (f, 1, 1) ∈ l ∧ SqEntity (1, 2) x ∧ SqBoundary x ∧ f x ≠ 0 := by
  refine ⟨fun x => (1 - x 1) * x 1 * dsLambda (x 1) ^ 0, sqVert 1 (1 / 2), ?_, by simp [SqEntity, sqVert],
    sqVert_boundary (Or.inr rfl) (by norm_num) (by norm_num), by simp [sqVert]; norm_num⟩
  have hm : (((fun x => (1 - x 1) * x 1 * dsLambda (x 1) ^ 0 : PFun), 1, 1) : PFun × ℕ × ℕ) ∈ dsEdges k 1 0 1 2 := by
    simp only [dsEdges, List.mem_append, List.mem_map]
    exact Or.inl (Or.inl ⟨0, List.mem_range.2 (by omega), rfl⟩)
  by_cases h4 : 4 ≤ k
  · obtain ⟨fs, h1, -⟩ := dsInterior_spec
    rw [directSer, if_pos h4, h1, if_pos hk] at hl
    simp only [Option.pure_def, Option.bind_eq_bind, Option.bind_some, Option.some.injEq] at hl
    subst hl
    simp only [List.mem_append]
    exact Or.inl (Or.inr (Or.inl hm))
  · rw [directSer, if_neg h4, if_pos hk] at hl
    simp only [Option.pure_def, Option.bind_eq_bind, Option.bind_some, Option.some.injEq] at hl
    subst hl
    simp only [List.mem_append]
    exact Or.inl (Or.inr (Or.inl hm))

/-- **C121**, what holds: a vertex function is 1 at its vertex and 0 on the edges without it, an edge function is 0 on the two edges which meet its edge, and an interior function is 0
on every edge. -/
theorem directSer_entities_partial (k : ℕ) (l : List (PFun × ℕ × ℕ)) (hl : directSer k = some l) (f : PFun) (d i : ℕ) (hf : (f, d, i) ∈ l) :
    (d = 0 → i < 4 ∧ (∀ x, SqEntity (0, i) x → f x = 1) ∧
      ∀ j < 4, (∀ x, SqEntity (0, i) x → ¬ SqEntity (1, j) x) → ∀ x, SqEntity (1, j) x → f x = 0) ∧
    (d = 1 → i < 4 ∧ ∀ j < 4, j ≠ i → j + i ≠ 3 → ∀ x, SqEntity (1, j) x → f x = 0) ∧
    (d = 2 → i = 0 ∧ ∀ j < 4, ∀ x, SqEntity (1, j) x → f x = 0) := by
  have hV : (f, d, i) ∈ dsVertices → d = 0 ∧ i < 4 ∧ (∀ x, SqEntity (0, i) x → f x = 1) ∧
      ∀ j < 4, (∀ x, SqEntity (0, i) x → ¬ SqEntity (1, j) x) → ∀ x, SqEntity (1, j) x → f x = 0 := by
    intro h
    simp only [dsVertices, List.mem_cons, Prod.mk.injEq, List.not_mem_nil, or_false] at h
    have key : ∀ (a b : ℝ) (j : ℕ), j < 4 → (∀ x : ℕ → ℝ, x 0 = a ∧ x 1 = b → ¬ SqEntity (1, j) x) → ¬ SqEntity (1, j) (sqVert a b) :=
      fun a b j _ h => h _ (by simp [sqVert])
    rcases h with ⟨rfl, rfl, rfl⟩ | ⟨rfl, rfl, rfl⟩ | ⟨rfl, rfl, rfl⟩ | ⟨rfl, rfl, rfl⟩
    · refine ⟨rfl, by norm_num, fun x hx => by simp [hx.1, hx.2], fun j hj h x hx => ?_⟩
      have := key 0 0 j hj h
      interval_cases j <;> simp [SqEntity, sqVert] at this hx <;> simp [hx]
    · refine ⟨rfl, by norm_num, fun x hx => by simp [hx.1, hx.2], fun j hj h x hx => ?_⟩
      have := key 1 0 j hj h
      interval_cases j <;> simp [SqEntity, sqVert] at this hx <;> simp [hx]
    · refine ⟨rfl, by norm_num, fun x hx => by simp [hx.1, hx.2], fun j hj h x hx => ?_⟩
      have := key 0 1 j hj h
      interval_cases j <;> simp [SqEntity, sqVert] at this hx <;> simp [hx]
    · refine ⟨rfl, by norm_num, fun x hx => by simp [hx.1, hx.2], fun j hj h x hx => ?_⟩
      have := key 1 1 j hj h
      interval_cases j <;> simp [SqEntity, sqVert] at this hx <;> simp [hx]
  have hE : ∀ p q e e', (f, d, i) ∈ dsEdges k p q e e' → d = 1 ∧ (i = e ∨ i = e') ∧ ∀ x : ℕ → ℝ, x p = 0 ∨ x p = 1 → f x = 0 := by
    intro p q e e' h
    have hv : ∀ x : ℕ → ℝ, x p = 0 ∨ x p = 1 → f x = 0 := fun x hx =>
      dsEdges_vanish (mem_lspan (List.mem_map_of_mem (f := Prod.fst) h)) hx
    simp only [dsEdges, List.mem_append, List.mem_map, Prod.mk.injEq, List.mem_singleton] at h
    rcases h with (⟨_, _, _, h1, h2⟩ | ⟨_, _, _, h1, h2⟩) | ⟨_, h1, h2⟩
    · exact ⟨h1.symm, Or.inl h2.symm, hv⟩
    · exact ⟨h1.symm, Or.inr h2.symm, hv⟩
    · exact ⟨h1, Or.inr h2, hv⟩
  obtain ⟨fs, h1, -⟩ := dsInterior_spec
  have hI : ∀ p, (dsBub p, 2, 0) = (f, d, i) → d = 2 ∧ i = 0 ∧ ∀ j < 4, ∀ x, SqEntity (1, j) x → f x = 0 := by
    intro p h
    rw [Prod.mk.injEq, Prod.mk.injEq] at h
    obtain ⟨rfl, rfl, rfl⟩ := h
    refine ⟨rfl, rfl, fun j hj x hx => ?_⟩
    interval_cases j <;> simp [SqEntity] at hx <;> simp [dsBub, hx]
  have hm : (f, d, i) ∈ dsVertices ∨ (f, d, i) ∈ dsEdges k 1 0 1 2 ∨ (f, d, i) ∈ dsEdges k 0 1 0 3 ∨ ∃ p, (dsBub p, 2, 0) = (f, d, i) := by
    by_cases h4 : 4 ≤ k
    · rw [directSer, if_pos h4, h1, if_pos (show 2 ≤ k by omega)] at hl
      simp only [Option.pure_def, Option.bind_eq_bind, Option.bind_some, Option.some.injEq] at hl
      subst hl
      simp only [List.mem_append, List.mem_map] at hf
      rcases hf with (h | h | h) | ⟨p, -, h⟩
      · exact Or.inl h
      · exact Or.inr (Or.inl h)
      · exact Or.inr (Or.inr (Or.inl h))
      · exact Or.inr (Or.inr (Or.inr ⟨p, h⟩))
    · rw [directSer, if_neg h4] at hl
      simp only [Option.pure_def, Option.bind_eq_bind, Option.bind_some, Option.some.injEq, List.append_nil] at hl
      subst hl
      rw [List.mem_append] at hf
      by_cases h2 : 2 ≤ k
      · rw [if_pos h2, List.mem_append] at hf
        tauto
      · rw [if_neg h2] at hf
        simp at hf
        exact Or.inl hf
  rcases hm with h | h | h | ⟨p, h⟩
  · obtain ⟨rfl, h'⟩ := hV h
    exact ⟨fun _ => h', fun h => absurd h (by norm_num), fun h => absurd h (by norm_num)⟩
  · obtain ⟨rfl, h2, h3⟩ := hE _ _ _ _ h
    refine ⟨fun h => absurd h (by norm_num), fun _ => ⟨by omega, fun j hj h4 h5 x hx => h3 x ?_⟩, fun h => absurd h (by norm_num)⟩
    have : j = 0 ∨ j = 3 := by omega
    rcases this with rfl | rfl
    · exact Or.inl hx
    · exact Or.inr hx
  · obtain ⟨rfl, h2, h3⟩ := hE _ _ _ _ h
    refine ⟨fun h => absurd h (by norm_num), fun _ => ⟨by omega, fun j hj h4 h5 x hx => h3 x ?_⟩, fun h => absurd h (by norm_num)⟩
    have : j = 1 ∨ j = 2 := by omega
    rcases this with rfl | rfl
    · exact Or.inl hx
    · exact Or.inr hx
  · obtain ⟨rfl, h'⟩ := hI p h
    exact ⟨fun h => absurd h (by norm_num), fun h => absurd h (by norm_num), fun _ => h'⟩

/-- The hypotheses are met: the elements exist for every order. -/
example : ∃ l, directSer 5 = some l ∧ l.length = 35 := directSer_length 5 (by norm_num)

end Verif.Scalar
