import Verif.Elements.PropsPrism
import Mathlib.Algebra.Polynomial.Roots
import Mathlib.LinearAlgebra.Finsupp.LinearCombination
/-!
# Lagrange elements on pyramids

C57, C83.  The space is spanned by the functions `x^i y^j z^l / (1-z)^min(i,j)` with `max(i, j) + l ≤ k`.
-/

namespace Verif.Elements
open Verif.References Verif.Quadrature Verif.Polysets Verif.FiniteElement
open MvPolynomial

theorem pyramidDofs_eq {variant : String} {k : ℕ} (hk : 0 < k) {l : List PointDof} (h : pyramidDofs variant k = some l) :
    ∃ points, rulePoints variant k = some points ∧
      l = solidPoints .pyramid points k fun i => decide (max (i.getD 0 0) (i.getD 1 0) + i.getD 2 0 < k) := by
  unfold pyramidDofs at h
  split at h
  · cases h
  rw [if_neg hk.ne'] at h
  cases hr : rulePoints variant k with
  | none => rw [hr] at h; cases h
  | some points =>
    rw [hr, Option.bind_some, solid_joined (by intro n h; cases h) rfl] at h
    exact ⟨points, rfl, (Option.some.inj h).symm⟩

/-- One variable: the coefficients of a polynomial with too many zeros. -/
theorem coeffs_zero (n : ℕ) (c node : ℕ → ℝ) (hinj : Set.InjOn node (Set.Iic n))
    (h : ∀ a ≤ n, ∑ l ∈ Finset.range (n + 1), c l * node a ^ l = 0) : ∀ l ≤ n, c l = 0 := by
  have hp : (∑ l ∈ Finset.range (n + 1), Polynomial.C (c l) * Polynomial.X ^ l) = 0 := by
    refine Polynomial.eq_zero_of_natDegree_lt_card_of_eval_eq_zero' _ ((Finset.range (n + 1)).image node) ?_ ?_
    · intro x hx
      obtain ⟨a, ha, rfl⟩ := Finset.mem_image.1 hx
      rw [Polynomial.eval_finsetSum]
      simpa using h a (by simpa [Nat.lt_succ_iff] using ha)
    · rw [Finset.card_image_of_injOn, Finset.card_range]
      · refine Nat.lt_succ_of_le (Polynomial.natDegree_sum_le_of_forall_le _ _ fun l hl => ?_)
        exact (Polynomial.natDegree_C_mul_X_pow_le _ _).trans (by simpa [Nat.lt_succ_iff] using hl)
      · exact hinj.mono fun a ha => by simpa [Nat.lt_succ_iff] using ha
  intro l hl
  have := congrArg (fun p => Polynomial.coeff p l) hp
  simpa [Polynomial.finsetSum_coeff, Polynomial.coeff_C_mul, Polynomial.coeff_X_pow, Nat.lt_succ_of_le hl] using this

/-- Two variables. -/
theorem coeffs_zero2 (n : ℕ) (c : ℕ → ℕ → ℝ) (node : ℕ → ℝ) (hinj : Set.InjOn node (Set.Iic n))
    (h : ∀ a ≤ n, ∀ b ≤ n, ∑ i ∈ Finset.range (n + 1), ∑ j ∈ Finset.range (n + 1),
      c i j * (node a ^ i * node b ^ j) = 0) : ∀ i ≤ n, ∀ j ≤ n, c i j = 0 := by
  have h1 : ∀ b ≤ n, ∀ i ≤ n, ∑ j ∈ Finset.range (n + 1), c i j * node b ^ j = 0 := by
    intro b hb
    refine coeffs_zero n (fun i => ∑ j ∈ Finset.range (n + 1), c i j * node b ^ j) node hinj fun a ha => ?_
    rw [← h a ha b hb]
    refine Finset.sum_congr rfl fun i _ => ?_
    rw [Finset.sum_mul]
    refine Finset.sum_congr rfl fun j _ => ?_
    ring
  exact fun i hi => coeffs_zero n (c i) node hinj fun b hb => h1 b hb i hi

/-- The coefficients of a function of the space that vanishes on the lattice. -/
theorem pyramid_coeffs {k : ℕ} (c : ℕ → ℕ → ℕ → ℝ) (hc : ∀ i j l, k < max i j + l → c i j l = 0) (node : ℕ → ℝ)
    (hinj : Set.InjOn node (Set.Iic k)) (hlast : node k = 1)
    (h : ∀ a b d, max a b + d ≤ k → ∑ i ∈ Finset.range (k + 1), ∑ j ∈ Finset.range (k + 1),
      ∑ l ∈ Finset.range (k + 1), c i j l * (node a ^ i * node b ^ j * node d ^ l / (1 - node d) ^ min i j) = 0) :
    ∀ i j l, c i j l = 0 := by
  -- a function of one variable with `P_ij(z_d) = 0` for all `d ≤ k - max(i, j)` is zero
  have hfin : ∀ i j, max i j ≤ k →
      (∀ d, max i j + d ≤ k → ∑ l ∈ Finset.range (k + 1), c i j l * node d ^ l = 0) → ∀ l, c i j l = 0 := by
    intro i j hij hz l
    by_cases hl : k < max i j + l
    · exact hc i j l hl
    · refine coeffs_zero (k - max i j) (c i j) node (hinj.mono fun a ha => ?_) (fun d hd => ?_) l (by omega)
      · exact le_trans (Set.mem_Iic.1 ha) (Nat.sub_le _ _)
      · rw [← hz d (by omega)]
        refine Finset.sum_subset (fun x hx => ?_) fun x _ hx => ?_
        · simp only [Finset.mem_range] at hx ⊢; omega
        · simp only [Finset.mem_range] at hx
          rw [hc i j x (by omega), zero_mul]
  have layers : ∀ d, d ≤ k → ∀ i j, max i j + d ≤ k → ∑ l ∈ Finset.range (k + 1), c i j l * node d ^ l = 0 := by
    intro d
    induction d using Nat.strong_induction_on with
    | _ d ih =>
      intro hd i j hij
      have hzero : ∀ i j, k < max i j + d → ∀ l, c i j l = 0 := by
        intro i j hlt l
        by_cases hm : max i j ≤ k
        · exact hfin i j hm (fun d' hd' => ih d' (by omega) (by omega) i j hd') l
        · exact hc i j l (by omega)
      have hne : ∀ i j, max i j + d ≤ k → (1 - node d) ^ min i j ≠ 0 := by
        intro i j hij
        by_cases hdk : d = k
        · rw [show min i j = 0 by omega, pow_zero]; exact one_ne_zero
        · refine pow_ne_zero _ (sub_ne_zero.2 fun e => hdk ?_)
          exact (hinj (by simp) (by simpa using hd) (hlast.trans e)).symm
      have key := coeffs_zero2 (k - d)
        (fun i j => (∑ l ∈ Finset.range (k + 1), c i j l * node d ^ l) / (1 - node d) ^ min i j) node
        (hinj.mono fun a ha => le_trans (Set.mem_Iic.1 ha) (Nat.sub_le _ _)) (fun a ha b hb => ?_)
        i (by omega) j (by omega)
      · exact (div_eq_zero_iff.1 key).resolve_right (hne i j hij)
      · rw [← h a b d (by omega)]
        have hsub : Finset.range (k - d + 1) ⊆ Finset.range (k + 1) := fun x hx => by
          simp only [Finset.mem_range] at hx ⊢; omega
        rw [← Finset.sum_subset hsub fun i _ hi => ?_]
        · refine Finset.sum_congr rfl fun i _ => ?_
          rw [← Finset.sum_subset hsub fun j _ hj => ?_]
          · refine Finset.sum_congr rfl fun j _ => ?_
            rw [Finset.sum_div, Finset.sum_mul]
            refine Finset.sum_congr rfl fun l _ => ?_
            ring
          · simp only [Finset.mem_range] at hj
            refine Finset.sum_eq_zero fun l _ => ?_
            rw [hzero i j (by omega) l, zero_mul]
        · simp only [Finset.mem_range] at hi
          refine Finset.sum_eq_zero fun j _ => Finset.sum_eq_zero fun l _ => ?_
          rw [hzero i j (by omega) l, zero_mul]
  intro i j l
  by_cases hm : max i j ≤ k
  · exact hfin i j hm (fun d hd => layers d (by omega) i j hd) l
  · exact hc i j l (by omega)

/-- The function `x^i y^j z^l / (1-z)^min(i,j)` (symfem/polynomials/polysets.py:500-519).  At the apex a function with
`i > 0` or `j > 0` has value 0: the code substitutes `x`, `y` and `z` one after the other. -/
noncomputable def pyramidFn (m : Mono) : (ℕ → ℝ) → ℝ := fun x =>
  x 0 ^ m.getD 0 0 * x 1 ^ m.getD 1 0 * x 2 ^ m.getD 2 0 / (1 - x 2) ^ min (m.getD 0 0) (m.getD 1 0)

/-- Point evaluation of functions. -/
noncomputable def PointDof.onFunctions (d : PointDof) : Dof ℝ ((ℕ → ℝ) → ℝ) :=
  ⟨0, d.entity, some "identity", LinearMap.proj d.point⟩

/-- `Lagrange(reference, order, variant)` on a pyramid (symfem/elements/lagrange_pyramid.py:22-108). -/
noncomputable def pyramidElement (variant : String) (k : ℕ) : Option (Element ℝ ((ℕ → ℝ) → ℝ)) :=
  (pyramidDofs variant k).bind fun dofs =>
    ciarlet ((pyramidSet k).map pyramidFn) (dofs.map PointDof.onFunctions)

theorem sum_pyramidSet (k : ℕ) (g : Mono → ℝ) :
    ((pyramidSet k).map g).sum = ∑ i ∈ Finset.range (k + 1), ∑ j ∈ Finset.range (k + 1), ∑ l ∈ Finset.range (k + 1),
      if max i j + l ≤ k then g [i, j, l] else 0 := by
  obtain ⟨hnd, hmem⟩ := pyramidSet_spec k
  rw [← List.sum_toFinset _ hnd]
  simp only [← Finset.sum_product']
  rw [← Finset.sum_filter]
  symm
  refine Finset.sum_bij (fun p _ => [p.1, p.2.1, p.2.2]) (fun p hp => ?_) (fun p _ q _ h => ?_) (fun m hm => ?_)
    (fun p _ => rfl)
  · rw [List.mem_toFinset, hmem]
    exact ⟨_, _, _, rfl, by exact_mod_cast (Finset.mem_filter.1 hp).2⟩
  · simp only [List.cons.injEq, and_true] at h
    exact Prod.ext h.1 (Prod.ext h.2.1 h.2.2)
  · rw [List.mem_toFinset, hmem] at hm
    obtain ⟨i, j, l, rfl, h⟩ := hm
    have h : max i j + l ≤ k := by exact_mod_cast h
    refine ⟨(i, j, l), ?_, rfl⟩
    simp only [Finset.mem_filter, Finset.mem_product, Finset.mem_range]
    exact ⟨⟨by omega, by omega, by omega⟩, h⟩

/-- **C83** Coefficients of a function of the space that vanishes at all DOF points are zero: the functions
are independent and determined by the DOFs. -/
theorem pyramid_unisolvent {variant : String} {k : ℕ} (hk : 0 < k) (hs : SymmRule variant k) {l : List PointDof}
    (hl : pyramidDofs variant k = some l) (cf : Mono → ℝ)
    (h : ∀ d ∈ l, ((pyramidSet k).map fun m => cf m • pyramidFn m).sum d.point = 0) : ∀ m ∈ pyramidSet k, cf m = 0 := by
  obtain ⟨points, hr, rfl⟩ := pyramidDofs_eq hk hl
  obtain ⟨w, hw⟩ := rulePoints_wf hk hr
  have key := pyramid_coeffs (k := k) (fun i j l => if max i j + l ≤ k then cf [i, j, l] else 0)
    (fun i j l h => if_neg (by omega)) (nodeOf points k) (node_injOn hw) (node_last _ hk) (fun a b d hab => ?_)
  · intro m hm
    obtain ⟨i, j, l, rfl, hle⟩ := ((pyramidSet_spec k).2 m).1 hm
    have := key i j l
    rwa [if_pos (by exact_mod_cast hle)] at this
  · obtain ⟨e, he, hpt⟩ := pyramid_cover hk (hs _ hr)
      (keep := fun i => decide (max (i.getD 0 0) (i.getD 1 0) + i.getD 2 0 < k))
      (fun a b d h => decide_eq_true h) a b d hab
    have := h e he
    have hsum : ∀ (L : List Mono) (x : ℕ → ℝ), (L.map fun m => cf m • pyramidFn m).sum x =
        (L.map fun m => cf m * pyramidFn m x).sum := by
      intro L x
      induction L with
      | nil => rfl
      | cons m L ih => rw [List.map_cons, List.sum_cons, List.map_cons, List.sum_cons, ← ih]; rfl
    rw [hpt, hsum, sum_pyramidSet] at this
    refine Eq.trans ?_ this
    refine Finset.sum_congr rfl fun i _ => Finset.sum_congr rfl fun j _ => Finset.sum_congr rfl fun l _ => ?_
    by_cases hle : max i j + l ≤ k
    · rw [if_pos hle, if_pos hle]
      rfl
    · rw [if_neg hle, if_neg hle, zero_mul]

theorem sum_if_lt (n m : ℕ) (h : m ≤ n) : (∑ a ∈ Finset.range n, if a < m then 1 else 0) = m := by
  rw [← Finset.sum_filter, Finset.sum_const, smul_eq_mul, mul_one,
    show (Finset.range n).filter (· < m) = Finset.range m from by ext x; simp; omega, Finset.card_range]

/-- **C57** A Lagrange element on a pyramid has as many DOFs as its space has dimensions. -/
theorem pyramid_count {variant : String} (k : ℕ) {l : List PointDof} (hl : pyramidDofs variant k = some l) :
    6 * l.length = (k + 1) * (k + 2) * (2 * k + 3) := by
  rcases Nat.eq_zero_or_pos k with rfl | hk
  · unfold pyramidDofs at hl
    split at hl
    · cases hl
    rw [if_pos rfl] at hl
    cases hl
    rfl
  · obtain ⟨points, -, rfl⟩ := pyramidDofs_eq hk hl
    obtain ⟨m, rfl⟩ : ∃ m, k = m + 1 := ⟨k - 1, by omega⟩
    have hint : (interiorList .pyramid (refVertex .pyramid) points (m + 1)
        fun i => decide (max (i.getD 0 0) (i.getD 1 0) + i.getD 2 0 < m + 1)).length = ∑ d ∈ Finset.range m, d ^ 2 := by
      rw [interiorList, List.length_map, length_filter_product3,
        ← Finset.sum_range_reflect (fun d => d ^ 2)]
      simp only [Nat.add_sub_cancel]
      rw [Finset.sum_congr rfl fun a _ => Finset.sum_comm, Finset.sum_comm]
      refine Finset.sum_congr rfl fun d hd => ?_
      have hd := Finset.mem_range.1 hd
      rw [pow_two]
      have hs := sum_if_lt m (m - 1 - d) (by omega)
      refine Eq.trans ?_ (congrArg₂ (· * ·) hs hs)
      show _ = Finset.sum _ _ * Finset.sum _ _
      rw [Finset.sum_mul_sum]
      refine Finset.sum_congr rfl fun a _ => Finset.sum_congr rfl fun b _ => ?_
      have : decide (max ([a + 1, b + 1, d + 1].getD 0 0) ([a + 1, b + 1, d + 1].getD 1 0) +
        [a + 1, b + 1, d + 1].getD 2 0 < m + 1) = decide (a < m - 1 - d ∧ b < m - 1 - d) := by
        refine decide_eq_decide.2 ?_
        show max (a + 1) (b + 1) + (d + 1) < m + 1 ↔ _
        omega
      rw [this]
      by_cases h1 : a < m - 1 - d <;> by_cases h2 : b < m - 1 - d <;> simp [h1, h2]
    simp only [solidPoints, List.length_append, hint, List.length_flatMap, length_entityList_q, length_face _ _ _ hk,
      show count .pyramid 1 = 8 from rfl, show count .pyramid 2 = 5 from rfl]
    have e : ((List.range 5).map fun n => if (entType .pyramid 2 n).nverts = 4 then (m + 1 - 1) ^ 2
        else (m + 1 - 1).choose 2).sum = m ^ 2 + 4 * m.choose 2 := by
      simp only [show List.range 5 = [0, 1, 2, 3, 4] from rfl, List.map_cons, List.map_nil, List.sum_cons,
        List.sum_nil, show (entType .pyramid 2 0).nverts = 4 from rfl, show (entType .pyramid 2 1).nverts = 3 from rfl,
        show (entType .pyramid 2 2).nverts = 3 from rfl, show (entType .pyramid 2 3).nverts = 3 from rfl,
        show (entType .pyramid 2 4).nverts = 3 from rfl, Nat.add_sub_cancel]
      simp
      ring
    rw [e]
    have e1 : (onVertices .pyramid (refVertex .pyramid)).length = 5 := by simp [onVertices, Cell.nverts]
    rw [e1]
    simp only [List.map_const', List.length_range, List.sum_replicate, smul_eq_mul, Nat.add_sub_cancel, pow_one]
    have e3 : 2 * m.choose 2 + m = m * m := by
      rw [Nat.choose_two_right, Nat.mul_div_cancel' (Nat.even_mul_pred_self m).two_dvd]
      cases m with
      | zero => rfl
      | succ m => simp; ring
    have e4 : 6 * ∑ d ∈ Finset.range m, d ^ 2 + 3 * m ^ 2 = 2 * m ^ 3 + m := by
      clear * -
      induction m with
      | zero => rfl
      | succ m ih => rw [Finset.sum_range_succ]; nlinarith
    nlinarith

/-- **C83** A Lagrange element on a pyramid can be created, and has basis functions, at every order, whenever the
points of its variant are available and symmetric. -/
theorem pyramid_created {variant : String} (hvar : variant ≠ "legendre") (k : ℕ)
    (hr : 0 < k → ∃ points, rulePoints variant k = some points) (hs : 0 < k → SymmRule variant k) :
    ∃ e, pyramidElement variant k = some e ∧ (getBasis e).isSome := by
  obtain ⟨l, hl⟩ : ∃ l, pyramidDofs variant k = some l := by
    rcases Nat.eq_zero_or_pos k with rfl | hk
    · unfold pyramidDofs
      rw [if_neg hvar, if_pos rfl]
      exact ⟨_, rfl⟩
    · obtain ⟨points, hr⟩ := hr hk
      unfold pyramidDofs
      rw [if_neg hvar, if_neg hk.ne', hr, Option.bind_some, solid_joined (by intro n h; cases h) rfl]
      exact ⟨_, rfl⟩
  have hlen : (l.map PointDof.onFunctions).length = ((pyramidSet k).map pyramidFn).length := by
    rw [List.length_map, List.length_map]
    have := pyramid_count _ hl
    have := pyramidSet_length k
    omega
  have hall : ∀ cf : Mono → ℝ, (∀ d ∈ l, ((pyramidSet k).map fun m => cf m • pyramidFn m).sum d.point = 0) →
      ∀ m ∈ pyramidSet k, cf m = 0 := by
    rcases Nat.eq_zero_or_pos k with rfl | hk
    · intro cf h m hm
      unfold pyramidDofs at hl
      rw [if_neg hvar, if_pos rfl] at hl
      cases hl
      have := h _ (List.mem_singleton.2 rfl)
      have e0 : pyramidSet (0 : ℕ) = [[0, 0, 0]] := rfl
      rw [e0] at this hm
      rw [List.mem_singleton.1 hm]
      simpa [pyramidFn] using this
    · exact pyramid_unisolvent hk (hs hk) hl
  refine ⟨.ciarlet ((pyramidSet k).map pyramidFn) (l.map PointDof.onFunctions), ?_, ?_⟩
  · simp only [pyramidElement, hl, Option.bind_some, ciarlet, if_pos hlen]
  · unfold getBasis
    rw [dif_pos hlen, basisFunctions_isSome_iff]
    intro cf h
    have hnd := (pyramidSet_spec k).1
    have hlm : ((pyramidSet k).map pyramidFn).length = (pyramidSet k).length := List.length_map _
    let cf' : Mono → ℝ := fun m => if hm : (pyramidSet k).idxOf m < (pyramidSet k).length then
      cf ⟨(pyramidSet k).idxOf m, by rw [hlm]; exact hm⟩ else 0
    have hcf : ∀ i : Fin ((pyramidSet k).map pyramidFn).length,
        cf' ((pyramidSet k)[i.1]'(by have := i.2; omega)) = cf i := by
      intro i
      have hi : i.1 < (pyramidSet k).length := by have := i.2; omega
      simp only [cf', hnd.idxOf_getElem i.1 hi, hi, dif_pos]
    have hsum : ((pyramidSet k).map fun m => cf' m • pyramidFn m).sum =
        ∑ i : Fin ((pyramidSet k).map pyramidFn).length, cf i • ((pyramidSet k).map pyramidFn)[i] := by
      rw [← List.sum_ofFn]
      congr 1
      refine List.ext_getElem (by simp) fun i h1 h2 => ?_
      rw [List.getElem_map, List.getElem_ofFn, ← hcf]
      simp
    funext i
    rw [← hcf i]
    refine hall cf' (fun d hd => ?_) _ (List.getElem_mem _)
    rw [hsum]
    obtain ⟨n, hn, e⟩ := List.getElem_of_mem (List.mem_map_of_mem (f := PointDof.onFunctions) hd)
    have := h ⟨n, by omega⟩
    simp only [Fin.getElem_fin] at this
    rw [e] at this
    exact this

example (k : ℕ) : ∃ e, pyramidElement "equispaced" k = some e ∧ (getBasis e).isSome :=
  pyramid_created (by decide) k (fun hk => (rulePoints_equispaced hk).imp fun _ h => h.1) symm_equispaced

end Verif.Elements
