import Verif.Elements.Solid
/-!
# Lagrange elements on prisms

C57, C83.
-/

namespace Verif.Elements
open Verif.References Verif.Quadrature Verif.Polysets Verif.FiniteElement
open MvPolynomial

theorem prismDofs_eq {variant : String} {k : ℕ} (hk : 0 < k) {l : List PointDof} (h : prismDofs variant k = some l) :
    ∃ points, rulePoints variant k = some points ∧
      l = solidPoints .prism points k fun i => decide (i.getD 0 0 + i.getD 1 0 < k) := by
  unfold prismDofs at h
  split at h
  · cases h
  rw [if_neg hk.ne'] at h
  cases hr : rulePoints variant k with
  | none => rw [hr] at h; cases h
  | some points =>
    rw [hr, Option.bind_some, solid_joined (by intro n h; cases h) rfl] at h
    exact ⟨points, rfl, (Option.some.inj h).symm⟩

/-- The polynomials of degree `k` in the first two variables and of degree `k` in the third. -/
def PrismSet (k : ℕ) : Set (ℕ →₀ ℕ) := {t | t 0 + t 1 ≤ k ∧ t 2 ≤ k ∧ ∀ i, 3 ≤ i → t i = 0}

theorem PrismSet_lower (k : ℕ) : IsLowerSet (PrismSet k) := fun _ _ hab ha =>
  ⟨(Nat.add_le_add (hab 0) (hab 1)).trans ha.1, (hab 2).trans ha.2.1,
    fun i hi => Nat.le_zero.1 ((hab i).trans (ha.2.2 i hi).le)⟩

/-- The rule of the element is symmetric. -/
def SymmRule (variant : String) (k : ℕ) : Prop := ∀ points, rulePoints variant k = some points → Symm points k

theorem symm_equispaced {k : ℕ} (hk : 0 < k) : SymmRule "equispaced" k := by
  intro points h i h1 h2
  obtain ⟨p, hp, he⟩ := rulePoints_equispaced hk
  rw [hp] at h
  cases h
  rw [he _ (by omega), he _ (by omega), Nat.cast_sub (by omega)]
  have : (k : ℝ) ≠ 0 := by exact_mod_cast hk.ne'
  field_simp

theorem symm_gll (k : ℕ) : SymmRule "gll" k := by
  intro points h i h1 h2
  simp only [rulePoints, getQuadrature, lobatto, show ("gll" = "legendre") = False by simp, or_self, if_false,
    show ("gll" = "equispaced") = False by simp, show ("gll" = "lobatto") = False by simp, if_true] at h
  split_ifs at h with e2 e3 e4 e5 e6 e7
  · omega
  · obtain rfl : k = 2 := by omega
    cases h; interval_cases i; norm_num
  · obtain rfl : k = 3 := by omega
    cases h; interval_cases i <;> simp <;> ring
  · obtain rfl : k = 4 := by omega
    cases h; interval_cases i <;> simp <;> ring
  · obtain rfl : k = 5 := by omega
    cases h; interval_cases i <;> simp <;> ring
  · obtain rfl : k = 6 := by omega
    cases h; interval_cases i <;> simp <;> ring

/-- **C83** A polynomial of the space that vanishes at all DOF points is zero. -/
theorem prism_unisolvent {variant : String} {k : ℕ} (hk : 0 < k) (hs : SymmRule variant k) {l : List PointDof}
    (hl : prismDofs variant k = some l) (p : MvPolynomial ℕ ℝ)
    (hp : ∀ t ∈ p.support, t ∈ PrismSet k) (h : ∀ d ∈ l, eval d.point p = 0) : p = 0 := by
  obtain ⟨points, hr, rfl⟩ := prismDofs_eq hk hl
  obtain ⟨w, hw⟩ := rulePoints_wf hk hr
  refine eq_zero_of_lower' _ _ (PrismSet_lower k) hp
    (fun _ => nodeOf points k) (fun t ht i => (node_injOn hw).mono fun a ha => ?_) fun t ht => ?_
  · refine (Set.mem_Iic.1 ha).trans ?_
    obtain ⟨h1, h2, h3⟩ := ht
    match i with
    | 0 => omega
    | 1 => omega
    | 2 => omega
    | i + 3 => rw [h3 (i + 3) (by omega)]; omega
  · obtain ⟨e, he, hpt⟩ := prism_cover hk (hs _ hr) (keep := fun i => decide (i.getD 0 0 + i.getD 1 0 < k))
      (fun a b d h => decide_eq_true h) (t 0) (t 1) (t 2) ht.1 ht.2.1
    rw [← h e he, hpt]
    congr 2
    refine gridPoint_ext rfl rfl rfl fun j hj => ?_
    rw [ht.2.2 j hj]
    exact node_zero _ _

theorem sum_map_range' (n : ℕ) (f : ℕ → ℕ) :
    ((List.range' 1 n).map f).sum = ∑ x ∈ Finset.range n, f (x + 1) := by
  rw [List.range'_eq_map_range, List.map_map]
  induction n with
  | zero => simp
  | succ n ih =>
    rw [List.range_succ, List.map_append, List.sum_append, ih, Finset.sum_range_succ]
    simp [Nat.add_comm]

theorem length_filter_sum_if {A : Type} (l : List A) (p : A → Bool) :
    (l.filter p).length = (l.map fun a => if p a = true then 1 else 0).sum := by
  induction l with
  | nil => rfl
  | cons a l ih =>
    rw [List.filter_cons, List.map_cons, List.sum_cons, ← ih]
    split_ifs <;> simp [Nat.add_comm]

theorem length_filter_product3 (k : ℕ) (p : List ℕ → Bool) :
    ((product (innerRange k) 3).filter p).length = ∑ a ∈ Finset.range (k - 1), ∑ b ∈ Finset.range (k - 1),
      ∑ d ∈ Finset.range (k - 1), if p [a + 1, b + 1, d + 1] = true then 1 else 0 := by
  simp only [product, innerRange, List.map_cons, List.map_nil, List.filter_flatMap, List.length_flatMap,
    List.map_flatMap, List.filter_cons, List.filter_nil, sum_map_range']
  refine Finset.sum_congr rfl fun a _ => Finset.sum_congr rfl fun b _ => Finset.sum_congr rfl fun d _ => ?_
  split_ifs <;> rfl

theorem length_filter_product2 (k : ℕ) (p : List ℕ → Bool) :
    ((product (innerRange k) 2).filter p).length = ∑ a ∈ Finset.range (k - 1), ∑ b ∈ Finset.range (k - 1),
      if p [a + 1, b + 1] = true then 1 else 0 := by
  simp only [product, innerRange, List.map_cons, List.map_nil, List.filter_flatMap, List.length_flatMap,
    List.map_flatMap, List.filter_cons, List.filter_nil, sum_map_range']
  refine Finset.sum_congr rfl fun a _ => Finset.sum_congr rfl fun b _ => ?_
  split_ifs <;> rfl

theorem length_face (c : Cell) (v : ℕ → ℕ → ℝ) (points : List ℝ) {k : ℕ} (hk : 0 < k) (n : ℕ) :
    (entityList c v points k (keepFace k) 2 n).length =
      if (entType c 2 n).nverts = 4 then (k - 1) ^ 2 else (k - 1).choose 2 := by
  obtain ⟨m, rfl⟩ : ∃ m, k = m + 1 := ⟨k - 1, by omega⟩
  rw [entityList, List.length_map]
  split_ifs with h
  · have e : (product (innerRange (m + 1)) 2).filter (keepFace (m + 1) (entType c 2 n)) =
        product (innerRange (m + 1)) 2 := List.filter_eq_self.2 fun i _ => decide_eq_true (Or.inl h)
    rw [e, length_product, length_innerRange]
  · rw [← length_filter_sum (m + 1 - 1) 2 (m + 1 - 1) le_rfl]
    congr 1
    refine List.filter_congr fun i _ => decide_eq_decide.2 ?_
    simp [h]

/-- **C57** A Lagrange element on a prism has as many DOFs as its space has dimensions. -/
theorem prism_count {variant : String} (k : ℕ) {l : List PointDof} (hl : prismDofs variant k = some l) :
    l.length = (k + 1) * (k + 2).choose 2 := by
  rcases Nat.eq_zero_or_pos k with rfl | hk
  · unfold prismDofs at hl
    split at hl
    · cases hl
    rw [if_pos rfl] at hl
    cases hl
    rfl
  · obtain ⟨points, -, rfl⟩ := prismDofs_eq hk hl
    have hint : (interiorList .prism (refVertex .prism) points k
        fun i => decide (i.getD 0 0 + i.getD 1 0 < k)).length = (k - 1).choose 2 * (k - 1) := by
      rw [interiorList, List.length_map, length_filter_product3]
      have h2 := length_filter_product2 k fun i => decide (i.sum < k)
      have h3 := length_filter_sum (k - 1) 2 (k - 1) le_rfl
      rw [Nat.sub_add_cancel hk] at h3
      rw [innerRange, h3] at h2
      rw [h2, Finset.sum_mul]
      refine Finset.sum_congr rfl fun a _ => ?_
      rw [Finset.sum_mul]
      refine Finset.sum_congr rfl fun b _ => ?_
      by_cases h : a + 1 + (b + 1) < k <;> simp [h]
    simp only [solidPoints, List.length_append, hint, List.length_flatMap, length_entityList_q, length_face _ _ _ hk,
      show count .prism 1 = 9 from rfl, show count .prism 2 = 5 from rfl]
    obtain ⟨m, rfl⟩ : ∃ m, k = m + 1 := ⟨k - 1, by omega⟩
    have e : ((List.range 5).map fun n => if (entType .prism 2 n).nverts = 4 then (m + 1 - 1) ^ 2
        else (m + 1 - 1).choose 2).sum = 3 * m ^ 2 + 2 * m.choose 2 := by
      simp only [show List.range 5 = [0, 1, 2, 3, 4] from rfl, List.map_cons, List.map_nil, List.sum_cons,
        List.sum_nil, show (entType .prism 2 0).nverts = 3 from rfl, show (entType .prism 2 1).nverts = 4 from rfl,
        show (entType .prism 2 2).nverts = 4 from rfl, show (entType .prism 2 3).nverts = 4 from rfl,
        show (entType .prism 2 4).nverts = 3 from rfl, Nat.add_sub_cancel]
      simp
      ring
    rw [e]
    have e1 : (onVertices .prism (refVertex .prism)).length = 6 := by simp [onVertices, Cell.nverts]
    rw [e1]
    simp only [List.map_const', List.length_range, List.sum_replicate, smul_eq_mul, Nat.add_sub_cancel, pow_one]
    have e2 : (m + 3).choose 2 = m.choose 2 + 3 * m + 3 := by
      rw [Nat.choose_succ_succ (m + 2) 1, Nat.choose_succ_succ (m + 1) 1, Nat.choose_succ_succ m 1]
      simp
      omega
    rw [show m + 1 + 2 = m + 3 from rfl, e2]
    have e3 : 2 * m.choose 2 + m = m * m := by
      rw [Nat.choose_two_right, Nat.mul_div_cancel' (Nat.even_mul_pred_self m).two_dvd]
      cases m with
      | zero => rfl
      | succ m => simp; ring
    nlinarith

/-- `Lagrange(reference, order, variant)` on a prism (symfem/elements/lagrange_prism.py:24-110). -/
noncomputable def prismElement (variant : String) (k : ℕ) : Option (Element ℝ (MvPolynomial ℕ ℝ)) :=
  (prismDofs variant k).bind fun dofs =>
    ciarlet ((prismSet k).map (denoteMono ℝ)) (dofs.map PointDof.functional)

theorem prism_span {k : ℕ} {p : MvPolynomial ℕ ℝ}
    (hp : p ∈ Submodule.span ℝ {p | p ∈ (prismSet k).map (denoteMono ℝ)}) : ∀ t ∈ p.support, t ∈ PrismSet k := by
  refine span_le (fun m hm => ?_) hp
  obtain ⟨a, b, c, rfl, h1, h2⟩ := ((prismSet_spec k).2 m).1 hm
  have e := fun i => expo_apply 0 [a, b, c] i
  simp only [Nat.zero_add] at e
  refine ⟨?_, ?_, fun i hi => ?_⟩
  · rw [e, e]; exact_mod_cast h1
  · rw [e]; exact_mod_cast h2
  · rw [e, List.getD_eq_default (hn := by simpa using hi)]

/-- **C83** A Lagrange element on a prism can be created, and has basis functions, at every order, whenever the points
of its variant are available and symmetric. -/
theorem prism_created {variant : String} (hvar : variant ≠ "legendre") (k : ℕ)
    (hr : 0 < k → ∃ points, rulePoints variant k = some points) (hs : 0 < k → SymmRule variant k) :
    ∃ e, prismElement variant k = some e ∧ (getBasis e).isSome := by
  obtain ⟨l, hl⟩ : ∃ l, prismDofs variant k = some l := by
    rcases Nat.eq_zero_or_pos k with rfl | hk
    · unfold prismDofs
      rw [if_neg hvar, if_pos rfl]
      exact ⟨_, rfl⟩
    · obtain ⟨points, hr⟩ := hr hk
      unfold prismDofs
      rw [if_neg hvar, if_neg hk.ne', hr, Option.bind_some, solid_joined (by intro n h; cases h) rfl]
      exact ⟨_, rfl⟩
  have hlen : (l.map PointDof.functional).length = ((prismSet k).map (denoteMono ℝ)).length := by
    rw [List.length_map, List.length_map, prism_count _ hl, prismSet_length]
  refine ⟨.ciarlet ((prismSet k).map (denoteMono ℝ)) (l.map PointDof.functional), ?_, ?_⟩
  · simp only [prismElement, hl, Option.bind_some, ciarlet, if_pos hlen]
  · refine getBasis_isSome hlen ((scalar_sets_independent ℝ).2.2.2.2 _) fun p hps hz => ?_
    have hz' : ∀ d ∈ l, eval d.point p = 0 := fun d hd => by
      rw [← eval_functional]
      exact hz _ (List.mem_map_of_mem hd)
    have hsup := prism_span hps
    rcases Nat.eq_zero_or_pos k with rfl | hk
    · refine q_zero (d := 3) (fun t ht => ?_) hz' (by rw [prism_count _ hl]; simp)
      obtain ⟨h1, h2, h3⟩ := hsup t ht
      refine ⟨fun i => ?_, h3⟩
      match i with
      | 0 => omega
      | 1 => omega
      | 2 => omega
      | i + 3 => rw [h3 (i + 3) (by omega)]
    · exact prism_unisolvent hk (hs hk) hl p hsup hz'

example : ∃ e, prismElement "gll" 3 = some e ∧ (getBasis e).isSome :=
  prism_created (by decide) 3 (fun _ => by simp [rulePoints, getQuadrature, lobatto]) fun _ => symm_gll 3

example (k : ℕ) : ∃ e, prismElement "equispaced" k = some e ∧ (getBasis e).isSome :=
  prism_created (by decide) k (fun hk => (rulePoints_equispaced hk).imp fun _ h => h.1) symm_equispaced

end Verif.Elements
