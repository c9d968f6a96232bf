import Verif.Smooth.Chain
import Verif.Scalar.Serendipity
import Verif.Dual.Props
/-!
# Taylor elements

symfem/elements/taylor.py on the default interval, triangle and tetrahedron, for all orders.
-/

namespace Verif.Smooth
open Verif.References Verif.Moments Verif.Functionals Verif.Elements Verif.FiniteElement Verif.Polysets Verif.Orthogonal
open Verif.Families Verif.Scalar
open MvPolynomial

/-! ### Model -/

/-- `product(range(order + 1), repeat=reference.tdim)` with `1 <= sum(i) <= order` (symfem/elements/taylor.py:33-34). -/
def taylorIndices (d k : ℕ) : List (List ℕ) :=
  (product (List.range (k + 1)) d).filter fun i => decide (1 ≤ i.sum ∧ i.sum ≤ k)

/-- `Taylor(reference, order)` (symfem/elements/taylor.py:22-44) on the default cells. -/
noncomputable def taylor (c : Cell) (k : ℕ) : Option (Element ℝ (MvPolynomial ℕ ℝ)) :=
  (makeIntegralMomentDofs (fun _ => lagrangeClass) c
    { cells := some (.single [.cls "IntegralMoment", .cls "Lagrange", .int 0, .dict [("variant", "equispaced")]]) }).bind fun ms =>
  (ms.mapM (moment1Dof c)).bind fun dofs => (polySet c.tdim k).bind fun poly =>
    ciarlet (poly.map (denoteMono ℝ)) (dofs ++ (taylorIndices c.tdim k).map fun i =>
      derivDof (References.midpoint c (refVertex c)) i (c.tdim, 0) none)

/-! ### Derivatives -/

theorem pderiv_comm (i j : ℕ) (f : MvPolynomial ℕ ℝ) : pderiv i (pderiv j f) = pderiv j (pderiv i f) := by
  ext s
  rw [coeff_pderiv, coeff_pderiv, coeff_pderiv, coeff_pderiv, add_right_comm]
  by_cases h : i = j
  · rw [h]
  · rw [Finsupp.add_apply, Finsupp.add_apply, Finsupp.single_eq_of_ne h, Finsupp.single_eq_of_ne (Ne.symm h)]
    ring

theorem pow_pderiv_comm (i j a : ℕ) (f : MvPolynomial ℕ ℝ) :
    ((pderiv (R := ℝ) i).toLinearMap ^ a) (pderiv j f) = pderiv j (((pderiv (R := ℝ) i).toLinearMap ^ a) f) := by
  induction a generalizing f with
  | zero => rfl
  | succ a ih =>
    rw [pow_succ, Module.End.mul_apply, Module.End.mul_apply]
    show ((pderiv (R := ℝ) i).toLinearMap ^ a) (pderiv i (pderiv j f)) = _
    rw [pderiv_comm, ih]
    rfl

/-- One more derivative. -/
theorem multiDeriv_pderiv (s : List ℕ) (i j : ℕ) (hj : j < s.length) (f : MvPolynomial ℕ ℝ) :
    multiDeriv s i (pderiv (i + j) f) = multiDeriv (s.modify j (· + 1)) i f := by
  induction s generalizing i j f with
  | nil => simp at hj
  | cons a s ih =>
    rcases j with _ | j
    · show multiDeriv s (i + 1) (((pderiv (R := ℝ) i).toLinearMap ^ a) (pderiv (i + 0) f)) =
        multiDeriv s (i + 1) (((pderiv (R := ℝ) i).toLinearMap ^ (a + 1)) f)
      rw [pow_succ, Module.End.mul_apply]
      rfl
    · show multiDeriv s (i + 1) (((pderiv (R := ℝ) i).toLinearMap ^ a) (pderiv (i + (j + 1)) f)) =
        multiDeriv (s.modify j (· + 1)) (i + 1) (((pderiv (R := ℝ) i).toLinearMap ^ a) f)
      rw [pow_pderiv_comm, show i + (j + 1) = i + 1 + j by ring, ih _ _ (by simpa using hj)]

theorem sum_modify (s : List ℕ) (j : ℕ) (hj : j < s.length) : (s.modify j (· + 1)).sum = s.sum + 1 := by
  induction s generalizing j with
  | nil => simp at hj
  | cons a s ih =>
    rcases j with _ | j
    · simp; omega
    · have := ih j (by simpa using hj)
      simp [this]; omega

/-- Polynomials without derivatives are constant. -/
theorem const_of_pderiv {d : ℕ} {k : ℤ} {f : MvPolynomial ℕ ℝ} (hf : f ∈ P d k) (h : ∀ j < d, pderiv j f = 0) : f = C (coeff 0 f) := by
  ext s
  rw [coeff_C]
  split_ifs with h0
  · rw [h0]
  · by_contra hne
    obtain ⟨j, hj⟩ := Finsupp.support_nonempty_iff.2 (Ne.symm h0)
    have hjd := (mem_P.1 hf s (mem_support_iff.2 hne)).2 j hj
    have h1 := congrArg (coeff (s - Finsupp.single j 1)) (h j hjd)
    rw [coeff_pderiv, coeff_zero, tsub_add_cancel_of_le (Finsupp.single_le_iff.2 (Nat.one_le_iff_ne_zero.2 (Finsupp.mem_support_iff.1 hj)))] at h1
    rcases mul_eq_zero.1 h1 with h1 | h1
    · exact hne h1
    · have : (0 : ℝ) ≤ ((s - Finsupp.single j 1 : ℕ →₀ ℕ) j : ℝ) := Nat.cast_nonneg _
      linarith

theorem taylor_zero {d : ℕ} (p : ℕ → ℝ) (k : ℕ) {f : MvPolynomial ℕ ℝ} (hf : f ∈ P d k)
    (h : ∀ s : List ℕ, s.length = d → s.sum ≤ k → eval p (multiDeriv s 0 f) = 0) : f = 0 := by
  have hz : ∀ i g, multiDeriv (List.replicate d 0) i g = g := by
    intro i g
    clear h hf
    induction d generalizing i with
    | zero => rfl
    | succ d ih =>
      show multiDeriv (List.replicate d 0) (i + 1) (((pderiv (R := ℝ) i).toLinearMap ^ 0) g) = g
      rw [pow_zero]
      exact ih _
  induction k generalizing f with
  | zero =>
    have h0 := h (List.replicate d 0) (by simp) (by simp)
    rw [hz] at h0
    have hc := const_of_pderiv hf fun j _ => P_neg (by omega) (pderiv_mem hf j)
    rw [hc, eval_C] at h0
    rw [hc, h0, map_zero]
  | succ k ih =>
    have h0 := h (List.replicate d 0) (by simp) (by simp)
    rw [hz] at h0
    have hc := const_of_pderiv hf fun j hj => by
      refine ih (by have := pderiv_mem hf j; simpa using this) fun s hl hs => ?_
      have := multiDeriv_pderiv s 0 j (by omega) f
      rw [zero_add] at this
      rw [this]
      exact h _ (by simp [hl]) (by rw [sum_modify _ _ (by omega)]; omega)
    rw [hc, eval_C] at h0
    rw [hc, h0, map_zero]

theorem taylor_const {d : ℕ} (p : ℕ → ℝ) (k : ℕ) {f : MvPolynomial ℕ ℝ} (hf : f ∈ P d k)
    (h : ∀ s : List ℕ, s.length = d → 1 ≤ s.sum → s.sum ≤ k → eval p (multiDeriv s 0 f) = 0) : f = C (coeff 0 f) := by
  refine const_of_pderiv hf fun j hj => ?_
  rcases k with _ | k
  · exact P_neg (by omega) (pderiv_mem hf j)
  refine taylor_zero p k (by have := pderiv_mem hf j; simpa using this) fun s hl hs => ?_
  have := multiDeriv_pderiv s 0 j (by omega) f
  rw [zero_add] at this
  rw [this]
  exact h _ (by simp [hl]) (by rw [sum_modify _ _ (by omega)]; omega) (by rw [sum_modify _ _ (by omega)]; omega)

theorem mem_product_range {k d : ℕ} {s : List ℕ} (hl : s.length = d) (hs : s.sum ≤ k) : s ∈ product (List.range (k + 1)) d := by
  induction d generalizing s k with
  | zero => rw [List.length_eq_zero_iff] at hl; subst hl; simp [product]
  | succ d ih =>
    cases s with
    | nil => simp at hl
    | cons a s =>
      rw [product, List.mem_flatMap]
      rw [List.sum_cons] at hs
      refine ⟨a, List.mem_range.2 (by omega), List.mem_map.2 ⟨s, ?_, rfl⟩⟩
      exact ih (by simpa using hl) (by omega)

theorem taylorIndices_length (d k : ℕ) : (taylorIndices d k).length + 1 = (k + d).choose d := by
  rw [← length_filter_le (k + 1) d k (by omega), taylorIndices]
  have h0 : ((product (List.range (k + 1)) d).filter fun i => decide (i.sum ≤ 0)).length = 1 := by
    rw [length_filter_le (k + 1) d 0 (by omega), zero_add, Nat.choose_self]
  suffices key : ∀ l : List (List ℕ), (l.filter fun i => decide (1 ≤ i.sum ∧ i.sum ≤ k)).length + (l.filter fun i => decide (i.sum ≤ 0)).length =
      (l.filter fun i => decide (i.sum ≤ k)).length by
    rw [← key, h0]
  intro l
  induction l with
  | nil => rfl
  | cons i l ih =>
    rw [List.filter_cons, List.filter_cons, List.filter_cons]
    by_cases h1 : 1 ≤ i.sum
    · by_cases h2 : i.sum ≤ k
      · simp only [h1, h2, and_self, decide_true, if_true, List.length_cons, show ¬ i.sum ≤ 0 by omega, decide_false, Bool.false_eq_true, if_false]
        omega
      · simp only [h2, and_false, decide_false, Bool.false_eq_true, if_false, show ¬ i.sum ≤ 0 by omega]
        omega
    · simp only [h1, false_and, decide_false, Bool.false_eq_true, if_false, show i.sum ≤ 0 by omega, show i.sum ≤ k by omega, decide_true, if_true,
        List.length_cons]
      omega

/-! ### Creation -/

theorem cell_jacobian1 {c : Cell} (hc : Simplex c) :
    jacobian (entityDomain c (c.tdim, 0)).cell (entityDomain c (c.tdim, 0)).g (entityDomain c (c.tdim, 0)).v = some 1 := by
  rcases hc with rfl | hc
  · have hv : ∀ j k, (entityDomain .interval (1, 0)).v j k = refVertex .interval ((entVerts .interval 1 0).getD j 0) k := fun _ _ => rfl
    have e0 : entVerts .interval 1 0 = [0, 1] := rfl
    have hc : (entityDomain .interval (1, 0)).cell = .interval := rfl
    show jacobian (entityDomain .interval (1, 0)).cell 1 (entityDomain .interval (1, 0)).v = some 1
    rw [hc]
    simp only [jacobian, axisVertices, Cell.tdim]
    norm_num [axis, psub, hv, e0, axisVertices, refVertex, refVerts, coords]
  · exact cell_jacobian hc

theorem taylor_moments {c : Cell} (hc : Simplex c) : makeIntegralMomentDofs (fun _ => lagrangeClass) c
    { cells := some (.single [.cls "IntegralMoment", .cls "Lagrange", .int 0, .dict [("variant", "equispaced")]]) } =
    some [⟨"IntegralMoment", .scalar 1, (c.tdim, 0), none⟩] := by
  have hb : lagrangeClass.create c 0 [("variant", "equispaced")] = some [.scalar 1] := by
    show scalarBasis (lagrangeElement "equispaced" c (refVertex c) 0) = _
    rw [scalarBasis, Dual.lagrange_zero hc]
    rfl
  have e0 : ∀ dim : ℤ, slotDofs (fun _ => lagrangeClass) c dim none = some [] := fun _ => rfl
  have h1 : slotDofs (fun _ => lagrangeClass) c (c.tdim : ℤ)
      (some (.single [.cls "IntegralMoment", .cls "Lagrange", .int 0, .dict [("variant", "equispaced")]])) =
      some [⟨"IntegralMoment", .scalar 1, (c.tdim, 0), none⟩] := by
    have hent : Moments.entityDofs (fun _ => lagrangeClass) c
        (.single [.cls "IntegralMoment", .cls "Lagrange", .int 0, .dict [("variant", "equispaced")]]) c.tdim 0 =
        some [⟨"IntegralMoment", .scalar 1, (c.tdim, 0), none⟩] := by
      have ht : c.subEntityType c.tdim 0 = some c := by rcases hc with rfl | rfl | rfl <;> rfl
      rw [Moments.entityDofs, ht]
      show (if (0 : ℤ) < lagrangeClass.minOrder then some [] else (lagrangeClass.create c 0 [("variant", "equispaced")]).map _) = _
      rw [if_neg (by decide), hb]
      rfl
    have hl : ∀ g : ℕ → Option (List (MomentDof Fun)), (List.range 1).mapM g = (g 0).map fun a => [a] := fun g => by
      cases h : g 0 <;> simp [List.range_succ, h]
    have hs : slotDofs (fun _ => lagrangeClass) c (c.tdim : ℤ)
        (some (.single [.cls "IntegralMoment", .cls "Lagrange", .int 0, .dict [("variant", "equispaced")]])) =
        ((List.range 1).mapM (Moments.entityDofs (fun _ => lagrangeClass) c
          (.single [.cls "IntegralMoment", .cls "Lagrange", .int 0, .dict [("variant", "equispaced")]]) c.tdim)).map List.flatten := by
      rcases hc with rfl | rfl | rfl <;> rfl
    rw [hs, hl, hent]
    rfl
  unfold makeIntegralMomentDofs slots
  simp only [List.mapM_cons, List.mapM_nil, e0, h1, Option.bind_eq_bind, Option.bind_some, Option.pure_def, Option.map_some,
    List.flatten_cons, List.flatten_nil, List.nil_append, List.append_nil]

/-- **C116.** Taylor elements can be created for all orders. -/
theorem taylor_created {c : Cell} (hc : Simplex c) (k : ℕ) :
    Created (taylor c k) (· ∈ P c.tdim k) ((k + c.tdim).choose c.tdim) (fun dofs => ∀ d ∈ dofs, d.entity = (c.tdim, 0)) := by
  obtain ⟨poly, hp, hps⟩ := polySet_lspan (simplex_dims hc) (k : ℤ)
  have hm : moment1Dof c ⟨"IntegralMoment", .scalar 1, (c.tdim, 0), none⟩ =
      some ⟨11, (c.tdim, 0), some "identity", moment1Map (entityDomain c (c.tdim, 0)) 1 1⟩ := by
    simp only [moment1Dof, if_true, cell_jacobian1 hc, Option.map_some, Option.getD_none]
  refine created_of (basis := poly.map (denoteMono ℝ)) (dofs := (⟨11, (c.tdim, 0), some "identity", moment1Map (entityDomain c (c.tdim, 0)) 1 1⟩ ::
      (taylorIndices c.tdim k).map fun i => derivDof (References.midpoint c (refVertex c)) i (c.tdim, 0) none)) ?_ ?_ ?_
    ((scalar_sets_independent ℝ).1 _ _ _ hp) (fun f => by rw [hps]) (fun f hf hz => ?_) ?_
  · rw [taylor, taylor_moments hc, Option.bind_some, List.mapM_cons, hm]
    simp only [List.mapM_nil, Option.bind_eq_bind, Option.bind_some, Option.pure_def, hp, List.cons_append, List.nil_append]
  · rw [List.length_cons, List.length_map, taylorIndices_length]
  · rw [List.length_map, polySet_length _ _ _ hp]
  · have hC := taylor_const (References.midpoint c (refVertex c)) k hf fun s hl h1 hs =>
      hz _ (List.mem_cons_of_mem _ (List.mem_map_of_mem (f := fun i => derivDof (References.midpoint c (refVertex c)) i (c.tdim, 0) none)
        (List.mem_filter.2 ⟨mem_product_range hl hs, by simp [h1, hs]⟩)))
    have h0 := hz _ (List.mem_cons_self ..)
    have h0' : moment1Map (entityDomain c (c.tdim, 0)) 1 1 f = 0 := h0
    rw [moment1Map_eq, one_mul] at h0'
    have hcell : (entityDomain c (c.tdim, 0)).cell = c := by rcases hc with rfl | rfl | rfl <;> rfl
    rw [hcell] at h0'
    have hpull : pull (entityDomain c (c.tdim, 0)) f = f := by rw [hC]; simp [pull]
    rw [hpull] at h0'
    refine eq_zero_of_pairing (by rcases hc with rfl | rfl | rfl <;> simp [Solid]) hf (fs := [1]) ?_ (by simpa using h0')
    rw [hC, ← mul_one (C (coeff 0 f)), ← smul_eq_C_mul]
    exact Submodule.smul_mem _ _ (mem_lspan (by simp))
  · intro d hd
    rcases List.mem_cons.1 hd with rfl | hd
    · rfl
    · obtain ⟨i, -, rfl⟩ := List.mem_map.1 hd
      rfl

/-- Order 2 on the triangle has 6 functions. -/
example : Created (taylor .triangle 2) (· ∈ P 2 2) 6 (fun dofs => ∀ d ∈ dofs, d.entity = (2, 0)) := taylor_created (Or.inr (Or.inl rfl)) 2

end Verif.Smooth
