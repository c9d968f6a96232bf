import Verif.Families.Model
import Verif.Families.Spans
/-!
# Restrictions to entities, and what moments on an entity say about them
-/

namespace Verif.Families
open Verif.References Verif.Moments Verif.Functionals Verif.Elements Verif.FiniteElement Verif.Polysets Verif.Orthogonal
open MvPolynomial

section
variable (D : Domain)

/-- A coordinate of the points of a domain as a polynomial in the parameters. -/
noncomputable def coordPoly (i : ℕ) : MvPolynomial ℕ ℝ :=
  C (D.v 0 i) + ∑ k : Fin D.cell.tdim, C (axis D.cell D.v k i) * X k.val

/-- A polynomial on the domain, as a polynomial in the parameters. -/
noncomputable def pull (p : MvPolynomial ℕ ℝ) : MvPolynomial ℕ ℝ := aeval (coordPoly D) p

theorem eval_coordPoly (z : ℕ → ℝ) (i : ℕ) : eval z (coordPoly D i) = D.param z i := by
  rw [coordPoly, Domain.param, map_add, eval_C, map_sum, ← Fin.sum_univ_eq_sum_range (fun k =>
    (D.v ((axisVertices D.cell).getD k 0) i - D.v 0 i) * z k) D.cell.tdim]
  simp only [map_mul, eval_C, eval_X]
  rfl

theorem eval_pull (z : ℕ → ℝ) (p : MvPolynomial ℕ ℝ) : eval z (pull D p) = eval (D.param z) p := by
  rw [pull, aeval_eval]
  congr 2
  funext i
  exact eval_coordPoly D z i

theorem coordPoly_mem (i : ℕ) : coordPoly D i ∈ P D.cell.tdim 1 :=
  Submodule.add_mem _ (C_mem _ (by norm_num)) (Submodule.sum_mem _ fun k _ => C_mul_mem _ (X_mem k.2))

theorem pull_mem {d : ℕ} {k : ℤ} {p : MvPolynomial ℕ ℝ} (hp : p ∈ P d k) : pull D p ∈ P D.cell.tdim k :=
  P_aeval (fun i _ => coordPoly_mem D i) hp

theorem pull_X (i : ℕ) : pull D (X i) = coordPoly D i := by simp [pull]

theorem pull_mul (p q : MvPolynomial ℕ ℝ) : pull D (p * q) = pull D p * pull D q := by simp [pull]

theorem pull_sub (p q : MvPolynomial ℕ ℝ) : pull D (p - q) = pull D p - pull D q := by simp [pull]

theorem pull_add (p q : MvPolynomial ℕ ℝ) : pull D (p + q) = pull D p + pull D q := by simp [pull]

/-- The component of a field in a direction, on the domain. -/
noncomputable def comp (n : ℕ → ℝ) (v : Field D.g) : MvPolynomial ℕ ℝ := ∑ i, C (n i.val) * pull D (v i)

theorem eval_comp (n : ℕ → ℝ) (v : Field D.g) (z : ℕ → ℝ) :
    eval z (comp D n v) = ∑ i, n i.val * eval (D.param z) (v i) := by
  rw [comp, map_sum]
  simp only [map_mul, eval_C, eval_pull]

theorem comp_mem {d : ℕ} {k : ℤ} (n : ℕ → ℝ) {v : Field D.g} (hv : ∀ i, v i ∈ P d k) : comp D n v ∈ P D.cell.tdim k :=
  Submodule.sum_mem _ fun i _ => C_mul_mem _ (pull_mem D (hv i))

/-- The components along the axes of the domain. -/
noncomputable def tang (v : Field D.g) (k : Fin D.cell.tdim) : MvPolynomial ℕ ℝ := comp D (axis D.cell D.v k) v

/-- The value of a moment. -/
theorem momentMap_eq (J : ℝ) (w v : Field D.g) :
    momentMap D J w v = J * cellInt D.cell fun z => eval z (∑ i, pull D (v i) * w i) := by
  show momentValue D J w v = _
  unfold momentValue
  rw [← cellInt_const_mul]
  congr 1
  funext z
  rw [map_sum, mul_comm]
  simp only [map_mul, eval_pull]

theorem cellInt_poly_sum (c : Cell) {ι : Type} (s : Finset ι) (p : ι → MvPolynomial ℕ ℝ) :
    cellInt c (fun z => eval z (∑ i ∈ s, p i)) = ∑ i ∈ s, cellInt c fun z => eval z (p i) := by
  simp only [map_sum]
  exact cellInt_sum c s _ fun i _ => continuous_eval _

/-- Integration against a fixed field, as a linear map. -/
noncomputable def pairing (c : Cell) {d : ℕ} (u : Field d) : Field d →ₗ[ℝ] ℝ where
  toFun w := cellInt c fun z => eval z (∑ i, u i * w i)
  map_add' w w' := by
    rw [← cellInt_add _ (continuous_eval _) (continuous_eval _)]
    congr 1
    funext z
    simp only [Pi.add_apply, mul_add, Finset.sum_add_distrib, map_add]
  map_smul' a w := by
    rw [RingHom.id_apply, smul_eq_mul, ← cellInt_const_mul]
    congr 1
    funext z
    simp only [Pi.smul_apply, mul_smul_comm, ← Finset.smul_sum, smul_eval]

theorem pairing_apply (c : Cell) {d : ℕ} (u w : Field d) : pairing c u w = cellInt c fun z => eval z (∑ i, u i * w i) := rfl

theorem pairing_lspan {c : Cell} {d : ℕ} {u : Field d} {fs : List (Field d)} (h : ∀ f ∈ fs, pairing c u f = 0) {w : Field d}
    (hw : w ∈ lspan fs) : pairing c u w = 0 :=
  (Submodule.span_le (p := LinearMap.ker (pairing c u))).2 (fun f hf => h f hf) hw

/-- The same for scalar functions. -/
noncomputable def pairing1 (c : Cell) (u : MvPolynomial ℕ ℝ) : MvPolynomial ℕ ℝ →ₗ[ℝ] ℝ where
  toFun w := cellInt c fun z => eval z (u * w)
  map_add' w w' := by
    rw [← cellInt_add _ (continuous_eval _) (continuous_eval _)]
    congr 1
    funext z
    rw [mul_add, map_add]
  map_smul' a w := by
    rw [RingHom.id_apply, smul_eq_mul, ← cellInt_const_mul]
    congr 1
    funext z
    rw [mul_smul_comm, smul_eval]

/-- A polynomial that is orthogonal to a set that spans a space it is in is 0. -/
theorem eq_zero_of_pairing {c : Cell} (hc : Solid c) {k : ℤ} {u : MvPolynomial ℕ ℝ} (hu : u ∈ P c.tdim k)
    {fs : List (MvPolynomial ℕ ℝ)} (hs : u ∈ lspan fs) (h : ∀ f ∈ fs, pairing1 c u f = 0) : u = 0 := by
  have h0 : pairing1 c u u = 0 := (Submodule.span_le (p := LinearMap.ker (pairing1 c u))).2 (fun f hf => h f hf) hs
  refine squares_zero hc (ι := Unit) (fun _ => 1) (fun _ z _ => by simp) (fun _ z _ => by simp) (fun _ => u) (fun _ => hu)
    ?_ ()
  rw [← h0]
  show _ = cellInt c fun z => eval z (u * u)
  congr 1
  funext z
  simp [pow_two]

/-- Moments in a direction: the component in the direction vanishes if the moments against the functions of a space that
it is in vanish. -/
theorem comp_zero (hc : Solid D.cell) {J : ℝ} (hJ : J ≠ 0) {n : ℕ → ℝ} {v : Field D.g} {k : ℤ}
    (hk : comp D n v ∈ P D.cell.tdim k) {fs : List (MvPolynomial ℕ ℝ)} (hs : lspan fs = P D.cell.tdim k)
    (h : ∀ p ∈ fs, momentMap D J (fun i => C (n i) * p) v = 0) : comp D n v = 0 := by
  refine eq_zero_of_pairing hc hk (by rw [hs]; exact hk) fun p hp => ?_
  have := h p hp
  rw [momentMap_eq, mul_eq_zero] at this
  refine Eq.trans ?_ (this.resolve_left hJ)
  show cellInt D.cell (fun z => eval z (comp D n v * p)) = _
  congr 1
  funext z
  congr 1
  rw [comp, Finset.sum_mul]
  exact Finset.sum_congr rfl fun i _ => by ring

/-- Moments against a function that is mapped to the entity. -/
theorem momentMap_push {J : ℝ} (hJ : J ≠ 0) (f : Field D.cell.tdim) (v : Field D.g) :
    momentMap D J (fun i => ∑ k : Fin D.cell.tdim, C (axis D.cell D.v k i / J) * f k) v = pairing D.cell (tang D v) f := by
  rw [momentMap_eq, ← cellInt_const_mul, pairing_apply]
  congr 1
  funext z
  have e : ∀ q : MvPolynomial ℕ ℝ, J * eval z q = eval z (C J * q) := fun q => by rw [map_mul, eval_C]
  rw [e]
  congr 1
  simp only [tang, comp, Finset.mul_sum, Finset.sum_mul]
  rw [Finset.sum_comm]
  refine Finset.sum_congr rfl fun k _ => Finset.sum_congr rfl fun i _ => ?_
  have : (C J : MvPolynomial ℕ ℝ) * C (axis D.cell D.v k i / J) = C (axis D.cell D.v k i) := by
    rw [← C_mul, mul_div_cancel₀ _ hJ]
  rw [← this]
  ring

/-- The restriction of a Nédélec field to an entity is a Nédélec field. -/
theorem tang_n1 {k : ℤ} {v : Field D.g} (hv : N1Space D.g k v) : N1Space D.cell.tdim k (tang D v) := by
  refine ⟨fun i => comp_mem D _ hv.1, ?_⟩
  have e : ∑ j : Fin D.cell.tdim, X j.val * tang D v j =
      pull D (∑ i : Fin D.g, X i.val * v i) - comp D (D.v 0) v := by
    have e1 : pull D (∑ i : Fin D.g, X i.val * v i) = ∑ i : Fin D.g, coordPoly D i * pull D (v i) := by
      unfold pull
      rw [map_sum]
      simp only [map_mul, aeval_X]
    rw [e1, comp, ← Finset.sum_sub_distrib]
    simp only [tang, comp, Finset.mul_sum]
    rw [Finset.sum_comm]
    refine Finset.sum_congr rfl fun i _ => ?_
    rw [coordPoly, ← sub_mul, add_sub_cancel_left, Finset.sum_mul]
    exact Finset.sum_congr rfl fun j _ => by ring
  rw [e]
  exact Submodule.sub_mem _ (pull_mem D hv.2) (comp_mem D _ hv.1)

/-- The component of a Nédélec field along an edge has lower degree. -/
theorem tang_edge {k : ℤ} {v : Field D.g} (hv : N1Space D.g k v) (h1 : D.cell.tdim = 1) :
    comp D (axis D.cell D.v 0) v ∈ P D.cell.tdim (k - 1) := by
  have := (tang_n1 D hv).2
  have e : ∑ j : Fin D.cell.tdim, X j.val * tang D v j = X 0 * comp D (axis D.cell D.v 0) v := by
    refine Eq.trans ?_ (Fin.sum_univ_one (fun j : Fin 1 => X j.val * comp D (axis D.cell D.v j) v))
    exact Fintype.sum_equiv (finCongr h1) _ _ fun j => rfl
  rw [e] at this
  exact X_cancel this

/-- The normal component of a Raviart–Thomas field on a facet has lower degree. -/
theorem normal_rt {k : ℤ} {v : Field D.g} (hv : RTSpace D.g k v) {n : ℕ → ℝ}
    (hn : ∀ j : Fin D.cell.tdim, ∑ i : Fin D.g, n i.val * axis D.cell D.v j i.val = 0) :
    comp D n v ∈ P D.cell.tdim (k - 1) := by
  obtain ⟨r, hr, hv⟩ := hv
  have e : comp D n v = ∑ i : Fin D.g, C (n i.val) * pull D (v i - X i.val * r) +
      C (∑ i : Fin D.g, n i.val * D.v 0 i.val) * pull D r := by
    have e1 : ∑ i : Fin D.g, C (n i.val) * coordPoly D i.val = C (∑ i : Fin D.g, n i.val * D.v 0 i.val) := by
      simp only [coordPoly, mul_add, Finset.sum_add_distrib, Finset.mul_sum]
      rw [Finset.sum_comm, map_sum]
      simp only [C_mul]
      rw [add_eq_left]
      refine Finset.sum_eq_zero fun j _ => ?_
      have := congrArg (C (σ := ℕ)) (hn j)
      rw [map_sum, map_zero] at this
      simp only [C_mul] at this
      simp only [← mul_assoc]
      rw [← Finset.sum_mul, this, zero_mul]
    rw [← e1, Finset.sum_mul, ← Finset.sum_add_distrib, comp]
    refine Finset.sum_congr rfl fun i _ => ?_
    rw [pull_sub, pull_mul, pull_X]
    ring
  rw [e]
  exact Submodule.add_mem _ (Submodule.sum_mem _ fun i _ => C_mul_mem _ (pull_mem D (hv i))) (C_mul_mem _ (pull_mem D hr))

end

end Verif.Families
