import Verif.Bernstein.Props
import Verif.Orthogonal.Orthonormal
/-!
# The functionals of Bernstein elements

C60: the functional with index `i` on a sub-entity returns the coefficient of Bernstein polynomial number `i` of the restriction
to the sub-entity.
-/

namespace Verif.Bernstein
open Verif.References Verif.Moments Verif.Functionals Verif.Elements Verif.FiniteElement Verif.Polysets Verif.Orthogonal
open Verif.Families
open MvPolynomial

theorem simplex_dim {c : Cell} (hc : Simplex c) : Dim c.tdim := by
  rcases hc with rfl | rfl | rfl <;> simp [Dim, Cell.tdim]

theorem simplex_solid {c : Cell} (hc : Simplex c) : Solid c := by
  rcases hc with rfl | rfl | rfl <;> simp [Solid]

theorem rowOf_getElem {A : Type} [CommRing A] [Algebra ℚ A] (l : List (List A)) (i : ℕ) :
    (rowOf l 0)[i]? = entry l 0 i := by
  unfold rowOf entry
  cases l[0]? <;> simp

theorem rowOf_length {A : Type} [CommRing A] [Algebra ℚ A] {l : List (List A)} {D N : ℕ} (h : Shape l D N) (hD : 0 < D) :
    (rowOf l 0).length = N := by
  obtain ⟨h1, h2⟩ := h
  unfold rowOf
  rw [List.getElem?_eq_getElem (by omega), Option.getD_some]
  exact h2 _ (List.getElem_mem _)

/-- Evaluation at a point, over the rational numbers. -/
noncomputable def ev (p : ℕ → ℝ) : MvPolynomial ℕ ℝ →ₐ[ℚ] ℝ := (aeval p : MvPolynomial ℕ ℝ →ₐ[ℝ] ℝ).restrictScalars ℚ

theorem ev_apply (p : ℕ → ℝ) (f : MvPolynomial ℕ ℝ) : ev p f = eval p f := by
  show aeval p f = _
  simp [aeval_eq_eval]

theorem ev_X (p : ℕ → ℝ) (i : ℕ) : ev p (X i) = p i := by rw [ev_apply, eval_X]

theorem eval_row {L : List (List (MvPolynomial ℕ ℝ))} {l : List (List Fn)}
    (h : ∀ p, L.map (List.map (ev p)) = l.map (List.map (Pi.evalAlgHom ℚ (fun _ => ℝ) p))) (i : ℕ) (p : ℕ → ℝ) :
    eval p ((rowOf L 0).getD i 0) = fn l i p := by
  rw [fn_apply, ← h p, val, entry_map, List.getD_eq_getElem?_getD, rowOf_getElem]
  cases entry L 0 i
  · simp
  · simp [ev_apply]

theorem qsmul_mem {d : ℕ} {k : ℤ} {p : MvPolynomial ℕ ℝ} (q : ℚ) (hp : p ∈ P d k) : q • p ∈ P d k := by
  have : q • p = (q : ℝ) • p := by
    rw [Algebra.smul_def, smul_eq_C_mul]
    congr 1
  rw [this]
  exact Submodule.smul_mem _ _ hp

theorem hjac_mem {d : ℕ} {l h : MvPolynomial ℕ ℝ} (hl : l ∈ P d 1) (hh : h ∈ P d 1) (a : ℚ) (n : ℕ) :
    hjac a l h n ∈ P d n := by
  induction n using Nat.strong_induction_on with
  | _ n ih =>
    match n with
    | 0 => rw [hjac]; exact one_mem le_rfl
    | 1 =>
      rw [hjac]
      exact Submodule.add_mem _ (qsmul_mem _ hl) (qsmul_mem _ hh)
    | n + 2 =>
      rw [hjac]
      refine Submodule.sub_mem _ ?_ (qsmul_mem _ ?_)
      · have := P_mul (ih (n + 1) (by omega)) (Submodule.add_mem _ (qsmul_mem (jrcA a (n + 1)) hl) (qsmul_mem (jrcB a (n + 1)) hh))
        exact P_mono (by push_cast; omega) this
      · have := P_mul (ih n (by omega)) (P_pow hh 2)
        exact P_mono (by push_cast; omega) this

theorem two_mul_mem {d : ℕ} {p : MvPolynomial ℕ ℝ} (hp : p ∈ P d 1) : 2 * p ∈ P d 1 := by
  rw [two_mul]
  exact Submodule.add_mem _ hp hp

/-- The polynomials of the row: how many, of which degree, orthogonal and not zero. -/
theorem orthRow_facts {c : Cell} (hc : Simplex c) (n : ℕ) :
    (orthRow c n).length = basisSize c n ∧ (∀ o ∈ orthRow c n, o ∈ P c.tdim n) ∧
    ∀ i < basisSize c n, ∀ j < basisSize c n,
      (i ≠ j → cellInt c (fun z => eval z ((orthRow c n).getD i 0 * (orthRow c n).getD j 0)) = 0) ∧
      0 < cellInt c (fun z => eval z ((orthRow c n).getD i 0 * (orthRow c n).getD i 0)) := by
  have hone : ∀ d, (1 : MvPolynomial ℕ ℝ) ∈ P d 1 := fun d => one_mem (by norm_num)
  rcases hc with rfl | rfl | rfl
  · have hlen : (orthRow .interval n).length = basisSize .interval n :=
      rowOf_length (orthogonalInterval_shape _ _ _) (by norm_num)
    refine ⟨hlen, ?_, ?_⟩
    · intro o ho
      obtain ⟨i, ho⟩ := List.mem_iff_getElem?.1 ho
      have hi := (List.getElem?_eq_some_iff.1 ho).1
      have h1 : i ≤ n := by rw [hlen] at hi; exact Nat.lt_succ_iff.1 hi
      have h2 := rowOf_getElem (orthogonalInterval (X 0 : MvPolynomial ℕ ℝ) n 0) i
      rw [interval_value _ h1] at h2
      obtain rfl := Option.some.inj (ho.symm.trans h2)
      show _ ∈ P 1 n
      refine P_mono (by exact_mod_cast h1) (hjac_mem (Submodule.sub_mem _ (two_mul_mem (X_mem (by norm_num))) (hone _)) (hone _) 0 i)
    · intro i hi j hj
      have key := eval_row (L := orthogonalInterval (X 0 : MvPolynomial ℕ ℝ) n 0) (l := orthogonalInterval (var 0) n 0)
        fun p => by rw [← orthogonalInterval_map, ← orthogonalInterval_map, ev_X]; rfl
      have := orthogonalBasis_orthogonal (c := .interval) (order := n) (derivs := 0) rfl hi hj
      simp only [map_mul]
      show (i ≠ j → cellInt _ (fun z => eval z ((rowOf (orthogonalInterval (X 0 : MvPolynomial ℕ ℝ) n 0) 0).getD i 0) *
        eval z ((rowOf (orthogonalInterval (X 0 : MvPolynomial ℕ ℝ) n 0) 0).getD j 0)) = 0) ∧
        0 < cellInt _ (fun z => eval z ((rowOf (orthogonalInterval (X 0 : MvPolynomial ℕ ℝ) n 0) 0).getD i 0) *
        eval z ((rowOf (orthogonalInterval (X 0 : MvPolynomial ℕ ℝ) n 0) 0).getD i 0))
      simp only [key]
      exact this
  · have hlen : (orthRow .triangle n).length = basisSize .triangle n :=
      rowOf_length (orthogonalTriangle_shape _ _ _ _) (by norm_num)
    refine ⟨hlen, ?_, ?_⟩
    · intro o ho
      obtain ⟨i, ho⟩ := List.mem_iff_getElem?.1 ho
      have hi := (List.getElem?_eq_some_iff.1 ho).1
      rw [hlen] at hi
      obtain ⟨⟨q, p⟩, h, rfl⟩ := (triIndex_bijOn n).surjOn hi
      have h : q + p ≤ n := h
      have h2 := rowOf_getElem (orthogonalTriangle (X 0 : MvPolynomial ℕ ℝ) (X 1) n 0) (triIndex q p)
      rw [triangle_value _ _ (by omega)] at h2
      obtain rfl := Option.some.inj (ho.symm.trans h2)
      show _ ∈ P 2 n
      rw [triMember]
      have hx : (X 0 : MvPolynomial ℕ ℝ) ∈ P 2 1 := X_mem (by norm_num)
      have hy : (X 1 : MvPolynomial ℕ ℝ) ∈ P 2 1 := X_mem (by norm_num)
      refine P_mono ?_ (P_mul (hjac_mem (Submodule.sub_mem _ (Submodule.add_mem _ (two_mul_mem hx) hy) (hone _))
        (Submodule.sub_mem _ (hone _) hy) _ p) (hjac_mem (Submodule.sub_mem _ (two_mul_mem hy) (hone _)) (hone _) _ q))
      exact_mod_cast (by omega : p + q ≤ n)
    · intro i hi j hj
      have key := eval_row (L := orthogonalTriangle (X 0 : MvPolynomial ℕ ℝ) (X 1) n 0)
        (l := orthogonalTriangle (var 0) (var 1) n 0)
        fun p => by rw [← orthogonalTriangle_map, ← orthogonalTriangle_map, ev_X, ev_X]; rfl
      have := orthogonalBasis_orthogonal (c := .triangle) (order := n) (derivs := 0) rfl hi hj
      simp only [map_mul]
      show (i ≠ j → cellInt _ (fun z => eval z ((rowOf (orthogonalTriangle (X 0 : MvPolynomial ℕ ℝ) (X 1) n 0) 0).getD i 0) *
        eval z ((rowOf (orthogonalTriangle (X 0 : MvPolynomial ℕ ℝ) (X 1) n 0) 0).getD j 0)) = 0) ∧
        0 < cellInt _ (fun z => eval z ((rowOf (orthogonalTriangle (X 0 : MvPolynomial ℕ ℝ) (X 1) n 0) 0).getD i 0) *
        eval z ((rowOf (orthogonalTriangle (X 0 : MvPolynomial ℕ ℝ) (X 1) n 0) 0).getD i 0))
      simp only [key]
      exact this
  · have hlen : (orthRow .tetrahedron n).length = basisSize .tetrahedron n :=
      rowOf_length (orthogonalTetrahedron_shape _ _ _ _ _) (by norm_num)
    refine ⟨hlen, ?_, ?_⟩
    · intro o ho
      obtain ⟨i, ho⟩ := List.mem_iff_getElem?.1 ho
      have hi := (List.getElem?_eq_some_iff.1 ho).1
      rw [hlen] at hi
      obtain ⟨⟨r, q, p⟩, h, rfl⟩ := (tetIndex_bijOn n).surjOn hi
      have h : r + q + p ≤ n := h
      have h2 := rowOf_getElem (orthogonalTetrahedron (X 0 : MvPolynomial ℕ ℝ) (X 1) (X 2) n 0) (tetIndex r q p)
      rw [tetrahedron_value _ _ _ (by omega)] at h2
      obtain rfl := Option.some.inj (ho.symm.trans h2)
      show _ ∈ P 3 n
      rw [tetMember]
      have hx : (X 0 : MvPolynomial ℕ ℝ) ∈ P 3 1 := X_mem (by norm_num)
      have hy : (X 1 : MvPolynomial ℕ ℝ) ∈ P 3 1 := X_mem (by norm_num)
      have hz : (X 2 : MvPolynomial ℕ ℝ) ∈ P 3 1 := X_mem (by norm_num)
      refine P_mono ?_ (P_mul (P_mul (hjac_mem (Submodule.sub_mem _ (Submodule.add_mem _ (Submodule.add_mem _ (two_mul_mem hx) hy) hz)
        (hone _)) (Submodule.sub_mem _ (Submodule.sub_mem _ (hone _) hy) hz) _ p)
        (hjac_mem (Submodule.sub_mem _ (Submodule.add_mem _ (two_mul_mem hy) hz) (hone _)) (Submodule.sub_mem _ (hone _) hz) _ q))
        (hjac_mem (Submodule.sub_mem _ (two_mul_mem hz) (hone _)) (hone _) _ r))
      exact_mod_cast (by omega : p + q + r ≤ n)
    · intro i hi j hj
      have key := eval_row (L := orthogonalTetrahedron (X 0 : MvPolynomial ℕ ℝ) (X 1) (X 2) n 0)
        (l := orthogonalTetrahedron (var 0) (var 1) (var 2) n 0)
        fun p => by rw [← orthogonalTetrahedron_map, ← orthogonalTetrahedron_map, ev_X, ev_X, ev_X]; rfl
      have := orthogonalBasis_orthogonal (c := .tetrahedron) (order := n) (derivs := 0) rfl hi hj
      simp only [map_mul]
      show (i ≠ j → cellInt _ (fun z => eval z ((rowOf (orthogonalTetrahedron (X 0 : MvPolynomial ℕ ℝ) (X 1) (X 2) n 0) 0).getD i 0) *
        eval z ((rowOf (orthogonalTetrahedron (X 0 : MvPolynomial ℕ ℝ) (X 1) (X 2) n 0) 0).getD j 0)) = 0) ∧
        0 < cellInt _ (fun z => eval z ((rowOf (orthogonalTetrahedron (X 0 : MvPolynomial ℕ ℝ) (X 1) (X 2) n 0) 0).getD i 0) *
        eval z ((rowOf (orthogonalTetrahedron (X 0 : MvPolynomial ℕ ℝ) (X 1) (X 2) n 0) 0).getD i 0))
      simp only [key]
      exact this

theorem bernstein_length {n d : ℕ} (hd : Dim d) : (bernstein n d).length = (n + d).choose d := by
  obtain ⟨l, h1, -⟩ := polySet_lspan hd n
  rw [bernstein, List.length_map, bernPowers_length hd h1, polySet_length d n l h1]

theorem basisSize_eq {c : Cell} (hc : Simplex c) (n : ℕ) : basisSize c n = (n + c.tdim).choose c.tdim := by
  rcases hc with rfl | rfl | rfl
  · simp [basisSize, Cell.tdim]
  · show (n + 1) * (n + 2) / 2 = (n + 2).choose 2
    rw [Nat.choose_two_right, mul_comm]
    rfl
  · show (n + 1) * (n + 2) * (n + 3) / 6 = (n + 3).choose 3
    rw [show (n + 1) * (n + 2) * (n + 3) = 6 * (n + 3).choose 3 by rw [choose_three]; ring,
      Nat.mul_div_cancel_left _ (by norm_num)]

/-- The integral of a product. -/
theorem pairing1_apply (c : Cell) (u w : MvPolynomial ℕ ℝ) : pairing1 c u w = cellInt c fun z => eval z (u * w) := rfl

theorem pairing1_comm (c : Cell) (u w : MvPolynomial ℕ ℝ) : pairing1 c u w = pairing1 c w u := by
  rw [pairing1_apply, pairing1_apply, mul_comm]

/-- The scaled polynomials. -/
theorem orth_facts {c : Cell} (hc : Simplex c) {J : ℝ} (hJ : 0 < J) (n : ℕ) :
    (orth c J n).length = (bernstein n c.tdim).length ∧ lspan (orth c J n) = P c.tdim n := by
  obtain ⟨h1, h2, h3⟩ := orthRow_facts hc n
  have hlen : (orth c J n).length = (bernstein n c.tdim).length := by
    rw [orth, List.length_map, h1, basisSize_eq hc, bernstein_length (simplex_dim hc)]
  refine ⟨hlen, ?_⟩
  rw [← bernstein_span (simplex_dim hc)]
  have hpos : ∀ i < basisSize c n, (1 / √(J * cellInt c fun z => eval z ((orthRow c n).getD i 0 * (orthRow c n).getD i 0))) ≠ 0 :=
    fun i hi => (one_div_pos.2 (Real.sqrt_pos.2 (mul_pos hJ (h3 i hi i hi).2))).ne'
  refine lspan_of_length ?_ (bernstein_independent (simplex_dim hc)) hlen ?_
  · have hb : ∀ i : Fin (orth c J n).length, i.val < basisSize c n := fun i => by
      simpa [orth, h1] using i.2
    have he : ∀ i : Fin (orth c J n).length, (orth c J n)[i] =
        C (1 / √(J * cellInt c fun z => eval z ((orthRow c n).getD i 0 * (orthRow c n).getD i 0))) * (orthRow c n).getD i 0 := by
      intro i
      have : i.val < (orthRow c n).length := by rw [h1]; exact hb i
      rw [List.getD_eq_getElem _ _ this]
      exact List.getElem_map ..
    refine linearIndependent_of_triangular _ (fun i : Fin (orth c J n).length => pairing1 c ((orthRow c n).getD i 0))
      (fun _ => 0) ?_ ?_
    · intro i
      rw [he, C_mul', map_smul, smul_eq_mul]
      exact mul_ne_zero (hpos _ (hb i)) (h3 i (hb i) i (hb i)).2.ne'
    · intro i j hij h
      exfalso
      rw [he, C_mul', map_smul, smul_eq_mul, pairing1_apply, (h3 i (hb i) j (hb j)).1 fun h => hij (Fin.ext h), mul_zero] at h
      exact h rfl
  · rw [bernstein_span (simplex_dim hc), lspan, Submodule.span_le]
    intro v hv
    obtain ⟨o, ho, rfl⟩ := List.mem_map.1 (show v ∈ orth c J n from hv)
    rw [C_mul']
    exact Submodule.smul_mem _ _ (h2 o ho)

theorem mat_apply {c : Cell} {J : ℝ} {n : ℕ} (i j : Fin (orth c J n).length) :
    mat c J n i j = J * pairing1 c (orth c J n)[i] ((bernstein n c.tdim).getD j.val 0) := rfl

theorem mat_unit {c : Cell} (hc : Simplex c) {J : ℝ} (hJ : 0 < J) (n : ℕ) : IsUnit (mat c J n).det := by
  obtain ⟨h1, h2⟩ := orth_facts hc hJ n
  rw [isUnit_iff_ne_zero]
  intro hdet
  obtain ⟨v, hv, h⟩ := Matrix.exists_mulVec_eq_zero_iff.2 hdet
  have hmem : ∀ j : Fin (orth c J n).length, (bernstein n c.tdim).getD j.val 0 ∈ lspan (bernstein n c.tdim) := fun j => by
    have : j.val < (bernstein n c.tdim).length := by rw [← h1]; exact j.2
    rw [List.getD_eq_getElem _ _ this]
    exact mem_lspan (List.getElem_mem _)
  have hf : ∑ j, v j • (bernstein n c.tdim).getD j.val 0 ∈ P c.tdim n := by
    rw [← bernstein_span (simplex_dim hc)]
    exact Submodule.sum_mem _ fun j _ => Submodule.smul_mem _ _ (hmem j)
  have h0 : ∑ j, v j • (bernstein n c.tdim).getD j.val 0 = 0 := by
    refine eq_zero_of_pairing (simplex_solid hc) hf (h2.symm ▸ hf) ?_
    intro o ho
    obtain ⟨i, hi, rfl⟩ := List.getElem_of_mem ho
    have := congrFun h ⟨i, hi⟩
    simp only [Matrix.mulVec, dotProduct, mat_apply, Pi.zero_apply] at this
    rw [pairing1_comm, map_sum]
    refine (mul_eq_zero.1 (?_ : J * _ = 0)).resolve_left hJ.ne'
    rw [Finset.mul_sum, ← this]
    refine Finset.sum_congr rfl fun j _ => ?_
    rw [map_smul, smul_eq_mul]
    show _ = J * pairing1 c (orth c J n)[i] _ * _
    ring
  have hi := (linearIndependent_equiv (finCongr h1)).2 (bernstein_independent (n := n) (simplex_dim hc))
  refine hv (funext fun j => Fintype.linearIndependent_iff.1 hi v ?_ j)
  rw [← h0]
  refine Finset.sum_congr rfl fun j _ => ?_
  have : j.val < (bernstein n c.tdim).length := by rw [← h1]; exact j.2
  rw [List.getD_eq_getElem _ _ this]
  rfl

/-- The moments are dual to the Bernstein polynomials. -/
theorem moment_spec {c : Cell} (hc : Simplex c) {J : ℝ} (hJ : 0 < J) (n : ℕ) {idx : ℕ} (h : idx < (bernstein n c.tdim).length) :
    ∃ m, moment c J n idx = some m ∧ ∀ j < (bernstein n c.tdim).length,
      J * pairing1 c m ((bernstein n c.tdim).getD j 0) = if j = idx then 1 else 0 := by
  obtain ⟨h1, h2⟩ := orth_facts hc hJ n
  have hu := mat_unit hc hJ n
  have h' : idx < (orth c J n).length := by rw [h1]; exact h
  refine ⟨_, by rw [moment, if_pos ⟨h1.symm, hu⟩, dif_pos h'], fun j hj => ?_⟩
  have hj' : j < (orth c J n).length := by rw [h1]; exact hj
  have hm := congrFun (congrFun (Matrix.nonsing_inv_mul _ hu) ⟨idx, h'⟩) ⟨j, hj'⟩
  rw [Matrix.mul_apply] at hm
  rw [pairing1_comm, map_sum, Finset.mul_sum]
  refine Eq.trans (Finset.sum_congr rfl fun i _ => ?_) (hm.trans ?_)
  · rw [C_mul', map_smul, smul_eq_mul, mat_apply, pairing1_comm c (orth c J n)[i]]
    ring
  · rw [Matrix.one_apply]
    simp only [Fin.mk.injEq, eq_comm]

/-- **C60** A functional returns a coefficient of the restriction to its sub-entity in terms of Bernstein polynomials. -/
theorem bernDof_spec (D : Domain) (hc : Simplex D.cell) {J : ℝ} (hj : jacobian D.cell D.g D.v = some J) (hJ : 0 < J) (n : ℕ)
    {idx : ℕ} (h : idx < (bernstein n D.cell.tdim).length) (e : ℕ × ℕ) :
    ∃ d, bernDof D idx n e = some d ∧ d.entity = e ∧ ∀ (v : MvPolynomial ℕ ℝ) (a : ℕ → ℝ),
      pull D v = ∑ j ∈ Finset.range (bernstein n D.cell.tdim).length, C (a j) * (bernstein n D.cell.tdim).getD j 0 →
      d.eval v = a idx := by
  obtain ⟨m, h1, h2⟩ := moment_spec hc hJ n h
  refine ⟨_, by rw [bernDof, hj, Option.bind_some, h1, Option.map_some], rfl, fun v a hv => ?_⟩
  show J • pairing1 D.cell m (aeval (coordPoly D) v) = _
  rw [show aeval (coordPoly D) v = pull D v from rfl, hv, map_sum, smul_eq_mul, Finset.mul_sum]
  trans ∑ j ∈ Finset.range (bernstein n D.cell.tdim).length, if j = idx then a j else 0
  · refine Finset.sum_congr rfl fun j hj' => ?_
    have := h2 j (Finset.mem_range.1 hj')
    rw [C_mul', map_smul, smul_eq_mul, mul_left_comm, this]
    simp
  · rw [Finset.sum_ite_eq' _ idx, if_pos (Finset.mem_range.2 h)]

end Verif.Bernstein
