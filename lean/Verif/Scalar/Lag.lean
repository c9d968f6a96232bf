import Verif.Scalar.Simplex
import Verif.Families.QSub
/-!
# The basis functions of Lagrange elements, and polynomials that vanish on the boundary

Elements that are made of the basis functions of Lagrange elements use these facts.
-/

namespace Verif.Scalar
open Verif.References Verif.Moments Verif.Functionals Verif.Elements Verif.FiniteElement Verif.Polysets Verif.Orthogonal
open Verif.Families
open MvPolynomial

/-- `create_element(reference.name, "Lagrange", order)` on the default cells: `Lagrange` on simplices
(symfem/elements/lagrange.py:107-108), `Q` on quadrilaterals and hexahedra (symfem/elements/q.py:165-166).  Variant
equispaced. -/
noncomputable def lagEl (c : Cell) (k : ℕ) : Option (Element ℝ (MvPolynomial ℕ ℝ)) :=
  if c ∈ [Cell.interval, .triangle, .tetrahedron] then lagrangeElement "equispaced" c (refVertex c) k
  else qElement "equispaced" c (refVertex c) k

/-- The functions of the Lagrange elements. -/
noncomputable def W (c : Cell) (k : ℤ) : Submodule ℝ (MvPolynomial ℕ ℝ) :=
  if c ∈ [Cell.interval, .triangle, .tetrahedron] then P c.tdim k else QP c.tdim k

/-- The cells of these elements. -/
def LagCell (c : Cell) : Prop := Simplex c ∨ Box c

theorem simplex_mem {c : Cell} (hc : Simplex c) : c ∈ [Cell.interval, .triangle, .tetrahedron] := by
  rcases hc with rfl | rfl | rfl <;> simp

theorem box_not_mem {c : Cell} (hc : Box c) : c ∉ [Cell.interval, .triangle, .tetrahedron] := by
  rcases hc with rfl | rfl <;> simp

theorem W_simplex {c : Cell} (hc : Simplex c) (k : ℤ) : W c k = P c.tdim k := if_pos (simplex_mem hc)

theorem W_box {c : Cell} (hc : Box c) (k : ℤ) : W c k = QP c.tdim k := if_neg (box_not_mem hc)

/-- The number of functions. -/
def lagCount (c : Cell) (k : ℕ) : ℕ :=
  if c ∈ [Cell.interval, .triangle, .tetrahedron] then (k + c.tdim).choose c.tdim else (k + 1) ^ c.tdim

/-- The basis functions of a Lagrange element. -/
theorem lag_basis {c : Cell} (hc : LagCell c) (k : ℕ) : ∃ (e : Element ℝ (MvPolynomial ℕ ℝ)) (l : List PointDof) (fs : List (MvPolynomial ℕ ℝ)),
    lagEl c k = some e ∧ getBasis e = some fs ∧
    lspan fs = W c k ∧ fs.length = lagCount c k ∧ l.length = fs.length ∧
    (0 < k → ∀ n < c.nverts, l[n]? = some ⟨refVertex c n, (0, n)⟩) ∧
    (∀ (i j : ℕ) (f : MvPolynomial ℕ ℝ) (d : PointDof), fs[i]? = some f → l[j]? = some d → eval d.point f = if i = j then 1 else 0) ∧
    (∀ p ∈ W c k, (∀ d ∈ l, eval d.point p = 0) → p = 0) := by
  have fin : ∀ (poly : List (MvPolynomial ℕ ℝ)) (l : List PointDof), lspan poly = W c k → Independent ℝ poly →
      poly.length = lagCount c k → l.length = poly.length → (∀ p ∈ W c k, (∀ d ∈ l, eval d.point p = 0) → p = 0) →
      (0 < k → ∀ n < c.nverts, l[n]? = some ⟨refVertex c n, (0, n)⟩) → lagEl c k = ciarlet poly (l.map PointDof.functional) →
      ∃ (e : Element ℝ (MvPolynomial ℕ ℝ)) (l : List PointDof) (fs : List (MvPolynomial ℕ ℝ)),
    lagEl c k = some e ∧ getBasis e = some fs ∧
    lspan fs = W c k ∧ fs.length = lagCount c k ∧ l.length = fs.length ∧
    (0 < k → ∀ n < c.nverts, l[n]? = some ⟨refVertex c n, (0, n)⟩) ∧
    (∀ (i j : ℕ) (f : MvPolynomial ℕ ℝ) (d : PointDof), fs[i]? = some f → l[j]? = some d → eval d.point f = if i = j then 1 else 0) ∧
    (∀ p ∈ W c k, (∀ d ∈ l, eval d.point p = 0) → p = 0) := by
    intro poly l hs hi hn hl hu hv he
    obtain ⟨h1, fs, h2, h3, h4⟩ := ciarlet_basis (dofs := l.map PointDof.functional) (by rw [List.length_map, hl]) hi fun p hp hz => by
      rw [hs] at hp
      refine hu p hp fun d hd => ?_
      rw [← eval_functional]
      exact hz _ (List.mem_map_of_mem hd)
    refine ⟨_, l, fs, he.trans h1, h2, h3.trans hs, h4.trans hn, by rw [hl, h4], hv, fun i j f d hf hd => ?_, hu⟩
    rw [← (getBasis_ciarlet_dual _ _ _ h2).2 i j f d.functional hf (by rw [List.getElem?_map, hd]; rfl), eval_functional]
  rcases hc with hc | hc
  · obtain ⟨l, hl, hn⟩ := lagrange_count hc (refVertex c) k
    obtain ⟨poly, hp, hsp⟩ := polySet_lspan (simplex_dims hc) (k : ℤ)
    refine fin (poly.map (denoteMono ℝ)) l (by rw [hsp, W_simplex hc]) ((scalar_sets_independent ℝ).1 _ _ _ hp)
      (by rw [List.length_map, polySet_length _ _ _ hp, lagCount, if_pos (simplex_mem hc)])
      (by rw [List.length_map, hn, polySet_length _ _ _ hp]) (fun p hp hz => ?_) (fun hk n hnv => ?_) ?_
    · rw [W_simplex hc] at hp
      exact lagrange_determined hc _ (nonDegenerate_ref hc) hl hp hz
    · obtain ⟨points, -, hl'⟩ := lagrangeDofs_equispaced hc.fixed (refVertex c) hk
      obtain rfl := Option.some.inj (hl.symm.trans hl')
      exact getElem?_vertex c _ _ _ _ hnv
    · rw [lagEl, if_pos (simplex_mem hc), lagrangeElement, hl, hp]
      rfl
  · obtain ⟨l, hl⟩ := q_dofs hc.tensor (points_equispaced k)
    have hn := q_count hc.tensor _ _ hl
    refine fin ((quolySet c.tdim k).map (denoteMono ℝ)) l (by rw [quolySet_lspan, W_box hc])
      ((scalar_sets_independent ℝ).2.1 _ _) (by rw [List.length_map, quolySet_length, lagCount, if_neg (box_not_mem hc)])
      (by rw [List.length_map, hn, quolySet_length]) (fun p hp hz => ?_) (fun hk n hnv => ?_) ?_
    · rw [W_box hc] at hp
      exact q_determined hc.tensor hl hp hz
    · obtain ⟨points, -, rfl⟩ := qDofs_eq hc.tensor.fixed (refVertex c) hk hl
      exact getElem?_vertex c _ _ _ _ hnv
    · rw [lagEl, if_neg (box_not_mem hc), qElement, hl]
      rfl

/-- The basis functions of order 1 are determined by their values at the vertices. -/
theorem lag_one {c : Cell} (hc : LagCell c) {g : List (MvPolynomial ℕ ℝ)} (hg : ∀ f ∈ g, f ∈ W c 1) (hl : g.length = c.nverts)
    (hv : ∀ i j f, g[i]? = some f → j < c.nverts → eval (refVertex c j) f = if i = j then 1 else 0) :
    ∃ e, lagEl c 1 = some e ∧ getBasis e = some g := by
  obtain ⟨e, l, fs, h1, h2, h3, h4, h5, h6, h7, h8⟩ := lag_basis hc 1
  have hn : lagCount c 1 = c.nverts := by
    rcases hc with (rfl | rfl | rfl) | (rfl | rfl) <;> rfl
  refine ⟨e, h1, ?_⟩
  rw [h2]
  congr 1
  refine List.ext_getElem? fun i => ?_
  by_cases hi : i < c.nverts
  · have e1 : fs[i]? = some (fs[i]'(by omega)) := List.getElem?_eq_getElem _
    have e2 : g[i]? = some (g[i]'(by omega)) := List.getElem?_eq_getElem _
    rw [e1, e2]
    congr 1
    refine sub_eq_zero.1 (h8 _ (Submodule.sub_mem _ ?_ ?_) fun d hd => ?_)
    · exact h3 ▸ mem_lspan (List.getElem_mem _)
    · exact hg _ (List.getElem_mem _)
    · obtain ⟨j, hj, rfl⟩ := List.getElem_of_mem hd
      have hj' : j < c.nverts := by omega
      have e3 := h6 (by omega) j hj'
      have e4 := List.getElem?_eq_getElem hj
      have e5 := h7 i j _ _ e1 e4
      rw [map_sub, e5, Option.some.inj (e4.symm.trans e3), hv i j _ e2 hj', sub_self]
  · rw [List.getElem?_eq_none (by omega), List.getElem?_eq_none (by omega)]

/-! ### Multiples of the bubble -/

theorem independent_map {V : Type} [AddCommGroup V] [Module ℝ V] {fs : List V} (T : V →ₗ[ℝ] V) (hT : ∀ v, T v = 0 → v = 0)
    (hi : Independent ℝ fs) : Independent ℝ (fs.map T) := by
  have h := (hi.map' T (LinearMap.ker_eq_bot'.2 hT)).comp
    (fun i : Fin (fs.map T).length => (⟨i.val, by simpa using i.2⟩ : Fin fs.length)) fun i j h => by
      simpa [Fin.ext_iff] using h
  have e : (fun i : Fin (fs.map T).length => (fs.map T)[i]) = (T ∘ fun i : Fin fs.length => fs[i]) ∘
      fun i : Fin (fs.map T).length => (⟨i.val, by simpa using i.2⟩ : Fin fs.length) := by
    funext i
    simp
  unfold Independent
  rw [e]
  exact h

theorem lspan_map {V : Type} [AddCommGroup V] [Module ℝ V] (T : V →ₗ[ℝ] V) (fs : List V) : lspan (fs.map T) = (lspan fs).map T := by
  rw [lspan, lspan, Submodule.map_span]
  congr 1
  ext v
  simp

/-- Basis functions are independent. -/
theorem basis_independent {basis : List (MvPolynomial ℕ ℝ)} {l : List PointDof} (hl : l.length = basis.length)
    (h : ∀ (i j : ℕ) (f : MvPolynomial ℕ ℝ) (d : PointDof), basis[i]? = some f → l[j]? = some d → eval d.point f = if i = j then 1 else 0) : Independent ℝ basis := by
  refine linearIndependent_of_triangular _ (fun i : Fin basis.length => (aeval (l[i.val]'(by omega)).point).toLinearMap)
    (fun _ => 0) ?_ ?_
  · intro i
    have := h i i _ _ (List.getElem?_eq_getElem i.2) (List.getElem?_eq_getElem (l := l) (i := i.val) (by omega))
    rw [if_pos rfl] at this
    show aeval _ _ ≠ 0
    have e : aeval (l[i.val]'(by omega)).point basis[i] = eval (l[i.val]'(by omega)).point basis[i] := by
      rw [← coe_aeval_eq_eval]; rfl
    rw [e]
    erw [this]
    exact one_ne_zero
  · intro i j hij hne
    exfalso
    apply hne
    have := h j i _ _ (List.getElem?_eq_getElem j.2) (List.getElem?_eq_getElem (l := l) (i := i.val) (by omega))
    rw [if_neg (fun h => hij (Fin.ext h.symm))] at this
    show aeval _ _ = 0
    have e : aeval (l[i.val]'(by omega)).point basis[j] = eval (l[i.val]'(by omega)).point basis[j] := by
      rw [← coe_aeval_eq_eval]; rfl
    rw [e]
    exact this

/-- Multiplication by a polynomial. -/
noncomputable def times (b : MvPolynomial ℕ ℝ) : MvPolynomial ℕ ℝ →ₗ[ℝ] MvPolynomial ℕ ℝ := LinearMap.mulLeft ℝ b

theorem times_inj {b : MvPolynomial ℕ ℝ} (hb : b ≠ 0) (v : MvPolynomial ℕ ℝ) (h : times b v = 0) : v = 0 :=
  (mul_eq_zero.1 h).resolve_left hb

/-- A polynomial that vanishes where one of the first variables does. -/
theorem X_prod_factor {d n : ℕ} {k : ℤ} {p : MvPolynomial ℕ ℝ} (hp : p ∈ P d k)
    (h : ∀ j < n, ∀ z : ℕ → ℝ, z j = 0 → eval z p = 0) : ∃ q ∈ P d (k - n), p = (∏ j ∈ Finset.range n, X j) * q := by
  induction n with
  | zero => exact ⟨p, by simpa using hp, by simp⟩
  | succ n ih =>
    obtain ⟨q, hq, rfl⟩ := ih fun j hj => h j (by omega)
    have hd : ∀ m ≤ n, (X n : MvPolynomial ℕ ℝ) ∣ (∏ j ∈ Finset.range m, X j) * q → X n ∣ q := by
      intro m hm
      induction m with
      | zero => simp
      | succ m ihm =>
        intro hdvd
        rw [Finset.prod_range_succ, mul_assoc, mul_comm, mul_assoc] at hdvd
        rcases X_dvd_mul_iff.1 hdvd with h1 | h1
        · exact absurd (X_dvd_X.1 h1) (by omega)
        · exact ihm (by omega) (by rwa [mul_comm] at h1)
    obtain ⟨r, rfl⟩ := hd n le_rfl (X_dvd n (h n (by omega)))
    refine ⟨r, ?_, by rw [Finset.prod_range_succ]; ring⟩
    have := X_cancel hq
    convert this using 2
    push_cast
    ring

/-- The product of the barycentric coordinates. -/
noncomputable def simpBub (d : ℕ) : MvPolynomial ℕ ℝ := (∏ j ∈ Finset.range d, X j) * opp d

theorem eval_simpBub (d : ℕ) (z : ℕ → ℝ) : eval z (simpBub d) = (∏ j ∈ Finset.range d, z j) * (1 - ∑ i : Fin d, z i.val) := by
  rw [simpBub, map_mul, eval_opp, map_prod]
  simp

/-- A polynomial that vanishes on the boundary of a simplex is a multiple of the bubble. -/
theorem simp_factor {d : ℕ} (hd : 0 < d) {k : ℤ} {p : MvPolynomial ℕ ℝ} (hp : p ∈ P d k)
    (h : ∀ j < d, ∀ z : ℕ → ℝ, z j = 0 → eval z p = 0) (ho : ∀ z : ℕ → ℝ, ∑ i : Fin d, z i.val = 1 → eval z p = 0) :
    ∃ q ∈ P d (k - d - 1), p = simpBub d * q := by
  obtain ⟨q, hq, rfl⟩ := X_prod_factor hp h
  have hq' : opp d ∣ q := by
    rcases Nat.lt_or_ge d 2 with h2 | h2
    · obtain rfl : d = 1 := by omega
      refine opp_dvd hd fun z hz => ?_
      have := ho z hz
      simp only [Finset.univ_unique, Finset.sum_singleton] at hz
      rw [map_mul, mul_eq_zero] at this
      refine this.resolve_left ?_
      have e : z 0 = 1 := hz
      simp [e]
    · have key : ∀ m ≤ d, opp d ∣ (∏ j ∈ Finset.range m, X j) * q → opp d ∣ q := by
        intro m hm
        induction m with
        | zero => simp
        | succ m ih =>
          intro hdvd
          rw [Finset.prod_range_succ, mul_comm (∏ j ∈ Finset.range m, X j), mul_assoc] at hdvd
          exact ih (by omega) (opp_dvd_of_X_mul hd (by omega) h2 hdvd)
      exact key d le_rfl (opp_dvd hd ho)
  obtain ⟨r, rfl⟩ := hq'
  exact ⟨r, P_cancel (degree_opp hd) hq, by rw [simpBub]; ring⟩

/-- A polynomial that vanishes on the boundary of a quadrilateral or hexahedron is a multiple of the bubble. -/
theorem box_factor {n : ℕ} {F : ℕ → ℤ} {g : MvPolynomial ℕ ℝ} (hg : g ∈ B F)
    (h : ∀ j < n, ∀ z : ℕ → ℝ, z j = 0 ∨ z j = 1 → eval z g = 0) :
    ∃ q ∈ B fun i => F i - if i < n then 2 else 0, g = cellBub n * q := by
  induction n with
  | zero => exact ⟨g, by simpa using hg, by simp [cellBub]⟩
  | succ n ih =>
    obtain ⟨q, hq, rfl⟩ := ih fun j hj => h j (by omega)
    obtain ⟨r, hr, rfl⟩ := B_bub n hq (cellBub_cancel le_rfl fun z hz => h n (by omega) z (Or.inl hz))
      (cellBub_cancel le_rfl fun z hz => h n (by omega) z (Or.inr hz))
    refine ⟨r, B_mono (fun i => ?_) hr, ?_⟩
    · split_ifs <;> omega
    · rw [cellBub_succ]
      ring

/-! ### Interior points -/

/-- A polynomial of degree `m` that vanishes at the points of a lattice with `m + 1` points in each direction. -/
theorem lattice_zero {d m : ℕ} {q : MvPolynomial ℕ ℝ} (hq : q ∈ P d m) (node : ℕ → ℝ) (hn : Function.Injective node)
    (h : ∀ t : ℕ → ℕ, ∑ i ∈ Finset.range d, t i ≤ m → ∀ z : ℕ → ℝ, (∀ i < d, z i = node (t i)) → eval z q = 0) : q = 0 := by
  refine eq_zero_of_lower' q {t | t.degree ≤ m ∧ ∀ i ∈ t.support, i < d} ?_ (fun t ht => ?_) (fun _ n => node n)
    (fun t _ i => hn.injOn) fun t ht => ?_
  · intro a b hab ha
    exact ⟨(Finsupp.degree_mono hab).trans ha.1, fun i hi => ha.2 i (by
      rw [Finsupp.mem_support_iff] at hi ⊢
      have := hab i
      omega)⟩
  · have := mem_P.1 hq t ht
    exact ⟨by omega, this.2⟩
  · refine h t ?_ _ fun i _ => rfl
    have : t.degree = ∑ i ∈ Finset.range d, t i := by
      rw [Finsupp.degree_apply, Finset.sum_subset (s₂ := Finset.range d)]
      · intro i hi; exact Finset.mem_range.2 (ht.2 i hi)
      · intro i _ hi; simpa using hi
    rw [← this]
    exact ht.1

/-- The same for tensor product polynomials. -/
theorem grid_zero {d m : ℕ} {q : MvPolynomial ℕ ℝ} (hq : q ∈ QP d m) (node : ℕ → ℝ) (hn : Function.Injective node)
    (h : ∀ t : ℕ → ℕ, (∀ i, t i ≤ m) → ∀ z : ℕ → ℝ, (∀ i < d, z i = node (t i)) → eval z q = 0) : q = 0 :=
  eq_zero_of_lower' q _ (QSet_lower d m) (QP_support hq) (fun _ n => node n) (fun t _ i => hn.injOn)
    fun t ht => h t ht.1 _ fun i _ => rfl

/-- Points of the default cells have the coordinates they are given by. -/
theorem lag_point {c : Cell} (hc : LagCell c) (cs : List ℝ) (hl : cs.length = c.tdim) :
    entityPoint c (refVertex c) cs = fun j => cs.getD j 0 := by
  rcases hc with hc | hc
  swap
  · exact tensor_point hc.tensor cs hl
  have key : ∀ c ∈ [Cell.interval, .triangle, .tetrahedron], ∀ j < 3, (refVertex c 0 j : ℚ) = 0 ∧
      ∀ m < c.tdim, (refVertex c ((axisVertices c).getD m 0) j : ℚ) = if m = j then 1 else 0 := by decide +kernel
  have h3 : c.tdim ≤ 3 := by rcases hc with rfl | rfl | rfl <;> simp [Cell.tdim]
  funext j
  unfold entityPoint
  by_cases hj : j < 3
  · obtain ⟨h0, h1⟩ := key c (simplex_mem hc) j hj
    have : ∀ m ∈ Finset.range cs.length, axis c (refVertex c : ℕ → ℕ → ℝ) m j * cs.getD m 0 =
        if m = j then cs.getD j 0 else 0 := by
      intro m hm
      rw [Finset.mem_range, hl] at hm
      simp only [axis, psub]
      rw [refVertex_cast, refVertex_cast, h0, h1 m hm]
      split_ifs with h
      · simp [h]
      · simp
    rw [Finset.sum_congr rfl this, refVertex_cast, h0, Finset.sum_ite_eq']
    split_ifs with h
    · simp
    · rw [List.getD_eq_default (hn := by simpa using h)]; simp
  · rw [refVertex_ge _ _ _ (by omega), List.getD_eq_default (hn := by omega), zero_add]
    refine Finset.sum_eq_zero fun m _ => ?_
    simp only [axis, psub]
    rw [refVertex_ge _ _ _ (by omega), refVertex_ge _ _ _ (by omega)]
    simp

end Verif.Scalar
