import Verif.Elements.Tensor
import Mathlib.Algebra.MvPolynomial.Rename
import Mathlib.Algebra.MvPolynomial.Degrees
/-!
# The basis functions from the tensor factorisation

C52: they are the basis functions of the element.
-/

namespace Verif.Elements
open Verif.References Verif.Quadrature Verif.Polysets Verif.FiniteElement
open MvPolynomial

theorem products_eq {A : Type} (ls : List (List A)) (m : ℕ) (h : ∀ l ∈ ls, l.length = m) (z : A) :
    products ls = (product (List.range m) ls.length).map fun t =>
      (List.range ls.length).map fun x => (ls.getD x []).getD (t.getD x 0) z := by
  induction ls with
  | nil => simp [products, product]
  | cons l ls ih =>
    rw [products, ih fun l' h' => h l' (by simp [h']), List.length_cons, product, List.map_flatMap]
    have hl : l = (List.range m).map fun a => l.getD a z := by
      refine List.ext_getElem (by simp [h l (by simp)]) fun i h1 h2 => ?_
      simp [List.getD_eq_getElem?_getD, List.getElem?_eq_getElem h1]
    conv_lhs => rw [hl]
    rw [List.flatMap_map]
    refine List.flatMap_congr fun a _ => ?_
    rw [List.map_map, List.map_map]
    refine List.map_congr_left fun t _ => ?_
    simp only [Function.comp_def]
    rw [List.range_succ_eq_map, List.map_cons, List.map_map]
    simp [Function.comp_def]

/-- Looking up a dictionary with distinct keys. -/
theorem dictGet_eq {A : Type} {T : List (List ℕ)} {h : List ℕ → ℕ} {g : List ℕ → A}
    (hinj : (T.map h).Nodup) {t : List ℕ} (ht : t ∈ T) : dictGet (T.map fun t => (h t, g t)) (h t) = some (g t) := by
  unfold dictGet
  cases hf : (T.map fun t => (h t, g t)).reverse.find? fun e => e.1 = h t with
  | none =>
    rw [List.find?_eq_none] at hf
    exact absurd (by simp) (hf (h t, g t) (List.mem_reverse.2 (List.mem_map.2 ⟨t, ht, rfl⟩)))
  | some e =>
    have h1 := List.mem_of_find?_eq_some hf
    have h2 := List.find?_some hf
    obtain ⟨s, hs, rfl⟩ := List.mem_map.1 (List.mem_reverse.1 h1)
    have h2 : h s = h t := by simpa using h2
    rw [List.inj_on_of_nodup_map hinj hs ht h2]
    rfl

/-- The products of functions that are dual to points on an interval. -/
noncomputable def prodFn (fs : List (MvPolynomial ℕ ℝ)) (d : ℕ) (t : List ℕ) : MvPolynomial ℕ ℝ :=
  ∏ x ∈ Finset.range d, rename (fun i => if i = 0 then x else i) (fs.getD (t.getD x 0) 0)

theorem tensorBasis_eq {fs : List (MvPolynomial ℕ ℝ)} {m d : ℕ} (hm : fs.length = m) {h : List ℕ → ℕ}
    (hperm : ((product (List.range m) d).map h).Perm (List.range (m ^ d))) :
    ∃ B, tensorBasis ((product (List.range m) d).map h) fs d = some B ∧ B.length = m ^ d ∧
      ∀ t ∈ product (List.range m) d, B[h t]? = some (prodFn fs d t) := by
  have hnd : ((product (List.range m) d).map h).Nodup := hperm.nodup_iff.2 List.nodup_range
  have hdict : ((product (List.range m) d).map h).zip ((products ((List.range d).map fun x => fs.map fun f =>
      rename (fun i => if i = 0 then x else i) f)).map fun t => t.foldl (· * ·) 1) =
      (product (List.range m) d).map fun t => (h t, prodFn fs d t) := by
    rw [products_eq _ m (by intro l hl; obtain ⟨x, -, rfl⟩ := List.mem_map.1 hl; simpa using hm) 0, List.length_map,
      List.length_range, List.map_map, List.zip_map']
    refine List.map_congr_left fun t ht => ?_
    congr 1
    simp only [Function.comp_def]
    rw [← List.prod_eq_foldl, prodFn, ← List.toFinset_range, List.prod_toFinset _ List.nodup_range]
    congr 1
    refine List.map_congr_left fun x hx => ?_
    have hxd := List.mem_range.1 hx
    simp only [List.getD_eq_getElem?_getD, List.getElem?_map, List.getElem?_range hxd, Option.map_some, Option.getD_some]
    cases fs[t[x]?.getD 0]? <;> simp
  unfold tensorBasis
  simp only [hdict, List.map_map]
  have hk : (((product (List.range m) d).map (Prod.fst ∘ fun t => (h t, prodFn fs d t))).dedup.length) = m ^ d := by
    show ((product (List.range m) d).map h).dedup.length = _
    rw [hnd.dedup, hperm.length_eq, List.length_range]
  rw [hk]
  choose! inv hinv hinv' using fun i (hi : i < m ^ d) => List.mem_map.1 (hperm.mem_iff.2 (List.mem_range.2 hi))
  refine ⟨(List.range (m ^ d)).map fun i => prodFn fs d (inv i), ?_, by simp, fun t ht => ?_⟩
  · refine mapM_some_of _ _ _ fun i hi => ?_
    have hi := List.mem_range.1 hi
    have := dictGet_eq (g := prodFn fs d) hnd (hinv i hi)
    rwa [hinv' i hi] at this
  · have hlt : h t < m ^ d := List.mem_range.1 (hperm.mem_iff.1 (List.mem_map_of_mem ht))
    rw [List.getElem?_map, List.getElem?_range hlt]
    show some (prodFn fs d (inv (h t))) = _
    rw [List.inj_on_of_nodup_map hnd (hinv _ hlt) ht (hinv' _ hlt)]

/-- Functions of the first variable only. -/
theorem eval_rename_first {f : MvPolynomial ℕ ℝ} (hf : ∀ i ∈ f.vars, i < 1) (x : ℕ) (P Q : ℕ → ℝ) (h : P x = Q 0) :
    eval P (rename (fun i => if i = 0 then x else i) f) = eval Q f := by
  rw [eval_rename]
  refine eval₂Hom_congr' rfl (fun i hi _ => ?_) rfl
  have : i = 0 := by have := hf i hi; omega
  simp [this, h]

theorem eval_prodFn {fs : List (MvPolynomial ℕ ℝ)} {m d : ℕ} (hm : fs.length = m)
    (hfs : ∀ f ∈ fs, ∀ i ∈ f.vars, i < 1) (z : ℕ → ℕ → ℝ)
    (hdual : ∀ (a b : ℕ) (f : MvPolynomial ℕ ℝ), fs[a]? = some f → b < m → eval (z b) f = if a = b then 1 else 0)
    {s t : List ℕ} (hs : s ∈ product (List.range m) d) (ht : t ∈ product (List.range m) d) (P : ℕ → ℝ)
    (hP : ∀ x < d, P x = z (s.getD x 0) 0) : eval P (prodFn fs d t) = if t = s then 1 else 0 := by
  have hlt : ∀ {u : List ℕ}, u ∈ product (List.range m) d → ∀ x < d, ∃ hx : x < u.length, u.getD x 0 = u[x] ∧ u[x] < m := by
    intro u hu x hx
    have hx' : x < u.length := by rw [(mem_product.1 hu).1]; exact hx
    exact ⟨hx', by rw [List.getD_eq_getElem?_getD, List.getElem?_eq_getElem hx']; rfl,
      List.mem_range.1 ((mem_product.1 hu).2 _ (List.getElem_mem hx'))⟩
  have hfac : ∀ x ∈ Finset.range d, eval P (rename (fun i => if i = 0 then x else i) (fs.getD (t.getD x 0) 0)) =
      if t.getD x 0 = s.getD x 0 then 1 else 0 := by
    intro x hx
    have hx := Finset.mem_range.1 hx
    obtain ⟨h1, h2, h3⟩ := hlt ht x hx
    obtain ⟨h4, h5, h6⟩ := hlt hs x hx
    have hget : fs[t.getD x 0]? = some (fs.getD (t.getD x 0) 0) := by
      rw [List.getD_eq_getElem?_getD (l := fs), List.getElem?_eq_getElem (by rw [h2, hm]; exact h3)]
      rfl
    rw [eval_rename_first (hfs _ (List.mem_of_getElem? hget)) x P (z (s.getD x 0)) (hP x hx),
      hdual _ _ _ hget (by rw [h5]; exact h6)]
  rw [prodFn, map_prod, Finset.prod_congr rfl hfac]
  by_cases h : t = s
  · simp [h]
  · rw [if_neg h]
    obtain ⟨x, hx, hne⟩ : ∃ x < d, t.getD x 0 ≠ s.getD x 0 := by
      by_contra hc
      push Not at hc
      refine h (List.ext_getElem ?_ fun j h1 h2 => ?_)
      · rw [(mem_product.1 hs).1, (mem_product.1 ht).1]
      · have := hc j (by rw [← (mem_product.1 ht).1]; exact h1)
        rwa [List.getD_eq_getElem?_getD, List.getD_eq_getElem?_getD, List.getElem?_eq_getElem h1,
          List.getElem?_eq_getElem h2] at this
    exact Finset.prod_eq_zero (Finset.mem_range.2 hx) (if_neg hne)

theorem prodFn_mem {fs : List (MvPolynomial ℕ ℝ)} {d k : ℕ} (hfs : ∀ f ∈ fs, ∀ i ∈ f.vars, i < 1)
    (hdeg : ∀ f ∈ fs, f.totalDegree ≤ k) (t : List ℕ) : ∀ u ∈ (prodFn fs d t).support, u ∈ QSet d k := by
  have hone : ∀ x i, degreeOf i (rename (fun i => if i = 0 then x else i) (fs.getD (t.getD x 0) 0)) ≤
      if i = x then k else 0 := by
    intro x i
    have hf : fs.getD (t.getD x 0) 0 = 0 ∨ fs.getD (t.getD x 0) 0 ∈ fs := by
      rw [List.getD_eq_getElem?_getD]
      cases h : fs[t.getD x 0]? with
      | none => exact Or.inl rfl
      | some f => exact Or.inr (List.mem_of_getElem? h)
    rcases hf with hf | hf
    · rw [hf]; simp
    · split_ifs with hi
      · exact (degreeOf_le_totalDegree _ _).trans ((totalDegree_rename_le _ _).trans (hdeg _ hf))
      · refine degreeOf_le_iff.2 fun u hu => ?_
        by_contra hne
        have hne : u i ≠ 0 := by omega
        have : i ∈ (rename (fun i => if i = 0 then x else i) (fs.getD (t.getD x 0) 0)).vars :=
          (mem_vars_iff_mem_support i).2 ⟨u, hu, Finsupp.mem_support_iff.2 hne⟩
        obtain ⟨j, hj, hji⟩ := Finset.mem_image.1 (vars_rename _ _ this)
        have : j = 0 := by have := hfs _ hf j hj; omega
        rw [if_pos this] at hji
        exact hi hji.symm
  intro u hu
  have hle : ∀ i, u i ≤ ∑ x ∈ Finset.range d, if i = x then k else 0 := fun i =>
    (monomial_le_degreeOf i hu).trans ((degreeOf_prod_le _ _ _).trans (Finset.sum_le_sum fun x _ => hone x i))
  refine ⟨fun i => (hle i).trans ?_, fun i hi => Nat.le_zero.1 ((hle i).trans ?_)⟩
  · rw [Finset.sum_ite_eq]
    split_ifs <;> omega
  · rw [Finset.sum_ite_eq, if_neg (by simpa using hi)]

/-- Basis functions are determined by their DOFs. -/
theorem eq_of_dual {basis : List (MvPolynomial ℕ ℝ)} {dofs : List (Dof ℝ (MvPolynomial ℕ ℝ))} {B B' : List (MvPolynomial ℕ ℝ)}
    (h : getBasis (.ciarlet basis dofs) = some B) (hl : B'.length = dofs.length)
    (hd : ∀ (i j : ℕ) (f : MvPolynomial ℕ ℝ) (d : Dof ℝ (MvPolynomial ℕ ℝ)), B'[i]? = some f → dofs[j]? = some d →
      d.eval f = if i = j then 1 else 0)
    (hu : ∀ f ∈ B, ∀ g ∈ B', (∀ d ∈ dofs, d.eval (f - g) = 0) → f = g) : B' = B := by
  obtain ⟨hB, hBd⟩ := getBasis_ciarlet_dual _ _ _ h
  refine List.ext_getElem (by omega) fun i h1 h2 => ?_
  refine (hu _ (List.getElem_mem h2) _ (List.getElem_mem h1) fun d hd' => ?_).symm
  obtain ⟨j, hj, rfl⟩ := List.getElem_of_mem hd'
  rw [map_sub, hBd i j _ _ (List.getElem?_eq_getElem h2) (List.getElem?_eq_getElem hj),
    hd i j _ _ (List.getElem?_eq_getElem h1) (List.getElem?_eq_getElem hj), sub_self]

/-- **C52** `get_basis_functions(use_tensor_factorisation=True)` of an equispaced Q element returns the basis functions
that `get_basis_functions()` returns. -/
theorem qTensorBasis_eq {c : Cell} (hc : c = .quadrilateral ∨ c = .hexahedron) (k : ℕ) :
    ∃ e B, qElement "equispaced" c (refVertex c) k = some e ∧ getBasis e = some B ∧ qTensorBasis c k = some B := by
  have hT : Tensor c := Or.inr hc
  obtain ⟨e, he, hB⟩ := q_created (variant := "equispaced") (by decide) hT k
    fun hk => (rulePoints_equispaced hk).imp fun _ h => h.1
  obtain ⟨B, hB⟩ := Option.isSome_iff_exists.1 hB
  obtain ⟨e₁, he₁, hB₁⟩ := lagrange_created (c := .interval) (Or.inl rfl) _ (nonDegenerate_ref (Or.inl rfl)) k
  obtain ⟨fs, hfs⟩ := Option.isSome_iff_exists.1 hB₁
  refine ⟨e, B, he, hB, ?_⟩
  -- the two elements
  unfold qElement at he
  cases hl : qDofs "equispaced" c (refVertex c) k with
  | none => rw [hl] at he; cases he
  | some l =>
  rw [hl, Option.bind_some, ciarlet] at he
  split_ifs at he with hlen
  cases he
  unfold lagrangeElement at he₁
  cases hl₁ : lagrangeDofs "equispaced" .interval (refVertex .interval) k with
  | none => rw [hl₁] at he₁; cases he₁
  | some l₁ =>
  obtain ⟨poly, hpoly, -, -⟩ := polySet_spec 1 (by omega) k
  have hpoly' : polySet Cell.interval.tdim k = some poly := hpoly
  rw [hl₁, Option.bind_some, hpoly', Option.bind_some, ciarlet] at he₁
  split_ifs at he₁ with hlen₁
  cases he₁
  -- the functions on the interval
  obtain ⟨hfl, hfd⟩ := getBasis_ciarlet_dual _ _ _ hfs
  have hspan := getBasis_ciarlet_span _ _ _ hfs
  have hlc₁ : l₁.length = k + 1 := by
    obtain ⟨l', h1, h2⟩ := lagrange_count (c := .interval) (Or.inl rfl) (refVertex .interval) k
    rw [hl₁] at h1
    cases h1
    simpa [Cell.tdim] using h2
  have hm : fs.length = k + 1 := by rw [hfl, List.length_map, hlc₁]
  have hfsp : ∀ f ∈ fs, f.totalDegree ≤ k ∧ ∀ i ∈ f.vars, i < 1 := fun f hf => by
    refine poly_span hpoly ?_
    rw [← hspan]
    exact Submodule.subset_span hf
  -- the permutation
  obtain ⟨perm, hperm⟩ : ∃ perm, qPerm c k = some perm := by
    unfold qPerm
    rcases hc with rfl | rfl <;> split_ifs <;> exact ⟨_, rfl⟩
  have hcount := q_count hT _ _ hl
  obtain ⟨h, hpm, hrange, hpts⟩ : ∃ h : List ℕ → ℕ, perm = (product (List.range (k + 1)) c.tdim).map h ∧
      perm.Perm (List.range ((k + 1) ^ c.tdim)) ∧ ∀ t ∈ product (List.range (k + 1)) c.tdim, ∃ d, l[h t]? = some d ∧
        ∀ x < c.tdim, ∃ d₁, l₁[t.getD x 0]? = some d₁ ∧ d.point x = d₁.point 0 := by
    rcases Nat.eq_zero_or_pos k with rfl | hk
    · refine ⟨fun _ => 0, ?_, ?_, fun t ht => ?_⟩
      · unfold qPerm at hperm
        rw [if_pos rfl] at hperm
        cases hperm
        rcases hc with rfl | rfl <;> rfl
      · unfold qPerm at hperm
        rw [if_pos rfl] at hperm
        cases hperm
        simp
      · have ht0 : ∀ x, t.getD x 0 = 0 := fun x => by
          by_cases hx : x < t.length
          · rw [List.getD_eq_getElem?_getD, List.getElem?_eq_getElem hx]
            have := (mem_product.1 ht).2 _ (List.getElem_mem hx)
            simpa using this
          · rw [List.getD_eq_default (hn := by omega)]
        unfold qDofs at hl
        rw [if_neg (by decide), if_pos rfl, getPoint_eq _ _ _ (by rcases hc with rfl | rfl <;> rfl)] at hl
        cases hl
        unfold lagrangeDofs at hl₁
        rw [if_neg (by decide), if_pos rfl, getPoint_eq _ _ _ rfl] at hl₁
        cases hl₁
        refine ⟨_, rfl, fun x hx => ⟨_, by rw [ht0]; rfl, ?_⟩⟩
        have e1 : entityPoint Cell.interval (refVertex .interval)
            (List.replicate Cell.interval.tdim (1 / ((Cell.interval.tdim : ℝ) + 1))) 0 = 1 / 2 := by
          simp [entityPoint, Cell.tdim, axis, psub, axisVertices, refVertex, refVerts, coords]
          norm_num
        refine Eq.trans ?_ e1.symm
        rcases hc with rfl | rfl
        · simp only [Cell.tdim] at hx
          interval_cases x <;>
            simp [entityPoint, Cell.tdim, axis, psub, axisVertices, refVertex, refVerts, coords, Finset.sum_range_succ]
        · simp only [Cell.tdim] at hx
          interval_cases x <;>
            simp [entityPoint, Cell.tdim, axis, psub, axisVertices, refVertex, refVerts, coords, Finset.sum_range_succ]
    · obtain ⟨hp1, hp2⟩ := qPerm_spec hk hperm hl hl₁
      obtain ⟨n, rfl⟩ : ∃ n, k = n + 1 := ⟨k - 1, by omega⟩
      obtain ⟨-, heq⟩ := qPerm_eq hperm
      refine ⟨_, heq, by rw [← hcount]; exact hp1, fun t ht => ?_⟩
      obtain ⟨i, hi, rfl⟩ := List.getElem_of_mem ht
      obtain ⟨N, d, h1, h2, h3, -⟩ := hp2 i _ (by rw [hlc₁]; exact List.getElem?_eq_getElem hi)
      rw [heq, List.getElem?_map, List.getElem?_eq_getElem hi] at h1
      cases h1
      refine ⟨d, h2, fun x hx => ?_⟩
      obtain ⟨d₁, h4, h5⟩ := h3 x hx
      refine ⟨d₁, ?_, h5⟩
      have hx' : x < (product (List.range (n + 1 + 1)) c.tdim)[i].length := by
        rw [(mem_product.1 ht).1]; exact hx
      rw [List.getElem?_eq_getElem hx', Option.bind_some] at h4
      rw [List.getD_eq_getElem?_getD, List.getElem?_eq_getElem hx', Option.getD_some]
      exact h4
  obtain ⟨B', hB', hBl, hBt⟩ := tensorBasis_eq (fs := fs) (d := c.tdim) hm (hpm ▸ hrange)
  rw [← hpm] at hB'
  have hmono : qTensorBasis c k = some B' := by
    unfold qTensorBasis lagrangeElement
    rw [hperm, hl₁, Option.bind_some, Option.bind_some, hpoly', Option.bind_some, ciarlet, if_pos hlen₁,
      Option.bind_some, hfs, Option.bind_some, hB']
  rw [hmono]
  congr 1
  have hmem : ∀ g ∈ B', ∀ u ∈ g.support, u ∈ QSet c.tdim k := by
    intro g hg
    obtain ⟨i, hi, rfl⟩ := List.getElem_of_mem hg
    obtain ⟨t, ht, hti⟩ : ∃ t ∈ product (List.range (k + 1)) c.tdim, h t = i := by
      have := hrange.mem_iff.2 (List.mem_range.2 (hBl ▸ hi))
      rw [hpm] at this
      exact List.mem_map.1 this
    have := hBt t ht
    rw [hti, List.getElem?_eq_getElem hi] at this
    rw [Option.some.inj this]
    exact prodFn_mem (fun f hf => (hfsp f hf).2) (fun f hf => (hfsp f hf).1) t
  refine eq_of_dual hB (by rw [hBl, List.length_map, hcount]) (fun i j g d hg hd => ?_) (fun f hf g hg hz => ?_)
  · obtain ⟨t, ht, rfl⟩ : ∃ t ∈ product (List.range (k + 1)) c.tdim, h t = i := by
      have := hrange.mem_iff.2 (List.mem_range.2 (hBl ▸ (List.getElem?_eq_some_iff.1 hg).1))
      rw [hpm] at this
      exact List.mem_map.1 this
    obtain ⟨s, hs, rfl⟩ : ∃ s ∈ product (List.range (k + 1)) c.tdim, h s = j := by
      have h1 := (List.getElem?_eq_some_iff.1 hd).1
      rw [List.length_map, hcount] at h1
      have := hrange.mem_iff.2 (List.mem_range.2 h1)
      rw [hpm] at this
      exact List.mem_map.1 this
    rw [hBt t ht] at hg
    cases hg
    obtain ⟨d', hd', hdx⟩ := hpts s hs
    rw [List.getElem?_map, hd'] at hd
    cases hd
    rw [eval_functional]
    have := eval_prodFn hm (fun f hf => (hfsp f hf).2) (fun b => (l₁.getD b ⟨0, 0, 0⟩).point) (fun a b f ha hb => ?_) hs ht
      d'.point (fun x hx => ?_)
    · rw [this]
      have hnd : ((product (List.range (k + 1)) c.tdim).map h).Nodup := by
        rw [← hpm]; exact hrange.nodup_iff.2 List.nodup_range
      by_cases hst : t = s
      · simp [hst]
      · rw [if_neg hst, if_neg fun e => hst (List.inj_on_of_nodup_map hnd ht hs e)]
    · have hb' : b < l₁.length := by omega
      have h2 := hfd a b f (l₁[b].functional) ha (by rw [List.getElem?_map, List.getElem?_eq_getElem hb']; rfl)
      rw [eval_functional] at h2
      simp only [List.getD_eq_getElem?_getD, List.getElem?_eq_getElem hb', Option.getD_some]
      exact h2
    · obtain ⟨d₁, h1, h2⟩ := hdx x hx
      rw [h2, List.getD_eq_getElem?_getD, h1]
      rfl
  · have hsub : f ∈ Submodule.span ℝ {p | p ∈ (quolySet c.tdim k).map (denoteMono ℝ)} := by
      rw [← getBasis_ciarlet_span _ _ _ hB]
      exact Submodule.subset_span hf
    have hz' : ∀ d ∈ l, eval d.point (f - g) = 0 := fun d hd => by
      rw [← eval_functional]
      exact hz _ (List.mem_map_of_mem hd)
    have hsup : ∀ u ∈ (f - g).support, u ∈ QSet c.tdim k := by
      classical
      intro u hu
      rcases Finset.mem_union.1 (support_sub _ _ _ hu) with h | h
      · exact quoly_span hsub u h
      · exact hmem g hg u h
    rw [← sub_eq_zero]
    rcases Nat.eq_zero_or_pos k with rfl | hk
    · exact q_zero hsup hz' (by rw [hcount]; simp)
    · exact q_unisolvent hT hk hl _ hsup hz'

/-! ### Other variants

`get_tensor_factorisation` always uses the equispaced Lagrange element on the interval. -/

/-- The evaluations on the first edge of a quadrilateral, at order 3. -/
theorem quad_edge {variant : String} {l : List PointDof} {points : List ℝ} (hr : rulePoints variant 3 = some points)
    (hl : qDofs variant .quadrilateral (refVertex .quadrilateral) 3 = some l) {a : ℕ} (ha : a < 4) :
    ∃ d, l[quadEntry 2 a 0]? = some d ∧ d.point 0 = nodeOf points 3 (intervalNode 3 a) ∧ d.point 1 = 0 := by
  obtain ⟨points', hr', rfl⟩ := qDofs_eq (Tensor.fixed (Or.inr (Or.inl rfl))) _ (by omega) hl
  obtain rfl : points = points' := Option.some.inj (hr.symm.trans hr')
  have hmem : [a, 0] ∈ product (List.range (3 + 1)) 2 := mem_product.2 ⟨rfl, by simpa using ha⟩
  have := q_index (c := .quadrilateral) (Or.inr (Or.inl rfl)) (points := points) (k := 3) (by omega) (gridOf 3 [a, 0])
    (gridOf_le hmem) (gridOf_ge hmem)
  rw [← quadEntry_eq 2 a 0 (by omega) (by omega)] at this
  exact ⟨_, this, rfl, rfl⟩

/-- The property fails for the variant "gll" of order 3: the functions returned with the tensor factorisation are not
the basis functions of the element. -/
theorem qTensorBasis_gll : ∃ e B, qElement "gll" .quadrilateral (refVertex .quadrilateral) 3 = some e ∧
    getBasis e = some B ∧ qTensorBasis .quadrilateral 3 ≠ some B := by
  have hT : Tensor .quadrilateral := Or.inr (Or.inl rfl)
  have hrg : rulePoints "gll" 3 = some [0, (1 - 1 / √5) / 2, (1 + 1 / √5) / 2, 1] := by
    simp [rulePoints, getQuadrature, lobatto]
  obtain ⟨pe, hre, hpe⟩ := rulePoints_equispaced (k := 3) (by omega)
  obtain ⟨e, he, hB⟩ := q_created (variant := "gll") (by decide) hT 3 fun _ => ⟨_, hrg⟩
  obtain ⟨B, hB⟩ := Option.isSome_iff_exists.1 hB
  refine ⟨e, B, he, hB, fun hc => ?_⟩
  obtain ⟨e', B', he', hB', h'⟩ := qTensorBasis_eq (c := .quadrilateral) (Or.inl rfl) 3
  rw [h'] at hc
  cases hc
  unfold qElement at he he'
  cases hl : qDofs "gll" .quadrilateral (refVertex .quadrilateral) 3 with
  | none => rw [hl] at he; cases he
  | some l =>
  cases hl' : qDofs "equispaced" .quadrilateral (refVertex .quadrilateral) 3 with
  | none => rw [hl'] at he'; cases he'
  | some l' =>
  rw [hl, Option.bind_some, ciarlet] at he
  rw [hl', Option.bind_some, ciarlet] at he'
  split_ifs at he with hlen
  split_ifs at he' with hlen'
  cases he
  cases he'
  obtain ⟨hBl, hBd⟩ := getBasis_ciarlet_dual _ _ _ hB
  obtain ⟨-, hBd'⟩ := getBasis_ciarlet_dual _ _ _ hB'
  have h5 : 5 < B.length := by rw [hBl, List.length_map, q_count hT _ _ hl]; simp [Cell.tdim]
  obtain ⟨f, hf⟩ : ∃ f, B[5]? = some f := ⟨_, List.getElem?_eq_getElem h5⟩
  have hfs : ∀ t ∈ f.support, t ∈ QSet 2 3 := by
    refine quoly_span (d := 2) ?_
    show f ∈ Submodule.span ℝ {p | p ∈ (quolySet Cell.quadrilateral.tdim (3 : ℕ)).map (denoteMono ℝ)}
    rw [← getBasis_ciarlet_span _ _ _ hB]
    exact Submodule.subset_span (List.mem_of_getElem? hf)
  -- the restriction to the edge
  let J : ℕ → Option ℝ := fun j => if j = 0 then none else some 0
  have hres : ∀ d : PointDof, ∀ x : ℝ, d.point 0 = x → d.point 1 = 0 → ∀ y : ℕ → ℝ, y 0 = x →
      eval y (fixVars J f) = eval d.point f := by
    intro d x h0 h1 y hy
    rw [eval_fixVars]
    refine eval₂Hom_congr' rfl (fun i hi _ => ?_) rfl
    obtain ⟨t, ht, hti⟩ := (mem_vars_iff_mem_support i).1 hi
    have : i < 2 := by
      by_contra hc
      exact Finsupp.mem_support_iff.1 hti ((hfs t ht).2 i (by omega))
    have : i = 0 ∨ i = 1 := by omega
    rcases this with rfl | rfl
    · show y 0 = _
      rw [hy, h0]
    · exact h1.symm
  have heq : ∀ a < 4, ∀ y : ℕ → ℝ, y 0 = nodeOf pe 3 (intervalNode 3 a) →
      eval y (fixVars J f) = if a = 3 then 1 else 0 := by
    intro a ha y hy
    obtain ⟨d, hd, h0, h1⟩ := quad_edge hre hl' ha
    rw [hres d _ h0 h1 y hy, ← eval_functional, hBd' 5 (quadEntry 2 a 0) f _ hf (by rw [List.getElem?_map, hd]; rfl)]
    interval_cases a <;> simp [quadEntry]
  have hgl : ∀ y : ℕ → ℝ, y 0 = (1 - 1 / √5) / 2 → eval y (fixVars J f) = 0 := by
    intro y hy
    obtain ⟨d, hd, h0, h1⟩ := quad_edge hrg hl (a := 2) (by omega)
    rw [hres d _ h0 h1 y (by rw [hy]; simp [nodeOf, intervalNode]), ← eval_functional,
      hBd 5 (quadEntry 2 2 0) f _ hf (by rw [List.getElem?_map, hd]; rfl)]
    simp [quadEntry]
  have hs5 : √5 * √5 = 5 := Real.mul_self_sqrt (by norm_num)
  have hs0 : 0 < √5 := Real.sqrt_pos.2 (by norm_num)
  have hg0 : (1 - 1 / √5) / 2 ≠ (0 : ℝ) := by
    intro h
    have : 1 / √5 = 1 := by linarith
    rw [div_eq_one_iff_eq hs0.ne'] at this
    nlinarith
  have hg1 : (1 - 1 / √5) / 2 ≠ (1 : ℝ) := by
    have : 0 < 1 / √5 := by positivity
    intro h
    linarith
  have hg3 : (1 - 1 / √5) / 2 ≠ (1 / 3 : ℝ) := by
    intro h
    have : 1 / √5 = 1 / 3 := by linarith
    rw [div_eq_div_iff hs0.ne' (by norm_num)] at this
    nlinarith
  have hnode : ∀ a < 4, nodeOf pe 3 (intervalNode 3 a) = [0, 1, 1 / 3, 2 / 3].getD a 0 := by
    intro a ha
    have e1 := hpe 1 (by omega)
    have e2 := hpe 2 (by omega)
    interval_cases a
    · simp [nodeOf, intervalNode]
    · simp [nodeOf, intervalNode]
    · have : nodeOf pe 3 (intervalNode 3 2) = pe.getD 1 0 := rfl
      rw [this, e1]; norm_num
    · have : nodeOf pe 3 (intervalNode 3 3) = pe.getD 2 0 := rfl
      rw [this, e2]; norm_num
  let nd : ℕ → ℕ → ℝ := fun i a => if i = 0 then [0, 1, 1 / 3, (1 - 1 / √5) / 2].getD a 0 else a
  have hz : fixVars J f = 0 := by
    refine eq_zero_of_lower' _ _ (QSet_lower 2 3) (support_fixVars J (QSet_lower _ _) hfs) nd (fun t ht i => ?_)
      fun t ht => ?_
    · intro a ha b hb hab
      have ha' : a ≤ 3 := (Set.mem_Iic.1 ha).trans (ht.1 i)
      have hb' : b ≤ 3 := (Set.mem_Iic.1 hb).trans (ht.1 i)
      by_cases hi : i = 0
      · simp only [nd, if_pos hi] at hab
        have h31 : (3 : ℝ)⁻¹ ≠ 0 := by norm_num
        have h32 : (3 : ℝ)⁻¹ ≠ 1 := by norm_num
        rw [one_div] at hg3
        interval_cases a <;> interval_cases b <;> first | rfl | (exfalso; simp at hab hg0 hg1 hg3; done) | (exfalso; simp at hab hg0 hg1 hg3; grind)
      · simp only [nd, if_neg hi] at hab
        exact_mod_cast hab
    · have h3 := ht.1 0
      have hcase : t 0 = 0 ∨ t 0 = 1 ∨ t 0 = 2 ∨ t 0 = 3 := by omega
      rcases hcase with h | h | h | h
      · exact heq 0 (by omega) _ (by rw [hnode 0 (by omega)]; simp [nd, h])
      · exact heq 1 (by omega) _ (by rw [hnode 1 (by omega)]; simp [nd, h])
      · exact heq 2 (by omega) _ (by rw [hnode 2 (by omega)]; simp [nd, h])
      · exact hgl _ (by simp [nd, h])
  have := heq 3 (by omega) (fun _ => nodeOf pe 3 (intervalNode 3 3)) rfl
  rw [hz] at this
  simp at this

end Verif.Elements
