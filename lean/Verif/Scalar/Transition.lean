import Verif.Scalar.Barycentric
/-!
# Transition elements

`symfem/elements/transition.py`: elements on triangles and tetrahedra with a polynomial order for each edge and face.
-/

namespace Verif.Scalar
open Verif.References Verif.Moments Verif.Functionals Verif.Elements Verif.FiniteElement Verif.Polysets Verif.Orthogonal
open Verif.Families
open MvPolynomial

/-! ### Model -/

/-- `entity_order` (symfem/elements/transition.py:62-70). -/
def entityOrder (c : Cell) (order : ℕ) (edgeOrders faceOrders : List ℕ) (e : ℕ × ℕ) : ℕ :=
  if e.1 = c.tdim then order else if e.1 = 1 then edgeOrders.getD e.2 0 else faceOrders.getD e.2 0

/-- The functionals of an entity (symfem/elements/transition.py:73-77). -/
noncomputable def transDofs (c : Cell) (k : ℕ) (e : ℕ × ℕ) : Option (List PointDof) :=
  (rulePoints "equispaced" k).bind fun points =>
    ((product (innerRange k) e.1).filter fun ii => decide (ii.sum < k)).mapM fun ii =>
      (getPoint (entType c e.1 e.2) (entityVerts (refVertex c) (entVerts c e.1 e.2)) (ii.map fun j : ℕ => points.getD j 0)).map
        fun pt => ⟨pt, e⟩

/-- `bubble` (symfem/elements/transition.py:81-95). -/
noncomputable def transBubble (c : Cell) (e : ℕ × ℕ) (basis : List (MvPolynomial ℕ ℝ)) : MvPolynomial ℕ ℝ :=
  if e.1 = c.tdim then basis.foldl (fun b f => b * f) 1
  else if e.1 = c.tdim - 1 then (basis.zipIdx.filter fun fi => decide (fi.2 ≠ e.2)).foldl (fun b fi => b * fi.1) 1
  else (basis.zipIdx.filter fun fi => decide (fi.2 ∈ entVerts c 1 e.2)).foldl (fun b fi => b * fi.1) 1

/-- The loop `while p[i] == origin[i] or origin[i] == 1 or i in used` (symfem/elements/transition.py:103-105); the
coordinates of the default reference are rational. -/
def transIndex (d : ℕ) (origin p : ℕ → ℚ) (used : List ℕ) : Option ℕ :=
  (List.range d).find? fun i => !(decide (p i = origin i) || decide (origin i = 1) || used.contains i)

/-- `variables`, as the list of `(i, origin[i], p[i] - origin[i])` (symfem/elements/transition.py:99-107), for the
vertices after the first. -/
def transLoop (d : ℕ) (origin : ℕ → ℚ) : List (ℕ → ℚ) → List ℕ → Option (List (ℕ × ℚ × ℚ))
  | [], _ => some []
  | p :: ps, used => (transIndex d origin p used).bind fun i =>
      (transLoop d origin ps (used ++ [i])).map fun l => (i, origin i, p i - origin i) :: l

/-- `variables` of an entity (symfem/elements/transition.py:99-107). -/
def transVars (c : Cell) (e : ℕ × ℕ) : Option (List (ℕ × ℚ × ℚ)) :=
  let verts := (entVerts c e.1 e.2).map fun n => (refVertex c n : ℕ → ℚ)
  transLoop c.tdim (verts.getD 0 0) verts.tail []

/-- The polynomials of an entity (symfem/elements/transition.py:80-110). -/
noncomputable def transPoly (c : Cell) (k : ℕ) (e : ℕ × ℕ) : Option (List (MvPolynomial ℕ ℝ)) :=
  if e.1 < k then
    (lagEl c 1).bind fun p1 => (getBasis p1).bind fun basis =>
    (lagEl (entType c e.1 e.2) (k - e.1 - 1)).bind fun space => (getBasis space).bind fun fs =>
    (transVars c e).map fun vars => fs.map fun f =>
      aeval (fun j => (vars[j]?.map fun v => C (v.2.1 : ℝ) + C (v.2.2 : ℝ) * X v.1).getD (X j)) f * transBubble c e basis
  else some []

/-- The loops over the entities (symfem/elements/transition.py:58-59). -/
def transEntities (c : Cell) : List (ℕ × ℕ) :=
  (List.range' 1 3).flatMap fun edim => (List.range (entityCount c edim)).map fun n => (edim, n)

/-- `Transition(reference, order, edge_orders, face_orders, variant)` (symfem/elements/transition.py:23-114) on the default
triangle and tetrahedron, variant equispaced.  `map_polyset_from_default` changes nothing on the default cells. -/
noncomputable def transElement (c : Cell) (ord : ℕ × ℕ → ℕ) : Option (Element ℝ (MvPolynomial ℕ ℝ)) :=
  (polySet c.tdim 1).bind fun p1 => ((transEntities c).mapM fun e => transPoly c (ord e) e).bind fun ps =>
    ((transEntities c).mapM fun e => transDofs c (ord e) e).bind fun ds =>
      ciarlet (p1.map (denoteMono ℝ) ++ ps.flatten) ((onVertices c (refVertex c) ++ ds.flatten).map PointDof.functional)

/-- `Transition(reference, order, edge_orders, face_orders)`, with the assertions on the lists
(symfem/elements/transition.py:41-49). -/
noncomputable def transition (c : Cell) (order : ℕ) (edgeOrders faceOrders : List ℕ) : Option (Element ℝ (MvPolynomial ℕ ℝ)) :=
  if edgeOrders.length = entityCount c 1 ∧ (c = .tetrahedron → faceOrders.length = 4) then
    transElement c (entityOrder c order edgeOrders faceOrders)
  else none

/-! ### The polynomials of an entity -/

/-- The function of an entity with a given polynomial on the entity. -/
noncomputable def extend (c : Cell) (e : ℕ × ℕ) : MvPolynomial ℕ ℝ →ₗ[ℝ] MvPolynomial ℕ ℝ :=
  times (entBub c e.1 e.2) ∘ₗ (aeval fun j => bary c.tdim ((entVerts c e.1 e.2).getD (j + 1) 0)).toLinearMap

theorem extend_apply (c : Cell) (e : ℕ × ℕ) (g : MvPolynomial ℕ ℝ) :
    extend c e g = entBub c e.1 e.2 * aeval (fun j => bary c.tdim ((entVerts c e.1 e.2).getD (j + 1) 0)) g := rfl

theorem transEntities_mem {c : Cell} (hc : Simp c) : ∀ e ∈ transEntities c, 1 ≤ e.1 ∧ e.1 ≤ c.tdim ∧ e.2 < entityCount c e.1 := by
  rcases hc with rfl | rfl <;> decide

theorem mem_transEntities {c : Cell} (hc : Simp c) : ∀ m ≤ c.tdim, ∀ n < entityCount c m, 1 ≤ m → (m, n) ∈ transEntities c := by
  have : ∀ m ≤ c.tdim, ∀ n < entityCount c m, m = 0 ∨ (m, n) ∈ transEntities c := by
    rcases hc with rfl | rfl <;> decide
  exact fun m hm n hn h1 => (this m hm n hn).resolve_left (by omega)

theorem transEntities_nodup {c : Cell} (hc : Simp c) : (transEntities c).Nodup := by
  rcases hc with rfl | rfl <;> decide

theorem transVars_eq {c : Cell} (hc : Simp c) : ∀ e ∈ transEntities c,
    transVars c e = some ((entVerts c e.1 e.2).tail.map fun v => (v - 1, 0, 1)) := by
  rcases hc with rfl | rfl <;> decide +kernel

theorem tail_pos {c : Cell} (hc : Simp c) : ∀ e ∈ transEntities c, ∀ v ∈ (entVerts c e.1 e.2).tail, v ≠ 0 := by
  rcases hc with rfl | rfl <;> decide

theorem transBubble_eq {c : Cell} (hc : Simp c) : ∀ e ∈ transEntities c, transBubble c e (hats c) = entBub c e.1 e.2 := by
  intro e he
  have hl : e ∈ (transEntities c) := he
  rcases hc with rfl | rfl
  · rw [show transEntities .triangle = [(1, 0), (1, 1), (1, 2), (2, 0)] from by decide] at hl
    simp only [List.mem_cons, List.not_mem_nil, or_false] at hl
    rcases hl with rfl | rfl | rfl | rfl <;>
    simp [transBubble, entBub, hats, Cell.tdim, bary, opp_two, entVerts, Cell.subEntities, Cell.edges, Cell.faces, List.zipIdx] <;> ring
  · rw [show transEntities .tetrahedron = [(1, 0), (1, 1), (1, 2), (1, 3), (1, 4), (1, 5), (2, 0), (2, 1), (2, 2), (2, 3), (3, 0)] from by decide] at hl
    simp only [List.mem_cons, List.not_mem_nil, or_false] at hl
    rcases hl with rfl | rfl | rfl | rfl | rfl | rfl | rfl | rfl | rfl | rfl | rfl <;>
    simp [transBubble, entBub, hats, Cell.tdim, bary, opp_three, entVerts, Cell.subEntities, Cell.edges, Cell.faces, Cell.volumes, List.zipIdx] <;> ring

theorem Simp.simplex {c : Cell} (hc : Simp c) : Simplex c := Or.inr hc

theorem aeval_congr_P {d : ℕ} {k : ℤ} {p : MvPolynomial ℕ ℝ} (hp : p ∈ P d k) {y z : ℕ → MvPolynomial ℕ ℝ} (h : ∀ i < d, y i = z i) :
    aeval y p = aeval z p := by
  refine MvPolynomial.funext fun x => ?_
  rw [aeval_eval, aeval_eval]
  exact eval_congr_P hp fun i hi => by rw [h i hi]

/-- The values of the function of an entity on the entity. -/
theorem extend_param {c : Cell} (hc : Simp c) {e : ℕ × ℕ} (he : e ∈ transEntities c) {k : ℤ} {g : MvPolynomial ℕ ℝ} (hg : g ∈ P e.1 k) (z : ℕ → ℝ) :
    eval ((entityDomain c e).param z) (extend c e g) = eval z (simpBub e.1) * eval z g := by
  obtain ⟨-, h2, h3⟩ := transEntities_mem hc e he
  obtain ⟨m, n⟩ := e
  rw [extend_apply, map_mul, entBub_param (Simp.simplex hc) h2 h3, aeval_eval]
  congr 1
  exact eval_congr_P hg fun i hi => bary_param_axis (Simp.simplex hc) h2 h3 z hi

theorem extend_param_zero {c : Cell} (hc : Simp c) {e : ℕ × ℕ} (he : e ∈ transEntities c) {m n : ℕ} (hm : m ≤ c.tdim) (hn : n < entityCount c m)
    (h : ¬ entVerts c e.1 e.2 ⊆ entVerts c m n) (g : MvPolynomial ℕ ℝ) (z : ℕ → ℝ) :
    eval ((entityDomain c (m, n)).param z) (extend c e g) = 0 := by
  obtain ⟨-, h2, h3⟩ := transEntities_mem hc e he
  rw [extend_apply, map_mul, entBub_param_zero (Simp.simplex hc) hm hn z h2 h3 h, zero_mul]

theorem simpBub_ne_zero (d : ℕ) : simpBub d ≠ 0 := by
  intro h
  have h1 := congrArg (eval fun _ => (1 : ℝ) / (d + 1)) h
  rw [eval_simpBub, map_zero, mul_eq_zero] at h1
  have hd : (0 : ℝ) < d + 1 := by positivity
  rcases h1 with h1 | h1
  · rw [Finset.prod_eq_zero_iff] at h1
    obtain ⟨j, -, h1⟩ := h1
    have : (0 : ℝ) < 1 / (d + 1) := by positivity
    linarith
  · rw [Finset.sum_const, Finset.card_univ, Fintype.card_fin, nsmul_eq_mul] at h1
    field_simp at h1
    linarith

theorem extend_inj {c : Cell} (hc : Simp c) {e : ℕ × ℕ} (he : e ∈ transEntities c) {k : ℤ} {g : MvPolynomial ℕ ℝ} (hg : g ∈ P e.1 k)
    (h : extend c e g = 0) : g = 0 := by
  have : simpBub e.1 * g = 0 := MvPolynomial.funext fun z => by
    rw [map_mul, ← extend_param hc he hg, h, map_zero, map_zero]
  exact (mul_eq_zero.1 this).resolve_left (simpBub_ne_zero _)

/-- The polynomials of an entity. -/
theorem transPoly_spec {c : Cell} (hc : Simp c) {e : ℕ × ℕ} (he : e ∈ transEntities c) {k : ℕ} (hk : 1 ≤ k) : ∃ L, transPoly c k e = some L ∧
    L.length = (k - 1).choose e.1 ∧ Independent ℝ L ∧ lspan L = (P e.1 ((k : ℤ) - e.1 - 1)).map (extend c e) := by
  obtain ⟨m1, m2, m3⟩ := transEntities_mem hc e he
  obtain ⟨t1, t2, t3, t4, t5, t6⟩ := simplex_table (Simp.simplex hc) e.1 m2 e.2 m3
  have hs : Simplex (entType c e.1 e.2) := by simpa [Simplex] using t6 m1
  by_cases hlt : e.1 < k
  swap
  · refine ⟨[], by rw [transPoly, if_neg hlt], ?_, independent_nil, ?_⟩
    · rw [Nat.choose_eq_zero_of_lt (by omega)]; rfl
    · have : P e.1 ((k : ℤ) - e.1 - 1) = ⊥ := by
        rw [eq_bot_iff]
        intro g hg
        exact P_neg (by omega) hg
      rw [this, Submodule.map_bot]
      simp [lspan]
  obtain ⟨e1, h1, h2⟩ := lag_hats (Or.inl (Simp.simplex hc))
  obtain ⟨sp, l, fs, h3, h4, h5, h6, h7, -, h8, -⟩ := lag_basis (Or.inl hs) (k - e.1 - 1)
  rw [W_simplex hs, t4, show ((k - e.1 - 1 : ℕ) : ℤ) = (k : ℤ) - e.1 - 1 by omega] at h5
  have hmap : (fs.map fun f => aeval (fun j => (((entVerts c e.1 e.2).tail.map fun v => (v - 1, (0 : ℚ), (1 : ℚ)))[j]?.map fun v =>
      C (v.2.1 : ℝ) + C (v.2.2 : ℝ) * X v.1).getD (X j)) f * transBubble c e (hats c)) = fs.map (extend c e) := by
    refine List.map_congr_left fun f hf => ?_
    rw [transBubble_eq hc e he, extend_apply, mul_comm]
    congr 1
    have hfP : f ∈ P e.1 ((k : ℤ) - e.1 - 1) := h5 ▸ mem_lspan hf
    refine aeval_congr_P hfP fun i hi => ?_
    rw [List.getElem?_map, List.getElem?_tail, List.getElem?_eq_getElem (by omega), List.getD_eq_getElem _ _ (by omega)]
    have hne := tail_pos hc e he ((entVerts c e.1 e.2)[i + 1]'(by omega)) (List.mem_of_getElem? (i := i) (by
      rw [List.getElem?_tail, List.getElem?_eq_getElem]))
    simp only [Option.map_some, Option.getD_some, Rat.cast_zero, Rat.cast_one, map_zero, map_one, zero_add, one_mul]
    rw [bary, if_neg hne]
  refine ⟨fs.map (extend c e), ?_, ?_, ?_, ?_⟩
  · rw [transPoly, if_pos hlt, h1]
    simp only [Option.bind_some, h2, h3, h4, transVars_eq hc e he, Option.map_some]
    rw [← hmap]
  · rw [List.length_map, h6, lagCount, if_pos (simplex_mem hs), t4]
    congr 1
    omega
  · refine independent_map' _ (fun v hv h => ?_) (basis_independent h7 h8)
    rw [h5] at hv
    exact extend_inj hc he hv h
  · rw [lspan_map', h5]

/-- The functionals of an entity. -/
noncomputable def transList (c : Cell) (k : ℕ) (e : ℕ × ℕ) : List PointDof :=
  ((product (innerRange k) e.1).filter fun ii => decide (ii.sum < k)).map fun ii =>
    ⟨(entityDomain c e).param fun j => ((ii.getD j 0 : ℕ) : ℝ) / k, e⟩

theorem transDofs_spec {c : Cell} (hc : Simp c) {e : ℕ × ℕ} (he : e ∈ transEntities c) {k : ℕ} (hk : 1 ≤ k) :
    transDofs c k e = some (transList c k e) ∧ (transList c k e).length = (k - 1).choose e.1 := by
  obtain ⟨m1, m2, m3⟩ := transEntities_mem hc e he
  obtain ⟨t1, t2, t3, t4, t5, t6⟩ := simplex_table (Simp.simplex hc) e.1 m2 e.2 m3
  obtain ⟨points, hp, hv⟩ := rulePoints_equispaced hk
  constructor
  · rw [transDofs, hp, Option.bind_some]
    refine mapM_some_of _ _ _ fun ii hi => ?_
    obtain ⟨hl, hin⟩ := mem_product.1 (List.mem_filter.1 hi).1
    have hax : (axisVertices (entType c e.1 e.2)).length = e.1 := by
      have : ∀ t ∈ [Cell.interval, .triangle, .tetrahedron], (axisVertices t).length = t.tdim := by decide
      rw [this _ (t6 m1), t4]
    rw [getPoint_eq _ _ _ (by rw [hax, List.length_map, hl]), Option.map_some]
    congr 2
    funext j
    rw [entityPoint, List.length_map, hl]
    show _ = entityVerts (refVertex c) (entVerts c e.1 e.2) 0 j + ∑ k ∈ Finset.range (entType c e.1 e.2).tdim, _
    rw [t4]
    congr 1
    refine Finset.sum_congr rfl fun q hq => ?_
    have hq' := Finset.mem_range.1 hq
    simp only [axis, psub]
    congr 1
    rw [List.getD_eq_getElem _ _ (by rw [List.length_map]; omega), List.getElem_map, List.getD_eq_getElem ii _ (by omega)]
    exact hv _ (mem_innerRange.1 (hin _ (List.getElem_mem _))).2.le
  · rw [transList, List.length_map]
    obtain ⟨m, rfl⟩ : ∃ m, k = m + 1 := ⟨k - 1, by omega⟩
    exact length_filter_sum m e.1 m le_rfl

theorem sub_entity {c : Cell} (hc : Simp c) : ∀ e ∈ transEntities c, ∀ e' ∈ transEntities c, entVerts c e.1 e.2 ⊆ entVerts c e'.1 e'.2 →
    e = e' ∨ e.1 < e'.1 := by
  rcases hc with rfl | rfl <;> decide +kernel

/-- The values on an entity of a function given by its parts. -/
theorem trans_param {c : Cell} (hc : Simp c) {p : MvPolynomial ℕ ℝ} {g : ℕ × ℕ → MvPolynomial ℕ ℝ} {m n : ℕ} (hm : m ≤ c.tdim)
    (hn : n < entityCount c m) (z : ℕ → ℝ) (h : ∀ e ∈ transEntities c, entVerts c e.1 e.2 ⊆ entVerts c m n → e ≠ (m, n) → g e = 0)
    (h1 : 1 ≤ m) : eval ((entityDomain c (m, n)).param z) (p + ∑ e ∈ (transEntities c).toFinset, extend c e (g e)) =
      eval ((entityDomain c (m, n)).param z) p + eval ((entityDomain c (m, n)).param z) (extend c (m, n) (g (m, n))) := by
  rw [map_add, map_sum]
  congr 1
  rw [Finset.sum_eq_single (m, n)]
  · intro e he hne
    have he' := List.mem_toFinset.1 he
    by_cases hs : entVerts c e.1 e.2 ⊆ entVerts c m n
    · rw [h e he' hs hne, map_zero, map_zero]
    · exact extend_param_zero hc he' hm hn hs _ z
  · intro hne
    exact absurd (List.mem_toFinset.2 (mem_transEntities hc m hm n hn h1)) hne

/-- The functionals in the closure of an entity determine the parts of a function that are not 0 there. -/
theorem trans_zero {c : Cell} (hc : Simp c) {ord : ℕ × ℕ → ℕ} (ho : ∀ e ∈ transEntities c, 1 ≤ ord e) {p : MvPolynomial ℕ ℝ}
    (hp : p ∈ P c.tdim 1) {g : ℕ × ℕ → MvPolynomial ℕ ℝ} (hg : ∀ e ∈ transEntities c, g e ∈ P e.1 ((ord e : ℤ) - e.1 - 1)) (V : List ℕ)
    (hV : ∀ v ∈ V, v ≤ c.tdim) (h0 : ∀ v ∈ V, eval (refVertex c v) (p + ∑ e ∈ (transEntities c).toFinset, extend c e (g e)) = 0)
    (h1 : ∀ e ∈ transEntities c, entVerts c e.1 e.2 ⊆ V → ∀ d ∈ transList c (ord e) e,
      eval d.point (p + ∑ e ∈ (transEntities c).toFinset, extend c e (g e)) = 0) :
    (∀ v ∈ V, eval (refVertex c v) p = 0) ∧ ∀ e ∈ transEntities c, entVerts c e.1 e.2 ⊆ V → g e = 0 := by
  have hs := Simp.simplex hc
  have hvert : ∀ v ≤ c.tdim, eval (refVertex c v) (p + ∑ e ∈ (transEntities c).toFinset, extend c e (g e)) = eval (refVertex c v) p := by
    intro v hv
    rw [map_add, map_sum, Finset.sum_eq_zero, add_zero]
    intro e he
    have he' := List.mem_toFinset.1 he
    obtain ⟨m1, m2, m3⟩ := transEntities_mem hc e he'
    obtain ⟨t1, t2, t3, -⟩ := simplex_table hs e.1 m2 e.2 m3
    -- a vertex of the entity that is not `v`
    obtain ⟨w, hw, hne⟩ : ∃ w ∈ entVerts c e.1 e.2, w ≠ v := by
      by_contra hcon
      push Not at hcon
      have a0 := hcon _ (List.getElem_mem (l := entVerts c e.1 e.2) (n := 0) (by omega))
      have a1 := hcon _ (List.getElem_mem (l := entVerts c e.1 e.2) (n := 1) (by omega))
      have := (List.Nodup.getElem_inj_iff t2).1 (a0.trans a1.symm)
      omega
    rw [extend_apply, map_mul, entBub, map_list_prod, List.prod_eq_zero, zero_mul]
    rw [List.map_map, List.mem_map]
    refine ⟨w, hw, ?_⟩
    show eval _ (bary _ _) = _
    rw [bary_vertex hs (t3 w hw) hv, if_neg hne]
  have hp0 : ∀ v ∈ V, eval (refVertex c v) p = 0 := fun v hv => by rw [← hvert v (hV v hv)]; exact h0 v hv
  refine ⟨hp0, ?_⟩
  have key : ∀ M, ∀ e ∈ transEntities c, e.1 = M → entVerts c e.1 e.2 ⊆ V → g e = 0 := by
    intro M
    induction M using Nat.strong_induction_on with
    | _ M ih =>
      rintro ⟨m, n⟩ he rfl hsub
      obtain ⟨m1, m2, m3⟩ := transEntities_mem hc _ he
      have hval : ∀ z, eval ((entityDomain c (m, n)).param z) (p + ∑ e ∈ (transEntities c).toFinset, extend c e (g e)) =
          eval z (simpBub m) * eval z (g (m, n)) := by
        intro z
        rw [trans_param hc m2 m3 z (fun e he' hs' hne => ?_) m1, affine_param_zero hs m2 m3 hp (fun v hv => hp0 v (hsub hv)), zero_add,
          extend_param hc he (hg _ he)]
        rcases sub_entity hc e he' _ he hs' with h | h
        · exact absurd h hne
        · exact ih e.1 h e he' rfl (fun v hv => hsub (hs' hv))
      have hgm := hg _ he
      rcases Nat.lt_or_ge m (ord (m, n)) with hlt | hge
      swap
      · exact P_neg (by simp only; omega) hgm
      have hk : (0 : ℝ) < ord (m, n) := by exact_mod_cast (ho _ he)
      refine lattice_zero (d := m) (m := ord (m, n) - m - 1) (by rw [show ((ord (m, n) - m - 1 : ℕ) : ℤ) = (ord (m, n) : ℤ) - m - 1 by omega]; exact hgm) (fun i => ((i : ℝ) + 1) / ord (m, n))
        (fun a b hab => by
          simp only [div_left_inj' hk.ne', add_left_inj] at hab
          exact_mod_cast hab) fun t ht z hz => ?_
      have hsum : ((List.range m).map fun j => t j + 1).sum < ord (m, n) := by
        have : ((List.range m).map fun j => t j + 1).sum = ∑ i ∈ Finset.range m, (t i + 1) := rfl
        rw [this, Finset.sum_add_distrib]
        simp
        omega
      have := h1 _ he hsub ⟨(entityDomain c (m, n)).param fun j => ((((List.range m).map fun j => t j + 1).getD j 0 : ℕ) : ℝ) / ord (m, n), (m, n)⟩
        (List.mem_map.2 ⟨(List.range m).map fun j => t j + 1, List.mem_filter.2 ⟨mem_product.2 ⟨by simp, fun a ha => ?_⟩, by simpa using hsum⟩, rfl⟩)
      · rw [hval] at this
        have hzz : ∀ j < m, ((((List.range m).map fun j => t j + 1).getD j 0 : ℕ) : ℝ) / ord (m, n) = z j := by
          intro j hj
          rw [hz j hj, List.getD_eq_getElem _ _ (by simpa using hj)]
          simp
        rw [← eval_congr_P hgm hzz]
        refine (mul_eq_zero.1 this).resolve_left ?_
        rw [eval_simpBub, Finset.prod_congr rfl fun j hj => hzz j (Finset.mem_range.1 hj), Finset.sum_congr rfl fun (i : Fin m) _ => hzz i.val i.2]
        refine mul_ne_zero (Finset.prod_ne_zero_iff.2 fun j hj => ?_) ?_
        · rw [hz j (Finset.mem_range.1 hj)]
          positivity
        · rw [Finset.sum_congr rfl fun (i : Fin m) _ => hz i.val i.2, ← Finset.sum_div, Finset.sum_add_distrib]
          have e1 : ∑ i : Fin m, (t i.val : ℝ) + ∑ _i : Fin m, (1 : ℝ) = ((∑ i ∈ Finset.range m, t i + m : ℕ) : ℝ) := by
            rw [Finset.sum_range]
            simp
          rw [e1, sub_ne_zero, ne_comm, Ne, div_eq_one_iff_eq hk.ne']
          intro hcon
          have : ∑ i ∈ Finset.range m, t i + m = ord (m, n) := by exact_mod_cast hcon
          omega
      · obtain ⟨j, hj, rfl⟩ := List.mem_map.1 ha
        rw [mem_innerRange]
        have := Finset.single_le_sum (f := t) (fun i _ => Nat.zero_le _) (Finset.mem_range.2 (List.mem_range.1 hj))
        omega
  exact fun e he => key e.1 e he rfl

/-! ### Creation -/

/-- The functions of a transition element: a polynomial of degree 1 and, for each entity, the product of the barycentric
coordinates of its vertices and a polynomial in the barycentric coordinates of the vertices after the first. -/
def Trans (c : Cell) (ord : ℕ × ℕ → ℕ) (f : MvPolynomial ℕ ℝ) : Prop :=
  ∃ p ∈ P c.tdim 1, ∃ g : ℕ × ℕ → MvPolynomial ℕ ℝ, (∀ e ∈ transEntities c, g e ∈ P e.1 ((ord e : ℤ) - e.1 - 1)) ∧
    f = p + ∑ e ∈ (transEntities c).toFinset, extend c e (g e)

theorem affine_zero {c : Cell} (hc : Simplex c) {p : MvPolynomial ℕ ℝ} (hp : p ∈ P c.tdim 1)
    (h : ∀ v ≤ c.tdim, eval (refVertex c v) p = 0) : p = 0 := by
  have h1 : 0 < entityCount c c.tdim := by rcases hc with rfl | rfl | rfl <;> decide
  refine MvPolynomial.funext fun z => ?_
  have := affine_param_zero hc le_rfl h1 hp (fun v hv => h v ((simplex_table hc _ le_rfl _ h1).2.2.1 v hv)) z
  rw [map_zero, ← this]
  exact eval_congr_P hp fun j hj => (simplex_param hc z hj).symm

theorem vertex_mem_entity {c : Cell} (hc : Simp c) : ∀ e ∈ transEntities c, entVerts c e.1 e.2 ⊆ List.range (c.tdim + 1) := by
  rcases hc with rfl | rfl <;> decide

/-- Transition elements can be created for all orders of the edges, faces and the interior; the functions are determined by the
functionals, and their values on an entity by the functionals of the closure of the entity. -/
theorem transElement_created {c : Cell} (hc : Simp c) {ord : ℕ × ℕ → ℕ} (ho : ∀ e ∈ transEntities c, 1 ≤ ord e) :
    Created (transElement c ord) (Trans c ord) (c.tdim + 1 + ((transEntities c).map fun e => (ord e - 1).choose e.1).sum)
      (C0Trace c (Trans c ord)) := by
  classical
  have hs := Simp.simplex hc
  obtain ⟨p1, hp1, hp1s⟩ := polySet_lspan (simplex_dims hs) 1
  choose! L hL hLn hLi hLs using fun (e : ℕ × ℕ) (he : e ∈ transEntities c) => transPoly_spec hc he (ho e he)
  have hmL : ((transEntities c).mapM fun e => transPoly c (ord e) e) = some ((transEntities c).map L) :=
    mapM_some_of _ _ _ fun e he => hL e he
  have hmD : ((transEntities c).mapM fun e => transDofs c (ord e) e) = some ((transEntities c).map fun e => transList c (ord e) e) :=
    mapM_some_of _ _ _ fun e he => (transDofs_spec hc he (ho e he)).1
  have hnv : c.nverts = c.tdim + 1 := by rcases hc with rfl | rfl <;> rfl
  have hfin : ∀ h : ℕ × ℕ → MvPolynomial ℕ ℝ, ((transEntities c).map h).sum = ∑ e ∈ (transEntities c).toFinset, h e := fun h =>
    (List.sum_toFinset h (transEntities_nodup hc)).symm
  -- parts of functions
  have hparts : ∀ h : ℕ × ℕ → MvPolynomial ℕ ℝ, (∀ e ∈ transEntities c, h e ∈ lspan (L e)) → ∃ g : ℕ × ℕ → MvPolynomial ℕ ℝ,
      (∀ e ∈ transEntities c, g e ∈ P e.1 ((ord e : ℤ) - e.1 - 1)) ∧ ∀ e ∈ transEntities c, extend c e (g e) = h e := by
    intro h hh
    have : ∀ e ∈ transEntities c, ∃ q ∈ P e.1 ((ord e : ℤ) - e.1 - 1), extend c e q = h e := fun e he => by
      have := hh e he
      rw [hLs e he] at this
      exact this
    choose! g hg1 hg2 using this
    exact ⟨g, hg1, hg2⟩
  have hzero : ∀ p ∈ P c.tdim 1, ∀ g : ℕ × ℕ → MvPolynomial ℕ ℝ, (∀ e ∈ transEntities c, g e ∈ P e.1 ((ord e : ℤ) - e.1 - 1)) →
      (∀ v ≤ c.tdim, eval (refVertex c v) (p + ∑ e ∈ (transEntities c).toFinset, extend c e (g e)) = 0) →
      (∀ e ∈ transEntities c, ∀ d ∈ transList c (ord e) e, eval d.point (p + ∑ e ∈ (transEntities c).toFinset, extend c e (g e)) = 0) →
      p = 0 ∧ ∀ e ∈ transEntities c, g e = 0 := by
    intro p hp g hg h0 h1
    obtain ⟨a1, a2⟩ := trans_zero hc ho hp hg (List.range (c.tdim + 1)) (fun v hv => by have := List.mem_range.1 hv; omega)
      (fun v hv => h0 v (by have := List.mem_range.1 hv; omega)) fun e he _ => h1 e he
    exact ⟨affine_zero hs hp fun v hv => a1 v (List.mem_range.2 (by omega)), fun e he => a2 e he (vertex_mem_entity hc e he)⟩
  have hspan : ∀ f, f ∈ lspan (p1.map (denoteMono ℝ) ++ ((transEntities c).map L).flatten) ↔ Trans c ord f := by
    intro f
    rw [← List.flatMap_def, lspan_append, hp1s, Submodule.mem_sup]
    constructor
    · rintro ⟨p, hp, q, hq, rfl⟩
      obtain ⟨h, hh, rfl⟩ := (mem_lspan_flatMap L (transEntities_nodup hc)).1 hq
      obtain ⟨g, hg1, hg2⟩ := hparts h hh
      refine ⟨p, hp, g, hg1, ?_⟩
      rw [hfin]
      congr 1
      exact Finset.sum_congr rfl fun e he => (hg2 e (List.mem_toFinset.1 he)).symm
    · rintro ⟨p, hp, g, hg, rfl⟩
      refine ⟨p, hp, _, (mem_lspan_flatMap L (transEntities_nodup hc)).2 ⟨fun e => extend c e (g e), fun e he => ?_, (hfin _).symm⟩, rfl⟩
      rw [hLs e he]
      exact Submodule.mem_map_of_mem (hg e he)
  have hind : Independent ℝ (p1.map (denoteMono ℝ) ++ ((transEntities c).map L).flatten) := by
    rw [← List.flatMap_def]
    refine independent_append ((scalar_sets_independent ℝ).1 _ _ _ hp1) (independent_flatMap L (transEntities_nodup hc) hLi fun h hh h0 => ?_) ?_
    · obtain ⟨g, hg1, hg2⟩ := hparts h hh
      have h0' : (0 : MvPolynomial ℕ ℝ) + ∑ e ∈ (transEntities c).toFinset, extend c e (g e) = 0 := by
        rw [zero_add, Finset.sum_congr rfl fun e he => hg2 e (List.mem_toFinset.1 he), ← hfin, h0]
      have := (hzero 0 (Submodule.zero_mem _) g hg1 (fun v _ => by rw [h0', map_zero]) (fun e _ d _ => by rw [h0', map_zero])).2
      intro e he
      rw [← hg2 e he, this e he, map_zero]
    · rw [Submodule.disjoint_def]
      intro x hx hx'
      rw [hp1s] at hx
      obtain ⟨h, hh, rfl⟩ := (mem_lspan_flatMap L (transEntities_nodup hc)).1 hx'
      obtain ⟨g, hg1, hg2⟩ := hparts h hh
      have h0' : -((transEntities c).map h).sum + ∑ e ∈ (transEntities c).toFinset, extend c e (g e) = 0 := by
        rw [Finset.sum_congr rfl fun e he => hg2 e (List.mem_toFinset.1 he), ← hfin, neg_add_cancel]
      have := (hzero _ (Submodule.neg_mem _ hx) g hg1 (fun v _ => by rw [h0', map_zero]) (fun e _ d _ => by rw [h0', map_zero])).1
      exact neg_eq_zero.1 this
  have hmem : ∀ f, (∀ d ∈ (onVertices c (refVertex c) ++ ((transEntities c).map fun e => transList c (ord e) e).flatten).map PointDof.functional,
      d.eval f = 0) → (∀ v ≤ c.tdim, eval (refVertex c v) f = 0) ∧ ∀ e ∈ transEntities c, ∀ d ∈ transList c (ord e) e, eval d.point f = 0 := by
    intro f h
    refine ⟨fun v hv => ?_, fun e he d hd => ?_⟩
    · have := h _ (List.mem_map_of_mem (List.mem_append_left _ (List.mem_map.2 ⟨v, List.mem_range.2 (by rw [hnv]; omega), rfl⟩)))
      rw [eval_functional] at this
      exact this
    · rw [← eval_functional]
      refine h _ (List.mem_map_of_mem (List.mem_append_right _ ?_))
      rw [← List.flatMap_def]
      exact List.mem_flatMap.2 ⟨e, he, hd⟩
  refine created_of (by rw [transElement, hp1, hmL, hmD]; rfl) ?_ ?_ hind hspan (fun f hf h => ?_) ?_
  · rw [List.length_map, List.length_append, ← List.flatMap_def, List.length_flatMap]
    congr 1
    · simp [onVertices, hnv]
    · congr 1
      exact List.map_congr_left fun e he => (transDofs_spec hc he (ho e he)).2
  · rw [List.length_append, List.length_map, polySet_length c.tdim 1 p1 (by exact_mod_cast hp1), ← List.flatMap_def, List.length_flatMap]
    congr 1
    · rcases hc with rfl | rfl <;> rfl
    · congr 1
      exact List.map_congr_left fun e he => hLn e he
  · obtain ⟨p, hp, g, hg, rfl⟩ := hf
    obtain ⟨b1, b2⟩ := hmem _ h
    obtain ⟨a1, a2⟩ := hzero p hp g hg b1 b2
    rw [a1, zero_add]
    exact Finset.sum_eq_zero fun e he => by rw [a2 e (List.mem_toFinset.1 he), map_zero]
  · rintro dim hdim i hi f ⟨p, hp, g, hg, rfl⟩ h z
    have hVle := (simplex_table hs dim hdim i hi).2.2.1
    have hev : ∀ v ≤ c.tdim, entVerts c 0 v = [v] := by rcases hc with rfl | rfl <;> decide
    obtain ⟨a1, a2⟩ := trans_zero hc ho hp hg (entVerts c dim i) hVle (fun v hv => by
      have := h _ (List.mem_map_of_mem (List.mem_append_left _ (List.mem_map.2 ⟨v, List.mem_range.2 (by rw [hnv]; have := hVle v hv; omega), rfl⟩))) (by
        show entVerts c 0 v ⊆ _
        rw [hev v (hVle v hv)]
        simpa using hv)
      rw [eval_functional] at this
      exact this) fun e he hsub d hd => by
        rw [← eval_functional]
        refine h _ (List.mem_map_of_mem (List.mem_append_right _ ?_)) ?_
        · rw [← List.flatMap_def]
          exact List.mem_flatMap.2 ⟨e, he, hd⟩
        · obtain ⟨ii, -, rfl⟩ := List.mem_map.1 hd
          exact hsub
    rw [map_add, map_sum, affine_param_zero hs hdim hi hp a1, zero_add]
    refine Finset.sum_eq_zero fun e he => ?_
    have he' := List.mem_toFinset.1 he
    by_cases hsub : entVerts c e.1 e.2 ⊆ entVerts c dim i
    · rw [a2 e he' hsub, map_zero, map_zero]
    · exact extend_param_zero hc he' hdim hi hsub _ z

end Verif.Scalar
