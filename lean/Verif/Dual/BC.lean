import Verif.Dual.Props
import Verif.Families.Conform

/-!
# Buffa–Christiansen functions (C98)

The fluxes through the edges of the triangles are the coefficients.
-/

namespace Verif.Dual

open MvPolynomial Verif.References Verif.Elements Verif.Families Verif.FiniteElement Verif.Functions Verif.Moments
  Verif.Functionals Verif.Orthogonal

/-! ### The fine spaces -/

theorem sub_one (moment : String) (mp : Option String) :
    subFuns classes1 ⟨moment, "Lagrange", 0, mp, [("variant", "equispaced")]⟩ .interval = some [.scalar 1] := by
  show scalarBasis (lagrangeElement "equispaced" .interval (refVertex .interval) 0) = _
  rw [scalarBasis, lagrange_zero (Or.inl rfl)]
  rfl

theorem sub_none (moment : String) (mp : Option String) :
    subFuns classes1 ⟨moment, "VectorLagrange", -1, mp, [("variant", "equispaced")]⟩ .triangle = some [] := by
  unfold subFuns
  exact if_pos (by simp [classes1, vectorLagrangeClass])

/-- The three functions of an element of lowest order have the traces 1 and 0 in the directions `a i` on the edges. -/
def Traces (e : Option (Element ℝ (Field 2))) (a : (ℕ → ℕ → ℝ) → ℕ → ℝ) : Prop :=
  ∃ fs : List (Field 2), e.bind getBasis = some fs ∧ fs.length = 3 ∧ (∀ f ∈ fs, ∀ j, f j ∈ P 2 1) ∧
    ∀ i < 3, ∀ (l : ℕ) (f : Field 2), fs[l]? = some f → ∀ t,
      ∑ r : Fin 2, a (entityDomain .triangle (1, i)).v r.val * eval ((entityDomain .triangle (1, i)).param t) (f r) =
        if l = i then 1 else 0

/-- The moment of a constant trace. -/
theorem trace_const {D : Domain} (hD : D.cell = .interval) (a : ℕ → ℝ) {v : Field D.g} (h : comp D a v ∈ P 1 0) (t : ℕ → ℝ) :
    ∑ r, a r.val * eval (D.param t) (v r) = pairing1 .interval (comp D a v) 1 := by
  rw [← eval_comp]
  obtain ⟨r, hr⟩ : ∃ r, comp D a v = C r := ⟨_, totalDegree_eq_zero_iff_eq_C.1 (by
    by_cases h0 : comp D a v = 0
    · rw [h0]; simp
    · have := (mem_P_iff.1 h).1 h0; omega)⟩
  rw [hr, eval_C]
  show r = cellInt .interval fun z => eval z (C r * 1)
  simp [cellInt, integrationLimits, iterInt, Affine.eval]

theorem mapM_three {A B : Type} {f : A → Option B} {a b c : A} {l : List B} (h : [a, b, c].mapM f = some l) :
    ∃ x y z, f a = some x ∧ f b = some y ∧ f c = some z ∧ l = [x, y, z] := by
  have := mapM_forall h
  obtain ⟨x, _, hx, h1, rfl⟩ := List.forall₂_cons_left_iff.1 this
  obtain ⟨y, _, hy, h2, rfl⟩ := List.forall₂_cons_left_iff.1 h1
  obtain ⟨z, _, hz, h3, rfl⟩ := List.forall₂_cons_left_iff.1 h2
  obtain rfl := List.forall₂_nil_left_iff.1 h3
  exact ⟨x, y, z, hx, hy, hz, rfl⟩

theorem momentElement_dofs {classes : String → ElementClass Fun} {c : Cell} {poly : Option (List Polysets.VecPoly)} {args : Args}
    {basis : List (Field c.tdim)} {dofs : List (Dof ℝ (Field c.tdim))} {ms : List (MomentDof Fun)}
    (h : momentElement classes c poly args = some (.ciarlet basis dofs)) (hms : makeIntegralMomentDofs classes c args = some ms) :
    ms.mapM (momentDof c) = some dofs := by
  obtain ⟨p, -, h1⟩ := Option.bind_eq_some_iff.1 h
  rw [hms, Option.bind_some] at h1
  obtain ⟨ds, h2, h3⟩ := Option.bind_eq_some_iff.1 h1
  rw [ciarlet] at h3
  split at h3
  · cases h3; exact h2
  · cases h3

theorem rt_traces : Traces (rtElement "equispaced" .triangle 1) (areaVec 2) := by
  have hc : Simp .triangle := Or.inl rfl
  obtain ⟨basis, dofs, fs, h1, h2, h3, h4, h5, -⟩ := rt_created hc le_rfl
  have h4 : fs.length = 3 := h4
  refine ⟨fs, by rw [h1]; exact h2, h4, fun f hf j => (h5 f).1 (Submodule.subset_span hf) |>.mem j, fun i hi l f hl t => ?_⟩
  have hms := hdiv_moments (classes := classes1) (c := .triangle) hc
    (A := [.cls "NormalIntegralMoment", .cls "Lagrange", .int 0, .dict [("variant", "equispaced")]])
    (B := [.cls "IntegralMoment", .cls "VectorLagrange", .int (-1), .str "contravariant", .dict [("variant", "equispaced")]])
    rfl rfl (sub_one "NormalIntegralMoment" none) (sub_none "IntegralMoment" (some "contravariant"))
  obtain ⟨d0, d1, d2, e0, e1, e2, rfl⟩ := mapM_three (momentElement_dofs h1 hms)
  have hS := (h5 f).1 (Submodule.subset_span (List.mem_of_getElem? hl))
  have key : ∀ i < 3, ∀ d, momentDof .triangle ⟨"NormalIntegralMoment", .scalar 1, (1, i), none⟩ = some d →
      d.eval f = ∑ r : Fin 2, areaVec 2 (entityDomain .triangle (1, i)).v r.val *
        eval ((entityDomain .triangle (1, i)).param t) (f r) := by
    intro i hi d hd
    obtain ⟨J, n, s, hJ, hs, g1, g2, g3⟩ := (facet_facts hc (i := i) (Nat.lt_succ_iff.1 hi)).facts
    have hw : momentFn "NormalIntegralMoment" (entityDomain .triangle (1, i)) (.scalar 1) = some fun j => C (n j.val) * 1 := by
      rw [momentFn_normal]
      show Option.map _ (normal (entityDomain .triangle (1, i)).cell 2 (entityDomain .triangle (1, i)).v) = _
      rw [show normal (entityDomain .triangle (1, i)).cell 2 (entityDomain .triangle (1, i)).v = _ from g2, Option.map_some]
    obtain rfl := Option.some.inj ((momentDof_of (m := ⟨"NormalIntegralMoment", .scalar 1, (1, i), none⟩) hw g1).symm.trans hd)
    refine (momentMap_pairing (entityDomain .triangle (1, i)) (fun j => facet_area hc g1 g2 hJ j) 1 f).trans ?_
    refine (trace_const (D := entityDomain .triangle (1, i)) rfl _ ?_ t).symm
    have := normal_rt (entityDomain .triangle (1, i)) hS (n := areaVec 2 (entityDomain .triangle (1, i)).v) ?_
    · exact this
    · intro j
      have hj : j.val = 0 := Nat.lt_one_iff.1 j.2
      generalize (entityDomain .triangle (1, i)).v = W
      show ∑ r : Fin 2, areaVec 2 W r.val * axis .interval W j.val r.val = 0
      rw [hj, Fin.sum_univ_two]
      simp [areaVec, axis, psub, axisVertices, coords]
      ring
  have hdual := (getBasis_ciarlet_dual _ _ _ h2).2 l
  interval_cases i
  · rw [← key 0 hi d0 e0]; exact hdual 0 f d0 hl rfl
  · rw [← key 1 hi d1 e1]; exact hdual 1 f d1 hl rfl
  · rw [← key 2 hi d2 e2]; exact hdual 2 f d2 hl rfl

/-- The vector along an edge. -/
def edgeVec (W : ℕ → ℕ → ℝ) : ℕ → ℝ := fun r => W 1 r - W 0 r

theorem n1_traces : Traces (n1Element "equispaced" .triangle 1) edgeVec := by
  have hc : Simp .triangle := Or.inl rfl
  obtain ⟨basis, dofs, fs, h1, h2, h3, h4, h5, -⟩ := n1_created2 le_rfl
  have h4 : fs.length = 3 := h4
  refine ⟨fs, by rw [h1]; exact h2, h4, fun f hf j => ((h5 f).1 (Submodule.subset_span hf)).1 j, fun i hi l f hl t => ?_⟩
  have hms := hcurl_moments2 (classes := classes1)
    (A := [.cls "TangentIntegralMoment", .cls "Lagrange", .int 0, .dict [("variant", "equispaced")]])
    (B := [.cls "IntegralMoment", .cls "VectorLagrange", .int (-1), .str "covariant", .dict [("variant", "equispaced")]])
    (C' := [.cls "IntegralMoment", .cls "VectorLagrange", .int (-2), .str "covariant", .dict [("variant", "equispaced")]])
    rfl rfl (sub_one "TangentIntegralMoment" none) (sub_none "IntegralMoment" (some "covariant"))
  obtain ⟨d0, d1, d2, e0, e1, e2, rfl⟩ := mapM_three (momentElement_dofs h1 hms)
  have hS := (h5 f).1 (Submodule.subset_span (List.mem_of_getElem? hl))
  have key : ∀ i < 3, ∀ d, momentDof .triangle ⟨"TangentIntegralMoment", .scalar 1, (1, i), none⟩ = some d →
      d.eval f = ∑ r : Fin 2, edgeVec (entityDomain .triangle (1, i)).v r.val *
        eval ((entityDomain .triangle (1, i)).param t) (f r) := by
    intro i hi d hd
    refine (edge_value hc.affine4 (edge_distinct hc hi) hd f).trans ?_
    exact (trace_const (D := ⟨.interval, 2, (entityDomain .triangle (1, i)).v⟩) rfl
      (axis .interval (entityDomain .triangle (1, i)).v 0) (edge_comp_n1 hS _) t).symm
  have hdual := (getBasis_ciarlet_dual _ _ _ h2).2 l
  interval_cases i
  · rw [← key 0 hi d0 e0]; exact hdual 0 f d0 hl rfl
  · rw [← key 1 hi d1 e1]; exact hdual 1 f d1 hl rfl
  · rw [← key 2 hi d2 e2]; exact hdual 2 f d2 hl rfl

/-! ### Coefficients -/

theorem rot_inj {N a m i : ℕ} (hm : m < N) (hi : i < N) : (a + m) % N = (a + i) % N ↔ m = i := by
  constructor
  · intro h
    have : m ≡ i [MOD N] := Nat.ModEq.add_left_cancel' a h
    rwa [Nat.ModEq, Nat.mod_eq_of_lt hm, Nat.mod_eq_of_lt hi] at this
  · rintro rfl; rfl

theorem pyIndex_natCast (N a : ℕ) : pyIndex N (a : ℤ) = a := by rw [pyIndex]; split_ifs <;> omega

theorem bcRow_loop (s : ℝ) {n : ℕ} (j : ℕ) (c : ℕ → ℕ → ℝ) (M : ℕ) (hM : M ≤ 2 * n - 1) {m : ℕ} (hm : m < 2 * n) :
    let c' := (List.range M).foldl (fun c i =>
      let c := setAt (2 * n) c (((2 * j + i) % (2 * n) : ℕ) : ℤ) 2 (s * ((i : ℝ) + 1 - n) / (2 * n : ℕ))
      setAt (2 * n) c (((2 * j + i + 1) % (2 * n) : ℕ) : ℤ) 1 (s * ((i : ℝ) + 1 - n) / (2 * n : ℕ))) c
    c' ((2 * j + m) % (2 * n)) 0 = c ((2 * j + m) % (2 * n)) 0 ∧
    c' ((2 * j + m) % (2 * n)) 1 = (if 1 ≤ m ∧ m ≤ M then s * ((m : ℝ) - n) / (2 * n : ℕ) else c ((2 * j + m) % (2 * n)) 1) ∧
    c' ((2 * j + m) % (2 * n)) 2 = if m < M then s * ((m : ℝ) + 1 - n) / (2 * n : ℕ) else c ((2 * j + m) % (2 * n)) 2 := by
  induction M with
  | zero => simp; intro h1 h2; omega
  | succ M ih =>
    obtain ⟨i1, i2, i3⟩ := ih (by omega)
    intro c'
    simp only [c', List.range_succ, List.foldl_append, List.foldl_cons, List.foldl_nil]
    simp only [setAt, pyIndex_natCast]
    rw [i1, i2, i3]
    simp only [add_assoc, rot_inj hm (show M + 1 < 2 * n by omega), rot_inj hm (show M < 2 * n by omega)]
    refine ⟨by simp, ?_, ?_⟩
    · by_cases h1 : m = M + 1
      · subst h1
        simp
      · rw [if_neg (by omega), if_neg (by omega)]
        by_cases h2 : 1 ≤ m ∧ m ≤ M
        · rw [if_pos h2, if_pos (by omega)]
        · rw [if_neg h2, if_neg (by omega)]
    · by_cases h1 : m = M
      · subst h1
        simp
      · rw [if_neg (by omega), if_neg (by omega)]
        by_cases h2 : m < M
        · rw [if_pos h2, if_pos (by omega)]
        · rw [if_neg h2, if_neg (by omega)]

/-- The coefficients of the function number `j` in the triangle that is `m` steps after the triangle `2 j`. -/
theorem bcRow_eq (s : ℝ) {n j m : ℕ} (hj : j < n) (hm : m < 2 * n) :
    bcRow s n j ((2 * j + m) % (2 * n)) 0 = (if m = 0 ∨ m = 2 * n - 1 then -1 / 2 else 0) ∧
    bcRow s n j ((2 * j + m) % (2 * n)) 1 = (if 1 ≤ m then s * ((m : ℝ) - n) / (2 * n : ℕ) else 0) ∧
    bcRow s n j ((2 * j + m) % (2 * n)) 2 = if m < 2 * n - 1 then s * ((m : ℝ) + 1 - n) / (2 * n : ℕ) else 0 := by
  have p0 : pyIndex (2 * n) (2 * j) = (2 * j + 0) % (2 * n) := by
    rw [Nat.mod_eq_of_lt (by omega), pyIndex]; split_ifs <;> omega
  have p1 : pyIndex (2 * n) (2 * j - 1) = (2 * j + (2 * n - 1)) % (2 * n) := by
    rw [pyIndex]
    rcases Nat.eq_zero_or_pos j with rfl | h
    · rw [Nat.mod_eq_of_lt (by omega)]; split_ifs <;> omega
    · rw [show 2 * j + (2 * n - 1) = 2 * j - 1 + 2 * n by omega, Nat.add_mod_right, Nat.mod_eq_of_lt (by omega)]
      split_ifs <;> omega
  obtain ⟨h0, h1, h2⟩ := bcRow_loop s j (setAt (2 * n) (setAt (2 * n) (fun _ _ => 0) (2 * j) 0 (-1 / 2)) (2 * j - 1) 0 (-1 / 2))
    (2 * n - 1) le_rfl hm
  refine ⟨?_, ?_, ?_⟩
  · refine h0.trans ?_
    simp only [setAt, p0, p1]
    simp only [rot_inj hm (show 2 * n - 1 < 2 * n by omega), rot_inj hm (show 0 < 2 * n by omega), and_true]
    split_ifs <;> first | rfl | omega
  · refine h1.trans ?_
    simp only [setAt]
    by_cases h : 1 ≤ m
    · rw [if_pos ⟨h, by omega⟩, if_pos h]
    · rw [if_neg (by omega), if_neg h]; simp
  · refine h2.trans ?_
    simp only [setAt]
    simp

/-! ### Traces of the pieces -/

/-- The pieces of a function. -/
noncomputable def bcPieces (n : ℕ) (g : ℕ → (ℕ → ℝ) → Fin 2 → ℝ) : Piecewise ℝ ((ℕ → ℝ) → Fin 2 → ℝ) :=
  ⟨2, (List.range (2 * n)).map fun k => (triCell n k, g k)⟩

/-- The trace of a piece on an edge of its triangle is the coefficient. -/
theorem piece_traces {push : ∀ {d : ℕ}, Matrix (Fin d) (Fin d) ℝ → (Fin d → ℝ) → Fin d → ℝ} {e : Option (Element ℝ (Field 2))}
    {a : (ℕ → ℕ → ℝ) → ℕ → ℝ} (he : Traces e a)
    (hpush : ∀ {V F}, invMapTo .triangle 2 V = some F → ∀ (i : ℕ) (f : Fin 2 → ℝ),
      ∑ r : Fin 2, a (physDomain .triangle V (1, i)).v r.val * push (jacMat .triangle V) f r =
      ∑ r : Fin 2, a (entityDomain .triangle (1, i)).v r.val * f r) {n : ℕ} (hn : 3 ≤ n) (s : ℝ) :
    ∃ fs, (e.bind getBasis).bind (fun basis => (bcCoefficients s n).mapM fun row => pieces n (vectorPiece @push n basis row)) = some fs ∧
      fs.length = n ∧ ∀ (j : ℕ) (f), fs[j]? = some f → j < n ∧ ∃ g, f = bcPieces n g ∧ ∀ k < 2 * n, ∀ i < 3, ∀ t y,
        y = (physDomain .triangle (tri n k) (1, i)).param t →
        ∑ r : Fin 2, a (physDomain .triangle (tri n k) (1, i)).v r.val * g k y r = bcRow s n j k i := by
  have hc : Affine4 .triangle := by simp [Affine4]
  obtain ⟨basis, h1, h2, h3, h4⟩ := he
  have hF := fun i (hi : i < 2 * n) => inv_tri hn hi
  choose! F hF1 hF2 using hF
  have hb : ∃ b0 b1 b2, basis = [b0, b1, b2] := List.length_eq_three.1 h2
  obtain ⟨b0, b1, b2, rfl⟩ := hb
  set G : ℕ → Field 2 → (ℕ → ℝ) → Fin 2 → ℝ := fun k b x => push (jacMat .triangle (tri n k)) fun l => eval (coords (F k x)) (b l) with hG
  have hm : ∀ k < 2 * n, ∀ b, mapped @push .triangle (tri n k) b = some (G k b) := by
    intro k hk b
    show Option.map _ (invMapTo .triangle 2 (tri n k)) = _
    rw [hF1 k hk]
    rfl
  set g : ℕ → ℕ → (ℕ → ℝ) → Fin 2 → ℝ := fun j k x r =>
    bcRow s n j k 0 * G k b0 x r + (bcRow s n j k 1 * G k b1 x r + (bcRow s n j k 2 * G k b2 x r + 0)) with hg
  have hp : ∀ j, pieces n (vectorPiece @push n [b0, b1, b2] fun i => (List.range 3).map (bcRow s n j i)) = some (bcPieces n (g j)) :=
    fun j => mapM_pieces fun k hk => by
      have := mapM_some_of (mapped @push .triangle (tri n k)) (G k) [b0, b1, b2] fun b _ => hm k hk b
      exact congrArg (Option.map _) this
  refine ⟨(List.range n).map fun j => bcPieces n (g j), ?_, by simp, fun j f hf => ?_⟩
  · rw [h1, Option.bind_some, bcCoefficients, List.mapM_map]
    exact mapM_some_of _ _ _ fun j _ => hp j
  · rw [List.getElem?_map, Option.map_eq_some_iff] at hf
    obtain ⟨j', hj', rfl⟩ := hf
    obtain ⟨hj, rfl⟩ := List.getElem?_eq_some_iff.1 hj'
    rw [List.length_range] at hj
    rw [List.getElem_range]
    refine ⟨hj, g j, rfl, fun k hk i hi t y hy => ?_⟩
    have val : ∀ (l : ℕ) (b : Field 2), [b0, b1, b2][l]? = some b →
        ∑ r : Fin 2, a (physDomain .triangle (tri n k) (1, i)).v r.val * G k b y r = if l = i then 1 else 0 := by
      intro l b hl
      have hgy := mapped_param (push := @push) hc (h3 b (List.mem_of_getElem? hl)) (hm k hk b) (1, i) t y fun j _ => by rw [hy]
      exact (Finset.sum_congr rfl fun r _ => congrArg _ (congrFun hgy r)).trans
        ((hpush (hF1 k hk) i _).trans (h4 i hi l b hl t))
    have v0 := val 0 b0 rfl
    have v1 := val 1 b1 rfl
    have v2 := val 2 b2 rfl
    have key : ∑ r : Fin 2, a (physDomain .triangle (tri n k) (1, i)).v r.val * g j k y r =
        bcRow s n j k 0 * (if 0 = i then 1 else 0) + bcRow s n j k 1 * (if 1 = i then 1 else 0) +
          bcRow s n j k 2 * (if 2 = i then 1 else 0) := by
      rw [← v0, ← v1, ← v2]
      simp only [Fin.sum_univ_two, hg]
      ring
    rw [key]
    interval_cases i <;> simp

/-! ### Spec -/

/-- The normal to the edge from the origin to a vertex. -/
noncomputable def spokeNormal (n p : ℕ) (r : Fin 2) : ℝ := if r = 0 then -dualVertex n p 1 else dualVertex n p 0

/-- The inward normal to the edge of the polygon between the vertices number `k` and `k + 1`, times its length. -/
noncomputable def sideNormal (n k : ℕ) (r : Fin 2) : ℝ :=
  if r = 0 then -(dualVertex n ((k + 1) % (2 * n)) 1 - dualVertex n k 1) else dualVertex n ((k + 1) % (2 * n)) 0 - dualVertex n k 0

/-- A function given by the pieces `g k` on the triangles number `k` has the jumps that a continuous normal component (`a`
the normal) or tangential component (`a` the tangent) excludes: at every edge from the origin to a vertex, and at every point
of the edge, the traces from the two sides differ. -/
def JumpsEverywhere (n : ℕ) (a : ℕ → Fin 2 → ℝ) (f : Piecewise ℝ ((ℕ → ℝ) → Fin 2 → ℝ)) : Prop :=
  ∀ p < 2 * n, ∃ g g', f.pieces[p]? = some (triCell n p, g) ∧
    f.pieces[(p + (2 * n - 1)) % (2 * n)]? = some (triCell n ((p + (2 * n - 1)) % (2 * n)), g') ∧
    ∀ τ : ℝ, ∑ r, a p r * g (fun r => τ * dualVertex n p r) r ≠ ∑ r, a p r * g' (fun r => τ * dualVertex n p r) r

/-- The traces on the sides of the polygon: -1/2 on the two sides that meet in the vertex number `2 j`, zero on all others. -/
def SideTraces (n : ℕ) (a : ℕ → Fin 2 → ℝ) (j : ℕ) (f : Piecewise ℝ ((ℕ → ℝ) → Fin 2 → ℝ)) : Prop :=
  ∀ k < 2 * n, ∃ g, f.pieces[k]? = some (triCell n k, g) ∧
    ∀ τ : ℝ, ∑ r, a k r * g (fun r => (1 - τ) * dualVertex n k r + τ * dualVertex n ((k + 1) % (2 * n)) r) r =
      if k = 2 * j ∨ (k + 1) % (2 * n) = 2 * j then -1 / 2 else 0

/-- The tangents to the edges from the origin. -/
noncomputable def spokeTangent (n p : ℕ) (r : Fin 2) : ℝ := dualVertex n p r.val

/-- The tangents to the sides, times their length. -/
noncomputable def sideTangent (n k : ℕ) (r : Fin 2) : ℝ := dualVertex n ((k + 1) % (2 * n)) r.val - dualVertex n k r.val

/-! ### Geometry of the edges -/

theorem bcPieces_get {n : ℕ} {g : ℕ → (ℕ → ℝ) → Fin 2 → ℝ} {k : ℕ} (hk : k < 2 * n) :
    (bcPieces n g).pieces[k]? = some (triCell n k, g k) := by
  show ((List.range (2 * n)).map fun k => (triCell n k, g k))[k]? = _
  rw [List.getElem?_map, List.getElem?_range hk]
  rfl

theorem edge_param (n k i : ℕ) (t : ℕ → ℝ) : (physDomain .triangle (tri n k) (1, i)).param t = fun r =>
    (1 - t 0) * tri n k ((entVerts .triangle 1 i).getD 0 0) r + t 0 * tri n k ((entVerts .triangle 1 i).getD 1 0) r := by
  have h : (physDomain .triangle (tri n k) (1, i)).param t = (⟨.interval, 2, (physDomain .triangle (tri n k) (1, i)).v⟩ : Domain).param t := rfl
  rw [h, interval_param]
  funext r
  show tri n k ((entVerts .triangle 1 i).getD 0 0) r + t 0 * (tri n k ((entVerts .triangle 1 i).getD 1 0) r -
    tri n k ((entVerts .triangle 1 i).getD 0 0) r) = _
  ring

theorem bc_shape {push : ∀ {d : ℕ}, Matrix (Fin d) (Fin d) ℝ → (Fin d → ℝ) → Fin d → ℝ} {e : Option (Element ℝ (Field 2))}
    {a : (ℕ → ℕ → ℝ) → ℕ → ℝ} (he : Traces e a)
    (hpush : ∀ {V F}, invMapTo .triangle 2 V = some F → ∀ (i : ℕ) (f : Fin 2 → ℝ),
      ∑ r : Fin 2, a (physDomain .triangle V (1, i)).v r.val * push (jacMat .triangle V) f r =
      ∑ r : Fin 2, a (entityDomain .triangle (1, i)).v r.val * f r) {n : ℕ} (hn : 3 ≤ n) {s : ℝ} (hs : s ≠ 0)
    {spoke side : ℕ → Fin 2 → ℝ}
    (h2 : ∀ k r, a (physDomain .triangle (tri n k) (1, 2)).v r.val = spoke k r)
    (h1 : ∀ k r, a (physDomain .triangle (tri n k) (1, 1)).v r.val = spoke ((k + 1) % (2 * n)) r)
    (h0 : ∀ k r, a (physDomain .triangle (tri n k) (1, 0)).v r.val = side k r) :
    ∃ fs, (e.bind getBasis).bind (fun basis => (bcCoefficients s n).mapM fun row => pieces n (vectorPiece @push n basis row)) = some fs ∧
      fs.length = n ∧ ∀ (j : ℕ) (f), fs[j]? = some f → JumpsEverywhere n spoke f ∧ SideTraces n side j f := by
  obtain ⟨fs, e1, e2, e3⟩ := piece_traces @he @hpush hn s
  refine ⟨fs, e1, e2, fun j f hf => ?_⟩
  obtain ⟨hj, g, rfl, hg⟩ := e3 j f hf
  have hN : (0 : ℝ) < (2 * n : ℕ) := by exact_mod_cast (by omega : 0 < 2 * n)
  have rot : ∀ p < 2 * n, ∃ m < 2 * n, p = (2 * j + m) % (2 * n) := by
    intro p hp
    by_cases h : 2 * j ≤ p
    · exact ⟨p - 2 * j, by omega, by rw [show 2 * j + (p - 2 * j) = p by omega, Nat.mod_eq_of_lt hp]⟩
    · exact ⟨p + 2 * n - 2 * j, by omega, by
        rw [show 2 * j + (p + 2 * n - 2 * j) = p + 2 * n by omega, Nat.add_mod_right, Nat.mod_eq_of_lt hp]⟩
  constructor
  · intro p hp
    have hq : (p + (2 * n - 1)) % (2 * n) < 2 * n := Nat.mod_lt _ (by omega)
    refine ⟨g p, g ((p + (2 * n - 1)) % (2 * n)), bcPieces_get hp, bcPieces_get hq, fun τ => ?_⟩
    have hqp : ((p + (2 * n - 1)) % (2 * n) + 1) % (2 * n) = p := by
      rw [Nat.mod_add_mod, show p + (2 * n - 1) + 1 = p + 2 * n by omega, Nat.add_mod_right, Nat.mod_eq_of_lt hp]
    have A := hg p hp 2 (by omega) (fun _ => τ) (fun r => τ * dualVertex n p r) (by
      rw [edge_param]
      funext r
      simp [show entVerts .triangle 1 2 = [0, 1] from rfl, tri])
    have B := hg _ hq 1 (by omega) (fun _ => τ) (fun r => τ * dualVertex n p r) (by
      rw [edge_param]
      funext r
      simp [show entVerts .triangle 1 1 = [0, 2] from rfl, tri, hqp])
    simp only [h2] at A
    simp only [h1, hqp] at B
    rw [A, B]
    obtain ⟨m, hm, rfl⟩ := rot p hp
    have hq' : ((2 * j + m) % (2 * n) + (2 * n - 1)) % (2 * n) = (2 * j + (m + (2 * n - 1)) % (2 * n)) % (2 * n) := by
      rw [Nat.mod_add_mod, Nat.add_mod_mod, add_assoc]
    rw [hq', (bcRow_eq s hj hm).2.2, (bcRow_eq s hj (Nat.mod_lt _ (by omega))).2.1]
    have h3 : (3 : ℝ) ≤ n := by exact_mod_cast hn
    rcases Nat.eq_zero_or_pos m with rfl | hpos
    · rw [zero_add, Nat.mod_eq_of_lt (by omega), if_pos (by omega), if_pos (by omega), ne_eq, div_eq_div_iff hN.ne' hN.ne', Nat.cast_sub (by omega)]
      intro h
      have := mul_right_cancel₀ hN.ne' h
      have := mul_left_cancel₀ hs this
      push_cast at this
      linarith
    · rw [show m + (2 * n - 1) = m - 1 + 2 * n by omega, Nat.add_mod_right, Nat.mod_eq_of_lt (by omega)]
      by_cases hm1 : m = 1
      · subst hm1
        rw [if_pos (by omega), if_neg (by omega)]
        refine div_ne_zero (mul_ne_zero hs ?_) hN.ne'
        push_cast
        intro h
        linarith
      · rw [if_pos (show 1 ≤ m - 1 by omega), Nat.cast_sub (by omega)]
        by_cases hl : m < 2 * n - 1
        · rw [if_pos hl, ne_eq, div_eq_div_iff hN.ne' hN.ne']
          intro h
          have := mul_right_cancel₀ hN.ne' h
          have := mul_left_cancel₀ hs this
          push_cast at this
          linarith
        · rw [if_neg hl]
          obtain rfl : m = 2 * n - 1 := by omega
          refine (div_ne_zero (mul_ne_zero hs ?_) hN.ne').symm
          rw [Nat.cast_sub (by omega)]
          push_cast
          intro h
          linarith
  · intro k hk
    refine ⟨g k, bcPieces_get hk, fun τ => ?_⟩
    have A := hg k hk 0 (by omega) (fun _ => τ) (fun r => (1 - τ) * dualVertex n k r + τ * dualVertex n ((k + 1) % (2 * n)) r) (by
      rw [edge_param]
      funext r
      simp [show entVerts .triangle 1 0 = [1, 2] from rfl, tri])
    simp only [h0] at A
    rw [A]
    obtain ⟨m, hm, rfl⟩ := rot k hk
    rw [(bcRow_eq s hj hm).1]
    have c1 : (2 * j + m) % (2 * n) = 2 * j ↔ m = 0 := by
      have := rot_inj (a := 2 * j) hm (show 0 < 2 * n by omega)
      rwa [Nat.add_zero, Nat.mod_eq_of_lt (show 2 * j < 2 * n by omega)] at this
    have c2 : ((2 * j + m) % (2 * n) + 1) % (2 * n) = 2 * j ↔ m = 2 * n - 1 := by
      have := rot_inj (a := 2 * j + 1) hm (show 2 * n - 1 < 2 * n by omega)
      rw [show 2 * j + 1 + (2 * n - 1) = 2 * j + 2 * n by omega, Nat.add_mod_right,
        Nat.mod_eq_of_lt (show 2 * j < 2 * n by omega)] at this
      rw [Nat.mod_add_mod, ← this, add_right_comm]
    simp only [c1, c2]

/-- **C98** Buffa–Christiansen functions: through the sides of the polygon the flux is as intended, but the normal component
jumps across every edge from the origin to a vertex, so that no function is in H(div). -/
theorem bc_partial {n : ℕ} (hn : 3 ≤ n) : ∃ fs, bcBasis n = some fs ∧ fs.length = n ∧
    ∀ (j : ℕ) (f), fs[j]? = some f → JumpsEverywhere n (spokeNormal n) f ∧ SideTraces n (sideNormal n) j f := by
  refine bc_shape (push := @pushContra) rt_traces (fun hF i f => area_contra (by simp [Affine4]) hF (1, i) f) hn one_ne_zero ?_ ?_ ?_
  all_goals
    intro k r
    fin_cases r <;> simp [areaVec, coords, physDomain, entityVerts, tri, spokeNormal, sideNormal,
      show entVerts .triangle 1 2 = [0, 1] from rfl, show entVerts .triangle 1 1 = [0, 2] from rfl,
      show entVerts .triangle 1 0 = [1, 2] from rfl]

/-- **C98** Rotated Buffa–Christiansen functions: the tangential component jumps across every edge from the origin to a
vertex. -/
theorem rbc_partial {n : ℕ} (hn : 3 ≤ n) : ∃ fs, rbcBasis n = some fs ∧ fs.length = n ∧
    ∀ (j : ℕ) (f), fs[j]? = some f → JumpsEverywhere n (spokeTangent n) f ∧ SideTraces n (sideTangent n) j f := by
  refine bc_shape (push := @pushCo) n1_traces (fun hF i f => axis_co (by simp [Affine4]) hF (1, i) 1 0 f) hn (by norm_num) ?_ ?_ ?_
  all_goals
    intro k r
    fin_cases r <;> simp [edgeVec, physDomain, entityVerts, tri, spokeTangent, sideTangent,
      show entVerts .triangle 1 2 = [0, 1] from rfl, show entVerts .triangle 1 1 = [0, 2] from rfl,
      show entVerts .triangle 1 0 = [1, 2] from rfl]

end Verif.Dual
