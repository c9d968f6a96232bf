import Verif.Families.Abf
/-!
# Huang–Zhang elements

`HuangZhang` on quadrilaterals (symfem/elements/huang_zhang.py).
-/

namespace Verif.Families
open Verif.References Verif.Moments Verif.Functionals Verif.Elements Verif.FiniteElement Verif.Polysets Verif.Orthogonal
open MvPolynomial

/-! ### Model -/

/-- The polynomials (symfem/elements/huang_zhang.py:44-54). -/
def hzSet (k : ℕ) : List VecPoly := (boxKeys (k + 1) k).map fun t => unitVec 2 t.1 (monoPoly t.2)

/-- The functions of the functionals of the cell (symfem/elements/huang_zhang.py:65-68). -/
noncomputable def hzFuns (k : ℕ) : List (List (MvPolynomial ℕ ℝ)) :=
  (List.range (k - 1)).flatMap fun i : ℕ => (List.range (k - 2)).flatMap fun j : ℕ =>
    [[denoteMono ℝ [i, j], 0], [0, denoteMono ℝ [j, i]]]

/-- The classes used. -/
noncomputable def lagrangeClasses (name : String) : ElementClass Fun := if name = "Lagrange" then lagrangeClass else noClass

/-- `HuangZhang(reference, order, variant)` (symfem/elements/huang_zhang.py:29-70).  The default mapping of `IntegralAgainst` is
`identity`. -/
noncomputable def huangZhang (variant : String) (k : ℕ) : Option (Element ℝ (Field Cell.quadrilateral.tdim)) :=
  momentElementWith lagrangeClasses .quadrilateral (some (hzSet k))
    { facets := some (.single [.cls "NormalIntegralMoment", .cls "Lagrange", .int ((k : ℤ) - 1), .dict [("variant", variant)]]) }
    ((makeIntegralMomentDofs lagrangeClasses .quadrilateral
      { facets := some (.single [.cls "TangentIntegralMoment", .cls "Lagrange", .int ((k : ℤ) - 2), .dict [("variant", variant)]]) }).bind
      fun ms => (ms.mapM (momentDof .quadrilateral)).bind fun tangential =>
        ((hzFuns k).mapM fun f => againstDof .quadrilateral (2, 0) "identity" f).map fun inner => tangential ++ inner)

/-! ### The functionals -/

/-- The moments when there is a sub-element on the facets only. -/
theorem facet_moments {classes : String → ElementClass Fun} {A : List Item} {dA : Data} (hA : parse A = some dA)
    {xs : List (MvPolynomial ℕ ℝ)} (hx : subFuns classes dA .interval = some (xs.map .scalar)) :
    makeIntegralMomentDofs classes .quadrilateral { facets := some (.single A) } =
      some ((List.range 4).flatMap fun i => xs.map fun x => ⟨dA.moment, .scalar x, (1, i), dA.mapping⟩) := by
  have e0 : ∀ dim : ℤ, slotDofs classes .quadrilateral dim none = some [] := fun _ => rfl
  have h1 : slotDofs classes .quadrilateral ((Cell.quadrilateral.tdim : ℤ) - 1) (some (.single A)) = some ((List.range 4).flatMap fun i =>
      (xs.map Fun.scalar).map fun x => ⟨dA.moment, x, (1, i), dA.mapping⟩) :=
    slot_uniform (c := .quadrilateral) (t := .interval) (dim := 1) (by omega) (by omega) (by decide) rfl hA hx
  unfold makeIntegralMomentDofs slots
  simp only [List.mapM_cons, List.mapM_nil, e0, h1, Option.bind_eq_bind, Option.bind_some, Option.pure_def, Option.map_some,
    List.flatten_cons, List.flatten_nil, List.nil_append, List.append_nil, List.map_map, Function.comp_def]

/-- A functional given by a function, in the cell. -/
theorem against_vector {c : Cell} (hc : Box c) {f : List (MvPolynomial ℕ ℝ)} (hf : f.length = c.tdim) (mp : String) :
    ∃ d, againstDof c (c.tdim, 0) mp f = some d ∧ d.entity = (c.tdim, 0) ∧
      ∀ (v : Field c.tdim) (k : ℤ), (∀ j, v j ∈ P c.tdim k) → d.eval v = pairing c v fun j => f.getD j.val 0 := by
  have hcell : (entityDomain c (c.tdim, 0)).cell = c := by rcases hc with rfl | rfl <;> rfl
  obtain ⟨d, h1, h2, h3⟩ := against_entity hc one_ne_zero (box_jacobian hc) (f := f) (by rw [hf, hcell]) mp
  refine ⟨d, h1, h2, fun v k hv => (h3 v).trans ?_⟩
  have key : ∀ (t : Cell) (ht : t = c) (w : Field t.tdim), (∀ (j : ℕ) (h : j < t.tdim) z, eval z (w ⟨j, h⟩) = eval z (v ⟨j, ht ▸ h⟩)) →
      pairing t w (fun j => f.getD j.val 0) = pairing c v fun j => f.getD j.val 0 := by
    intro t ht w hw
    subst ht
    rw [pairing_apply, pairing_apply]
    congr 1
    funext z
    rw [map_sum, map_sum]
    refine Finset.sum_congr rfl fun j _ => ?_
    rw [map_mul, map_mul, hw j.val j.2]
  refine key _ hcell _ fun j h z => ?_
  have hj : j < c.tdim := by rwa [hcell] at h
  show eval z (comp (entityDomain c (c.tdim, 0)) (axis (entityDomain c (c.tdim, 0)).cell (entityDomain c (c.tdim, 0)).v j) v) = _
  refine (eval_comp (entityDomain c (c.tdim, 0)) _ v z).trans ?_
  show ∑ i : Fin c.tdim, _ = _
  rw [Finset.sum_eq_single ⟨j, hj⟩]
  · rw [box_axis hc hj hj, if_pos rfl, one_mul, eval_congr_P (hv _) fun l hl => box_param hc z hl]
  · intro i _ hi
    rw [box_axis hc hj i.2, if_neg fun hc => hi (Fin.ext hc), zero_mul]
  · intro hn; exact absurd (Finset.mem_univ _) hn

/-! ### Unisolvence -/

theorem solid_interval : Solid .interval := by simp [Solid]

theorem pull_mem_degs {i : ℕ} (hi : i < 4) {m n : ℤ} (hm : 0 ≤ m) {q : MvPolynomial ℕ ℝ}
    (hq : q ∈ B (degs 2 (skip (qAxis 2 i) 0) m n)) : pull (entityDomain .quadrilateral (1, i)) q ∈ P 1 m := by
  obtain ⟨F1, F2, -⟩ := box_facet (c := .quadrilateral) (Or.inl rfl) (i := i) hi
  have hd : (entityDomain .quadrilateral (1, i)).cell.tdim = 1 := (congrArg Cell.tdim F1).trans rfl
  have h1 := F2.aligned.pull (G := fun j => if j < 1 then m else 0) (fun j => by split_ifs <;> omega) (fun l hl => ?_) hq
  · have := B_P (d := 1) (k := m) (fun i hi => by rw [if_pos hi]) (fun i hi => by rw [if_neg (by omega)]) h1
    rwa [Nat.cast_one, one_mul] at this
  · have hl1 : l < 1 := hl.trans_eq hd
    obtain rfl : l = 0 := by omega
    have h2 : skip (qAxis 2 i) 0 < 2 := skip_lt (qAxis_lt hi) (by omega)
    show degs 2 (skip (qAxis 2 i) 0) m n (skip (qAxis 2 i) 0) ≤ if 0 < 1 then m else 0
    rw [if_pos hl1, degs, if_pos h2, if_pos rfl]

/-- A multiple of the bubble along an edge with no moments on the edge. -/
theorem edge_bub_zero {i : ℕ} (hi : i < 4) {m n : ℤ} (hm : 0 ≤ m) {q : MvPolynomial ℕ ℝ}
    (hq : q ∈ B (degs 2 (skip (qAxis 2 i) 0) m n))
    (h : ∀ p ∈ P 1 m, pairing1 .interval (pull (entityDomain .quadrilateral (1, i)) (bub (skip (qAxis 2 i) 0) * q)) p = 0)
    (z : ℕ → ℝ) (hz : z (qAxis 2 i) = qVal 2 i) : eval z q = 0 := by
  have hc : Box .quadrilateral := Or.inl rfl
  obtain ⟨F1, F2, -⟩ := box_facet hc (i := i) hi
  have hd : (entityDomain .quadrilateral (1, i)).cell.tdim = 1 := (congrArg Cell.tdim F1).trans rfl
  have hr := pull_mem_degs hi hm hq
  have hX : coordPoly (entityDomain .quadrilateral (1, i)) (skip (qAxis 2 i) 0) = X 0 :=
    F2.aligned.coord (k := 0) (Nat.one_pos.trans_eq hd.symm)
  have hb : pull (entityDomain .quadrilateral (1, i)) (bub (skip (qAxis 2 i) 0) * q) = bub 0 * pull (entityDomain .quadrilateral (1, i)) q := by
    rw [pull_mul]
    congr 1
    rw [pull, bub, map_mul, map_sub, map_one, aeval_X, hX, bub]
  have h0 : pull (entityDomain .quadrilateral (1, i)) q = 0 := by
    have h1 := h _ hr
    rw [hb] at h1
    refine squares_zero solid_interval (fun _ : Fin 1 => bub 0) (fun _ z hz => ?_) (fun _ z hz => inner_bub (hz 0 (by decide)))
      (fun _ => pull (entityDomain .quadrilateral (1, i)) q) (fun _ => hr) (Eq.trans ?_ h1) 0
    · rw [eval_bub]
      have : 0 ≤ z 0 ∧ z 0 ≤ 1 := hz
      exact mul_nonneg this.1 (by linarith [this.2])
    · rw [Fin.sum_univ_one]
      show cellInt _ _ = cellInt _ _
      congr 1
      funext z
      congr 1
      ring
  obtain ⟨y, hy⟩ := F2.covers (qAxis_lt (show i < 2 * 2 from hi)) hd hz
  have hP : q ∈ P 2 ((2 : ℕ) * max m n) := B_P (fun j hj => by unfold degs; split_ifs <;> omega) (fun j hj => by unfold degs; split_ifs <;> omega) hq
  rw [eval_congr_P hP fun l hl => (hy l hl).symm]
  refine (eval_pull (D := entityDomain .quadrilateral (1, i)) _ _).symm.trans ?_
  rw [h0, map_zero]

/-- The facets normal to an axis. -/
theorem quad_facets {l : ℕ} (hl : l < 2) {b : ℝ} (hb : b = 0 ∨ b = 1) : ∃ i < 4, qAxis 2 i = l ∧ qVal 2 i = b := by
  rcases hb with rfl | rfl
  · refine ⟨1 - l, by omega, ?_, ?_⟩
    · rw [qAxis, if_pos (by omega)]; omega
    · rw [qVal, if_pos (by omega)]
  · refine ⟨2 + l, by omega, ?_, ?_⟩
    · rw [qAxis, if_neg (by omega)]; omega
    · rw [qVal, if_neg (by omega)]

/-- A function with no normal components, no tangential moments and no moments is zero. -/
theorem hz_zero {k : ℕ} (hk : 2 ≤ k) {v : Field 2} (hv : RTQ 2 k v)
    (hn : ∀ (i : Fin 2) (z : ℕ → ℝ), z i.val = 0 ∨ z i.val = 1 → eval z (v i) = 0)
    (ht : ∀ (i : ℕ) (hi : i < 4), ∀ p ∈ P 1 ((k : ℤ) - 2), pairing1 .interval
      (pull (entityDomain .quadrilateral (1, i)) (v ⟨skip (qAxis 2 i) 0, skip_lt (qAxis_lt hi) Nat.one_pos⟩)) p = 0)
    (hp : ∀ w : Field 2, (∀ i : Fin 2, w i ∈ B (degs 2 i ((k : ℤ) - 2) ((k : ℤ) - 3))) → pairing .quadrilateral v w = 0) : v = 0 := by
  have hc : Box .quadrilateral := Or.inl rfl
  have h1 : ∀ i : Fin 2, ∃ r ∈ B (degs 2 i ((k : ℤ) - 2) ((k : ℤ) - 3)), v i = bub 0 * bub 1 * r := by
    intro i
    obtain ⟨q, hq, e⟩ := B_bub i.val (hv i) (fun z hz => hn i z (Or.inl hz)) fun z hz => hn i z (Or.inr hz)
    have hq' : q ∈ B (degs 2 i ((k : ℤ) - 2) ((k : ℤ) - 1)) := B_mono (fun j => by simp only [degs]; split_ifs <;> omega) hq
    have hl : skip i.val 0 < 2 := skip_lt i.2 (by omega)
    have hli : skip (skip i.val 0) 0 = i.val := by
      have := i.2
      unfold skip
      split_ifs <;> omega
    have hz : ∀ b : ℝ, b = 0 ∨ b = 1 → ∀ z : ℕ → ℝ, z (skip i.val 0) = b → eval z q = 0 := by
      intro b hb z hz
      obtain ⟨f, hf, ha, hv⟩ := quad_facets hl hb
      have hs : skip (qAxis 2 f) 0 = i.val := by rw [ha, hli]
      refine edge_bub_zero hf (m := (k : ℤ) - 2) (n := (k : ℤ) - 1) (by omega) (by rw [hs]; exact hq') (fun p hp => ?_) z (by rw [ha, hv, hz])
      have := ht f hf p hp
      rw [show (⟨skip (qAxis 2 f) 0, skip_lt (qAxis_lt hf) Nat.one_pos⟩ : Fin 2) = i from Fin.ext hs, e] at this
      rw [hs]
      exact this
    obtain ⟨r, hr, e'⟩ := B_bub (skip i.val 0) hq' (hz 0 (Or.inl rfl)) (hz 1 (Or.inr rfl))
    refine ⟨r, B_mono (fun j => ?_) hr, ?_⟩
    · have hne : skip i.val 0 ≠ i.val := skip_ne _ _
      have hi2 := i.2
      simp only [degs]
      split_ifs <;> omega
    · rw [e, e', ← mul_assoc]
      congr 1
      fin_cases i
      · show bub 0 * bub 1 = _
        rfl
      · show bub 1 * bub 0 = _
        ring
  choose w hw e using h1
  have hm : ∀ i, w i ∈ P 2 ((2 : ℕ) * ((k : ℤ) - 2)) := fun i =>
    B_P (fun j hj => by unfold degs; split_ifs <;> omega) (fun j hj => by unfold degs; split_ifs <;> omega) (hw i)
  have h0 := hp w hw
  have h2 := squares_zero (c := .quadrilateral) hc.solid (fun _ : Fin 2 => bub 0 * bub 1) (fun _ z hz => by
      rw [map_mul]
      exact mul_nonneg (closed_bub hc hz (by decide)) (closed_bub hc hz (by decide)))
    (fun _ z hz => by
      rw [map_mul]
      exact mul_pos (inner_bub (hz 0 (by decide))) (inner_bub (hz 1 (by decide)))) w hm (Eq.trans ?_ h0)
  · funext i
    rw [e i, h2 i, mul_zero]
    rfl
  · refine Eq.trans ?_ (pairing_apply (c := .quadrilateral) (d := 2) v w).symm
    congr 1
    funext z
    congr 1
    refine Finset.sum_congr rfl fun i _ => ?_
    rw [e i]
    ring

/-- The functions of the functionals of the cell. -/
theorem mem_hzFuns {k : ℕ} {f : List (MvPolynomial ℕ ℝ)} :
    f ∈ hzFuns k ↔ ∃ i < k - 1, ∃ j < k - 2, f = [denoteMono ℝ [i, j], 0] ∨ f = [0, denoteMono ℝ [j, i]] := by
  simp [hzFuns]

/-- The functionals of the cell test with all functions of a space. -/
theorem hz_pairing {k : ℕ} {v : Field 2} (h : ∀ f ∈ hzFuns k, pairing .quadrilateral v (fun j => f.getD j.val 0) = 0) {w : Field 2}
    (hw : ∀ i : Fin 2, w i ∈ B (degs 2 i ((k : ℤ) - 2) ((k : ℤ) - 3))) : pairing .quadrilateral v w = 0 := by
  have key : ∀ i : Fin 2, ∀ q ∈ B (degs 2 i ((k : ℤ) - 2) ((k : ℤ) - 3)), pairing .quadrilateral v (Pi.single i q) = 0 := by
    intro i q hq
    refine (Submodule.mem_bot ℝ).1 (B_le (d := 2)
      ((pairing .quadrilateral v).comp (LinearMap.single ℝ (fun _ : Fin 2 => MvPolynomial ℕ ℝ) i)) ⊥ (fun j hj => by simp [degs]; omega)
        (fun m hl hm => (Submodule.mem_bot ℝ).2 ?_) hq)
    obtain ⟨a, b, rfl⟩ := List.length_eq_two.1 hl
    have ha := hm 0 (by omega)
    have hb := hm 1 (by omega)
    show pairing .quadrilateral v (Pi.single i (denoteMono ℝ [a, b])) = 0
    fin_cases i
    · simp [degs] at ha hb
      convert h _ (mem_hzFuns.2 ⟨a, by omega, b, by omega, Or.inl rfl⟩) using 2
      funext j
      fin_cases j <;> simp
    · simp [degs] at ha hb
      convert h _ (mem_hzFuns.2 ⟨b, by omega, a, by omega, Or.inr rfl⟩) using 2
      funext j
      fin_cases j <;> simp
  have e : w = Pi.single 0 (w 0) + Pi.single 1 (w 1) := by
    funext j
    fin_cases j <;> simp
  rw [e, map_add, key 0 _ (hw 0), key 1 _ (hw 1), add_zero]

theorem pairing1_lspan {c : Cell} {u p : MvPolynomial ℕ ℝ} {xs : List (MvPolynomial ℕ ℝ)} (h : ∀ x ∈ xs, pairing1 c u x = 0)
    (hp : p ∈ lspan xs) : pairing1 c u p = 0 :=
  (Submodule.span_le (p := LinearMap.ker (pairing1 c u))).2 (fun f hf => h f hf) hp

/-- The normal components on the edges. -/
theorem pull_mem_normal {i : ℕ} (hi : i < 4) {m n : ℤ} (hn : 0 ≤ n) {q : MvPolynomial ℕ ℝ} (hq : q ∈ B (degs 2 (qAxis 2 i) m n)) :
    pull (entityDomain .quadrilateral (1, i)) q ∈ P 1 n := by
  obtain ⟨F1, F2, -⟩ := box_facet (c := .quadrilateral) (Or.inl rfl) (i := i) hi
  have hd : (entityDomain .quadrilateral (1, i)).cell.tdim = 1 := (congrArg Cell.tdim F1).trans rfl
  have h1 := F2.aligned.pull (G := fun j => if j < 1 then n else 0) (fun j => by split_ifs <;> omega) (fun l hl => ?_) hq
  · have := B_P (d := 1) (k := n) (fun i hi => by rw [if_pos hi]) (fun i hi => by rw [if_neg (by omega)]) h1
    rwa [Nat.cast_one, one_mul] at this
  · have hl1 : l < 1 := hl.trans_eq hd
    have := skip_ne (qAxis 2 i) l
    have h2 : skip (qAxis 2 i) l < 2 := skip_lt (qAxis_lt hi) (by omega)
    show degs 2 (qAxis 2 i) m n (skip (qAxis 2 i) l) ≤ if l < 1 then n else 0
    rw [if_pos hl1, degs, if_pos h2, if_neg this]

theorem rtq_mem_P {k : ℤ} (hk : 0 ≤ k) {v : Field 2} (hv : RTQ 2 k v) : ∀ j, v j ∈ P 2 ((2 : ℕ) * k) := fun j =>
  B_P (fun l hl => by unfold degs; split_ifs <;> omega) (fun l hl => by unfold degs; split_ifs <;> omega) (hv j)

/-- The tangential moments. -/
theorem quad_tangent {i : ℕ} (hi : i < 4) (mp : Option String) (x : MvPolynomial ℕ ℝ) :
    ∃ d, momentDof .quadrilateral ⟨"TangentIntegralMoment", .scalar x, (1, i), mp⟩ = some d ∧
      ∀ v : Field 2, d.eval v = pairing1 .interval
        (pull (entityDomain .quadrilateral (1, i)) (v ⟨skip (qAxis 2 i) 0, skip_lt (qAxis_lt hi) Nat.one_pos⟩)) x := by
  have hc : Box .quadrilateral := Or.inl rfl
  obtain ⟨J, s, -, -, h⟩ := box_edge_moment hc (show i < entityCount .quadrilateral 1 from hi) mp
  obtain ⟨d, h1, -, -⟩ := h x
  obtain ⟨F1, F2, -⟩ := box_facet hc (i := i) hi
  have hlt : skip (qAxis 2 i) 0 < 2 := skip_lt (qAxis_lt hi) Nat.one_pos
  have hax : ∀ j, axis .interval (entityDomain .quadrilateral (1, i)).v 0 j = if j = skip (qAxis 2 i) 0 then 1 else 0 :=
    F2.axes 0 (Nat.one_pos.trans_eq (congrArg Cell.tdim F1).symm)
  refine ⟨d, h1, fun v => ?_⟩
  refine (edge_value (c := .quadrilateral) (by simp [Affine4]) ⟨skip (qAxis 2 i) 0, hlt, fun e => ?_⟩ h1 v).trans ?_
  · have h0 := hax (skip (qAxis 2 i) 0)
    rw [if_pos rfl] at h0
    have h0 : (entityDomain .quadrilateral (1, i)).v 1 (skip (qAxis 2 i) 0) - (entityDomain .quadrilateral (1, i)).v 0 (skip (qAxis 2 i) 0) = 1 := h0
    rw [e, sub_self] at h0
    exact zero_ne_one h0
  · have := comp_single (D := entityDomain .quadrilateral (1, i)) hlt hax v
    exact congrArg (fun p => pairing1 .interval p x) this

theorem length_hzSet (k : ℕ) : (hzSet k).length = 2 * k * (k + 1) := by
  simp [hzSet, boxKeys, List.length_flatMap]
  ring

theorem hz_lspan (k : ℕ) (v : Field 2) : v ∈ lspan ((hzSet k).map (denoteVec ℝ 2)) ↔ RTQ 2 k v := by
  rw [hzSet, boxKeys_lspan]
  have e : ((k + 1 : ℕ) : ℤ) - 1 = k := by push_cast; ring
  rw [e]
  exact Iff.rfl

/-- **C133.** Huang–Zhang elements: at every order from two, the element can be created, it has `2 k (k + 1)` functionals, its
basis functions span the same space as those of the Raviart–Thomas elements, the functionals determine the functions, and the
functionals of an edge determine the normal component on that edge. -/
theorem hz_created (k : ℕ) (hk : 2 ≤ k) :
    Created (huangZhang "equispaced" k) (RTQ 2 k) (2 * k * (k + 1)) (QNormalTrace .quadrilateral (RTQ 2 k)) := by
  have hc : Box .quadrilateral := Or.inl rfl
  obtain ⟨xs, hx, hxs, hxl⟩ := sub_lagrange (t := .interval) (by simp [Simplex]) (classes := lagrangeClasses) rfl
    "NormalIntegralMoment" ((k : ℤ) - 1) none
  obtain ⟨ts, ht, hts, htl⟩ := sub_lagrange (t := .interval) (by simp [Simplex]) (classes := lagrangeClasses) rfl
    "TangentIntegralMoment" ((k : ℤ) - 2) none
  have hms : makeIntegralMomentDofs lagrangeClasses .quadrilateral
      { facets := some (.single [.cls "NormalIntegralMoment", .cls "Lagrange", .int ((k : ℤ) - 1), .dict [("variant", "equispaced")]]) } =
      some (boxMoments .quadrilateral none none xs []) := by
    rw [facet_moments (A := [.cls "NormalIntegralMoment", .cls "Lagrange", .int ((k : ℤ) - 1), .dict [("variant", "equispaced")]]) rfl hx]
    simp only [boxMoments, List.map_nil, List.append_nil]
    rfl
  have hmt := facet_moments (classes := lagrangeClasses)
    (A := [.cls "TangentIntegralMoment", .cls "Lagrange", .int ((k : ℤ) - 2), .dict [("variant", "equispaced")]]) rfl ht
  obtain ⟨tan, htan⟩ := mapM_exists (f := momentDof .quadrilateral)
    (l := (List.range 4).flatMap fun i => ts.map fun x => (⟨"TangentIntegralMoment", .scalar x, (1, i), none⟩ : MomentDof Fun)) fun m hm => by
      obtain ⟨i, hi, x, -, rfl⟩ : ∃ i < 4, ∃ x ∈ ts, ⟨"TangentIntegralMoment", .scalar x, (1, i), none⟩ = m := by
        simpa using hm
      obtain ⟨d, hd, -⟩ := quad_tangent hi none x
      exact ⟨d, hd⟩
  have hlen2 : ∀ f ∈ hzFuns k, f.length = Cell.quadrilateral.tdim := by
    intro f hf
    obtain ⟨i, -, j, -, rfl | rfl⟩ := mem_hzFuns.1 hf <;> rfl
  obtain ⟨inn, hinn⟩ := mapM_exists (f := fun f => againstDof .quadrilateral (2, 0) "identity" f)
    (l := hzFuns k) fun f hf => by
      obtain ⟨d, hd, -⟩ := against_vector hc (hlen2 f hf) "identity"
      exact ⟨d, hd⟩
  have hxl' : xs.length = k := by
    rw [hxl, if_neg (by omega)]
    refine (Nat.choose_one_right _).trans ?_
    show ((k : ℤ) - 1).toNat + 1 = k
    omega
  have htl' : ts.length = k - 1 := by
    rw [htl, if_neg (by omega)]
    refine (Nat.choose_one_right _).trans ?_
    show ((k : ℤ) - 2).toNat + 1 = k - 1
    omega
  have htanl : tan.length = 4 * (k - 1) := by
    rw [← (mapM_forall htan).length_eq]
    simp [List.length_flatMap, htl']
    omega
  have hinnl : inn.length = 2 * ((k - 1) * (k - 2)) := by
    rw [← (mapM_forall hinn).length_eq]
    simp [hzFuns, List.length_flatMap]
    ring
  have := box_created_with (classes := lagrangeClasses) hc (pl := hzSet k) (boxKeys_independent _ _) (S := RTQ 2 k) (hz_lspan k)
    (k := (2 : ℕ) * (k : ℤ))
    (fun v hv => rtq_mem_P (by omega) hv) hms (ex := tan ++ inn) (fun v hv i hi => ?_) (fun v hv hn hp hd => ?_) ?_
  · unfold huangZhang
    rw [hmt, hinn, Option.bind_some]
    have e : List.mapM (momentDof Cell.quadrilateral) _ = some tan := htan
    rw [e, Option.bind_some, Option.map_some]
    rw [length_hzSet] at this
    exact this
  · have hi' : i < 4 := hi
    have h1 : pull (entityDomain .quadrilateral (1, i)) (v ⟨qAxis 2 i, qAxis_lt hi⟩) ∈ P 1 ((k : ℤ) - 1) :=
      pull_mem_normal (m := (k : ℤ)) hi' (by omega) (hv ⟨qAxis 2 i, qAxis_lt hi⟩)
    rw [hxs]
    exact h1
  · refine hz_zero hk hv hn (fun i hi p hp => ?_) fun w hw => ?_
    · have hp' : p ∈ lspan ts := (congrArg (p ∈ ·) hts).mpr hp
      refine pairing1_lspan (fun x hx => ?_) hp'
      obtain ⟨d, hd1, he⟩ := forall₂_mem_right (mapM_forall htan) (a := ⟨"TangentIntegralMoment", .scalar x, (1, i), none⟩)
        (List.mem_flatMap.2 ⟨i, List.mem_range.2 hi, List.mem_map.2 ⟨x, hx, rfl⟩⟩)
      obtain ⟨d', hd', h2⟩ := quad_tangent hi none x
      obtain rfl := Option.some.inj (hd'.symm.trans he)
      exact (h2 v).symm.trans (hd d' (List.mem_append_left _ hd1))
    · have h1 : ∀ f ∈ hzFuns k, pairing .quadrilateral (d := 2) v (fun j => f.getD j.val 0) = 0 := by
        intro f hf
        obtain ⟨d, hd1, he⟩ := forall₂_mem_right (mapM_forall hinn) hf
        obtain ⟨d', hd', -, h2⟩ := against_vector hc (hlen2 f hf) "identity"
        obtain rfl := Option.some.inj (hd'.symm.trans he)
        exact (h2 v _ (rtq_mem_P (by omega) hv)).symm.trans (hd d' (List.mem_append_right _ hd1))
      refine hz_pairing h1 hw
  · rw [length_hzSet, hxl', List.length_append, htanl, hinnl]
    obtain ⟨n, rfl⟩ := Nat.exists_eq_add_of_le' hk
    show 2 * 2 * (n + 2) + 0 + _ = _
    simp only [Nat.add_sub_cancel, show n + 2 - 1 = n + 1 from rfl]
    ring

example : ∃ b dofs, huangZhang "equispaced" 2 = some (.ciarlet b dofs) ∧ dofs.length = 12 := by
  obtain ⟨b, dofs, fs, h1, -, h2, -⟩ := hz_created 2 le_rfl
  exact ⟨b, dofs, h1, h2⟩

end Verif.Families
