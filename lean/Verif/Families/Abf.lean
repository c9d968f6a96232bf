import Verif.Families.Trimmed
/-!
# Arnold–Boffi–Falk elements

`ArnoldBoffiFalk` on quadrilaterals (symfem/elements/abf.py).
-/

namespace Verif.Families
open Verif.References Verif.Moments Verif.Functionals Verif.Elements Verif.FiniteElement Verif.Polysets Verif.Orthogonal
open MvPolynomial

/-! ### Model -/

/-- Exponents below `m` in the variable of the component and below `n` in the other variable, in the order of the lists in
symfem/elements/abf.py:42-44 and symfem/elements/huang_zhang.py:45-54, with the numbers of their components. -/
def boxKeys (m n : ℕ) : List (ℕ × Mono) :=
  ((List.range m).flatMap fun i : ℕ => (List.range n).map fun j : ℕ => (0, [i, j])) ++
  (List.range n).flatMap fun i : ℕ => (List.range m).map fun j : ℕ => (1, [i, j])

/-- The polynomials (symfem/elements/abf.py:42-44). -/
def abfSet (k : ℕ) : List VecPoly := (boxKeys (k + 3) (k + 1)).map fun t => unitVec 2 t.1 (monoPoly t.2)

/-- The value of `IntegralOfDivergenceAgainst`: the divergence at the points of the entity, times `f`, integrated. -/
noncomputable def divMap (D : Domain) (J : ℝ) (f : MvPolynomial ℕ ℝ) : Field D.g →ₗ[ℝ] ℝ :=
  J • (pairing1 D.cell f ∘ₗ (aeval (coordPoly D)).toLinearMap ∘ₗ divL D.g)

/-- `IntegralOfDivergenceAgainst(reference, f, entity, mapping)` (symfem/functionals.py:1042-1100). -/
noncomputable def divAgainstDof (c : Cell) (e : ℕ × ℕ) (mapping : String) (f : MvPolynomial ℕ ℝ) : Option (Dof ℝ (Field c.tdim)) :=
  (jacobian (entityDomain c e).cell c.tdim (entityDomain c e).v).map fun J => ⟨15, e, some mapping, divMap (entityDomain c e) J f⟩

/-- The monomials whose moments with the divergence are used (symfem/elements/abf.py:52-68). -/
def abfMonos (k : ℕ) : List Mono := (List.range (k + 1)).flatMap fun i : ℕ => [[k + 1, i], [i, k + 1]]

/-- The classes used: `Lagrange` and the `Nedelec` of `symfem/elements/q.py`, with at most `n` elements nested. -/
noncomputable def abfClasses (n : ℕ) (name : String) : ElementClass Fun := if name = "Lagrange" then lagrangeClass else qClasses n name

/-- `ArnoldBoffiFalk(reference, order, variant)` (symfem/elements/abf.py:31-71). -/
noncomputable def abf (variant : String) (k : ℕ) : Option (Element ℝ (Field Cell.quadrilateral.tdim)) :=
  momentElementWith (abfClasses (k + 1)) .quadrilateral (some (abfSet k))
    { edges := some (.single [.cls "NormalIntegralMoment", .cls "Lagrange", .int (k : ℤ), .dict [("variant", variant)]])
      faces := some (.single [.cls "IntegralMoment", .cls "Nedelec", .int (k : ℤ), .dict [("variant", variant)]]) }
    ((abfMonos k).mapM fun m => divAgainstDof .quadrilateral (2, 0) "contravariant" (denoteMono ℝ m))

/-! ### The space -/

/-- The Arnold–Boffi–Falk space: component `i` has degree at most `k + 2` in `x_i` and at most `k` in the other variable. -/
def ABF (k : ℕ) (v : Field 2) : Prop := ∀ i : Fin 2, v i ∈ B (degs 2 i ((k : ℤ) + 2) k)

theorem ABF.mem {k : ℕ} {v : Field 2} (h : ABF k v) (i : Fin 2) : v i ∈ P 2 ((2 : ℕ) * ((k : ℤ) + 2)) :=
  B_P (fun j hj => by unfold degs; split_ifs <;> omega) (fun j hj => by unfold degs; split_ifs <;> omega) (h i)

theorem mem_boxKeys {m n : ℕ} {a : ℕ × Mono} :
    a ∈ boxKeys m n ↔ a.1 < 2 ∧ a.2.length = 2 ∧ ∀ j < 2, a.2.getD j 0 < if j = a.1 then m else n := by
  obtain ⟨c, t⟩ := a
  simp only [boxKeys, List.mem_append, List.mem_flatMap, List.mem_map, List.mem_range, Prod.mk.injEq]
  constructor
  · rintro (⟨i, hi, j, hj, rfl, rfl⟩ | ⟨i, hi, j, hj, rfl, rfl⟩)
    · refine ⟨by omega, rfl, fun l hl => ?_⟩
      interval_cases l <;> simp <;> omega
    · refine ⟨by omega, rfl, fun l hl => ?_⟩
      interval_cases l <;> simp <;> omega
  · rintro ⟨hc, hl, h⟩
    obtain ⟨p, q, rfl⟩ := List.length_eq_two.1 hl
    have h0 := h 0 (by omega)
    have h1 := h 1 (by omega)
    interval_cases c
    · simp at h0 h1
      exact Or.inl ⟨p, by omega, q, by omega, rfl, rfl⟩
    · simp at h0 h1
      exact Or.inr ⟨p, by omega, q, by omega, rfl, rfl⟩

theorem nodup_boxKeys (m n : ℕ) : (boxKeys m n).Nodup := by
  unfold boxKeys
  rw [List.nodup_append]
  refine ⟨?_, ?_, ?_⟩
  · refine nodup_flatMap_of_key (key := fun b => b.2.getD 0 0) (k := fun i => i) Function.injective_id List.nodup_range
      (fun i _ => List.nodup_range.map (by intro a b h; simpa using h)) fun i _ b hb => ?_
    obtain ⟨j, -, rfl⟩ := List.mem_map.1 hb
    rfl
  · refine nodup_flatMap_of_key (key := fun b => b.2.getD 0 0) (k := fun i => i) Function.injective_id List.nodup_range
      (fun i _ => List.nodup_range.map (by intro a b h; simpa using h)) fun i _ b hb => ?_
    obtain ⟨j, -, rfl⟩ := List.mem_map.1 hb
    rfl
  · intro a ha b hb
    simp only [List.mem_flatMap, List.mem_map] at ha hb
    obtain ⟨_, -, _, -, rfl⟩ := ha
    obtain ⟨_, -, _, -, rfl⟩ := hb
    simp

theorem boxKeys_independent (m n : ℕ) :
    Independent ℝ (((boxKeys m n).map fun t => unitVec 2 t.1 (monoPoly t.2)).map (denoteVec ℝ 2)) :=
  independent_units ℝ 2 2 _ (nodup_boxKeys m n) (fun _ ha => (mem_boxKeys.1 ha).1) fun _ ha => (mem_boxKeys.1 ha).2.1

theorem boxKeys_lspan (m n : ℕ) (v : Field 2) :
    v ∈ lspan (((boxKeys m n).map fun t => unitVec 2 t.1 (monoPoly t.2)).map (denoteVec ℝ 2)) ↔
      ∀ i : Fin 2, v i ∈ B (degs 2 i ((m : ℤ) - 1) ((n : ℤ) - 1)) := by
  refine (single_lspan (bd := fun i j => if j = i then (m : ℤ) - 1 else (n : ℤ) - 1) (fun q => ?_) v).trans Iff.rfl
  rw [mem_map_units ℝ 2 _ fun a ha => (mem_boxKeys.1 ha).1]
  refine exists_congr fun i => exists_congr fun t => ?_
  rw [mem_boxKeys, and_assoc, and_assoc, and_iff_right i.2]
  refine and_congr_right fun _ => and_congr_left fun _ => forall_congr' fun j => forall_congr' fun _ => ?_
  simp only
  split_ifs <;> omega

theorem length_abfSet (k : ℕ) : (abfSet k).length = 2 * (k + 1) * (k + 3) := by
  simp [abfSet, boxKeys, List.length_flatMap]
  ring

theorem abf_lspan (k : ℕ) (v : Field 2) : v ∈ lspan ((abfSet k).map (denoteVec ℝ 2)) ↔ ABF k v := by
  rw [abfSet, boxKeys_lspan]
  have e : ((k + 3 : ℕ) : ℤ) - 1 = k + 2 := by push_cast; ring
  have e' : ((k + 1 : ℕ) : ℤ) - 1 = k := by push_cast; ring
  rw [e, e']
  exact Iff.rfl

/-! ### Creation -/

/-- A polynomial that is orthogonal to itself is zero. -/
theorem pairing1_self {c : Cell} (hc : Box c) {k : ℤ} {p : MvPolynomial ℕ ℝ} (hp : p ∈ P c.tdim k) (h : pairing1 c p p = 0) : p = 0 := by
  have h1 : cellInt c (fun z => eval z (∑ i : Fin 1, 1 * p ^ 2)) = 0 := by
    refine Eq.trans ?_ h
    rw [Fin.sum_univ_one, one_mul, pow_two]
    rfl
  exact squares_zero hc.solid (fun _ : Fin 1 => 1) (fun _ z _ => by simp) (fun _ z _ => by simp) (fun _ => p) (fun _ => hp) h1 0

/-- An element with moments of the normal components on the facets, moments in the cell and other functionals. -/
theorem box_created_with {classes : String → ElementClass Fun} {c : Cell} (hc : Box c) {pl : List VecPoly}
    (hi : Independent ℝ (pl.map (denoteVec ℝ c.tdim))) {S : Field c.tdim → Prop}
    (hS : ∀ v, v ∈ lspan (pl.map (denoteVec ℝ c.tdim)) ↔ S v) {k : ℤ} (hk : ∀ v, S v → ∀ j, v j ∈ P c.tdim k)
    {args : Args} {mA mB : Option String} {xs : List (MvPolynomial ℕ ℝ)} {ys : List (Field c.tdim)}
    (hms : makeIntegralMomentDofs classes c args = some (boxMoments c mA mB xs ys)) {ex : List (Dof ℝ (Field c.tdim))}
    (hT : ∀ v, S v → ∀ (i : ℕ) (hi : i < 2 * c.tdim),
      pull (entityDomain c (c.tdim - 1, i)) (v ⟨qAxis c.tdim i, qAxis_lt hi⟩) ∈ lspan xs)
    (hz : ∀ v, S v → (∀ (i : Fin c.tdim) (z : ℕ → ℝ), z i.val = 0 ∨ z i.val = 1 → eval z (v i) = 0) →
      (∀ y ∈ lspan ys, pairing c v y = 0) → (∀ d ∈ ex, d.eval v = 0) → v = 0)
    (hlen : 2 * c.tdim * xs.length + ys.length + ex.length = pl.length) :
    Created (momentElementWith classes c (some pl) args (some ex)) S pl.length (QNormalTrace c S) := by
  obtain ⟨dofs, hdofs⟩ := box_dofs hc mA mB xs ys
  have htr : QNormalTrace c S (dofs ++ ex) := box_trace hc hdofs ex hk hT
  have hu : ∀ v, S v → (∀ d ∈ dofs ++ ex, d.eval v = 0) → v = 0 := fun v hv h =>
    hz v hv (box_normalZero fun i hi => htr i hi v hv fun d hd _ => h d hd)
      (fun y hy => box_pairing hc hdofs (hk v hv) (fun d hd => h d (List.mem_append_left _ hd)) hy)
      fun d hd => h d (List.mem_append_right _ hd)
  have hll : (dofs ++ ex).length = (pl.map (denoteVec ℝ c.tdim)).length := by
    rw [List.length_append, List.length_map, ← (mapM_forall hdofs).length_eq, boxMoments_length, hlen]
  obtain ⟨h1, fs, h2, h3, h4⟩ := ciarlet_basis hll hi fun v hv => hu v ((hS v).1 hv)
  refine ⟨_, dofs ++ ex, fs, ?_, h2, by rw [hll, List.length_map], by rw [h4, List.length_map], fun v => by rw [h3, hS], hu, htr⟩
  unfold momentElementWith
  rw [hms, Option.bind_some, Option.bind_some, hdofs, Option.bind_some, Option.bind_some, h1]

/-- The functionals with the divergence. -/
theorem divAgainst_cell {c : Cell} (hc : Box c) (f : MvPolynomial ℕ ℝ) (mp : String) :
    ∃ d, divAgainstDof c (c.tdim, 0) mp f = some d ∧ d.entity = (c.tdim, 0) ∧
      ∀ (v : Field c.tdim) (k : ℤ), (∀ j, v j ∈ P c.tdim k) → d.eval v = pairing1 c (divergence ℝ v) f := by
  unfold divAgainstDof
  rw [box_jacobian hc, Option.map_some]
  refine ⟨_, rfl, rfl, fun v k hv => ?_⟩
  have hcell : (entityDomain c (c.tdim, 0)).cell = c := by rcases hc with rfl | rfl <;> rfl
  have h1 : divL c.tdim v ∈ P c.tdim (k - 1) := divL_mem hv
  show (1 : ℝ) • pairing1 (entityDomain c (c.tdim, 0)).cell f (pull (entityDomain c (c.tdim, 0)) (divL c.tdim v)) = _
  rw [one_smul, hcell, ← divL_apply]
  show cellInt c _ = cellInt c _
  congr 1
  funext z
  rw [map_mul, map_mul, mul_comm, eval_pull, eval_congr_P h1 fun l hl => box_param hc z hl]

/-- The moments on the edges and in the cell of a quadrilateral. -/
theorem quad_moments {classes : String → ElementClass Fun} {A B : List Item} {dA dB : Data}
    (hA : parse A = some dA) (hB : parse B = some dB) {xs : List (MvPolynomial ℕ ℝ)} {ys : List (Field 2)}
    (hx : subFuns classes dA .interval = some (xs.map .scalar)) (hy : subFuns classes dB .quadrilateral = some (ys.map (.vector 2)))
    (hAm : dA.moment = "NormalIntegralMoment") (hBm : dB.moment = "IntegralMoment") :
    makeIntegralMomentDofs classes .quadrilateral { edges := some (.single A), faces := some (.single B) } =
      some (boxMoments .quadrilateral dA.mapping dB.mapping xs ys) := by
  have e0 : ∀ dim : ℤ, slotDofs classes .quadrilateral dim none = some [] := fun _ => rfl
  have h1 : slotDofs classes .quadrilateral 1 (some (.single A)) = some ((List.range (2 * 2)).flatMap fun i =>
      (xs.map Fun.scalar).map fun x => ⟨dA.moment, x, (1, i), dA.mapping⟩) :=
    slot_uniform (dim := 1) (by omega) (by omega) (by decide) rfl hA hx
  have h2 : slotDofs classes .quadrilateral 2 (some (.single B)) = some ((ys.map (Fun.vector 2)).map fun y => ⟨dB.moment, y, (2, 0), dB.mapping⟩) := by
    refine (slot_uniform (c := .quadrilateral) (t := .quadrilateral) (dim := 2) (by omega) (by omega) (by decide) rfl hB hy).trans ?_
    simp [show entityCount .quadrilateral 2 = 1 from rfl]
  unfold makeIntegralMomentDofs slots
  simp only [List.mapM_cons, List.mapM_nil, e0, h1, h2, Option.bind_eq_bind, Option.bind_some, Option.pure_def, Option.map_some,
    List.flatten_cons, List.flatten_nil, List.nil_append, List.append_nil]
  simp only [boxMoments, hAm, hBm, List.map_map, Function.comp_def]
  rfl

/-- The sub-element of the moments in the cell. -/
theorem sub_nedelec (k : ℕ) :
    ∃ ys, subFuns (abfClasses (k + 1)) ⟨"IntegralMoment", "Nedelec", (k : ℤ), none, [("variant", "equispaced")]⟩ .quadrilateral =
      some (ys.map (.vector 2)) ∧ (∀ q, NCQ 2 k q → q ∈ lspan ys) ∧ ys.length = ncqCount 2 k := by
  cases k with
  | zero =>
    refine ⟨[], rfl, fun q hq => ?_, rfl⟩
    rw [ncq_neg (by norm_num) hq]
    exact Submodule.zero_mem _
  | succ k =>
    obtain ⟨b, d, fs, h1, h2, -, h3, h4, -⟩ := (q_families (variant := "equispaced") k (k + 1) le_rfl (points_equispaced k)).2.1
    refine ⟨fs, ?_, fun q hq => (h4 q).2 hq, h3⟩
    unfold subFuns
    rw [if_neg (by simp [abfClasses, qClasses])]
    show vectorBasis (ncqWith (qClasses (k + 1)) "equispaced" .quadrilateral (k + 1)) = _
    rw [h1, vectorBasis, Option.bind_some, h2]
    rfl

/-- The monomials in the moments of the divergence. -/
theorem mem_abfMonos {k : ℕ} {m : Mono} : m ∈ abfMonos k ↔ ∃ i ≤ k, m = [k + 1, i] ∨ m = [i, k + 1] := by
  simp [abfMonos, Nat.lt_succ_iff]

theorem coeff_B {F : ℕ → ℤ} {p : MvPolynomial ℕ ℝ} (hp : p ∈ B F) {t : ℕ →₀ ℕ} {i : ℕ} (h : F i < t i) : coeff t p = 0 := by
  by_contra hc
  have := mem_B.1 hp t (mem_support_iff.2 hc) i
  omega

/-- A function with no normal components and no moments is zero. -/
theorem abf_zero {k : ℕ} {v : Field 2} (hv : ABF k v) (hn : ∀ (i : Fin 2) (z : ℕ → ℝ), z i.val = 0 ∨ z i.val = 1 → eval z (v i) = 0)
    (h1 : ∀ q, NCQ 2 k q → pairing .quadrilateral v q = 0)
    (h2 : ∀ m ∈ abfMonos k, pairing1 .quadrilateral (divergence ℝ v) (denoteMono ℝ m) = 0) : v = 0 := by
  have hc : Box .quadrilateral := Or.inl rfl
  have hd0 : pderiv 0 (v 0) ∈ B (degs 2 0 ((k : ℤ) + 1) k) := by
    refine mem_B.2 fun t ht i => ?_
    rw [mem_support_iff, coeff_pderiv] at ht
    have := mem_B.1 (hv 0) _ (mem_support_iff.2 (left_ne_zero_of_mul ht)) i
    rw [Finsupp.add_apply, Finsupp.single_apply] at this
    simp only [degs, Fin.val_zero] at this ⊢
    split_ifs at this ⊢ <;> omega
  have hd1 : pderiv 1 (v 1) ∈ B (degs 2 1 ((k : ℤ) + 1) k) := by
    refine mem_B.2 fun t ht i => ?_
    rw [mem_support_iff, coeff_pderiv] at ht
    have := mem_B.1 (hv 1) _ (mem_support_iff.2 (left_ne_zero_of_mul ht)) i
    rw [Finsupp.add_apply, Finsupp.single_apply] at this
    simp only [degs, Fin.val_one] at this ⊢
    split_ifs at this ⊢ <;> omega
  have hdiv : divergence ℝ v = pderiv 0 (v 0) + pderiv 1 (v 1) := by simp [divergence, Fin.sum_univ_two]
  -- the divergence has no moments with the monomials it can have
  have key : ∀ m : Mono, m.length = 2 → (∀ j < 2, m.getD j 0 ≤ k + 1) → (m.getD 0 0 ≤ k ∨ m.getD 1 0 ≤ k) →
      pairing1 .quadrilateral (divergence ℝ v) (denoteMono ℝ m) = 0 := by
    intro m hl hj hk
    obtain ⟨a, b, rfl⟩ := List.length_eq_two.1 hl
    have ha := hj 0 (by omega)
    have hb := hj 1 (by omega)
    simp at ha hb hk
    by_cases e0 : a = k + 1
    · exact h2 _ (mem_abfMonos.2 ⟨b, by omega, Or.inl (by rw [e0])⟩)
    by_cases e1 : b = k + 1
    · exact h2 _ (mem_abfMonos.2 ⟨a, by omega, Or.inr (by rw [e1])⟩)
    have h3 : denoteMono ℝ [a, b] ∈ P 2 ((a + b : ℕ) : ℤ) := denoteMono_mem rfl (by simp)
    have h4 := box_parts (c := .quadrilateral) (v := v) hc hv.mem hn h3
    refine neg_eq_zero.1 (h4.symm.trans (h1 _ fun i => ?_))
    have hB : denoteMono ℝ [a, b] ∈ B (degs 2 0 (k : ℤ) k) := denoteMono_B (d := 2) rfl (fun j hj => by
      interval_cases j <;> simp [degs] <;> omega) fun j hj => by simp [degs]; omega
    refine mem_B.2 fun t ht j => ?_
    have ht' : coeff t (pderiv i.val (denoteMono ℝ [a, b])) ≠ 0 := mem_support_iff.1 ht
    rw [coeff_pderiv] at ht'
    have := mem_B.1 hB _ (mem_support_iff.2 (left_ne_zero_of_mul ht')) j
    rw [Finsupp.add_apply, Finsupp.single_apply] at this
    simp only [degs] at this ⊢
    split_ifs at this ⊢ <;> omega
  have hg : ∀ q, q ∈ B (degs 2 0 ((k : ℤ) + 1) k) ∨ q ∈ B (degs 2 1 ((k : ℤ) + 1) k) → pairing1 .quadrilateral (divergence ℝ v) q = 0 := by
    rintro q (hq | hq)
    · refine (Submodule.mem_bot ℝ).1 (B_le (d := 2) (pairing1 .quadrilateral (divergence ℝ v)) ⊥ (fun j hj => by simp [degs]; omega)
        (fun m hl hm => (Submodule.mem_bot ℝ).2 (key m hl (fun j hj => ?_) (Or.inr ?_))) hq)
      · have := hm j hj
        simp only [degs] at this
        split_ifs at this <;> omega
      · have := hm 1 (by omega)
        simp [degs] at this
        simpa using this
    · refine (Submodule.mem_bot ℝ).1 (B_le (d := 2) (pairing1 .quadrilateral (divergence ℝ v)) ⊥ (fun j hj => by simp [degs]; omega)
        (fun m hl hm => (Submodule.mem_bot ℝ).2 (key m hl (fun j hj => ?_) (Or.inl ?_))) hq)
      · have := hm j hj
        simp only [degs] at this
        split_ifs at this <;> omega
      · have := hm 0 (by omega)
        simp [degs] at this
        simpa using this
  have h0 : divergence ℝ v = 0 := by
    have hP : divergence ℝ v ∈ P 2 ((2 : ℕ) * ((k : ℤ) + 2) - 1) := by
      rw [← divL_apply]
      exact divL_mem hv.mem
    refine pairing1_self (c := .quadrilateral) hc hP ?_
    conv_lhs => rw [show pairing1 .quadrilateral (divergence ℝ v) (divergence ℝ v) =
      pairing1 .quadrilateral (divergence ℝ v) (pderiv 0 (v 0)) + pairing1 .quadrilateral (divergence ℝ v) (pderiv 1 (v 1)) by
        rw [← map_add, ← hdiv]]
    rw [hg _ (Or.inl hd0), hg _ (Or.inr hd1), add_zero]
  rw [hdiv] at h0
  have hR : RTQ 2 ((k : ℤ) + 1) v := by
    intro i
    refine mem_B.2 fun t ht j => ?_
    have hb := mem_B.1 (hv i) t ht
    have hbj := hb j
    have hb0 := hb 0
    have hb1 := hb 1
    rw [mem_support_iff] at ht
    by_contra hcon
    push Not at hcon
    have hi := i.2
    simp only [degs] at hbj hcon hb0 hb1
    have hji : j = i.val := by
      by_contra hne
      simp only [hne, if_false] at hbj hcon
      split_ifs at hbj hcon <;> omega
    subst hji
    rw [if_pos hi, if_pos rfl] at hbj hcon
    obtain ⟨s, hs⟩ : ∃ s : ℕ →₀ ℕ, t = s + Finsupp.single i.val 1 :=
      ⟨t - Finsupp.single i.val 1, (tsub_add_cancel_of_le (Finsupp.single_le_iff.2 (by omega))).symm⟩
    have hc0 := congrArg (coeff s) h0
    rw [coeff_add, coeff_zero] at hc0
    have hsi : (k : ℤ) < s i.val := by
      have := congrArg (fun f => f i.val) hs
      simp at this
      omega
    fin_cases i
    · rw [coeff_B hd1 (i := 0) (by simpa [degs] using hsi), add_zero, coeff_pderiv, mul_eq_zero] at hc0
      rcases hc0 with hc0 | hc0
      · exact ht (by rw [hs]; exact hc0)
      · exact absurd hc0 (by positivity)
    · rw [coeff_B hd0 (i := 1) (by simpa [degs] using hsi), zero_add, coeff_pderiv, mul_eq_zero] at hc0
      rcases hc0 with hc0 | hc0
      · exact ht (by rw [hs]; exact hc0)
      · exact absurd hc0 (by positivity)
  exact rtq_zero (c := .quadrilateral) hc hR hn fun q hq => h1 q (by rwa [add_sub_cancel_right] at hq)

theorem degs_pull {k : ℕ} {v : Field 2} (hv : ABF k v) {i : ℕ} (hi : i < 4) :
    pull (entityDomain .quadrilateral (1, i)) (v ⟨qAxis 2 i, qAxis_lt hi⟩) ∈ P 1 (k : ℤ) := by
  obtain ⟨F1, F2, -⟩ := box_facet (c := .quadrilateral) (Or.inl rfl) (i := i) hi
  have hd : (entityDomain .quadrilateral (1, i)).cell.tdim = 1 := by
    refine (congrArg Cell.tdim F1).trans ?_
    rfl
  have h1 := F2.aligned.pull (F := degs 2 (qAxis 2 i) ((k : ℤ) + 2) k) (G := fun j => if j < 1 then (k : ℤ) else 0)
    (fun m => by split_ifs <;> omega) (fun l hl => ?_) (hv ⟨qAxis 2 i, qAxis_lt hi⟩)
  · have := B_P (d := 1) (k := (k : ℤ)) (fun i hi => by rw [if_pos hi]) (fun i hi => by rw [if_neg (by omega)]) h1
    rwa [Nat.cast_one, one_mul] at this
  · have hl1 : l < 1 := hl.trans_eq hd
    have := skip_ne (qAxis 2 i) l
    have h2 : skip (qAxis 2 i) l < 2 := skip_lt (qAxis_lt hi) (by omega)
    show degs 2 (qAxis 2 i) ((k : ℤ) + 2) k (skip (qAxis 2 i) l) ≤ if l < 1 then (k : ℤ) else 0
    rw [if_pos hl1, degs, if_pos h2, if_neg this]

/-- **C132.** Arnold–Boffi–Falk elements: at every order, the element can be created, it has `2 (k + 1) (k + 3)` functionals, its
basis functions span the Arnold–Boffi–Falk space, the functionals determine the functions, and the functionals of an edge
determine the normal component on that edge. -/
theorem abf_created (k : ℕ) :
    Created (abf "equispaced" k) (ABF k) (2 * (k + 1) * (k + 3)) (QNormalTrace .quadrilateral (ABF k)) := by
  have hc : Box .quadrilateral := Or.inl rfl
  obtain ⟨xs, hx, hxs, hxl⟩ := sub_lagrange (t := .interval) (by simp [Simplex]) (classes := abfClasses (k + 1)) rfl
    "NormalIntegralMoment" (k : ℤ) none
  obtain ⟨ys, hy, hys, hyl⟩ := sub_nedelec k
  have hms := quad_moments (classes := abfClasses (k + 1))
    (A := [.cls "NormalIntegralMoment", .cls "Lagrange", .int (k : ℤ), .dict [("variant", "equispaced")]])
    (B := [.cls "IntegralMoment", .cls "Nedelec", .int (k : ℤ), .dict [("variant", "equispaced")]]) rfl rfl hx hy rfl rfl
  obtain ⟨ex, hex⟩ := mapM_exists (f := fun m => divAgainstDof .quadrilateral (2, 0) "contravariant" (denoteMono ℝ m))
    (l := abfMonos k) fun m _ => by
      obtain ⟨d, hd, -⟩ := divAgainst_cell hc (denoteMono ℝ m) "contravariant"
      exact ⟨d, hd⟩
  have hexl : ex.length = 2 * (k + 1) := by
    rw [← (mapM_forall hex).length_eq]
    simp [abfMonos, List.length_flatMap]
    ring
  have := box_created_with (classes := abfClasses (k + 1)) hc (pl := abfSet k) (boxKeys_independent _ _) (S := ABF k) (abf_lspan k)
    (fun v hv => ABF.mem hv) hms (ex := ex) (fun v hv i hi => by rw [hxs]; exact degs_pull hv hi) (fun v hv hn hp hd => ?_) ?_
  · unfold abf
    rw [hex]
    rw [length_abfSet] at this
    exact this
  · refine abf_zero hv hn (fun q hq => hp q (hys q hq)) fun m hm => ?_
    obtain ⟨d, hd1, he⟩ := forall₂_mem_right (mapM_forall hex) hm
    obtain ⟨d', hd', -, h2⟩ := divAgainst_cell hc (denoteMono ℝ m) "contravariant"
    obtain rfl := Option.some.inj (hd'.symm.trans he)
    exact (h2 v _ (ABF.mem hv)).symm.trans (hd d' hd1)
  · have hyl' : List.length (α := Field Cell.quadrilateral.tdim) ys = ncqCount 2 k := hyl
    rw [length_abfSet, hxl, hyl', hexl, if_neg (by omega), Int.toNat_natCast]
    have h1 : (k + Cell.interval.tdim).choose Cell.interval.tdim = k + 1 := Nat.choose_one_right _
    rw [h1]
    show 2 * 2 * (k + 1) + ncqCount 2 k + 2 * (k + 1) = _
    simp only [ncqCount]
    ring

example : ∃ b dofs, abf "equispaced" 0 = some (.ciarlet b dofs) ∧ dofs.length = 6 := by
  obtain ⟨b, dofs, fs, h1, -, h2, -⟩ := abf_created 0
  exact ⟨b, dofs, h1, h2⟩

end Verif.Families
