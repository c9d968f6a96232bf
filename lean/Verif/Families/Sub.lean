import Verif.Families.Trace
import Verif.Moments.Props
/-!
# The sub-elements, and the lists of moments
-/

namespace Verif.Families
open Verif.References Verif.Moments Verif.Functionals Verif.Elements Verif.FiniteElement Verif.Polysets Verif.Orthogonal
open MvPolynomial

/-- The basis functions of an element whose polynomials are determined by the functionals. -/
theorem ciarlet_basis {V : Type} [AddCommGroup V] [Module ℝ V] {basis : List V} {dofs : List (Dof ℝ V)}
    (hl : dofs.length = basis.length) (hi : Independent ℝ basis)
    (hu : ∀ p ∈ lspan basis, (∀ d ∈ dofs, d.eval p = 0) → p = 0) :
    ciarlet basis dofs = some (.ciarlet basis dofs) ∧
    ∃ fs, getBasis (.ciarlet basis dofs) = some fs ∧ lspan fs = lspan basis ∧ fs.length = basis.length := by
  refine ⟨if_pos hl, ?_⟩
  obtain ⟨fs, hfs⟩ := Option.isSome_iff_exists.1 (getBasis_isSome hl hi hu)
  exact ⟨fs, hfs, getBasis_ciarlet_span _ _ _ hfs, by rw [← hl]; exact (getBasis_ciarlet_dual _ _ _ hfs).1⟩

/-! ### Lagrange elements -/

/-- The points of a Lagrange element determine the polynomials, at every order. -/
theorem lagrange_determined {c : Cell} (hc : Simplex c) (v : ℕ → ℕ → ℝ) (hv : NonDegenerate c v) {k : ℕ} {l : List PointDof}
    (hl : lagrangeDofs "equispaced" c v k = some l) {p : MvPolynomial ℕ ℝ} (hp : p ∈ P c.tdim k)
    (hz : ∀ d ∈ l, eval d.point p = 0) : p = 0 := by
  have h1 : p.totalDegree ≤ k := by
    by_cases h0 : p = 0
    · rw [h0]; simp
    · exact_mod_cast (mem_P_iff.1 hp).1 h0
  obtain ⟨l', hl', hn⟩ := lagrange_count hc v k
  obtain rfl : l = l' := Option.some.inj (hl.symm.trans hl')
  rcases Nat.eq_zero_or_pos k with rfl | hk
  · have hC := totalDegree_eq_zero_iff_eq_C.1 (Nat.le_zero.1 h1)
    obtain ⟨d, hd⟩ : ∃ d, d ∈ l := List.exists_mem_of_ne_nil l (by rintro rfl; simp at hn)
    have := hz d hd
    rw [hC, eval_C] at this
    rw [hC, this, map_zero]
  · exact lagrange_unisolvent hc v hv hk hl p h1 (mem_P_iff.1 hp).2 hz

theorem simplex_dims {c : Cell} (hc : Simplex c) : c.tdim = 1 ∨ c.tdim = 2 ∨ c.tdim = 3 := by
  rcases hc with rfl | rfl | rfl <;> simp [Cell.tdim]

/-- The basis functions of a Lagrange element. -/
theorem lagrange_sub {t : Cell} (hc : Simplex t) (k : ℕ) :
    ∃ fs, scalarBasis (lagrangeElement "equispaced" t (refVertex t) k) = some (fs.map .scalar) ∧
      lspan fs = P t.tdim k ∧ fs.length = (k + t.tdim).choose t.tdim := by
  obtain ⟨l, hl, hn⟩ := lagrange_count hc (refVertex t) k
  obtain ⟨poly, hp, hsp⟩ := polySet_lspan (simplex_dims hc) (k : ℤ)
  have hlen : (l.map PointDof.functional).length = (poly.map (denoteMono ℝ)).length := by
    rw [List.length_map, List.length_map, hn, polySet_length _ _ _ hp]
  obtain ⟨h1, fs, h2, h3, h4⟩ := ciarlet_basis hlen ((scalar_sets_independent ℝ).1 _ _ _ hp) fun p hps hz => by
    rw [hsp] at hps
    refine lagrange_determined hc _ (nonDegenerate_ref hc) hl hps fun d hd => ?_
    rw [← eval_functional]
    exact hz _ (List.mem_map_of_mem hd)
  refine ⟨fs, ?_, h3.trans hsp, ?_⟩
  · simp only [scalarBasis, lagrangeElement, hl, hp, Option.bind_some, h1, h2, Option.map_some]
  · rw [h4, List.length_map, polySet_length _ _ _ hp]

theorem eval_dotDof {r : ℕ} (p : PointDof) (i : Fin r) (v : Field r) :
    (dotDof p fun j => if i = j then 1 else 0).eval v = eval p.point (v i) := by
  show (∑ j, (if i = j then (1 : ℝ) else 0) • (aeval p.point).toLinearMap ∘ₗ LinearMap.proj j) v = _
  rw [LinearMap.sum_apply, Finset.sum_eq_single i]
  · rw [if_pos rfl, one_smul, ← coe_aeval_eq_eval]; rfl
  · intro j _ hj
    rw [if_neg (Ne.symm hj), zero_smul, LinearMap.zero_apply]
  · intro h; exact absurd (Finset.mem_univ _) h

/-- Vector Lagrange elements can be created on every non-degenerate simplex, at every order, and their functions are all
vectors of polynomials. -/
theorem vectorLagrange_basis {c : Cell} (hc : Simplex c) (v : ℕ → ℕ → ℝ) (hv : NonDegenerate c v) (k : ℕ) :
    ∃ e fs, vectorLagrangeElement "equispaced" c v k = some e ∧ getBasis e = some fs ∧
      lspan fs = PV c.tdim c.tdim k ∧ fs.length = (k + c.tdim).choose c.tdim * c.tdim := by
  obtain ⟨l, hl, hn⟩ := lagrange_count hc v k
  obtain ⟨poly, hp, hsp⟩ := polySetVector_lspan (simplex_dims hc) c.tdim (k : ℤ)
  have hpl : poly.length = (k + c.tdim).choose c.tdim * c.tdim := by
    have hp' := hp
    rw [polySetVector, Option.map_eq_some_iff] at hp'
    obtain ⟨ps, hps, rfl⟩ := hp'
    rw [vectorSet_length, polySet_length _ _ _ hps]
  have hlen : (l.flatMap fun p => (List.finRange c.tdim).map fun i =>
      (dotDof p fun j => if i = j then 1 else 0 : Dof ℝ (Field c.tdim))).length = (poly.map (denoteVec ℝ c.tdim)).length := by
    rw [List.length_map, hpl, List.length_flatMap]
    simp [hn]
  obtain ⟨h1, fs, h2, h3, h4⟩ := ciarlet_basis hlen ((vector_sets_independent ℝ c.tdim).1 _ _ _ hp) fun u hu hz => by
    rw [hsp, mem_PV] at hu
    funext i
    refine lagrange_determined hc _ hv hl (hu i) fun d hd => ?_
    rw [← eval_dotDof]
    exact hz _ (List.mem_flatMap.2 ⟨d, hd, List.mem_map.2 ⟨i, List.mem_finRange i, rfl⟩⟩)
  refine ⟨_, fs, ?_, h2, h3.trans hsp, ?_⟩
  · simp only [vectorLagrangeElement, hl, hp, Option.bind_some, h1]
  · rw [h4, List.length_map, hpl]

/-! ### Lists of moments -/

/-- What the class of sub-elements gives for the data on a cell. -/
def subFuns (classes : String → ElementClass Fun) (d : Data) (t : Cell) : Option (List Fun) :=
  if d.order < (classes d.element).minOrder then some [] else (classes d.element).create t d.order d.kwargs

/-- The moments on the entities of a dimension when all entities have the same type. -/
theorem slot_uniform {classes : String → ElementClass Fun} {c t : Cell} {dim : ℕ} (h1 : 1 ≤ dim) (h3 : dim ≤ 3)
    (hd : dim ≤ c.tdim) (ht : c.subEntityTypes[dim]? = some (.all t)) {items : List Item} {d : Data}
    (hp : parse items = some d) {xs : List Fun} (hx : subFuns classes d t = some xs) :
    slotDofs classes c dim (some (.single items)) = some ((List.range (entityCount c dim)).flatMap fun i =>
      xs.map fun x => ⟨d.moment, x, (dim, i), d.mapping⟩) := by
  rw [slot_eq c dim h3, if_neg (by omega), if_neg (by omega), mapM_some_of _ (fun i : ℕ =>
    xs.map fun x => (⟨d.moment, x, (dim, i), d.mapping⟩ : MomentDof Fun))]
  · rw [List.flatMap_def, Option.map_some]
  · intro i _
    have ht' : c.subEntityType dim i = some t := by
      unfold Cell.subEntityType
      rw [ht]
    rw [Moments.entityDofs, ht', Option.bind_some, extract, hp, Option.bind_some]
    unfold subFuns at hx
    split_ifs at hx ⊢
    · cases hx; rfl
    · rw [hx]; rfl

/-- An element defined by moments, from the list of its moments. -/
theorem momentElement_basis {classes : String → ElementClass Fun} {c : Cell} {poly : Option (List VecPoly)} {args : Args}
    {pl : List VecPoly} (hpoly : poly = some pl) {ms : List (MomentDof Fun)} (hms : makeIntegralMomentDofs classes c args = some ms)
    {dofs : List (Dof ℝ (Field c.tdim))} (hdofs : ms.mapM (momentDof c) = some dofs)
    (hlen : ms.length = pl.length) (hi : Independent ℝ (pl.map (denoteVec ℝ c.tdim)))
    (hu : ∀ v ∈ lspan (pl.map (denoteVec ℝ c.tdim)), (∀ d ∈ dofs, d.eval v = 0) → v = 0) :
    ∃ fs, momentElement classes c poly args = some (.ciarlet (pl.map (denoteVec ℝ c.tdim)) dofs) ∧
      getBasis (.ciarlet (pl.map (denoteVec ℝ c.tdim)) dofs) = some fs ∧ lspan fs = lspan (pl.map (denoteVec ℝ c.tdim)) ∧
      fs.length = pl.length := by
  have hl : dofs.length = (pl.map (denoteVec ℝ c.tdim)).length := by
    rw [List.length_map, ← hlen]
    exact ((mapM_forall hdofs).length_eq).symm
  obtain ⟨h1, fs, h2, h3, h4⟩ := ciarlet_basis hl hi hu
  refine ⟨fs, ?_, h2, h3, by rw [h4, List.length_map]⟩
  simp only [momentElement, hpoly, hms, hdofs, Option.bind_some, h1]

/-- The functional of a moment in the list. -/
theorem momentDof_mem {c : Cell} {ms : List (MomentDof Fun)} {dofs : List (Dof ℝ (Field c.tdim))}
    (hdofs : ms.mapM (momentDof c) = some dofs) {m : MomentDof Fun} (hm : m ∈ ms) : ∃ d ∈ dofs, momentDof c m = some d :=
  forall₂_mem_right (mapM_forall hdofs) hm

/-- All functionals exist if each does. -/
theorem mapM_exists {A B : Type} {f : A → Option B} {l : List A} (h : ∀ a ∈ l, ∃ b, f a = some b) :
    ∃ r, l.mapM f = some r := by
  induction l with
  | nil => exact ⟨[], rfl⟩
  | cons a l ih =>
    obtain ⟨b, hb⟩ := h a (by simp)
    obtain ⟨r, hr⟩ := ih fun a ha => h a (by simp [ha])
    exact ⟨b :: r, by rw [List.mapM_cons, hb, hr]; rfl⟩

/-- The sub-elements used in the moments, for a parsed argument. -/
theorem sub_lagrange {t : Cell} (ht : Simplex t) {classes : String → ElementClass Fun} (hc : classes "Lagrange" = lagrangeClass)
    (moment : String) (k : ℤ) (mapping : Option String) :
    ∃ fs, subFuns classes ⟨moment, "Lagrange", k, mapping, [("variant", "equispaced")]⟩ t = some (fs.map .scalar) ∧
      lspan fs = P t.tdim k ∧ fs.length = if k < 0 then 0 else (k.toNat + t.tdim).choose t.tdim := by
  unfold subFuns
  simp only [hc, show lagrangeClass.minOrder = 0 from rfl]
  by_cases hk : k < 0
  · refine ⟨[], by rw [if_pos hk]; rfl, ?_, by rw [if_pos hk]; rfl⟩
    rw [lspan, show {v : MvPolynomial ℕ ℝ | v ∈ ([] : List _)} = ∅ by ext; simp, Submodule.span_empty, eq_comm, eq_bot_iff]
    exact fun p hp => by rw [P_neg hk hp]; exact Submodule.zero_mem _
  · obtain ⟨fs, h1, h2, h3⟩ := lagrange_sub ht k.toNat
    refine ⟨fs, ?_, ?_, ?_⟩
    · rw [if_neg hk]; exact h1
    · rw [h2, Int.toNat_of_nonneg (by omega)]
    · rw [h3, if_neg hk]

theorem PV_neg {d r : ℕ} {k : ℤ} (hk : k < 0) : lspan ([] : List (Fin r → MvPolynomial ℕ ℝ)) = PV d r k := by
  rw [lspan, show {v : Fin r → MvPolynomial ℕ ℝ | v ∈ ([] : List _)} = ∅ by ext; simp, Submodule.span_empty, eq_comm, eq_bot_iff]
  intro v hv
  rw [show v = 0 from funext fun i => P_neg hk (mem_PV.1 hv i)]
  exact Submodule.zero_mem _

theorem sub_vectorLagrange {t : Cell} (ht : Simp t) {classes : String → ElementClass Fun}
    (hc : classes "VectorLagrange" = vectorLagrangeClass) (moment : String) (k : ℤ) (mapping : Option String) :
    ∃ fs, subFuns classes ⟨moment, "VectorLagrange", k, mapping, [("variant", "equispaced")]⟩ t = some (fs.map (.vector t.tdim)) ∧
      lspan fs = PV t.tdim t.tdim k ∧ fs.length = if k < 0 then 0 else (k.toNat + t.tdim).choose t.tdim * t.tdim := by
  unfold subFuns
  simp only [hc, show vectorLagrangeClass.minOrder = 0 from rfl]
  by_cases hk : k < 0
  · exact ⟨[], by rw [if_pos hk]; rfl, PV_neg hk, by rw [if_pos hk]; rfl⟩
  · have hs : Simplex t := by rcases ht with rfl | rfl <;> simp [Simplex]
    obtain ⟨e, fs, h0, h1, h2, h3⟩ := vectorLagrange_basis hs _ (nonDegenerate_ref hs) k.toNat
    have ht1 : ¬ t.tdim = 1 := by rcases ht with rfl | rfl <;> decide
    refine ⟨fs, ?_, ?_, ?_⟩
    · rw [if_neg hk]
      show (if t.tdim = 1 then _ else vectorBasis (vectorLagrangeElement "equispaced" t (refVertex t) k.toNat)) = _
      rw [if_neg ht1, vectorBasis, h0, Option.bind_some, h1]
      rfl
    · rw [h2, Int.toNat_of_nonneg (by omega)]
    · rw [h3, if_neg hk]

end Verif.Families
