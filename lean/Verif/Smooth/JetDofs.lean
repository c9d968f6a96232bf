import Verif.Smooth.MultiDeriv
/-!
# Functionals with rational data, up to a factor

The functionals of entities are multiples of weighted sums of derivatives at points. Spaces, unisolvence and the (lack of) continuity of
elements follow from computations with these.
-/

namespace Verif.Smooth
open Verif.References Verif.Moments Verif.Functionals Verif.Elements Verif.FiniteElement Verif.Polysets Verif.Orthogonal
open Verif.Families Verif.Scalar
open MvPolynomial

/-- The functional is associated with this entity and, on polynomials of degree `k`, it is a multiple of this sum of derivatives. -/
def IsJet (m : ℕ) (k : ℤ) (d : Dof ℝ (MvPolynomial ℕ ℝ)) (g : (ℕ × ℕ) × Jet) : Prop :=
  d.entity = g.1 ∧ ∃ t : ℝ, t ≠ 0 ∧ ∀ f ∈ P m k, d.eval f = t * jetMap g.2 f

/-! ### Functionals of entities -/

theorem moment_const (D : Domain) (J s : ℝ) (f : MvPolynomial ℕ ℝ) :
    moment1Map D J (C s) f = J * s * cellInt D.cell (fun z => eval (D.param z) f) := by
  show cellInt D.cell (fun z => eval (D.param z) f * eval z (C s) * J) = _
  rw [← cellInt_const_mul]
  refine congrArg (cellInt D.cell) (funext fun z => ?_)
  rw [eval_C]
  ring

/-- The jet of an entity: edges and triangles. -/
def entityJet (c : Cell) (e : ℕ × ℕ) (l : List ℕ) : (ℕ × ℕ) × Jet :=
  (e, entJet c.tdim (entVerts c e.1 e.2) (if e.1 = 1 then simpson else triRule) l)

/-- Edges of triangles and tetrahedra, and faces of tetrahedra. -/
def Part (c : Cell) (e : ℕ × ℕ) : Prop :=
  (c = .triangle ∧ e.1 = 1 ∧ e.2 < 3) ∨ (c = .tetrahedron ∧ e.1 = 1 ∧ e.2 < 6) ∨ (c = .tetrahedron ∧ e.1 = 2 ∧ e.2 < 4)

theorem Part.simplex {c : Cell} {e : ℕ × ℕ} (h : Part c e) : Simplex c := by
  rcases h with ⟨rfl, -⟩ | ⟨rfl, -⟩ | ⟨rfl, -⟩
  · exact Or.inr (Or.inl rfl)
  · exact Or.inr (Or.inr rfl)
  · exact Or.inr (Or.inr rfl)

/-- The degree up to which the rules are exact. -/
def ruleDegree (e : ℕ × ℕ) : ℤ := if e.1 = 1 then 3 else 4

theorem part_cell {c : Cell} {e : ℕ × ℕ} (h : Part c e) : e.1 ≤ c.tdim ∧ e.2 < entityCount c e.1 ∧ (∀ n ∈ entVerts c e.1 e.2, n ≤ c.tdim) ∧
    (entVerts c e.1 e.2).length = (entityDomain c e).cell.tdim + 1 ∧
    axisVertices (entityDomain c e).cell = (List.range (entityDomain c e).cell.tdim).map (· + 1) := by
  have h1 : ∀ i < 3, (∀ n ∈ entVerts .triangle 1 i, n ≤ 2) ∧ (entVerts .triangle 1 i).length = 2 := by decide
  have h2 : ∀ i < 6, (∀ n ∈ entVerts .tetrahedron 1 i, n ≤ 3) ∧ (entVerts .tetrahedron 1 i).length = 2 := by decide
  have h3 : ∀ i < 4, (∀ n ∈ entVerts .tetrahedron 2 i, n ≤ 3) ∧ (entVerts .tetrahedron 2 i).length = 3 := by decide
  obtain ⟨dim, i⟩ := e
  rcases h with ⟨rfl, e1, e2⟩ | ⟨rfl, e1, e2⟩ | ⟨rfl, e1, e2⟩
  · obtain rfl : dim = 1 := e1
    exact ⟨(by decide : 1 ≤ Cell.triangle.tdim), e2, (h1 i e2).1, (h1 i e2).2, rfl⟩
  · obtain rfl : dim = 1 := e1
    exact ⟨(by decide : 1 ≤ Cell.tetrahedron.tdim), e2, (h2 i e2).1, (h2 i e2).2, rfl⟩
  · obtain rfl : dim = 2 := e1
    exact ⟨(by decide : 2 ≤ Cell.tetrahedron.tdim), e2, (h3 i e2).1, (h3 i e2).2, rfl⟩

theorem simpson_length : ∀ r ∈ simpson, r.2.length = 1 := by decide

theorem triRule_length : ∀ r ∈ triRule, r.2.length = 2 := by decide

theorem part_jet {c : Cell} {e : ℕ × ℕ} (h : Part c e) {l : List ℕ} {k : ℤ} (hk : k - l.length ≤ ruleDegree e) {f : MvPolynomial ℕ ℝ}
    (hf : f ∈ P c.tdim k) :
    cellInt (entityDomain c e).cell (fun z => eval ((entityDomain c e).param z) (derivs c.tdim l f)) = jetMap (entityJet c e l).2 f := by
  obtain ⟨-, -, a3, a4, a5⟩ := part_cell h
  have hs := h.simplex
  obtain ⟨dim, i⟩ := e
  rcases h with ⟨rfl, h1, h2⟩ | ⟨rfl, h1, h2⟩ | ⟨rfl, h1, h2⟩
  · obtain rfl : dim = 1 := h1
    exact integral_jet hs a3 a4 a5 (R := simpson) (k := 3) simpson_exact simpson_length hf hk
  · obtain rfl : dim = 1 := h1
    exact integral_jet hs a3 a4 a5 (R := simpson) (k := 3) simpson_exact simpson_length hf hk
  · obtain rfl : dim = 2 := h1
    exact integral_jet hs a3 a4 a5 (R := triRule) (k := 4) triRule_exact triRule_length hf hk

theorem part_jacobian {c : Cell} {e : ℕ × ℕ} (h : Part c e) :
    ∃ J, J ≠ 0 ∧ jacobian (entityDomain c e).cell c.tdim (entityDomain c e).v = some J := by
  obtain ⟨dim, i⟩ := e
  rcases h with ⟨rfl, h1, h2⟩ | ⟨rfl, h1, h2⟩ | ⟨rfl, h1, h2⟩
  · obtain rfl : dim = 1 := h1
    obtain ⟨J, n, s, hJ, -, h, -⟩ := (tri_facet h2).facts
    exact ⟨J, hJ, h⟩
  · obtain rfl : dim = 1 := h1
    have h2' : i < 6 := h2
    have hv : ∀ j k, (entityDomain .tetrahedron (1, i)).v j k = pt (vert 3 ((entVerts .tetrahedron 1 i).getD j 0)) k := by
      intro j k
      show refVertex .tetrahedron ((entVerts .tetrahedron 1 i).getD j 0) k = _
      rw [refVertex_pt (Or.inr (Or.inr rfl))]
      · rfl
      · have hl : ∀ i < 6, (entVerts .tetrahedron 1 i).length = 2 ∧ ∀ j < 2, (entVerts .tetrahedron 1 i).getD j 0 ≤ 3 := by decide
        rcases lt_or_ge j 2 with hj | hj
        · exact (hl i h2').2 j hj
        · rw [List.getD_eq_default _ _ (by rw [(hl i h2').1]; exact hj)]
          exact Nat.zero_le _
    refine ⟨√(∑ j ∈ Finset.range 3, axis .interval (entityDomain .tetrahedron (1, i)).v 0 j ^ 2), ?_, rfl⟩
    have e0 : ∀ j < 3, axis .interval (entityDomain .tetrahedron (1, i)).v 0 j =
        pt (vert 3 ((entVerts .tetrahedron 1 i).getD 1 0)) j - pt (vert 3 ((entVerts .tetrahedron 1 i).getD 0 0)) j := fun j _ => by
      rw [← hv, ← hv]
      rfl
    rw [Finset.sum_congr rfl fun j hj => by rw [e0 j (Finset.mem_range.1 hj)]]
    have hp : 0 < ∑ j ∈ Finset.range 3, (pt (vert 3 ((entVerts .tetrahedron 1 i).getD 1 0)) j - pt (vert 3 ((entVerts .tetrahedron 1 i).getD 0 0)) j) ^ 2 := by
      simp only [Finset.sum_range_succ, Finset.sum_range_zero, vert_cast (show (0 : ℕ) < 3 by omega), vert_cast (show (1 : ℕ) < 3 by omega),
        vert_cast (show (2 : ℕ) < 3 by omega)]
      have h6 : ∀ i < 6, ∃ a b, entVerts .tetrahedron 1 i = [a, b] ∧ a < b ∧ b ≤ 3 := by
        intro i hi
        interval_cases i
        · exact ⟨2, 3, rfl, by decide⟩
        · exact ⟨1, 3, rfl, by decide⟩
        · exact ⟨1, 2, rfl, by decide⟩
        · exact ⟨0, 3, rfl, by decide⟩
        · exact ⟨0, 2, rfl, by decide⟩
        · exact ⟨0, 1, rfl, by decide⟩
      obtain ⟨a, b, hab, h3, h4⟩ := h6 i h2'
      rw [hab]
      show (0 : ℝ) < 0 + ((if b = 0 + 1 then 1 else 0) - if a = 0 + 1 then 1 else 0) ^ 2 + ((if b = 1 + 1 then 1 else 0) - if a = 1 + 1 then 1 else 0) ^ 2 +
        ((if b = 2 + 1 then 1 else 0) - if a = 2 + 1 then 1 else 0) ^ 2
      interval_cases b <;> interval_cases a <;> norm_num
    exact (Real.sqrt_pos.2 hp).ne'
  · obtain rfl : dim = 2 := h1
    obtain ⟨J, n, s, hJ, -, h, -⟩ := (tet_facet h2).facts
    exact ⟨J, hJ, h⟩

theorem simplex_jacobian {c : Cell} (hc : Simplex c) : jacobian c c.tdim (refVertex c) = some 1 := by
  rcases hc with rfl | rfl | rfl
  · simp [jacobian, axisVertices, Cell.tdim, axis, psub, refVertex, refVerts, coords]
  · simp [jacobian, axisVertices, Cell.tdim, axis, psub, refVertex, refVerts, coords]
  · simp [jacobian, axisVertices, Cell.tdim, axis, psub, refVertex, refVerts, coords, pdot, pcross, Finset.sum_range_succ]

/-- The value is the integral over the reference cell of the entity. -/
theorem mean_value {c : Cell} {e : ℕ × ℕ} (h : Part c e) : ∃ d, meanDof c e.1 e.2 = some d ∧ d.entity = e ∧
    ∀ f, d.eval f = cellInt (entityDomain c e).cell (fun z => eval ((entityDomain c e).param z) f) := by
  obtain ⟨J, hJ, hj⟩ := part_jacobian h
  refine ⟨⟨9, e, some "identity", moment1Map (entityDomain c e) J (C (1 / J / 1))⟩, ?_, rfl, fun f => ?_⟩
  · unfold meanDof againstDof
    rw [simplex_jacobian h.simplex]
    show (jacobian (entityDomain c e).cell c.tdim (entityDomain c e).v).bind _ = _
    rw [hj]
    rfl
  · show moment1Map (entityDomain c e) J (C (1 / J / 1)) f = _
    rw [moment_const, div_one, mul_one_div_cancel hJ, one_mul]

theorem mean_jet {c : Cell} {e : ℕ × ℕ} (h : Part c e) {k : ℤ} (hk : k ≤ ruleDegree e) :
    ∃ d, meanDof c e.1 e.2 = some d ∧ IsJet c.tdim k d (entityJet c e []) := by
  obtain ⟨d, h1, h2, h3⟩ := mean_value h
  refine ⟨d, h1, h2, 1, one_ne_zero, fun f hf => ?_⟩
  rw [one_mul, h3, ← part_jet h (by simpa using hk) hf]
  rfl

theorem directional_smul {m : ℕ} {n u : ℕ → ℝ} {s : ℝ} (h : ∀ j < m, n j = s * u j) (f : MvPolynomial ℕ ℝ) :
    directional m n f = s • directional m u f := by
  rw [directional_apply, directional_apply, Finset.smul_sum]
  exact Finset.sum_congr rfl fun j hj => by rw [h j (Finset.mem_range.1 hj), smul_smul]

theorem pow_directional {m i : ℕ} {n : ℕ → ℝ} {s : ℝ} (h : ∀ j < m, n j = s * facetNormal i j) (k : ℕ) (f : MvPolynomial ℕ ℝ) :
    (directional m n ^ k) f = s ^ k • derivs m (List.replicate k i) f := by
  induction k generalizing f with
  | zero => rw [pow_zero, pow_zero, one_smul]; rfl
  | succ k ih =>
    rw [pow_succ, Module.End.mul_apply, directional_smul h, map_smul, ih, smul_smul, List.replicate_succ, pow_succ']
    rfl

theorem derivs_append (m : ℕ) (a b : List ℕ) (f : MvPolynomial ℕ ℝ) : derivs m (a ++ b) f = derivs m b (derivs m a f) := by
  induction a generalizing f with
  | nil => rfl
  | cons i a ih => exact ih _

/-- The value is a multiple of the integral of the derivative. -/
theorem multi_jet {c : Cell} {e : ℕ × ℕ} (h : Part c e) {dirs : List (ℕ → ℝ)} {orders l : List ℕ} {s w : ℝ} (hs : s ≠ 0) (hw : w ≠ 0)
    (hd : ∀ f, dirDerivs c.tdim (dirs.zip orders) f = s • derivs c.tdim l f) {k : ℤ} (hk : k - l.length ≤ ruleDegree e) :
    ∃ d, multiDof c dirs orders e w = some d ∧ IsJet c.tdim k d (entityJet c e l) := by
  obtain ⟨J, hJ, hj⟩ := part_jacobian h
  refine ⟨_, by rw [multiDof, hj]; rfl, rfl, J * w * s, mul_ne_zero (mul_ne_zero hJ hw) hs, fun f hf => ?_⟩
  show moment1Map (entityDomain c e) J (C w) (dirDerivs c.tdim (dirs.zip orders) f) = _
  rw [hd, map_smul, moment_const, part_jet h hk hf, smul_eq_mul]
  ring

theorem facet_jet {c : Cell} (hc : Simp c) {i : ℕ} (hi : i ≤ c.tdim) (h : Part c (c.tdim - 1, i)) (o : ℕ) {k : ℤ}
    (hk : k - o ≤ ruleDegree (c.tdim - 1, i)) :
    ∃ d, facetDof c o i = some d ∧ IsJet c.tdim k d (entityJet c (c.tdim - 1, i) (List.replicate o i)) := by
  obtain ⟨J, n, s, hJ, hs, h1, h2, h3⟩ := (facet_facts hc hi).facts
  obtain ⟨d, hd, hj⟩ := multi_jet h (dirs := [n]) (orders := [o]) (l := List.replicate o i) (s := s ^ o) (w := 1 / J) (pow_ne_zero _ hs)
    (one_div_ne_zero hJ) (fun f => pow_directional h3 o f) (by rwa [List.length_replicate])
  refine ⟨d, ?_, hj⟩
  unfold facetDof facetUnit
  rw [h1, h2]
  exact hd

theorem edge_jet {i : ℕ} (hi : i < 6) (a b : ℕ) {k : ℤ} (hk : k - (a + b : ℕ) ≤ 3) :
    ∃ d, edgeDof [a, b] i = some d ∧ IsJet 3 k d (entityJet .tetrahedron (1, i)
      (List.replicate a ((edgeFaces i).getD 0 0) ++ List.replicate b ((edgeFaces i).getD 1 0))) := by
  have ht : ∀ i < 6, ∃ p q, edgeFaces i = [p, q] ∧ p ≤ 3 ∧ q ≤ 3 := by
    intro i hi
    interval_cases i
    · exact ⟨0, 1, rfl, by decide⟩
    · exact ⟨0, 2, rfl, by decide⟩
    · exact ⟨0, 3, rfl, by decide⟩
    · exact ⟨1, 2, rfl, by decide⟩
    · exact ⟨1, 3, rfl, by decide⟩
    · exact ⟨2, 3, rfl, by decide⟩
  obtain ⟨p, q, e, hp, hq⟩ := ht i hi
  obtain ⟨-, n, s, -, hs, -, h2, h3⟩ := (facet_facts (c := .tetrahedron) (Or.inr rfl) hp).facts
  obtain ⟨-, n', s', -, hs', -, h2', h3'⟩ := (facet_facts (c := .tetrahedron) (Or.inr rfl) hq).facts
  have hpart : Part .tetrahedron (1, i) := Or.inr (Or.inl ⟨rfl, rfl, hi⟩)
  obtain ⟨J, hJ, hj⟩ := part_jacobian hpart
  obtain ⟨d, hd, hg⟩ := multi_jet hpart (dirs := [n, n']) (orders := [a, b]) (l := List.replicate a p ++ List.replicate b q) (s := s' ^ b * s ^ a)
    (w := 1 / J) (mul_ne_zero (pow_ne_zero _ hs') (pow_ne_zero _ hs)) (one_div_ne_zero hJ) (fun f => by
      show (directional 3 n' ^ b) ((directional 3 n ^ a) f) = _
      rw [pow_directional (m := 3) h3 a f, map_smul, pow_directional (m := 3) h3' b, smul_smul, mul_comm (s ^ a), derivs_append]
      rfl) (k := k) (by rw [List.length_append, List.length_replicate, List.length_replicate]; exact hk)
  refine ⟨d, ?_, by rw [e]; exact hg⟩
  have hu : (edgeFaces i).mapM (facetUnit .tetrahedron) = some [n, n'] := by
    have u1 : facetUnit .tetrahedron p = some n := h2
    have u2 : facetUnit .tetrahedron q = some n' := h2'
    rw [e]
    simp [u1, u2]
  unfold edgeDof
  have hj' : jacobian (entityDomain .tetrahedron (1, i)).cell 3 (entityDomain .tetrahedron (1, i)).v = some J := hj
  rw [hj', hu]
  exact hd

theorem point_jet {c : Cell} (hc : Simplex c) {n : ℕ} (hn : n ≤ c.tdim) (k : ℤ) :
    IsJet c.tdim k (PointDof.functional ⟨refVertex c n, (0, n)⟩) ((0, n), [(1, [], vert c.tdim n)]) := by
  refine ⟨rfl, 1, one_ne_zero, fun f _ => ?_⟩
  rw [eval_functional, refVertex_pt hc hn, jetMap_apply]
  simp [multiDeriv]

theorem deriv_jet {c : Cell} (hc : Simplex c) {n : ℕ} (hn : n ≤ c.tdim) (s : List ℕ) (mp : Option String) (k : ℤ) :
    IsJet c.tdim k (derivDof (refVertex c n) s (0, n) mp) ((0, n), [(1, s, vert c.tdim n)]) := by
  refine ⟨rfl, 1, one_ne_zero, fun f _ => ?_⟩
  rw [jetMap_apply]
  show aeval (refVertex c n) (multiDeriv s 0 f) = _
  rw [refVertex_pt hc hn]
  simp [coe_aeval_eq_eval]

theorem mapM_jets {A : Type} {l : List A} {F : A → Option (Dof ℝ (MvPolynomial ℕ ℝ))} {g : A → (ℕ × ℕ) × Jet} {m : ℕ} {k : ℤ}
    (h : ∀ a ∈ l, ∃ d, F a = some d ∧ IsJet m k d (g a)) : ∃ ds, l.mapM F = some ds ∧ List.Forall₂ (IsJet m k) ds (l.map g) := by
  induction l with
  | nil => exact ⟨[], rfl, .nil⟩
  | cons a l ih =>
    obtain ⟨d, h1, h2⟩ := h a List.mem_cons_self
    obtain ⟨ds, h3, h4⟩ := ih fun b hb => h b (List.mem_cons_of_mem _ hb)
    exact ⟨d :: ds, by simp [h1, h3], .cons h2 h4⟩

theorem map_jets {A : Type} {l : List A} {F : A → Dof ℝ (MvPolynomial ℕ ℝ)} {g : A → (ℕ × ℕ) × Jet} {m : ℕ} {k : ℤ}
    (h : ∀ a ∈ l, IsJet m k (F a) (g a)) : List.Forall₂ (IsJet m k) (l.map F) (l.map g) := by
  induction l with
  | nil => exact .nil
  | cons a l ih => exact .cons (h a List.mem_cons_self) (ih fun b hb => h b (List.mem_cons_of_mem _ hb))

theorem append_jets {m : ℕ} {k : ℤ} {a b : List (Dof ℝ (MvPolynomial ℕ ℝ))} {x y : List ((ℕ × ℕ) × Jet)} (h1 : List.Forall₂ (IsJet m k) a x)
    (h2 : List.Forall₂ (IsJet m k) b y) : List.Forall₂ (IsJet m k) (a ++ b) (x ++ y) := by
  induction h1 with
  | nil => exact h2
  | cons h _ ih => exact .cons h ih

/-! ### Elements -/

/-- A left inverse of a given matrix of values. -/
def certificate (B : List Poly) (G : List Jet) (M N : List (List ℚ)) : Bool :=
  decide (∀ k < B.length, (G.map fun g => jetVal g (B.getD k [])) = M.getD k []) &&
    decide (∀ k < B.length, ∀ i < B.length, dotp (N.getD i []) (M.getD k []) = if i = k then 1 else 0)

theorem leftInverse_of {B : List Poly} {G : List Jet} {M N : List (List ℚ)} (h : certificate B G M N = true) : leftInverse B G N = true := by
  rw [certificate, Bool.and_eq_true] at h
  have h1 := of_decide_eq_true h.1
  have h2 := of_decide_eq_true h.2
  exact decide_eq_true fun k hk i hi => by rw [h1 k hk]; exact h2 k hk i hi

/-- Elements with these functionals can be created. -/
theorem jets_created {m : ℕ} {k : ℤ} {B : List Poly} {G : List ((ℕ × ℕ) × Jet)} {dofs : List (Dof ℝ (MvPolynomial ℕ ℝ))}
    {e : Option (Element ℝ (MvPolynomial ℕ ℝ))} (he : e = ciarlet (B.map (denotePoly ℝ)) dofs) (hG : List.Forall₂ (IsJet m k) dofs G)
    (hB : ∀ b ∈ B, denotePoly ℝ b ∈ P m k) (hl : G.length = B.length) (N : List (List ℚ)) (hN : leftInverse B (G.map Prod.snd) N = true) :
    Created e (· ∈ lspan (B.map (denotePoly ℝ))) B.length fun ds => List.Forall₂ (IsJet m k) ds G := by
  obtain ⟨h1, h2⟩ := certified N hN
  have hS : ∀ f ∈ lspan (B.map (denotePoly ℝ)), f ∈ P m k := fun f hf =>
    (Submodule.span_le.2 fun x hx => by obtain ⟨b, hb, rfl⟩ := List.mem_map.1 hx; exact hB b hb : lspan (B.map (denotePoly ℝ)) ≤ P m k) hf
  refine created_of he (by rw [hG.length_eq, hl]) (List.length_map ..) h1 (fun f => Iff.rfl) (fun f hf hz => h2 f hf fun j hj => ?_) hG
  obtain ⟨g, hg, rfl⟩ := List.mem_map.1 hj
  obtain ⟨d, hd, h⟩ := forall₂_mem_left hG hg
  obtain ⟨-, t, ht, h⟩ := h
  have := hz d hd
  rw [h f (hS f hf)] at this
  exact (mul_eq_zero.1 this).resolve_left ht

/-- A polynomial that vanishes in all functionals of an entity and not on the entity. -/
def witness (c : Cell) (G : List ((ℕ × ℕ) × Jet)) (e : ℕ × ℕ) (z : List ℚ) (w : Poly) : Bool :=
  decide (∀ g ∈ G, entVerts c g.1.1 g.1.2 ⊆ entVerts c e.1 e.2 → jetVal g.2 w = 0) &&
    decide (jetVal [(1, [], place c.tdim (entVerts c e.1 e.2) z)] w ≠ 0)

/-- The functions with the same functionals on an entity need not agree on the entity. -/
theorem not_C0Trace {c : Cell} {e : ℕ × ℕ} (h : Part c e) {k : ℤ} {S : MvPolynomial ℕ ℝ → Prop} {G : List ((ℕ × ℕ) × Jet)}
    {dofs : List (Dof ℝ (MvPolynomial ℕ ℝ))} (hG : List.Forall₂ (IsJet c.tdim k) dofs G) (z : List ℚ) (w : Poly)
    (hw : denotePoly ℝ w ∈ P c.tdim k) (hS : S (denotePoly ℝ w)) (hz : z.length = (entityDomain c e).cell.tdim)
    (hc : witness c G e z w = true) : ¬ C0Trace c S dofs := by
  intro ht
  rw [witness, Bool.and_eq_true] at hc
  have h1 := of_decide_eq_true hc.1
  have h2 := of_decide_eq_true hc.2
  obtain ⟨a1, a2, a3, a4, a5⟩ := part_cell h
  have := ht e.1 a1 e.2 a2 (denotePoly ℝ w) hS (fun d hd hs => by
    obtain ⟨g, hg, hj, t, -, ht⟩ := forall₂_mem_right hG hd
    rw [ht _ hw, jetMap_poly, h1 g hg (by rw [← hj]; exact hs), Rat.cast_zero, mul_zero]) (pt z)
  have hp : (entityDomain c (e.1, e.2)).param (pt z) = pt (place c.tdim (entVerts c e.1 e.2) z) := param_place h.simplex a3 a4 hz a5
  rw [hp] at this
  have hj := jetMap_poly [(1, [], place c.tdim (entVerts c e.1 e.2) z)] w
  rw [jetMap_apply] at hj
  simp only [List.map_cons, List.map_nil, List.sum_cons, List.sum_nil, add_zero, Rat.cast_one, one_mul, multiDeriv, LinearMap.id_apply] at hj
  rw [this] at hj
  exact h2 (by exact_mod_cast hj.symm)

end Verif.Smooth
