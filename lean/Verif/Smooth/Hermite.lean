import Verif.Smooth.Chain
import Verif.Scalar.Barycentric
import Verif.Families.Mapped
/-!
# Hermite elements

symfem/elements/hermite.py, on all intervals, triangles and tetrahedra with any vertices.
-/

namespace Verif.Smooth
open Verif.References Verif.Moments Verif.Functionals Verif.Elements Verif.FiniteElement Verif.Polysets Verif.Orthogonal
open Verif.Families Verif.Scalar
open MvPolynomial

/-! ### Model -/

/-- `tuple(1 if i == j else 0 for j in range(d))`. -/
def unitIndex (d i : ℕ) : List ℕ := (List.range d).map fun j => if i = j then 1 else 0

/-- The functionals of vertex `n` (symfem/elements/hermite.py:31-41). -/
noncomputable def hermiteVertex (c : Cell) (v : ℕ → ℕ → ℝ) (n : ℕ) : List (Dof ℝ (MvPolynomial ℕ ℝ)) :=
  PointDof.functional ⟨v n, (0, n)⟩ :: (List.range c.tdim).map fun i => derivDof (v n) (unitIndex c.tdim i) (0, n) none

/-- The point of face `n` (symfem/elements/hermite.py:42-44). -/
noncomputable def hermiteFace (c : Cell) (v : ℕ → ℕ → ℝ) (n : ℕ) : PointDof :=
  ⟨References.midpoint (entType c 2 n) (entityVerts v (entVerts c 2 n)), (2, n)⟩

/-- The functionals of `Hermite(reference, order)` (symfem/elements/hermite.py:30-44). -/
noncomputable def hermiteDofs (c : Cell) (v : ℕ → ℕ → ℝ) : List (Dof ℝ (MvPolynomial ℕ ℝ)) :=
  (List.range c.nverts).flatMap (hermiteVertex c v) ++ (List.range (entityCount c 2)).map fun n => (hermiteFace c v n).functional

/-- `Hermite(reference, order)` (symfem/elements/hermite.py:22-49) on a cell with vertices `v`. -/
noncomputable def hermite (c : Cell) (v : ℕ → ℕ → ℝ) (k : ℕ) : Option (Element ℝ (MvPolynomial ℕ ℝ)) :=
  if k = 3 then (polySet c.tdim 3).bind fun p => ciarlet (p.map (denoteMono ℝ)) (hermiteDofs c v) else none

/-! ### The reference simplices -/

/-- The coordinates of a vertex of the simplex of dimension `m`. -/
def vert (m n : ℕ) : List ℚ := (List.range m).map fun j => if n = j + 1 then 1 else 0

/-- The triples of vertices. -/
def triples : ℕ → List (ℕ × ℕ × ℕ)
  | 2 => [(0, 1, 2)]
  | 3 => [(1, 2, 3), (0, 2, 3), (0, 1, 3), (0, 1, 2)]
  | _ => []

/-- The mean of three vertices. -/
def triple (m : ℕ) (t : ℕ × ℕ × ℕ) : List ℚ := (List.range m).map fun j =>
  ((if t.1 = j + 1 then 1 else 0) + (if t.2.1 = j + 1 then 1 else 0) + if t.2.2 = j + 1 then 1 else 0) / 3

/-- The functionals on the simplex of dimension `m`. -/
def hermJets (m : ℕ) : List Jet :=
  (List.range (m + 1)).flatMap (fun n => [(1, [], vert m n)] :: (List.range m).map fun i => [(1, unitIndex m i, vert m n)]) ++
    (triples m).map fun t => [(1, [], triple m t)]

def hermInv1 : List (List ℚ) := [
    [1, 0, 0, 0],
    [0, 1, 0, 0],
    [-3, -2, 3, -1],
    [2, 1, -2, 1]]

def hermInv2 : List (List ℚ) := [
    [1, 0, 0, 0, 0, 0, 0, 0, 0, 0],
    [0, 1, 0, 0, 0, 0, 0, 0, 0, 0],
    [-3, -2, 0, 3, -1, 0, 0, 0, 0, 0],
    [2, 1, 0, -2, 1, 0, 0, 0, 0, 0],
    [0, 0, 1, 0, 0, 0, 0, 0, 0, 0],
    [-13, -3, -3, -7, 2, -1, -7, -1, 2, 27],
    [13, 3, 2, 7, -2, 2, 7, 1, -2, -27],
    [-3, 0, -2, 0, 0, 0, 3, 0, -1, 0],
    [13, 2, 3, 7, -2, 1, 7, 2, -2, -27],
    [2, 0, 1, 0, 0, 0, -2, 0, 1, 0]]

def hermInv3 : List (List ℚ) := [
    [1, 0, 0, 0, 0, 0, 0, 0, 0, 0, 0, 0, 0, 0, 0, 0, 0, 0, 0, 0],
    [0, 1, 0, 0, 0, 0, 0, 0, 0, 0, 0, 0, 0, 0, 0, 0, 0, 0, 0, 0],
    [-3, -2, 0, 0, 3, -1, 0, 0, 0, 0, 0, 0, 0, 0, 0, 0, 0, 0, 0, 0],
    [2, 1, 0, 0, -2, 1, 0, 0, 0, 0, 0, 0, 0, 0, 0, 0, 0, 0, 0, 0],
    [0, 0, 1, 0, 0, 0, 0, 0, 0, 0, 0, 0, 0, 0, 0, 0, 0, 0, 0, 0],
    [-13, -3, -3, 0, -7, 2, -1, 0, -7, -1, 2, 0, 0, 0, 0, 0, 0, 0, 0, 27],
    [13, 3, 2, 0, 7, -2, 2, 0, 7, 1, -2, 0, 0, 0, 0, 0, 0, 0, 0, -27],
    [-3, 0, -2, 0, 0, 0, 0, 0, 3, 0, -1, 0, 0, 0, 0, 0, 0, 0, 0, 0],
    [13, 2, 3, 0, 7, -2, 1, 0, 7, 2, -2, 0, 0, 0, 0, 0, 0, 0, 0, -27],
    [2, 0, 1, 0, 0, 0, 0, 0, -2, 0, 1, 0, 0, 0, 0, 0, 0, 0, 0, 0],
    [0, 0, 0, 1, 0, 0, 0, 0, 0, 0, 0, 0, 0, 0, 0, 0, 0, 0, 0, 0],
    [-13, -3, 0, -3, -7, 2, 0, -1, 0, 0, 0, 0, -7, -1, 0, 2, 0, 0, 27, 0],
    [13, 3, 0, 2, 7, -2, 0, 2, 0, 0, 0, 0, 7, 1, 0, -2, 0, 0, -27, 0],
    [-13, 0, -3, -3, 0, 0, 0, 0, -7, 0, 2, -1, -7, 0, -1, 2, 0, 27, 0, 0],
    [33, 4, 4, 4, 7, -2, 0, 0, 7, 0, -2, 0, 7, 0, 0, -2, 27, -27, -27, -27],
    [13, 0, 3, 2, 0, 0, 0, 0, 7, 0, -2, 2, 7, 0, 1, -2, 0, -27, 0, 0],
    [-3, 0, 0, -2, 0, 0, 0, 0, 0, 0, 0, 0, 3, 0, 0, -1, 0, 0, 0, 0],
    [13, 2, 0, 3, 7, -2, 0, 1, 0, 0, 0, 0, 7, 2, 0, -2, 0, 0, -27, 0],
    [13, 0, 2, 3, 0, 0, 0, 0, 7, 0, -2, 1, 7, 0, 2, -2, 0, -27, 0, 0],
    [2, 0, 0, 1, 0, 0, 0, 0, 0, 0, 0, 0, -2, 0, 0, 1, 0, 0, 0, 0]]

/-- The monomials of `polynomial_set_1d(d, k)`. -/
def monoPolys (d : ℕ) (k : ℤ) : List Poly := ((polySet d k).getD []).map fun m => [(1, m)]

theorem monoPolys_map (d : ℕ) (k : ℤ) : (monoPolys d k).map (denotePoly ℝ) = ((polySet d k).getD []).map (denoteMono ℝ) := by
  rw [monoPolys, List.map_map]
  exact List.map_congr_left fun m _ => by simp [denotePoly]

theorem monoPolys_lspan {d : ℕ} (hd : d = 1 ∨ d = 2 ∨ d = 3) (k : ℤ) : lspan ((monoPolys d k).map (denotePoly ℝ)) = P d k := by
  obtain ⟨l, h1, h2⟩ := polySet_lspan hd k
  rw [monoPolys_map, h1, Option.getD_some, h2]

theorem multiDeriv_unit {d i : ℕ} (hd : d ≤ 3) (hi : i < d) (f : MvPolynomial ℕ ℝ) : multiDeriv (unitIndex d i) 0 f = pderiv i f := by
  interval_cases d <;> interval_cases i <;> simp [unitIndex, multiDeriv, List.range_succ] <;> rfl

theorem herm_ref {m : ℕ} (hm : m = 1 ∨ m = 2 ∨ m = 3) {g : MvPolynomial ℕ ℝ} (hg : g ∈ P m 3)
    (h0 : ∀ n ≤ m, eval (pt (vert m n)) g = 0) (h1 : ∀ n ≤ m, ∀ i < m, eval (pt (vert m n)) (pderiv i g) = 0)
    (h2 : ∀ t ∈ triples m, eval (pt (triple m t)) g = 0) : g = 0 := by
  have hj : ∀ j ∈ hermJets m, jetMap j g = 0 := by
    intro j hj
    rw [hermJets, List.mem_append, List.mem_flatMap] at hj
    rcases hj with ⟨n, hn, hj⟩ | hj
    · have hn' : n ≤ m := by have := List.mem_range.1 hn; omega
      rcases List.mem_cons.1 hj with rfl | hj
      · rw [jetMap_apply]
        simpa [multiDeriv] using h0 n hn'
      · obtain ⟨i, hi, rfl⟩ := List.mem_map.1 hj
        rw [jetMap_apply]
        simp only [List.map_cons, List.map_nil, List.sum_cons, List.sum_nil, add_zero, Rat.cast_one, one_mul]
        rw [multiDeriv_unit (by omega) (List.mem_range.1 hi)]
        exact h1 n hn' i (List.mem_range.1 hi)
    · obtain ⟨t, ht, rfl⟩ := List.mem_map.1 hj
      rw [jetMap_apply]
      simpa [multiDeriv] using h2 t ht
  rw [← monoPolys_lspan hm] at hg
  rcases hm with rfl | rfl | rfl
  · exact (certified hermInv1 (by decide +kernel)).2 g hg hj
  · exact (certified hermInv2 (by decide +kernel)).2 g hg hj
  · exact (certified hermInv3 (by decide +kernel)).2 g hg hj

/-! ### Entities of a cell with any vertices -/

/-- The values on an entity are determined by the functionals of the closure of the entity. -/
def TraceOn (c : Cell) (v : ℕ → ℕ → ℝ) (S : MvPolynomial ℕ ℝ → Prop) (dofs : List (Dof ℝ (MvPolynomial ℕ ℝ))) : Prop :=
  ∀ dim ≤ c.tdim, ∀ i < entityCount c dim, ∀ f, S f →
    (∀ d ∈ dofs, entVerts c d.entity.1 d.entity.2 ⊆ entVerts c dim i → d.eval f = 0) →
    ∀ z, eval ((physDomain c v (dim, i)).param z) f = 0

theorem phys_param {c : Cell} (hc : Simplex c) (v : ℕ → ℕ → ℝ) {m n : ℕ} (hm : m ≤ c.tdim) (hn : n < entityCount c m) (z : ℕ → ℝ) :
    (physDomain c v (m, n)).param z = fun j => v ((entVerts c m n).getD 0 0) j + ∑ k ∈ Finset.range m,
      (v ((entVerts c m n).getD (k + 1) 0) j - v ((entVerts c m n).getD 0 0) j) * z k := by
  obtain ⟨-, -, -, h4, h5, -⟩ := simplex_table hc m hm n hn
  funext j
  show entityVerts v (entVerts c m n) 0 j + ∑ k ∈ Finset.range (entType c m n).tdim, _ = _
  rw [h4]
  congr 1
  refine Finset.sum_congr rfl fun k hk => ?_
  show (entityVerts v (entVerts c m n) ((axisVertices (entType c m n)).getD k 0) j - _) * _ = _
  rw [h5 k (Finset.mem_range.1 hk)]
  rfl

theorem vert_cast {m n k : ℕ} (hk : k < m) : pt (vert m n) k = if n = k + 1 then 1 else 0 := by
  rw [pt, vert, List.getD_eq_getElem _ _ (by simpa using hk), List.getElem_map, List.getElem_range]
  split_ifs <;> simp

theorem phys_vertex {c : Cell} (hc : Simplex c) (v : ℕ → ℕ → ℝ) {m n : ℕ} (hm : m ≤ c.tdim) (hn : n < entityCount c m) {k : ℕ} (hk : k ≤ m) :
    (physDomain c v (m, n)).param (pt (vert m k)) = v ((entVerts c m n).getD k 0) := by
  rw [phys_param hc v hm hn]
  funext j
  rcases k with _ | k
  · rw [Finset.sum_eq_zero, add_zero]
    intro i hi
    rw [vert_cast (Finset.mem_range.1 hi), if_neg (by omega), mul_zero]
  · rw [Finset.sum_eq_single k]
    · rw [vert_cast (by omega), if_pos rfl]
      ring
    · intro i hi hik
      rw [vert_cast (Finset.mem_range.1 hi), if_neg (by omega), mul_zero]
    · intro h
      exact absurd (Finset.mem_range.2 (by omega)) h

theorem triple_cast {m k : ℕ} (t : ℕ × ℕ × ℕ) (hk : k < m) : pt (triple m t) k = 1 / 3 * pt (vert m t.1) k + 1 / 3 * pt (vert m t.2.1) k +
    1 / 3 * pt (vert m t.2.2) k := by
  rw [vert_cast hk, vert_cast hk, vert_cast hk, pt, triple, List.getD_eq_getElem _ _ (by simpa using hk), List.getElem_map, List.getElem_range]
  split_ifs <;> norm_num

theorem triple_le {m : ℕ} : ∀ t ∈ triples m, t.1 ≤ m ∧ t.2.1 ≤ m ∧ t.2.2 ≤ m := by
  intro t ht
  match m, ht with
  | 2, ht => exact (by decide : ∀ t ∈ triples 2, t.1 ≤ 2 ∧ t.2.1 ≤ 2 ∧ t.2.2 ≤ 2) t ht
  | 3, ht => exact (by decide : ∀ t ∈ triples 3, t.1 ≤ 3 ∧ t.2.1 ≤ 3 ∧ t.2.2 ≤ 3) t ht

theorem phys_triple {c : Cell} (hc : Simplex c) (v : ℕ → ℕ → ℝ) {m n : ℕ} (hm : m ≤ c.tdim) (hn : n < entityCount c m) {t : ℕ × ℕ × ℕ}
    (ht : t ∈ triples m) : (physDomain c v (m, n)).param (pt (triple m t)) = fun j => (v ((entVerts c m n).getD t.1 0) j +
      v ((entVerts c m n).getD t.2.1 0) j + v ((entVerts c m n).getD t.2.2 0) j) / 3 := by
  obtain ⟨h1, h2, h3⟩ := triple_le t ht
  funext j
  have e1 := congrFun (phys_vertex hc v hm hn h1) j
  have e2 := congrFun (phys_vertex hc v hm hn h2) j
  have e3 := congrFun (phys_vertex hc v hm hn h3) j
  rw [phys_param hc v hm hn] at e1 e2 e3 ⊢
  rw [← e1, ← e2, ← e3]
  simp only
  have : ∀ k ∈ Finset.range m, (v ((entVerts c m n).getD (k + 1) 0) j - v ((entVerts c m n).getD 0 0) j) * pt (triple m t) k =
      1 / 3 * ((v ((entVerts c m n).getD (k + 1) 0) j - v ((entVerts c m n).getD 0 0) j) * pt (vert m t.1) k) +
      1 / 3 * ((v ((entVerts c m n).getD (k + 1) 0) j - v ((entVerts c m n).getD 0 0) j) * pt (vert m t.2.1) k) +
      1 / 3 * ((v ((entVerts c m n).getD (k + 1) 0) j - v ((entVerts c m n).getD 0 0) j) * pt (vert m t.2.2) k) := fun k hk => by
    rw [triple_cast t (Finset.mem_range.1 hk)]
    ring
  rw [Finset.sum_congr rfl this, Finset.sum_add_distrib, Finset.sum_add_distrib, ← Finset.mul_sum, ← Finset.mul_sum, ← Finset.mul_sum]
  ring

theorem face_table {c : Cell} (hc : Simplex c) : ∀ m ≤ c.tdim, ∀ n < entityCount c m, ∀ t ∈ triples m, ∃ n' < entityCount c 2,
    entType c 2 n' = .triangle ∧ entVerts c 2 n' = [(entVerts c m n).getD t.1 0, (entVerts c m n).getD t.2.1 0, (entVerts c m n).getD t.2.2 0] := by
  rcases hc with rfl | rfl | rfl <;> decide

theorem vertex_table {c : Cell} (hc : Simplex c) : ∀ n < c.nverts, entVerts c 0 n = [n] := by
  rcases hc with rfl | rfl | rfl <;> decide

theorem nverts_eq {c : Cell} (hc : Simplex c) : c.nverts = c.tdim + 1 := by rcases hc with rfl | rfl | rfl <;> rfl

theorem entityCount_zero {c : Cell} (hc : Simplex c) : entityCount c 0 = c.tdim + 1 := by rcases hc with rfl | rfl | rfl <;> rfl

/-- On a vertex. -/
theorem phys_zero {c : Cell} (hc : Simplex c) (v : ℕ → ℕ → ℝ) {n : ℕ} (hn : n < entityCount c 0) (z : ℕ → ℝ) :
    (physDomain c v (0, n)).param z = v n := by
  rw [phys_param hc v (Nat.zero_le _) hn]
  rw [entityCount_zero hc] at hn
  funext j
  rw [vertex_table hc n (by rw [nverts_eq hc]; exact hn)]
  simp

/-- The derivatives along the axes of an entity vanish where all derivatives do. -/
theorem pderiv_pull_zero {d : ℕ} {k : ℤ} {f : MvPolynomial ℕ ℝ} (hf : f ∈ P d k) (D : Domain) {j : ℕ} (hj : j < D.cell.tdim) {z : ℕ → ℝ}
    (h : ∀ i < d, eval (D.param z) (pderiv i f) = 0) : eval z (pderiv j (pull D f)) = 0 := by
  rw [pderiv_pull hf D hj, map_sum]
  refine Finset.sum_eq_zero fun i hi => ?_
  rw [map_mul, eval_pull, h i (Finset.mem_range.1 hi), mul_zero]

theorem hermite_vertex_zero {c : Cell} (hc : Simplex c) {v : ℕ → ℕ → ℝ} {f : MvPolynomial ℕ ℝ} {n : ℕ}
    (h : ∀ d ∈ hermiteVertex c v n, d.eval f = 0) : eval (v n) f = 0 ∧ ∀ i < c.tdim, eval (v n) (pderiv i f) = 0 := by
  refine ⟨h _ (List.mem_cons_self ..), fun i hi => ?_⟩
  have := h _ (List.mem_cons_of_mem _ (List.mem_map_of_mem (List.mem_range.2 hi)))
  have h2 : eval (v n) (multiDeriv (unitIndex c.tdim i) 0 f) = 0 := this
  rwa [multiDeriv_unit (by rcases hc with rfl | rfl | rfl <;> decide) hi] at h2

theorem hermite_trace {c : Cell} (hc : Simplex c) (v : ℕ → ℕ → ℝ) : TraceOn c v (· ∈ P c.tdim 3) (hermiteDofs c v) := by
  intro m hm n hn f hf hz z
  obtain ⟨t1, -, t3, t4, -, -⟩ := simplex_table hc m hm n hn
  have hvert : ∀ k ≤ m, ∀ d ∈ hermiteVertex c v ((entVerts c m n).getD k 0), d.eval f = 0 := by
    intro k hk d hd
    have hmem : (entVerts c m n).getD k 0 ∈ entVerts c m n := by
      rw [List.getD_eq_getElem _ _ (by omega)]
      exact List.getElem_mem _
    have hlt : (entVerts c m n).getD k 0 < c.nverts := by
      rw [nverts_eq hc]
      have := t3 _ hmem
      omega
    refine hz d (List.mem_append_left _ (List.mem_flatMap.2 ⟨_, List.mem_range.2 hlt, hd⟩)) ?_
    have he : d.entity = (0, (entVerts c m n).getD k 0) := by
      rcases List.mem_cons.1 hd with rfl | hd
      · rfl
      · obtain ⟨i, -, rfl⟩ := List.mem_map.1 hd
        rfl
    rw [he, vertex_table hc _ hlt]
    simpa using hmem
  rcases Nat.eq_zero_or_pos m with rfl | hpos
  · have := hvert 0 le_rfl
    rw [phys_zero hc v hn]
    have hn' := hn
    rw [entityCount_zero hc, ← nverts_eq hc] at hn'
    rw [vertex_table hc n hn'] at this
    exact (hermite_vertex_zero hc this).1
  have hmm : m = 1 ∨ m = 2 ∨ m = 3 := by
    have : c.tdim ≤ 3 := by rcases hc with rfl | rfl | rfl <;> decide
    omega
  have hp : pull (physDomain c v (m, n)) f ∈ P m 3 := by
    have := Families.pull_mem (physDomain c v (m, n)) hf
    have e : (physDomain c v (m, n)).cell.tdim = m := t4
    rwa [e] at this
  rw [← eval_pull, herm_ref hmm hp, map_zero]
  · intro k hk
    rw [eval_pull, phys_vertex hc v hm hn hk]
    exact (hermite_vertex_zero hc (hvert k hk)).1
  · intro k hk i hi
    refine pderiv_pull_zero hf _ (by show i < (entType c m n).tdim; rw [t4]; exact hi) fun j hj => ?_
    rw [phys_vertex hc v hm hn hk]
    exact (hermite_vertex_zero hc (hvert k hk)).2 j hj
  · intro t ht
    rw [eval_pull, phys_triple hc v hm hn ht]
    obtain ⟨l1, l2, l3⟩ := triple_le t ht
    obtain ⟨n', hn', hty, hvs⟩ := face_table hc m hm n hn t ht
    have := hz (hermiteFace c v n').functional (List.mem_append_right _ (List.mem_map_of_mem (List.mem_range.2 hn'))) (by
      show entVerts c 2 n' ⊆ _
      rw [hvs]
      have hin : ∀ k ≤ m, (entVerts c m n).getD k 0 ∈ entVerts c m n := fun k hk => by
        rw [List.getD_eq_getElem _ _ (by omega)]
        exact List.getElem_mem _
      simp only [List.cons_subset, List.nil_subset, and_true]
      exact ⟨hin _ l1, hin _ l2, hin _ l3⟩)
    rw [eval_functional] at this
    rw [← this]
    congr 2
    funext j
    rw [hermiteFace, hty, hvs]
    simp [References.midpoint, Cell.nverts, Finset.sum_range_succ, entityVerts]

/-- Polynomials that vanish on the cell are 0. -/
theorem zero_of_cell {c : Cell} (hc : Simplex c) {v : ℕ → ℕ → ℝ} (hv : NonDegenerate c v) {k : ℤ} {f : MvPolynomial ℕ ℝ} (hf : f ∈ P c.tdim k)
    (h : ∀ z, eval ((physDomain c v (c.tdim, 0)).param z) f = 0) : f = 0 := by
  refine MvPolynomial.funext fun y => ?_
  obtain ⟨t, ht⟩ := solve_of_indep hv (fun j => y j - v 0 j)
  have h1 : 0 < entityCount c c.tdim := by rcases hc with rfl | rfl | rfl <;> decide
  have hev : ∀ k ≤ c.tdim, (entVerts c c.tdim 0).getD k 0 = k := by rcases hc with rfl | rfl | rfl <;> decide
  have hax : ∀ k < c.tdim, (axisVertices c).getD k 0 = k + 1 := by rcases hc with rfl | rfl | rfl <;> decide
  rw [map_zero, ← h t]
  refine eval_congr_P hf fun j hj => ?_
  rw [phys_param hc v le_rfl h1]
  simp only
  have hj' := ht j hj
  rw [hev 0 (by omega), show y j = v 0 j + ∑ k ∈ Finset.range c.tdim, t k * axis c v k j by rw [hj']; ring]
  congr 1
  refine Finset.sum_congr rfl fun k hk => ?_
  have hk' := Finset.mem_range.1 hk
  rw [hev _ (by omega), axis, psub, hax k hk', mul_comm]

/-- **C115.** Hermite elements can be created on all cells that are not degenerate. -/
theorem hermite_created {c : Cell} (hc : Simplex c) (v : ℕ → ℕ → ℝ) (hv : NonDegenerate c v) :
    Created (hermite c v 3) (· ∈ P c.tdim 3) ((c.tdim + 3).choose 3) (TraceOn c v (· ∈ P c.tdim 3)) := by
  have hd : c.tdim = 1 ∨ c.tdim = 2 ∨ c.tdim = 3 := by rcases hc with rfl | rfl | rfl <;> simp [Cell.tdim]
  obtain ⟨p, hp, hps⟩ := polySet_lspan hd 3
  have h1 : 0 < entityCount c c.tdim := by rcases hc with rfl | rfl | rfl <;> decide
  refine created_of (basis := p.map (denoteMono ℝ)) (by rw [hermite, if_pos rfl, hp]; rfl) ?_ ?_ ((scalar_sets_independent ℝ).1 _ _ _ hp)
    (fun f => by rw [hps]) (fun f hf hz => ?_) (hermite_trace hc v)
  · rw [hermiteDofs, List.length_append, List.length_flatMap]
    simp only [hermiteVertex, List.length_cons, List.length_map, List.length_range]
    rcases hc with rfl | rfl | rfl <;> decide
  · rw [List.length_map]
    rcases hc with rfl | rfl | rfl <;> · rw [← Option.some.inj hp]; decide
  · exact zero_of_cell hc hv hf (hermite_trace hc v _ le_rfl 0 h1 f hf fun d hd _ => hz d hd)

theorem hermite_none (c : Cell) (v : ℕ → ℕ → ℝ) {k : ℕ} (hk : k ≠ 3) : hermite c v k = none := if_neg hk

/-- The default tetrahedron has 20 functions. -/
example : Created (hermite .tetrahedron (refVertex .tetrahedron) 3) (· ∈ P 3 3) 20 (TraceOn .tetrahedron (refVertex .tetrahedron) (· ∈ P 3 3)) :=
  hermite_created (Or.inr (Or.inr rfl)) _ (nonDegenerate_ref (Or.inr (Or.inr rfl)))

end Verif.Smooth
