import Verif.Elements.Table
import Verif.Elements.Creation
/-!
# Q elements

C58: unisolvence.  C82: continuity between cells.  For every variant whose functionals are point evaluations.
-/

namespace Verif.Elements
open Verif.References Verif.Quadrature Verif.Polysets Verif.FiniteElement
open MvPolynomial

theorem qDofs_eq {variant : String} {c : Cell} (hc : Fixed c) (v : ℕ → ℕ → ℝ) {k : ℕ} (hk : 0 < k)
    {l : List PointDof} (h : qDofs variant c v k = some l) :
    ∃ points, rulePoints variant k = some points ∧ l = allPoints c v points k fun _ _ => true := by
  unfold qDofs at h
  split at h
  · cases h
  rw [if_neg hk.ne'] at h
  cases hr : rulePoints variant k with
  | none => rw [hr] at h; cases h
  | some points =>
    rw [hr, Option.bind_some, joined_eq hc] at h
    exact ⟨points, rfl, (Option.some.inj h).symm⟩

/-- The pattern of a grid point. -/
def patternOf (k : ℕ) (α : ℕ → ℕ) : List ℕ :=
  (List.range 3).map fun j => if α j = 0 then 0 else if α j = k then 1 else 2

theorem patternOf_getD (k : ℕ) (α : ℕ → ℕ) {j : ℕ} (hj : j < 3) :
    (patternOf k α).getD j 0 = if α j = 0 then 0 else if α j = k then 1 else 2 := by
  unfold patternOf
  rw [List.getD_eq_getElem?_getD, List.getElem?_map, List.getElem?_range hj]
  rfl

theorem patternOf_mem (k : ℕ) (α : ℕ → ℕ) (d : ℕ) (hd : d ≤ 3) (h : ∀ j, d ≤ j → α j = 0) :
    patternOf k α ∈ patterns d := by
  have hlt : ∀ j, (if α j = 0 then 0 else if α j = k then 1 else 2) ∈ List.range 3 := fun j => by
    split_ifs <;> simp
  have e : patternOf k α = [if α 0 = 0 then 0 else if α 0 = k then 1 else 2,
    if α 1 = 0 then 0 else if α 1 = k then 1 else 2, if α 2 = 0 then 0 else if α 2 = k then 1 else 2] := rfl
  rw [e]
  have : d = 0 ∨ d = 1 ∨ d = 2 ∨ d = 3 := by omega
  rcases this with rfl | rfl | rfl | rfl
  · rw [if_pos (h 0 (by omega)), if_pos (h 1 (by omega)), if_pos (h 2 (by omega))]; simp [patterns]
  · rw [if_pos (h 1 (by omega)), if_pos (h 2 (by omega))]
    exact List.mem_map.2 ⟨_, hlt 0, rfl⟩
  · rw [if_pos (h 2 (by omega))]
    exact List.mem_flatMap.2 ⟨_, hlt 0, List.mem_map.2 ⟨_, hlt 1, rfl⟩⟩
  · exact List.mem_flatMap.2 ⟨_, hlt 0, List.mem_flatMap.2 ⟨_, hlt 1, List.mem_map.2 ⟨_, hlt 2, rfl⟩⟩⟩

theorem patterns_wf {d : ℕ} (hd : d ≤ 3) {pat : List ℕ} (h : pat ∈ patterns d) :
    (∀ j < 3, pat.getD j 0 = 0 ∨ pat.getD j 0 = 1 ∨ pat.getD j 0 = 2) ∧ ∀ j, d ≤ j → j < 3 → pat.getD j 0 = 0 := by
  have key : ∀ d < 4, ∀ pat ∈ patterns d, (∀ j < 3, pat.getD j 0 = 0 ∨ pat.getD j 0 = 1 ∨ pat.getD j 0 = 2) ∧
      ∀ j < 3, d ≤ j → pat.getD j 0 = 0 := by decide
  obtain ⟨h1, h2⟩ := key d (by omega) pat h
  exact ⟨h1, fun j a b => h2 j b a⟩

theorem Tensor.tdim_le {c : Cell} (h : Tensor c) : c.tdim ≤ 3 := by
  rcases h with rfl | rfl | rfl <;> simp [Cell.tdim]

theorem mem_free {pat : List ℕ} {j : ℕ} : j ∈ free pat ↔ j < 3 ∧ pat.getD j 0 = 2 := by
  simp [free]

/-- The number of the face with a pattern. -/
def faceNumber (c : Cell) (pat : List ℕ) : ℕ :=
  ((List.range (count c (free pat).length)).find? fun n => decide (TableRow c pat n)).getD 0

theorem faceNumber_row {c : Cell} (hc : Tensor c) {pat : List ℕ} (hp : pat ∈ patterns c.tdim) :
    (free pat).length ≤ 3 ∧ TableRow c pat (faceNumber c pat) := by
  obtain ⟨h3, n, hn, hr⟩ := table c hc pat hp
  refine ⟨h3, ?_⟩
  unfold faceNumber
  have : ((List.range (count c (free pat).length)).find? fun n => decide (TableRow c pat n)).isSome := by
    rw [List.find?_isSome]
    exact ⟨n, List.mem_range.2 hn, decide_eq_true hr⟩
  obtain ⟨m, hm⟩ := Option.isSome_iff_exists.1 this
  rw [hm]
  have := List.find?_some hm
  exact of_decide_eq_true this

/-- The number of the evaluation at a grid point. -/
def qIndex (c : Cell) (k : ℕ) (α : ℕ → ℕ) : ℕ :=
  let pat := patternOf k α
  if free pat = [] then faceNumber c pat
  else offset c (k - 1) (free pat).length + (faceNumber c pat * (k - 1) ^ (free pat).length +
    digits (k - 1) ((free pat).reverse.map fun j => α j - 1))

/-- The evaluation at a grid point, and its number in the list. -/
theorem q_index {c : Cell} (hc : Tensor c) {points : List ℝ} {k : ℕ} (hk : 0 < k) (α : ℕ → ℕ) (hα : ∀ j, α j ≤ k)
    (h0 : ∀ j, c.tdim ≤ j → α j = 0) :
    (allPoints c (refVertex c) points k fun _ _ => true)[qIndex c k α]? =
      some ⟨fun j => nodeOf points k (α j), ((free (patternOf k α)).length, faceNumber c (patternOf k α))⟩ := by
  obtain ⟨pat, hpat⟩ : ∃ pat, pat = patternOf k α := ⟨_, rfl⟩
  have hg : ∀ {j}, j < 3 → pat.getD j 0 = if α j = 0 then 0 else if α j = k then 1 else 2 := fun hj => by
    rw [hpat, patternOf_getD _ _ hj]
  have hfree : ∀ j, j ∈ free pat ↔ α j ≠ 0 ∧ α j ≠ k := by
    intro j
    rw [mem_free]
    constructor
    · rintro ⟨hj, h2⟩
      rw [hg hj] at h2
      by_cases h : α j = 0
      · rw [if_pos h] at h2; omega
      · by_cases h' : α j = k
        · rw [if_neg h, if_pos h'] at h2; omega
        · exact ⟨h, h'⟩
    · rintro ⟨h, h'⟩
      have hj : j < 3 := by
        by_contra hj
        exact h (h0 j (by have := hc.tdim_le; omega))
      exact ⟨hj, by rw [hg hj, if_neg h, if_neg h']⟩
  obtain ⟨h3, hn, ho, hax, -, -⟩ := faceNumber_row hc (hpat ▸ patternOf_mem k α c.tdim hc.tdim_le h0)
  obtain ⟨n, hndef⟩ : ∃ n, n = faceNumber c pat := ⟨_, rfl⟩
  unfold qIndex
  simp only [← hpat, ← hndef] at hn ho hax ⊢
  have hbase : ∀ j, (refVertex c ((entVerts c (free pat).length n).getD 0 0) j : ℝ) = if α j = k then 1 else 0 := by
    intro j
    by_cases hj : j < 3
    · rw [refVertex_cast, ho j hj, hg hj]
      by_cases h : α j = 0
      · rw [if_pos h, if_neg (by omega), if_neg (by omega)]; simp
      · rw [if_neg h]
        split_ifs <;> simp_all
    · rw [refVertex_ge _ _ _ (by omega), if_neg]
      rw [h0 j (by have := hc.tdim_le; omega)]
      omega
  by_cases hz : free pat = []
  · -- a vertex
    rw [if_pos hz]
    rw [hz] at hn hbase ⊢
    have hn' : n < c.nverts := by
      have : count c 0 = c.nverts := by simp [count, Cell.subEntityCount, Cell.subEntities]
      simpa [this] using hn
    have he : entVerts c 0 n = [n] := by simp [entVerts, Cell.subEntities, List.getElem?_range hn']
    rw [List.length_nil, he] at hbase
    rw [getElem?_vertex _ _ _ _ _ hn']
    congr 2
    funext j
    have hb : (refVertex c n j : ℝ) = _ := hbase j
    show refVertex c n j = _
    rw [hb]
    unfold nodeOf
    have : ¬ (α j ≠ 0 ∧ α j ≠ k) := by rw [← hfree j, hz]; simp
    by_cases h : α j = 0
    · rw [if_neg (by omega), if_pos h]
    · rw [if_pos (by tauto), if_neg h, if_pos (by tauto)]
  · rw [if_neg hz]
    have hpos : 1 ≤ (free pat).length := List.length_pos_of_ne_nil hz
    rw [getElem?_allPoints c _ points k hpos h3 hn _ (by simp) (fun a ha => ?_)]
    · have hmap : (((free pat).reverse.map fun j => α j - 1).map (· + 1)).reverse = (free pat).map α := by
        rw [List.map_map, ← List.map_reverse, List.reverse_reverse]
        refine List.map_congr_left fun j hj => ?_
        have := ((hfree j).1 hj).1
        simp only [Function.comp]
        omega
      rw [hmap]
      congr 2
      funext j
      unfold entityPoint
      rw [List.length_map, List.length_map]
      have e0 : entityVerts (refVertex c : ℕ → ℕ → ℝ) (entVerts c (free pat).length n) 0 j =
        if α j = k then 1 else 0 := hbase j
      rw [e0]
      have e1 : ∀ m ∈ Finset.range (free pat).length,
          axis (entType c (free pat).length n) (entityVerts (refVertex c : ℕ → ℕ → ℝ) (entVerts c (free pat).length n)) m j *
          (((free pat).map α).map fun j => points.getD j 0).getD m 0 =
          (fun f => if j = f then points.getD (α f) 0 else 0) ((free pat).getD m 0) := by
        intro m hm
        rw [Finset.mem_range] at hm
        have g2 : (((free pat).map α).map fun j => points.getD j 0).getD m 0 = points.getD (α ((free pat).getD m 0)) 0 := by
          rw [List.getD_eq_getElem?_getD, List.getElem?_map, List.getElem?_map, List.getElem?_eq_getElem hm]
          simp only [Option.map_some, Option.getD_some, List.getD_eq_getElem?_getD (l := free pat),
            List.getElem?_eq_getElem hm]
        rw [g2]
        have g1 : axis (entType c (free pat).length n) (entityVerts (refVertex c : ℕ → ℕ → ℝ)
            (entVerts c (free pat).length n)) m j = if j = (free pat).getD m 0 then 1 else 0 := by
          by_cases hj : j < 3
          · have := hax m hm j hj
            simp only [axis, psub, entityVerts]
            rw [refVertex_cast, refVertex_cast, ← Rat.cast_sub, this]
            split_ifs <;> simp
          · simp only [axis, psub, entityVerts]
            rw [refVertex_ge _ _ _ (by omega), refVertex_ge _ _ _ (by omega), if_neg, sub_zero]
            have : (free pat).getD m 0 ∈ free pat := by
              rw [List.getD_eq_getElem?_getD, List.getElem?_eq_getElem hm]
              exact List.getElem_mem hm
            have := (mem_free.1 this).1
            omega
        rw [g1]
        simp only
        split_ifs <;> simp
      rw [Finset.sum_congr rfl e1, sum_getD (free pat) (fun f => if j = f then points.getD (α f) 0 else 0)]
      have hnd : (free pat).Nodup := List.nodup_range.filter _
      have e2 : ∀ l : List ℕ, l.Nodup → (l.map fun f => if j = f then points.getD (α f) 0 else 0).sum =
          if j ∈ l then points.getD (α j) 0 else 0 := by
        intro l hl
        induction l with
        | nil => simp
        | cons a l ih =>
          rw [List.nodup_cons] at hl
          rw [List.map_cons, List.sum_cons, ih hl.2]
          by_cases h : j = a
          · subst h; simp [hl.1]
          · simp [h]
      rw [e2 _ hnd]
      unfold nodeOf
      by_cases h : α j = 0
      · rw [if_neg (by omega), if_neg (by rw [hfree]; tauto), if_pos h, add_zero]
      · by_cases h' : α j = k
        · rw [if_pos h', if_neg (by rw [hfree]; tauto), if_neg h, if_pos h', add_zero]
        · rw [if_neg h', if_pos (by rw [hfree]; tauto), if_neg h, if_neg h', zero_add]
    · obtain ⟨j, hj, rfl⟩ := List.mem_map.1 ha
      have := (hfree j).1 (List.mem_reverse.1 hj)
      have := hα j
      omega

/-- For every grid point there is an evaluation at the point, attached to the face of the cell on which the
point lies. -/
theorem q_cover {c : Cell} (hc : Tensor c) {points : List ℝ} {k : ℕ} (hk : 0 < k) (α : ℕ → ℕ) (hα : ∀ j, α j ≤ k)
    (h0 : ∀ j, c.tdim ≤ j → α j = 0) :
    ∃ d ∈ allPoints c (refVertex c) points k (fun _ _ => true), (d.point = fun j => nodeOf points k (α j)) ∧
      ∀ i ∈ vertsOf c d.entity, i < c.nverts ∧ ∀ j, (α j = 0 → (refVertex c i j : ℝ) = 0) ∧
        (α j = k → (refVertex c i j : ℝ) = 1) := by
  refine ⟨_, List.mem_of_getElem? (q_index hc hk α hα h0), rfl, ?_⟩
  have hg : ∀ {j}, j < 3 → (patternOf k α).getD j 0 = if α j = 0 then 0 else if α j = k then 1 else 2 := fun hj => by
    rw [patternOf_getD _ _ hj]
  obtain ⟨h3, hn, -, -, hev, hiff⟩ := faceNumber_row hc (patternOf_mem k α c.tdim hc.tdim_le h0)
  intro i hi
  have hi : i ∈ entVerts c (free (patternOf k α)).length (faceNumber c (patternOf k α)) := by
    unfold vertsOf at hi
    split_ifs at hi with h
    · simp only at h hi
      rw [h] at hn ⊢
      have hn' : faceNumber c (patternOf k α) < c.nverts := by
        have : count c 0 = c.nverts := by simp [count, Cell.subEntityCount, Cell.subEntities]
        omega
      simpa [entVerts, Cell.subEntities, List.getElem?_range hn'] using hi
    · exact hi
  have hi' := hev i hi
  refine ⟨hi', fun j => ?_⟩
  by_cases hj : j < 3
  · have hij := (hiff i hi').1 hi j hj
    rw [hg hj] at hij
    rw [refVertex_cast]
    refine ⟨fun h => ?_, fun h => ?_⟩
    · rw [if_pos h] at hij
      rw [hij (by omega)]; simp
    · rw [if_neg (by omega), if_pos h] at hij
      rw [hij (by omega)]; simp
  · rw [refVertex_ge _ _ _ (by omega)]
    have := h0 j (by have := hc.tdim_le; omega)
    exact ⟨fun _ => rfl, fun h => by omega⟩

/-- The polynomials of degree at most `k` in each of the first `d` variables. -/
def QSet (d k : ℕ) : Set (ℕ →₀ ℕ) := {t | (∀ i, t i ≤ k) ∧ ∀ i, d ≤ i → t i = 0}

theorem QSet_lower (d k : ℕ) : IsLowerSet (QSet d k) := fun _ _ hab ha =>
  ⟨fun i => (hab i).trans (ha.1 i), fun i hi => Nat.le_zero.1 ((hab i).trans (ha.2 i hi).le)⟩

/-- **C82** A polynomial of the space whose DOFs on the closure of an entity are zero is zero on the entity. -/
theorem q_entity {variant : String} {c : Cell} (hc : Tensor c) {k : ℕ} (hk : 0 < k) {l : List PointDof}
    (hl : qDofs variant c (refVertex c) k = some l) {dim n : ℕ} (hd : dim ≤ 3) (hn : n < count c dim)
    (p : MvPolynomial ℕ ℝ) (hp : ∀ t ∈ p.support, t ∈ QSet c.tdim k)
    (h : ∀ d ∈ l, (∀ i ∈ vertsOf c d.entity, i ∈ entVerts c dim n) → eval d.point p = 0)
    (lam : ℕ → ℝ) (hlam : ∑ i ∈ (entVerts c dim n).toFinset, lam i = 1) :
    eval (fun j => ∑ i ∈ (entVerts c dim n).toFinset, lam i * (refVertex c i j : ℝ)) p = 0 := by
  obtain ⟨points, hr, rfl⟩ := qDofs_eq hc.fixed _ hk hl
  obtain ⟨w, hw⟩ := rulePoints_wf hk hr
  obtain ⟨pat, hpat, hdim, -, -, -, hev, hiff⟩ := table_surj c hc dim n hd hn
  rw [hdim] at hev hiff
  obtain ⟨hle, hz⟩ := patterns_wf hc.tdim_le hpat
  have hpat3 : ∀ j < 3, pat.getD j 0 = 0 ∨ pat.getD j 0 = 1 ∨ pat.getD j 0 = 2 := hle
  let J : ℕ → Option ℝ := fun j => if j < 3 ∧ pat.getD j 0 ≠ 2 then some ((pat.getD j 0 : ℕ) : ℝ) else none
  have hpz : ∀ j, c.tdim ≤ j → j < 3 → pat.getD j 0 = 0 := hz
  have hzero : fixVars J p = 0 := by
    refine eq_zero_of_lower' _ _ (QSet_lower c.tdim k) (support_fixVars J (QSet_lower _ _) hp)
      (fun _ => nodeOf points k) (fun t ht i => (node_injOn hw).mono fun a ha => ?_) fun t ht => ?_
    · exact (Set.mem_Iic.1 ha).trans (ht.1 i)
    · rw [eval_fixVars]
      let α : ℕ → ℕ := fun j => if j < 3 ∧ pat.getD j 0 ≠ 2 then (if pat.getD j 0 = 0 then 0 else k) else t j
      obtain ⟨d, hd, hpt, hcl⟩ := q_cover hc (points := points) hk α (fun j => by
        simp only [α]; split_ifs <;> first | omega | exact ht.1 j) (fun j hj => by
        simp only [α]
        by_cases h3 : j < 3
        · rw [hpz j hj h3]; simp [h3]
        · rw [if_neg (by tauto)]; exact ht.2 j hj)
      have := h d hd fun i hi => by
        obtain ⟨h1, h2⟩ := hcl i hi
        rw [hiff i h1]
        intro j hj h2'
        have hh := h2 j
        have hα : α j = if pat.getD j 0 = 0 then 0 else k := by simp only [α]; rw [if_pos ⟨hj, h2'⟩]
        rw [hα] at hh
        rcases hpat3 j hj with e | e | e
        · rw [e] at hh ⊢
          have := hh.1 (if_pos rfl)
          rw [refVertex_cast] at this
          exact_mod_cast this
        · rw [e] at hh ⊢
          have := hh.2 (if_neg (by omega))
          rw [refVertex_cast] at this
          exact_mod_cast this
        · exact absurd e h2'
      rw [hpt] at this
      rw [← this]
      congr 2
      funext j
      simp only [J, α]
      by_cases hj : j < 3 ∧ pat.getD j 0 ≠ 2
      · rw [if_pos hj, if_pos hj]
        rcases hpat3 j hj.1 with e | e | e
        · rw [e]; simp [nodeOf]
        · rw [e]; simp [nodeOf, hk.ne']
        · exact absurd e hj.2
      · rw [if_neg hj, if_neg hj]; rfl
  have key := eval_fixVars J p (fun j => ∑ i ∈ (entVerts c dim n).toFinset, lam i * (refVertex c i j : ℝ))
  rw [hzero, map_zero] at key
  rw [key]
  congr 2
  funext j
  simp only [J]
  by_cases hj : j < 3 ∧ pat.getD j 0 ≠ 2
  · rw [if_pos hj]
    have : ∀ i ∈ (entVerts c dim n).toFinset, lam i * (refVertex c i j : ℝ) = lam i * (pat.getD j 0 : ℕ) := by
      intro i hi
      rw [List.mem_toFinset] at hi
      have := (hiff i (hev i hi)).1 hi j hj.1 hj.2
      rw [refVertex_cast, this]
      norm_cast
    rw [Finset.sum_congr rfl this, ← Finset.sum_mul, hlam, one_mul]
    rfl
  · rw [if_neg hj]; rfl

/-- **C58** A polynomial of the space that vanishes at all DOF points is zero. -/
theorem q_unisolvent {variant : String} {c : Cell} (hc : Tensor c) {k : ℕ} (hk : 0 < k) {l : List PointDof}
    (hl : qDofs variant c (refVertex c) k = some l) (p : MvPolynomial ℕ ℝ)
    (hp : ∀ t ∈ p.support, t ∈ QSet c.tdim k) (h : ∀ d ∈ l, eval d.point p = 0) : p = 0 := by
  obtain ⟨points, hr, rfl⟩ := qDofs_eq hc.fixed _ hk hl
  obtain ⟨w, hw⟩ := rulePoints_wf hk hr
  refine eq_zero_of_lower' _ _ (QSet_lower c.tdim k) hp
    (fun _ => nodeOf points k) (fun t ht i => (node_injOn hw).mono fun a ha => ?_) fun t ht => ?_
  · exact (Set.mem_Iic.1 ha).trans (ht.1 i)
  · obtain ⟨d, hd, hpt, -⟩ := q_cover hc (points := points) hk (fun j => t j) ht.1 ht.2
    rw [← h d hd, hpt]

/-- **C57** A Q element has as many DOFs as its space has dimensions. -/
theorem q_count {variant : String} {c : Cell} (hc : Tensor c) (v : ℕ → ℕ → ℝ) (k : ℕ)
    {l : List PointDof} (hl : qDofs variant c v k = some l) : l.length = (k + 1) ^ c.tdim := by
  rcases Nat.eq_zero_or_pos k with rfl | hk
  · unfold qDofs at hl
    split at hl
    · cases hl
    rw [if_pos rfl, getPoint_eq _ _ _ (by rcases hc with rfl | rfl | rfl <;> rfl)] at hl
    cases hl
    simp
  · obtain ⟨points, -, rfl⟩ := qDofs_eq hc.fixed v hk hl
    rw [length_allPoints _ _ _ _ _ _ (length_entityList_q c v points k)]
    obtain ⟨m, rfl⟩ : ∃ m, k = m + 1 := ⟨k - 1, by omega⟩
    rcases hc with rfl | rfl | rfl
    · show 2 + (1 * m ^ 1 + 0 * _ + 0 * _) = (m + 1 + 1) ^ 1
      ring
    · show 4 + (4 * m ^ 1 + 1 * m ^ 2 + 0 * _) = (m + 1 + 1) ^ 2
      ring
    · show 8 + (12 * m ^ 1 + 6 * m ^ 2 + 1 * m ^ 3) = (m + 1 + 1) ^ 3
      ring

/-- `Q(reference, order, variant)` (symfem/elements/q.py:30-87). -/
noncomputable def qElement (variant : String) (c : Cell) (v : ℕ → ℕ → ℝ) (k : ℕ) :
    Option (Element ℝ (MvPolynomial ℕ ℝ)) :=
  (qDofs variant c v k).bind fun dofs =>
    ciarlet ((quolySet c.tdim k).map (denoteMono ℝ)) (dofs.map PointDof.functional)

theorem quoly_span {d k : ℕ} {p : MvPolynomial ℕ ℝ}
    (hp : p ∈ Submodule.span ℝ {p | p ∈ (quolySet d k).map (denoteMono ℝ)}) : ∀ t ∈ p.support, t ∈ QSet d k := by
  refine span_le (fun m hm => ?_) hp
  obtain ⟨a, b⟩ := ((quolySet_spec d k).2 m).1 hm
  refine ⟨fun i => ?_, fun i hi => ?_⟩
  · have e := expo_apply 0 m i
    rw [Nat.zero_add] at e
    rw [e]
    by_cases hi : i < m.length
    · rw [List.getD_eq_getElem?_getD, List.getElem?_eq_getElem hi]
      exact_mod_cast b _ (List.getElem_mem hi)
    · rw [List.getD_eq_default (hn := by omega)]; omega
  · have e := expo_apply 0 m i
    rwa [Nat.zero_add, List.getD_eq_default (hn := by omega)] at e

/-- Order 0. -/
theorem q_zero {d : ℕ} {l : List PointDof} {p : MvPolynomial ℕ ℝ} (hsup : ∀ t ∈ p.support, t ∈ QSet d 0)
    (hz : ∀ d ∈ l, eval d.point p = 0) (hl : l.length ≠ 0) : p = 0 := by
  have hC : p = C (coeff 0 p) := by
    refine totalDegree_eq_zero_iff_eq_C.1 (Nat.le_zero.1 (Finset.sup_le fun t ht => ?_))
    have : t = 0 := Finsupp.ext fun i => Nat.le_zero.1 ((hsup t ht).1 i)
    simp [this]
  obtain ⟨d, hd⟩ : ∃ d, d ∈ l := List.exists_mem_of_ne_nil l (by rintro rfl; exact hl rfl)
  have := hz d hd
  rw [hC, eval_C] at this
  rw [hC, this, map_zero]

/-- **C58** A Q element can be created, and has basis functions, at every order, whenever the points of its variant
are available. -/
theorem q_created {variant : String} (hvar : variant ≠ "legendre") {c : Cell} (hc : Tensor c) (k : ℕ)
    (hr : 0 < k → ∃ points, rulePoints variant k = some points) :
    ∃ e, qElement variant c (refVertex c) k = some e ∧ (getBasis e).isSome := by
  obtain ⟨l, hl⟩ : ∃ l, qDofs variant c (refVertex c) k = some l := by
    rcases Nat.eq_zero_or_pos k with rfl | hk
    · unfold qDofs
      rw [if_neg hvar, if_pos rfl, getPoint_eq _ _ _ (by rcases hc with rfl | rfl | rfl <;> rfl)]
      exact ⟨_, rfl⟩
    · obtain ⟨points, hr⟩ := hr hk
      unfold qDofs
      rw [if_neg hvar, if_neg hk.ne', hr, Option.bind_some, joined_eq hc.fixed]
      exact ⟨_, rfl⟩
  have hlen : (l.map PointDof.functional).length = ((quolySet c.tdim k).map (denoteMono ℝ)).length := by
    rw [List.length_map, List.length_map, q_count hc _ _ hl, quolySet_length]
  refine ⟨.ciarlet ((quolySet c.tdim k).map (denoteMono ℝ)) (l.map PointDof.functional), ?_, ?_⟩
  · simp only [qElement, hl, Option.bind_some, ciarlet, if_pos hlen]
  · refine getBasis_isSome hlen ((scalar_sets_independent ℝ).2.1 _ _) fun p hps hz => ?_
    have hz' : ∀ d ∈ l, eval d.point p = 0 := fun d hd => by
      rw [← eval_functional]
      exact hz _ (List.mem_map_of_mem hd)
    have hsup := quoly_span hps
    rcases Nat.eq_zero_or_pos k with rfl | hk
    · exact q_zero hsup hz' (by rw [q_count hc _ _ hl]; simp)
    · exact q_unisolvent hc hk hl p hsup hz'

example (k : ℕ) : ∃ e, qElement "equispaced" .hexahedron (refVertex .hexahedron) k = some e ∧ (getBasis e).isSome :=
  q_created (by decide) (Or.inr (Or.inr rfl)) k fun hk => (rulePoints_equispaced hk).imp fun _ h => h.1

end Verif.Elements
