import Mathlib.Data.List.GetD
import Verif.Elements.Points
import Verif.References.SpecShape
import Mathlib.Data.List.Sublists
import Mathlib.Algebra.BigOperators.Group.List.Basic
/-!
# Lagrange elements on simplices

C58: unisolvence.  C82: continuity between cells.
-/

namespace Verif.Elements
open Verif.References Verif.Quadrature Verif.Polysets
open MvPolynomial

/-- The simplices on which Lagrange elements are defined (symfem/elements/lagrange.py:102). -/
def Simplex (c : Cell) : Prop := c = .interval ∨ c = .triangle ∨ c = .tetrahedron

theorem Simplex.fixed {c : Cell} (h : Simplex c) : Fixed c := by
  rcases h with rfl | rfl | rfl <;> intro n h <;> cases h

/-- Every set of vertices of a simplex is an entity. -/
theorem Simplex.entity {c : Cell} (h : Simplex c) (e : List ℕ) (he : e.Sublist (List.range c.nverts))
    (hne : 2 ≤ e.length) : e.length - 1 ≤ 3 ∧ ∃ n < count c (e.length - 1), entVerts c (e.length - 1) n = e ∧
      axisVertices (entType c (e.length - 1) n) = List.range' 1 (e.length - 1) := by
  have key : ∀ c ∈ [Cell.interval, .triangle, .tetrahedron], ∀ e ∈ (List.range c.nverts).sublists,
      2 ≤ e.length → e.length - 1 ≤ 3 ∧ ∃ n < count c (e.length - 1), entVerts c (e.length - 1) n = e ∧
      axisVertices (entType c (e.length - 1) n) = List.range' 1 (e.length - 1) := by decide +kernel
  exact key c (by rcases h with rfl | rfl | rfl <;> simp) e (List.mem_sublists.2 he) hne

/-- The vertices of an entity given as a pair of numbers. -/
def vertsOf (c : Cell) (e : ℕ × ℕ) : List ℕ := if e.1 = 0 then [e.2] else entVerts c e.1 e.2

theorem sum_eq_list (n : ℕ) (β : ℕ → ℕ) (g : ℕ → ℝ) :
    ∑ i ∈ Finset.range n, (β i : ℝ) * g i =
      (((List.range n).filter fun i => decide (β i ≠ 0)).map fun i => (β i : ℝ) * g i).sum := by
  induction n with
  | zero => simp
  | succ n ih =>
    rw [Finset.sum_range_succ, ih, List.range_succ, List.filter_append, List.map_append, List.sum_append]
    by_cases h : β n = 0 <;> simp [h]

theorem sum_eq_list_nat (n : ℕ) (β : ℕ → ℕ) :
    ∑ i ∈ Finset.range n, β i = (((List.range n).filter fun i => decide (β i ≠ 0)).map β).sum := by
  induction n with
  | zero => simp
  | succ n ih =>
    rw [Finset.sum_range_succ, ih, List.range_succ, List.filter_append, List.map_append, List.sum_append]
    by_cases h : β n = 0 <;> simp [h]

theorem sum_getD (l : List ℕ) (f : ℕ → ℝ) (d : ℕ) : ∑ m ∈ Finset.range l.length, f (l.getD m d) = (l.map f).sum := by
  induction l with
  | nil => simp
  | cons a l ih => rw [List.length_cons, Finset.sum_range_succ']; simp only [List.getD_cons_succ,
    List.getD_cons_zero, List.map_cons, List.sum_cons, ih, add_comm]

/-- For every point with barycentric coordinates in `(1/k)ℕ` there is an evaluation at the point, attached to
the entity whose vertices are those with nonzero coordinates. -/
theorem lagrange_cover_iff {c : Cell} (hc : Simplex c) (v : ℕ → ℕ → ℝ) {k : ℕ} (hk : 0 < k) {points : List ℝ}
    (hp : ∀ i ≤ k, points.getD i 0 = (i : ℝ) / k) (β : ℕ → ℕ) (hβ : ∑ i ∈ Finset.range c.nverts, β i = k) :
    ∃ d ∈ allPoints c v points k (fun _ i => decide (i.sum < k)),
      (d.point = fun j => ∑ i ∈ Finset.range c.nverts, (β i : ℝ) / k * v i j) ∧
      ∀ i, i ∈ vertsOf c d.entity ↔ i < c.nverts ∧ β i ≠ 0 := by
  have hkR : (k : ℝ) ≠ 0 := Nat.cast_ne_zero.2 hk.ne'
  obtain ⟨e, hedef⟩ : ∃ e, e = (List.range c.nverts).filter fun i => decide (β i ≠ 0) := ⟨_, rfl⟩
  have hsub : e.Sublist (List.range c.nverts) := hedef ▸ List.filter_sublist
  have hiff : ∀ i, i ∈ e ↔ i < c.nverts ∧ β i ≠ 0 := fun i => by
    rw [hedef, List.mem_filter, List.mem_range, decide_eq_true_eq]
  have hmem : ∀ i ∈ e, β i ≠ 0 := fun i hi => ((hiff i).1 hi).2
  have hsum : (e.map β).sum = k := by rw [hedef, ← sum_eq_list_nat, hβ]
  have hpt : ∀ j, ∑ i ∈ Finset.range c.nverts, (β i : ℝ) / k * v i j = (e.map fun i => (β i : ℝ) * (v i j / k)).sum := by
    intro j
    rw [hedef, ← sum_eq_list]
    exact Finset.sum_congr rfl fun i _ => by ring
  match he : e with
  | [] => simp at hsum; omega
  | [a] =>
    refine ⟨⟨v a, (0, a)⟩, List.mem_append_left _ (List.mem_map.2 ⟨a, ?_, rfl⟩), ?_, ?_⟩
    · exact hsub.subset (by simp)
    · funext j
      rw [hpt]
      simp at hsum
      simp [hsum]
      field_simp
    · intro i
      rw [← hiff i]
      simp [vertsOf]
  | a :: b :: r =>
    obtain ⟨h3, n, hn, hen, hax⟩ := hc.entity _ hsub (by simp)
    simp only [List.length_cons, Nat.add_sub_cancel] at h3 hn hen hax
    have hlen : ((b :: r).map β).reverse.length = r.length + 1 := by simp
    have hbsum : ((b :: r).map β).sum < k := by
      have := hmem a (by simp)
      rw [List.map_cons, List.sum_cons] at hsum
      omega
    have hlt : ∀ x ∈ (b :: r).map β, x < k := fun x hx =>
      lt_of_le_of_lt (List.single_le_sum (by simp) x hx) hbsum
    refine ⟨_, mem_allPoints (by omega) h3 hn hlen ?_ ?_, ?_, ?_⟩
    · intro x hx
      rw [List.mem_reverse] at hx
      refine ⟨?_, hlt x hx⟩
      obtain ⟨i, hi, rfl⟩ := List.mem_map.1 hx
      have := hmem i (by simp at hi ⊢; tauto)
      omega
    · rw [List.sum_reverse]
      exact decide_eq_true hbsum
    · funext j
      rw [hpt]
      show entityPoint _ (entityVerts v (entVerts c (r.length + 1) n)) _ j = _
      rw [hen, List.reverse_reverse]
      unfold entityPoint
      rw [List.length_map, List.length_map]
      have e1 : ∀ m ∈ Finset.range (b :: r).length, axis (entType c (r.length + 1) n) (entityVerts v (a :: b :: r)) m j *
          (((b :: r).map β).map fun j => points.getD j 0).getD m 0 =
          (fun i => (v i j - v a j) * ((β i : ℝ) / k)) ((b :: r).getD m 0) := by
        intro m hm
        rw [Finset.mem_range] at hm
        have hm' : m < r.length + 1 := by simpa using hm
        have g1 : (axisVertices (entType c (r.length + 1) n)).getD m 0 = m + 1 := by
          rw [hax, List.getD_eq_getElem?_getD, List.getElem?_range' (by omega)]
          simp; omega
        have g2 : (((b :: r).map β).map fun j => points.getD j 0).getD m 0 = (β ((b :: r).getD m 0) : ℝ) / k := by
          rw [List.getD_eq_getElem?_getD, List.getElem?_map, List.getElem?_map, List.getElem?_eq_getElem hm]
          simp only [Option.map_some, Option.getD_some, List.getD_eq_getElem?_getD (l := b :: r),
            List.getElem?_eq_getElem hm]
          exact hp _ (hlt _ (List.mem_map_of_mem (List.getElem_mem hm))).le
        rw [g2]
        unfold axis psub entityVerts
        rw [g1]
        simp
      rw [Finset.sum_congr rfl e1, sum_getD (b :: r) (fun i => (v i j - v a j) * ((β i : ℝ) / k))]
      have e2 : ∀ l : List ℕ, (l.map fun i => (v i j - v a j) * ((β i : ℝ) / k)).sum =
          (l.map fun i => (β i : ℝ) * (v i j / k)).sum - ((l.map β).sum : ℝ) / k * v a j := by
        intro l
        induction l with
        | nil => simp
        | cons x l ih => simp only [List.map_cons, List.sum_cons, ih]; push_cast; ring
      rw [e2]
      have e3 : ((((b :: r).map β).sum : ℕ) : ℝ) = k - β a := by
        have : β a + ((b :: r).map β).sum = k := by rw [← hsum, List.map_cons (l := b :: r), List.sum_cons]
        rw [← this, Nat.cast_add]; ring
      have e4 : entityVerts v (a :: b :: r) 0 j = v a j := rfl
      rw [e3, e4, List.map_cons (l := b :: r), List.sum_cons]
      field_simp
      ring
    · intro i
      have : vertsOf c (r.length + 1, n) = a :: b :: r := by simp [vertsOf, hen]
      rw [← hiff i, ← this]

/-- The same for one direction. -/
theorem lagrange_cover {c : Cell} (hc : Simplex c) (v : ℕ → ℕ → ℝ) {k : ℕ} (hk : 0 < k) {points : List ℝ}
    (hp : ∀ i ≤ k, points.getD i 0 = (i : ℝ) / k) (β : ℕ → ℕ) (hβ : ∑ i ∈ Finset.range c.nverts, β i = k) :
    ∃ d ∈ allPoints c v points k (fun _ i => decide (i.sum < k)),
      (d.point = fun j => ∑ i ∈ Finset.range c.nverts, (β i : ℝ) / k * v i j) ∧
      ∀ i ∈ vertsOf c d.entity, β i ≠ 0 := by
  obtain ⟨d, h1, h2, h3⟩ := lagrange_cover_iff hc v hk hp β hβ
  exact ⟨d, h1, h2, fun i hi => ((h3 i).1 hi).2⟩

theorem lagrangeDofs_equispaced {c : Cell} (hc : Fixed c) (v : ℕ → ℕ → ℝ) {k : ℕ} (hk : 0 < k) :
    ∃ points, (∀ i ≤ k, points.getD i 0 = (i : ℝ) / k) ∧
      lagrangeDofs "equispaced" c v k = some (allPoints c v points k fun _ i => decide (i.sum < k)) := by
  obtain ⟨points, hp, hv⟩ := rulePoints_equispaced hk
  refine ⟨points, hv, ?_⟩
  unfold lagrangeDofs
  rw [if_neg (by decide), if_neg hk.ne', hp]
  rw [Option.bind_some, if_neg (by simp)]
  exact joined_eq hc v points k _

/-- The entities of simplices: the vertices are distinct, and axis `m` joins vertex 0 to vertex `m + 1`. -/
theorem Simplex.entity_axes {c : Cell} (hc : Simplex c) {edim n : ℕ} (h1 : 1 ≤ edim) (h3 : edim ≤ 3)
    (hn : n < count c edim) : (entVerts c edim n).Nodup ∧ (entVerts c edim n).length = edim + 1 ∧
      (∀ i ∈ entVerts c edim n, i < c.nverts) ∧
      ∀ m < edim, (axisVertices (entType c edim n)).getD m 0 = m + 1 := by
  have key : ∀ c ∈ [Cell.interval, .triangle, .tetrahedron], ∀ edim < 4, 1 ≤ edim → ∀ n < count c edim,
      (entVerts c edim n).Nodup ∧ (entVerts c edim n).length = edim + 1 ∧ (∀ i ∈ entVerts c edim n, i < c.nverts) ∧
      ∀ m < edim, (axisVertices (entType c edim n)).getD m 0 = m + 1 := by decide +kernel
  exact key c (by rcases hc with rfl | rfl | rfl <;> simp) edim (by omega) h1 n hn

/-- The DOF points are points of the lattice of the vertices of their entity, with nonzero coordinates. -/
theorem lagrange_lattice_iff {c : Cell} (hc : Simplex c) (v : ℕ → ℕ → ℝ) {k : ℕ} (hk : 0 < k) {l : List PointDof}
    (hl : lagrangeDofs "equispaced" c v k = some l) {d : PointDof} (hd : d ∈ l) :
    ∃ β : ℕ → ℕ, ∑ i ∈ Finset.range c.nverts, β i = k ∧ (∀ i, β i ≠ 0 ↔ i ∈ vertsOf c d.entity) ∧
      d.point = fun j => ∑ i ∈ Finset.range c.nverts, (β i : ℝ) / k * v i j := by
  classical
  obtain ⟨points, hpts, hl'⟩ := lagrangeDofs_equispaced hc.fixed v hk
  obtain rfl : allPoints c v points k (fun _ i => decide (i.sum < k)) = l := Option.some.inj (hl'.symm.trans hl)
  have hk' : (k : ℝ) ≠ 0 := by exact_mod_cast hk.ne'
  rcases List.mem_append.1 hd with hd | hd
  · obtain ⟨i, hi, rfl⟩ := List.mem_map.1 hd
    rw [List.mem_range] at hi
    refine ⟨fun x => if x = i then k else 0, ?_, fun x => ?_, ?_⟩
    · rw [Finset.sum_ite_eq' , if_pos (Finset.mem_range.2 hi)]
    · by_cases h : x = i <;> simp [vertsOf, h, hk.ne']
    · funext j
      rw [Finset.sum_eq_single_of_mem i (Finset.mem_range.2 hi) (fun x _ hx => by simp [hx])]
      simp [hk']
  · obtain ⟨edim, hedim, hd⟩ := List.mem_flatMap.1 hd
    obtain ⟨n, hn, hd⟩ := List.mem_flatMap.1 hd
    obtain ⟨i, hi, rfl⟩ := List.mem_map.1 hd
    rw [List.mem_filter, mem_product] at hi
    obtain ⟨⟨hlen, hin⟩, hsum⟩ := hi
    rw [List.mem_range'_1] at hedim
    obtain ⟨hnd, hle, hlt, hax⟩ := hc.entity_axes hedim.1 (by omega) (List.mem_range.1 hn)
    have hvo : vertsOf c (edim, n) = entVerts c edim n := by
      unfold vertsOf
      rw [if_neg (by show edim ≠ 0; omega)]
    obtain ⟨e, he⟩ : ∃ e, e = entVerts c edim n := ⟨_, rfl⟩
    rw [← he] at hnd hle hlt
    -- the coordinates, with the first one completing the sum
    obtain ⟨s, hs⟩ : ∃ s, s = (k - i.sum) :: i.reverse := ⟨_, rfl⟩
    have hsl : s.length = e.length := by rw [hs, hle]; simp [hlen]
    have hssum : s.sum = k := by
      rw [hs, List.sum_cons, List.sum_reverse]
      have : i.sum < k := by simpa using hsum
      omega
    let β : ℕ → ℕ := fun x => s.getD (e.idxOf x) 0
    have hβ : ∀ m < e.length, β (e.getD m 0) = s.getD m 0 := by
      intro m hm
      simp only [β]
      rw [List.getD_eq_getElem?_getD (l := e), List.getElem?_eq_getElem hm, Option.getD_some, hnd.idxOf_getElem]
    have hβ0 : ∀ x, x ∉ e → β x = 0 := fun x hx => by
      simp only [β]
      rw [List.idxOf_eq_length hx, List.getD_eq_default (hn := by omega)]
    have hext : ∀ {M : Type} [AddCommMonoid M] (f : ℕ → M), (∀ x ∉ e, f x = 0) →
        ∑ x ∈ Finset.range c.nverts, f x = ∑ m ∈ Finset.range e.length, f (e.getD m 0) := by
      intro M _ f hf
      have h1 : ∑ x ∈ Finset.range c.nverts, f x = ∑ x ∈ e.toFinset, f x :=
        (Finset.sum_subset (fun x hx => Finset.mem_range.2 (hlt x (List.mem_toFinset.1 hx)))
          fun x _ hx => hf x fun h => hx (List.mem_toFinset.2 h)).symm
      rw [h1]
      refine (Finset.sum_bij (fun m _ => e.getD m 0) (fun m hm => ?_) (fun a ha b hb hab => ?_) (fun x hx => ?_)
        (fun _ _ => rfl)).symm
      · rw [Finset.mem_range] at hm
        rw [List.getD_eq_getElem?_getD, List.getElem?_eq_getElem hm]
        exact List.mem_toFinset.2 (List.getElem_mem hm)
      · rw [Finset.mem_range] at ha hb
        rw [List.getD_eq_getElem?_getD, List.getElem?_eq_getElem ha, List.getD_eq_getElem?_getD,
          List.getElem?_eq_getElem hb] at hab
        exact (List.Nodup.getElem_inj_iff hnd).1 hab
      · obtain ⟨m, hm, rfl⟩ := List.getElem_of_mem (List.mem_toFinset.1 hx)
        refine ⟨m, Finset.mem_range.2 hm, ?_⟩
        rw [List.getD_eq_getElem?_getD, List.getElem?_eq_getElem hm]
        rfl
    refine ⟨β, ?_, fun x => ?_, ?_⟩
    · rw [hext β hβ0, Finset.sum_congr rfl fun m hm => hβ m (Finset.mem_range.1 hm), ← hssum, ← hsl]
      have : ∀ s : List ℕ, ∑ m ∈ Finset.range s.length, s.getD m 0 = s.sum := by
        intro s
        induction s with
        | nil => simp
        | cons a s ih => rw [List.length_cons, Finset.sum_range_succ', List.sum_cons, ← ih, add_comm]; rfl
      exact this s
    · rw [hvo, ← he]
      refine ⟨fun hx => by
        by_contra h
        exact hx (hβ0 x h), fun hx => ?_⟩
      have hx' : e.idxOf x < s.length := by rw [hsl]; exact List.idxOf_lt_length_of_mem hx
      have hpos : ∀ y ∈ s, y ≠ 0 := by
        intro y hy
        rw [hs, List.mem_cons, List.mem_reverse] at hy
        rcases hy with rfl | hy
        · have : i.sum < k := by simpa using hsum
          omega
        · have := mem_innerRange.1 (hin _ hy)
          omega
      simp only [β]
      rw [List.getD_eq_getElem s _ hx']
      exact hpos _ (List.getElem_mem hx')
    · funext j
      rw [hext (fun x => (β x : ℝ) / k * v x j) (fun x hx => by simp [hβ0 x hx]),
        Finset.sum_congr rfl fun m hm => by rw [hβ m (Finset.mem_range.1 hm)], hle, Finset.sum_range_succ']
      show entityPoint _ _ _ j = _
      unfold entityPoint
      have hcs : (i.reverse.map fun j => points.getD j 0).length = edim := by simp [hlen]
      rw [hcs]
      have hrev : ∀ m < edim, (i.reverse.map fun j => points.getD j 0).getD m 0 = (s.getD (m + 1) 0 : ℝ) / k := by
        intro m hm
        have hm' : m < i.reverse.length := by simp [hlen, hm]
        have hmem : i.reverse[m] ∈ i := List.mem_reverse.1 (List.getElem_mem hm')
        rw [hs, List.getD_cons_succ, List.getD_eq_getElem?_getD, List.getElem?_map, List.getD_eq_getElem?_getD,
          List.getElem?_eq_getElem hm']
        have := mem_innerRange.1 (hin _ hmem)
        exact hpts _ (by omega)
      have hs0 : (s.getD 0 0 : ℝ) / k = 1 - ∑ m ∈ Finset.range edim, (s.getD (m + 1) 0 : ℝ) / k := by
        have e1 : s.sum = s.getD 0 0 + ∑ m ∈ Finset.range edim, s.getD (m + 1) 0 := by
          have : edim = i.reverse.length := by simp [hlen]
          rw [hs, List.sum_cons, this]
          simp only [List.getD_cons_zero, List.getD_cons_succ]
          congr 1
          have : ∀ s : List ℕ, s.sum = ∑ m ∈ Finset.range s.length, s.getD m 0 := by
            intro s
            induction s with
            | nil => simp
            | cons a s ih => rw [List.length_cons, Finset.sum_range_succ', List.sum_cons, ih, add_comm]; rfl
          exact this _
        rw [hssum] at e1
        have e2 : (k : ℝ) = s.getD 0 0 + ∑ m ∈ Finset.range edim, (s.getD (m + 1) 0 : ℝ) := by exact_mod_cast e1
        rw [← Finset.sum_div, eq_sub_iff_add_eq, ← add_div, ← e2, div_self hk']
      rw [hs0, Finset.sum_congr rfl fun m hm => by
        rw [hrev m (Finset.mem_range.1 hm), axis, psub, hax m (Finset.mem_range.1 hm)]]
      simp only [entityVerts, ← he]
      rw [sub_mul, one_mul, Finset.sum_mul]
      have : ∀ m, (v (e.getD (m + 1) 0) j - v (e.getD 0 0) j) * ((s.getD (m + 1) 0 : ℝ) / k) =
        (s.getD (m + 1) 0 : ℝ) / k * v (e.getD (m + 1) 0) j - (s.getD (m + 1) 0 : ℝ) / k * v (e.getD 0 0) j :=
        fun m => by ring
      simp only [this, Finset.sum_sub_distrib]
      ring

/-- The same for one direction. -/
theorem lagrange_lattice {c : Cell} (hc : Simplex c) (v : ℕ → ℕ → ℝ) {k : ℕ} (hk : 0 < k) {l : List PointDof}
    (hl : lagrangeDofs "equispaced" c v k = some l) {d : PointDof} (hd : d ∈ l) :
    ∃ β : ℕ → ℕ, ∑ i ∈ Finset.range c.nverts, β i = k ∧ (∀ i, β i ≠ 0 → i ∈ vertsOf c d.entity) ∧
      d.point = fun j => ∑ i ∈ Finset.range c.nverts, (β i : ℝ) / k * v i j := by
  obtain ⟨β, h1, h2, h3⟩ := lagrange_lattice_iff hc v hk hl hd
  exact ⟨β, h1, fun i => (h2 i).1, h3⟩

/-- **C82** A polynomial of the space whose DOFs on the closure of an entity are zero is zero on the entity: the
entity is given by its set of vertices, its points are the affine combinations of the vertices. -/
theorem lagrange_entity {c : Cell} (hc : Simplex c) (v : ℕ → ℕ → ℝ) {k : ℕ} (hk : 0 < k) {l : List PointDof}
    (hl : lagrangeDofs "equispaced" c v k = some l) (S : Finset ℕ) (hS : S.Nonempty)
    (hS' : ∀ i ∈ S, i < c.nverts) (p : MvPolynomial ℕ ℝ) (hp : p.totalDegree ≤ k)
    (h : ∀ d ∈ l, (∀ i ∈ vertsOf c d.entity, i ∈ S) → eval d.point p = 0)
    (lam : ℕ → ℝ) (hlam : ∑ i ∈ S, lam i = 1) : eval (fun j => ∑ i ∈ S, lam i * v i j) p = 0 := by
  classical
  obtain ⟨points, hpts, hl'⟩ := lagrangeDofs_equispaced hc.fixed v hk
  obtain rfl : allPoints c v points k (fun _ i => decide (i.sum < k)) = l := Option.some.inj (hl'.symm.trans hl)
  obtain ⟨m, hm⟩ : ∃ m, S.card = m + 1 := ⟨S.card - 1, by have := hS.card_pos; omega⟩
  let eq := S.equivFinOfCardEq hm
  have hsum : ∀ {M : Type} [AddCommMonoid M] (f : ℕ → M), ∑ i ∈ S, f i = ∑ i : Fin (m + 1), f (eq.symm i) := by
    intro M _ f
    rw [← Finset.sum_coe_sort, ← Equiv.sum_comp eq.symm]
  rw [hsum] at hlam
  have hgoal : (fun j => ∑ i ∈ S, lam i * v i j) = fun j => ∑ i : Fin (m + 1), lam (eq.symm i) * v (eq.symm i) j := by
    funext j
    rw [hsum]
  rw [hgoal]
  refine simplex_interp hk (fun i => v (eq.symm i)) p hp (fun β hβ => ?_) (fun i => lam (eq.symm i)) hlam
  let β' : ℕ → ℕ := fun x => if hx : x ∈ S then β (eq ⟨x, hx⟩) else 0
  have hβ' : ∀ i, β' (eq.symm i) = β i := fun i => by
    simp only [β', dif_pos (eq.symm i).2]
    congr 1
    exact eq.apply_symm_apply i
  have hext : ∀ {M : Type} [AddCommMonoid M] (f : ℕ → M), (∀ x ∉ S, f x = 0) →
      ∑ x ∈ Finset.range c.nverts, f x = ∑ i : Fin (m + 1), f (eq.symm i) := by
    intro M _ f hf
    rw [← hsum]
    exact (Finset.sum_subset (fun x hx => Finset.mem_range.2 (hS' x hx)) fun x _ hx => hf x hx).symm
  obtain ⟨d, hd, hdp, hde⟩ := lagrange_cover hc v hk hpts β' (by
    rw [hext β' fun x hx => by simp [β', hx]]
    simp_rw [hβ']
    exact hβ)
  have := h d hd fun i hi => by
    by_contra hn
    exact hde i hi (by simp [β', hn])
  rw [hdp] at this
  rw [← this]
  congr 2
  funext j
  rw [hext (fun x => (β' x : ℝ) / k * v x j) fun x hx => by simp [β', hx]]
  simp_rw [hβ']

/-- **C82** Two cells share an entity, with any numbering of its vertices in either cell.  If functions of the two
spaces have the same DOF values at the common DOF points on the closure of the entity, then they are equal on the
entity. -/
theorem lagrange_conforming {c c' : Cell} (hc : Simplex c) (hc' : Simplex c') (v v' : ℕ → ℕ → ℝ) {k : ℕ} (hk : 0 < k)
    {l l' : List PointDof} (hl : lagrangeDofs "equispaced" c v k = some l)
    (hl' : lagrangeDofs "equispaced" c' v' k = some l') (S : Finset ℕ) (hS : S.Nonempty)
    (hS' : ∀ i ∈ S, i < c.nverts) (σ : ℕ → ℕ) (hσ : Set.InjOn σ S) (hσ' : ∀ i ∈ S, σ i < c'.nverts)
    (hv : ∀ i ∈ S, v' (σ i) = v i) (p q : MvPolynomial ℕ ℝ) (hp : p.totalDegree ≤ k) (hq : q.totalDegree ≤ k)
    (h : ∀ d ∈ l, ∀ d' ∈ l', (∀ i ∈ vertsOf c d.entity, i ∈ S) → (∀ i ∈ vertsOf c' d'.entity, i ∈ S.image σ) →
      d.point = d'.point → eval d.point p = eval d'.point q)
    (lam : ℕ → ℝ) (hlam : ∑ i ∈ S, lam i = 1) :
    eval (fun j => ∑ i ∈ S, lam i * v i j) p = eval (fun j => ∑ i ∈ S, lam i * v i j) q := by
  classical
  rw [← sub_eq_zero, ← map_sub]
  refine lagrange_entity hc v hk hl S hS hS' (p - q) ((totalDegree_sub _ _).trans (max_le hp hq)) (fun d hd hds => ?_)
    lam hlam
  obtain ⟨points, hpts, hl2⟩ := lagrangeDofs_equispaced hc'.fixed v' hk
  obtain rfl : allPoints c' v' points k (fun _ i => decide (i.sum < k)) = l' := Option.some.inj (hl2.symm.trans hl')
  obtain ⟨β, hβ, hβS, hdp⟩ := lagrange_lattice hc v hk hl hd
  have hβ0 : ∀ i, i ∉ S → β i = 0 := fun i hi => by
    by_contra hne
    exact hi (hds i (hβS i hne))
  let β' : ℕ → ℕ := fun x => ∑ i ∈ S with σ i = x, β i
  have hβ' : ∀ i ∈ S, β' (σ i) = β i := by
    intro i hi
    have : S.filter (fun j => σ j = σ i) = {i} := by
      ext j
      simp only [Finset.mem_filter, Finset.mem_singleton]
      exact ⟨fun ⟨a, b⟩ => hσ a hi b, by rintro rfl; exact ⟨hi, rfl⟩⟩
    simp only [β', this, Finset.sum_singleton]
  have hβ'0 : ∀ x, x ∉ S.image σ → β' x = 0 := by
    intro x hx
    refine Finset.sum_eq_zero fun i hi => ?_
    rw [Finset.mem_filter] at hi
    exact absurd (Finset.mem_image.2 ⟨i, hi⟩) hx
  have hext : ∀ {M : Type} [AddCommMonoid M] (f : ℕ → M), (∀ x ∉ S.image σ, f x = 0) →
      ∑ x ∈ Finset.range c'.nverts, f x = ∑ i ∈ S, f (σ i) := by
    intro M _ f hf
    rw [← Finset.sum_image hσ]
    refine (Finset.sum_subset (fun x hx => ?_) fun x _ hx => hf x hx).symm
    obtain ⟨i, hi, rfl⟩ := Finset.mem_image.1 hx
    exact Finset.mem_range.2 (hσ' i hi)
  have hext' : ∀ {M : Type} [AddCommMonoid M] (f : ℕ → M), (∀ x ∉ S, f x = 0) →
      ∑ x ∈ Finset.range c.nverts, f x = ∑ i ∈ S, f i := fun f hf =>
    (Finset.sum_subset (fun x hx => Finset.mem_range.2 (hS' x hx)) fun x _ hx => hf x hx).symm
  obtain ⟨d', hd', hdp', hde'⟩ := lagrange_cover hc' v' hk hpts β' (by
    rw [hext β' hβ'0, Finset.sum_congr rfl hβ', ← hext' β hβ0, hβ])
  have hpt : d.point = d'.point := by
    rw [hdp, hdp']
    funext j
    rw [hext' _ (fun x hx => by simp [hβ0 x hx]), hext _ (fun x hx => by simp [hβ'0 x hx])]
    refine Finset.sum_congr rfl fun i hi => ?_
    rw [hβ' i hi, hv i hi]
  rw [map_sub, h d hd d' hd' hds (fun i hi => ?_) hpt, hpt, sub_self]
  by_contra hn
  exact hde' i hi (hβ'0 i hn)

/-- Two triangles with a common edge, numbered differently in the two. -/
example (v v' : ℕ → ℕ → ℝ) (h1 : v' 0 = v 2) (h2 : v' 2 = v 1) (l l' : List PointDof)
    (hl : lagrangeDofs "equispaced" .triangle v 3 = some l) (hl' : lagrangeDofs "equispaced" .triangle v' 3 = some l')
    (p q : MvPolynomial ℕ ℝ) (hp : p.totalDegree ≤ 3) (hq : q.totalDegree ≤ 3)
    (h : ∀ d ∈ l, ∀ d' ∈ l', d.point = d'.point → eval d.point p = eval d'.point q) (x : ℝ) :
    eval (fun j => (1 - x) * v 1 j + x * v 2 j) p = eval (fun j => (1 - x) * v 1 j + x * v 2 j) q := by
  have := lagrange_conforming (Or.inr (Or.inl rfl)) (Or.inr (Or.inl rfl)) v v' (by norm_num) hl hl' {1, 2} ⟨1, by simp⟩
    (by simp [Cell.nverts]) (fun i => if i = 1 then 2 else 0) (by intro a ha b hb; simp at ha hb; rcases ha with rfl | rfl <;> rcases hb with rfl | rfl <;> simp)
    (by simp [Cell.nverts]) (by simp [h1, h2]) p q hp hq (fun d hd d' hd' _ _ e => h d hd d' hd' e)
    (fun i => if i = 1 then 1 - x else x) (by simp)
  simpa using this

/-- The vertices of a simplex are affinely independent, and fill the space. -/
def NonDegenerate (c : Cell) (v : ℕ → ℕ → ℝ) : Prop := Indep c.tdim c.tdim (axis c v)

theorem solve_of_indep {d : ℕ} {a : ℕ → ℕ → ℝ} (h : Indep d d a) (y : ℕ → ℝ) :
    ∃ t : ℕ → ℝ, ∀ j < d, ∑ k ∈ Finset.range d, t k * a k j = y j := by
  let M : Matrix (Fin d) (Fin d) ℝ := Matrix.of fun k j => a k j
  have hM : IsUnit M := by
    rw [← Matrix.vecMul_injective_iff_isUnit]
    intro x x' hx
    have h0 : Matrix.vecMul (x - x') M = 0 := by rw [Matrix.sub_vecMul]; exact sub_eq_zero.2 hx
    funext k
    have := h (fun i => if hi : i < d then (x - x') ⟨i, hi⟩ else 0) (fun j hj => by
      have e := congrFun h0 ⟨j, hj⟩
      simp only [Matrix.vecMul, dotProduct, Pi.zero_apply] at e
      rw [Finset.sum_range, ← e]
      exact Finset.sum_congr rfl fun i _ => by simp [M]) k k.2
    simp at this
    exact sub_eq_zero.1 this
  obtain ⟨t, ht⟩ := (Matrix.vecMul_surjective_iff_isUnit.2 hM) fun j : Fin d => y j
  refine ⟨fun i => if hi : i < d then t ⟨i, hi⟩ else 0, fun j hj => ?_⟩
  have e := congrFun ht ⟨j, hj⟩
  simp only [Matrix.vecMul, dotProduct] at e
  rw [Finset.sum_range, ← e]
  exact Finset.sum_congr rfl fun i _ => by simp [M]

/-- **C58** A polynomial of the space that vanishes at all DOF points is zero. -/
theorem lagrange_unisolvent {c : Cell} (hc : Simplex c) (v : ℕ → ℕ → ℝ) (hv : NonDegenerate c v) {k : ℕ} (hk : 0 < k)
    {l : List PointDof} (hl : lagrangeDofs "equispaced" c v k = some l) (p : MvPolynomial ℕ ℝ)
    (hp : p.totalDegree ≤ k) (hvars : ∀ i ∈ p.vars, i < c.tdim) (h : ∀ d ∈ l, eval d.point p = 0) : p = 0 := by
  have hn : c.nverts = c.tdim + 1 := by rcases hc with rfl | rfl | rfl <;> rfl
  refine MvPolynomial.funext fun y => ?_
  rw [map_zero]
  obtain ⟨t, ht⟩ := solve_of_indep hv (fun j => y j - v 0 j)
  have hax : ∀ m < c.tdim, ∀ j, axis c v m j = v (m + 1) j - v 0 j := by
    intro m hm j
    have : (axisVertices c).getD m 0 = m + 1 := by
      rcases hc with rfl | rfl | rfl <;> simp only [Cell.tdim] at hm <;> interval_cases m <;> rfl
    simp only [axis, psub, this]
  let lam : ℕ → ℝ := fun i => match i with
    | 0 => 1 - ∑ m ∈ Finset.range c.tdim, t m
    | m + 1 => t m
  have := lagrange_entity hc v hk hl (Finset.range c.nverts) ⟨0, by simp [hn]⟩ (fun i hi => Finset.mem_range.1 hi)
    p hp (fun d hd _ => h d hd) lam (by rw [hn, Finset.sum_range_succ']; simp [lam])
  rw [← this]
  refine eval₂Hom_congr' rfl (fun i hi _ => ?_) rfl
  have hi' := hvars i hi
  have e := ht i hi'
  rw [Finset.sum_congr rfl fun m hm => by rw [hax m (Finset.mem_range.1 hm)]] at e
  rw [hn, Finset.sum_range_succ']
  simp only [lam]
  simp only [mul_sub, Finset.sum_sub_distrib] at e
  rw [sub_mul, Finset.sum_mul]
  linarith

end Verif.Elements
