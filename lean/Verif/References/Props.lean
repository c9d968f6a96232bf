import Verif.References.Spec
import Mathlib.Data.List.Basic
import Mathlib.Data.List.Nodup
import Mathlib.Data.List.Count
import Mathlib.Tactic.Ring
import Mathlib.Tactic.Linarith
/-!
# Properties of the cell tables (C34, C41)
-/

namespace Verif.References

open Cell

/-! ### C34 -/

/-- Edges, faces and volumes of every cell type except dual polygons list distinct existing vertices
in ascending order, without repetitions; the alternating sum of the entity counts is 1. -/
theorem tables_good (c : Cell) (hc : ∀ n, c ≠ dualPolygon n) :
    GoodEntities c.nverts c.edges ∧ GoodEntities c.nverts c.faces ∧
      GoodEntities c.nverts c.volumes ∧
      c.nverts + c.faces.length = 1 + c.edges.length + c.volumes.length := by
  unfold GoodEntities
  cases c with
  | dualPolygon n => exact absurd rfl (hc n)
  | _ => decide

/-- Every sub-entity has a type, with the right number of vertices, and the edges and faces of the
sub-entity are edges and faces of the cell. -/
theorem subEntities_good (c : Cell) (hc : ∀ n, c ≠ dualPolygon n) (dim : Nat)
    (hdim : dim ≤ c.tdim) (n : Nat) (e : List Nat) (ents : List (List Nat))
    (hents : c.subEntities dim = some ents) (he : ents[n]? = some e) :
    ∃ t, c.subEntityType dim n = some t ∧ t.tdim = dim ∧ GoodSub c t e := by
  have key : ∀ q ∈ ents.zipIdx,
      ∃ t ∈ c.subEntityType dim q.2, t.tdim = dim ∧ GoodSub c t q.1 := by
    unfold GoodSub
    cases c with
    | dualPolygon n => exact absurd rfl (hc n)
    | _ =>
      (have hd : dim = 0 ∨ dim = 1 ∨ dim = 2 ∨ dim = 3 := by
        simp only [tdim] at hdim; omega)
      rcases hd with rfl | rfl | rfl | rfl <;>
      first
      | (exfalso; simp only [tdim] at hdim; omega)
      | (simp only [subEntities, Option.some.injEq, if_true, if_false,
          OfNat.ofNat_ne_zero, OfNat.ofNat_ne_one, one_ne_zero, Nat.reduceEqDiff] at hents
         subst hents
         decide)
  have hlt : n < ents.length := by
    by_contra h
    rw [List.getElem?_eq_none (by omega)] at he; cases he
  have hm : (e, n) ∈ ents.zipIdx := by
    rw [List.mk_mem_zipIdx_iff_getElem?]; exact he
  obtain ⟨t, ht, h⟩ := key _ hm
  exact ⟨t, ht, h⟩

/-- The boundary is closed: in every two-dimensional cell each vertex is in exactly two edges, in every
three-dimensional cell each edge is in exactly two faces. -/
theorem ridges_in_two_facets (c : Cell) (hc : ∀ n, c ≠ dualPolygon n) :
    (c.tdim = 2 → ∀ i < c.nverts, facetsAround c.edges [i] = 2) ∧
      (c.tdim = 3 → ∀ e ∈ c.edges, facetsAround c.faces e = 2) := by
  cases c with
  | dualPolygon n => exact absurd rfl (hc n)
  | _ => decide

/-- Any number `n ≥ 2` of triangles: the edges of a dual polygon are distinct pairs of distinct
existing vertices, edge `i` ends where edge `i + 1` starts, the last one ends at vertex 0, and there
are as many edges as vertices.  (They are *not* all ascending: see `dualPolygon_last_edge`.) -/
theorem dualPolygon_tables (n : Nat) (hn : 2 ≤ n) :
    (dualPolygon n).edges.Nodup ∧ (dualPolygon n).edges.length = (dualPolygon n).nverts ∧
      (∀ i < 2 * n, ∃ j < 2 * n, (dualPolygon n).edges[i]? = some [i, j] ∧ i ≠ j ∧
        (j = i + 1 ∨ (i + 1 = 2 * n ∧ j = 0))) ∧
      (dualPolygon n).faces = [List.range (2 * n)] ∧ (dualPolygon n).volumes = [] := by
  refine ⟨?_, by simp [edges, nverts], ?_, rfl, rfl⟩
  · rw [edges]
    refine List.Nodup.map ?_ List.nodup_range
    intro i j h
    simp only [List.cons.injEq] at h
    exact h.1
  · intro i hi
    refine ⟨(i + 1) % (2 * n), Nat.mod_lt _ (by omega), ?_, ?_, ?_⟩
    · simp [edges, hi]
    · rcases Nat.lt_or_ge (i + 1) (2 * n) with h | h
      · rw [Nat.mod_eq_of_lt h]; omega
      · have : i + 1 = 2 * n := by omega
        rw [this, Nat.mod_self]; omega
    · rcases Nat.lt_or_ge (i + 1) (2 * n) with h | h
      · left; rw [Nat.mod_eq_of_lt h]
      · right
        have : i + 1 = 2 * n := by omega
        exact ⟨this, by rw [this, Nat.mod_self]⟩

/-- The property asks for ascending vertex lists: the last edge of a dual polygon runs from the last
vertex to vertex 0. -/
theorem dualPolygon_last_edge (n : Nat) (hn : 1 ≤ n) :
    [2 * n - 1, 0] ∈ (dualPolygon n).edges ∧ ¬ [2 * n - 1, 0].Pairwise (· < ·) := by
  constructor
  · rw [edges, List.mem_map]
    refine ⟨2 * n - 1, by simp; omega, ?_⟩
    have : 2 * n - 1 + 1 = 2 * n := by omega
    rw [this, Nat.mod_self]
  · simp

/-! ### C41 -/

section
variable {P : Type} [DecidableEq P]

/-- The constructors check the number of vertices (symfem/references.py:772, 900, ... and 2341); a dual
polygon with no vertices does not exist because `number_of_triangles` divides angles. -/
def Ref.WF (a : Ref P) : Prop := a.vertices.length = a.cell.nverts

/-- For well-formed references, `==` says: same cell type (for dual polygons with the same number of
triangles) and same vertices. -/
theorem eq_iff (a b : Ref P) (ha : a.WF) (hb : b.WF) :
    a.eq b = true ↔ a.cell = b.cell ∧ a.vertices = b.vertices := by
  unfold Ref.eq
  rw [Bool.and_eq_true, decide_eq_true_iff]
  constructor
  · rintro ⟨h1, h2⟩
    refine ⟨?_, h2⟩
    unfold Ref.WF at ha hb
    rw [h2, hb] at ha
    generalize a.cell = c at h1 ha
    generalize b.cell = d at h1 ha
    cases c <;> cases d <;> simp_all [nverts]
  · rintro ⟨h1, h2⟩
    refine ⟨?_, h2⟩
    rw [h1]
    cases b.cell <;> simp

theorem eq_refl (a : Ref P) : a.eq a = true := by
  unfold Ref.eq
  cases a.cell <;> simp

theorem eq_symm (a b : Ref P) : a.eq b = b.eq a := by
  unfold Ref.eq
  have h : decide (a.vertices = b.vertices) = decide (b.vertices = a.vertices) := by
    rw [decide_eq_decide]; exact eq_comm
  rw [h]
  generalize a.cell = c
  generalize b.cell = d
  cases c <;> cases d <;> simp

theorem eq_trans (a b c : Ref P) (h1 : a.eq b = true) (h2 : b.eq c = true) : a.eq c = true := by
  unfold Ref.eq at *
  rw [Bool.and_eq_true, decide_eq_true_iff] at *
  refine ⟨?_, h1.2.trans h2.2⟩
  have := h1.1; have := h2.1
  generalize a.cell = x at *
  generalize b.cell = y at *
  generalize c.cell = z at *
  cases x <;> cases y <;> cases z <;> simp_all

/-- Equal references have equal hashes, whatever the hash function on tuples is. -/
theorem hash_eq (refVerts : Cell → List P) (h : List P × List P → Nat) (a b : Ref P)
    (ha : a.WF) (hb : b.WF) (hab : a.eq b = true) : a.hash refVerts h = b.hash refVerts h := by
  obtain ⟨h1, h2⟩ := (eq_iff a b ha hb).1 hab
  unfold Ref.hash; rw [h1, h2]

/-- Equal references have equal sub-entities of every dimension below their own. -/
theorem eq_subEntity (a b : Ref P) (ha : a.WF) (hb : b.WF) (hab : a.eq b = true) (dim n : Nat)
    (hdim : a.cell.tdim ≠ dim) : a.subEntity dim n = b.subEntity dim n := by
  obtain ⟨h1, h2⟩ := (eq_iff a b ha hb).1 hab
  unfold Ref.subEntity
  rw [if_neg hdim, if_neg (h1 ▸ hdim), h1, h2]

/-- Equality does not see the origin of a dual polygon: two dual polygons around different centre
points are equal as soon as their outer vertices are. -/
theorem eq_ignores_origin (n : Nat) (vs : List P) (o o' : P) :
    Ref.eq (⟨dualPolygon n, vs, o⟩ : Ref P) ⟨dualPolygon n, vs, o'⟩ = true := by
  simp [Ref.eq]

/-- Every existing sub-entity of a well-formed reference can be built, and is well formed. -/
theorem subEntity_wf (a : Ref P) (ha : a.WF) (hc : ∀ n, a.cell ≠ dualPolygon n) (dim : Nat)
    (hdim : dim < a.cell.tdim) (n : Nat) (ents : List (List Nat))
    (hents : a.cell.subEntities dim = some ents) (hn : n < ents.length) :
    ∃ s t, a.subEntity dim n = some s ∧ a.cell.subEntityType dim n = some t ∧ s.cell = t ∧
      s.cell.tdim = dim ∧ s.WF ∧
      ∀ i : Nat, s.vertices[i]? = (ents[n]'hn)[i]?.bind fun j => a.vertices[j]? := by
  obtain ⟨t, ht, htd, hg⟩ := subEntities_good a.cell hc dim hdim.le n (ents[n]'hn) ents hents
    (List.getElem?_eq_getElem hn)
  -- the vertices exist
  have hlt : ∀ i ∈ ents[n]'hn, i < a.vertices.length := by
    rw [ha]
    have hT := tables_good a.cell hc
    have hm := List.getElem_mem hn
    unfold subEntities at hents
    split at hents
    · simp only [Option.some.injEq] at hents
      subst hents
      simp
      have := hn; simp at this; exact this
    · split at hents
      · simp only [Option.some.injEq] at hents; subst hents
        exact fun i hi => (hT.1.2 _ hm).2 i hi
      · split at hents
        · simp only [Option.some.injEq] at hents; subst hents
          exact fun i hi => (hT.2.1.2 _ hm).2 i hi
        · split at hents
          · simp only [Option.some.injEq] at hents; subst hents
            exact fun i hi => (hT.2.2.1.2 _ hm).2 i hi
          · cases hents
  have hmap : ∀ l : List Nat, (∀ i ∈ l, i < a.vertices.length) →
      ∃ vs, l.mapM (fun i => a.vertices[i]?) = some vs ∧ vs.length = l.length ∧
        ∀ i : Nat, vs[i]? = l[i]?.bind fun j => a.vertices[j]? := by
    intro l
    induction l with
    | nil => intro _; exact ⟨[], by simp, rfl, by simp⟩
    | cons x l ih =>
      intro h
      obtain ⟨vs, h1, h2, h3⟩ := ih fun i hi => h i (List.mem_cons_of_mem _ hi)
      have hx := h x List.mem_cons_self
      refine ⟨a.vertices[x] :: vs, ?_, by simp [h2], ?_⟩
      · simp [List.mapM_cons, h1, List.getElem?_eq_getElem hx]
      · intro i
        cases i with
        | zero => simp [List.getElem?_eq_getElem hx]
        | succ i => simpa using h3 i
  obtain ⟨vs, h1, h2, h3⟩ := hmap _ hlt
  have hpos : 0 < vs.length := by
    rw [h2, hg.1]
    cases t <;> simp [nverts]
    rename_i k
    -- no sub-entity of a standard cell is a dual polygon
    exfalso
    have : ∀ (c : Cell) (d m k : Nat), (∀ n, c ≠ dualPolygon n) →
        c.subEntityType d m ≠ some (dualPolygon k) := by
      intro c d m k hc h
      unfold subEntityType at h
      cases c with
      | dualPolygon n => exact hc n rfl
      | _ =>
        rcases d with _ | _ | _ | _ | d <;> simp [subEntityTypes] at h <;>
        · rcases m with _ | _ | _ | _ | _ | m <;> simp at h
    exact this _ _ _ _ hc ht
  obtain ⟨v, vs', rfl⟩ := List.exists_cons_of_length_pos hpos
  refine ⟨⟨t, v :: vs', v⟩, t, ?_, ht, rfl, htd, ?_, h3⟩
  · unfold Ref.subEntity
    rw [if_neg (by omega), ht, hents]
    simp only [List.getElem?_eq_getElem hn, h1]
  · unfold Ref.WF; simp only []; rw [h2, hg.1]

/-- A concrete reference meeting the hypotheses: a tetrahedron with integer vertices. -/
example : (⟨tetrahedron, [(0, 0, 0), (2, 0, 0), (0, 3, 1), (1, 1, 5)], (0, 0, 0)⟩ :
    Ref (Int × Int × Int)).subEntity 2 1 =
      some ⟨triangle, [(0, 0, 0), (0, 3, 1), (1, 1, 5)], (0, 0, 0)⟩ := rfl

end

end Verif.References
