import Verif.FiniteElement.Model
import Mathlib.Data.List.Sort
import Mathlib.Data.List.Range
import Mathlib.Data.Rat.Defs
/-!
# DOF numbers of the entities (C49)
-/

set_option linter.unusedSectionVars false

namespace Verif.FiniteElement

variable {K V : Type} [Field K] [AddCommGroup V] [Module K V]

mutual
/-- Every direct element inside has one entity per function. -/
def WF : Element K V → Prop
  | .ciarlet _ _ => True
  | .direct fs ents => fs.length = ents.length
  | .enriched subs => WFs subs
/-- All elements of the list are well formed. -/
def WFs : List (Element K V) → Prop
  | [] => True
  | e :: es => WF e ∧ WFs es
end

theorem mem_matching (l : List (ℕ × ℕ)) (e : ℕ × ℕ) (n : ℕ) :
    n ∈ matching l e ↔ l[n]? = some e := by
  unfold matching
  simp only [List.mem_map, List.mem_filter, decide_eq_true_eq]
  constructor
  · rintro ⟨⟨e', m⟩, ⟨hm, rfl⟩, rfl⟩
    exact List.mem_zipIdx_iff_getElem?.1 hm
  · intro h
    exact ⟨(e, n), ⟨List.mem_zipIdx_iff_getElem?.2 h, rfl⟩, rfl⟩

theorem matching_sorted (l : List (ℕ × ℕ)) (e : ℕ × ℕ) : (matching l e).Pairwise (· < ·) := by
  have h : ((l.zipIdx).map Prod.snd).Pairwise (· < ·) := by
    have : (l.zipIdx).map Prod.snd = List.range' 0 l.length := List.zipIdx_map_snd 0 l
    rw [this]
    exact List.pairwise_lt_range' (s := 0) (n := l.length)
  exact h.sublist ((List.filter_sublist).map Prod.snd)

theorem matching_append (l l' : List (ℕ × ℕ)) (e : ℕ × ℕ) :
    matching (l ++ l') e = matching l e ++ (matching l' e).map (l.length + ·) := by
  have hsplit : (matching l e ++ (matching l' e).map (l.length + ·)).Pairwise (· < ·) := by
    rw [List.pairwise_append]
    refine ⟨matching_sorted l e, ?_, ?_⟩
    · rw [List.pairwise_map]
      exact (matching_sorted l' e).imp fun h => by omega
    · intro a ha b hb
      have ha' := (mem_matching l e a).1 ha
      obtain ⟨h1, -⟩ := List.getElem?_eq_some_iff.1 ha'
      obtain ⟨c, -, rfl⟩ := List.mem_map.1 hb
      omega
  have hmem : ∀ n, n ∈ matching (l ++ l') e ↔ n ∈ matching l e ++ (matching l' e).map (l.length + ·) := by
    intro n
    rw [mem_matching, List.mem_append, mem_matching, List.mem_map]
    by_cases hn : n < l.length
    · rw [List.getElem?_append_left hn]
      constructor
      · exact Or.inl
      · rintro (h | ⟨c, -, hc⟩)
        · exact h
        · omega
    · rw [List.getElem?_append_right (by omega)]
      constructor
      · intro h
        exact Or.inr ⟨n - l.length, (mem_matching _ _ _).2 h, by omega⟩
      · rintro (h | ⟨c, hc, rfl⟩)
        · obtain ⟨h1, -⟩ := List.getElem?_eq_some_iff.1 h
          omega
        · rw [Nat.add_sub_cancel_left]
          exact (mem_matching _ _ _).1 hc
  have hp : (matching (l ++ l') e).Perm (matching l e ++ (matching l' e).map (l.length + ·)) := by
    rw [List.perm_ext_iff_of_nodup]
    · exact hmem
    · exact (matching_sorted _ _).imp fun h => Nat.ne_of_lt h
    · exact hsplit.imp fun h => Nat.ne_of_lt h
  exact hp.eq_of_pairwise (fun a b _ _ h1 h2 => absurd h1 (by omega)) (matching_sorted _ _) hsplit

mutual
/-- `dof_entities` lists one entity per DOF. -/
theorem dofEntities_length : ∀ e : Element K V, WF e → (dofEntities e).length = spaceDim e
  | .ciarlet _ dofs, _ => by rw [dofEntities, spaceDim, List.length_map]
  | .direct fs ents, h => by rw [dofEntities, spaceDim]; rw [WF] at h; exact h.symm
  | .enriched subs, h => by
    rw [dofEntities, spaceDim]; rw [WF] at h; exact dofEntitiesList_length subs h
theorem dofEntitiesList_length : ∀ es : List (Element K V), WFs es →
    (dofEntitiesList es).length = spaceDims es
  | [], _ => by rw [dofEntitiesList, spaceDims]; rfl
  | e :: es, h => by
    rw [WFs] at h
    rw [dofEntitiesList, spaceDims, List.length_append, dofEntities_length e h.1,
      dofEntitiesList_length es h.2]
end

mutual
/-- `entity_dofs` and `dof_entities` agree. -/
theorem entityDofs_eq : ∀ (e : Element K V) (ent : ℕ × ℕ), WF e →
    entityDofs e ent = matching (dofEntities e) ent
  | .ciarlet _ dofs, ent, _ => by rw [entityDofs, dofEntities]
  | .direct fs ents, ent, _ => by rw [entityDofs, dofEntities]
  | .enriched subs, ent, h => by
    rw [entityDofs, dofEntities]
    rw [WF] at h
    rw [entityDofsFrom_eq subs 0 ent h]
    simp
theorem entityDofsFrom_eq : ∀ (es : List (Element K V)) (start : ℕ) (ent : ℕ × ℕ), WFs es →
    entityDofsFrom es start ent = (matching (dofEntitiesList es) ent).map (start + ·)
  | [], start, ent, _ => by rw [entityDofsFrom, dofEntitiesList]; rfl
  | e :: es, start, ent, h => by
    rw [WFs] at h
    rw [entityDofsFrom, dofEntitiesList, matching_append, entityDofs_eq e ent h.1,
      entityDofsFrom_eq es _ ent h.2, List.map_append, List.map_map, dofEntities_length e h.1]
    congr 1
    apply List.map_congr_left
    intro a _
    simp [Nat.add_assoc]
end

/-- **C49** A number is listed for an entity exactly when the DOF with that number is attached to
it. -/
theorem mem_entityDofs (e : Element K V) (h : WF e) (ent : ℕ × ℕ) (n : ℕ) :
    n ∈ entityDofs e ent ↔ (dofEntities e)[n]? = some ent := by
  rw [entityDofs_eq e ent h, mem_matching]

/-- **C49** The numbers are listed in ascending order, without repetition. -/
theorem entityDofs_sorted (e : Element K V) (h : WF e) (ent : ℕ × ℕ) :
    (entityDofs e ent).Pairwise (· < ·) := by
  rw [entityDofs_eq e ent h]; exact matching_sorted _ _

theorem cellEntities_nodup (c : References.Cell) : (cellEntities c).Nodup := by
  unfold cellEntities
  rw [List.nodup_flatMap]
  refine ⟨fun d _ => (List.nodup_range).map fun a b h => (Prod.mk.inj h).2, ?_⟩
  refine List.Pairwise.imp ?_ (List.pairwise_lt_range (n := c.tdim + 1))
  intro a b hab
  rw [Function.onFun, List.disjoint_left]
  rintro x hx hx'
  obtain ⟨_, -, rfl⟩ := List.mem_map.1 hx
  obtain ⟨_, -, h2⟩ := List.mem_map.1 hx'
  have := (Prod.mk.inj h2).1
  omega

/-- **C49** If every DOF is attached to a sub-entity of the cell, then the lists of all the
sub-entities together hold each number below the space dimension once and no other. -/
theorem entityDofs_partition (e : Element K V) (h : WF e) (c : References.Cell)
    (hc : ∀ ent ∈ dofEntities e, ent ∈ cellEntities c) :
    ((cellEntities c).flatMap (entityDofs e)).Perm (List.range (spaceDim e)) := by
  rw [List.perm_ext_iff_of_nodup _ List.nodup_range]
  · intro n
    rw [List.mem_flatMap, List.mem_range]
    constructor
    · rintro ⟨ent, -, hn⟩
      rw [mem_entityDofs e h] at hn
      obtain ⟨h1, -⟩ := List.getElem?_eq_some_iff.1 hn
      rwa [dofEntities_length e h] at h1
    · intro hn
      rw [← dofEntities_length e h] at hn
      exact ⟨(dofEntities e)[n], hc _ (List.getElem_mem _),
        (mem_entityDofs e h _ _).2 (List.getElem?_eq_getElem hn)⟩
  · rw [List.nodup_flatMap]
    refine ⟨fun ent _ => (entityDofs_sorted e h ent).imp fun h => Nat.ne_of_lt h, ?_⟩
    refine (cellEntities_nodup c).imp ?_
    intro a b hab
    rw [Function.onFun, List.disjoint_left]
    intro n hn hn'
    rw [mem_entityDofs e h] at hn hn'
    exact hab (Option.some.inj (hn.symm.trans hn'))

/-- The hypotheses are met by an enrichment of an enriched element. -/
example :
    let a : Element ℚ ℚ := .direct [1, 2, 3] [(0, 0), (1, 0), (0, 1)]
    let b : Element ℚ ℚ := .direct [5, 7] [(1, 0), (1, 0)]
    let e : Element ℚ ℚ := .enriched [.enriched [a, b], b]
    WF e ∧ (∀ ent ∈ dofEntities e, ent ∈ cellEntities .interval) ∧
      entityDofs e (1, 0) = [1, 3, 4, 5, 6] ∧ entityDofs e (0, 1) = [2] := by
  refine ⟨by simp [WF, WFs], ?_, ?_, ?_⟩
  · simp [dofEntities, dofEntitiesList]
    decide
  · simp [entityDofs, entityDofsFrom, spaceDim, spaceDims, matching]
  · simp [entityDofs, entityDofsFrom, spaceDim, spaceDims, matching]

end Verif.FiniteElement
