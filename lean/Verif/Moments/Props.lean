import Verif.Moments.Model
import Verif.FiniteElement.PropsBasis
/-!
# C61: integral moment DOFs

What the arguments ask for is stated by `Asked`, without the loops of the code.
-/

namespace Verif.Moments
open Verif.References

/-- The arguments ask for moments `input` on the entities of dimension `dim` of a cell. -/
def Asked (c : Cell) (args : Args) (dim : ℕ) (input : Input) : Prop :=
  (args.vertices = some input ∧ dim = 0) ∨ (args.edges = some input ∧ dim = 1) ∨
  (args.faces = some input ∧ dim = 2) ∨ (args.volumes = some input ∧ dim = 3) ∨
  (args.peaks = some input ∧ dim + 3 = c.tdim) ∨ (args.ridges = some input ∧ dim + 2 = c.tdim) ∨
  (args.facets = some input ∧ dim + 1 = c.tdim) ∨ (args.cells = some input ∧ dim = c.tdim)

/-- The number of entities of a dimension. -/
def entityCount (c : Cell) (dim : ℕ) : ℕ := (c.subEntityCount dim).getD 0

theorem extract_forms (a b : String) (n : ℤ) (s : String) (kw : Kwargs) (name : String) :
    extract (.single [.cls a, .cls b, .int n]) name = some ⟨a, b, n, none, []⟩ ∧
    extract (.single [.cls a, .cls b, .int n, .str s]) name = some ⟨a, b, n, some s, []⟩ ∧
    extract (.single [.cls a, .cls b, .int n, .dict kw]) name = some ⟨a, b, n, none, kw⟩ ∧
    extract (.single [.cls a, .cls b, .int n, .str s, .dict kw]) name = some ⟨a, b, n, some s, kw⟩ := by
  simp [extract, parse]

/-- A dictionary gives the entry of the cell. -/
theorem extract_byName (entries : List (String × Input)) (name : String) (input : Input)
    (h : (name, input) ∈ entries) (hu : (entries.map Prod.fst).Nodup) :
    extract (.byName entries) name = extract input name := by
  rw [extract]
  induction entries with
  | nil => cases h
  | cons e entries ih =>
    obtain ⟨key, inp⟩ := e
    rw [List.map_cons, List.nodup_cons] at hu
    rw [extractFrom]
    by_cases hk : key = name
    · rcases List.mem_cons.1 h with h | h
      · cases h; rw [if_pos hk]
      · exact absurd (List.mem_map.2 ⟨_, h, hk.symm⟩) hu.1
    · rw [if_neg hk]
      rcases List.mem_cons.1 h with h | h
      · cases h; exact absurd rfl hk
      · exact ih h hu.2

/-- A cell name that is missing is an error. -/
theorem extract_missing (entries : List (String × Input)) (name : String) (h : name ∉ entries.map Prod.fst) :
    extract (.byName entries) name = none := by
  rw [extract]
  induction entries with
  | nil => rw [extractFrom]
  | cons e entries ih =>
    obtain ⟨key, inp⟩ := e
    rw [List.map_cons, List.mem_cons, not_or] at h
    rw [extractFrom, if_neg (fun e => h.1 e.symm)]
    exact ih h.2

section
variable {X : Type} {classes : String → ElementClass X} {c : Cell} {args : Args}

theorem mapM_forall {A B : Type} {f : A → Option B} {l : List A} {r : List B} (h : l.mapM f = some r) :
    List.Forall₂ (fun a b => f a = some b) l r := by
  induction l generalizing r with
  | nil => simp at h; subst h; exact .nil
  | cons a l ih =>
    rw [List.mapM_cons] at h
    cases ha : f a with
    | none => rw [ha] at h; cases h
    | some b =>
      cases hl : l.mapM f with
      | none => rw [ha, hl] at h; cases h
      | some bs => rw [ha, hl] at h; cases h; exact .cons ha (ih hl)

theorem forall₂_mem_left {A B : Type} {R : A → B → Prop} {l : List A} {r : List B} (h : List.Forall₂ R l r) {b : B}
    (hb : b ∈ r) : ∃ a ∈ l, R a b := by
  induction h with
  | nil => cases hb
  | cons hab _ ih =>
    rcases List.mem_cons.1 hb with rfl | hb
    · exact ⟨_, List.mem_cons_self, hab⟩
    · obtain ⟨a, ha, h⟩ := ih hb
      exact ⟨a, List.mem_cons_of_mem _ ha, h⟩

theorem forall₂_mem_right {A B : Type} {R : A → B → Prop} {l : List A} {r : List B} (h : List.Forall₂ R l r) {a : A}
    (ha : a ∈ l) : ∃ b ∈ r, R a b := by
  induction h with
  | nil => cases ha
  | cons hab _ ih =>
    rcases List.mem_cons.1 ha with rfl | ha
    · exact ⟨_, List.mem_cons_self, hab⟩
    · obtain ⟨b, hb, h⟩ := ih ha
      exact ⟨b, List.mem_cons_of_mem _ hb, h⟩

theorem types_length (c : Cell) : c.subEntityTypes.length = 4 := by cases c <;> rfl

theorem pyGet_nat (c : Cell) (dim : ℕ) : pyGet c.subEntityTypes dim = c.subEntityTypes[dim]? := by
  rw [pyGet, if_pos (by omega)]; rfl

/-- Which dimensions have entities. -/
theorem type_none (c : Cell) (dim : ℕ) (hd : dim ≤ 3) :
    (∃ t, c.subEntityTypes[dim]? = some t ∧ t ≠ .none) ↔ dim ≤ c.tdim := by
  have : dim = 0 ∨ dim = 1 ∨ dim = 2 ∨ dim = 3 := by omega
  rcases this with rfl | rfl | rfl | rfl <;> cases c <;> simp [Cell.subEntityTypes, Cell.tdim]

/-- Negative dimensions: the entry that Python finds is `None`. -/
theorem type_negative (c : Cell) (k : ℕ) (hk : 1 ≤ k) (h3 : k ≤ 3) (hlt : (c.tdim : ℤ) - k < 0) :
    pyGet c.subEntityTypes ((c.tdim : ℤ) - k) = some .none := by
  have : k = 1 ∨ k = 2 ∨ k = 3 := by omega
  rcases this with rfl | rfl | rfl <;> cases c <;> simp [Cell.tdim] at hlt ⊢ <;> rfl

theorem tdim_le (c : Cell) : c.tdim ≤ 3 := by cases c <;> simp [Cell.tdim]

/-- One slot of the loop. -/
theorem slot_eq (c : Cell) (dim : ℕ) (h3 : dim ≤ 3) (input : Input) :
    slotDofs classes c dim (some input) =
      if c.tdim < dim then some [] else if dim = 0 then none
      else ((List.range (entityCount c dim)).mapM (entityDofs classes c input dim)).map List.flatten := by
  rw [slotDofs, pyGet_nat]
  by_cases hd : dim ≤ c.tdim
  · rw [if_neg (show ¬ c.tdim < dim by omega)]
    obtain ⟨t, ht, hne⟩ := (type_none c dim h3).2 hd
    rw [ht]
    have hs : ∃ l, c.subEntities dim = some l := by
      have : dim = 0 ∨ dim = 1 ∨ dim = 2 ∨ dim = 3 := by omega
      rcases this with rfl | rfl | rfl | rfl <;> exact ⟨_, rfl⟩
    obtain ⟨l, hl⟩ := hs
    have hcount : entityCount c dim = l.length := by simp [entityCount, Cell.subEntityCount, hl]
    cases t with
    | none => exact absurd rfl hne
    | all t =>
      by_cases h0 : dim = 0
      · simp [h0]
      · simp only [if_neg h0, hcount, Int.toNat_natCast, hl, Option.bind_some]
        rw [if_pos (show (0 : ℤ) < dim by omega)]
    | each t =>
      by_cases h0 : dim = 0
      · simp [h0]
      · simp only [if_neg h0, hcount, Int.toNat_natCast, hl, Option.bind_some]
        rw [if_pos (show (0 : ℤ) < dim by omega)]
  · rw [if_pos (show c.tdim < dim by omega)]
    have hn := mt (type_none c dim h3).1 hd
    have hlt : dim < c.subEntityTypes.length := by rw [types_length]; omega
    rw [List.getElem?_eq_getElem hlt] at hn ⊢
    cases ht : c.subEntityTypes[dim] with
    | none => rfl
    | all t => exact absurd ⟨_, by rw [ht], by simp⟩ hn
    | each t => exact absurd ⟨_, by rw [ht], by simp⟩ hn

/-- A slot of negative dimension adds nothing. -/
theorem slot_negative (c : Cell) (k : ℕ) (hk : 1 ≤ k) (h3 : k ≤ 3) (hlt : (c.tdim : ℤ) - k < 0) (input : Input) :
    slotDofs classes c ((c.tdim : ℤ) - k) (some input) = some [] := by
  rw [slotDofs, type_negative c k hk h3 hlt]

/-- The slots are what the arguments ask for, apart from negative dimensions. -/
theorem mem_slots {dim : ℤ} {input : Input} (h : (dim, some input) ∈ slots c args) :
    (∃ d : ℕ, dim = d ∧ d ≤ 3 ∧ Asked c args d input) ∨ ∃ k : ℕ, 1 ≤ k ∧ k ≤ 3 ∧ dim = (c.tdim : ℤ) - k ∧ dim < 0 := by
  have ht := tdim_le c
  simp only [slots, List.mem_cons, Prod.mk.injEq, List.mem_nil_iff, or_false] at h
  have key : ∀ (k : ℕ), 1 ≤ k → k ≤ 3 → dim = (c.tdim : ℤ) - k → ((∀ d : ℕ, d + k = c.tdim → Asked c args d input)) →
      (∃ d : ℕ, dim = d ∧ d ≤ 3 ∧ Asked c args d input) ∨
        ∃ k : ℕ, 1 ≤ k ∧ k ≤ 3 ∧ dim = (c.tdim : ℤ) - k ∧ dim < 0 := by
    intro k h1 h3 hd hA
    by_cases hneg : dim < 0
    · exact Or.inr ⟨k, h1, h3, hd, hneg⟩
    · exact Or.inl ⟨c.tdim - k, by omega, by omega, hA _ (by omega)⟩
  rcases h with ⟨h, h'⟩ | ⟨h, h'⟩ | ⟨h, h'⟩ | ⟨h, h'⟩ | ⟨h, h'⟩ | ⟨h, h'⟩ | ⟨h, h'⟩ | ⟨h, h'⟩
  · exact Or.inl ⟨0, h, by omega, by unfold Asked; simp [h'.symm]⟩
  · exact Or.inl ⟨1, h, by omega, by unfold Asked; simp [h'.symm]⟩
  · exact Or.inl ⟨2, h, by omega, by unfold Asked; simp [h'.symm]⟩
  · exact Or.inl ⟨3, h, by omega, by unfold Asked; simp [h'.symm]⟩
  · exact key 3 (by omega) (by omega) (by simpa using h) fun d hd => by unfold Asked; simp [h'.symm, hd]
  · exact key 2 (by omega) (by omega) (by simpa using h) fun d hd => by unfold Asked; simp [h'.symm, hd]
  · exact key 1 (by omega) (by omega) (by simpa using h) fun d hd => by unfold Asked; simp [h'.symm, hd]
  · exact Or.inl ⟨c.tdim, h, by omega, by unfold Asked; simp [h'.symm]⟩

theorem asked_slot {dim : ℕ} {input : Input} (h : Asked c args dim input) : ((dim : ℤ), some input) ∈ slots c args := by
  simp only [slots, List.mem_cons, Prod.mk.injEq, List.mem_nil_iff, or_false]
  rcases h with ⟨h, h'⟩ | ⟨h, h'⟩ | ⟨h, h'⟩ | ⟨h, h'⟩ | ⟨h, h'⟩ | ⟨h, h'⟩ | ⟨h, h'⟩ | ⟨h, h'⟩ <;> rw [h]
  · left; exact ⟨by omega, rfl⟩
  · right; left; exact ⟨by omega, rfl⟩
  · right; right; left; exact ⟨by omega, rfl⟩
  · right; right; right; left; exact ⟨by omega, rfl⟩
  · right; right; right; right; left; exact ⟨by omega, rfl⟩
  · right; right; right; right; right; left; exact ⟨by omega, rfl⟩
  · right; right; right; right; right; right; left; exact ⟨by omega, rfl⟩
  · right; right; right; right; right; right; right; exact ⟨by omega, rfl⟩

theorem asked_le {dim : ℕ} {input : Input} (h : Asked c args dim input) : dim ≤ 3 := by
  have := tdim_le c
  unfold Asked at h
  omega

/-- The DOFs of one entity. -/
theorem mem_entityDofs {input : Input} {dim i : ℕ} {l : List (MomentDof X)}
    (h : entityDofs classes c input dim i = some l) (D : MomentDof X) :
    D ∈ l ↔ D.entity = (dim, i) ∧ ∃ t d, c.subEntityType dim i = some t ∧ extract input (cellName t) = some d ∧
      (classes d.element).minOrder ≤ d.order ∧ D.moment = d.moment ∧ D.mapping = d.mapping ∧
      ∃ xs, (classes d.element).create t d.order d.kwargs = some xs ∧ D.sub ∈ xs := by
  unfold entityDofs at h
  cases ht : c.subEntityType dim i with
  | none => rw [ht] at h; cases h
  | some t =>
    rw [ht, Option.bind_some] at h
    cases hd : extract input (cellName t) with
    | none => rw [hd] at h; cases h
    | some d =>
      rw [hd, Option.bind_some] at h
      split at h
      · rename_i hlt
        cases h
        constructor
        · intro h; cases h
        · rintro ⟨-, t', d', ht', hd', hle, -⟩
          cases ht'; rw [hd] at hd'; cases hd'
          omega
      · rename_i hlt
        rw [Option.map_eq_some_iff] at h
        obtain ⟨xs, hxs, rfl⟩ := h
        constructor
        · intro h
          obtain ⟨x, hx, rfl⟩ := List.mem_map.1 h
          exact ⟨rfl, t, d, rfl, hd, by omega, rfl, rfl, xs, hxs, hx⟩
        · rintro ⟨he, t', d', ht', hd', -, hm, hp, xs', hxs', hx⟩
          cases ht'; rw [hd] at hd'; cases hd'
          rw [hxs] at hxs'; cases hxs'
          refine List.mem_map.2 ⟨D.sub, hx, ?_⟩
          cases D
          simp_all

/-- **C61** The DOFs made are exactly those asked for: for each argument, each entity of its dimension and each DOF of
the sub-element of that entity there is a DOF attached to the entity, with the class and mapping of the argument, and
there is no other; sub-elements below their lowest order give none. -/
theorem moments_mem {l : List (MomentDof X)} (h : makeIntegralMomentDofs classes c args = some l) (D : MomentDof X) :
    D ∈ l ↔ ∃ dim input i t d xs, Asked c args dim input ∧ dim ≤ c.tdim ∧ i < entityCount c dim ∧
      D.entity = (dim, i) ∧ c.subEntityType dim i = some t ∧ extract input (cellName t) = some d ∧
      (classes d.element).minOrder ≤ d.order ∧ D.moment = d.moment ∧ D.mapping = d.mapping ∧
      (classes d.element).create t d.order d.kwargs = some xs ∧ D.sub ∈ xs := by
  unfold makeIntegralMomentDofs at h
  rw [Option.map_eq_some_iff] at h
  obtain ⟨ls, hls, rfl⟩ := h
  have hall := mapM_forall hls
  constructor
  · intro hD
    obtain ⟨b, hb, hDb⟩ := List.mem_flatten.1 hD
    obtain ⟨⟨dim, inp⟩, hs, hslot⟩ := forall₂_mem_left hall hb
    cases inp with
    | none => simp only [slotDofs] at hslot; cases hslot; cases hDb
    | some input =>
      rcases mem_slots hs with ⟨d, hd, h3, hA⟩ | ⟨k, h1, h3, hd, hneg⟩
      · simp only [hd] at hslot
        rw [slot_eq c d h3] at hslot
        split_ifs at hslot with h1 h2
        · cases hslot; cases hDb
        · rw [Option.map_eq_some_iff] at hslot
          obtain ⟨ms, hms, rfl⟩ := hslot
          obtain ⟨m, hm, hDm⟩ := List.mem_flatten.1 hDb
          obtain ⟨i, hi, hent⟩ := forall₂_mem_left (mapM_forall hms) hm
          obtain ⟨he, t, dd, ht, hdd, hle, hmo, hma, xs, hxs, hx⟩ := (mem_entityDofs hent D).1 hDm
          exact ⟨d, input, i, t, dd, xs, hA, by omega, List.mem_range.1 hi, he, ht, hdd, hle, hmo, hma, hxs, hx⟩
      · simp only [hd] at hslot hneg
        rw [slot_negative c k h1 h3 hneg] at hslot
        cases hslot; cases hDb
  · rintro ⟨dim, input, i, t, d, xs, hA, hdim, hi, he, ht, hd, hle, hmo, hma, hxs, hx⟩
    obtain ⟨b, hb, hslot⟩ := forall₂_mem_right hall (asked_slot hA)
    simp only at hslot
    rw [slot_eq c dim (asked_le hA), if_neg (by omega)] at hslot
    split_ifs at hslot with h2
    rw [Option.map_eq_some_iff] at hslot
    obtain ⟨ms, hms, rfl⟩ := hslot
    obtain ⟨m, hm, hent⟩ := forall₂_mem_right (mapM_forall hms) (List.mem_range.2 hi)
    exact List.mem_flatten.2 ⟨_, hb, List.mem_flatten.2 ⟨m, hm, (mem_entityDofs hent D).2
      ⟨he, t, d, ht, hd, hle, hmo, hma, xs, hxs, hx⟩⟩⟩

/-- **C61** Moments on vertices, however they are asked for, are an error. -/
theorem moments_vertices {input : Input} (h : Asked c args 0 input) : makeIntegralMomentDofs classes c args = none := by
  rw [makeIntegralMomentDofs, Option.map_eq_none_iff]
  cases hm : (slots c args).mapM fun s => slotDofs classes c s.1 s.2 with
  | none => rfl
  | some ls =>
    obtain ⟨b, -, hb⟩ := forall₂_mem_right (mapM_forall hm) (asked_slot h)
    simp only at hb
    rw [slot_eq c 0 (by omega), if_neg (by omega), if_pos rfl] at hb
    cases hb

/-- The arguments that ask for moments on the entities of a dimension, in the order in which they are used. -/
def askedList (c : Cell) (args : Args) (dim : ℕ) : List Input :=
  (if dim = 0 then args.vertices.toList else []) ++ (if dim = 1 then args.edges.toList else []) ++
  (if dim = 2 then args.faces.toList else []) ++ (if dim = 3 then args.volumes.toList else []) ++
  (if dim + 3 = c.tdim then args.peaks.toList else []) ++ (if dim + 2 = c.tdim then args.ridges.toList else []) ++
  (if dim + 1 = c.tdim then args.facets.toList else []) ++ (if dim = c.tdim then args.cells.toList else [])

/-- The moments that one argument asks for on an entity of type `t`: the class, the mapping and the DOFs of the
sub-element. -/
def wanted (classes : String → ElementClass X) (input : Input) (t : Cell) : Option (String × Option String × List X) :=
  (extract input (cellName t)).bind fun d =>
    if d.order < (classes d.element).minOrder then some (d.moment, d.mapping, [])
    else ((classes d.element).create t d.order d.kwargs).map fun xs => (d.moment, d.mapping, xs)

theorem entityDofs_eq {input : Input} {dim i : ℕ} {t : Cell} (ht : c.subEntityType dim i = some t) :
    entityDofs classes c input dim i =
      (wanted classes input t).map fun w => w.2.2.map fun x => ⟨w.1, x, (dim, i), w.2.1⟩ := by
  unfold entityDofs wanted
  rw [ht, Option.bind_some]
  cases extract input (cellName t) with
  | none => rfl
  | some d =>
    simp only [Option.bind_some]
    split_ifs
    · rfl
    · cases (classes d.element).create t d.order d.kwargs <;> rfl

theorem entity_of_mem {input : Input} {dim i : ℕ} {l : List (MomentDof X)}
    (h : entityDofs classes c input dim i = some l) {D : MomentDof X} (hD : D ∈ l) : D.entity = (dim, i) :=
  ((mem_entityDofs h D).1 hD).1

/-- The part of a slot on one entity. -/
theorem slot_filter {dim' : ℤ} {inp : Option Input} (hs : (dim', inp) ∈ slots c args) {b : List (MomentDof X)}
    (hb : slotDofs classes c dim' inp = some b) {dim i : ℕ} (h0 : 0 < dim) (hd : dim ≤ c.tdim)
    (hi : i < entityCount c dim) :
    b.filter (fun D => decide (D.entity = (dim, i))) =
      if dim' = dim then inp.toList.flatMap fun input => (entityDofs classes c input dim i).getD [] else [] := by
  cases inp with
  | none => simp only [slotDofs] at hb; cases hb; simp
  | some input =>
    rcases mem_slots hs with ⟨d, rfl, h3, -⟩ | ⟨k, h1, h3, rfl, hneg⟩
    · rw [slot_eq c d h3] at hb
      split_ifs at hb with h1 h2
      · cases hb
        rw [if_neg (by omega)]; rfl
      · rw [Option.map_eq_some_iff] at hb
        obtain ⟨ms, hms, rfl⟩ := hb
        have hall := mapM_forall hms
        have hrange : ∀ (L : List ℕ) (ms : List (List (MomentDof X))), L.Nodup →
            List.Forall₂ (fun a b => entityDofs classes c input d a = some b) L ms →
            ms.flatten.filter (fun D => decide (D.entity = (dim, i))) =
              if d = dim ∧ i ∈ L then (entityDofs classes c input dim i).getD [] else [] := by
          intro L ms hnd hall
          induction hall with
          | nil => simp
          | @cons a m L ms hab _ ih =>
            rw [List.nodup_cons] at hnd
            rw [List.flatten_cons, List.filter_append, ih hnd.2]
            by_cases hda : d = dim ∧ a = i
            · obtain ⟨rfl, rfl⟩ := hda
              rw [List.filter_eq_self.2 fun D hD => decide_eq_true (entity_of_mem hab hD), if_neg (by tauto),
                if_pos ⟨rfl, List.mem_cons_self⟩, hab]
              simp
            · rw [List.filter_eq_nil_iff.2 fun D hD => ?_, List.nil_append]
              · by_cases hmem : d = dim ∧ i ∈ L
                · rw [if_pos hmem, if_pos ⟨hmem.1, List.mem_cons_of_mem _ hmem.2⟩]
                · rw [if_neg hmem, if_neg]
                  rintro ⟨h1, h2⟩
                  rcases List.mem_cons.1 h2 with h2 | h2
                  · exact hda ⟨h1, h2.symm⟩
                  · exact hmem ⟨h1, h2⟩
              · rw [decide_eq_true_eq, entity_of_mem hab hD]
                simpa using hda
        rw [hrange _ _ List.nodup_range hall]
        by_cases hdd : d = dim
        · rw [if_pos ⟨hdd, List.mem_range.2 (hdd ▸ hi)⟩, if_pos (by omega)]
          simp
        · rw [if_neg (by tauto), if_neg (by omega)]
    · rw [slot_negative c k h1 h3 hneg] at hb
      cases hb
      rw [if_neg (by omega)]; rfl

/-- **C61** The DOFs on one entity, in order: for each argument that asks for moments on entities of this dimension,
one for each DOF of the sub-element. -/
theorem moments_entity {l : List (MomentDof X)} (h : makeIntegralMomentDofs classes c args = some l) {dim i : ℕ}
    (h0 : 0 < dim) (hd : dim ≤ c.tdim) (hi : i < entityCount c dim) {t : Cell} (ht : c.subEntityType dim i = some t) :
    l.filter (fun D => decide (D.entity = (dim, i))) = (askedList c args dim).flatMap fun input =>
      match wanted classes input t with
      | some (moment, mapping, xs) => xs.map fun x => ⟨moment, x, (dim, i), mapping⟩
      | none => [] := by
  unfold makeIntegralMomentDofs at h
  rw [Option.map_eq_some_iff] at h
  obtain ⟨ls, hls, rfl⟩ := h
  have hall := mapM_forall hls
  have key : ∀ (S : List (ℤ × Option Input)) (ls : List (List (MomentDof X))), (∀ s ∈ S, s ∈ slots c args) →
      List.Forall₂ (fun s b => slotDofs classes c s.1 s.2 = some b) S ls →
      ls.flatten.filter (fun D => decide (D.entity = (dim, i))) = S.flatMap fun s =>
        if s.1 = (dim : ℤ) then s.2.toList.flatMap fun input => (entityDofs classes c input dim i).getD [] else [] := by
    intro S ls hS hall
    induction hall with
    | nil => rfl
    | @cons s b S ls hsb _ ih =>
      rw [List.flatten_cons, List.filter_append, ih fun s hs => hS s (List.mem_cons_of_mem _ hs), List.flatMap_cons,
        slot_filter (hS s List.mem_cons_self) hsb h0 hd hi]
  rw [key _ _ (fun s hs => hs) hall]
  have e : (askedList c args dim).flatMap (fun input => (entityDofs classes c input dim i).getD []) =
      (askedList c args dim).flatMap fun input =>
      match wanted classes input t with
      | some (moment, mapping, xs) => xs.map fun x => ⟨moment, x, (dim, i), mapping⟩
      | none => [] := by
    congr 1
    funext input
    rw [entityDofs_eq ht]
    cases wanted classes input t <;> rfl
  rw [← e]
  simp only [slots, askedList, List.flatMap_append, List.flatMap_cons, List.flatMap_nil, List.append_nil,
    List.append_assoc]
  have g : ∀ (P Q : Prop) [Decidable P] [Decidable Q] (o : Option Input), (P ↔ Q) →
      (if P then o.toList.flatMap fun input => (entityDofs classes c input dim i).getD [] else []) =
      List.flatMap (fun input => (entityDofs classes c input dim i).getD []) (if Q then o.toList else []) := by
    intro P Q _ _ o hPQ
    by_cases hP : P
    · rw [if_pos hP, if_pos (hPQ.1 hP)]
    · rw [if_neg hP, if_neg (fun h => hP (hPQ.2 h))]; rfl
  rw [g _ (dim = 0) _ (by omega), g _ (dim = 1) _ (by omega), g _ (dim = 2) _ (by omega), g _ (dim = 3) _ (by omega),
    g _ (dim + 3 = c.tdim) _ (by omega), g _ (dim + 2 = c.tdim) _ (by omega), g _ (dim + 1 = c.tdim) _ (by omega),
    g _ (dim = c.tdim) _ (by omega)]

/-- The call succeeds when no moments are asked for on vertices and every sub-element can be created. -/
theorem moments_isSome (h0 : ∀ input, ¬ Asked c args 0 input)
    (h : ∀ dim input i t, Asked c args dim input → dim ≤ c.tdim → i < entityCount c dim →
      c.subEntityType dim i = some t → (wanted classes input t).isSome)
    (ht : ∀ dim i, 1 ≤ dim → dim ≤ c.tdim → i < entityCount c dim → (c.subEntityType dim i).isSome) :
    (makeIntegralMomentDofs classes c args).isSome := by
  have all : ∀ {A B : Type} (f : A → Option B) (L : List A), (∀ a ∈ L, (f a).isSome) → (L.mapM f).isSome := by
    intro A B f L hL
    induction L with
    | nil => rfl
    | cons a L ih =>
      obtain ⟨b, hb⟩ := Option.isSome_iff_exists.1 (hL a List.mem_cons_self)
      obtain ⟨bs, hbs⟩ := Option.isSome_iff_exists.1 (ih fun a ha => hL a (List.mem_cons_of_mem _ ha))
      rw [List.mapM_cons, hb, hbs]; rfl
  rw [makeIntegralMomentDofs, Option.isSome_map]
  refine all _ _ fun s hs => ?_
  obtain ⟨dim', inp⟩ := s
  cases inp with
  | none => rfl
  | some input =>
    rcases mem_slots hs with ⟨d, rfl, h3, hA⟩ | ⟨k, h1, h3, rfl, hneg⟩
    · simp only
      rw [slot_eq c d h3]
      split_ifs with h1 h2
      · rfl
      · subst h2; exact absurd hA (h0 input)
      · rw [Option.isSome_map]
        refine all _ _ fun i hi => ?_
        have hi := List.mem_range.1 hi
        obtain ⟨t, htt⟩ := Option.isSome_iff_exists.1 (ht d i (by omega) (by omega) hi)
        rw [entityDofs_eq htt, Option.isSome_map]
        exact h d input i t hA (by omega) hi htt
    · simp only
      rw [slot_negative c k h1 h3 hneg]; rfl

end

/-! ### A concrete case -/

/-- Sub-elements with `order + 1` DOFs, from order 0. -/
def sampleClass : ElementClass ℕ := ⟨0, fun _ k _ => some (List.range (k + 1).toNat)⟩

/-- Moments on the facets and the interior of a triangle. -/
def sampleArgs : Args :=
  { facets := some (.single [.cls "NormalIntegralMoment", .cls "Lagrange", .int 1, .dict []])
    cells := some (.single [.cls "IntegralMoment", .cls "VectorLagrange", .int 0, .str "contravariant"]) }

example : (makeIntegralMomentDofs (fun _ => sampleClass) .triangle sampleArgs).map
    (·.map fun D => (D.moment, D.sub, D.entity, D.mapping)) =
    some [("NormalIntegralMoment", 0, (1, 0), none), ("NormalIntegralMoment", 1, (1, 0), none),
      ("NormalIntegralMoment", 0, (1, 1), none), ("NormalIntegralMoment", 1, (1, 1), none),
      ("NormalIntegralMoment", 0, (1, 2), none), ("NormalIntegralMoment", 1, (1, 2), none),
      ("IntegralMoment", 0, (2, 0), some "contravariant")] := by
  rfl

/-- Facets of an interval are vertices. -/
example : makeIntegralMomentDofs (fun _ => sampleClass) .interval sampleArgs = none :=
  moments_vertices (c := .interval) (args := sampleArgs)
    (input := .single [.cls "NormalIntegralMoment", .cls "Lagrange", .int 1, .dict []])
    (Or.inr (Or.inr (Or.inr (Or.inr (Or.inr (Or.inr (Or.inl ⟨rfl, rfl⟩)))))))

end Verif.Moments
