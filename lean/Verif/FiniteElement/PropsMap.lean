import Verif.FiniteElement.PropsTabulate
import Verif.FiniteElement.PropsEntity
/-!
# Mapping to a cell (C51, C72)
-/

set_option linter.unusedSectionVars false

namespace Verif.FiniteElement
open Verif.References

variable {K V W : Type} [Field K] [AddCommGroup V] [Module K V]

theorem exceptMapM_ok {α β : Type} (f : α → Except MapErr β) (l : List α) (r : List β)
    (h : l.mapM f = .ok r) :
    r.length = l.length ∧ ∀ (i : ℕ) (a : α), l[i]? = some a → ∃ b, r[i]? = some b ∧ f a = .ok b := by
  induction l generalizing r with
  | nil =>
    rw [List.mapM_nil] at h
    injection h with h
    subst h
    simp
  | cons x t ih =>
    rw [List.mapM_cons] at h
    cases hx : f x with
    | error e => rw [hx] at h; cases h
    | ok b =>
      cases ht : t.mapM f with
      | error e => rw [hx, ht] at h; cases h
      | ok bs =>
        rw [hx, ht] at h
        injection h with h
        subst h
        obtain ⟨h1, h2⟩ := ih bs ht
        refine ⟨by simp [h1], fun i a hi => ?_⟩
        cases i with
        | zero =>
          have : x = a := by simpa using hi
          subst this
          exact ⟨b, by simp, hx⟩
        | succ i =>
          obtain ⟨b', h3, h4⟩ := h2 i a (by simpa using hi)
          exact ⟨b', by simpa using h3, h4⟩

theorem exceptMapM_error {α β : Type} (f : α → Except MapErr β) (l : List α) (e : MapErr)
    (h : l.mapM f = .error e) : ∃ a ∈ l, f a = .error e := by
  induction l with
  | nil => rw [List.mapM_nil] at h; cases h
  | cons x t ih =>
    rw [List.mapM_cons] at h
    cases hx : f x with
    | error e' =>
      rw [hx] at h
      injection h with h
      subst h
      exact ⟨x, by simp, hx⟩
    | ok b =>
      cases ht : t.mapM f with
      | error e' =>
        rw [hx, ht] at h
        injection h with h
        subst h
        obtain ⟨a, ha, hf⟩ := ih ht
        exact ⟨a, by simp [ha], hf⟩
      | ok bs => rw [hx, ht] at h; cases h

/-- `w` is the image of function number `d` under the mapping named by DOF number `d`. -/
def IsMapped (cw : Cellwise V W) (dofs : List (Dof K V)) (basis : List V) (d : ℕ) (w : W) : Prop :=
  ∃ dof name f, dofs[d]? = some dof ∧ dof.mapping = some name ∧ cw.overrides dof.kind = false ∧
    basis[d]? = some f ∧ cw.maps name f = .ok w

theorem foldl_set_spec (R : ℕ → W → Prop) (ps : List (ℕ × W)) (out : List W)
    (h : ∀ p ∈ ps, R p.1 p.2) :
    (ps.foldl (fun o p => o.set p.1 p.2) out).length = out.length ∧
    (∀ d ∈ ps.map Prod.fst, d < out.length →
      ∃ w, (ps.foldl (fun o p => o.set p.1 p.2) out)[d]? = some w ∧ R d w) ∧
    (∀ d, d ∉ ps.map Prod.fst → (ps.foldl (fun o p => o.set p.1 p.2) out)[d]? = out[d]?) := by
  induction ps generalizing out with
  | nil => simp
  | cons p ps ih =>
    obtain ⟨h1, h2, h3⟩ := ih (out.set p.1 p.2) fun q hq => h q (by simp [hq])
    rw [List.foldl_cons]
    refine ⟨by rw [h1, List.length_set], ?_, ?_⟩
    · intro d hd hlt
      by_cases hd' : d ∈ ps.map Prod.fst
      · exact h2 d hd' (by rwa [List.length_set])
      · rw [List.map_cons, List.mem_cons] at hd
        have hdp : d = p.1 := hd.resolve_right hd'
        subst hdp
        refine ⟨p.2, ?_, h p (by simp)⟩
        rw [h3 _ hd', List.getElem?_set_self hlt]
    · intro d hd
      rw [List.map_cons, List.mem_cons, not_or] at hd
      rw [h3 d hd.2, List.getElem?_set_ne (Ne.symm hd.1)]

/-- The groups of an entity: each holds DOF numbers of that class and mapping, and every DOF number
is in one. -/
def GroupsOK (dofs : List (Dof K V)) (l : List ℕ) (g : List ((ℕ × Option String) × List ℕ)) :
    Prop :=
  (∀ p ∈ g, ∀ d ∈ p.2, d ∈ l ∧ ∃ dof, dofs[d]? = some dof ∧ (dof.kind, dof.mapping) = p.1) ∧
  ∀ d ∈ l, (∃ dof, dofs[d]? = some dof) → ∃ p ∈ g, d ∈ p.2

theorem addGroup_mem (t : ℕ × Option String) (d : ℕ) (g : List ((ℕ × Option String) × List ℕ)) :
    (∀ p ∈ addGroup t d g, ∀ x ∈ p.2, (x = d ∧ p.1 = t) ∨ ∃ q ∈ g, q.1 = p.1 ∧ x ∈ q.2) ∧
    (∃ p ∈ addGroup t d g, d ∈ p.2) ∧
    (∀ q ∈ g, ∀ x ∈ q.2, ∃ p ∈ addGroup t d g, x ∈ p.2) := by
  induction g with
  | nil =>
    refine ⟨?_, ?_, by simp⟩
    · intro p hp x hx
      rw [addGroup, List.mem_singleton] at hp
      subst hp
      left; simpa using hx
    · exact ⟨(t, [d]), by simp [addGroup], by simp⟩
  | cons q g ih =>
    obtain ⟨t', ds⟩ := q
    rw [addGroup]
    split_ifs with ht
    · subst ht
      refine ⟨?_, ⟨(t', ds ++ [d]), by simp, by simp⟩, ?_⟩
      · intro p hp x hx
        rcases List.mem_cons.1 hp with rfl | hp
        · rcases List.mem_append.1 hx with hx | hx
          · exact Or.inr ⟨(t', ds), by simp, rfl, hx⟩
          · exact Or.inl ⟨by simpa using hx, rfl⟩
        · exact Or.inr ⟨p, by simp [hp], rfl, hx⟩
      · intro q hq x hx
        rcases List.mem_cons.1 hq with rfl | hq
        · exact ⟨(t', ds ++ [d]), by simp, by simp at hx ⊢; exact Or.inl hx⟩
        · exact ⟨q, by simp [hq], hx⟩
    · obtain ⟨h1, ⟨p0, hp0, hd0⟩, h3⟩ := ih
      refine ⟨?_, ⟨p0, by simp [hp0], hd0⟩, ?_⟩
      · intro p hp x hx
        rcases List.mem_cons.1 hp with rfl | hp
        · exact Or.inr ⟨(t', ds), by simp, rfl, hx⟩
        · rcases h1 p hp x hx with h | ⟨q, hq, h⟩
          · exact Or.inl h
          · exact Or.inr ⟨q, by simp [hq], h⟩
      · intro q hq x hx
        rcases List.mem_cons.1 hq with rfl | hq
        · exact ⟨(t', ds), by simp, hx⟩
        · obtain ⟨p, hp, hxp⟩ := h3 q hq x hx
          exact ⟨p, by simp [hp], hxp⟩

theorem groups_ok (dofs : List (Dof K V)) (l : List ℕ) : GroupsOK dofs l (groups dofs l) := by
  have aux : ∀ (l done : List ℕ) (g : List ((ℕ × Option String) × List ℕ)),
      GroupsOK dofs done g → GroupsOK dofs (done ++ l) (l.foldl (fun g d =>
        match dofs[d]? with
        | some dof => addGroup (dof.kind, dof.mapping) d g
        | none => g) g) := by
    intro l
    induction l with
    | nil => intro done g h; simpa using h
    | cons d l ih =>
      intro done g h
      rw [List.foldl_cons]
      have hl : done ++ d :: l = (done ++ [d]) ++ l := by simp
      rw [hl]
      apply ih
      obtain ⟨h1, h2⟩ := h
      cases hd : dofs[d]? with
      | none =>
        refine ⟨fun p hp x hx => ?_, fun x hx hex => ?_⟩
        · obtain ⟨ha, hb⟩ := h1 p hp x hx
          exact ⟨by simp [ha], hb⟩
        · rcases List.mem_append.1 hx with hx | hx
          · exact h2 x hx hex
          · obtain rfl : x = d := by simpa using hx
            obtain ⟨dof, hdof⟩ := hex
            rw [hd] at hdof; cases hdof
      | some dof =>
        obtain ⟨ha, hb, hc⟩ := addGroup_mem (dof.kind, dof.mapping) d g
        refine ⟨fun p hp x hx => ?_, fun x hx hex => ?_⟩
        · rcases ha p hp x hx with ⟨rfl, ht⟩ | ⟨q, hq, hqp, hxq⟩
          · exact ⟨by simp, dof, hd, ht.symm⟩
          · obtain ⟨h3, h4⟩ := h1 q hq x hxq
            exact ⟨by simp [h3], by rw [← hqp]; exact h4⟩
        · rcases List.mem_append.1 hx with hx | hx
          · obtain ⟨q, hq, hxq⟩ := h2 x hx hex
            exact hc q hq x hxq
          · obtain rfl : x = d := by simpa using hx
            exact hb
  have := aux l [] [] ⟨by simp, by simp⟩
  rw [List.nil_append] at this
  exact this

theorem mapGroup_ok (cw : Cellwise V W) (dofs : List (Dof K V)) (basis : List V)
    (t : ℕ × Option String) (ds : List ℕ)
    (ht : ∀ d ∈ ds, ∃ dof, dofs[d]? = some dof ∧ (dof.kind, dof.mapping) = t)
    (fs out : List W) (h : mapGroup cw basis t ds fs = .ok out) :
    out.length = fs.length ∧
    (∀ d ∈ ds, d < fs.length → ∃ w, out[d]? = some w ∧ IsMapped cw dofs basis d w) ∧
    ∀ d, d ∉ ds → out[d]? = fs[d]? := by
  unfold mapGroup at h
  cases hb : ds.mapM (fun d => basis[d]?) with
  | none => rw [hb] at h; cases h
  | some gs =>
    rw [hb] at h
    simp only at h
    cases hp : performMapping cw t.1 t.2 gs with
    | error e => rw [hp] at h; cases h
    | ok mapped =>
      rw [hp] at h
      simp only at h
      injection h with h
      subst h
      unfold performMapping at hp
      split_ifs at hp with ho
      cases hm : t.2 with
      | none => rw [hm] at hp; cases hp
      | some name =>
        rw [hm] at hp
        simp only at hp
        obtain ⟨hl1, hi1⟩ := (mapM_some_iff _ _ _).1 hb
        obtain ⟨hl2, hi2⟩ := exceptMapM_ok _ _ _ hp
        have hfst : (ds.zip mapped).map Prod.fst = ds :=
          List.map_fst_zip (by omega)
        have hR : ∀ p ∈ ds.zip mapped, IsMapped cw dofs basis p.1 p.2 := by
          intro p hpm
          obtain ⟨i, hi⟩ := List.mem_iff_getElem?.1 hpm
          rw [List.getElem?_zip_eq_some] at hi
          obtain ⟨hd, hw⟩ := hi
          obtain ⟨dof, hdof, hkm⟩ := ht p.1 (List.mem_of_getElem? hd)
          have hbi := hi1 i
          rw [hd, Option.bind_some] at hbi
          have hg : ∃ f, gs[i]? = some f := by
            have : i < gs.length := by
              have := (List.getElem?_eq_some_iff.1 hd).1; omega
            exact ⟨_, List.getElem?_eq_getElem this⟩
          obtain ⟨f, hf⟩ := hg
          obtain ⟨w, hw1, hw2⟩ := hi2 i f hf
          rw [hw] at hw1
          injection hw1 with hw1
          refine ⟨dof, name, f, hdof, ?_, ?_, by rw [hbi, hf], by rw [hw2, hw1]⟩
          · have := congrArg Prod.snd hkm
            simpa [hm] using this
          · have := congrArg Prod.fst hkm
            simp only at this
            rw [this]; simpa using ho
        obtain ⟨h1, h2, h3⟩ := foldl_set_spec _ _ fs hR
        rw [hfst] at h2 h3
        exact ⟨h1, h2, h3⟩

theorem mapGroups_ok (cw : Cellwise V W) (dofs : List (Dof K V)) (basis : List V)
    (g : List ((ℕ × Option String) × List ℕ))
    (ht : ∀ p ∈ g, ∀ d ∈ p.2, ∃ dof, dofs[d]? = some dof ∧ (dof.kind, dof.mapping) = p.1)
    (fs out : List W) (h : mapGroups cw basis g fs = .ok out) :
    out.length = fs.length ∧
    (∀ d, (∃ p ∈ g, d ∈ p.2) → d < fs.length →
      ∃ w, out[d]? = some w ∧ IsMapped cw dofs basis d w) ∧
    ∀ d, (¬ ∃ p ∈ g, d ∈ p.2) → out[d]? = fs[d]? := by
  induction g generalizing fs with
  | nil =>
    rw [mapGroups] at h
    injection h with h
    subst h
    simp
  | cons p g ih =>
    rw [mapGroups] at h
    cases hp : mapGroup cw basis p.1 p.2 fs with
    | error e => rw [hp] at h; cases h
    | ok fs' =>
      rw [hp] at h
      obtain ⟨a1, a2, a3⟩ := mapGroup_ok cw dofs basis p.1 p.2 (ht p (by simp)) fs fs' hp
      obtain ⟨b1, b2, b3⟩ := ih (fun q hq => ht q (by simp [hq])) fs' h
      refine ⟨by omega, ?_, ?_⟩
      · rintro d ⟨q, hq, hdq⟩ hlt
        by_cases hin : ∃ p ∈ g, d ∈ p.2
        · exact b2 d hin (by omega)
        · rcases List.mem_cons.1 hq with rfl | hq
          · rw [b3 d hin]; exact a2 d hdq hlt
          · exact absurd ⟨q, hq, hdq⟩ hin
      · intro d hd
        rw [b3 d fun ⟨q, hq, hdq⟩ => hd ⟨q, by simp [hq], hdq⟩,
          a3 d fun hdp => hd ⟨p, by simp, hdp⟩]

theorem mapEntities_ok (cw : Cellwise V W) (dofs : List (Dof K V)) (basis : List V)
    (ents : List (ℕ × ℕ)) (fs out : List W) (h : mapEntities cw dofs basis ents fs = .ok out) :
    out.length = fs.length ∧
    (∀ d dof, dofs[d]? = some dof → dof.entity ∈ ents → d < fs.length →
      ∃ w, out[d]? = some w ∧ IsMapped cw dofs basis d w) ∧
    ∀ d : ℕ, (∀ dof, dofs[d]? = some dof → dof.entity ∉ ents) → out[d]? = fs[d]? := by
  induction ents generalizing fs with
  | nil =>
    rw [mapEntities] at h
    injection h with h
    subst h
    simp
  | cons e es ih =>
    rw [mapEntities] at h
    cases hp : mapGroups cw basis (groups dofs (matching (dofs.map Dof.entity) e)) fs with
    | error e => rw [hp] at h; cases h
    | ok fs' =>
      rw [hp] at h
      obtain ⟨g1, g2⟩ := groups_ok dofs (matching (dofs.map Dof.entity) e)
      obtain ⟨a1, a2, a3⟩ := mapGroups_ok cw dofs basis _ (fun p hp d hd => (g1 p hp d hd).2) fs fs' hp
      obtain ⟨b1, b2, b3⟩ := ih fs' h
      refine ⟨by omega, ?_, ?_⟩
      · intro d dof hd he hlt
        by_cases hin : dof.entity ∈ es
        · exact b2 d dof hd hin (by omega)
        · have hee : dof.entity = e := (List.mem_cons.1 he).resolve_right hin
          rw [b3 d fun dof' hd' => by rw [hd] at hd'; injection hd' with hd'; rwa [← hd']]
          refine a2 d (g2 d ?_ ⟨dof, hd⟩) hlt
          rw [mem_matching, List.getElem?_map, hd, ← hee]
          rfl
      · intro d hd
        rw [b3 d fun dof hdof => fun hin => hd dof hdof (by simp [hin])]
        apply a3
        rintro ⟨p, hp, hdp⟩
        obtain ⟨hm, dof, hdof, -⟩ := g1 p hp d hdp
        rw [mem_matching, List.getElem?_map, hdof] at hm
        exact hd dof hdof (by simp only [Option.map_some] at hm; injection hm with hm; simp [hm])

/-- Every function is mappable or raises `MappingNotImplemented`: the DOFs have functions, and a DOF
whose class does not override `perform_mapping` names a mapping. -/
def Mappable (cw : Cellwise V W) (dofs : List (Dof K V)) (basis : List V) : Prop :=
  ∀ (d : ℕ) (dof : Dof K V), dofs[d]? = some dof → ∃ f, basis[d]? = some f ∧
    (cw.overrides dof.kind = false → ∃ name, dof.mapping = some name ∧
      ∀ e, cw.maps name f = .error e → e = .notImplemented)

theorem mapGroup_error (cw : Cellwise V W) (dofs : List (Dof K V)) (basis : List V)
    (hM : Mappable cw dofs basis) (t : ℕ × Option String) (ds : List ℕ) (hne : ds ≠ [])
    (ht : ∀ d ∈ ds, ∃ dof, dofs[d]? = some dof ∧ (dof.kind, dof.mapping) = t)
    (fs : List W) (e : MapErr) (h : mapGroup cw basis t ds fs = .error e) :
    e = .notImplemented := by
  unfold mapGroup at h
  cases hb : ds.mapM (fun d => basis[d]?) with
  | none =>
    exfalso
    rw [mapM_some_of _ (fun d => (basis[d]?).getD 0)] at hb
    · cases hb
    · intro d hd
      obtain ⟨dof, hdof, -⟩ := ht d hd
      obtain ⟨f, hf, -⟩ := hM d dof hdof
      rw [hf]; rfl
  | some gs =>
    rw [hb] at h
    simp only at h
    cases hp : performMapping cw t.1 t.2 gs with
    | ok mapped => rw [hp] at h; cases h
    | error e' =>
      rw [hp] at h
      injection h with h
      subst h
      unfold performMapping at hp
      split_ifs at hp with ho
      · injection hp with hp; exact hp.symm
      · obtain ⟨d0, hd0⟩ := List.exists_mem_of_ne_nil _ hne
        cases hm : t.2 with
        | none =>
          obtain ⟨dof, hdof, hkm⟩ := ht d0 hd0
          obtain ⟨f, -, hn⟩ := hM d0 dof hdof
          have hk := congrArg Prod.fst hkm
          have hk2 := congrArg Prod.snd hkm
          simp only at hk hk2
          obtain ⟨name, hname, -⟩ := hn (by rw [hk]; simpa using ho)
          rw [hk2, hm] at hname; cases hname
        | some name =>
          rw [hm] at hp
          simp only at hp
          obtain ⟨f, hf, herr⟩ := exceptMapM_error _ _ _ hp
          obtain ⟨hl1, hi1⟩ := (mapM_some_iff _ _ _).1 hb
          obtain ⟨i, hi⟩ := List.mem_iff_getElem?.1 hf
          have hlt : i < ds.length := by
            have := (List.getElem?_eq_some_iff.1 hi).1; omega
          have hbi := hi1 i
          rw [List.getElem?_eq_getElem hlt, Option.bind_some, hi] at hbi
          obtain ⟨dof, hdof, hkm⟩ := ht ds[i] (List.getElem_mem _)
          obtain ⟨f', hf', hn⟩ := hM _ dof hdof
          have hk := congrArg Prod.fst hkm
          have hk2 := congrArg Prod.snd hkm
          simp only at hk hk2
          obtain ⟨name', hname, hall⟩ := hn (by rw [hk]; simpa using ho)
          rw [hk2, hm] at hname
          injection hname with hname
          rw [hbi] at hf'
          injection hf' with hf'
          subst hname hf'
          exact hall _ herr

theorem addGroup_ne (t : ℕ × Option String) (d : ℕ) (g : List ((ℕ × Option String) × List ℕ))
    (h : ∀ p ∈ g, p.2 ≠ []) : ∀ p ∈ addGroup t d g, p.2 ≠ [] := by
  induction g with
  | nil => simp [addGroup]
  | cons q g ih =>
    obtain ⟨t', ds⟩ := q
    rw [addGroup]
    split_ifs with ht
    · intro p hp
      rcases List.mem_cons.1 hp with rfl | hp
      · simp
      · exact h p (by simp [hp])
    · intro p hp
      rcases List.mem_cons.1 hp with rfl | hp
      · exact h _ (by simp)
      · exact ih (fun q hq => h q (by simp [hq])) p hp

theorem groups_ne (dofs : List (Dof K V)) (l : List ℕ) : ∀ p ∈ groups dofs l, p.2 ≠ [] := by
  unfold groups
  have aux : ∀ (l : List ℕ) (g : List ((ℕ × Option String) × List ℕ)), (∀ p ∈ g, p.2 ≠ []) →
      ∀ p ∈ l.foldl (fun g d =>
        match dofs[d]? with
        | some dof => addGroup (dof.kind, dof.mapping) d g
        | none => g) g, p.2 ≠ [] := by
    intro l
    induction l with
    | nil => intro g h; exact h
    | cons d l ih =>
      intro g h
      rw [List.foldl_cons]
      apply ih
      cases dofs[d]? with
      | none => exact h
      | some dof => exact addGroup_ne _ _ _ h
  exact aux l [] (by simp)

theorem mapEntities_error (cw : Cellwise V W) (dofs : List (Dof K V)) (basis : List V)
    (hM : Mappable cw dofs basis) (ents : List (ℕ × ℕ)) (fs : List W) (e : MapErr)
    (h : mapEntities cw dofs basis ents fs = .error e) : e = .notImplemented := by
  have aux : ∀ (g : List ((ℕ × Option String) × List ℕ)) (fs : List W) (e : MapErr),
      (∀ p ∈ g, p.2 ≠ [] ∧ ∀ d ∈ p.2, ∃ dof, dofs[d]? = some dof ∧ (dof.kind, dof.mapping) = p.1) →
      mapGroups cw basis g fs = .error e → e = .notImplemented := by
    intro g
    induction g with
    | nil => intro fs e _ h; rw [mapGroups] at h; cases h
    | cons p g ih =>
      intro fs e hg h
      rw [mapGroups] at h
      cases hp : mapGroup cw basis p.1 p.2 fs with
      | error e' =>
        rw [hp] at h
        injection h with h
        subst h
        exact mapGroup_error cw dofs basis hM _ _ (hg p (by simp)).1 (hg p (by simp)).2 fs _ hp
      | ok fs' =>
        rw [hp] at h
        exact ih fs' e (fun q hq => hg q (by simp [hq])) h
  induction ents generalizing fs with
  | nil => rw [mapEntities] at h; cases h
  | cons en es ih =>
    rw [mapEntities] at h
    cases hp : mapGroups cw basis (groups dofs (matching (dofs.map Dof.entity) en)) fs with
    | error e' =>
      rw [hp] at h
      injection h with h
      subst h
      exact aux _ fs _ (fun p hp => ⟨groups_ne _ _ p hp,
        fun d hd => ((groups_ok dofs _).1 p hp d hd).2⟩) hp
    | ok fs' => rw [hp] at h; exact ih fs' h

/-- **C72** If the functional of every DOF can be mapped, then function number `d` of the result is
function `d` of the basis mapped with the mapping of DOF `d`, whatever the classes and mappings of
the other DOFs. -/
theorem mapCiarlet_each (cw : Cellwise V W) (recreate : Except MapErr (List W)) (c : Cell)
    (dofs : List (Dof K V)) (basis : List V) (hlen : basis.length = dofs.length)
    (hent : ∀ dof ∈ dofs, dof.entity ∈ cellEntities c) (image : ℕ → W)
    (h : ∀ (d : ℕ) (dof : Dof K V) (f : V), dofs[d]? = some dof → basis[d]? = some f →
      cw.overrides dof.kind = false ∧ ∃ name, dof.mapping = some name ∧
        cw.maps name f = .ok (image d)) :
    mapCiarlet cw recreate c dofs basis =
      .ok ((List.range dofs.length).map fun d => cw.mapPieces (image d)) := by
  have hM : Mappable cw dofs basis := by
    intro d dof hd
    have hlt : d < basis.length := by rw [hlen]; exact (List.getElem?_eq_some_iff.1 hd).1
    refine ⟨basis[d], List.getElem?_eq_getElem hlt, fun _ => ?_⟩
    obtain ⟨-, name, hn, hm⟩ := h d dof _ hd (List.getElem?_eq_getElem hlt)
    exact ⟨name, hn, fun e he => by rw [hm] at he; cases he⟩
  unfold mapCiarlet
  cases hE : mapEntities cw dofs basis (cellEntities c) (basis.map fun _ => cw.zero) with
  | error e =>
    -- no group can fail
    exfalso
    have hnot : ∀ (g : List ((ℕ × Option String) × List ℕ)) (fs : List W) (e : MapErr),
        (∀ p ∈ g, p.2 ≠ [] ∧
          ∀ d ∈ p.2, ∃ dof, dofs[d]? = some dof ∧ (dof.kind, dof.mapping) = p.1) →
        mapGroups cw basis g fs ≠ .error e := by
      intro g
      induction g with
      | nil => intro fs e _ h; rw [mapGroups] at h; cases h
      | cons p g ih =>
        intro fs e hg hh
        rw [mapGroups] at hh
        cases hp : mapGroup cw basis p.1 p.2 fs with
        | ok fs' =>
          rw [hp] at hh
          exact ih fs' e (fun q hq => hg q (by simp [hq])) hh
        | error e' =>
          obtain ⟨hne, hds⟩ := hg p (by simp)
          unfold mapGroup at hp
          have hfst : p.2.mapM (fun d => basis[d]?) = some (p.2.map fun d => (basis[d]?).getD 0) := by
            apply mapM_some_of
            intro d hd
            obtain ⟨dof, hdof, -⟩ := hds d hd
            obtain ⟨f, hf, -⟩ := hM d dof hdof
            rw [hf]; rfl
          rw [hfst] at hp
          simp only at hp
          obtain ⟨d0, hd0⟩ := List.exists_mem_of_ne_nil _ hne
          cases hpm : performMapping cw p.1.1 p.1.2 (p.2.map fun d => (basis[d]?).getD 0) with
          | ok m => rw [hpm] at hp; cases hp
          | error e2 =>
            unfold performMapping at hpm
            obtain ⟨dof, hdof, hkm⟩ := hds d0 hd0
            obtain ⟨f, hf, -⟩ := hM d0 dof hdof
            obtain ⟨ho, name, hname, -⟩ := h d0 dof f hdof hf
            have hk := congrArg Prod.fst hkm
            have hk2 := congrArg Prod.snd hkm
            simp only at hk hk2
            rw [← hk, ho, ← hk2, hname] at hpm
            simp only [Bool.false_eq_true, if_false] at hpm
            obtain ⟨f', hf', herr⟩ := exceptMapM_error _ _ _ hpm
            obtain ⟨d, hd, rfl⟩ := List.mem_map.1 hf'
            obtain ⟨dof', hdof', hkm'⟩ := hds d hd
            obtain ⟨f'', hf'', -⟩ := hM d dof' hdof'
            obtain ⟨-, name', hname', hok⟩ := h d dof' f'' hdof' hf''
            have hk2' := congrArg Prod.snd hkm'
            simp only at hk2'
            rw [hname', ← hk2, hname] at hk2'
            injection hk2' with hk2'
            subst hk2'
            rw [hf'', Option.getD_some, hok] at herr
            cases herr
    have : ∀ (ents : List (ℕ × ℕ)) (fs : List W) (e : MapErr),
        mapEntities cw dofs basis ents fs ≠ .error e := by
      intro ents
      induction ents with
      | nil => intro fs e hh; rw [mapEntities] at hh; cases hh
      | cons en es ih =>
        intro fs e hh
        rw [mapEntities] at hh
        cases hp : mapGroups cw basis (groups dofs (matching (dofs.map Dof.entity) en)) fs with
        | error e' =>
          exact hnot _ fs e' (fun p hp => ⟨groups_ne _ _ p hp,
            fun d hd => ((groups_ok dofs _).1 p hp d hd).2⟩) hp
        | ok fs' => rw [hp] at hh; exact ih fs' e hh
    exact this _ _ _ hE
  | ok out =>
    obtain ⟨h1, h2, -⟩ := mapEntities_ok cw dofs basis _ _ _ hE
    rw [List.length_map, hlen] at h1
    simp only
    congr 1
    apply List.ext_getElem?
    intro d
    rw [List.getElem?_map, List.getElem?_map]
    by_cases hd : d < dofs.length
    · rw [List.getElem?_range hd]
      obtain ⟨w, hw, dof, name, f, hdof, hname, -, hf, hmap⟩ := h2 d dofs[d]
        (List.getElem?_eq_getElem hd) (hent _ (List.getElem_mem _)) (by simpa [hlen] using hd)
      obtain ⟨-, name', hname', hok⟩ := h d dof f hdof hf
      rw [hname] at hname'
      injection hname' with hname'
      subst hname'
      rw [hmap] at hok
      injection hok with hok
      rw [hw, hok]
      rfl
    · rw [List.getElem?_eq_none (by omega), List.getElem?_eq_none (by simpa using hd)]
      rfl

/-- The hypotheses are met with two mappings on one entity. -/
example :
    let d (m : String) : Dof ℚ ℚ := ⟨0, (1, 0), some m, LinearMap.id⟩
    let cw : Cellwise ℚ ℚ := ⟨fun s f => .ok (if s = "identity" then f else 2 * f),
      fun _ => false, fun w => w + 1, 0⟩
    mapCiarlet cw (.error .compute) .interval
      [d "identity", d "covariant", d "identity"] [3, 5, 7] = .ok [4, 11, 8] := by
  intro d cw
  rw [mapCiarlet_each cw _ _ _ _ rfl (by simp [d]; decide) (fun i => [3, 10, 7].getD i 0)]
  · simp [cw, List.range_succ]; norm_num
  · intro i dof f h1 h2
    rcases i with _ | _ | _ | i <;> simp [d] at h1 h2 <;> subst h1 h2 <;> simp [cw] <;> norm_num

/-- **C72** If some DOF cannot be mapped, the element is made again on the new cell: nothing of the
functions mapped before remains in the result. -/
theorem mapCiarlet_recreate (cw : Cellwise V W) (recreate : Except MapErr (List W)) (c : Cell)
    (dofs : List (Dof K V)) (basis : List V) (hM : Mappable cw dofs basis)
    (d : ℕ) (dof : Dof K V) (hd : dofs[d]? = some dof) (hent : dof.entity ∈ cellEntities c)
    (hbad : cw.overrides dof.kind = true ∨ ∃ name f, dof.mapping = some name ∧
      basis[d]? = some f ∧ cw.maps name f = .error .notImplemented) :
    mapCiarlet cw recreate c dofs basis = recreate := by
  unfold mapCiarlet
  cases hE : mapEntities cw dofs basis (cellEntities c) (basis.map fun _ => cw.zero) with
  | error e => rw [mapEntities_error cw dofs basis hM _ _ e hE]
  | ok out =>
    exfalso
    obtain ⟨-, h2, -⟩ := mapEntities_ok cw dofs basis _ _ _ hE
    obtain ⟨f0, hf0, -⟩ := hM d dof hd
    obtain ⟨w, -, dof', name, f, hdof, hname, ho, hf, hmap⟩ := h2 d dof hd hent
      (by simpa using (List.getElem?_eq_some_iff.1 hf0).1)
    rw [hd] at hdof
    injection hdof with hdof
    subst hdof
    rcases hbad with hb | ⟨name', f', hn', hf', he⟩
    · rw [hb] at ho; cases ho
    · rw [hname] at hn'
      rw [hf] at hf'
      injection hn' with hn'
      injection hf' with hf'
      subst hn' hf'
      rw [hmap] at he; cases he

/-- **C51** Without a `basis` argument an enriched element returns the mapped functions of its
sub-elements one after the other. -/
theorem mapToCell_enriched_own (cw : Cellwise V W)
    (recreate : Element K V → Except MapErr (List W)) (c : Cell) (subs : List (Element K V))
    (out : List W) :
    mapToCell cw recreate c none (.enriched subs) = .ok out ↔
      ∃ outs : List (List W), out = outs.flatten ∧
        List.Forall₂ (fun e o => mapToCell cw recreate c none e = .ok o) subs outs := by
  rw [mapToCell]
  induction subs generalizing out with
  | nil =>
    rw [mapAll]
    constructor
    · intro h; injection h with h; exact ⟨[], by simp [← h], .nil⟩
    · rintro ⟨outs, rfl, h⟩; cases h; rfl
  | cons e es ih =>
    rw [mapAll]
    constructor
    · intro h
      cases ha : mapToCell cw recreate c none e with
      | error err => rw [ha] at h; cases h
      | ok a =>
        cases hb : mapAll cw recreate c none es with
        | error err => rw [ha, hb] at h; cases h
        | ok b =>
          rw [ha, hb] at h
          injection h with h
          obtain ⟨outs, rfl, hf⟩ := (ih b).1 hb
          exact ⟨a :: outs, by simp [← h], .cons ha hf⟩
    · rintro ⟨outs, rfl, h⟩
      cases h with
      | cons h1 h2 =>
        rw [h1, (ih _).2 ⟨_, rfl, h2⟩]
        rfl

/-- **C51** (violated) With the element's own functions passed as the argument `basis`, each
sub-element that maps its functions returns as many functions as the whole list, so an enriched
element with `k` Ciarlet sub-elements returns `k` times as many functions as it has DOFs. -/
theorem mapToCell_enriched_given_length (cw : Cellwise V W)
    (recreate : Element K V → Except MapErr (List W)) (c : Cell) (subs : List (Element K V))
    (fs : List V) (hfs : getBasis (.enriched subs) = some fs)
    (hsub : ∀ e ∈ subs, ∃ b dofs, e = .ciarlet b dofs ∧
      mapEntities cw dofs fs (cellEntities c) (fs.map fun _ => cw.zero) ≠ .error .notImplemented)
    (out : List W) (h : mapToCell cw recreate c (some fs) (.enriched subs) = .ok out) :
    out.length = subs.length * spaceDim (.enriched subs) := by
  rw [← getBasis_length _ _ hfs]
  rw [mapToCell] at h
  clear hfs
  induction subs generalizing out with
  | nil =>
    rw [mapAll] at h
    injection h with h
    simp [← h]
  | cons e es ih =>
    obtain ⟨b, dofs, rfl, hE⟩ := hsub e (by simp)
    rw [mapAll] at h
    cases ha : mapToCell cw recreate c (some fs) (.ciarlet b dofs) with
    | error err => rw [ha] at h; cases h
    | ok a =>
      cases hb : mapAll cw recreate c (some fs) es with
      | error err => rw [ha, hb] at h; cases h
      | ok o =>
        rw [ha, hb] at h
        injection h with h
        have hal : a.length = fs.length := by
          rw [mapToCell] at ha
          unfold mapCiarlet at ha
          cases hm : mapEntities cw dofs fs (cellEntities c) (fs.map fun _ => cw.zero) with
          | error e' =>
            rw [hm] at ha
            cases e' with
            | notImplemented => exact absurd hm hE
            | _ => cases ha
          | ok o' =>
            rw [hm] at ha
            injection ha with ha
            rw [← ha, List.length_map, (mapEntities_ok cw dofs fs _ _ _ hm).1, List.length_map]
        have := ih (fun e he => hsub e (by simp [he])) o hb
        rw [← h, List.length_append, hal, this]
        rw [List.length_cons, Nat.succ_mul, Nat.add_comm]

/-- A concrete enrichment of two one-function elements: passing its two functions gives four. -/
example :
    let d : Dof ℚ ℚ := ⟨0, (0, 0), some "identity", LinearMap.id⟩
    let cw : Cellwise ℚ ℚ := ⟨fun _ f => .ok f, fun _ => false, id, 0⟩
    let e : Element ℚ ℚ := .enriched [.ciarlet [1] [d], .ciarlet [2] [d]]
    mapToCell cw (fun _ => .error .compute) .point (some [1, 1]) e = .ok [1, 0, 1, 0] := by
  have hg : cellEntities .point = [(0, 0)] := by decide
  simp [mapToCell, mapAll, mapCiarlet, hg, mapEntities, mapGroups, mapGroup, groups, matching,
    addGroup, performMapping]

end Verif.FiniteElement
