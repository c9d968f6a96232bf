import Verif.Create.Classes
import Verif.Caching.Lemmas
import Mathlib.Data.List.Nodup
import Mathlib.Data.List.Perm.Basic
import Mathlib.Tactic.SplitIfs
/-!
# The registry, `create_reference` and `create_element` (C54, C55, C56, C74)
-/

namespace Verif.Create
open Verif.References

/-! ### The registry -/

theorem addOne_list (c : ElementClass) (n r : String) (s : Registry) :
    (addOne c n r s).1.list = s.list := by
  unfold addOne
  simp only
  split
  · split_ifs <;> rfl
  · rfl

theorem addOne_fail (c : ElementClass) (n r : String) (s : Registry) :
    (addOne c n r s).2 = false ↔ ∃ c', s.lookup n r = some c' ∧ c' ≠ c := by
  unfold addOne Registry.lookup
  cases hm : s.map n with
  | none => simp
  | some m =>
    cases hr : m r with
    | none => simp [hr]
    | some c' =>
      by_cases h : c = c'
      · simp [hr, h]
      · simp [hr, h, Ne.symm h]

theorem addOne_lookup (c : ElementClass) (n r : String) (s : Registry) (k q : String) :
    (addOne c n r s).1.lookup k q =
      if (addOne c n r s).2 = true ∧ k = n ∧ q = r then some c else s.lookup k q := by
  unfold addOne Registry.lookup
  cases hm : s.map n with
  | none =>
    simp only [Option.getD_none]
    by_cases hk : k = n
    · subst hk; by_cases hq : q = r <;> simp [hq, hm]
    · simp [hk]
  | some m =>
    simp only [Option.getD_some]
    cases hr : m r with
    | none =>
      by_cases hk : k = n
      · subst hk; by_cases hq : q = r <;> simp [hq, hm]
      · simp [hk]
    | some c' =>
      by_cases h : c = c'
      · subst h
        by_cases hk : k = n
        · subst hk; by_cases hq : q = r <;> simp [hq, hm]
        · simp [hk]
      · by_cases hk : k = n
        · subst hk; simp [h, hm]
        · simp [h, hk]

theorem addLoop_list (c : ElementClass) (l : List (String × String)) (s : Registry) :
    (addLoop c l s).1.list = s.list := by
  induction l generalizing s with
  | nil => rfl
  | cons p l ih =>
    obtain ⟨n, r⟩ := p
    rw [addLoop]
    have := addOne_list c n r s
    split
    · rename_i s' h; rw [h] at this; rw [ih]; exact this
    · rename_i s' h; rw [h] at this; exact this

/-- What the double loop does to the registry. -/
theorem addLoop_spec (c : ElementClass) (l : List (String × String)) (s : Registry) :
    (∀ k q c', s.lookup k q = some c' → (addLoop c l s).1.lookup k q = some c') ∧
    (∀ k q c', (addLoop c l s).1.lookup k q = some c' →
      s.lookup k q = some c' ∨ (c' = c ∧ (k, q) ∈ l)) ∧
    ((addLoop c l s).2 = true → ∀ p ∈ l, (addLoop c l s).1.lookup p.1 p.2 = some c) ∧
    ((addLoop c l s).2 = false ↔ ∃ p ∈ l, ∃ c', s.lookup p.1 p.2 = some c' ∧ c' ≠ c) := by
  induction l generalizing s with
  | nil =>
    refine ⟨fun _ _ _ h => h, fun _ _ _ h => Or.inl h, by simp, ?_⟩
    simp [addLoop]
  | cons p l ih =>
    obtain ⟨n, r⟩ := p
    have hl := addOne_lookup c n r s
    have hf := addOne_fail c n r s
    rw [addLoop]
    cases ho : addOne c n r s with
    | mk s' ok =>
      rw [ho] at hl hf
      cases ok with
      | false =>
        simp only [Bool.false_eq_true, false_and, if_false] at hl
        obtain ⟨c', hc', hne⟩ := hf.1 rfl
        refine ⟨fun k q c'' h => by rw [hl]; exact h, fun k q c'' h => Or.inl (by rwa [hl] at h),
          by simp, ?_⟩
        simp only [true_iff]
        exact ⟨(n, r), by simp, c', hc', hne⟩
      | true =>
        simp only [true_and] at hl
        simp only [Bool.true_eq_false, false_iff] at hf
        obtain ⟨h1, h2, h3, h4⟩ := ih s'
        have hsame : ∀ k q c', s.lookup k q = some c' → s'.lookup k q = some c' := by
          intro k q c' h
          rw [hl]
          split_ifs with hkq
          · obtain ⟨rfl, rfl⟩ := hkq
            by_contra hne
            exact hf ⟨c', h, fun e => hne (by rw [e])⟩
          · exact h
        refine ⟨fun k q c' h => h1 k q c' (hsame k q c' h), ?_, ?_, ?_⟩
        · intro k q c' h
          rcases h2 k q c' h with h | ⟨hc, hm⟩
          · rw [hl] at h
            split_ifs at h with hkq
            · injection h with h
              exact Or.inr ⟨h.symm, by simp [hkq.1, hkq.2]⟩
            · exact Or.inl h
          · exact Or.inr ⟨hc, by simp [hm]⟩
        · intro hok p hp
          rcases List.mem_cons.1 hp with rfl | hp
          · exact h1 n r c (by rw [hl]; simp)
          · exact h3 hok p hp
        · rw [h4]
          constructor
          · rintro ⟨p, hp, c', hc', hne⟩
            rw [hl] at hc'
            split_ifs at hc' with hkq
            · injection hc' with hc'; exact absurd hc'.symm hne
            · exact ⟨p, by simp [hp], c', hc', hne⟩
          · rintro ⟨p, hp, c', hc', hne⟩
            rcases List.mem_cons.1 hp with rfl | hp
            · exact absurd ⟨c', hc', hne⟩ hf
            · exact ⟨p, hp, c', hsame _ _ _ hc', hne⟩

theorem mem_pairs (c : ElementClass) (n r : String) :
    (n, r) ∈ pairs c ↔ n ∈ c.names ∧ r ∈ c.references := by
  simp [pairs]

/-- **C54** After a call that does not raise, every name and cell of the class gives the class. -/
theorem addElement_registers (c : ElementClass) (s : Registry)
    (h : (addElement (.cls c) s).2 = none) (n r : String) (hn : n ∈ c.names)
    (hr : r ∈ c.references) : (addElement (.cls c) s).1.lookup n r = some c := by
  unfold addElement at h ⊢
  simp only at h ⊢
  split_ifs at h ⊢ with h0
  set s1 := withClass c s
  obtain ⟨-, -, h3, -⟩ := addLoop_spec c (pairs c) s1
  cases hl : addLoop c (pairs c) s1 with
  | mk s2 ok =>
    rw [hl] at h h3
    cases ok with
    | true => exact h3 rfl (n, r) ((mem_pairs c n r).2 ⟨hn, hr⟩)
    | false => simp at h

/-- **C54** No call, whether it raises or not, changes what a registered name and cell give. -/
theorem addElement_keeps (a : Arg) (s : Registry) (n r : String) (c : ElementClass)
    (h : s.lookup n r = some c) : (addElement a s).1.lookup n r = some c := by
  cases a with
  | value => exact h
  | foreign => exact h
  | base => exact h
  | cls c' =>
    unfold addElement
    simp only
    split_ifs with h0
    · exact h
    · set s1 := withClass c' s
      obtain ⟨h1, -⟩ := addLoop_spec c' (pairs c') s1
      have := h1 n r c h
      split <;> rename_i hl <;> rw [hl] at this <;> exact this

/-- **C54** Whatever is found was passed to `add_element`, under one of its names and on one of its
cells. -/
theorem addElement_sound (a : Arg) (s : Registry) (n r : String) (c : ElementClass)
    (h : (addElement a s).1.lookup n r = some c) :
    s.lookup n r = some c ∨ (a = .cls c ∧ n ∈ c.names ∧ r ∈ c.references) := by
  cases a with
  | value => exact Or.inl h
  | foreign => exact Or.inl h
  | base => exact Or.inl h
  | cls c' =>
    unfold addElement at h
    simp only at h
    split_ifs at h with h0
    · exact Or.inl h
    · set s1 := withClass c' s
      obtain ⟨-, h2, -⟩ := addLoop_spec c' (pairs c') s1
      have : (addLoop c' (pairs c') s1).1.lookup n r = some c := by
        split at h <;> rename_i hl <;> rw [hl] <;> exact h
      rcases h2 n r c this with h | ⟨rfl, hm⟩
      · exact Or.inl h
      · exact Or.inr ⟨rfl, (mem_pairs c n r).1 hm⟩

/-- **C54** The exceptions: `TypeError`, with nothing changed, exactly for arguments that are not
named subclasses of `FiniteElement`; `AssertionError` exactly when another class is registered for
one of the names and cells. -/
theorem addElement_raises (a : Arg) (s : Registry) :
    ((addElement a s).2 = some .typeError ↔ ∀ c, a = .cls c → c.names = []) ∧
    ((addElement a s).2 = some .typeError → (addElement a s).1 = s) ∧
    ((addElement a s).2 = some .assertionError ↔ ∃ c, a = .cls c ∧
      ∃ n ∈ c.names, ∃ r ∈ c.references, ∃ c', s.lookup n r = some c' ∧ c' ≠ c) := by
  cases a with
  | value => simp [addElement]
  | foreign => simp [addElement]
  | base => simp [addElement]
  | cls c =>
    unfold addElement
    simp only
    split_ifs with h0
    · rw [List.length_eq_zero_iff] at h0
      simp [h0]
    · rw [List.length_eq_zero_iff] at h0
      set s1 := withClass c s with hs1
      obtain ⟨-, -, -, h4⟩ := addLoop_spec c (pairs c) s1
      have hconf : (∃ p ∈ pairs c, ∃ c', s1.lookup p.1 p.2 = some c' ∧ c' ≠ c) ↔
          ∃ n ∈ c.names, ∃ r ∈ c.references, ∃ c', s.lookup n r = some c' ∧ c' ≠ c := by
        constructor
        · rintro ⟨⟨n, r⟩, hp, c', hc'⟩
          obtain ⟨hn, hr⟩ := (mem_pairs c n r).1 hp
          exact ⟨n, hn, r, hr, c', hc'⟩
        · rintro ⟨n, hn, r, hr, c', hc'⟩
          exact ⟨(n, r), (mem_pairs c n r).2 ⟨hn, hr⟩, c', hc'⟩
      rw [hconf] at h4
      cases hl : addLoop c (pairs c) s1 with
      | mk s2 ok =>
        rw [hl] at h4
        cases ok with
        | true => simpa [h0] using h4
        | false => simpa [h0] using h4

/-- **C54** One call adds the class to the list of classes unless it is there already. -/
theorem addElement_list (a : Arg) (s : Registry) (hs : s.list.Nodup) :
    (addElement a s).1.list.Nodup ∧
      ∀ c, c ∈ (addElement a s).1.list ↔ c ∈ s.list ∨ (a = .cls c ∧ c.names ≠ []) := by
  cases a with
  | value => simpa [addElement] using hs
  | foreign => simpa [addElement] using hs
  | base => simpa [addElement] using hs
  | cls c' =>
    unfold addElement
    simp only
    split_ifs with h0
    · rw [List.length_eq_zero_iff] at h0
      refine ⟨hs, fun c => ⟨Or.inl, ?_⟩⟩
      rintro (h | ⟨h, hn⟩)
      · exact h
      · cases h
        exact absurd h0 hn
    · rw [List.length_eq_zero_iff] at h0
      have hl := addLoop_list c' (pairs c') (withClass c' s)
      have key : (withClass c' s).list.Nodup ∧ ∀ c, c ∈ (withClass c' s).list ↔ c ∈ s.list ∨ c = c' := by
        unfold withClass
        simp only
        split_ifs with hm
        · refine ⟨hs, fun c => ⟨Or.inl, ?_⟩⟩
          rintro (h | rfl)
          · exact h
          · exact hm
        · refine ⟨?_, fun c => by simp⟩
          rw [List.nodup_append]
          refine ⟨hs, by simp, ?_⟩
          intro x hx y hy
          rw [List.mem_singleton] at hy
          rintro rfl
          exact hm (hy ▸ hx)
      have key2 : (addLoop c' (pairs c') (withClass c' s)).1.list.Nodup ∧
          ∀ c, c ∈ (addLoop c' (pairs c') (withClass c' s)).1.list ↔ c ∈ s.list ∨ (Arg.cls c' = .cls c ∧ c.names ≠ []) := by
        rw [hl]
        refine ⟨key.1, fun c => ?_⟩
        rw [key.2]
        constructor
        · rintro (h | rfl)
          · exact Or.inl h
          · exact Or.inr ⟨rfl, h0⟩
        · rintro (h | ⟨h, -⟩)
          · exact Or.inl h
          · cases h
            exact Or.inr rfl
      split <;> rename_i heq <;> rw [heq] at key2 <;> exact key2

/-- **C54** After any sequence of calls the list of classes contains every named class that was passed, once. -/
theorem addAll_list (l : List Arg) (s : Registry) (hs : s.list.Nodup) :
    (addAll l s).list.Nodup ∧ ∀ c, c ∈ (addAll l s).list ↔ c ∈ s.list ∨ (.cls c ∈ l ∧ c.names ≠ []) := by
  induction l generalizing s with
  | nil => simpa [addAll] using hs
  | cons a l ih =>
    obtain ⟨h1, h2⟩ := addElement_list a s hs
    obtain ⟨h3, h4⟩ := ih (addElement a s).1 h1
    refine ⟨h3, fun c => ?_⟩
    rw [addAll, h4, h2, List.mem_cons]
    constructor
    · rintro ((h | ⟨h, hn⟩) | ⟨h, hn⟩)
      · exact Or.inl h
      · exact Or.inr ⟨Or.inl h.symm, hn⟩
      · exact Or.inr ⟨Or.inr h, hn⟩
    · rintro (h | ⟨h | h, hn⟩)
      · exact Or.inl (Or.inl h)
      · exact Or.inl (Or.inr ⟨h.symm, hn⟩)
      · exact Or.inr ⟨h, hn⟩

example : (addAll [.cls ⟨"A", ["a"], ["triangle"], none, none⟩, .cls ⟨"A", ["a"], ["triangle"], none, none⟩] .empty).list.length = 1 := by
  rfl

/-- **C54** (a weakness) A call that raises `AssertionError` is not undone: names before the
conflict, and the entry in the list of classes, stay. -/
theorem addElement_not_atomic : ∃ (s : Registry) (c : ElementClass),
    (addElement (.cls c) s).2 = some .assertionError ∧ s.lookup "mine" "triangle" = none ∧
      (addElement (.cls c) s).1.lookup "mine" "triangle" = some c ∧
      c ∉ s.list ∧ c ∈ (addElement (.cls c) s).1.list := by
  let old : ElementClass := ⟨"a", ["Lagrange"], ["triangle"], none, none⟩
  let new : ElementClass := ⟨"b", ["mine", "Lagrange"], ["triangle"], none, none⟩
  exact ⟨(addElement (.cls old) .empty).1, new, by decide, by decide, by decide, by decide,
    by decide⟩

/-- No two of the classes share a name and a cell. -/
def Compatible (cs : List ElementClass) : Prop :=
  ∀ c ∈ cs, ∀ c' ∈ cs, ∀ n r, n ∈ c.names → r ∈ c.references → n ∈ c'.names → r ∈ c'.references →
    c = c'

/-- **C74** After registering any sequence of classes, with repetitions, in any order, if no two share
a name and a cell: no call raises, and what a name and a cell give depends only on which classes
occur. -/
theorem addAll_spec (cs : List ElementClass) (hne : ∀ c ∈ cs, c.names ≠ []) (hc : Compatible cs)
    (n r : String) (c : ElementClass) :
    (addAll (cs.map Arg.cls) .empty).lookup n r = some c ↔
      c ∈ cs ∧ n ∈ c.names ∧ r ∈ c.references := by
  have aux : ∀ (cs done : List ElementClass) (s : Registry), (∀ c ∈ cs, c.names ≠ []) →
      Compatible (done ++ cs) →
      (∀ n r c, s.lookup n r = some c ↔ c ∈ done ∧ n ∈ c.names ∧ r ∈ c.references) →
      ∀ n r c, (addAll (cs.map Arg.cls) s).lookup n r = some c ↔
        c ∈ done ++ cs ∧ n ∈ c.names ∧ r ∈ c.references := by
    intro cs
    induction cs with
    | nil => intro done s _ _ h n r c; simpa [addAll] using h n r c
    | cons c0 cs ih =>
      intro done s hne hcomp hs n r c
      rw [List.map_cons, addAll]
      have happ : done ++ c0 :: cs = (done ++ [c0]) ++ cs := by simp
      rw [happ]
      refine ih (done ++ [c0]) _ (fun c h => hne c (by simp [h])) (by rwa [← happ]) ?_ n r c
      clear n r c
      intro n r c
      obtain ⟨r1, -, r3⟩ := addElement_raises (.cls c0) s
      have hnone : (addElement (.cls c0) s).2 = none := by
        cases he : (addElement (.cls c0) s).2 with
        | none => rfl
        | some e =>
          exfalso
          cases e with
          | typeError => exact hne c0 (by simp) (r1.1 he c0 rfl)
          | assertionError =>
            obtain ⟨c1, h1, n, hn, r, hr, c', hl, hcc⟩ := r3.1 he
            injection h1 with h1
            subst h1
            obtain ⟨hd, hn', hr'⟩ := (hs n r c').1 hl
            exact hcc (hcomp c' (by simp [hd]) c0 (by simp) n r hn' hr' hn hr)
          | valueError =>
            unfold addElement at he
            simp only at he
            split_ifs at he
            · simp at he
            · split at he <;> simp at he
          | indexError =>
            unfold addElement at he
            simp only at he
            split_ifs at he
            · simp at he
            · split at he <;> simp at he
      constructor
      · intro h
        rcases addElement_sound _ _ _ _ _ h with h | ⟨h, hn, hr⟩
        · obtain ⟨h1, h2⟩ := (hs n r c).1 h
          exact ⟨by simp [h1], h2⟩
        · injection h with h
          exact ⟨by simp [h], hn, hr⟩
      · rintro ⟨hm, hn, hr⟩
        rcases List.mem_append.1 hm with hm | hm
        · exact addElement_keeps _ _ _ _ _ ((hs n r c).2 ⟨hm, hn, hr⟩)
        · obtain rfl : c = c0 := by simpa using hm
          exact addElement_registers c s hnone n r hn hr
  have h := aux cs [] .empty hne (by simpa using hc) (by simp [Registry.empty, Registry.lookup]) n r c
  simpa using h

/-- **C74** Two orders of the same classes give the same registry. -/
theorem addAll_perm (cs cs' : List ElementClass) (hne : ∀ c ∈ cs, c.names ≠ [])
    (hc : Compatible cs) (hsame : ∀ c, c ∈ cs ↔ c ∈ cs') (n r : String) :
    (addAll (cs.map Arg.cls) .empty).lookup n r = (addAll (cs'.map Arg.cls) .empty).lookup n r := by
  apply Option.ext
  intro c
  rw [addAll_spec cs hne hc, addAll_spec cs' (fun c h => hne c ((hsame c).2 h))
    (fun c h c' h' => hc c ((hsame c).2 h) c' ((hsame c').2 h')), hsame]

/-- A test for `Compatible` that can be evaluated. -/
def compatibleB (cs : List ElementClass) : Bool :=
  cs.all fun c => cs.all fun c' => c.path == c'.path ||
    !(c.names.any fun n => c'.names.contains n) ||
    !(c.references.any fun r => c'.references.contains r)

theorem compatible_of_bool (cs : List ElementClass) (h : compatibleB cs = true)
    (hp : ∀ c ∈ cs, ∀ c' ∈ cs, c.path = c'.path → c = c') : Compatible cs := by
  intro c hc c' hc' n r hn hr hn' hr'
  unfold compatibleB at h
  rw [List.all_eq_true] at h
  have h1 := h c hc
  rw [List.all_eq_true] at h1
  have h2 := h1 c' hc'
  have e1 : (c.names.any fun n => c'.names.contains n) = true :=
    List.any_eq_true.2 ⟨n, hn, by simpa using hn'⟩
  have e2 : (c.references.any fun r => c'.references.contains r) = true :=
    List.any_eq_true.2 ⟨r, hr, by simpa using hr'⟩
  rw [e1, e2] at h2
  exact hp c hc c' hc' (by simpa using h2)

/-- **C74** The classes of symfem can be registered in every order. -/
theorem symfemClasses_compatible : Compatible symfemClasses := by
  apply compatible_of_bool
  · decide +kernel
  · have : (symfemClasses.map ElementClass.path).Nodup := by decide +kernel
    exact fun c hc c' hc' hp => List.inj_on_of_nodup_map this hc hc' hp

theorem symfemClasses_named : ∀ c ∈ symfemClasses, c.names ≠ [] := by decide +kernel

/-- **C74** Whatever the order in which `os.listdir` gives the files and however often a class is seen
(modules import each other's classes), the registry is the same. -/
theorem symfem_registry (cs : List ElementClass) (h : ∀ c, c ∈ cs ↔ c ∈ symfemClasses)
    (n r : String) (c : ElementClass) :
    (addAll (cs.map Arg.cls) .empty).lookup n r = some c ↔
      c ∈ symfemClasses ∧ n ∈ c.names ∧ r ∈ c.references := by
  rw [addAll_perm cs symfemClasses (fun c hc => symfemClasses_named c ((h c).1 hc))
    (fun c hc c' hc' => symfemClasses_compatible c ((h c).1 hc) c' ((h c').1 hc')) h,
    addAll_spec _ symfemClasses_named symfemClasses_compatible]

/-! ### Reference cells -/

section
variable {P : Type} (coords : P → Nat)

/-- The name given to `create_reference` for a cell. -/
def fullName : Cell → String
  | .dualPolygon n => String.ofList ("dual polygon(".toList ++ Caching.printNat n ++ [')'])
  | c => cellName c

theorem not_mem_printNat' {c : Char} (hc : c = '(' ∨ c = ')') (n : Nat) :
    c ∉ Caching.printNat n := by
  intro h
  obtain ⟨d, hd, e⟩ := Caching.mem_printNat h
  have : d = 0 ∨ d = 1 ∨ d = 2 ∨ d = 3 ∨ d = 4 ∨ d = 5 ∨ d = 6 ∨ d = 7 ∨ d = 8 ∨ d = 9 := by omega
  rcases hc with rfl | rfl <;> rcases this with rfl | rfl | rfl | rfl | rfl | rfl | rfl | rfl | rfl | rfl <;>
    exact absurd e (by decide)

/-- **C55** Every cell is made from its name, for a dual polygon with the number of triangles in
brackets. -/
theorem createReference_name (c : Cell) (vertices : Option (List P)) :
    createReference coords (fullName c) vertices = build coords c vertices := by
  cases c with
  | dualPolygon n =>
    have hl : (fullName (.dualPolygon n)).toList =
        "dual polygon(".toList ++ Caching.printNat n ++ [')'] :=
      String.toList_ofList
    have hne : ∀ t : String, t.toList.take 5 ≠ "dual ".toList → fullName (.dualPolygon n) ≠ t := by
      rintro t ht rfl
      apply ht
      rw [hl]
      simp
    unfold createReference
    rw [if_neg (hne _ (by decide)), if_neg (hne _ (by decide)), if_neg (hne _ (by decide)),
      if_neg (hne _ (by decide)), if_neg (hne _ (by decide)), if_neg (hne _ (by decide)),
      if_neg (hne _ (by decide)), if_neg (hne _ (by decide)), if_pos (by rw [hl]; simp [List.isPrefixOf])]
    have hs : Caching.splitOn '(' (fullName (.dualPolygon n)).toList =
        ["dual polygon".toList, Caching.printNat n ++ [')']] := by
      have : (fullName (.dualPolygon n)).toList =
          "dual polygon".toList ++ '(' :: (Caching.printNat n ++ [')']) := by rw [hl]; simp
      rw [this, Caching.splitOn_append (by decide), Caching.splitOn_noSep]
      simp [not_mem_printNat' (Or.inl rfl) n]
    rw [hs]
    have h2 : Caching.splitOn ')' (Caching.printNat n ++ [')']) = [Caching.printNat n, []] := by
      rw [Caching.splitOn_append (not_mem_printNat' (Or.inr rfl) n)]
      rfl
    simp [h2, pyInt, Caching.parseNat_printNat]
  | _ => rfl

/-- How many points `create_reference` takes: the vertices, and for a dual polygon also the origin. -/
def vertexCount : Cell → Nat
  | .point => 1
  | .interval => 2
  | .triangle => 3
  | .tetrahedron => 4
  | .quadrilateral => 4
  | .hexahedron => 8
  | .prism => 6
  | .pyramid => 5
  | .dualPolygon n => 2 * n + 1

/-- **C55** The vertices given must be as many as the cell has (one more, the origin, for a dual
polygon); the number of coordinates of the first is the geometric dimension. -/
theorem build_ok_iff (c : Cell) (vs : List P) (m : Made) :
    build coords c (some vs) = .ok m ↔
      m.cell = c ∧ vs.length = vertexCount c ∧
        vs.head?.map coords = some m.gdim := by
  have key : ∀ k : Nat, (if vs.length = k then
        (match vs with
          | [] => (.error .indexError : Except Err Made)
          | v :: _ => .ok ⟨c, coords v⟩)
      else .error .assertionError) = .ok m ↔
      m.cell = c ∧ vs.length = k ∧ vs.head?.map coords = some m.gdim := by
    intro k
    split_ifs with h
    · cases vs with
      | nil => simp
      | cons v vs =>
        simp only [Except.ok.injEq, List.head?_cons, Option.map_some, Option.some.injEq, h, true_and]
        constructor
        · rintro rfl; exact ⟨rfl, rfl⟩
        · rintro ⟨rfl, h2⟩; cases m; simp_all
    · simp [h]
  cases c with
  | dualPolygon n =>
    have h := key (1 + 2 * n)
    rw [Nat.add_comm 1] at h
    rw [vertexCount, ← h, ← Nat.add_comm 1]
    rfl
  | _ => exact key _

/-- **C55** Every other name raises `ValueError`. -/
theorem createReference_unknown (s : String) (vertices : Option (List P))
    (h1 : s ∉ ["point", "interval", "triangle", "tetrahedron", "quadrilateral", "hexahedron",
      "prism", "pyramid"]) (h2 : ¬ "dual polygon".toList <+: s.toList) :
    createReference coords s vertices = .error .valueError := by
  unfold createReference
  simp only [List.mem_cons, List.not_mem_nil, or_false, not_or] at h1
  obtain ⟨a1, a2, a3, a4, a5, a6, a7, a8⟩ := h1
  rw [if_neg a1, if_neg a2, if_neg a3, if_neg a4, if_neg a5, if_neg a6, if_neg a7, if_neg a8,
    if_neg]
  rwa [List.isPrefixOf_iff_prefix]

/-- **C55** (violated) A dual polygon without brackets raises `IndexError`, not `ValueError`. -/
theorem createReference_no_bracket (s : String) (vertices : Option (List P))
    (h2 : "dual polygon".toList <+: s.toList) (h3 : '(' ∉ s.toList) :
    createReference coords s vertices = .error .indexError := by
  have hne : ∀ t : String, ¬ "dual polygon".toList <+: t.toList → s ≠ t := by
    rintro t ht rfl; exact ht h2
  have dec : ∀ t : String, "dual polygon".toList.isPrefixOf t.toList = false → s ≠ t := by
    intro t ht
    apply hne
    rw [← List.isPrefixOf_iff_prefix, ht]
    simp
  unfold createReference
  rw [if_neg (dec _ (by decide)), if_neg (dec _ (by decide)), if_neg (dec _ (by decide)),
    if_neg (dec _ (by decide)), if_neg (dec _ (by decide)), if_neg (dec _ (by decide)),
    if_neg (dec _ (by decide)), if_neg (dec _ (by decide)),
    if_pos (List.isPrefixOf_iff_prefix.2 h2), Caching.splitOn_noSep h3]
  rfl

/-! ### Elements -/

/-- The order is between the limits that the class gives for the cell. -/
def Within (c : ElementClass) (cell : String) (order : Int) : Prop :=
  (∀ n, c.minOrder = some (.all n) → n ≤ order) ∧
  (∀ l n, c.minOrder = some (.each l) → l.lookup cell = some n → n ≤ order) ∧
  (∀ n, c.maxOrder = some (.all n) → order ≤ n) ∧
  (∀ l n, c.maxOrder = some (.each l) → l.lookup cell = some n → order ≤ n)

theorem orderIsAllowed_iff (c : ElementClass) (cell : String) (order : Int) :
    orderIsAllowed c cell order = true ↔ Within c cell order := by
  unfold orderIsAllowed Within
  have hmin : violates (fun n => decide (order < n)) cell c.minOrder = false ↔
      (∀ n, c.minOrder = some (.all n) → n ≤ order) ∧
      (∀ l n, c.minOrder = some (.each l) → l.lookup cell = some n → n ≤ order) := by
    cases h : c.minOrder with
    | none => simp [violates]
    | some l =>
      cases l with
      | all n => simp [violates]
      | each l =>
        cases hl : l.lookup cell with
        | none =>
          simp only [violates, hl, true_iff]
          refine ⟨fun n h => by simp at h, ?_⟩
          rintro l' n h h'
          simp only [Option.some.injEq, Limit.each.injEq] at h
          rw [← h, hl] at h'
          cases h'
        | some v =>
          simp only [violates, hl, decide_eq_false_iff_not, not_lt]
          refine ⟨fun hv => ⟨fun n h => by simp at h, ?_⟩, fun hv => hv.2 l v rfl hl⟩
          rintro l' n h h'
          simp only [Option.some.injEq, Limit.each.injEq] at h
          rw [← h, hl] at h'
          injection h' with h'
          omega
  have hmax : violates (fun n => decide (order > n)) cell c.maxOrder = false ↔
      (∀ n, c.maxOrder = some (.all n) → order ≤ n) ∧
      (∀ l n, c.maxOrder = some (.each l) → l.lookup cell = some n → order ≤ n) := by
    cases h : c.maxOrder with
    | none => simp [violates]
    | some l =>
      cases l with
      | all n => simp [violates]
      | each l =>
        cases hl : l.lookup cell with
        | none =>
          simp only [violates, hl, true_iff]
          refine ⟨fun n h => by simp at h, ?_⟩
          rintro l' n h h'
          simp only [Option.some.injEq, Limit.each.injEq] at h
          rw [← h, hl] at h'
          cases h'
        | some v =>
          simp only [violates, hl, decide_eq_false_iff_not, not_lt]
          refine ⟨fun hv => ⟨fun n h => by simp at h, ?_⟩, fun hv => hv.2 l v rfl hl⟩
          rintro l' n h h'
          simp only [Option.some.injEq, Limit.each.injEq] at h
          rw [← h, hl] at h'
          injection h' with h'
          omega
  rw [← and_assoc, ← hmin, ← hmax]
  split_ifs with h1 h2
  · simp [h1]
  · simp [h2]
  · simp at h1 h2; simp [h1, h2]

/-- **C56** `create_element` calls the constructor of class `c` on cell `m` exactly if the cell can
be made, its topological and geometric dimensions agree, `c` is registered for the name and the cell,
and the order is within the limits. -/
theorem createElement_ok_iff (s : Registry) (cellType elementType : String) (order o : Int)
    (vertices : Option (List P)) (c : ElementClass) (m : Made) :
    createElement coords s cellType elementType order vertices = .ok (c, m, o) ↔
      createReference coords cellType vertices = .ok m ∧ m.cell.tdim = m.gdim ∧
        s.lookup elementType (cellName m.cell) = some c ∧ Within c (cellName m.cell) order ∧
        o = order := by
  unfold createElement Registry.lookup
  cases hr : createReference coords cellType vertices with
  | error e => simp
  | ok ref =>
    simp only [Except.ok.injEq]
    split_ifs with hd
    · simp only [reduceCtorEq, false_iff]
      rintro ⟨rfl, h, -⟩
      exact hd h
    · have hd : ref.cell.tdim = ref.gdim := by simpa using hd
      cases hm : s.map elementType with
      | none => simp
      | some f =>
        cases hf : f (cellName ref.cell) with
        | none =>
          simp only [hf, reduceCtorEq, false_iff]
          rintro ⟨rfl, -, h, -⟩
          rw [hf] at h; cases h
        | some c' =>
          simp only [hf]
          split_ifs with ho
          · simp only [Except.ok.injEq, Prod.mk.injEq]
            constructor
            · rintro ⟨rfl, rfl, rfl⟩
              exact ⟨rfl, hd, hf, (orderIsAllowed_iff _ _ _).1 ho, rfl⟩
            · rintro ⟨rfl, -, h, -, rfl⟩
              rw [hf] at h
              injection h with h
              exact ⟨h, rfl, rfl⟩
          · simp only [reduceCtorEq, false_iff]
            rintro ⟨rfl, -, h, hw, -⟩
            rw [hf] at h
            injection h with h
            subst h
            exact ho ((orderIsAllowed_iff _ _ _).2 hw)

/-- **C56** If the cell can be made, every failure is `ValueError`. -/
theorem createElement_error (s : Registry) (cellType elementType : String) (order : Int)
    (vertices : Option (List P)) (e : Err)
    (h : createElement coords s cellType elementType order vertices = .error e) :
    e = .valueError ∨ createReference coords cellType vertices = .error e := by
  unfold createElement at h
  cases hr : createReference coords cellType vertices with
  | error e' => rw [hr] at h; right; simpa using h
  | ok ref =>
    rw [hr] at h
    left
    simp only at h
    split_ifs at h with hd
    · injection h with h; exact h.symm
    · split at h
      · injection h with h; exact h.symm
      · split at h
        · injection h with h; exact h.symm
        · split_ifs at h
          injection h with h; exact h.symm

end

/-- A use of all the parts: quadratic Crouzeix-Raviart exists on triangles but not on tetrahedra,
whatever the order in which the files were read. -/
example (cs : List ElementClass) (h : ∀ c, c ∈ cs ↔ c ∈ symfemClasses) :
    (∃ c, createElement (fun p : List Nat => p.length) (addAll (cs.map Arg.cls) .empty) "triangle"
      "CR" 2 none = .ok (c, ⟨.triangle, 2⟩, 2)) ∧
    ¬ ∃ r, createElement (fun p : List Nat => p.length) (addAll (cs.map Arg.cls) .empty)
      "tetrahedron" "CR" 2 none = .ok r := by
  let cr : ElementClass := ⟨"crouzeix_raviart.CrouzeixRaviart",
    ["Crouzeix-Raviart", "CR", "Crouzeix-Falk", "CF"], ["triangle", "tetrahedron"], some (.all 1),
    some (.each [("tetrahedron", 1)])⟩
  have hcr : cr ∈ symfemClasses := by decide +kernel
  refine ⟨⟨cr, ?_⟩, ?_⟩
  · rw [createElement_ok_iff]
    refine ⟨rfl, rfl, (symfem_registry cs h _ _ _).2 ⟨hcr, by decide, by decide⟩, ?_, rfl⟩
    rw [← orderIsAllowed_iff]
    decide
  · rintro ⟨⟨c, m, o⟩, hr⟩
    rw [createElement_ok_iff] at hr
    obtain ⟨h1, -, h3, h4, -⟩ := hr
    have h1' : m = ⟨.tetrahedron, 3⟩ := by
      have : createReference (fun p : List Nat => p.length) "tetrahedron" none =
          .ok ⟨.tetrahedron, 3⟩ := rfl
      rw [this] at h1; injection h1 with h1; exact h1.symm
    subst h1'
    obtain ⟨hc, hn, hr⟩ := (symfem_registry cs h _ _ _).1 h3
    have : c = cr := symfemClasses_compatible c hc cr hcr _ _ hn hr (by decide) (by decide)
    subst this
    exact absurd (h4.2.2.2 _ 1 rfl rfl) (by decide)

end Verif.Create
