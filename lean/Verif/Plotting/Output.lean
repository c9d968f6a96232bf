import Verif.Plotting.Model
/-!
# Colours in TikZ output, and saving pictures (C101, C102)
-/

namespace Verif.Plotting

/-! ### Colours -/

/-- The dictionary that is found after some earlier calls. -/
def Earlier (t : Colors) : Prop := ∃ l, t = (tikzNames [] l).2

/-- Colours are written as names: the entry for each colour. -/
def Named (t : Colors) (color name : String) : Prop :=
  if color.startsWith "#" then (color, name) ∈ t else name = color

/-- Every entry has the number of its position as name, and no colour appears twice. -/
def Good (t : Colors) : Prop :=
  (t.map Prod.fst).Nodup ∧ (∀ ab ∈ t, ab.1.startsWith "#") ∧
    t.map Prod.snd = (List.range t.length).map fun n : ℕ => "customcolor" ++ toString n

theorem lookup_mem {t : Colors} {a b : String} (h : t.lookup a = some b) : (a, b) ∈ t := by
  induction t with
  | nil => cases h
  | cons x t ih =>
    rw [List.lookup_cons] at h
    split at h
    · rename_i e
      obtain rfl := Option.some.inj h
      rw [beq_iff_eq] at e
      subst e
      simp
    · exact List.mem_cons_of_mem _ (ih h)

theorem lookup_none {t : Colors} {a : String} (h : t.lookup a = none) : a ∉ t.map Prod.fst := by
  induction t with
  | nil => simp
  | cons x t ih =>
    rw [List.lookup_cons] at h
    split at h
    · cases h
    · rename_i e
      rw [List.map_cons, List.mem_cons, not_or]
      exact ⟨by simpa using e, ih h⟩

theorem tikzName_spec {t : Colors} (h : Good t) (c : String) :
    Good (tikzName t c).2 ∧ Named (tikzName t c).2 c (tikzName t c).1 ∧ t <+: (tikzName t c).2 := by
  rw [tikzName]
  by_cases hc : c.startsWith "#"
  · rw [if_pos hc]
    cases hl : t.lookup c with
    | some b => exact ⟨h, by rw [Named, if_pos hc]; exact lookup_mem hl, List.prefix_refl _⟩
    | none =>
      refine ⟨⟨?_, ?_, ?_⟩, by rw [Named, if_pos hc]; simp, List.prefix_append _ _⟩
      · rw [List.map_append, List.nodup_append]
        refine ⟨h.1, by simp, ?_⟩
        intro a ha b hb e
        subst e
        simp at hb
        subst hb
        exact lookup_none hl ha
      · intro ab hab
        rcases List.mem_append.1 hab with hab | hab
        · exact h.2.1 ab hab
        · rcases List.mem_singleton.1 hab with rfl
          exact hc
      · rw [List.map_append, h.2.2]
        simp [List.range_succ]
  · rw [if_neg hc]
    exact ⟨h, by rw [Named, if_neg hc], List.prefix_refl _⟩

theorem Named.mono {t t' : Colors} (h : t <+: t') {c n : String} (hn : Named t c n) : Named t' c n := by
  rw [Named] at *
  split
  · rename_i hc
    rw [if_pos hc] at hn
    exact h.subset hn
  · rename_i hc
    rw [if_neg hc] at hn
    exact hn

theorem tikzNames_spec {t : Colors} (h : Good t) (l : List String) :
    Good (tikzNames t l).2 ∧ List.Forall₂ (Named (tikzNames t l).2) l (tikzNames t l).1 ∧ t <+: (tikzNames t l).2 := by
  induction l generalizing t with
  | nil => exact ⟨h, .nil, List.prefix_refl _⟩
  | cons c l ih =>
    obtain ⟨h1, h2, h3⟩ := tikzName_spec h c
    obtain ⟨h4, h5, h6⟩ := ih h1
    exact ⟨h4, .cons (h2.mono h6) h5, h3.trans h6⟩

theorem Earlier.good {t : Colors} (h : Earlier t) : Good t := by
  obtain ⟨l, rfl⟩ := h
  exact (tikzNames_spec ⟨by simp, by simp, by simp⟩ l).1

theorem customcolor_inj {m n : ℕ} (h : "customcolor" ++ toString m = "customcolor" ++ toString n) : m = n := by
  have h : Nat.toDigits 10 m = Nat.toDigits 10 n := by
    have := congrArg String.toList h
    simpa using this
  have := congrArg (fun l => Nat.ofDigitChars 10 l 0) h
  simpa [Nat.ofDigitChars_ten_toDigits] using this

/-- **C102.** In the TikZ output of a picture, after any earlier calls: every colour given as `#......` is written as a name
that the output defines as that colour, every other colour is written as given, and the definitions are of distinct colours
under distinct names. -/
theorem tikz_colors {t : Colors} (ht : Earlier t) (elements : List Shape) :
    let out := asTikz t elements
    List.Forall₂ (fun color name => if color.startsWith "#" then (name, color) ∈ out.1 else name = color)
      (elements.flatMap Shape.tikzColors) out.2.1 ∧
    (out.1.map Prod.fst).Nodup ∧ (out.1.map Prod.snd).Nodup ∧ (∀ d ∈ out.1, d.2.startsWith "#") ∧ Earlier out.2.2 := by
  obtain ⟨h1, h2, h3⟩ := tikzNames_spec ht.good (elements.flatMap Shape.tikzColors)
  refine ⟨h2.imp fun c n hn => ?_, ?_, ?_, ?_, ?_⟩
  · rw [Named] at hn
    split
    · rename_i hc
      rw [if_pos hc] at hn
      exact List.mem_map.2 ⟨_, hn, rfl⟩
    · rename_i hc
      rw [if_neg hc] at hn
      exact hn
  · show ((List.map _ _).map _).Nodup
    rw [List.map_map]
    show (List.map Prod.snd _).Nodup
    rw [h1.2.2]
    exact List.Nodup.map (fun m n h => customcolor_inj h) List.nodup_range
  · show ((List.map _ _).map _).Nodup
    rw [List.map_map]
    exact h1.1
  · intro d hd
    obtain ⟨ab, hab, rfl⟩ := List.mem_map.1 hd
    exact h1.2.1 ab hab
  · obtain ⟨l, rfl⟩ := ht
    refine ⟨l ++ elements.flatMap Shape.tikzColors, ?_⟩
    clear h1 h2 h3
    show (tikzNames (tikzNames [] l).2 _).2 = _
    generalize ([] : Colors) = t0
    generalize elements.flatMap Shape.tikzColors = l'
    induction l generalizing t0 with
    | nil => rfl
    | cons c l ih => exact ih _

example : asTikz [("#000000", "customcolor0")] [.line (0, 0) (1, 0) "#FF8800" 4, .line (0, 0) (1, 0) "red" 4] =
    ([("customcolor0", "#000000"), ("customcolor1", "#FF8800")], ["customcolor1", "red"],
      [("#000000", "customcolor0"), ("#FF8800", "customcolor1")]) := by
  decide +kernel

/-! ### Saving -/

/-- A file name that is accepted. -/
def Accepted (name : String) : Prop := name.endsWith ".svg" ∨ name.endsWith ".png" ∨ name.endsWith ".tex"

/-- **C101.** Saving to one name writes that file and no other; other extensions are refused. -/
theorem saveOne_spec (fs : Files) (name : String) :
    (Accepted name → ∃ fs', saveOne fs name = some fs' ∧ (fs' name).isSome ∧ ∀ other ≠ name, fs' other = fs other) ∧
    (¬ Accepted name → saveOne fs name = none) := by
  rw [saveOne, Accepted]
  split
  · rename_i h
    exact ⟨fun _ => ⟨_, rfl, by simp, fun o ho => by simp [ho]⟩, fun hn => absurd (Or.inl h) hn⟩
  · split
    · rename_i h
      exact ⟨fun _ => ⟨_, rfl, by simp, fun o ho => by simp [ho]⟩, fun hn => absurd (Or.inr (Or.inl h)) hn⟩
    · split
      · rename_i h
        exact ⟨fun _ => ⟨_, rfl, by simp, fun o ho => by simp [ho]⟩, fun hn => absurd (Or.inr (Or.inr h)) hn⟩
      · rename_i h1 h2 h3
        exact ⟨fun h => by rcases h with h | h | h <;> contradiction, fun _ => rfl⟩

/-- The extension of the files of a format. -/
def Format.suffix : Format → String
  | .svg => ".svg"
  | .png => ".png"
  | .tex => ".tex"

/-- **C101.** What is written is in the format of the extension. -/
theorem saveOne_format {fs fs' : Files} {name : String} (h : saveOne fs name = some fs') :
    ∃ f : Format, fs' name = some f ∧ name.endsWith f.suffix := by
  rw [saveOne] at h
  split at h
  · rename_i h1
    obtain rfl := Option.some.inj h
    exact ⟨.svg, by simp, h1⟩
  · split at h
    · rename_i h1
      obtain rfl := Option.some.inj h
      exact ⟨.png, by simp, h1⟩
    · split at h
      · rename_i h1
        obtain rfl := Option.some.inj h
        exact ⟨.tex, by simp, h1⟩
      · exact absurd h (by simp)

/-- **C101.** Saving to a list with one name writes that file. -/
theorem saveList_partial (fs : Files) {name : String} (h : Accepted name) :
    ∃ fs', saveList fs [name] = some fs' ∧ (fs' name).isSome ∧ ∀ other ≠ name, fs' other = fs other :=
  (saveOne_spec fs name).1 h

/-- **C101 is violated**: saving to a list writes the first file only, and no exception is raised, even if the other names are
not accepted.  Saving to an empty list fails. -/
theorem saveList_first_only (fs : Files) {name : String} (h : Accepted name) (rest : List String) :
    (∃ fs', saveList fs (name :: rest) = some fs' ∧ ∀ other ∈ rest, other ≠ name → fs' other = fs other) ∧
    saveList fs [] = none := by
  obtain ⟨fs', h1, -, h3⟩ := (saveOne_spec fs name).1 h
  exact ⟨⟨fs', h1, fun o _ ho => h3 o ho⟩, rfl⟩

example : ∃ fs', saveList (fun _ => none) ["a.svg", "b.tex"] = some fs' ∧ fs' "b.tex" = none := by
  obtain ⟨⟨fs', h1, h2⟩, -⟩ := saveList_first_only (fun _ => none) (name := "a.svg") (Or.inl (by decide +kernel)) ["b.tex"]
  exact ⟨fs', h1, h2 _ (by simp) (by decide)⟩

end Verif.Plotting
