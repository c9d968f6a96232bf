import Verif.Caching.Spec
import Verif.Caching.Rational
import Mathlib.Tactic.Ring
import Mathlib.Data.List.Basic
/-! # Helper lemmas for the cache properties -/

namespace Verif.Caching

theorem splitOn_ne_nil (c : Char) (s : Str) : splitOn c s ≠ [] := by
  cases s with
  | nil => simp [splitOn]
  | cons a t =>
    simp only [splitOn]
    split
    · simp
    · split <;> simp

theorem splitOn_noSep {c : Char} {s : Str} (h : c ∉ s) : splitOn c s = [s] := by
  induction s with
  | nil => simp [splitOn]
  | cons a t ih =>
    simp only [List.mem_cons, not_or] at h
    rw [splitOn, if_neg (fun e => h.1 e.symm), ih h.2]

theorem splitOn_append {c : Char} {s : Str} (h : c ∉ s) (t : Str) :
    splitOn c (s ++ c :: t) = s :: splitOn c t := by
  induction s with
  | nil => simp [splitOn]
  | cons a s ih =>
    simp only [List.mem_cons, not_or] at h
    rw [List.cons_append, splitOn, if_neg (fun e => h.1 e.symm), ih h.2]

theorem splitOn_joinWith {c : Char} : ∀ (parts : List Str), parts ≠ [] → (∀ p ∈ parts, c ∉ p) →
    splitOn c (joinWith c parts) = parts
  | [], h, _ => absurd rfl h
  | [s], _, h => by simpa [joinWith] using splitOn_noSep (h s (by simp))
  | s :: s' :: t, _, h => by
    rw [joinWith, splitOn_append (h s (by simp)),
      splitOn_joinWith (s' :: t) (by simp) (fun p hp => h p (List.mem_cons_of_mem _ hp))]

theorem joinWith_noSep {c d : Char} (hcd : d ≠ c) : ∀ (parts : List Str), (∀ p ∈ parts, d ∉ p) →
    d ∉ joinWith c parts
  | [], _ => by simp [joinWith]
  | [s], h => by simpa [joinWith] using h s (by simp)
  | s :: s' :: t, h => by
    have ih := joinWith_noSep hcd (s' :: t) (fun p hp => h p (List.mem_cons_of_mem _ hp))
    have := h s (by simp)
    simp [joinWith, this, hcd, ih]

/-- Splitting a prefix of a joined text gives some complete parts followed by a prefix of one. -/
theorem splitOn_take_joinWith {c : Char} : ∀ (parts : List Str), parts ≠ [] →
    (∀ p ∈ parts, c ∉ p) → ∀ k, ∃ i p s, parts[i]? = some s ∧ p <+: s ∧
      splitOn c ((joinWith c parts).take k) = parts.take i ++ [p]
  | [], h, _, _ => absurd rfl h
  | [s], _, h, k => by
    refine ⟨0, s.take k, s, by simp, List.take_prefix _ _, ?_⟩
    have : c ∉ s.take k := fun hm => h s (by simp) (List.mem_of_mem_take hm)
    simpa [joinWith] using splitOn_noSep this
  | s :: s' :: t, _, h, k => by
    rw [joinWith]
    by_cases hk : k ≤ s.length
    · refine ⟨0, s.take k, s, by simp, List.take_prefix _ _, ?_⟩
      have : c ∉ s.take k := fun hm => h s (by simp) (List.mem_of_mem_take hm)
      rw [List.take_append_of_le_length hk]
      simpa using splitOn_noSep this
    · obtain ⟨k', rfl⟩ : ∃ k', k = s.length + (k' + 1) := ⟨k - s.length - 1, by omega⟩
      obtain ⟨i, p, u, h1, h2, h3⟩ := splitOn_take_joinWith (s' :: t) (by simp)
        (fun p hp => h p (List.mem_cons_of_mem _ hp)) k'
      refine ⟨i + 1, p, u, by simpa using h1, h2, ?_⟩
      rw [List.take_length_add_append, List.take_succ_cons, splitOn_append (h s (by simp)), h3]
      simp

section
variable {E : Type} {cd : Codec E}

theorem mapM_ok_nil {α β : Type} (f : α → Except Err β) : List.mapM f [] = .ok [] := rfl

theorem mapM_ok_cons {α β : Type} (f : α → Except Err β) (a : α) (l : List α) :
    List.mapM f (a :: l) = (match f a with
      | .error e => .error e
      | .ok b => match List.mapM f l with
        | .error e => .error e
        | .ok bs => .ok (b :: bs)) := by
  rw [List.mapM_cons]
  cases f a with
  | error e => rfl
  | ok b =>
    cases h : List.mapM f l with
    | error e => simp; rfl
    | ok bs => simp; rfl

theorem mapM_length {α β : Type} (f : α → Except Err β) : ∀ (l : List α) (r : List β),
    List.mapM f l = .ok r → r.length = l.length
  | [], r, h => by
    rw [mapM_ok_nil] at h; injection h with h; subst h; rfl
  | a :: l, r, h => by
    rw [mapM_ok_cons] at h
    split at h
    · cases h
    · split at h
      · cases h
      · rename_i b _ bs hbs
        injection h with h
        subst h
        simp [mapM_length f l bs hbs]

theorem mapM_append_ok {α β : Type} (f : α → Except Err β) : ∀ (l₁ l₂ : List α) (r : List β),
    List.mapM f (l₁ ++ l₂) = .ok r → ∃ r₁ r₂, r = r₁ ++ r₂ ∧ List.mapM f l₁ = .ok r₁ ∧
      List.mapM f l₂ = .ok r₂
  | [], l₂, r, h => ⟨[], r, by simp, rfl, h⟩
  | a :: l₁, l₂, r, h => by
    rw [List.cons_append, mapM_ok_cons] at h
    split at h
    · cases h
    · split at h
      · cases h
      · rename_i b hb _ bs hbs
        injection h with h
        subst h
        obtain ⟨r₁, r₂, e, h1, h2⟩ := mapM_append_ok f l₁ l₂ bs hbs
        refine ⟨b :: r₁, r₂, by simp [e], ?_, h2⟩
        rw [mapM_ok_cons, hb, h1]

theorem mapM_parse_print (hg : cd.Good) : ∀ l : List E, (l.map cd.print).mapM cd.parse = .ok l
  | [] => rfl
  | e :: l => by
    rw [List.map_cons, mapM_ok_cons, hg.parse_print, mapM_parse_print hg l]

/-- One printed row parses back. -/
theorem parse_row (hg : cd.Good) (row : List E) (h : row ≠ []) :
    (splitOn ',' (joinWith ',' (row.map cd.print))).mapM cd.parse = .ok row := by
  rw [splitOn_joinWith]
  · exact mapM_parse_print hg row
  · simpa using h
  · intro p hp
    obtain ⟨e, _, rfl⟩ := List.mem_map.1 hp
    exact hg.no_comma e

theorem parse_rows (hg : cd.Good) : ∀ rows : List (List E), (∀ r ∈ rows, r ≠ []) →
    (rows.map fun row => joinWith ',' (row.map cd.print)).mapM
      (fun i => (splitOn ',' i).mapM cd.parse) = .ok rows
  | [], _ => rfl
  | r :: rs, h => by
    rw [List.map_cons, mapM_ok_cons, parse_row hg r (h r (by simp)),
      parse_rows hg rs (fun r hr => h r (List.mem_cons_of_mem _ hr))]

theorem row_no_semicolon (hg : cd.Good) (row : List E) :
    ';' ∉ joinWith ',' (row.map cd.print) := by
  refine joinWith_noSep (by decide) _ ?_
  intro p hp
  obtain ⟨e, _, rfl⟩ := List.mem_map.1 hp
  exact hg.no_semicolon e

theorem mkMatrix_wf {m : Mat E} (h : m.WF) (hr : 0 < m.rows) : mkMatrix m.data = .ok m := by
  obtain ⟨rows, cols, data⟩ := m
  obtain ⟨h1, h2⟩ := h
  simp only at h1 h2 hr ⊢
  cases data with
  | nil => simp at h1; omega
  | cons r rs =>
    have hr' : r.length = cols := h2 r (by simp)
    have : rs.all (fun r' => r'.length == r.length) = true := by
      rw [List.all_eq_true]
      intro r' hr''
      simp [h2 r' (by simp [hr'']), hr']
    simp only [mkMatrix, this, if_true]
    simp only [List.length_cons] at h1
    subst h1 hr'
    rfl

theorem data_ne_nil {m : Mat E} (h : m.Proper) : m.data ≠ [] := by
  intro e
  have := h.wf.1
  rw [e] at this
  have := h.rows_pos
  simp_all

theorem row_ne_nil {m : Mat E} (h : m.Proper) : ∀ r ∈ m.data, r ≠ [] := by
  intro r hr e
  have := h.wf.2 r hr
  have := h.cols_pos
  subst e
  simp_all

theorem roundtrip (hg : cd.Good) {m : Mat E} (h : m.Proper) :
    matrixFromString cd (matrixToString cd m) = .ok m := by
  unfold matrixFromString matrixToString
  rw [splitOn_joinWith]
  · rw [parse_rows hg _ (row_ne_nil h)]
    exact mkMatrix_wf h.wf h.rows_pos
  · simpa using data_ne_nil h
  · intro p hp
    obtain ⟨row, _, rfl⟩ := List.mem_map.1 hp
    exact row_no_semicolon hg row

theorem mkMatrix_ok {rows : List (List E)} {m : Mat E} (h : mkMatrix rows = .ok m) :
    m.data = rows ∧ m.WF := by
  cases rows with
  | nil =>
    simp only [mkMatrix] at h
    injection h with h
    subst h
    exact ⟨rfl, rfl, by simp⟩
  | cons r rs =>
    simp only [mkMatrix] at h
    split at h
    · rename_i hall
      injection h with h
      subst h
      refine ⟨rfl, by simp, ?_⟩
      intro r' hr'
      rcases List.mem_cons.1 hr' with rfl | hr'
      · rfl
      · have := List.all_eq_true.1 hall r' hr'
        simpa using this
    · cases h

theorem fileName_inj {digest : Str → Str} {ids : List Str} (hd : GoodDigest digest ids)
    {t i t' i' : Str} (hi : i ∈ ids) (hi' : i' ∈ ids)
    (h : fileName digest t i = fileName digest t' i') : t = t' ∧ i = i' := by
  unfold fileName at h
  have h1 := List.append_cancel_right h
  obtain ⟨h2, h3⟩ := List.append_inj' h1 (hd.length_eq _ _)
  have h4 := List.append_cancel_right (List.append_cancel_right h2)
  exact ⟨h4, hd.injective _ hi _ hi' h3⟩

end

/-! ### The rational codec -/

theorem charDigit_digitChar {d : Nat} (h : d < 10) : charDigit (digitChar d) = some d := by
  have : ∀ d, d < 10 → charDigit (digitChar d) = some d := by decide
  exact this d h

theorem parseDigits_append : ∀ (s t : Str) (acc : Nat),
    parseDigits acc (s ++ t) = (parseDigits acc s).bind fun a => parseDigits a t
  | [], t, acc => by simp [parseDigits]
  | c :: s, t, acc => by
    simp only [List.cons_append, parseDigits]
    cases charDigit c with
    | none => simp
    | some d => simpa using parseDigits_append s t _

theorem parseDigits_printNat (n : Nat) : parseDigits 0 (printNat n) = some n := by
  induction n using Nat.strongRecOn with
  | _ n ih =>
    rw [printNat]
    split
    · rename_i h
      simp [parseDigits, charDigit_digitChar h]
    · rename_i h
      rw [parseDigits_append, ih (n / 10) (by omega)]
      simp only [Option.bind_some, parseDigits, charDigit_digitChar (show n % 10 < 10 by omega)]
      congr 1
      omega

theorem printNat_ne_nil (n : Nat) : printNat n ≠ [] := by
  rw [printNat]; split <;> simp

theorem parseNat_printNat (n : Nat) : parseNat (printNat n) = some n := by
  have h := parseDigits_printNat n
  cases hp : printNat n with
  | nil => exact absurd hp (printNat_ne_nil n)
  | cons c t => rw [hp] at h; simpa [parseNat] using h

theorem mem_printNat {n : Nat} {c : Char} (h : c ∈ printNat n) : ∃ d < 10, c = digitChar d := by
  induction n using Nat.strongRecOn with
  | _ n ih =>
    rw [printNat] at h
    split at h
    · rename_i hn
      simp only [List.mem_singleton] at h
      exact ⟨n, hn, h⟩
    · rcases List.mem_append.1 h with h | h
      · exact ih (n / 10) (by omega) h
      · simp only [List.mem_singleton] at h
        exact ⟨n % 10, by omega, h⟩

theorem digitChar_ne {c : Char} (hc : c = '/' ∨ c = '-' ∨ c = ',' ∨ c = ';' ∨ c = ' ') :
    ∀ d < 10, c ≠ digitChar d := by
  rcases hc with rfl | rfl | rfl | rfl | rfl <;> decide

theorem not_mem_printNat {c : Char} (hc : c = '/' ∨ c = '-' ∨ c = ',' ∨ c = ';' ∨ c = ' ')
    (n : Nat) : c ∉ printNat n := by
  intro h
  obtain ⟨d, hd, e⟩ := mem_printNat h
  exact digitChar_ne hc d hd e

theorem parseUnsigned_print (num den : Nat) (hden : den ≠ 0) :
    parseUnsigned (printUnsigned num den) = some ((num : ℚ) / (den : ℚ)) := by
  unfold printUnsigned
  by_cases h : den = 1
  · subst h
    rw [if_pos rfl, parseUnsigned]
    rw [splitOn_noSep (not_mem_printNat (by simp) _)]
    simp [parseNat_printNat]
  · rw [if_neg h, parseUnsigned, splitOn_append (not_mem_printNat (by simp) _),
      splitOn_noSep (not_mem_printNat (by simp) _)]
    simp [parseNat_printNat, hden]

theorem printUnsigned_head (num den : Nat) : ∀ t, printUnsigned num den ≠ '-' :: t := by
  intro t h
  have hm : '-' ∈ printUnsigned num den := by rw [h]; simp
  unfold printUnsigned at h hm
  split at hm
  · exact not_mem_printNat (by simp) _ hm
  · rcases List.mem_append.1 hm with hm | hm
    · exact not_mem_printNat (by simp) _ hm
    · rcases List.mem_cons.1 hm with hm | hm
      · exact absurd hm (by decide)
      · exact not_mem_printNat (by simp) _ hm

theorem parseRat_nonneg {s : Str} (h : ∀ t, s ≠ '-' :: t) :
    parseRat s = match parseUnsigned s with
      | some q => .ok q
      | none => .error .parse := by
  unfold parseRat
  split
  · rename_i t; exact absurd rfl (h t)
  · rfl

theorem parseRat_printRat (q : ℚ) : parseRat (printRat q) = .ok q := by
  have hden := q.den_nz
  have hq : ((q.num : ℚ) / (q.den : ℚ)) = q := Rat.num_div_den q
  unfold printRat
  split
  · rename_i h
    simp only [parseRat, parseUnsigned_print _ _ hden]
    congr 1
    have : ((q.num.natAbs : ℕ) : ℚ) = -(q.num : ℚ) := by
      have h2 : ((q.num.natAbs : ℕ) : ℤ) = -q.num := by omega
      have h3 := congrArg (fun z : ℤ => (z : ℚ)) h2
      simpa only [Int.cast_natCast, Int.cast_neg] using h3
    rw [this, neg_div, neg_neg, hq]
  · rename_i h
    rw [parseRat_nonneg (printUnsigned_head _ _), parseUnsigned_print _ _ hden]
    simp only
    congr 1
    have : ((q.num.natAbs : ℕ) : ℚ) = (q.num : ℚ) := by
      have h2 : ((q.num.natAbs : ℕ) : ℤ) = q.num := by omega
      have h3 := congrArg (fun z : ℤ => (z : ℚ)) h2
      simpa only [Int.cast_natCast] using h3
    rw [this, hq]

theorem not_mem_printRat {c : Char} (hc : c = ',' ∨ c = ';') (q : ℚ) : c ∉ printRat q := by
  have key : ∀ a b, c ∉ printUnsigned a b := by
    intro a b hm
    unfold printUnsigned at hm
    have hn : ∀ n, c ∉ printNat n := fun n => not_mem_printNat (by tauto) n
    split at hm
    · exact hn _ hm
    · rcases List.mem_append.1 hm with hm | hm
      · exact hn _ hm
      · rcases List.mem_cons.1 hm with hm | hm
        · rcases hc with rfl | rfl <;> exact absurd hm (by decide)
        · exact hn _ hm
  unfold printRat
  split
  · intro hm
    rcases List.mem_cons.1 hm with hm | hm
    · rcases hc with rfl | rfl <;> exact absurd hm (by decide)
    · exact key _ _ hm
  · exact key _ _

theorem ratCodec_good : ratCodec.Good :=
  ⟨parseRat_printRat, fun q => not_mem_printRat (by simp) q,
    fun q => not_mem_printRat (by simp) q⟩

end Verif.Caching
