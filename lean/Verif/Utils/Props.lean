import Verif.Utils.Spec
import Mathlib.Tactic.SplitIfs
import Mathlib.Tactic.IntervalCases
/-! # Properties C08 (allequal) and C09 (ordinals) -/

namespace Verif.Utils

variable {F : Type} [DecidableEq F]

/-! ## C08 -/

/-- C08 fails: a list is reported equal to a longer list. -/
theorem allequal_ignores_extra_items :
    allequal (.seq [.fn (.scalar (1 : Int))]) (.seq [.fn (.scalar 1), .fn (.scalar 2)]) = some true
    ∧ ¬ Same (.seq [.fn (.scalar (1 : Int))]) (.seq [.fn (.scalar 1), .fn (.scalar 2)]) := by
  constructor
  · decide
  · simp [Same, SameList]

/-- C08 fails: everything is reported equal to a bare sympy expression. -/
theorem allequal_to_expression_is_always_true (a : Val F) (e : F) :
    allequal a (.expr e) = some true := by
  cases a <;> simp [allequal, fnEq, Val.toFmt]

/-- The second failure with unequal inputs. -/
theorem allequal_wrong_on_expression :
    allequal (.fn (.scalar (0 : Int))) (.expr 1) = some true ∧
    ¬ Same (.fn (.scalar (0 : Int))) (.expr 1) := by
  constructor
  · decide
  · simp [Same, leafFmt]

mutual
theorem allequal_aux : ∀ (a b : Val F), Comparable a b →
    (Same a b → allequal a b = some true) ∧ (¬ Same a b → allequal a b = some false)
  | .seq l, .seq m, h => by
    have := allequalList_aux l m (by simpa [Comparable] using h)
    simpa [allequal, Same] using this
  | .seq _, .expr _, h => by simp [Comparable] at h
  | .seq _, .fn _, h => by simp [Comparable] at h
  | .expr e, .fn v, _ => by
    simp only [allequal, fnEq, Val.toFmt, Same, leafFmt]
    constructor
    · intro h; simpa using h
    · intro h; simpa using h
  | .fn u, .fn v, _ => by
    simp only [allequal, fnEq, Val.toFmt, Same, leafFmt]
    constructor
    · intro h; simpa using h
    · intro h; simpa using h
  | .expr _, .expr _, h => by simp [Comparable] at h
  | .expr _, .seq _, h => by simp [Comparable] at h
  | .fn _, .expr _, h => by simp [Comparable] at h
  | .fn _, .seq _, h => by simp [Comparable] at h
theorem allequalList_aux : ∀ (l m : List (Val F)), ComparableList l m →
    (SameList l m → allequalList l m = some true) ∧
    (¬ SameList l m → allequalList l m = some false)
  | [], [], _ => by simp [allequalList, SameList]
  | [], _ :: _, h => by simp [ComparableList] at h
  | _ :: _, [], h => by simp [ComparableList] at h
  | a :: l, b :: m, h => by
    have hc : Comparable a b ∧ ComparableList l m := by simpa [ComparableList] using h
    have h1 := allequal_aux a b hc.1
    have h2 := allequalList_aux l m hc.2
    by_cases hs : Same a b
    · simp only [allequalList, h1.1 hs, SameList, hs, true_and]
      exact h2
    · simp [allequalList, h1.2 hs, SameList, hs]
end

/-- C08, the part that holds: on values of the same nesting whose right-hand leaves are function
objects, `allequal` returns `True` exactly when the values are the same and `False` otherwise; it
never raises. Missing: values of different nesting or length, and bare expressions on the right,
where the code is wrong. -/
theorem allequal_exact_partial (a b : Val F) (h : Comparable a b) :
    (allequal a b = some true ↔ Same a b) ∧ (allequal a b = some false ↔ ¬ Same a b) := by
  have h' := allequal_aux a b h
  by_cases hs : Same a b
  · simp [h'.1 hs, hs]
  · simp [h'.2 hs, hs]

/-- Comparable nested values, one pair the same and one pair different. -/
example :
    Comparable (.seq [.seq [.expr (1 : Int), .fn (.scalar 2)], .fn (.tuple [3, 4])])
      (.seq [.seq [.fn (.scalar 1), .fn (.scalar 2)], .fn (.tuple [3, 4])]) ∧
    Same (.seq [.seq [.expr (1 : Int), .fn (.scalar 2)], .fn (.tuple [3, 4])])
      (.seq [.seq [.fn (.scalar 1), .fn (.scalar 2)], .fn (.tuple [3, 4])]) ∧
    ¬ Same (.seq [.fn (.scalar (1 : Int))]) (.seq [.fn (.scalar 2)]) := by
  simp [Comparable, ComparableList, Same, SameList, leafFmt]

/-! ## C09 -/

/-- C09 fails at 13: the text is "13rd". -/
theorem nth_13 : nth 13 = "13rd" ∧ ordinalEnding 13 = "th" := by decide

/-- C09 fails at 111: the text is "111st". -/
theorem nth_111 : nth 111 = "111st" ∧ ordinalEnding 111 = "th" := by decide

/-- C09, the part that holds: the ending is right exactly for the numbers whose last two digits are
not 11, 12 or 13, and for 11 and 12 themselves. Missing: the other numbers, where the code is
wrong. -/
theorem nth_correct_iff_partial (n : Nat) :
    nth n = toString n ++ ordinalEnding n ↔
      ((n % 100 ≠ 11 ∧ n % 100 ≠ 12 ∧ n % 100 ≠ 13) ∨ n = 11 ∨ n = 12) := by
  have hinj : nth n = toString n ++ ordinalEnding n ↔ nthSuffix n = ordinalEnding n := by
    unfold nth
    exact String.append_right_inj _
  rw [hinj]
  unfold nthSuffix ordinalEnding
  have h10 : n % 10 = (n % 100) % 10 := by omega
  by_cases h11 : n % 100 = 11
  · have h1 : n % 10 = 1 := by omega
    rw [if_pos (Or.inl h11)]
    by_cases hn : n = 11
    · subst hn; decide
    · rw [if_pos ⟨h1, hn⟩]
      have : n ≠ 12 := by omega
      simp [h11, hn, this]
  · by_cases h12 : n % 100 = 12
    · have h1 : n % 10 = 2 := by omega
      rw [if_pos (Or.inr (Or.inl h12)), if_neg (by omega)]
      by_cases hn : n = 12
      · subst hn; decide
      · rw [if_pos ⟨h1, hn⟩]
        have : n ≠ 11 := by omega
        simp [h12, hn, this]
    · by_cases h13 : n % 100 = 13
      · have h1 : n % 10 = 3 := by omega
        rw [if_pos (Or.inr (Or.inr h13)), if_neg (by omega), if_neg (by omega),
          if_pos ⟨h1, by omega⟩]
        have : n ≠ 11 := by omega
        have : n ≠ 12 := by omega
        simp [*]
      · have hr : ((n % 100 ≠ 11 ∧ n % 100 ≠ 12 ∧ n % 100 ≠ 13) ∨ n = 11 ∨ n = 12) :=
          Or.inl ⟨h11, h12, h13⟩
        simp only [hr, iff_true]
        have hlt : n % 10 < 10 := Nat.mod_lt _ (by decide)
        have e11 : n ≠ 11 := by omega
        have e12 : n ≠ 12 := by omega
        interval_cases h : n % 10 <;> simp [e11, e12, h11, h12, h13]

/-- 21, 102 and 1003 meet the condition. -/
example : nth 21 = "21st" ∧ nth 102 = "102nd" ∧ nth 1003 = "1003rd" ∧ nth 11 = "11th" := by
  decide

end Verif.Utils
