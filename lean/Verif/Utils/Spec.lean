import Verif.Utils.Model
/-! # Specification of nested equality and of English ordinals -/

namespace Verif.Utils

/-- The function a leaf stands for. -/
def leafFmt {F : Type} : Val F → Option (Fmt F)
  | .expr e => some (.scalar e)
  | .fn v => some v
  | .seq _ => none

mutual
/-- The two values are the same: equal leaves, or sequences of the same length whose members are
pairwise the same. -/
def Same {F : Type} : Val F → Val F → Prop
  | .seq l, .seq m => SameList l m
  | .seq _, .expr _ => False
  | .seq _, .fn _ => False
  | .expr e, b => leafFmt (.expr e) = leafFmt b
  | .fn v, b => leafFmt (.fn v) = leafFmt b
/-- Pairwise the same, with equal lengths. -/
def SameList {F : Type} : List (Val F) → List (Val F) → Prop
  | [], [] => True
  | a :: l, b :: m => Same a b ∧ SameList l m
  | [], _ :: _ => False
  | _ :: _, [] => False
end

mutual
/-- The two values have the same nesting, and no leaf of the second is a bare expression. -/
def Comparable {F : Type} : Val F → Val F → Prop
  | .seq l, .seq m => ComparableList l m
  | .seq _, .expr _ => False
  | .seq _, .fn _ => False
  | .expr _, .fn _ => True
  | .fn _, .fn _ => True
  | .expr _, .expr _ => False
  | .expr _, .seq _ => False
  | .fn _, .expr _ => False
  | .fn _, .seq _ => False
/-- Same length and pairwise comparable. -/
def ComparableList {F : Type} : List (Val F) → List (Val F) → Prop
  | [], [] => True
  | a :: l, b :: m => Comparable a b ∧ ComparableList l m
  | [], _ :: _ => False
  | _ :: _, [] => False
end

/-- The ending of the English ordinal of `n`: numbers ending in 11, 12, 13 take "th"; otherwise the
last digit decides. -/
def ordinalEnding (n : Nat) : String :=
  if n % 100 = 11 ∨ n % 100 = 12 ∨ n % 100 = 13 then "th"
  else match n % 10 with
    | 1 => "st"
    | 2 => "nd"
    | 3 => "rd"
    | _ => "th"

end Verif.Utils
