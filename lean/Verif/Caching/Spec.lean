import Verif.Caching.Model
/-!
# Specification vocabulary for the cache properties

Nothing here mentions text, files or digests except `Codec.Good`, which says what "the printer and
parser of single entries are right" means.
-/

namespace Verif.Caching

/-- Entries print without the two separators, and parsing a printed entry gives it back. -/
structure Codec.Good {E : Type} (cd : Codec E) : Prop where
  parse_print : ∀ e, cd.parse (cd.print e) = .ok e
  no_comma : ∀ e, ',' ∉ cd.print e
  no_semicolon : ∀ e, ';' ∉ cd.print e

/-- A digest with fixed output length that has no collision among the ids in `ids`. (No digest of
fixed length is free of collisions altogether.) -/
structure GoodDigest (digest : Str → Str) (ids : List Str) : Prop where
  length_eq : ∀ s t, (digest s).length = (digest t).length
  injective : ∀ s ∈ ids, ∀ t ∈ ids, digest s = digest t → s = t

/-- The ids that a history uses. -/
def opIds {E : Type} (ops : List (Op E)) : List Str :=
  ops.map fun
    | .save _ i _ => i
    | .load _ i _ => i

/-- The abstract cache: what was last saved under each key. -/
abbrev Abstract (E : Type) := Str × Str → Option (Mat E)

/-- Answer of a load on the abstract cache: the matrix saved under that key if it has the requested
shape, otherwise nothing. -/
def absLoad {E : Type} (a : Abstract E) (key : Str × Str) (size : Nat × Nat) : Option (Mat E) :=
  match a key with
  | none => none
  | some m => if m.rows = size.1 ∧ m.cols = size.2 then some m else none

/-- Answers expected from a history of operations. -/
def absRun {E : Type} : Abstract E → List (Op E) → List (Option (Mat E))
  | _, [] => []
  | a, .save t i m :: ops => absRun (fun k => if k = (t, i) then some m else a k) ops
  | a, .load t i sz :: ops => absLoad a (t, i) sz :: absRun a ops

/-- A matrix with at least one row and one column and consistent shape. -/
structure Mat.Proper {E : Type} (m : Mat E) : Prop where
  wf : m.WF
  rows_pos : 0 < m.rows
  cols_pos : 0 < m.cols

/-- Every matrix saved in the history is proper. -/
def ProperOps {E : Type} (ops : List (Op E)) : Prop :=
  ∀ op ∈ ops, match op with
    | .save _ _ m => m.Proper
    | .load _ _ _ => True

/-- The entry in row `i` and column `j`. -/
def Mat.entry {E : Type} (m : Mat E) (i j : Nat) : Option E := (m.data[i]?).bind (fun r => r[j]?)

end Verif.Caching
