import Verif.Caching.Rational
import Verif.References.Model
/-!
# Model of `symfem/create.py`

The registry of element classes, `create_reference` and `create_element`.  Strings are compared as
Lean strings; the part of a name that is taken apart is a list of characters.
-/

namespace Verif.Create
open Verif.References

/-! ### The registry -/

/-- `min_order` or `max_order` of a class: a number for all cells, or a dictionary. -/
inductive Limit
  | all (n : Int)
  | each (l : List (String × Int))
  deriving DecidableEq

/-- What the registry uses of an element class.  Classes are compared by `id`entity in Python; here
two classes are equal if all fields are, so distinct classes need distinct `path`s. -/
structure ElementClass where
  path : String
  names : List String
  references : List String
  minOrder : Option Limit := none
  maxOrder : Option Limit := none
  deriving DecidableEq

/-- The argument of `add_element`. -/
inductive Arg
  /-- Not a class. -/
  | value
  /-- A class that does not inherit from `FiniteElement`. -/
  | foreign
  /-- `FiniteElement` itself. -/
  | base
  | cls (c : ElementClass)

/-- Exceptions. -/
inductive Err
  | typeError | assertionError | valueError | indexError
  deriving DecidableEq

/-- `_elementlist` and `_elementmap` (symfem/create.py:14-15); a missing key is `none`. -/
structure Registry where
  list : List ElementClass
  map : String → Option (String → Option ElementClass)

/-- The registry at the start of the import. -/
def Registry.empty : Registry := ⟨[], fun _ => none⟩

/-- `_elementmap[n][r]`, `none` if either key is missing. -/
def Registry.lookup (s : Registry) (n r : String) : Option ElementClass :=
  match s.map n with
  | none => none
  | some m => m r

/-- One step of the double loop (symfem/create.py:42-46).  The flag tells that the assertion
failed; the dictionary for the name may have been made before. -/
def addOne (c : ElementClass) (n r : String) (s : Registry) : Registry × Bool :=
  let inner := (s.map n).getD fun _ => none
  match inner r with
  | some c' =>
    if c = c' then
      (⟨s.list, fun k => if k = n then some (fun q => if q = r then some c else inner q) else s.map k⟩,
        true)
    else (⟨s.list, fun k => if k = n then some inner else s.map k⟩, false)
  | none =>
    (⟨s.list, fun k => if k = n then some (fun q => if q = r then some c else inner q) else s.map k⟩,
      true)

/-- The double loop; it stops at the first failed assertion. -/
def addLoop (c : ElementClass) : List (String × String) → Registry → Registry × Bool
  | [], s => (s, true)
  | (n, r) :: rest, s =>
    match addOne c n r s with
    | (s', true) => addLoop c rest s'
    | (s', false) => (s', false)

/-- The pairs visited by the double loop (symfem/create.py:40-41). -/
def pairs (c : ElementClass) : List (String × String) :=
  c.names.flatMap fun n => c.references.map fun r => (n, r)

/-- `if element_class not in _elementlist: _elementlist.append(element_class)`
(symfem/create.py:37-38). -/
def withClass (c : ElementClass) (s : Registry) : Registry :=
  ⟨if c ∈ s.list then s.list else s.list ++ [c], s.map⟩

/-- `add_element` (symfem/create.py:20-46): the registry afterwards and the exception, if any. -/
def addElement (a : Arg) (s : Registry) : Registry × Option Err :=
  match a with
  | .value => (s, some .typeError)
  | .foreign => (s, some .typeError)
  | .base => (s, some .typeError)
  | .cls c =>
    if c.names.length = 0 then (s, some .typeError)
    else
      match addLoop c (pairs c) (withClass c s) with
      | (s2, true) => (s2, none)
      | (s2, false) => (s2, some .assertionError)

/-- A sequence of calls, in each of which exceptions are caught by the caller. -/
def addAll : List Arg → Registry → Registry
  | [], s => s
  | a :: as, s => addAll as (addElement a s).1

/-! ### Reference cells -/

/-- The cells as made by `create_reference`: class and geometric dimension. -/
structure Made where
  cell : Cell
  gdim : Nat
  deriving DecidableEq

/-- `reference.name` (the `name` passed to `__build__`, symfem/references.py). -/
def cellName : Cell → String
  | .point => "point"
  | .interval => "interval"
  | .triangle => "triangle"
  | .tetrahedron => "tetrahedron"
  | .quadrilateral => "quadrilateral"
  | .hexahedron => "hexahedron"
  | .prism => "prism"
  | .pyramid => "pyramid"
  | .dualPolygon _ => "dual polygon"

/-- Python `int(s)` for a string of decimal digits (no sign, spaces or underscores); `none` is
`ValueError`. -/
def pyInt (s : List Char) : Option Nat := Caching.parseNat s

/-- The constructor of a cell: without vertices the default ones, whose number of coordinates is
`tdim` (for a point: none); with vertices, their number is asserted and the geometric dimension is the
number of coordinates of the origin, which is the first of them (symfem/references.py:190-244 and
the constructors; a dual polygon is given its origin followed by its vertices, 2342-2347). -/
def build {P : Type} (coords : P → Nat) (c : Cell) (vertices : Option (List P)) : Except Err Made :=
  match vertices with
  | none => .ok ⟨c, c.tdim⟩
  | some vs =>
    let expected := match c with
      | .dualPolygon n => 1 + 2 * n
      | c => c.nverts
    if vs.length = expected then
      match vs with
      | [] => .error .indexError
      | v :: _ => .ok ⟨c, coords v⟩
    else .error .assertionError

/-- `create_reference` (symfem/create.py:64-99). -/
def createReference {P : Type} (coords : P → Nat) (s : String) (vertices : Option (List P)) :
    Except Err Made :=
  if s = "point" then build coords .point vertices
  else if s = "interval" then build coords .interval vertices
  else if s = "triangle" then build coords .triangle vertices
  else if s = "tetrahedron" then build coords .tetrahedron vertices
  else if s = "quadrilateral" then build coords .quadrilateral vertices
  else if s = "hexahedron" then build coords .hexahedron vertices
  else if s = "prism" then build coords .prism vertices
  else if s = "pyramid" then build coords .pyramid vertices
  else if "dual polygon".toList.isPrefixOf s.toList then
    match (Caching.splitOn '(' s.toList)[1]? with
    | none => .error .indexError
    | some rest =>
      match pyInt ((Caching.splitOn ')' rest).headD []) with
      | none => .error .valueError
      | some n => build coords (.dualPolygon n) vertices
  else .error .valueError

/-! ### Elements -/

/-- One half of `_order_is_allowed` (symfem/create.py:209-222): does `bad` hold of the limit that
applies to the cell? -/
def violates (bad : Int → Bool) (ref : String) : Option Limit → Bool
  | none => false
  | some (.all n) => bad n
  | some (.each l) =>
    match l.lookup ref with
    | none => false
    | some n => bad n

/-- `_order_is_allowed` (symfem/create.py:201-223). -/
def orderIsAllowed (c : ElementClass) (ref : String) (order : Int) : Bool :=
  if violates (fun n => decide (order < n)) ref c.minOrder then false
  else if violates (fun n => decide (order > n)) ref c.maxOrder then false
  else true

/-- `create_element` (symfem/create.py:102-198), up to the call of the constructor of the class:
the class, the cell and the order it is called with. -/
def createElement {P : Type} (coords : P → Nat) (s : Registry) (cellType elementType : String)
    (order : Int) (vertices : Option (List P)) : Except Err (ElementClass × Made × Int) :=
  match createReference coords cellType vertices with
  | .error e => .error e
  | .ok ref =>
    if ref.cell.tdim ≠ ref.gdim then .error .valueError
    else
      match s.map elementType with
      | none => .error .valueError
      | some m =>
        match m (cellName ref.cell) with
        | none => .error .valueError
        | some c =>
          if orderIsAllowed c (cellName ref.cell) order then .ok (c, ref, order)
          else .error .valueError

end Verif.Create
