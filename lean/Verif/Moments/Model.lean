import Verif.References.Model
import Mathlib.Data.Int.Notation
import Mathlib.Data.Nat.Notation
/-!
# Model of `symfem/moments.py`

The classes in the arguments are values with a name; what calling a class for a sub-element does is a parameter.
-/

namespace Verif.Moments
open Verif.References

/-- Keyword arguments. -/
abbrev Kwargs := List (String × String)

/-- The entries of a moment tuple. -/
inductive Item where
  | cls (name : String)
  | int (n : ℤ)
  | str (s : String)
  | dict (kwargs : Kwargs)

/-- The argument for one type of entity: a tuple, or a dictionary from cell names to arguments
(symfem/moments.py:10-20). -/
inductive Input where
  | single (items : List Item)
  | byName (entries : List (String × Input))

/-- What `_extract_moment_data` returns: the class of the moments, the class of the sub-element, its order, the mapping
and the keyword arguments. -/
structure Data where
  moment : String
  element : String
  order : ℤ
  mapping : Option String
  kwargs : Kwargs
  deriving DecidableEq

/-- `_extract_moment_data` for a tuple (symfem/moments.py:36-49).  `none` is an exception: `IndexError` for a tuple that
is too short, or a failed assertion. -/
def parse (items : List Item) : Option Data :=
  let rest : Option (Option String × Kwargs) :=
    match items.getLast?, items.dropLast.getLast? with
    | some (.dict kwargs), some (.str s) => some (some s, kwargs)
    | some (.dict kwargs), some _ => some (none, kwargs)
    | some (.dict _), none => none
    | some (.str s), _ => some (some s, [])
    | some _, _ => some (none, [])
    | none, _ => none
  rest.bind fun r =>
    match items with
    | .cls a :: .cls b :: .int n :: _ => some ⟨a, b, n, r.1, r.2⟩
    | _ => none

mutual
/-- `_extract_moment_data(moment_data, sub_type)` (symfem/moments.py:23-49); `none` is an exception. -/
def extract : Input → String → Option Data
  | .single items, _ => parse items
  | .byName entries, name => extractFrom entries name
/-- `_extract_moment_data(moment_data[sub_type], sub_type)`; `none` is `KeyError`. -/
def extractFrom : List (String × Input) → String → Option Data
  | [], _ => none
  | (key, input) :: rest, name => if key = name then extract input name else extractFrom rest name
end

/-- `Reference.name` (symfem/references.py:775-2346, the arguments `name=` of `__build__`). -/
def cellName : Cell → String
  | .point => "point"
  | .interval => "interval"
  | .triangle => "triangle"
  | .tetrahedron => "tetrahedron"
  | .quadrilateral => "quadrilateral"
  | .hexahedron => "hexahedron"
  | .prism => "prism"
  | .pyramid => "pyramid"
  | .dualPolygon _ => "dual polygon"

/-- A class of sub-elements: `min_order` and the basis functions and DOFs of the element on the default cell, `none`
for an exception. -/
structure ElementClass (X : Type) where
  minOrder : ℤ
  create : Cell → ℤ → Kwargs → Option (List X)

/-- A DOF `IntegralMoment(reference, f, d, (dim, i), mapping=...)`: the class, the basis function and the DOF of the
sub-element, the entity and the mapping, if one is given. -/
structure MomentDof (X : Type) where
  moment : String
  sub : X
  entity : ℕ × ℕ
  mapping : Option String

/-- The arguments of `make_integral_moment_dofs` (symfem/moments.py:52-62). -/
structure Args where
  vertices : Option Input := none
  edges : Option Input := none
  faces : Option Input := none
  volumes : Option Input := none
  cells : Option Input := none
  facets : Option Input := none
  ridges : Option Input := none
  peaks : Option Input := none

/-- `list[index]` of Python, with negative indices. -/
def pyGet {A : Type} (l : List A) (i : ℤ) : Option A :=
  if 0 ≤ i then l[i.toNat]? else if 0 ≤ i + l.length then l[(i + l.length).toNat]? else none

section
variable {X : Type} (classes : String → ElementClass X)

/-- One pass of the loop over the entities (symfem/moments.py:97-111). -/
def entityDofs (c : Cell) (input : Input) (dim i : ℕ) : Option (List (MomentDof X)) :=
  (c.subEntityType dim i).bind fun t => (extract input (cellName t)).bind fun d =>
    if d.order < (classes d.element).minOrder then some []
    else ((classes d.element).create t d.order d.kwargs).map fun xs =>
      xs.map fun x => ⟨d.moment, x, (dim, i), d.mapping⟩

/-- One pass of the loop over the dimensions (symfem/moments.py:91-111). -/
def slotDofs (c : Cell) (dim : ℤ) : Option Input → Option (List (MomentDof X))
  | none => some []
  | some input =>
    match pyGet c.subEntityTypes dim with
    | none => none
    | some .none => some []
    | some _ => if 0 < dim then
        (c.subEntities dim.toNat).bind fun entities =>
          ((List.range entities.length).mapM (entityDofs classes c input dim.toNat)).map List.flatten
      else none

/-- The list of the loop (symfem/moments.py:80-90). -/
def slots (c : Cell) (args : Args) : List (ℤ × Option Input) :=
  [(0, args.vertices), (1, args.edges), (2, args.faces), (3, args.volumes), ((c.tdim : ℤ) - 3, args.peaks),
    ((c.tdim : ℤ) - 2, args.ridges), ((c.tdim : ℤ) - 1, args.facets), ((c.tdim : ℤ), args.cells)]

/-- `make_integral_moment_dofs` (symfem/moments.py:52-112). -/
def makeIntegralMomentDofs (c : Cell) (args : Args) : Option (List (MomentDof X)) :=
  ((slots c args).mapM fun s => slotDofs classes c s.1 s.2).map List.flatten

end

end Verif.Moments
