import Verif.References.Maps
import Mathlib.LinearAlgebra.Matrix.NonsingularInverse
import Mathlib.Algebra.Module.LinearMap.Defs
/-!
# Model of `symfem/finite_element.py`

Functions are elements of a vector space `V` over a field `K`.  A functional is a linear map
`V → K`; that the functional classes of `symfem/functionals.py` are linear is C53.  The sympy matrix
inverse is modelled by Mathlib's, `none` standing for the error sympy raises on a singular matrix.
-/

namespace Verif.FiniteElement
open scoped Classical

/-- What a Ciarlet element uses of a functional (symfem/functionals.py:80-131): its Python class,
its `entity`, its `mapping` and `eval_symbolic`. -/
structure Dof (K V : Type) [Field K] [AddCommGroup V] [Module K V] where
  kind : ℕ
  entity : ℕ × ℕ
  mapping : Option String
  eval : V →ₗ[K] K

/-- An element: `CiarletElement`, `DirectElement` or `EnrichedElement`
(symfem/finite_element.py:593-623, 885-908, 1103-1129). -/
inductive Element (K V : Type) [Field K] [AddCommGroup V] [Module K V] where
  | ciarlet (basis : List V) (dofs : List (Dof K V))
  | direct (functions : List V) (entities : List (ℕ × ℕ))
  | enriched (subelements : List (Element K V))

variable {K V W : Type} [Field K] [AddCommGroup V] [Module K V]

/-! ### Numbering -/

/-- `[i for i, j in enumerate(l) if j == e]` (symfem/finite_element.py:636, 919). -/
def matching (l : List (ℕ × ℕ)) (e : ℕ × ℕ) : List ℕ :=
  (l.zipIdx.filter fun p => p.1 = e).map fun p => p.2

mutual
/-- `space_dim`: `len(dofs)`, `len(basis_functions)` and `sum(e.space_dim for e in subelements)`
(symfem/finite_element.py:611, 906, 1125). -/
def spaceDim : Element K V → ℕ
  | .ciarlet _ dofs => dofs.length
  | .direct fs _ => fs.length
  | .enriched subs => spaceDims subs
/-- The sum over sub-elements. -/
def spaceDims : List (Element K V) → ℕ
  | [] => 0
  | e :: es => spaceDim e + spaceDims es
end

mutual
/-- `entity_dofs` (symfem/finite_element.py:625-636, 910-919, 1131-1146). -/
def entityDofs : Element K V → ℕ × ℕ → List ℕ
  | .ciarlet _ dofs, e => matching (dofs.map Dof.entity) e
  | .direct _ ents, e => matching ents e
  | .enriched subs, e => entityDofsFrom subs 0 e
/-- The loop of symfem/finite_element.py:1143-1145 with the running `start`. -/
def entityDofsFrom : List (Element K V) → ℕ → ℕ × ℕ → List ℕ
  | [], _, _ => []
  | s :: ss, start, e =>
    (entityDofs s e).map (start + ·) ++ entityDofsFrom ss (start + spaceDim s) e
end

mutual
/-- `dof_entities` (symfem/finite_element.py:653-659, 985-991, 1170-1179). -/
def dofEntities : Element K V → List (ℕ × ℕ)
  | .ciarlet _ dofs => dofs.map Dof.entity
  | .direct _ ents => ents
  | .enriched subs => dofEntitiesList subs
/-- The concatenation over sub-elements. -/
def dofEntitiesList : List (Element K V) → List (ℕ × ℕ)
  | [] => []
  | e :: es => dofEntities e ++ dofEntitiesList es
end

/-! ### Basis functions -/

/-- `get_dual_matrix(inverse=False)` (symfem/finite_element.py:700-705): row `b`, column `d` holds
functional `d` applied to polynomial `b`.  `n` is `len(dofs) = len(basis)`, asserted by the
constructor (symfem/finite_element.py:608). -/
def dualMatrix {n : ℕ} (basis : Fin n → V) (dofs : Fin n → V →ₗ[K] K) : Matrix (Fin n) (Fin n) K :=
  Matrix.of fun b d => dofs d (basis b)

/-- `mat.inv("LU")` (symfem/finite_element.py:706-707). -/
noncomputable def invLU {n : ℕ} (m : Matrix (Fin n) (Fin n) K) : Option (Matrix (Fin n) (Fin n) K) :=
  if IsUnit m.det then some m⁻¹ else none

/-- The sum built for one basis function (symfem/finite_element.py:728-731): the first entry times
the first polynomial, then a loop adding the others. -/
def combine : List K → List V → Option V
  | c :: cs, p :: ps => some ((cs.zip ps).foldl (fun sf cd => sf + cd.1 • cd.2) (c • p))
  | _, _ => none

/-- `get_basis_functions` without tensor factorisation (symfem/finite_element.py:711-740). -/
noncomputable def basisFunctions {n : ℕ} (basis : Fin n → V) (dofs : Fin n → V →ₗ[K] K) :
    Option (List V) :=
  match invLU (dualMatrix basis dofs) with
  | none => none
  | some minv =>
    (List.finRange n).mapM fun i =>
      combine ((List.finRange n).map fun k => minv i k) ((List.finRange n).map basis)

mutual
/-- `get_basis_functions` of the three kinds of element (symfem/finite_element.py:711-740, 993-1007,
1181-1200); `none` is an error. -/
noncomputable def getBasis : Element K V → Option (List V)
  | .ciarlet basis dofs =>
    if h : dofs.length = basis.length then
      basisFunctions (n := basis.length) (fun i => basis[i]) (fun i => (dofs[i.1]'(by have := i.2; omega)).eval)
    else none
  | .direct fs _ => some fs
  | .enriched subs => getBases subs
/-- The concatenation over sub-elements. -/
noncomputable def getBases : List (Element K V) → Option (List V)
  | [] => some []
  | e :: es =>
    match getBasis e, getBases es with
    | some a, some b => some (a ++ b)
    | _, _ => none
end

/-- The attribute `_basis_functions` of a Ciarlet element and a call of
`get_basis_functions(use_tensor_factorisation)` (symfem/finite_element.py:722-740): the value is
computed by the first call and stored, whichever way it was computed. -/
def callBasis (tensor direct : List V) (cache : Option (List V)) (useTensor : Bool) :
    List V × Option (List V) :=
  match cache with
  | some fs => (fs, some fs)
  | none => let fs := if useTensor then tensor else direct; (fs, some fs)

/-- The values returned by a sequence of calls on one element object. -/
def callsBasis (tensor direct : List V) : Option (List V) → List Bool → List (List V)
  | _, [] => []
  | cache, b :: bs =>
    let r := callBasis tensor direct cache b
    r.1 :: callsBasis tensor direct r.2 bs

/-! ### Tabulation -/

/-- Python `zip(*rows)`: the columns, as many as the shortest row. -/
def zipStar {α : Type} (rows : List (List α)) : List (List α) :=
  match rows with
  | [] => []
  | r :: rs =>
    (List.range (rs.foldl (fun m l => min m l.length) r.length)).map fun c =>
      (r :: rs).filterMap (·[c]?)

/-- A row of the result of `tabulate_basis`: one value per entry, or one tuple per entry. -/
inductive Row (K : Type)
  | flat (l : List K)
  | nested (l : List (List K))

/-- `tabulate_basis` on one row (symfem/finite_element.py:252-276).  `row` holds the components of
each basis function at the point; with `range_dim = 1` each has one component and the row is a tuple
of values.  `none` is `ValueError`. -/
def tabulateRow (rangeDim : ℕ) (order : String) (row : List (List K)) : Option (Row K) :=
  if rangeDim = 1 then some (.flat row.flatten)
  else if order = "xyz,xyz" then some (.nested row)
  else if order = "xxyyzz" then some (.flat (zipStar row).flatten)
  else if order = "xx,yy,zz" then some (.nested (zipStar row))
  else if order = "xyzxyz" then some (.flat row.flatten)
  else none

/-- `tabulate_basis` (symfem/finite_element.py:237-276); `value f p` lists the components of the
function `f` at the point `p`. -/
def tabulate {P : Type} (value : V → P → List K) (rangeDim : ℕ) (order : String) (fs : List V)
    (points : List P) : Option (List (Row K)) :=
  points.mapM fun p => tabulateRow rangeDim order (fs.map fun f => value f p)

/-! ### Mapping to a cell -/

/-- Errors raised while mapping. -/
inductive MapErr
  /-- `MappingNotImplemented`. -/
  | notImplemented
  /-- `AssertionError`: the functional has no mapping. -/
  | noMapping
  /-- `IndexError`: the list of basis functions is too short. -/
  | index
  /-- The basis functions cannot be computed. -/
  | compute
  deriving DecidableEq

/-- What mapping depends on besides the element: the functions of `symfem/mappings.py` by name,
already applied to the maps; the functional classes that override `perform_mapping` to raise
`MappingNotImplemented` (symfem/functionals.py:434-447, 1176-1189); `map_pieces` on piecewise
functions (the identity on others); the zero function; and the result of making the element again on
the new cell. -/
structure Cellwise (V W : Type) where
  maps : String → V → Except MapErr W
  overrides : ℕ → Bool
  mapPieces : W → W
  zero : W

/-- `perform_mapping` (symfem/functionals.py:117-131 and the overrides). -/
def performMapping (cw : Cellwise V W) (kind : ℕ) (mapping : Option String) (fs : List V) :
    Except MapErr (List W) :=
  if cw.overrides kind then .error .notImplemented
  else
    match mapping with
    | none => .error .noMapping
    | some name => fs.mapM (cw.maps name)

/-- Adding one DOF number to the dictionary `dofs_by_type` (symfem/finite_element.py:816-821). -/
def addGroup (t : ℕ × Option String) (d : ℕ) :
    List ((ℕ × Option String) × List ℕ) → List ((ℕ × Option String) × List ℕ)
  | [] => [(t, [d])]
  | (t', ds) :: rest => if t' = t then (t', ds ++ [d]) :: rest else (t', ds) :: addGroup t d rest

/-- The dictionary `dofs_by_type` of one entity (symfem/finite_element.py:813-821). -/
def groups (dofs : List (Dof K V)) (ds : List ℕ) : List ((ℕ × Option String) × List ℕ) :=
  ds.foldl (fun g d =>
    match dofs[d]? with
    | some dof => addGroup (dof.kind, dof.mapping) d g
    | none => g) []

/-- The treatment of one group (symfem/finite_element.py:822-828). -/
def mapGroup (cw : Cellwise V W) (basis : List V) (t : ℕ × Option String) (ds : List ℕ)
    (functions : List W) : Except MapErr (List W) :=
  match ds.mapM (fun d => basis[d]?) with
  | none => .error .index
  | some fs =>
    match performMapping cw t.1 t.2 fs with
    | .error e => .error e
    | .ok mapped => .ok ((ds.zip mapped).foldl (fun out p => out.set p.1 p.2) functions)

/-- The loop over the groups of one entity. -/
def mapGroups (cw : Cellwise V W) (basis : List V) :
    List ((ℕ × Option String) × List ℕ) → List W → Except MapErr (List W)
  | [], fs => .ok fs
  | g :: gs, fs =>
    match mapGroup cw basis g.1 g.2 fs with
    | .error e => .error e
    | .ok fs' => mapGroups cw basis gs fs'

/-- The loop over the entities (symfem/finite_element.py:809-811). -/
def mapEntities (cw : Cellwise V W) (dofs : List (Dof K V)) (basis : List V) :
    List (ℕ × ℕ) → List W → Except MapErr (List W)
  | [], fs => .ok fs
  | e :: es, fs =>
    match mapGroups cw basis (groups dofs (matching (dofs.map Dof.entity) e)) fs with
    | .error err => .error err
    | .ok fs' => mapEntities cw dofs basis es fs'

/-- The entities of a cell in the order of the loops of symfem/finite_element.py:809-810. -/
def cellEntities (c : References.Cell) : List (ℕ × ℕ) :=
  (List.range (c.tdim + 1)).flatMap fun dim =>
    (List.range ((c.subEntityCount dim).getD 0)).map fun e => (dim, e)

/-- `CiarletElement.map_to_cell` once the maps and the functions are known
(symfem/finite_element.py:807-839).  `recreate` is the result of the last three lines. -/
def mapCiarlet (cw : Cellwise V W) (recreate : Except MapErr (List W)) (c : References.Cell)
    (dofs : List (Dof K V)) (basis : List V) : Except MapErr (List W) :=
  match mapEntities cw dofs basis (cellEntities c) (basis.map fun _ => cw.zero) with
  | .ok fs => .ok (fs.map cw.mapPieces)
  | .error .notImplemented => recreate
  | .error e => .error e

mutual
/-- `map_to_cell` of the three kinds of element (symfem/finite_element.py:783-839, 1009-1032,
1202-1224).  `given` is the argument `basis`. -/
noncomputable def mapToCell (cw : Cellwise V W) (recreate : Element K V → Except MapErr (List W))
    (c : References.Cell) (given : Option (List V)) : Element K V → Except MapErr (List W)
  | .ciarlet basis dofs =>
    match given with
    | some fs => mapCiarlet cw (recreate (.ciarlet basis dofs)) c dofs fs
    | none =>
      match getBasis (.ciarlet basis dofs) with
      | none => .error .compute
      | some fs => mapCiarlet cw (recreate (.ciarlet basis dofs)) c dofs fs
  | .direct _ _ => .error .notImplemented
  | .enriched subs => mapAll cw recreate c given subs
/-- The loop of symfem/finite_element.py:1221-1223. -/
noncomputable def mapAll (cw : Cellwise V W) (recreate : Element K V → Except MapErr (List W))
    (c : References.Cell) (given : Option (List V)) :
    List (Element K V) → Except MapErr (List W)
  | [] => .ok []
  | e :: es =>
    match mapToCell cw recreate c given e with
    | .error err => .error err
    | .ok a =>
      match mapAll cw recreate c given es with
      | .error err => .error err
      | .ok b => .ok (a ++ b)
end

/-! ### Plot positions of direct elements -/

/-- The loop `while ne * (ne + 1) // 2 < count: ne += 1` (symfem/finite_element.py:945-946). -/
def growTri (count ne : ℕ) : ℕ :=
  if ne * (ne + 1) / 2 < count then growTri count (ne + 1) else ne
termination_by count - ne
decreasing_by
  rename_i h
  have : ne ≤ ne * (ne + 1) / 2 := by
    rcases Nat.eq_zero_or_pos ne with rfl | hp
    · simp
    · rw [Nat.le_div_iff_mul_le (by norm_num)]; nlinarith
  omega

/-- The loop `while entity_n >= ne - i` (symfem/finite_element.py:947-950) from `i`; it returns
`(entity_n, i)`.  Python would never leave the loop once `i` reaches `ne`; here the loop stops. -/
def rowLoop (ne : ℕ) (entityN i : ℕ) : ℕ × ℕ :=
  if i < ne ∧ ne - i ≤ entityN then rowLoop ne (entityN - (ne - i)) (i + 1) else (entityN, i)
termination_by ne - i

/-- The loops of the three-dimensional case (symfem/finite_element.py:958-968) on Python integers,
with a bound on the number of steps; `none` if the bound is not enough. -/
def planeLoop (ne : ℤ) : ℕ → ℤ → ℤ → Option (ℤ × ℤ)
  | 0, _, _ => none
  | fuel + 1, e, i =>
    if e ≥ (ne - i) * (ne + 1 - i) / 2 then
      planeLoop ne fuel (e - (ne - i) * (ne + 1 - i) / 2) (i + 1)
    else some (e, i)

/-- `while entity_n >= ne - j`, likewise. -/
def lineLoop (ne : ℤ) : ℕ → ℤ → ℤ → Option (ℤ × ℤ)
  | 0, _, _ => none
  | fuel + 1, e, j => if e ≥ ne - j then lineLoop ne fuel (e - (ne - j)) (j + 1) else some (e, j)

/-- `while ne * (ne + 1) * (ne + 2) // 6 < n: ne += 1` with a bound on the number of steps. -/
def growTet (n : ℕ) : ℕ → ℕ → Option ℕ
  | 0, _ => none
  | fuel + 1, ne => if ne * (ne + 1) * (ne + 2) / 6 < n then growTet n fuel (ne + 1) else some ne

/-- The position of DOF `n`, which is number `entityN` of the `count` DOFs of an entity of dimension
`dim` with the given origin and axes (symfem/finite_element.py:933-975). -/
def plotPosition (fuel dim entityN count n : ℕ) (o : ℕ → K) (ax : ℕ → ℕ → K) : Option (ℕ → K) :=
  match dim with
  | 0 => if entityN = 0 then some o else none
  | 1 => some fun j => o j + ((entityN : K) + 1) * ax 0 j / ((count : K) + 1)
  | 2 =>
    let ne := growTri count 1
    let r := rowLoop ne entityN 0
    some fun j => o j + (((r.1 : K) + 1) * ax 0 j + ((r.2 : K) + 1) * ax 1 j) / ((ne : K) + 1)
  | 3 =>
    match growTet n fuel 1 with
    | none => none
    | some ne =>
      match planeLoop ne fuel entityN 0 with
      | none => none
      | some (e, i) =>
        match lineLoop ne fuel e 0 with
        | none => none
        | some (e, l) =>
          some fun j => o j + (((e : K) + 1) * ax 0 j + ((l : K) + 1) * ax 1 j +
            ((i : K) + 1) * ax 2 j) / ((n : K) + 1)
  | _ => none

/-- `DirectElement.dof_plot_positions` (symfem/finite_element.py:922-977).  `geom` gives the origin
and axes of each sub-entity (of a point, its vertex). -/
def plotPositions (fuel : ℕ) (ents : List (ℕ × ℕ)) (geom : ℕ × ℕ → (ℕ → K) × (ℕ → ℕ → K)) :
    Option (List (ℕ → K)) :=
  ents.zipIdx.mapM fun p =>
    plotPosition fuel p.1.1 ((matching ents p.1).idxOf p.2) (matching ents p.1).length p.2
      (geom p.1).1 (geom p.1).2

end Verif.FiniteElement
