/-!
# Model of `symfem/caching.py` and of the caching branch of `CiarletElement.get_dual_matrix`

Python strings are lists of characters.  `sympy.S` may raise; a raising call is `Except.error`.
The entry type `E`, its printer (`repr`) and its parser (`sympy.S`) are parameters; a concrete
instance for rational numbers is in `Rational.lean`.
-/

namespace Verif.Caching

/-- Python `str`. -/
abbrev Str := List Char

/-- Errors that the modelled functions can raise. -/
inductive Err where
  /-- `sympy.S` could not parse an entry (`SympifyError`). -/
  | parse
  /-- `sympy.Matrix` was given rows of different lengths (`ValueError`). -/
  | ragged
  /-- `Matrix.inv` of a singular matrix, or any other failure while computing the matrix. -/
  | compute
  deriving DecidableEq, Repr

/-- `c.join(parts)` for a one-character separator (used in `symfem/caching.py:73`). -/
def joinWith (c : Char) : List Str → Str
  | [] => []
  | [s] => s
  | s :: s' :: t => s ++ c :: joinWith c (s' :: t)

/-- `s.split(c)` for a one-character separator (used in `symfem/caching.py:85`). Like Python, the
result of splitting the empty string is the list holding one empty string. -/
def splitOn (c : Char) : Str → List Str
  | [] => [[]]
  | a :: t =>
    if a = c then [] :: splitOn c t
    else
      match splitOn c t with
      | [] => [[a]]
      | h :: r => (a :: h) :: r

/-- A `sympy.Matrix`: its shape and its rows. -/
structure Mat (E : Type) where
  rows : Nat
  cols : Nat
  data : List (List E)
  deriving DecidableEq, Repr

/-- The shape of the data agrees with `rows` and `cols`; true of every `sympy.Matrix`. -/
def Mat.WF {E : Type} (m : Mat E) : Prop :=
  m.data.length = m.rows ∧ ∀ r ∈ m.data, r.length = m.cols

/-- Printer and parser for matrix entries: `repr` of a sympy expression and `sympy.S` of a string. -/
structure Codec (E : Type) where
  print : E → Str
  parse : Str → Except Err E

section
variable {E : Type} (cd : Codec E)

/-- `matrix_to_string` (`symfem/caching.py:64-73`). -/
def matrixToString (m : Mat E) : Str :=
  joinWith ';' (m.data.map fun row => joinWith ',' (row.map cd.print))

/-- `sympy.Matrix(rows)` for a list of lists: raises when the rows have different lengths. -/
def mkMatrix (rows : List (List E)) : Except Err (Mat E) :=
  match rows with
  | [] => .ok ⟨0, 0, []⟩
  | r :: rs =>
    if rs.all (fun r' => r'.length == r.length) then .ok ⟨rs.length + 1, r.length, r :: rs⟩
    else .error .ragged

/-- `matrix_from_string` (`symfem/caching.py:76-85`). -/
def matrixFromString (s : Str) : Except Err (Mat E) :=
  match (splitOn ';' s).mapM (fun i => (splitOn ',' i).mapM cd.parse) with
  | .error e => .error e
  | .ok rows => mkMatrix rows

/-- The cache directory: file name to contents.  Directory handling (`caching.py:10-19`) is not
modelled. -/
abbrev Files := Str → Option Str

/-- The file name used by load and save (`symfem/caching.py:36-37` and `58-59`), without the
directory.  `digest` stands for `sha256(...).hexdigest()`. -/
def fileName (digest : Str → Str) (matrixType cacheId : Str) : Str :=
  matrixType ++ "1".toList ++ "-".toList ++ digest cacheId ++ ".matrix".toList

/-- `load_cached_matrix` (`symfem/caching.py:24-45`). `.ok none` is Python `None`. -/
def load (digest : Str → Str) (fs : Files) (matrixType cacheId : Str) (size : Nat × Nat) :
    Except Err (Option (Mat E)) :=
  match fs (fileName digest matrixType cacheId) with
  | none => .ok none
  | some text =>
    match matrixFromString cd text with
    | .error e => .error e
    | .ok mat => if mat.rows ≠ size.1 ∨ mat.cols ≠ size.2 then .ok none else .ok (some mat)

/-- Write `contents` to the file called `name`. -/
def writeFile (fs : Files) (name contents : Str) : Files :=
  fun n => if n = name then some contents else fs n

/-- `save_cached_matrix` (`symfem/caching.py:48-61`). -/
def save (digest : Str → Str) (fs : Files) (matrixType cacheId : Str) (m : Mat E) : Files :=
  writeFile fs (fileName digest matrixType cacheId) (matrixToString cd m)

/-- `save_cached_matrix` stopped by a crash after `k` characters were written
(`symfem/caching.py:60-61`: the file is opened with mode `"w"`, which empties it, and then
written in place). -/
def saveCrash (digest : Str → Str) (fs : Files) (matrixType cacheId : Str) (m : Mat E) (k : Nat) :
    Files :=
  writeFile fs (fileName digest matrixType cacheId) ((matrixToString cd m).take k)

/-- One operation on the cache. -/
inductive Op (E : Type) where
  | save (matrixType cacheId : Str) (m : Mat E)
  | load (matrixType cacheId : Str) (size : Nat × Nat)

/-- Run a history of operations, collecting the answers of the loads. -/
def runOps (digest : Str → Str) : Files → List (Op E) → List (Except Err (Option (Mat E)))
  | _, [] => []
  | fs, .save t i m :: ops => runOps digest (save cd digest fs t i m) ops
  | fs, .load t i sz :: ops => load cd digest fs t i sz :: runOps digest fs ops

/-- What the caching code needs to know about a Ciarlet element: the parts of the cache id, whether
the class allows caching, the number of DOFs, and the matrices it computes
(`compute inverse`, `symfem/finite_element.py:700-709`, may raise). -/
structure Elem (E : Type) where
  className : Str
  order : Str
  vertices : Str
  kwargs : Str
  lastUpdated : Str
  cacheFlag : Bool
  ndofs : Nat
  compute : Bool → Except Err (Mat E)

/-- The cache id (`symfem/finite_element.py:689-692`). The fields are the printed values. -/
def Elem.cacheId (e : Elem E) : Str :=
  e.className ++ ' ' :: e.order ++ ' ' :: e.vertices ++ ' ' :: e.kwargs ++ ' ' :: e.lastUpdated

/-- The matrix type used in the file name (`symfem/finite_element.py:693`). -/
def matrixType (inverse : Bool) : Str :=
  if inverse then "dualinv".toList else "dual".toList

/-- `CiarletElement.get_dual_matrix` (`symfem/finite_element.py:676-709`): the answer and the new
contents of the cache directory. -/
def getDualMatrix (digest : Str → Str) (fs : Files) (e : Elem E) (inverse caching : Bool) :
    Except Err (Mat E) × Files :=
  if caching && e.cacheFlag then
    match load cd digest fs (matrixType inverse) e.cacheId (e.ndofs, e.ndofs) with
    | .error err => (.error err, fs)
    | .ok (some mat) => (.ok mat, fs)
    | .ok none =>
      match e.compute inverse with
      | .error err => (.error err, fs)
      | .ok mat => (.ok mat, save cd digest fs (matrixType inverse) e.cacheId mat)
  else (e.compute inverse, fs)

/-- A call of `get_dual_matrix`. -/
structure Call (E : Type) where
  elem : Elem E
  inverse : Bool
  caching : Bool

/-- Run a history of calls that share one cache directory. -/
def runCalls (digest : Str → Str) : Files → List (Call E) → List (Except Err (Mat E))
  | _, [] => []
  | fs, c :: cs =>
    let r := getDualMatrix cd digest fs c.elem c.inverse c.caching
    r.1 :: runCalls digest r.2 cs

end

end Verif.Caching
