import Verif.References.Shape
import Mathlib.Analysis.Real.Sqrt
import Mathlib.Data.List.Sort
/-!
# Pictures (symfem/plotting.py) and the functions that draw them

Coordinates are real numbers; the conversions to floating point numbers are left out.  The output is modelled by the
list of drawn shapes with the numbers in it, not by the text.  `none` is an exception, or a division by zero.
-/

namespace Verif.Plotting
open Verif.References

/-- A point of a picture. -/
abbrev Pt := ℝ × ℝ

/-! ### Elements of a picture -/

/-- The subclasses of `PictureElement` (symfem/plotting.py:209-662). -/
inductive Shape
  /-- `Line` (symfem/plotting.py:209-225). -/
  | line (start stop : Pt) (color : String) (width : ℝ)
  /-- `Bezier` (symfem/plotting.py:269-297). -/
  | bezier (start mid1 mid2 stop : Pt) (color : String) (width : ℝ)
  /-- `Arrow` (symfem/plotting.py:347-363). -/
  | arrow (start stop : Pt) (color : String) (width : ℝ)
  /-- `NCircle` (symfem/plotting.py:429-473). -/
  | ncircle (centre : Pt) (number : ℕ) (color textColor fillColor : String) (radius : ℝ)
  /-- `Fill` (symfem/plotting.py:522-535). -/
  | fill (vertices : List Pt) (color : String) (opacity : ℝ)
  /-- `Math` (symfem/plotting.py:575-603). -/
  | math (point : Pt) (text color anchor : String)

/-- The property `points` of each class (symfem/plotting.py:260-266, 338-344, 420-426, 513-519, 566-572, 656-662). -/
def Shape.points : Shape → List Pt
  | .line s e _ _ => [s, e]
  | .bezier s _ _ e _ _ => [s, e]
  | .arrow s e _ _ => [s, e]
  | .ncircle c _ _ _ _ _ => [c]
  | .fill vs _ _ => vs
  | .math p _ _ _ => [p]

/-- `min(...)`; the minimum of an empty sequence is an error. -/
noncomputable def minOf : List ℝ → Option ℝ
  | [] => none
  | a :: l => some (l.foldl min a)

/-- `max(...)`. -/
noncomputable def maxOf : List ℝ → Option ℝ
  | [] => none
  | a :: l => some (l.foldl max a)

/-- `minx` (symfem/plotting.py:176-182). -/
noncomputable def Shape.minx (s : Shape) : Option ℝ := minOf (s.points.map Prod.fst)
/-- `miny` (symfem/plotting.py:184-190). -/
noncomputable def Shape.miny (s : Shape) : Option ℝ := minOf (s.points.map Prod.snd)
/-- `maxx` (symfem/plotting.py:192-198). -/
noncomputable def Shape.maxx (s : Shape) : Option ℝ := maxOf (s.points.map Prod.fst)
/-- `maxy` (symfem/plotting.py:200-206). -/
noncomputable def Shape.maxy (s : Shape) : Option ℝ := maxOf (s.points.map Prod.snd)

/-! ### Pictures -/

/-- `Picture` (symfem/plotting.py:665-742), without the texts. -/
structure Picture where
  padding : ℝ := 25
  scale : Option ℤ := none
  width : Option ℤ := none
  height : Option ℤ := none
  axes : ℕ → Pt
  arrowSize : ℝ := 1
  elements : List Shape := []

/-- `_default_axes` (symfem/plotting.py:697-701). -/
noncomputable def defaultAxes : ℕ → Pt
  | 0 => (1, -(2 / 25))
  | 1 => (1 / 2, 1 / 5)
  | _ => (0, 1)

namespace Picture
variable (pic : Picture)

/-- `to_2d` (symfem/plotting.py:759-780). -/
noncomputable def toTwoD (p : List ℝ) : Option (List ℝ) :=
  match p with
  | [] => some [0, 0]
  | [a] => some [a, 0]
  | [a, b] => some [a, b]
  | [a, b, c] => some [(pic.axes 0).1 * a + (pic.axes 1).1 * b + (pic.axes 2).1 * c,
      (pic.axes 0).2 * a + (pic.axes 1).2 * b + (pic.axes 2).2 * c]
  | _ => none

/-- `parse_point` (symfem/plotting.py:782-796). -/
noncomputable def parsePoint (p : List ℝ) : Option Pt := (pic.toTwoD p).map fun q => (q.getD 0 0, q.getD 1 0)

open scoped Classical in
/-- `z` (symfem/plotting.py:744-757). -/
noncomputable def z (p : List ℝ) : Option ℝ :=
  (pic.toTwoD p).bind fun q =>
    if q.length = 3 then if pic.axes = defaultAxes then some (q.getD 0 0 - 2 * q.getD 1 0) else none else some 0

/-- `self.elements.append`. -/
def add (l : List Shape) : Picture := { pic with elements := pic.elements ++ l }

/-- The element added by `add_line` (symfem/plotting.py:798-813). -/
noncomputable def lineShape (s e : List ℝ) (color : String) (width : ℝ := 4) : Option Shape :=
  (pic.parsePoint s).bind fun s => (pic.parsePoint e).map fun e => .line s e color width

/-- The element added by `add_bezier` (symfem/plotting.py:815-843). -/
noncomputable def bezierShape (s m1 m2 e : List ℝ) (color : String) (width : ℝ := 4) : Option Shape :=
  (pic.parsePoint s).bind fun s => (pic.parsePoint m1).bind fun m1 => (pic.parsePoint m2).bind fun m2 =>
    (pic.parsePoint e).map fun e => .bezier s m1 m2 e color width

/-- The element added by `add_arrow` (symfem/plotting.py:845-860). -/
noncomputable def arrowShape (s e : List ℝ) (color : String) (width : ℝ := 4) : Option Shape :=
  (pic.parsePoint s).bind fun s => (pic.parsePoint e).map fun e => .arrow s e color width

/-- The element added by `add_ncircle` (symfem/plotting.py:904-941). -/
noncomputable def ncircleShape (p : List ℝ) (n : ℕ) (color : String := "red") (textColor : String := "#000000")
    (fillColor : String := "#FFFFFF") (radius : ℝ := 20) : Option Shape :=
  (pic.parsePoint p).map fun c => .ncircle c n color textColor fillColor radius

/-- The element added by `add_math` (symfem/plotting.py:943-960). -/
noncomputable def mathShape (p : List ℝ) (text anchor : String) (color : String := "#000000") : Option Shape :=
  (pic.parsePoint p).map fun q => .math q text color anchor

/-- The element added by `add_fill` (symfem/plotting.py:962-970). -/
noncomputable def fillShape (vs : List (List ℝ)) (color : String := "red") (opacity : ℝ := 1) : Option Shape :=
  (vs.mapM pic.parsePoint).map fun l => .fill l color opacity

/-- The element added by `add_dof_marker` (symfem/plotting.py:862-874). -/
noncomputable def markerShape (p : List ℝ) (n : ℕ) (color : String) (bold : Bool := true) : Option Shape :=
  if bold then pic.ncircleShape p n "#000000" "#000000" color else pic.ncircleShape p n color color "#FFFFFF"

/-- The elements added by `add_dof_arrow` (symfem/plotting.py:876-902): an arrow and a marker. -/
noncomputable def dofArrowShapes (p dir : List ℝ) (n : ℕ) (color : String := "#DD2299") (shifted : Bool := false)
    (bold : Bool := true) : Option (List Shape) :=
  (pic.parsePoint dir).bind fun d =>
    let norm : ℝ := √(d.1 ^ 2 + d.2 ^ 2)
    if norm = 0 then none else
    let v : Pt := (d.1 / (8 * norm) * pic.arrowSize, d.2 / (8 * norm) * pic.arrowSize)
    (pic.parsePoint p).bind fun s =>
      let s : Pt := if shifted then (s.1 + v.1 / 3, s.2 + v.2 / 3) else s
      (pic.arrowShape [s.1, s.2] [s.1 + v.1, s.2 + v.2] color).bind fun a =>
        (pic.markerShape [s.1, s.2] n color bold).map fun m => [a, m]

/-! ### Scaling -/

/-- What `compute_scale` returns. -/
structure Scaled where
  scale : ℝ
  height : ℝ
  width : ℝ
  map : Pt → Pt

/-- The number of pixels per unit (symfem/plotting.py:994-1004). -/
noncomputable def unscaled (minx miny maxx maxy : ℝ) : Option ℝ :=
  match pic.scale, pic.width, pic.height with
  | some s, none, none => some s
  | some _, _, _ => none
  | none, some w, none => if maxx - minx = 0 then none else some (w / (maxx - minx))
  | none, some _, some _ => none
  | none, none, some h => if maxy - miny = 0 then none else some (h / (maxy - miny))
  | none, none, none => some 450

/-- The units (symfem/plotting.py:1006-1013). -/
noncomputable def unitScale (unit : String) (scale : ℝ) : Option ℝ :=
  if unit = "mm" then some (scale / 20)
  else if unit = "cm" then some (scale / 200)
  else if unit = "px" then some scale
  else none

/-- `compute_scale` (symfem/plotting.py:972-1035). -/
noncomputable def computeScale (unit : String) (reverseY : Bool) : Option Scaled :=
  ((pic.elements.mapM Shape.minx).bind minOf).bind fun minx =>
  ((pic.elements.mapM Shape.miny).bind minOf).bind fun miny =>
  ((pic.elements.mapM Shape.maxx).bind maxOf).bind fun maxx =>
  ((pic.elements.mapM Shape.maxy).bind maxOf).bind fun maxy =>
  ((pic.unscaled minx miny maxx maxy).bind (unitScale unit)).map fun scale =>
    let width := 2 * pic.padding + (maxx - minx) * scale
    let height := 2 * pic.padding + (maxy - miny) * scale
    ⟨scale, height, width, fun p =>
      if reverseY then (pic.padding + (p.1 - minx) * scale, height - pic.padding - (p.2 - miny) * scale)
      else (pic.padding + (p.1 - minx) * scale, pic.padding + (p.2 - miny) * scale)⟩

/-! ### SVG -/

/-- The tags of the SVG format that are used. -/
inductive Svg
  | line (a b : Pt) (color : String) (width : ℝ)
  | path (s m1 m2 e : Pt) (color : String) (width : ℝ)
  | circle (c : Pt) (radius : ℝ) (stroke fill : String)
  | text (p : Pt) (color text : String)
  | polygon (l : List Pt) (color : String)

/-- The two points at the back of the head of an arrow (symfem/plotting.py:382-392); an arrow of length zero divides by
zero. -/
noncomputable def arrowHead (s e : Pt) (width : ℝ) : Option (List Pt) :=
  let norm : ℝ := √((e.1 - s.1) ^ 2 + (e.2 - s.2) ^ 2)
  if norm = 0 then none else
  let v : Pt := ((e.1 - s.1) / norm / 30, (e.2 - s.2) / norm / 30)
  let perp : Pt := (-v.2 / (5 / 2), v.1 / (5 / 2))
  some [(e.1 - (v.1 + perp.1) * width / 4, e.2 - (v.2 + perp.2) * width / 4),
    (e.1 - (v.1 - perp.1) * width / 4, e.2 - (v.2 - perp.2) * width / 4)]

/-- `as_svg` of the elements (symfem/plotting.py:227-241, 299-316, 365-400, 475-492, 537-548, 605-638). -/
noncomputable def shapeSvg (m : Pt → Pt) : Shape → Option (List Svg)
  | .line s e c w => some [.line (m s) (m e) c w]
  | .bezier s m1 m2 e c w => some [.path (m s) (m m1) (m m2) (m e) c w]
  | .arrow s e c w => (arrowHead s e w).map fun l => .line (m s) (m e) c w :: l.map fun p => .line (m p) (m e) c w
  | .ncircle p n c t f r => some [.circle (m p) r c f, .text (m p) t (toString n)]
  | .fill vs c _ => some [.polygon (vs.map m) c]
  | .math p t c _ => some [.text (m p) c t]

/-- `as_svg` of the picture (symfem/plotting.py:1037-1069): the width, the height and the contents. -/
noncomputable def asSvg : Option (ℝ × ℝ × List Svg) :=
  (pic.computeScale "px" true).bind fun s =>
    (pic.elements.mapM (shapeSvg s.map)).map fun l => (s.width, s.height, l.flatten)

/-- The scale used by `as_png` (symfem/plotting.py:1092-1101). -/
noncomputable def pngScale (pngScale : Option ℝ) (pngWidth pngHeight : Option ℤ) : Option ℝ :=
  match pngScale, pngWidth, pngHeight with
  | some s, none, none => some s
  | some _, _, _ => none
  | none, some w, none => (pic.computeScale "px" true).bind fun s => if s.width = 0 then none else some (w / s.width)
  | none, some _, some _ => none
  | none, none, some h => (pic.computeScale "px" true).bind fun s => if s.height = 0 then none else some (h / s.height)
  | none, none, none => some 1

/-- The size of the image written by `as_png` (symfem/plotting.py:1103-1105): `svg2png` multiplies the size of the SVG by
the scale. -/
noncomputable def pngSize (s : Option ℝ) (w h : Option ℤ) : Option (ℝ × ℝ) :=
  (pic.pngScale s w h).bind fun k => pic.asSvg.map fun svg => (k * svg.1, k * svg.2.1)

end Picture

/-! ### Colours in TikZ -/

/-- `Colors._tikz`: a dictionary in insertion order (symfem/plotting.py:81-83). -/
abbrev Colors := List (String × String)

/-- `get_tikz_name` (symfem/plotting.py:104-117): the name and the dictionary after the call. -/
def tikzName (t : Colors) (name : String) : String × Colors :=
  if name.startsWith "#" then
    match t.lookup name with
    | some b => (b, t)
    | none => ("customcolor" ++ toString t.length, t ++ [(name, "customcolor" ++ toString t.length)])
  else (name, t)

/-- The colours passed to `get_tikz_name` by `as_tikz` of the elements, in order (symfem/plotting.py:243-258, 318-336,
402-418, 494-511, 550-564, 640-654). -/
def Shape.tikzColors : Shape → List String
  | .line _ _ c _ => [c]
  | .bezier _ _ _ _ c _ => [c]
  | .arrow _ _ c _ => [c]
  | .ncircle _ _ c t f _ => [c, f, t]
  | .fill _ c _ => [c]
  | .math _ _ c _ => [c]

/-- The calls of `get_tikz_name` for a list of colours. -/
def tikzNames : Colors → List String → List String × Colors
  | t, [] => ([], t)
  | t, c :: l =>
    let r := tikzName t c
    let s := tikzNames r.2 l
    (r.1 :: s.1, s.2)

/-- `get_tikz_definitions` (symfem/plotting.py:119-130): the name and the colour of each `\definecolor`; the character
`#` is removed in the output. -/
def tikzDefinitions (t : Colors) : List (String × String) := t.map fun ab => (ab.2, ab.1)

/-- The definitions, and the name of each colour that is used, in the output of `as_tikz` (symfem/plotting.py:1106-1131),
and the dictionary after the call. -/
def asTikz (t : Colors) (elements : List Shape) : List (String × String) × List String × Colors :=
  let r := tikzNames t (elements.flatMap Shape.tikzColors)
  (tikzDefinitions r.2, r.1, r.2)

/-! ### Saving -/

/-- The kinds of files. -/
inductive Format | svg | png | tex
  deriving DecidableEq

/-- The files that exist, by name. -/
abbrev Files := String → Option Format

/-- `save` with one name (symfem/plotting.py:1149-1161), for pictures that can be converted. -/
def saveOne (fs : Files) (name : String) : Option Files :=
  if name.endsWith ".svg" then some (Function.update fs name (some .svg))
  else if name.endsWith ".png" then some (Function.update fs name (some .png))
  else if name.endsWith ".tex" then some (Function.update fs name (some .tex))
  else none

/-- `save` with a list of names (symfem/plotting.py:1133-1149): the `return` is in the loop.  With an empty list, the
assertion after the loop fails. -/
def saveList (fs : Files) : List String → Option Files
  | [] => none
  | name :: _ => saveOne fs name

/-! ### The order of drawing -/

/-- `z_ordered_entities` (symfem/references.py:354-360, 1258-1268, 1708-1720, 1933-1945, 2146-2158). -/
def zOrdered : Cell → List (List (ℕ × ℕ))
  | .tetrahedron => [[(2, 0), (2, 1), (2, 3), (1, 0), (1, 2), (1, 4), (0, 2)], [(3, 0)],
      [(2, 2), (1, 1), (1, 3), (1, 5), (0, 0), (0, 1), (0, 3)]]
  | .hexahedron => [[(2, 4), (2, 0), (1, 5), (2, 2), (1, 6), (1, 1), (0, 2)], [(3, 0)], [(2, 3), (1, 3), (1, 7), (0, 3)],
      [(2, 1), (1, 0), (1, 2), (1, 4), (0, 0), (0, 1)],
      [(2, 5), (1, 8), (1, 9), (1, 10), (1, 11), (0, 4), (0, 5), (0, 6), (0, 7)]]
  | .prism => [[(2, 0), (2, 3), (1, 3)], [(2, 2), (1, 1), (1, 5), (0, 2)], [(3, 0)],
      [(2, 1), (1, 0), (1, 2), (1, 4), (0, 0), (0, 1)], [(2, 4), (1, 6), (1, 7), (1, 8), (0, 3), (0, 4), (0, 5)]]
  | .pyramid => [[(2, 0), (2, 4), (1, 5)], [(2, 2), (1, 1), (1, 6), (0, 2)], [(3, 0)], [(2, 3), (1, 3), (1, 7), (0, 3)],
      [(2, 1), (1, 0), (1, 2), (1, 4), (0, 0), (0, 1), (0, 4)]]
  | c => [(List.range (c.tdim + 1)).reverse.flatMap fun i =>
      (List.range ((c.subEntityCount i).getD 0)).map fun j => (i, j)]

/-- `z_ordered_entities_extra_dim` (symfem/references.py:362-368, 1116-1122, 1500-1506, 2465-2476). -/
def zOrderedExtra : Cell → List (List (ℕ × ℕ))
  | .triangle => [[(1, 0), (1, 1)], [(0, 2)], [(2, 0), (1, 2), (0, 0), (0, 1)]]
  | .quadrilateral => [[(1, 3), (1, 1), (0, 2)], [(2, 0)], [(1, 2), (0, 3), (1, 0), (0, 0), (0, 1)]]
  | .dualPolygon t =>
    let N := 2 * t
    let n := (t + 1) / 2 * 2
    [((List.range n).map fun i => (1, i)) ++ (List.range' 1 (n - 1)).map fun i => (0, i),
      [(2, 0)] ++ ((List.range' n (N - n)).map fun i => (1, i)) ++ [(0, 0)] ++ (List.range' n (N - n)).map fun i => (0, i)]
  | c => zOrdered c

/-- The numbers of the vertices listed by `clockwise_vertices` (symfem/references.py:242-248, 1250-1256, 1439-1445,
1693-1706, 1919-1931, 2138-2144). -/
def clockwise : Cell → List ℕ
  | .tetrahedron => [0, 1, 3]
  | .quadrilateral => [0, 1, 3, 2]
  | .hexahedron => [0, 1, 3, 7, 6, 4]
  | .prism => [0, 1, 4, 5, 3]
  | .pyramid => [0, 1, 3, 4]
  | c => List.range c.nverts

/-- `Colors.entity` (symfem/plotting.py:85-102). -/
def entityColor : ℕ → Option String
  | 0 => some "#FF8800"
  | 1 => some "#44AAFF"
  | 2 => some "#55FF00"
  | 3 => some "#DD2299"
  | _ => none

/-! ### Diagrams of the DOFs -/

/-- What a diagram shows of a DOF: `dof_plot_positions`, `dof_directions` and `dof_entities`
(symfem/finite_element.py:637-659, 922-993, 1148-1179). -/
structure DofInfo where
  position : List ℝ
  direction : Option (List ℝ)
  entity : ℕ × ℕ

section diagram
variable (pic : Picture) (c : Cell) (verts : List (List ℝ))

/-- `tuple(self.reference.vertices[i] for i in l)`. -/
def vertexList (l : List ℕ) : Option (List (List ℝ)) := l.mapM fun i => verts[i]?

/-- `(pts[0], pts[1], pts[3], pts[2])` if there are four points (symfem/finite_element.py:176-177). -/
def quadOrder {A : Type} : List A → List A
  | [p0, p1, p2, p3] => [p0, p1, p3, p2]
  | l => l

/-- The lines and polygons of the diagram (symfem/finite_element.py:171-179). -/
noncomputable def outline (de : ℕ × ℕ) : Option (List Shape) :=
  if de.1 = 1 then
    (c.edges[de.2]?).bind fun l => (vertexList verts l).bind fun pts =>
      (pts[0]?).bind fun p => (pts[1]?).bind fun q => (pic.lineShape p q "#000000").map fun s => [s]
  else if de.1 = 2 then
    (c.faces[de.2]?).bind fun l => (vertexList verts l).bind fun pts =>
      (pic.fillShape (quadOrder pts) "#FFFFFF" (1 / 2)).map fun s => [s]
  else some []

open scoped Classical in
/-- The shapes of one DOF (symfem/finite_element.py:187-197).  `d != d2` compares a tuple to a number, so it is always
true. -/
noncomputable def dofShapes (dofs : List DofInfo) (d : DofInfo × ℕ) : Option (List Shape) :=
  (entityColor d.1.entity.1).bind fun color =>
    match d.1.direction with
    | some dir => pic.dofArrowShapes d.1.position dir d.2 color (dofs.any fun p => decide (d.1.position = p.position))
    | none => (pic.markerShape d.1.position d.2 color).map fun s => [s]

/-- `entity_dofs` (symfem/finite_element.py:625-635, 910-920, 1131-1146), with the numbers. -/
def entityDofs (dofs : List DofInfo) (de : ℕ × ℕ) : List (DofInfo × ℕ) :=
  dofs.zipIdx.filter fun d => decide (d.1.entity = de)

open scoped Classical in
/-- The DOFs of one entity, sorted (symfem/finite_element.py:181-197). -/
noncomputable def sortedDofs (dofs : List DofInfo) (de : ℕ × ℕ) : Option (List (DofInfo × ℕ)) :=
  ((entityDofs dofs de).mapM fun d => (pic.z d.1.position).map fun z => (z, d)).map fun l =>
    (l.insertionSort fun a b => a.1 ≤ b.1).map Prod.snd

/-- One group of entities (symfem/finite_element.py:170-197). -/
noncomputable def groupShapes (dofs : List DofInfo) (ents : List (ℕ × ℕ)) : Option (List Shape) :=
  (ents.mapM (outline pic c verts)).bind fun lines =>
    (ents.mapM fun de => (sortedDofs pic dofs de).bind fun l => (l.mapM (dofShapes pic dofs)).map List.flatten).map fun marks =>
      lines.flatten ++ marks.flatten

/-- `plot_dof_diagram` (symfem/finite_element.py:151-199): the picture that is saved. -/
noncomputable def dofDiagram (dofs : List DofInfo) : Option Picture :=
  ((zOrdered c).mapM (groupShapes pic c verts dofs)).map fun l => pic.add l.flatten

/-! ### Plots of functions -/

/-- The polygon of the entity of the DOF (symfem/functions.py:422-424). -/
noncomputable def dofFill (extra : List ℝ) (dofEntity : Option (ℕ × ℕ)) : Option (List Shape) :=
  match dofEntity with
  | none => some []
  | some de => if de.1 ≤ 1 then some [] else
    ((c.subEntities de.1).bind fun l => l[de.2]?).bind fun ent => (c.subEntityType de.1 de.2).bind fun t =>
      ((clockwise t).mapM fun i => (ent[i]?).bind fun j => verts[j]?).bind fun vs =>
        (pic.fillShape (vs.map (· ++ extra)) "#44AAFF" (1 / 2)).map fun s => [s]

/-- The line for an edge (symfem/functions.py:432-441). -/
noncomputable def plotLine (extra : List ℝ) (dofEntity : Option (ℕ × ℕ)) (de : ℕ × ℕ) : Option (List Shape) :=
  if de.1 = 1 then
    (c.edges[de.2]?).bind fun l => (vertexList verts l).bind fun pts =>
      (pts[0]?).bind fun p => (pts[1]?).bind fun q =>
        (pic.lineShape (p ++ extra) (q ++ extra) (if dofEntity = some de then "#44AAFF" else "#AAAAAA")).map fun s => [s]
  else some []

/-- The mark for the DOF (symfem/functions.py:448-455). -/
noncomputable def plotMark (extra : List ℝ) (point direction : Option (List ℝ)) (n : ℕ) : Option (List Shape) :=
  match direction, point with
  | some d, some p => pic.dofArrowShapes (p ++ extra) (d ++ extra) n "#DD2299" false false
  | some _, none => none
  | none, some p => (pic.markerShape (p ++ extra) n "#DD2299" false).map fun s => [s]
  | none, none => some []

/-- The shapes added in one round of the loop (symfem/functions.py:431-455).  `(dim, entity)` are the last values of the
variables of the loops, so they are in `ze`.  `values` is what `plot_values` adds. -/
noncomputable def zeShapes (extra : List ℝ) (values : Option (List Shape)) (point direction : Option (List ℝ))
    (dofEntity : Option (ℕ × ℕ)) (n : ℕ) (ze : List (ℕ × ℕ)) : Option (List Shape) :=
  (ze.mapM (plotLine pic c verts extra dofEntity)).bind fun lines =>
  (ze.mapM fun de => if de.1 = c.tdim then values else some []).bind fun vals =>
  (plotMark pic extra point direction n).map fun mark => lines.flatten ++ vals.flatten ++ mark

/-- `plot` (symfem/functions.py:389-457): the picture that is saved. -/
noncomputable def plotFunction (scalar : Bool) (values : Option (List Shape)) (point direction : Option (List ℝ))
    (dofEntity : Option (ℕ × ℕ)) (n : ℕ) : Option Picture :=
  let extra : List ℝ := if scalar then [0] else []
  (dofFill pic c verts extra dofEntity).bind fun fill =>
    ((if scalar then zOrderedExtra c else zOrdered c).mapM (zeShapes pic c verts extra values point direction dofEntity n)).map
      fun l => pic.add (fill ++ l.flatten)

end diagram

/-! ### Diagrams of the sub-entities -/

/-- `offset_unit` (symfem/references.py:688-720); `ValueError` for points. -/
noncomputable def offsetUnit : Cell → Option (List ℝ)
  | .point => none
  | .interval => some [4 / 3]
  | .dualPolygon _ => some [9 / 4, 0]
  | .triangle | .quadrilateral => some [4 / 3, 0]
  | .pyramid => some [17 / 12, 17 / 30, 0]
  | .hexahedron => some [3 / 2, 9 / 15, 0]
  | .tetrahedron | .prism => some [1, 2 / 5, 0]

/-- The arrows and letters for the axes (symfem/references.py:692-742). -/
noncomputable def axisShapes (pic : Picture) : Cell → Option (List Shape)
  | .point => none
  | .interval =>
    [pic.arrowShape [-(1 / 2), 0] [-(1 / 3), 0] "#000000", pic.mathShape [-(8 / 25), 0] "x" "west"].mapM id
  | .dualPolygon _ =>
    let r : ℝ := √3 / 4
    [pic.arrowShape [-(3 / 4), -r] [-(7 / 12), -r] "#000000", pic.arrowShape [-(3 / 4), -r] [-(3 / 4), 1 / 6 - r] "#000000",
      pic.mathShape [-(171 / 300), -r] "x" "west", pic.mathShape [-(3 / 4), 9 / 50 - r] "y" "south"].mapM id
  | .triangle | .quadrilateral =>
    [pic.arrowShape [-(1 / 2), 0] [-(1 / 3), 0] "#000000", pic.arrowShape [-(1 / 2), 0] [-(1 / 2), 1 / 6] "#000000",
      pic.mathShape [-(8 / 25), 0] "x" "west", pic.mathShape [-(1 / 2), 9 / 50] "y" "south"].mapM id
  | _ =>
    [pic.arrowShape [-(3 / 8), -(3 / 20), 0] [-(5 / 24), -(3 / 20), 0] "#000000",
      pic.arrowShape [-(3 / 8), -(3 / 20), 0] [-(3 / 8), 1 / 60, 0] "#000000",
      pic.arrowShape [-(3 / 8), -(3 / 20), 0] [-(3 / 8), -(3 / 20), 1 / 6] "#000000",
      pic.mathShape [-(39 / 200), -(3 / 20), 0] "x" "west", pic.mathShape [-(3 / 8), 1 / 60, 0] "y" "south west",
      pic.mathShape [-(3 / 8), -(3 / 20), 9 / 50] "z" "south"].mapM id

/-- `offset` (symfem/references.py:744-745). -/
noncomputable def offset (unit : List ℝ) (p : List ℝ) (cd : ℕ) : List ℝ :=
  List.zipWith (fun p a => (p + cd * a) / 2) p unit

/-- `midpoint` (symfem/references.py:465-471) of a list of points with the same number of coordinates. -/
noncomputable def midList (pts : List (List ℝ)) : List ℝ :=
  (List.range (pts.headD []).length).map fun j => (pts.map fun p => p.getD j 0).sum / pts.length

/-- The shapes of one entity in the copy of the cell for one dimension (symfem/references.py:749-758). -/
noncomputable def entityShapes (pic : Picture) (c : Cell) (verts : List (List ℝ)) (unit : List ℝ) (cd : ℕ) (de : ℕ × ℕ) :
    Option (List Shape) :=
  (if de.1 = 1 then
    (c.edges[de.2]?).bind fun l => (vertexList verts l).bind fun pts =>
      (pts[0]?).bind fun p => (pts[1]?).bind fun q => (pic.lineShape (offset unit p cd) (offset unit q cd) "#000000").map fun s => [s]
  else some []).bind fun a =>
  (if de.1 = cd then
    ((c.subEntities de.1).bind fun l => l[de.2]?).bind fun l => (vertexList verts l).bind fun pts =>
      (entityColor de.1).bind fun color => (pic.ncircleShape (offset unit (midList pts) cd) de.2 color).map fun s => [s]
  else some []).map fun b => a ++ b

/-- `plot_entity_diagrams` (symfem/references.py:677-760): the picture that is saved. -/
noncomputable def entityDiagram (pic : Picture) (c : Cell) (verts : List (List ℝ)) : Option Picture :=
  (offsetUnit c).bind fun unit => (axisShapes pic c).bind fun ax =>
    ((List.range (c.tdim + 1)).mapM fun cd =>
      ((zOrdered c).mapM fun ents : List (ℕ × ℕ) => (ents.mapM (entityShapes pic c verts unit cd)).map List.flatten).map List.flatten).map
        fun l => pic.add (ax ++ l.flatten)

/-! ### Plots of values -/

/-- The curve between two points of the lattice in `ScalarFunction.plot_values` (symfem/functions.py:860-886): `f` is the
function, `grad` its gradient and `scale` is `value_scale`, before it is multiplied by 5/8. -/
noncomputable def valueCurve (f : List ℝ → ℝ) (grad : List ℝ → List ℝ) (scale : ℝ) (p q : List ℝ) :
    List ℝ × List ℝ × List ℝ × List ℝ :=
  let scale := scale * (5 / 8)
  let dp := List.zipWith (fun a b => (2 * a + b) / 3) p q
  let dq := List.zipWith (fun a b => (2 * a + b) / 3) q p
  let di := (List.zipWith (· * ·) (grad p) (List.zipWith (· - ·) dp p)).sum
  let dj := (List.zipWith (· * ·) (grad q) (List.zipWith (· - ·) dq q)).sum
  (p ++ [f p * scale], dp ++ [f p * scale + di * scale], dq ++ [f q * scale + dj * scale], q ++ [f q * scale])

/-- The arrow at one point in `VectorFunction.plot_values` (symfem/functions.py:1301-1316): the start, the end and the
width. -/
noncomputable def valueArrow (f : List ℝ → List ℝ) (scale : ℝ) (p : List ℝ) : List ℝ × List ℝ × ℝ :=
  let value := (f p).map (· * (scale / 4))
  (p, List.zipWith (· + ·) p value, √(value.map (· ^ 2)).sum * 40)

/-- `_plot_beziers` or `_plot_arrows` (symfem/functions.py:855-889, 1301-1316): what is drawn by `plot_values` for a cell
and a number of points (`key`) and a scale, and the dictionary after the call.  `make` computes the curves or arrows. -/
def plotCached {K A : Type} [DecidableEq K] (make : K → ℝ → A) (cache : K → Option A) (key : K) (scale : ℝ) : A × (K → Option A) :=
  match cache key with
  | some a => (a, cache)
  | none => (make key scale, Function.update cache key (some (make key scale)))

/-- A sequence of calls on the same function. -/
def plotCalls {K A : Type} [DecidableEq K] (make : K → ℝ → A) : (K → Option A) → List (K × ℝ) → List A
  | _, [] => []
  | cache, (key, scale) :: l =>
    let r := plotCached make cache key scale
    r.1 :: plotCalls make r.2 l

end Verif.Plotting
