# Formal model of symfem in Lean 4

## Layout

Every topic has its own directory under `lean/Verif/`:

* `Model.lean` (also `QModel`, `SerendipityModel`, …) – definitions that follow the Python code
  function by function.  Each definition cites file and lines in `/repo` and says where it simplifies.
* `Spec.lean`, `SpecShape.lean` – small specifications written without reference to the model's helpers.
* `Props*.lean` – the property theorems, with an `example` next to each showing that a
  concrete non-trivial case meets the hypotheses.
* everything else – helper lemmas.

`properties.jsonl` has the properties in English, `MANIFEST.json` maps each one to the theorems,
`seeded/LOG.jsonl` records the wrong programs against which the theorems were tried.

## Trusted base

* Lean 4.33.0 kernel; Mathlib definitions (polynomials, matrices, interval integrals).
* Axioms: every theorem depends on at most `propext`, `Classical.choice`, `Quot.sound`.
  No axiom, `sorry`, `native_decide` or `bv_decide` is added.
* Reading of the Python: the translation of each cited function to Lean is by hand.
* sympy is not modelled as a program.  Exact sympy numbers are elements of a field
  (`ℚ`, `ℝ` or any field); sympy expressions are a small expression language with
  evaluation (`Functions/Expr`) or Mathlib polynomials; `sympy.integrate` is the exact integral,
  written as iterated interval integrals; `Matrix.inv` is the matrix inverse (an exception when the
  determinant is zero); `sympy.S`/`repr` on integers and rationals is a decimal printer and parser
  written in the model.  `det`, `subs`, `diff` and transposition of sympy matrices are
  the usual operations; rewriting (`simplify`, `expand`) is assumed to preserve values.
* Python lists are `List`, dictionaries are functions or association lists, exceptions are `Option`/`Except`.
* Floating-point branches (`isinstance(v, sympy.Float)`, `*_float`, `with_floats`) are not modelled.
* `plotting.py`, documentation strings (`get_tex`), and the file-system beyond "named files with
  text contents" are not modelled.

## Where the code does not satisfy the property

Where reading the code shows that a property fails, the model keeps the faulty code,
a theorem proves the failure (for every input of some infinite family where possible, otherwise with
a concrete witness), and a `_partial` theorem proves what does hold.

| property | what goes wrong |
|---|---|
| C04 | a crash while writing a cached matrix can leave a file that loads as another matrix |
| C08 | `allequal` stops at the shorter sequence and treats some unequal nestings as equal |
| C09 | ordinals 13, 113, … get the wrong suffix |
| C20 | `get_mapping` returns module attributes which are not mappings |
| C36 | `get_inverse_map_to` of the pyramid is wrong off the listed points |
| C39, C69 | `contains` is wrong for every tetrahedron but the default one |
| C40 | lattices of prisms and of general quadrilaterals leave the cell; lattices of the dual polygon with two triangles repeat points |
| C44 | matrix–vector products and list additions of functions |
| C45 | nested iteration over one vector function misses components |
| C51 | mapping an enriched element with a given basis returns the wrong number of functions |
| C52 | the tensor factorisation of Q elements ignores the variant |
| C54 | a failing registration leaves part of its names registered |
| C55 | `create_reference("dual polygon")` raises `IndexError` |
| C63 | DOF plot positions on triangular faces and on volumes leave the entity |
| C67, C68 | sign errors in the two-dimensional serendipity H(div) and H(curl) sets |
| C78 | `maximum_degree` on simplices |
| C79 | equality of piecewise functions ignores extra pieces |

## Properties

| id | model and proof |
|----|-----------------|
| C01 | `Caching`: strings as character lists; `split`/`join` laws; decimal print/parse round trip by induction on digits. |
| C02 | `Caching`: file store as a map from names; histories as lists of operations; induction over the history. |
| C03 | `Caching`: case analysis on the load result, all file contents. |
| C04 | `Caching`: crash = arbitrary prefix of the text; witness for the violation; partial theorem on what a prefix can parse to. |
| C05 | `Caching`: state machine of `get_dual_matrix` calls; invariant "every file is the honest matrix of its id". |
| C06 | `Caching`: the id format as string concatenation; injectivity from separator-freeness. |
| C07 | `Caching`: file names `dual1-…` and `dualinv1-…` differ for all digests. |
| C08 | `Utils`: nested values as an inductive type; witnesses for both defects; exactness on equal shapes by induction. |
| C09 | `Utils`: decimal ordinals; the partial theorem characterises the n that are right. |
| C10 | `Quadrature`: finite sums over `range n`; integral of a linear polynomial via Mathlib `intervalIntegral`. |
| C11, C12 | `Quadrature`: exactness on monomials by algebra in `√` atoms, lifted to all polynomials by linearity. |
| C13 | `Quadrature`: string dispatch. |
| C14, C15 | `Geometry`: barycentric coordinates by Cramer's rule over an ordered field; quadrilaterals as two triangles; specification by convex hulls. |
| C16–C18 | `Mappings`: functions `Kⁿ → …`, affine maps given by a matrix; Mathlib matrix algebra. |
| C19 | `Mappings`: chain rule with `fderiv` of functions. |
| C20 | `Mappings`: table of the names in `mappings.py`; string dispatch. |
| C21–C27, C66 | `Polysets`: exponent lists computed by the same nested loops; membership, `Nodup`, count by induction; independence via the `MvPolynomial` monomial basis. |
| C67, C68 | `Polysets/PropsSer`: divergence and curl of the enrichments for every order; violation for every order in 2D. |
| C28, C29, C75 | `Orthogonal`: the table-filling loops are run on any ℚ-algebra with a distinguished element for 1/(1−z) (`Model`, `Rings`); `Fill` shows that the loops solve their recurrences; closed forms and Leibniz rules show that the derivative tables hold the derivatives. |
| C30 | `Orthogonal/PropsIndex`: arithmetic of index functions, bijectivity by explicit ranking. |
| C31, C76 | `Orthogonal/PropsOrtho`, `Orthonormal`: Jacobi orthogonality by induction; product integrals as iterated interval integrals (`cellInt`). |
| C32 | `Orthogonal`: Gram matrix inverse. |
| C33, C77 | `Orthogonal/Lobatto*`: antiderivatives of Legendre polynomials vanish at both ends; dual basis. |
| C34 | `References`: tables as literals, complete check; dual polygons by arithmetic mod 2n for all n. |
| C35–C37 | `References`: coordinate formulas over a field. |
| C38 | `References`: real vectors with `Real.sqrt`. |
| C39, C69 | `References`: coordinate formulas against hull membership. |
| C40, C70 | `References`: lattice formulas for all n. |
| C41 | `References`: record equality. |
| C71 | `References/Shape`: limits as expressions; the set they describe is the hull of the vertices. |
| C42, C43 | `Functions`: expression trees with evaluation, substitution and differentiation; derivatives in the sense of `HasDerivAt`. |
| C44 | `Functions`: operations on scalar, vector and matrix functions, compared pointwise. |
| C45 | `Functions`: the iterator as a state machine. |
| C46, C79 | `Functions/Piecewise`: list of (cell, function). |
| C78 | `Functions/Degree`: the degree recursion against `MvPolynomial` degrees. |
| C47, C48 | `FiniteElement`: dual matrix over a field; linear functionals on a vector space; basis = inverse transpose times the polynomial set. |
| C49–C51, C72, C73 | `FiniteElement`: lists of entity tags; inductive element type with enrichment; cache state. |
| C63 | `FiniteElement/PropsPlot`: position formulas. |
| C53, C80, C81 | `Functionals`: each functional's `eval` as steps on expression trees (`Step`, `value`); iterated integrals; change of variables for affine maps. |
| C54–C56, C74 | `Create`: registry as association map; induction over registrations; decision logic; the table of all classes in the repository. |
| C57 | `Elements/Counts` and the families below; partial: only for the families listed in the manifest. |
| C58, C82 | `Elements`: DOF points as lists; unisolvence from interpolation on lower sets (`Interp`); `Creation` connects unisolvence to success of `get_basis_functions`; continuity from the points of a facet. |
| C52 | `Elements/Tensor`, `TensorBasis`: DOF enumeration order versus permutation, for all orders. |
| C83 | `Elements/PropsDpc`, `PropsPrism`, `PropsPyramid`: lattices as products; the pyramid's rational functions are evaluated at the apex by the sequential substitution which the code performs. |
| C61 | `Moments`: the loop over entity types as a list program. |
| C84–C88 | `Families`: vector polynomials as tuples of `MvPolynomial`; moments as iterated integrals of polynomials; unisolvence by testing with the function itself over a positive weight (`Positive`: a sum of squares with zero integral vanishes), facet by facet; `Trace` shows that normal/tangential traces are determined by the DOFs of the closure; `Bridge` connects the polynomial moments to the functionals of C80. |
| C89–C91 | `Families/Q*`: anisotropic degree boxes (`Box`, `B`), bubbles `x(1−x)`, entities as aligned domains (all but some coordinates constant).  The mutual recursion of the Q families of the code (RT needs Nedelec of lower order on the cell and vice versa) is modelled with a fuel parameter; the theorems hold for every sufficient fuel. |
| C92, C93 | `Families/BoxDiv`, `Bdfm`: normal moments against DPC functions on the facets of boxes (`box_created` is generic in the polynomial set). |
| C94 | `Families/BdfmSimp`, `BdfmTet`, `Count`: the space is described by the degrees of its normal components; that the set spans it follows by counting functionals.  On tetrahedra of order 2 and above the code's set is not contained in that space, and a basis function of another entity has a non-zero normal component on the facet z = 0. |
| C95, C96 | `Families/Enrich`, `SerDiv`: polynomials of degree k enriched by homogeneous fields of degree k+1.  If the normal components vanish on all facets, the coefficients of terms with exponent at most one of x_j in component j vanish; combinations of these coefficients are dual to the added fields, so that the function has degree k and the argument of C93 applies. |
| C59, C60 | `Bernstein`: the lists of powers and the factorial products as in the code; the functional (projection onto the Bernstein basis with a chain of Gram–Schmidt vectors) is shown to return the Bernstein coefficient of the restriction; restriction of Bernstein polynomials to entities gives duality. |
| C62 | `Families/Kmv*`: points and weights as in the code (with square roots); integrals of monomials over simplices by the Dirichlet formula; creation by dividing a function that vanishes on the boundary by the bubble.  The failures are proved with the sum of the weights and with an explicit function of the space that vanishes at all points. |
| C65 | `Families/CR`: the points of a facet satisfy a linear relation on the polynomials of degree n restricted to a line; for odd orders the values at the vertices follow and Lagrange unisolvence applies, for even orders the three relations are dependent and the dual matrix is singular. |
| C64 | `Dual`: coefficient tables written as in the code (Python indices), pieces on the triangles of the refined polygon, evaluation by `get_piece`.  Vertices in polar form; two wedges meet in a ray or the origin, so that the value does not depend on the piece that is found first. |
| C97 | `Families/Mapped`, `Hdiv`, `Hcurl`, `Hcurl2`, `MapCell`, `Conform`, `NotConform`, `NotConformDiv`: `map_to_cell` maps each function with the mapping of its own DOF; area vectors and edge vectors are transported to the reference, where the values of the functionals of an entity are the moments of the trace against one fixed list of functions, which determine the trace. For BDM and BDFM from order 2 an interior function whose normal component does not vanish on a long cell. |
| C98 | `Dual/BC`: the traces of the lowest order Raviart–Thomas and Nédélec functions are 1 and 0, so that the traces of each piece are its coefficients; the loop that fills the table is computed in closed form.  The entries of the two triangles at an edge differ. |
| C99, C100 | `Plotting/Model`, `Plotting/Canvas`: pictures as lists of shapes with real coordinates; the output is the list of tags with their numbers, not the text.  `compute_scale` is a similarity and the bounds of `points` go through it.  The head of an arrow is within `width/4·7/150` of its end.  A curve with high control points is a counterexample for Bézier curves. |
| C101, C102 | `Plotting/Output`: files as a map from names to formats; the colour table as a list in insertion order, whose n-th name is `customcolor<n>` (decimal numerals are injective). |
| C103 | `Plotting/Order`: the lists of the code are compared to the list of all sub-entities.  Visibility by signs of determinants of integer vertices with the direction that the default axes map to zero. |
| C104, C105 | `Plotting/Diagram`: a DOF is a position, an optional direction and an entity; what is shown is read off the list of shapes (`numbers`, `lines`, `polygons`, `Shown`). |
| C106, C109 | `Plotting/Plot`: the same for `plot` and `plot_entity_diagrams`. |
| C107, C108 | `Plotting/Curve`: restriction of a polynomial to a segment as a univariate polynomial; cubic Hermite interpolation equals the Bézier curve.  The dictionary of computed curves is keyed by cell and number of points only. |
| C110 | `Scalar/Model`, `Scalar/Ser`, `Scalar/Trace`, `Scalar/Serendipity`: the span is described by the superlinear degree of the exponents (`Ser`), independent of the generating lists; `C0Trace` says that the restriction to every sub-entity is determined by the DOFs of its closure. |
| C111 | `Scalar/ConformingCR`: the restriction to an edge has degree k, the interior points are a lattice; `Ccr k` describes the span as a submodule. |
| C112 | `Scalar/Lag`, `Scalar/Bubble`: basis functions of Lagrange elements of order 1 computed for all five cells; polynomials that vanish on the boundary are multiples of the bubble; interior points are a lattice. |
| C113 | `Scalar/BubbleEnriched`: proved for orders 1, 2; for all k >= 3 the polynomials are dependent and `getBasis` fails (defect in the code). |
| C114 | `Scalar/Barycentric`, `Scalar/Transition`, `Scalar/TransitionSpace`: the loop that chooses the variables is modelled and evaluated on all entities; functions of an entity are the product of barycentric coordinates times a polynomial; a function that vanishes on all facets of an entity is divisible by the bubble of the entity, which gives the span by induction over the dimension. |
| C115 | `Smooth/Jet`, `Smooth/Chain`, `Smooth/Hermite`: derivative evaluations are linear maps on polynomials; `certified` reduces unisolvence on the reference simplices to a rational left inverse checked by the kernel; the chain rule moves it to every cell. |
| C116 | `Smooth/Taylor`: for all orders; a polynomial whose derivatives of all orders from 1 on vanish at a point is constant. |
| C117 | `Smooth/Edge`, `Smooth/Argyris`: quintic values and quartic normal derivatives on the edges are determined by their ends and the midpoint; normals are those of the code, with square roots. |
| C118 | `Smooth/Argyris`: rational certificate. |
| C119 | `Smooth/Bell`: `BellSpace` (cubic derivatives across the edges) is independent of the list of the code; kernel function on a family of other triangles (defect in the code). |
| C120 | `Smooth/Bfs`: proved on all rectangles; kernel function (x-a)^2(y-b)^2 on parallelograms with diagonals along the axes (defect in the code). |
| C121 | `Scalar/DirectSerendipity`: the functions as functions of the point (they are rational, not polynomial). Independence by values on the boundary, at every order; `P_k` in the span iff `k <= 8` (interior functions always come from `DPC` of order 4), size right iff `k` in {2, 3, 8}, an edge function which does not vanish on the opposite edge for every `k >= 2` |
| C122 | `Degrees/Basic`, `Degrees/Scalar`: the specification is `IsGreatest`/`IsLeast` of the inclusions of spaces, and the declared numbers are transcribed per class; maximality by a monomial (or bubble times a monomial) just outside |
| C123 | `Degrees/Vector`: the four declared degrees of vector elements (same definition as C122, componentwise), from the spaces of C84-C96 |
| C124 | `Families/BoxParts`, `Families/Trimmed`, `Families/TrimmedDiv`: `TrimmedSerendipityHdiv`; integration by parts on the unit square/cube shows that the divergence of a function without normal components and moments is zero, which reduces the space to that of C95 |
| C125 | `Families/Rot`, `Families/TrimmedCurl`: `TrimmedSerendipityHcurl`; quadrilaterals by a quarter turn from H(div); on hexahedra the numbers of polynomials and functionals differ for every k >= 4, so the dual matrix is not square (partial) |
| C126 | `Families/SerCurl`, `SerCurlLemmas`, `SerCurlSpan`, `SerCurl3`: `SerendipityCurl`; on hexahedra the terms of degree k+3, k+2 and k+1 of a field without tangential components vanish one after the other |
| C127 | `Matrices/Model`, `Matrices/Regge`: `Regge` with point evaluations; along every edge direction the form is a polynomial that vanishes on a lattice (by the Lagrange results), polarisation gives all tangential components |
| C128 | `Matrices/Regge`: functionals of shared entities match under any numbering of the vertices |
| C129 | `Matrices/HhjModel`, `Matrices/Hhj`: `HellanHerrmannJohnson`; a normal-normal component that vanishes on its facet and is orthogonal to degree k-1 is zero, and the normal-normal components and extra directions span the symmetric matrices |
| C130 | `Matrices/Hhj`: `double_contravariant` keeps the normal-normal component with respect to the area vectors |
| C131 | `Families/ConformBox`, `NotConformBox`, `NotConformAbf`, `NotConformHz`, `ConformWith`: the same on quadrilaterals and hexahedra, with a sheared cell as witness for the elements with wrongly mapped interior functions |
| C132 | `Families/Abf`: Arnold–Boffi–Falk elements; the divergence is zero by integration by parts, then the argument for Raviart–Thomas |
| C133 | `Families/HuangZhang`: Huang–Zhang elements; bubbles along and across the edges are split off in turn |
| C134 | `Families/Ac`: Arbogast–Correa elements; fields with no divergence and no normal components are curls of bubbles |
| C135 | `Functions/Lazy`: basis functions that are computed when used, under Python's rules for operators; exactly which operators work |
| C136 | `Scalar/EnrichedGalerkin`: the enrichment functional on its function by `squares_zero`; sum of the Lagrange functions is 1 by unisolvence |
| C137 | `Families/BernardiRaugel`: the normal component on a facet is a polynomial plus a multiple of the bubble function; values at the vertices (and midpoints) and one moment determine it; the components of the cell bubble come from the divergence moments, with exact integrals |
| C138 | `Scalar/NonConforming`: a criterion for creation from a linear system (`created_of_system`), solved for the midpoints of the facets and the points of Fortin–Soulie; the span of the listed functions is the space of the statement |
| C139 | `Degrees/Trimmed`, `Degrees/Further`: the spaces of the elements are those of C124–C138; a polynomial in the next space is excluded by a coefficient that vanishes on the whole space; the declared `lagrange_subdegree` of trimmed serendipity elements is refuted for large orders by comparing with the true value `(k-1)//2` (quadrilaterals) or `(k-1)//3` (hexahedra) |
| C140 | `Families/Mtw`, `Degrees/Mtw`: the space is described by constant divergence and affine normal components, not by the list of nine functions in the code; Simpson's rule turns the tangential moments into values at midpoints; a cubic field with zero normal component on the edges and zero midpoint values has only a multiple of bubble-like terms left, killed by the divergence |
| C141 | `Macro/Basic`, `Macro/Hct`, `Macro/HctElement`, `Macro/Rhct`: a function is one polynomial per cell; functionals act on the piece that the modelled `get_piece` returns (`pieceAt`, via `Functions.Piecewise`); the space is specified by agreement of values and derivatives wherever two cells (convex hulls) meet, not by the listed functions; unisolvence by exact elimination in the 30 coefficients; on edges Hermite interpolation of the values and quadratic interpolation of the derivative across the edge |
| C142 | `Macro/Alfeld`, `Macro/AlfeldElement`: as C141, with fields of two polynomials per cell; the space is specified by agreement of values and divergences where cells meet; elimination in 36 coefficients |
| C143 | `Macro/AlfeldElement`: violated. `as_tabulate` computes the result for every order and every point of the triangle; the positive theorems are those of C50 for elements with the true `range_dim` |
| C144 | `Functionals/Pieces`, `Macro/P1Macro`: violated. `piecesValue_moment` computes the value for every list of cells and pieces from the symbolic model of C61; `hat_moment`/`hat_integral` and `p1Macro_interior` compare with the integral that is defined by a change of variables in each cell |
| C145 | `Macro/Nodal`, `Macro/P1Macro`, `Macro/P1IsoP2`, `Macro/P1IsoP2Quad`: one polynomial per cell, functionals act on the piece found by the modelled `get_piece`; the space is specified by agreement wherever two cells (convex hulls) meet; the interior functional of P1 macro elements is the one that the code computes (C144), which determines the value at the centre |
| C146 | `Smooth/MultiDeriv`, `Smooth/JetDofs`, `Smooth/Mwx`, `Smooth/WuXu`, `Degrees/Averages`: functionals are integrals over entities of iterated directional derivatives along the normalised normals; `integral_jet` turns them into sums of derivatives at rational points by rules proved exact for the degrees at hand, up to the factors from normalisation; unisolvence by left inverses of the resulting matrices |
| C147 | `Smooth/Mwx`, `Smooth/WuXu`: violated. `mwx_C0_iff` and `wuXu_C0_iff` say exactly when the label C0 is right; the counterexamples are functions of the space with vanishing functionals on a facet that do not vanish on it |
| C148 | `Matrices/AwModel`, `AwSpace`, `AwEdge`, `Aw`, `AwFour`, `Degrees/Aw`: polynomials by dual coefficients and the recursion that the divergence condition imposes on leading coefficients (`aw_poly`, every order); edge functionals are pairings with the normal and tangential components (`aw_edge`); trace by division by `t(1-t)` and positivity (`aw_trace`, every order); unisolvence for order 3 from the form of functions with vanishing normal products and nine linear equations; for order 4 (`Matrices/AwFour`) the equations leave the multiples of the Airy matrix of the squared bubble, whose moment with itself is positive. Partial: unisolvence for orders from 5 |
| C149 | `Matrices/NcAw`, `NcAwCreated`, `Degrees/Aw`: independence by second differences dual to the six additional polynomials; unisolvence by division by the edge functions and nine linear equations |
| C150 | `Matrices/AwLabel`: `aw_label` for every order of the conforming element; violated by the nonconforming element (`nc_aw_broken`: the default mapping of the interior moments is the identity) |
| C151 | `Matrices/LagrangeMatrix`: every entry is determined by its values at the points of the scalar element (C58); degrees from C139's criterion |
| C152 | `Matrices/LagrangeMatrix`: violated by the variant legendre (`legendre_broken`, `legendre_vector_broken`: repeated functionals contradict duality, C47); point variants by C151, C88, C89 |
| C153 | `Scalar/TntSpace`, `Scalar/TntPoly`, `Scalar/Tnt`, `Degrees/Tnt`: independence by the coefficients of the highest power along edges; interior by Green's formula: the functions of the interior functionals span the bubbles of the space, so the gradient vanishes |
| C154 | `Families/TntDivSpace`, `TntDiv`, `TntCurl`, `Degrees/TntVector`: independence by highest coefficients; a field with zero normal components is pure divergence plus curl of a bubble: integrate by parts against the gradients, then the stream function lies in the span of the functions of the remaining functionals; H(curl) by turning the fields. Non-conformity of the mapped functions (C131) in `Families/NotConformTnt` |
| C155 | `Macro/GnModel`, `Gn`, `GnBr`, `GnCreate`: explicit functions from the table by the kernel, independence by coefficients; functionals on pieces by the intersections of the pieces and the edges; a quadratic normal component with zero ends and zero integral is zero, the tangential component is affine and zero at the ends, and the rest is linear algebra with the constant divergences. The Lagrange functions on the pieces are written down from their definition |
| C156 | `Functionals/Positions`, `PositionsProps`: a sub-entity is the set of averages of its vertices, its relative interior the averages with positive weights; induction on the nesting of the moments, the map with the axes preserves averages, and moving 3/10 towards the midpoint makes weights positive. Separation: affine functions nonnegative on the cell vanish at an interior point of a sub-entity exactly if they vanish at its vertices, and the tables of entities are checked by the kernel. Directions of functionals are not part of it |
| C157 | `Families/NedelecPrism`: the list of functions by the kernel, explicit coefficients; the tangential components along the edges are constants, the nine constants determine the coefficients, and on each face the tangential components are combinations of those of its edges. Missing: order 2 |
| C158 | `Degrees/Solids`: spans from C60, C62, C83 and C157 as sets of exponents; monomials on both sides of each bound. Pyramids: x^a y^b z^c is a combination of the functions with denominator (1-z)^min(a,b) by the binomial theorem, with the apex apart; on an edge the functions are polynomials of the order; xy/(1-z) on the line x = y = 1/2 is not a polynomial |
| C159 | `Functionals/Directions`: dof_direction of point evaluations and moments. Vector Lagrange functions: all components but one vanish at the points of the scalar element, so they are zero; the push forward to a face turns the remaining one into a multiple of the axis |
| C160 | `Caching/Library`: the text of a tuple of tuples of rationals determines it; classes with one name have no cell in common (table of classes of C74); number of vertices and coordinates determine the cell; then C05 and C06 |
