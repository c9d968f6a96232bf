{"id": "C01", "title": "Matrix text round trip", "statement": "Writing a matrix to its cache text and reading that text back gives the same matrix, for every matrix with at least one row and one column whose entries are integers or rationals as sympy prints them. A matrix with no rows does not round trip.", "quantifier": "all row/column counts >= 1 and all rational entries; the failing empty shape separately", "why_tests_cant": "tests try a few sizes; the claim covers every size and every numerator/denominator", "anchors": ["symfem/caching.py:matrix_to_string", "symfem/caching.py:matrix_from_string"]}
{"id": "C02", "title": "Cache read-your-writes and isolation", "statement": "After any sequence of saves, loading (matrix type, element id, size) returns the matrix of the last save made under exactly that type and id when the size agrees, and None when no save was made under that type and id; saves under other types or ids never change the answer.", "quantifier": "all finite histories of save and load operations over all matrix types, ids and matrices", "why_tests_cant": "histories and id pairs are unbounded", "anchors": ["symfem/caching.py:save_cached_matrix", "symfem/caching.py:load_cached_matrix"]}
{"id": "C03", "title": "Cache load never returns a matrix of the wrong shape", "statement": "Whatever bytes are on disk, load_cached_matrix returns None, raises a parse error, or returns a matrix with exactly the requested number of rows and the requested number of columns in its first row; a missing file always gives None.", "quantifier": "all file contents and requested sizes", "why_tests_cant": "file contents are arbitrary strings", "anchors": ["symfem/caching.py:load_cached_matrix", "symfem/caching.py:matrix_from_string"]}
{"id": "C04", "title": "A crash while saving never leads to a wrong matrix being loaded", "statement": "If the process stops after any prefix of the cache file has been written, a later load returns None, raises, or returns the saved matrix. (The code violates this: a prefix that cuts the last entry can still parse with the right shape. What does hold: any matrix loaded from a prefix agrees with the saved one everywhere except possibly its last entry.)", "quantifier": "all matrices and all crash points inside the write", "why_tests_cant": "crash points are not exercised by tests", "anchors": ["symfem/caching.py:save_cached_matrix", "symfem/caching.py:load_cached_matrix"]}
{"id": "C05", "title": "Caching is transparent to get_dual_matrix", "statement": "For every history of get_dual_matrix calls, cached or not, on any elements sharing a cache directory in which elements with equal cache ids have equal matrices, every call returns what a call with caching=False returns.", "quantifier": "all histories of calls over all elements with honest cache ids", "why_tests_cant": "a test sees one history; staleness needs arbitrary interleavings", "anchors": ["symfem/finite_element.py:CiarletElement.get_dual_matrix"]}
{"id": "C06", "title": "Cache ids separate different elements", "statement": "Two elements get the same cache id only if their class name, order, printed reference vertices, printed options and version stamp agree (for class names and version stamps without spaces).", "quantifier": "all pairs of elements", "why_tests_cant": "pairs of elements are unbounded", "anchors": ["symfem/finite_element.py:CiarletElement.get_dual_matrix"]}
{"id": "C07", "title": "Dual and inverse dual matrices never share a cache file", "statement": "The file used for the dual matrix of one element is never the file used for the inverse dual matrix of any element, and distinct ids map to distinct files as long as the digest separates them.", "quantifier": "all pairs of ids", "why_tests_cant": "pairs are unbounded", "anchors": ["symfem/caching.py:load_cached_matrix", "symfem/caching.py:save_cached_matrix"]}
{"id": "C08", "title": "allequal decides equality of nested values", "statement": "allequal(a, b) is True exactly when a and b have the same nesting shape and equal leaves. (The code violates this: lists of different lengths compare by their common prefix, and any b that is a bare sympy expression compares equal to every a.) On values of identical nesting shape it is exact.", "quantifier": "all nested lists/tuples of functions", "why_tests_cant": "nesting and lengths are unbounded", "anchors": ["symfem/utils.py:allequal"]}
{"id": "C09", "title": "Ordinal names", "statement": "The text used for the n-th direction is the English ordinal of n. (The code violates this, e.g. 13, 111, 112.) It is right for every n below 13 and for every n whose last two digits are not 11, 12, 13.", "quantifier": "all natural numbers n", "why_tests_cant": "unbounded n", "anchors": ["symfem/functionals.py:_nth"]}
{"id": "C10", "title": "Equispaced rule integrates linear functions exactly", "statement": "For every n >= 2, equispaced(n) returns n points from 0 to 1 in increasing equal steps with positive weights that sum to 1 and integrate every polynomial of degree at most 1 exactly on [0,1]; for n = 1 the formula divides by zero and no rule is produced.", "quantifier": "all n and all polynomials of degree <= 1", "why_tests_cant": "n is unbounded", "anchors": ["symfem/quadrature.py:equispaced"]}
{"id": "C11", "title": "Gauss-Lobatto rules are exact to degree 2n-3", "statement": "For every n for which lobatto(n) returns, its n points lie in [0,1] in increasing order with first point 0 and last 1, the weights are positive, and every real polynomial of degree at most 2n-3 is integrated exactly; for every other n it raises.", "quantifier": "all n and all polynomials of the stated degree", "why_tests_cant": "the polynomial space is infinite and the nodes are irrational", "anchors": ["symfem/quadrature.py:lobatto"]}
{"id": "C12", "title": "Gauss-Radau and Gauss-Legendre rules are exact", "statement": "radau(n) (2n-2) and legendre(n) (2n-1) integrate every polynomial of the stated degree exactly whenever they return, with points in [0,1] and positive weights; for every other n they raise.", "quantifier": "all n and all polynomials of the stated degree", "why_tests_cant": "the polynomial space is infinite and the nodes are irrational", "anchors": ["symfem/quadrature.py:radau", "symfem/quadrature.py:legendre"]}
{"id": "C13", "title": "get_quadrature dispatch", "statement": "get_quadrature(rule, n) returns the rule of that name ('gll' meaning lobatto) and raises ValueError for every other name; whenever it returns, points and weights have the same length n and the weights sum to 1.", "quantifier": "all strings and all n", "why_tests_cant": "names and n are unbounded", "anchors": ["symfem/quadrature.py:get_quadrature"]}
{"id": "C14", "title": "point_in_interval/triangle/tetrahedron decide membership", "statement": "For every non-degenerate interval, triangle (in 2D) or tetrahedron (in 3D) with exact coordinates, the test is True exactly when the point is a convex combination of the vertices. For a triangle embedded in 3D it decides membership of the orthogonal projection of the point.", "quantifier": "all non-degenerate vertex lists and all points", "why_tests_cant": "the coordinates range over an infinite set", "anchors": ["symfem/geometry.py:point_in_interval", "symfem/geometry.py:point_in_triangle", "symfem/geometry.py:point_in_tetrahedron"]}
{"id": "C15", "title": "point_in_quadrilateral decides membership for positively oriented cells", "statement": "For every strictly convex, positively oriented quadrilateral (corners in tensor-product order) the test is True exactly when the point is a convex combination of the corners. For a negatively oriented parallelogram the test is False at every interior point.", "quantifier": "all strictly convex positively oriented quadrilaterals, all negatively oriented parallelograms, and all points", "why_tests_cant": "the coordinates range over an infinite set", "anchors": ["symfem/geometry.py:point_in_quadrilateral"]}
{"id": "C16", "title": "Inverse mappings undo mappings", "statement": "For every invertible affine map and every function of the right kind, applying a push-forward (identity, L2, covariant, contravariant, double covariant, double contravariant) and then its inverse returns the original function at every point, and the same in the other order.", "quantifier": "all invertible affine maps in dimensions 1..3 (any dimension in the model), all functions, all points", "why_tests_cant": "maps and functions form infinite families", "anchors": ["symfem/mappings.py"]}
{"id": "C17", "title": "Inverse-transpose mappings preserve the pairing", "statement": "The dot product of a covariantly (contravariantly, L2, identity) mapped function with the inverse-transpose mapping of another equals the dot product of the originals at the corresponding point.", "quantifier": "all invertible affine maps, all pairs of functions, all points", "why_tests_cant": "infinite families", "anchors": ["symfem/mappings.py"]}
{"id": "C18", "title": "Covariant mapping preserves tangential components, contravariant preserves fluxes", "statement": "For every invertible affine map, the component of a covariantly mapped function along a mapped edge vector equals the component of the original along the edge vector; the flux of a contravariantly mapped function through a mapped facet equals the flux through the original up to the sign of the determinant; double mappings preserve the tangent-tangent and normal-normal components in the same way.", "quantifier": "all maps, functions, points and edge/facet vectors", "why_tests_cant": "infinite families", "anchors": ["symfem/mappings.py"]}
{"id": "C19", "title": "Mappings commute with differential operators", "statement": "For every polynomial function and invertible affine map: the gradient of the identity mapping of f is the covariant mapping of grad f, the divergence of the contravariant mapping of v is (1/det) times the mapped divergence (the L2 mapping of it when det > 0), and in 3D the curl of the covariant mapping of v is the contravariant mapping of curl v.", "quantifier": "all functions in the expression language and all affine maps", "why_tests_cant": "infinite families", "anchors": ["symfem/mappings.py", "symfem/functions.py:ScalarFunction.grad", "symfem/functions.py:VectorFunction.div"]}
{"id": "C20", "title": "get_mapping dispatch", "statement": "get_mapping(name, inverse, transpose) returns the mapping of that name and variant, or raises ValueError when there is none. (Violated for names such as \"x\" that the module binds to something else.)", "quantifier": "all names and flag combinations", "why_tests_cant": "names are unbounded", "anchors": ["symfem/mappings.py:get_mapping"]}
{"id": "C21", "title": "polynomial_set_1d spans exactly the polynomials of total degree at most k", "statement": "For dim 1, 2, 3 and every integer order k, the list contains every monomial of total degree at most k exactly once and nothing else (so it has binomial(k+dim, dim) members); other dims raise.", "quantifier": "all orders and dims", "why_tests_cant": "orders are unbounded", "anchors": ["symfem/polynomials/polysets.py:polynomial_set_1d"]}
{"id": "C22", "title": "quolynomial_set_1d spans exactly the polynomials of degree at most k in each variable", "statement": "For dim 1,2,3 and every order k, the list contains every monomial with all exponents at most k exactly once and nothing else.", "quantifier": "all orders and dims", "why_tests_cant": "orders are unbounded", "anchors": ["symfem/polynomials/polysets.py:quolynomial_set_1d"]}
{"id": "C23", "title": "Serendipity sets are the monomials of superlinear degree at most k above degree k", "statement": "For dims 2 and 3, serendipity_set_1d(dim, k) contains exactly the monomials of total degree above k whose superlinear degree (degree not counting variables that appear linearly) is at most k, each once; so together with the polynomials of degree at most k it gives all monomials of superlinear degree at most k.", "quantifier": "all orders k >= 1", "why_tests_cant": "orders are unbounded", "anchors": ["symfem/polynomials/polysets.py:serendipity_indices", "symfem/polynomials/polysets.py:serendipity_set_1d"]}
{"id": "C24", "title": "Prism and pyramid sets", "statement": "prism_polynomial_set_1d contains exactly the monomials with degree at most k in (x,y) and at most k in z, each once; pyramid_polynomial_set_1d lists one function per index triple (i,j,l) with max(i,j)+l <= k.", "quantifier": "all orders", "why_tests_cant": "orders are unbounded", "anchors": ["symfem/polynomials/polysets.py:prism_polynomial_set_1d", "symfem/polynomials/polysets.py:pyramid_polynomial_set_1d"]}
{"id": "C25", "title": "Vector valued sets are component-wise", "statement": "polynomial_set_vector / quolynomial_set_vector / serendipity_set_vector / prism / pyramid vector sets contain, for each scalar member and each component, exactly one vector with that member in that component and zero elsewhere.", "quantifier": "all orders and dims", "why_tests_cant": "orders are unbounded", "anchors": ["symfem/polynomials/polysets.py"]}
{"id": "C26", "title": "Polynomial sets are linearly independent", "statement": "The members of every scalar set (simplex, tensor, serendipity, prism) and every vector version are linearly independent, so the element constructors receive a basis.", "quantifier": "all orders and all linear combinations", "why_tests_cant": "linear independence quantifies over all coefficients", "anchors": ["symfem/polynomials/polysets.py"]}
{"id": "C27", "title": "H(div) and H(curl) polynomial sets", "statement": "Every member of Hdiv_polynomials is the position vector times a homogeneous polynomial of degree k-1 and the list has one entry per such monomial; every member q of Hcurl_polynomials is homogeneous of degree k with x.q = 0. The sets have the advertised sizes.", "quantifier": "all orders and dims 2,3", "why_tests_cant": "orders are unbounded", "anchors": ["symfem/polynomials/polysets.py:Hdiv_polynomials", "symfem/polynomials/polysets.py:Hcurl_polynomials"]}
{"id": "C28", "title": "Interval orthonormal polynomials are Legendre polynomials", "statement": "For every order n, entry i of the value table from orthogonal_basis_interval is a polynomial of degree i, and different entries are orthogonal on [0,1].", "quantifier": "all orders and pairs of indices", "why_tests_cant": "orders are unbounded", "anchors": ["symfem/polynomials/legendre.py:orthogonal_basis_interval"]}
{"id": "C29", "title": "Derivative tables hold the derivatives", "statement": "For every order n and number of derivatives d, entry (j, i) of the table from orthogonal_basis_interval is the j-th derivative of entry (0, i); on every other cell row d_index(dx, dy[, dz]) holds the mixed partial derivatives of the entries of row 0, for the triangle, quadrilateral, tetrahedron, hexahedron, prism and pyramid.", "quantifier": "all orders and derivative counts", "why_tests_cant": "orders are unbounded", "anchors": ["symfem/polynomials/legendre.py"]}
{"id": "C30", "title": "Index maps are bijections", "statement": "The index functions used to store tables on triangles, tetrahedra, quadrilaterals, hexahedra, prisms and pyramids map the admissible index tuples of order n one-to-one onto 0..N-1 where N is the table size.", "quantifier": "all orders and index tuples", "why_tests_cant": "orders are unbounded", "anchors": ["symfem/polynomials/legendre.py"]}
{"id": "C31", "title": "Orthogonal bases are orthogonal on every cell", "statement": "On triangles, quadrilaterals, tetrahedra, hexahedra, prisms and pyramids, different members of the value table of orthogonal_basis are orthogonal over the cell for every order, and no member has norm zero.", "quantifier": "all orders", "why_tests_cant": "orders are unbounded", "anchors": ["symfem/polynomials/legendre.py:orthogonal_basis_quadrilateral", "symfem/polynomials/legendre.py:orthogonal_basis_hexahedron"]}
{"id": "C32", "title": "l2_dual gives the bi-orthogonal basis", "statement": "For every cell and every set of functions with invertible Gram matrix, the combination computed by l2_dual has inner product 1 with the matching function and 0 with the others.", "quantifier": "all finite sets of functions with invertible Gram matrix", "why_tests_cant": "sets of functions are unbounded", "anchors": ["symfem/polynomials/dual.py:l2_dual"]}
{"id": "C33", "title": "Lobatto bubble functions vanish at the ends", "statement": "Every member of lobatto_basis(cell, n, include_endpoints=False) vanishes on the boundary of the cell, for interval, quadrilateral and hexahedron and every order, and on the interval member i has degree i+2.", "quantifier": "all orders", "why_tests_cant": "orders are unbounded", "anchors": ["symfem/polynomials/lobatto.py:lobatto_basis_interval"]}
{"id": "C34", "title": "Cell tables are consistent", "statement": "For every reference cell type and every choice of vertices: each edge, face and volume lists distinct existing vertices, in ascending order (except the closing edge of a dual polygon, which ends at vertex 0), entities of one dimension are distinct, each sub-entity has the number of vertices its type needs, every edge of every face is an edge of the cell, and vertices - edges + faces - volumes = 1.", "quantifier": "all cell types and, for dual polygons, all numbers of triangles n >= 2", "why_tests_cant": "dual polygons form an infinite family; vertices are arbitrary", "anchors": ["symfem/references.py"]}
{"id": "C35", "title": "get_map_to sends vertices to vertices", "statement": "For every cell type and every target vertex list, the map sends reference vertex i to target vertex i, and the map is affine on simplices and affine in each coordinate on quadrilaterals, hexahedra and prisms. For the cell's own default vertices it is the identity, except on the pyramid, where it is not.", "quantifier": "all target vertex lists", "why_tests_cant": "targets are unbounded", "anchors": ["symfem/references.py:get_map_to"]}
{"id": "C36", "title": "get_inverse_map_to inverts get_map_to", "statement": "For every cell type and every non-degenerate target accepted by get_inverse_map_to, composing the two maps in either order is the identity. (Violated for pyramids: the map is not affine but the inverse is computed as if it were.)", "quantifier": "all accepted targets and all points", "why_tests_cant": "targets are unbounded", "anchors": ["symfem/references.py:get_inverse_map_to"]}
{"id": "C37", "title": "Self maps", "statement": "get_map_to_self/get_inverse_map_to_self agree with get_map_to/get_inverse_map_to of the default cell at the cell's own vertices; for triangles embedded in 3D the inverse map is wrong unless the edge vectors are orthonormal.", "quantifier": "all vertex lists", "why_tests_cant": "vertex lists are unbounded", "anchors": ["symfem/references.py:get_map_to_self", "symfem/references.py:get_inverse_map_to_self"]}
{"id": "C38", "title": "Normals and tangents", "statement": "For every non-degenerate entity, normal() has unit length and is orthogonal to every edge of the entity; tangent() has unit length and is parallel to the edge.", "quantifier": "all non-degenerate intervals in 2D and triangles in 3D", "why_tests_cant": "coordinates range over an infinite set", "anchors": ["symfem/references.py:Reference.normal", "symfem/references.py:Reference.tangent"]}
{"id": "C39", "title": "contains decides membership", "statement": "For every cell for which contains() answers, the answer is True exactly for convex combinations of the vertices. (Violated for non-default tetrahedra, where a comparison is reversed.)", "quantifier": "all points and all vertex lists that are accepted", "why_tests_cant": "points are unbounded", "anchors": ["symfem/references.py:contains"]}
{"id": "C40", "title": "Lattices lie strictly inside the cell", "statement": "Every point of make_lattice(n) lies strictly inside the cell and the points are distinct, for every n. (Violated for prisms, for quadrilaterals that are not parallelograms and for dual polygons with two triangles.)", "quantifier": "all n and all vertex lists", "why_tests_cant": "n is unbounded", "anchors": ["symfem/references.py:make_lattice"]}
{"id": "C41", "title": "Reference equality and hashing", "statement": "Equality of references is an equivalence relation, equal references have equal hashes, and equal references have equal sub-entities. Equality compares type and vertices only, so dual polygons that differ only in their origin are equal.", "quantifier": "all references", "why_tests_cant": "references are unbounded", "anchors": ["symfem/references.py:Reference.__eq__", "symfem/references.py:Reference.__hash__"]}
{"id": "C42", "title": "Substitution is simultaneous", "statement": "subs(variables, values) evaluates like replacing all variables at once, whatever variables the values mention, as long as no input uses the private dummy symbols.", "quantifier": "all expressions, distinct variable lists and value lists", "why_tests_cant": "expressions are unbounded", "anchors": ["symfem/functions.py:ScalarFunction.subs"]}
{"id": "C43", "title": "Derivatives, gradient, divergence, curl and Hessian", "statement": "diff gives the partial derivative of the function at every point where it is defined, grad its gradient, jacobian its symmetric matrix of second derivatives and directional_derivative the derivative along the direction; div(curl v) = 0, curl(grad f) = 0 and div(grad f) is the trace of the jacobian for every function.", "quantifier": "all expressions and points", "why_tests_cant": "expressions are unbounded", "anchors": ["symfem/functions.py"]}
{"id": "C44", "title": "Vector and matrix arithmetic is pointwise", "statement": "Addition, subtraction, scaling, dot, cross, matrix products, transpose and determinant of function objects evaluate pointwise to the corresponding vector and matrix operations; size mismatches raise. (Violated by MatrixFunction.dot, which sums wrong entries or raises on non-square matrices, by vector @ matrix, which always raises for non-square matrices, and by adding a shorter list to a vector, which truncates the vector.)", "quantifier": "all sizes, functions and points", "why_tests_cant": "sizes and functions are unbounded", "anchors": ["symfem/functions.py:VectorFunction", "symfem/functions.py:MatrixFunction"]}
{"id": "C45", "title": "Iterating a vector function yields each component once", "statement": "A for-loop over a VectorFunction visits each component once, whatever else is iterated. (Violated: the iterator state is stored on the object, so a nested loop over the same object truncates the outer loop.)", "quantifier": "all vectors and all interleavings of iterations", "why_tests_cant": "interleavings are unbounded", "anchors": ["symfem/functions.py:VectorFunction.__iter__", "symfem/functions.py:VectorFunction.__next__"]}
{"id": "C46", "title": "Piecewise functions evaluate on the piece that contains the point", "statement": "get_piece(p) returns the function of the first sub-cell containing p and raises NotImplementedError if there is none; sums, differences, products and negation of piecewise functions over the same sub-cells evaluate pointwise.", "quantifier": "all piecewise functions and points", "why_tests_cant": "piece lists and points are unbounded", "anchors": ["symfem/piecewise_functions.py"]}
{"id": "C47", "title": "Basis functions are dual to the DOFs", "statement": "For every set of linear functionals and basis of the same size whose dual matrix is invertible, functional i applied to basis function j is 1 if i = j and 0 otherwise.", "quantifier": "all finite families of linear functionals and polynomial sets", "why_tests_cant": "families are unbounded", "anchors": ["symfem/finite_element.py:CiarletElement.get_basis_functions"]}
{"id": "C48", "title": "Basis functions span the polynomial set", "statement": "Every member of the polynomial set is the combination of basis functions weighted by the functionals applied to it, and every basis function is in the span of the polynomial set.", "quantifier": "all finite families", "why_tests_cant": "families are unbounded", "anchors": ["symfem/finite_element.py:CiarletElement.get_basis_functions"]}
{"id": "C49", "title": "entity_dofs partitions the DOFs", "statement": "For every Ciarlet, direct or enriched element whose DOFs are attached to existing sub-entities, each DOF number below the space dimension appears in the list of exactly one sub-entity, exactly once, in ascending order, and no other number appears.", "quantifier": "all elements (nested enrichments included)", "why_tests_cant": "elements are unbounded", "anchors": ["symfem/finite_element.py:CiarletElement.entity_dofs", "symfem/finite_element.py:DirectElement.entity_dofs", "symfem/finite_element.py:EnrichedElement.entity_dofs"]}
{"id": "C50", "title": "tabulate_basis orderings are permutations of the same table", "statement": "For each ordering, the entry for (point, basis function, component) is found at the documented place and has the value of that component of the basis function at that point; unknown orders raise.", "quantifier": "all numbers of points, basis functions and components", "why_tests_cant": "sizes are unbounded", "anchors": ["symfem/finite_element.py:FiniteElement.tabulate_basis"]}
{"id": "C51", "title": "Mapping an enriched element maps each sub-element's own functions", "statement": "map_to_cell of an enriched element returns, for each sub-element, its mapped functions in order. (Holds when no basis is passed; when a basis is passed the whole list is handed to every sub-element, so the result has the wrong functions.)", "quantifier": "all enriched elements", "why_tests_cant": "elements are unbounded", "anchors": ["symfem/finite_element.py:EnrichedElement.map_to_cell"]}
{"id": "C52", "title": "Q element tensor factorisation", "statement": "For every order, the permutation in the tensor factorisation of an equispaced Q element on a quadrilateral or hexahedron is a permutation of the DOF numbers and sends the tensor index of a product of interval functions to the number of the DOF at the product of their points.", "quantifier": "all orders", "why_tests_cant": "orders are unbounded", "anchors": ["symfem/elements/q.py:Q.get_tensor_factorisation", "symfem/finite_element.py:FiniteElement._get_basis_functions_tensor"]}
{"id": "C53", "title": "Functionals are linear", "statement": "Every functional type gives eval(a f + b g) = a eval(f) + b eval(g).", "quantifier": "all functions, points, coefficients and integration domains", "why_tests_cant": "functions are unbounded", "anchors": ["symfem/functionals.py"]}
{"id": "C54", "title": "Element registry", "statement": "After any sequence of add_element calls that does not raise, looking up any name and cell gives the class registered for it; no registered class lost a name; the list of classes contains every class that was passed once; a call with something that is not an element class raises TypeError, a call that would give a name two classes raises AssertionError and registers nothing.", "quantifier": "all sequences of registrations", "why_tests_cant": "sequences are unbounded", "anchors": ["symfem/create.py:add_element"]}
{"id": "C55", "title": "create_reference dispatch", "statement": "create_reference builds the cell named by the string, and raises ValueError for unknown names.", "quantifier": "all strings and all vertex lists", "why_tests_cant": "strings are unbounded", "anchors": ["symfem/create.py:create_reference"]}
{"id": "C56", "title": "create_element respects cell and order limits", "statement": "create_element returns an element of the registered class exactly when the name is known, the class supports the cell, the order is within the class limits for that cell, and the cell has equal topological and geometric dimension; otherwise it raises ValueError.", "quantifier": "all names, cells, orders and registries", "why_tests_cant": "orders and registries are unbounded", "anchors": ["symfem/create.py:create_element", "symfem/create.py:_order_is_allowed"]}
{"id": "C57", "title": "DOF count equals polynomial-set size", "statement": "For every order allowed by the class, the number of DOFs built by each element family equals the size of its polynomial set, so construction succeeds.", "quantifier": "all orders, cells and element families modelled", "why_tests_cant": "orders are unbounded", "anchors": ["symfem/elements", "symfem/moments.py:make_integral_moment_dofs"]}
{"id": "C58", "title": "Lagrange elements are unisolvent", "statement": "For every order, an equispaced Lagrange element on an interval, triangle or tetrahedron (and Q on quadrilaterals and hexahedra) has DOFs that determine every polynomial of the space: a polynomial vanishing at all DOF points is zero, so the dual matrix is invertible.", "quantifier": "all orders and all polynomials of the space", "why_tests_cant": "orders and polynomials are unbounded", "anchors": ["symfem/elements/lagrange.py:Lagrange", "symfem/elements/q.py:Q"]}
{"id": "C59", "title": "Bernstein polynomials", "statement": "For every order, the Bernstein polynomials are the products of barycentric coordinates with multinomial coefficients, one for each multi-index; they are non-negative on the cell, sum to 1, and are a basis of the polynomials of degree at most the order.", "quantifier": "all orders and all points of the cell", "why_tests_cant": "orders and points are unbounded", "anchors": ["symfem/elements/bernstein.py:bernstein_polynomials"]}
{"id": "C60", "title": "Bernstein elements can be created for every allowed order", "statement": "The element can be created, and its basis functions are the Bernstein polynomials; the basis function of a DOF on an entity is the one whose multi-index is non-zero exactly at the vertices of that entity. (Violated on tetrahedra for order >= 4: interior functionals are never added because of a misspelt cell name.)", "quantifier": "all orders and cells", "why_tests_cant": "orders are unbounded", "anchors": ["symfem/elements/bernstein.py:Bernstein"]}
{"id": "C61", "title": "Integral-moment DOF generation", "statement": "make_integral_moment_dofs creates, for each entity type given and each entity of that type, one DOF per DOF of the sub-element, attached to that entity, and none when the order is below the sub-element's minimum.", "quantifier": "all cells and moment specifications", "why_tests_cant": "specifications are unbounded", "anchors": ["symfem/moments.py:make_integral_moment_dofs", "symfem/moments.py:_extract_moment_data"]}
{"id": "C62", "title": "KMV quadrature weights", "statement": "The basis functions of a KMV element can be created and span its space (polynomials of the order with added bubble functions), each functional evaluates at a point inside the sub-entity it is associated with, and the sum of its functionals is a quadrature rule: it integrates over the reference cell exactly every polynomial of degree 1, 3, 5 for orders 1, 2, 3 on triangles and of degree 1, 4 for orders 1, 2 on tetrahedra. (Violated: the rule of order 3 on triangles does not integrate constants exactly, and the element of order 2 on tetrahedra has a singular dual matrix.)", "quantifier": "all polynomials, all orders offered", "why_tests_cant": "weights are irrational and enter through functionals", "anchors": ["symfem/elements/kmv.py"]}
{"id": "C63", "title": "Direct elements give DOF plot positions inside the entity", "statement": "dof_plot_positions of a direct element gives distinct points in the interior of the entity each DOF is attached to. (Violated on triangular faces, where one DOF is always put on an edge, and on volumes, where points can be outside.)", "quantifier": "all direct elements", "why_tests_cant": "DOF counts are unbounded", "anchors": ["symfem/finite_element.py:DirectElement.dof_plot_positions"]}
{"id": "C64", "title": "Dual order-1 elements form a continuous partition of unity", "statement": "For every number of triangles n >= 3, the n functions of the order-1 dual element are continuous on the polygon, linear on every triangle of the barycentric refinement, sum to 1, have the value 1 at their own corner of the polygon and 0 at the others, and 1/n at the origin; outside the polygon evaluation raises an error. The order-0 function is 1 on the polygon. (With n = 2 the polygon is flat.)", "quantifier": "all n and all points", "why_tests_cant": "n is unbounded", "anchors": ["symfem/elements/dual.py:DualCiarletElement"]}
{"id": "C65", "title": "Conforming Crouzeix-Raviart/Crouzeix-Raviart solvability", "statement": "Every order accepted by the Crouzeix-Raviart element gives an invertible dual matrix, and the basis functions span the polynomials of that degree. (Violated on triangles for every even order with equispaced points.)", "quantifier": "all accepted orders", "why_tests_cant": "orders are unbounded", "anchors": ["symfem/elements/crouzeix_raviart.py:CrouzeixRaviart"]}
{"id": "C66", "title": "Tensor-product H(div) and H(curl) spaces", "statement": "The list given to the quadrilateral/hexahedron Raviart-Thomas constructor is linearly independent and its members are exactly the unit vectors times monomials of degree at most k in the variable of their component and at most k-1 in the others; the Nedelec list likewise with degree at most k-1 in the component's variable and at most k in the others.", "quantifier": "all orders k >= 1 and all dimensions", "why_tests_cant": "orders are unbounded; independence quantifies over all coefficients", "anchors": ["symfem/polynomials/polysets.py:Hdiv_quolynomials", "symfem/polynomials/polysets.py:Hcurl_quolynomials", "symfem/elements/q.py:RaviartThomas", "symfem/elements/q.py:Nedelec"]}
{"id": "C67", "title": "H(div) serendipity enrichment is divergence free", "statement": "Every function in Hdiv_serendipity is divergence free, so that the divergence of the serendipity H(div) space of order k consists of polynomials of degree at most k-1. (Holds in 3D. In 2D the code violates it: the divergences are 2(k+1)x^k and 2(k+1)y^k for every k.)", "quantifier": "all orders", "why_tests_cant": "orders are unbounded", "anchors": ["symfem/polynomials/polysets.py:Hdiv_serendipity"]}
{"id": "C68", "title": "H(curl) serendipity space contains the gradients of the scalar serendipity space", "statement": "The gradient of every function of the scalar serendipity space of order k+1 lies in the H(curl) serendipity space of order k. (Holds in 3D. In 2D the code violates it for every k >= 1: the gradient of x^(k+1)y is not in the span, because of a sign.)", "quantifier": "all orders", "why_tests_cant": "orders are unbounded; non-membership quantifies over all coefficients", "anchors": ["symfem/polynomials/polysets.py:Hcurl_serendipity", "symfem/polynomials/polysets.py:serendipity_set_1d"]}
{"id": "C69", "title": "intersection is sound", "statement": "If intersection returns one of the two cells then that cell is contained in the other; if it returns None, no point is strictly inside both cells. (The first part is violated for tetrahedra, because contains is.)", "quantifier": "all pairs of cells with two or three coordinates", "why_tests_cant": "pairs of cells form a continuum", "anchors": ["symfem/references.py:Reference.intersection", "symfem/references.py:_which_side"]}
{"id": "C70", "title": "Lattices with lines", "statement": "For every n >= 2, make_lattice_with_lines(n) on intervals, triangles and parallelograms returns points of the cell including its vertices, and its lines join exactly the pairs of neighbouring lattice points (one step along an axis or the falling diagonal).", "quantifier": "all n and all vertex lists", "why_tests_cant": "the index arithmetic is loop-carried and n is unbounded", "anchors": ["symfem/references.py:make_lattice_with_lines"]}
{"id": "C71", "title": "Integration limits describe the cell", "statement": "For every default cell, a point satisfies all the integration limits exactly when it is a convex combination of the vertices; every coordinate is integrated once, each limit uses only variables integrated later, and the lower limit is not above the upper limit wherever they are used.", "quantifier": "all points of every cell type", "why_tests_cant": "quantifies over all points", "anchors": ["symfem/references.py:integration_limits"]}
{"id": "C72", "title": "map_to_cell uses each DOF's own mapping", "statement": "If the functionals of an element can be mapped, entry d of map_to_cell is basis function d mapped with the mapping named by DOF d, however the DOFs are distributed over entities, classes and mappings; if one cannot be mapped, the result is the basis of the element made again on the new cell.", "quantifier": "all elements, cells and mappings", "why_tests_cant": "the grouping by entity, class and mapping has unboundedly many shapes", "anchors": ["symfem/finite_element.py:CiarletElement.map_to_cell", "symfem/functionals.py:BaseFunctional.perform_mapping"]}
{"id": "C73", "title": "Repeated calls of get_basis_functions", "statement": "All calls of get_basis_functions on one Ciarlet element return the value computed by the first call; in particular the argument use_tensor_factorisation of later calls has no effect, so the value of a call depends on earlier calls whenever the two computations differ.", "quantifier": "all call sequences", "why_tests_cant": "call sequences are unbounded", "anchors": ["symfem/finite_element.py:CiarletElement.get_basis_functions"]}
{"id": "C74", "title": "The element registry does not depend on the order of loading", "statement": "The element classes are found by listing a directory and scanning the names of each module, so a class may be registered several times and in any order. Whatever the order and the repetitions, importing symfem succeeds in registering every class, and the class found for an element name and a cell name is the unique class that declares both.", "quantifier": "all orders and multiplicities in which the classes are seen", "why_tests_cant": "the order is chosen by the file system", "anchors": ["symfem/create.py:add_element", "symfem/create.py (module body)"]}
{"id": "C75", "title": "Orthogonal bases in other variables", "statement": "orthogonal_basis(cell, n, d, variables=v) equals orthogonal_basis(cell, n, d) with the default variables replaced by v simultaneously, whatever the expressions v are, on every cell.", "quantifier": "all orders, derivative counts, cells and expressions", "why_tests_cant": "orders and expressions are unbounded", "anchors": ["symfem/polynomials/legendre.py:orthogonal_basis"]}
{"id": "C76", "title": "Orthonormal bases", "statement": "orthonormal_basis(cell, n, d) succeeds for the interval, triangle, quadrilateral, tetrahedron, hexahedron, prism and pyramid, and no other cell, and its functions (first row) have inner product 1 with themselves and 0 with each other over the cell.", "quantifier": "all cells, orders and derivative counts", "why_tests_cant": "orders are unbounded; the norms are square roots", "anchors": ["symfem/polynomials/legendre.py:orthonormal_basis"]}
{"id": "C77", "title": "The dual of the Lobatto basis", "statement": "For the interval, quadrilateral and hexahedron and every positive order, lobatto_dual_basis(cell, n, e) succeeds, has as many functions as lobatto_basis(cell, n, e), and function i of the former has inner product 1 with function i of the latter and 0 with the others over the cell, with and without endpoints.", "quantifier": "all positive orders, the three cells, both values of include_endpoints", "why_tests_cant": "orders are unbounded and a Gram matrix is inverted", "anchors": ["symfem/polynomials/lobatto.py:lobatto_dual_basis", "symfem/polynomials/lobatto.py:lobatto_basis", "symfem/polynomials/dual.py:l2_dual"]}
{"id": "C78", "title": "maximum_degree is the order of the lowest-order Lagrange space including the function", "statement": "maximum_degree(cell) of a polynomial is the least k such that the function is in the degree k Lagrange space of the cell. (Holds on tensor-product cells and for functions of one variable; violated on simplices and prisms: x^k + y^k on a triangle gives 2k.)", "quantifier": "all polynomials and cells", "why_tests_cant": "polynomials are unbounded", "anchors": ["symfem/functions.py:ScalarFunction.maximum_degree"]}
{"id": "C79", "title": "Piecewise functions that compare equal are equal", "statement": "If two piecewise functions compare equal, then at every point both raise or both have equal pieces. (Violated when they have different numbers of pieces: the extra pieces are ignored.)", "quantifier": "all piecewise functions and points", "why_tests_cant": "piece lists are unbounded", "anchors": ["symfem/piecewise_functions.py:PiecewiseFunction.__eq__"]}
{"id": "C80", "title": "What functionals compute", "statement": "An integral moment of f against k over an entity is the integral over the reference entity of f at the image point times k at the parameters times the entity's Jacobian (with the dot product for vectors); tangential, normal, divergence and derivative moments are the same with f.t, f.n, div f and the derivative; a point evaluation is the value of f at the point, a dot point evaluation f(p).v, a derivative evaluation the iterated derivative at the point.", "quantifier": "all entities in at most three dimensions, functions and moment functions", "why_tests_cant": "integrals over arbitrary entities of arbitrary functions", "anchors": ["symfem/functionals.py:IntegralMoment", "symfem/functionals.py:TangentIntegralMoment", "symfem/functionals.py:NormalIntegralMoment", "symfem/functionals.py:DivergenceIntegralMoment", "symfem/functionals.py:DerivativeIntegralMoment", "symfem/functionals.py:PointEvaluation", "symfem/functionals.py:DotPointEvaluation", "symfem/functionals.py:DerivativePointEvaluation"]}
{"id": "C81", "title": "Functionals are invariant under the mapping of the element", "statement": "For an affine map from the default cell to a cell, the integral moment of the mapped function (covariant, contravariant, identity or L2) on an entity of the cell equals the integral moment of the function on the entity of the default cell; the same holds for tangential moments of covariantly mapped and normal moments of contravariantly mapped functions.", "quantifier": "all invertible affine maps, entities, functions and moment functions", "why_tests_cant": "maps, functions and moment functions are unbounded", "anchors": ["symfem/functionals.py:IntegralMoment.__init__", "symfem/functionals.py:TangentIntegralMoment", "symfem/functionals.py:NormalIntegralMoment", "symfem/mappings.py"]}
{"id": "C82", "title": "Lagrange functions are continuous between cells", "statement": "For every positive order, if two simplex cells share an entity (a vertex, edge or face, numbered in any way in the two cells), and two polynomials of the equispaced Lagrange spaces of the cells have equal values at the DOF points the cells share on the closure of the entity, then the polynomials are equal on the entity. On Q elements of any variant with point evaluations, a polynomial of the space whose DOFs on the closure of an entity vanish is zero on the entity.", "quantifier": "all positive orders, cells, shared entities, numberings and polynomials of the space", "why_tests_cant": "orders, cells and polynomials are unbounded", "anchors": ["symfem/elements/lagrange.py:Lagrange", "symfem/elements/q.py:Q"]}
{"id": "C83", "title": "DPC, prism and pyramid Lagrange elements are unisolvent", "statement": "For every order, the DOFs of a DPC element on an interval, quadrilateral or hexahedron, of a Lagrange element on a prism and of a Lagrange element on a pyramid determine every function of the space: the number of DOFs is the number of basis functions asked for and a function of the space vanishing at all DOF points is zero, so the element can be created and its basis computed.", "quantifier": "all orders and all functions of the space", "why_tests_cant": "orders and functions are unbounded", "anchors": ["symfem/elements/dpc.py:DPC", "symfem/elements/lagrange_prism.py:Lagrange", "symfem/elements/lagrange_pyramid.py:Lagrange"]}
{"id": "C84", "title": "Raviart-Thomas elements", "statement": "On triangles and tetrahedra and for every order k >= 1, create_element(cell, 'RT', k) gives an element with k(k+2) or k(k+1)(k+3)/2 DOFs whose basis functions can be computed and span exactly the Raviart-Thomas space (vectors of polynomials of degree k-1, plus x times polynomials of degree k-1); a function of the space on which all DOFs vanish is zero; and if the DOFs of one facet vanish on a function of the space, its normal component vanishes on that facet.", "quantifier": "all orders and all functions of the space", "why_tests_cant": "orders and functions are unbounded; solvability of the linear system is checked only for the orders tested", "anchors": ["symfem/elements/rt.py:RaviartThomas"]}
{"id": "C85", "title": "Nedelec elements of the first kind", "statement": "On triangles and tetrahedra and for every order k >= 1, create_element(cell, 'Nedelec', k) gives an element with k(k+2) or k(k+2)(k+3)/2 DOFs whose basis functions can be computed and span exactly the functions v of degree k with x.v of degree k; a function of the space on which all DOFs vanish is zero; if the DOFs of an edge vanish, so does the tangential component on the edge; and if the DOFs of a face of a tetrahedron and of its edges vanish, so do the tangential components on the face.", "quantifier": "all orders and all functions of the space", "why_tests_cant": "orders and functions are unbounded; solvability of the linear system is checked only for the orders tested", "anchors": ["symfem/elements/nedelec.py:NedelecFirstKind"]}
{"id": "C86", "title": "Brezzi-Douglas-Marini elements", "statement": "On triangles and tetrahedra and for every order k >= 1, create_element(cell, 'BDM', k) gives an element whose basis functions can be computed and span all vector polynomials of degree k; a function of the space on which all DOFs vanish is zero; and if the DOFs of one facet vanish on a function of the space, its normal component vanishes on that facet.", "quantifier": "all orders and all functions of the space", "why_tests_cant": "orders and functions are unbounded; solvability of the linear system is checked only for the orders tested", "anchors": ["symfem/elements/bdm.py:BDM"]}
{"id": "C87", "title": "Nedelec elements of the second kind", "statement": "On triangles and tetrahedra and for every order k >= 1, create_element(cell, 'N2curl', k) gives an element whose basis functions can be computed and span all vector polynomials of degree k; a function of the space on which all DOFs vanish is zero; if the DOFs of an edge vanish, so does the tangential component on the edge; and if the DOFs of a face of a tetrahedron and of its edges vanish, so do the tangential components on the face.", "quantifier": "all orders and all functions of the space", "why_tests_cant": "orders and functions are unbounded; solvability of the linear system is checked only for the orders tested", "anchors": ["symfem/elements/nedelec.py:NedelecSecondKind"]}
{"id": "C88", "title": "Vector Lagrange elements", "statement": "On every non-degenerate interval, triangle or tetrahedron and for every order k, the vector Lagrange element can be created, its basis functions can be computed, there are (number of scalar functions) x (dimension) of them and they span all vector polynomials of degree k.", "quantifier": "all orders and all non-degenerate simplex cells", "why_tests_cant": "orders and cells are unbounded", "anchors": ["symfem/elements/lagrange.py:VectorLagrange"]}
{"id": "C89", "title": "Vector Q elements", "statement": "On quadrilaterals and hexahedra (and intervals) and for every order k and variant whose points are known, the vector Q element can be created, its basis functions can be computed, there are (k+1)^d * d of them and they span all vectors of polynomials of degree at most k in each variable.", "quantifier": "all orders, and all variants with point evaluations", "why_tests_cant": "orders are unbounded", "anchors": ["symfem/elements/q.py:VectorQ"]}
{"id": "C90", "title": "Raviart-Thomas elements on quadrilaterals and hexahedra", "statement": "For every order k >= 1, create_element(cell, 'RTCF' or 'NCF', k) gives an element with d(k+1)k^(d-1) DOFs whose basis functions can be computed and span exactly the vectors whose i-th component has degree at most k in x_i and at most k-1 in the other variables; a function of the space on which all DOFs vanish is zero; and if the DOFs of one facet vanish on a function of the space, its normal component vanishes on that facet.", "quantifier": "all orders, variants with point evaluations, and functions of the space", "why_tests_cant": "orders and functions are unbounded; the sub-elements of the moments are Nedelec elements of lower order, whose sub-elements are again Raviart-Thomas elements", "anchors": ["symfem/elements/q.py:RaviartThomas"]}
{"id": "C91", "title": "Nedelec elements on quadrilaterals and hexahedra", "statement": "For every order k >= 1, create_element(cell, 'RTCE' or 'NCE', k) gives an element with d*k*(k+1)^(d-1) DOFs whose basis functions can be computed and span exactly the vectors whose i-th component has degree at most k-1 in x_i and at most k in the other variables; a function of the space on which all DOFs vanish is zero; if the DOFs of an edge vanish, so does the tangential component on the edge; and if the DOFs of a face of a hexahedron and of its edges vanish, so do the tangential components on the face.", "quantifier": "all orders, variants with point evaluations, and functions of the space", "why_tests_cant": "orders and functions are unbounded; the sub-elements of the moments are Raviart-Thomas elements of lower order, whose sub-elements are again Nedelec elements", "anchors": ["symfem/elements/q.py:Nedelec"]}
{"id": "C92", "title": "Vector DPC elements", "statement": "On quadrilaterals and hexahedra and for every order k, the vector DPC element can be created, its basis functions can be computed, and they span all vectors of polynomials of degree at most k.", "quantifier": "all orders", "why_tests_cant": "orders are unbounded", "anchors": ["symfem/elements/dpc.py:VectorDPC"]}
{"id": "C93", "title": "BDFM elements on quadrilaterals and hexahedra", "statement": "For every order k >= 1, create_element('quadrilateral' or 'hexahedron', 'BDFM', k) gives an element whose basis functions can be computed and span exactly the vectors of polynomials of degree at most k whose i-th component has only multiples of x_i in its part of degree k; a function of the space on which all DOFs vanish is zero; and if the DOFs of one facet vanish on a function of the space, its normal component vanishes on that facet.", "quantifier": "all orders and functions of the space", "why_tests_cant": "orders and functions are unbounded; the test of the space in test_polynomials.py measures the degree in variables that no longer occur and cannot fail", "anchors": ["symfem/elements/bdfm.py:bdfm_polyset", "symfem/elements/bdfm.py:BDFM"]}
{"id": "C94", "title": "BDFM elements on triangles and tetrahedra", "statement": "For every order k >= 1, create_element('triangle' or 'tetrahedron', 'BDFM', k) gives an element whose basis functions span exactly the vectors of polynomials of degree at most k with normal components of degree at most k-1 on all facets; all DOFs vanish on a function of the space only if it is zero; and a basis function that is not associated with a facet has no normal component on that facet.", "quantifier": "all orders and functions of the space", "why_tests_cant": "orders and functions are unbounded; the test of the space in test_polynomials.py measures the degree in variables that no longer occur and cannot fail, and the continuity test looks at one facet only", "anchors": ["symfem/elements/bdfm.py:bdfm_polyset", "symfem/elements/bdfm.py:BDFM"]}
{"id": "C95", "title": "H(div) serendipity elements", "statement": "For every order k >= 1, create_element('quadrilateral' or 'hexahedron', 'Sdiv', k) gives an element whose basis functions can be computed and span exactly the sums of a vector of polynomials of degree at most k and a combination of the added functions (two on a quadrilateral; curls of 3(k+1) explicit fields on a hexahedron); a function of the space on which all DOFs vanish is zero; and if the DOFs of one facet vanish on a function of the space, its normal component vanishes on that facet.", "quantifier": "all orders and functions of the space", "why_tests_cant": "orders and functions are unbounded", "anchors": ["symfem/elements/serendipity.py:SerendipityDiv", "symfem/polynomials/polysets.py:Hdiv_serendipity"]}
{"id": "C96", "title": "BDDF elements", "statement": "For every order k >= 1, create_element('hexahedron', 'BDDF', k) gives an element with 3 C(k+3,3) + 3(k+1) DOFs whose basis functions can be computed and span exactly the sums of a vector of polynomials of degree at most k and a combination of the 3(k+1) curls of Brezzi, Douglas, Duran and Fortin; a function of the space on which all DOFs vanish is zero; and if the DOFs of one facet vanish on a function of the space, its normal component vanishes on that facet.", "quantifier": "all orders and functions of the space", "why_tests_cant": "orders and functions are unbounded", "anchors": ["symfem/elements/bddf.py:bddf_polyset", "symfem/elements/bddf.py:BDDF"]}
{"id": "C97", "title": "Mapped vector elements match across cells", "statement": "Take two triangles (or tetrahedra) that share a facet whose vertices come in the same order in both, and the basis functions of an RT, BDM or BDFM (triangles) element mapped to both with map_to_cell. Combinations that have the same coefficients for the DOFs of the shared facet have the same normal component at every point of the facet. For Nedelec elements of the first and second kind the same holds for the tangential component on a shared edge and, on tetrahedra, on a shared face when the coefficients of the face and of its edges agree. (Holds for RT and Nedelec elements and for the order 1 elements of the others. Violated by BDM and BDFM at every order from 2: their interior DOFs have the mapping identity, so interior functions do not stay tangential on the sides.)", "quantifier": "all orders k >= 1, all pairs of non-degenerate cells, all shared facets and all coefficients", "why_tests_cant": "cells, orders and coefficients are unbounded; the tests compare basis functions on one or two fixed pairs of cells", "anchors": ["symfem/finite_element.py:map_to_cell", "symfem/mappings.py:contravariant", "symfem/mappings.py:covariant", "symfem/elements/rt.py:RaviartThomas", "symfem/elements/nedelec.py:NedelecFirstKind", "symfem/elements/bdm.py:BDM", "symfem/elements/nedelec.py:NedelecSecondKind"]}
{"id": "C98", "title": "Buffa-Christiansen elements on dual polygons are conforming", "statement": "For every number of triangles n >= 3, the n functions of the BC element (continuity H(div)) have a continuous normal component across the edges of the barycentric refinement, the outward flux of the j-th function through each of the two sides at its own corner is 1/2 and through all other sides 0; the rotated BC element has the same property for tangential components.", "quantifier": "all n >= 3, all functions, all edges and all points of the edges", "why_tests_cant": "n is unbounded; the tests do not examine traces of these functions", "anchors": ["symfem/elements/dual.py:BuffaChristiansen", "symfem/elements/dual.py:RotatedBuffaChristiansen"]}
{"id": "C99", "title": "Everything in a picture is inside its canvas", "statement": "For every picture with at least one element and every choice of scale, width or height, as_svg maps the coordinates by a similarity (one positive factor for all lengths, vertical axis reversed) and every line, arrow, circle centre, polygon corner, text anchor and curve of the picture is inside the rectangle given by the width and height of the SVG.", "quantifier": "all pictures, all elements and all points of curves", "why_tests_cant": "pictures are unbounded; the tests only check that files are written", "anchors": ["symfem/plotting.py:Picture.compute_scale", "symfem/plotting.py:Picture.as_svg", "symfem/plotting.py:Bezier"]}
{"id": "C100", "title": "Pictures have the requested size", "statement": "A Picture created with width=w has an SVG of width w, and one created with height=h has an SVG of height h; as_png with png_width or png_height gives an image of that size with the proportions of the picture.", "quantifier": "all pictures, sizes and paddings", "why_tests_cant": "the sizes and elements are unbounded; no test looks at the size", "anchors": ["symfem/plotting.py:Picture.compute_scale", "symfem/plotting.py:Picture.as_png"]}
{"id": "C101", "title": "Saving a picture to a list of files", "statement": "Picture.save with a list of file names writes every file of the list, raises ValueError if one has another extension than svg, png or tex, and does nothing for an empty list; with one name it writes that file only.", "quantifier": "all lists of file names", "why_tests_cant": "the list is unbounded; the tests save one file at a time", "anchors": ["symfem/plotting.py:Picture.save"]}
{"id": "C102", "title": "Colours in TikZ output are defined", "statement": "In the output of as_tikz, after any sequence of earlier calls in the same process, every colour that is given by a # code is used under a name which the output defines as exactly that colour, no two colours share a name, and other colours are used as given.", "quantifier": "all pictures and all histories of calls", "why_tests_cant": "the history of calls of the global colour table is unbounded", "anchors": ["symfem/plotting.py:Colors.get_tikz_name", "symfem/plotting.py:Colors.get_tikz_definitions", "symfem/plotting.py:Picture.as_tikz"]}
{"id": "C103", "title": "Drawing order of sub-entities", "statement": "z_ordered_entities and z_ordered_entities_extra_dim of every reference cell list each sub-entity of the cell exactly once; for three dimensional cells the entities listed before the interior are those on no facet that faces the viewer of the default axes, and those after it are on such a facet; clockwise_vertices lists the corners of the convex hull of the drawn cell in order.", "quantifier": "all cells (dual polygons with any number of triangles), all sub-entities", "why_tests_cant": "dual polygons are unbounded, and the tests do not look at visibility", "anchors": ["symfem/references.py:Reference.z_ordered_entities", "symfem/references.py:Reference.z_ordered_entities_extra_dim", "symfem/references.py:Reference.clockwise_vertices"]}
{"id": "C104", "title": "DOF diagrams show the cell and every DOF", "statement": "plot_dof_diagram of an element shows every edge and every face of the reference cell exactly once, and for every DOF exactly one circle with its number in the colour of the dimension of its entity, together with an arrow of length arrow_size/8 in the direction of the DOF if it has one; it succeeds whenever all points have at most 3 coordinates and no direction is parallel to the direction of view.", "quantifier": "all cells, all lists of DOFs with positions, directions and entities", "why_tests_cant": "the number of DOFs is unbounded; the tests only check that a file is written", "anchors": ["symfem/finite_element.py:FiniteElement.plot_dof_diagram", "symfem/plotting.py:Picture.add_dof_arrow", "symfem/plotting.py:Picture.add_dof_marker"]}
{"id": "C105", "title": "DOF diagrams show DOFs at their positions, nearest last", "statement": "In plot_dof_diagram a DOF with a direction is moved away from its position only if another DOF has the same position, and of two DOFs on the same entity the one that is nearer to the viewer is drawn last.", "quantifier": "all elements and pairs of DOFs", "why_tests_cant": "the number of DOFs is unbounded; no test looks at the drawn positions", "anchors": ["symfem/finite_element.py:FiniteElement.plot_dof_diagram", "symfem/plotting.py:Picture.z"]}
{"id": "C106", "title": "Plots of basis functions", "statement": "plot_basis_function (and plot of a function) shows every edge of the cell once, the edge of the DOF in blue, the curves or arrows of the function once, and the DOF marked by one circle with its number; scalar functions on three dimensional cells can be plotted.", "quantifier": "all cells, functions and DOFs", "why_tests_cant": "cells (dual polygons) and functions are unbounded; the tests only check that a file is written", "anchors": ["symfem/functions.py:AnyFunction.plot", "symfem/finite_element.py:FiniteElement.plot_basis_function"]}
{"id": "C107", "title": "Plotted curves are the graph of the function", "statement": "For a polynomial of degree at most 3, the Bezier curves drawn by plot_values between points of the lattice are exactly the graph of the function over the segment, scaled by 5/8 of value_scale, seen in the projection of the picture; for a vector function the arrow at a point is the value times value_scale/4.", "quantifier": "all polynomials, points, scales and projections", "why_tests_cant": "functions, points and scales are unbounded", "anchors": ["symfem/functions.py:ScalarFunction.plot_values", "symfem/functions.py:VectorFunction.plot_values"]}
{"id": "C108", "title": "Plotting a function again uses the given scale", "statement": "Calling plot (plot_values) several times on the same function with the same cell draws the values with the value_scale of that call.", "quantifier": "all sequences of calls", "why_tests_cant": "sequences of calls are unbounded; the tests plot each function once", "anchors": ["symfem/functions.py:ScalarFunction.plot_values", "symfem/functions.py:VectorFunction.plot_values"]}
{"id": "C109", "title": "Entity diagrams", "statement": "plot_entity_diagrams of every cell except points shows one copy of the cell per dimension, with every edge once per copy; in the copy for dimension d each sub-entity of dimension d has exactly one circle, at its midpoint, with its number and the colour of the dimension; the copies do not overlap.", "quantifier": "all cells with any vertices of at most 3 coordinates (overlap: reference cells)", "why_tests_cant": "dual polygons and vertices are unbounded; the tests only check that a file is written", "anchors": ["symfem/references.py:Reference.plot_entity_diagrams"]}
{"id": "C110", "title": "Serendipity elements are unisolvent and conforming", "statement": "Creating a serendipity element succeeds on intervals, quadrilaterals and hexahedra for all orders: the number of functions is the known one, the span of the basis functions is exactly the polynomials of superlinear degree at most k, a function is determined by its DOFs, and its restriction to a sub-entity is determined by the DOFs of the entities in the closure of the sub-entity.", "quantifier": "all orders k (variant equispaced), all intervals, quadrilaterals, hexahedra (default reference)", "why_tests_cant": "orders are unbounded; tests check a few orders", "anchors": ["symfem/elements/serendipity.py:Serendipity", "symfem/polynomials/polysets.py:serendipity_set_1d", "symfem/moments.py:make_integral_moment_dofs"]}
{"id": "C111", "title": "Conforming Crouzeix-Raviart elements are unisolvent and conforming", "statement": "Creating a conforming Crouzeix-Raviart element succeeds for all orders k >= 1: there are (k+2)(k+1)/2 + k-1 functions, the span of the basis functions is exactly P_k plus the polynomials x^i y^(k-i) (x+y), 0<i<k, a function is determined by its DOFs, and its restriction to a sub-entity is determined by the DOFs of the entities in the closure of the sub-entity.", "quantifier": "all orders k >= 1 (default triangle)", "why_tests_cant": "orders are unbounded; tests check a few orders", "anchors": ["symfem/elements/conforming_crouzeix_raviart.py:ConformingCrouzeixRaviart"]}
{"id": "C112", "title": "Bubble elements are the polynomials that vanish on the boundary", "statement": "Creating a bubble element succeeds on intervals, triangles, tetrahedra, quadrilaterals and hexahedra for all orders from min_order on, and fails below; the span of its basis functions is exactly the polynomials of the Lagrange element of the same order that vanish on the boundary of the cell, a function is determined by its DOFs, and all DOFs belong to the interior.", "quantifier": "all orders, all five cells (default reference, variant equispaced)", "why_tests_cant": "orders are unbounded; tests check a few orders", "anchors": ["symfem/elements/bubble.py:Bubble"]}
{"id": "C113", "title": "Bubble enriched Lagrange elements can be used for all orders", "statement": "For all orders k >= 1 the bubble enriched (vector) Lagrange element can be created and its basis functions computed: they span P_k plus the polynomials of degree k+2 that vanish on the boundary, are determined by their DOFs, and their values on an edge are determined by the DOFs of the closure of the edge.", "quantifier": "all orders k >= 1", "why_tests_cant": "orders are unbounded; tests only use orders 1 and 2", "anchors": ["symfem/elements/bubble.py:BubbleEnrichedLagrange", "symfem/elements/bubble.py:BubbleEnrichedVectorLagrange"]}
{"id": "C114", "title": "Transition elements join elements of different orders", "statement": "Creating a transition element succeeds for every choice of orders >= 1 of the interior and of each edge and face: the number of functions is the number of vertices plus the number of interior lattice points of every entity at its own order, a function is determined by its DOFs, and its restriction to an entity is determined by the DOFs of the closure of the entity. If no entity has a lower order than its sub-entities, the span of the basis functions is exactly the polynomials of the order of the cell whose restriction to every entity has at most the order of the entity; with equal orders this is P_k.", "quantifier": "all orders >= 1 of all entities, triangle and tetrahedron (default reference, variant equispaced)", "why_tests_cant": "the combinations of orders are unbounded; tests check a few", "anchors": ["symfem/elements/transition.py:Transition"]}
{"id": "C115", "title": "Hermite elements are unisolvent and continuous on every simplex", "statement": "Creating the Hermite element succeeds on every non-degenerate interval, triangle and tetrahedron, with any vertices: there are binom(d+3,3) functions, the span of the basis functions is exactly P_3, a function is determined by its DOFs, and its values on an entity are determined by the DOFs of the closure of the entity. Other orders are refused.", "quantifier": "all non-degenerate vertices of the three cells", "why_tests_cant": "vertices are unbounded; tests use the default cells", "anchors": ["symfem/elements/hermite.py:Hermite", "symfem/functionals.py:DerivativePointEvaluation"]}
{"id": "C116", "title": "Taylor elements are unisolvent", "statement": "Creating a discontinuous Taylor element succeeds on intervals, triangles and tetrahedra for all orders k: there are binom(k+d,d) functions, the span of the basis functions is exactly P_k, a function is determined by its mean and its derivatives at the midpoint, and all DOFs belong to the interior.", "quantifier": "all orders k (default reference)", "why_tests_cant": "orders are unbounded; tests check a few orders", "anchors": ["symfem/elements/taylor.py:Taylor", "symfem/functionals.py:DerivativePointEvaluation"]}
{"id": "C117", "title": "The Argyris element is unisolvent and continuously differentiable", "statement": "The Argyris element of order 5 can be created: its 21 basis functions span exactly P_5, a function is determined by its DOFs, and its values and first derivatives on each vertex and edge are determined by the DOFs of the closure.", "quantifier": "all functions of the space", "why_tests_cant": "the functions of the space are unbounded; tests only check basis functions at DOFs and a few points on an edge", "anchors": ["symfem/elements/argyris.py:Argyris", "symfem/functionals.py:PointNormalDerivativeEvaluation", "symfem/functionals.py:PointComponentSecondDerivativeEvaluation"]}
{"id": "C118", "title": "The Morley element is unisolvent", "statement": "The Morley element of order 2 can be created: its 6 basis functions span exactly P_2, a function is determined by its DOFs, and the DOFs of the closure of an edge determine the values at its ends and the derivatives across the edge at its midpoint.", "quantifier": "all functions of the space", "why_tests_cant": "the functions of the space are unbounded", "anchors": ["symfem/elements/morley.py:Morley", "symfem/functionals.py:PointNormalDerivativeEvaluation"]}
{"id": "C119", "title": "The Bell element is unisolvent and continuously differentiable on every triangle", "statement": "The Bell element can be created on every non-degenerate triangle, with any vertices: its 18 basis functions can be computed and span exactly the polynomials of degree at most 5 whose derivatives across each edge are cubic on the edge, and the values and first derivatives on each vertex and edge are determined by the DOFs of the closure.", "quantifier": "all non-degenerate triangles", "why_tests_cant": "vertices are unbounded; tests use the default triangle", "anchors": ["symfem/elements/bell.py:Bell", "symfem/functionals.py:DerivativePointEvaluation"]}
{"id": "C120", "title": "The Bogner-Fox-Schmit element is unisolvent and continuously differentiable on every parallelogram", "statement": "The Bogner-Fox-Schmit element can be created on every non-degenerate parallelogram, with any vertices: its 16 basis functions can be computed, and the values and first derivatives on each vertex and edge are determined by the DOFs of the closure.", "quantifier": "all non-degenerate parallelograms", "why_tests_cant": "vertices are unbounded; tests use the default quadrilateral", "anchors": ["symfem/elements/bfs.py:BognerFoxSchmit", "symfem/functionals.py:DerivativePointEvaluation"]}
{"id": "C121", "title": "Direct serendipity elements: size, completeness and entities", "statement": "The functions of the direct serendipity element of order k on the quadrilateral are linearly independent, there are dim P_k + 2 of them (k >= 2), they contain every polynomial of degree at most k, and a function assigned to a vertex, edge or the interior vanishes on every edge which does not contain that entity.", "quantifier": "every order k (no bound), every polynomial of degree at most k, every function of the basis and every point of every edge", "why_tests_cant": "The test-suite only creates the element for a few orders; the interior functions always come from DPC of order 4, so counts and completeness are only wrong for orders the tests do not compare, and no test evaluates the functions on the opposite edge.", "anchors": ["symfem/elements/direct_serendipity.py:20-81"]}
{"id": "C122", "title": "Declared degrees of scalar elements", "statement": "For Lagrange, Q, DPC, serendipity, conforming Crouzeix-Raviart, bubble, bubble enriched Lagrange, Hermite, Taylor, Argyris, Morley, Bell and Bogner-Fox-Schmit elements: polynomial_subdegree is the largest n for which all polynomials of degree n are in the span of the basis functions, polynomial_superdegree the smallest n for which every basis function has degree at most n, and lagrange_subdegree / lagrange_superdegree the largest / smallest degree of a Lagrange space of the cell inside / around the span.", "quantifier": "every order for which the element can be created (no bound), every cell, every polynomial", "why_tests_cant": "the degrees are hand-written formulae; the test-suite compares them with the span only for a few low orders, where k // d and the special cases are not told apart", "anchors": ["symfem/finite_element.py:91-125", "symfem/elements/serendipity.py:69-85", "symfem/elements/bubble.py:89-105", "symfem/elements/dpc.py:74-88", "symfem/elements/q.py:149-163", "symfem/elements/conforming_crouzeix_raviart.py:61-79", "symfem/elements/bell.py:57-71"]}
{"id": "C123", "title": "Declared degrees of vector elements", "statement": "For vector Lagrange, vector Q, vector DPC, Raviart-Thomas, Nedelec (first and second kind), BDM, BDFM, serendipity H(div), BDDF and vector bubble enriched elements, on simplices, quadrilaterals and hexahedra: polynomial_subdegree is the largest n for which all vectors of polynomials of degree n are in the span of the basis functions, polynomial_superdegree the smallest n for which every component of every basis function has degree at most n, and lagrange_subdegree / lagrange_superdegree the largest / smallest degree of a vector Lagrange space of the cell inside / around the span.", "quantifier": "every order for which the element can be created (no bound), every cell, every vector of polynomials", "why_tests_cant": "the degrees are hand-written formulae; the test-suite compares them with the span only for a few low orders", "anchors": ["symfem/elements/rt.py:58-72", "symfem/elements/nedelec.py:53-67", "symfem/elements/nedelec.py:109-123", "symfem/elements/bdm.py:55-69", "symfem/elements/bdfm.py:114-131", "symfem/elements/q.py:217-350", "symfem/elements/dpc.py:139-153", "symfem/elements/serendipity.py:192-206", "symfem/elements/bddf.py:81-95", "symfem/elements/lagrange.py:168-182", "symfem/elements/bubble.py:214-228"]}
{"id": "C124", "title": "Trimmed serendipity H(div) elements", "statement": "create_element on a quadrilateral or a hexahedron with \"TSdiv\" succeeds for every order k >= 1; the span of the basis functions is the Raviart-Thomas space of the cell's dimension (polynomials of degree k-1 and x times polynomials of degree k-1) plus the curls of x y^k and x^k y (2D) or the curls of x_a x_b^i x_c^(k-1-i) (x_b e_c - x_c e_b) (3D); a function in that space all of whose functionals vanish is zero; a function whose functionals on one facet vanish has zero normal component on the facet; there is one basis function per functional and their number is k^2+2k+2 (4 for k=1) in 2D and 3 C(k+2,3)+C(k+1,2)+3k (6 for k=1) in 3D.", "quantifier": "every order k >= 1 (no bound), both cells, every function in the space", "why_tests_cant": "unisolvence at every order is a theorem about the interaction of normal moments, moments against polynomials and moments against gradients; tests only invert finitely many matrices", "anchors": ["symfem/elements/trimmed_serendipity.py:147-214", "symfem/functionals.py:938-1010", "symfem/moments.py:111-210"]}
{"id": "C125", "title": "Trimmed serendipity H(curl) elements are created and unisolvent", "statement": "create_element(cell, 'TScurl', k) creates an element whose functions are a basis of the trimmed serendipity H(curl) space, whose functionals determine the functions, and whose functionals on an edge determine the tangential component there. On quadrilaterals this holds for every k >= 1. On hexahedra creation fails for every k >= 4, because the number of polynomials exceeds the number of functionals by (k-1)(k-3).", "quantifier": "all orders k >= 1 on quadrilaterals; all orders k >= 3 (counts) and k >= 4 (failure) on hexahedra", "why_tests_cant": "failure for all larger orders and unisolvence for all orders are statements about infinitely many elements; tests check small orders only", "anchors": ["symfem/elements/trimmed_serendipity.py:28-113", "symfem/finite_element.py:560-640"]}
{"id": "C126", "title": "Serendipity H(curl) elements are created and unisolvent", "statement": "create_element(cell, 'Scurl', k) creates an element for every k >= 1 on quadrilaterals and hexahedra: its functions are a basis of the space (on hexahedra: the polynomials of degree k, fields orthogonal to x, and the gradients of all serendipity functions of order k+1), its functionals determine the functions, the functionals on an edge determine the tangential component on it, and those of a face and its edges determine the tangential components on the face.", "quantifier": "all orders k >= 1, quadrilaterals and hexahedra, equispaced variant", "why_tests_cant": "unisolvence at every order needs an argument about the terms of the polynomials of highest degree; tests only invert finitely many matrices", "anchors": ["symfem/elements/serendipity.py:86-147", "symfem/polynomials/polysets.py:395-453", "symfem/moments.py:111-210"]}
{"id": "C127", "title": "Regge elements with point evaluations", "statement": "create_element(cell, 'Regge', k, variant='point') succeeds on the triangle and the tetrahedron for every order k >= 0 and on every non-degenerate cell: its basis functions span exactly the symmetric matrices of polynomials of degree at most k, there are 3 C(k+2,2) or 6 C(k+3,3) of them, the functionals determine the functions, and the functionals of an entity and of the entities in its boundary determine all tangential components s^T u t on the entity.", "quantifier": "all orders k >= 0, triangle and tetrahedron, any non-degenerate vertices, every function in the space, every entity", "why_tests_cant": "unisolvence and the traces at every order depend on how the points and the tangents of all entities fit together; tests only invert finitely many matrices on the default cells", "anchors": ["symfem/elements/regge.py:34-90", "symfem/functionals.py:676-717"]}
{"id": "C128", "title": "Regge functions on cells that share an entity have equal tangential components", "statement": "if two cells (any vertices, any numbering) share an entity and functions of the Regge space of the same order have the same values for the functionals the cells have in common on it, then the tangential components of the two functions agree at every point of the entity.", "quantifier": "all orders, all pairs of cells and all numberings of the shared vertices", "why_tests_cant": "the tests of continuity use a fixed list of pairs of cells, orders and sampled points", "anchors": ["symfem/elements/regge.py:58-90", "symfem/functionals.py:676-717"]}
{"id": "C129", "title": "Hellan-Herrmann-Johnson elements are created and unisolvent", "statement": "create_element(cell, 'HHJ', k) succeeds on the triangle and the tetrahedron for every order k >= 0: its basis functions span exactly the symmetric matrices of polynomials of degree at most k, there is one functional per basis function and their number is 3 C(k+2,2) or 6 C(k+3,3), a function all of whose functionals vanish is zero, and a function whose functionals on a facet vanish has zero normal-normal component on the facet.", "quantifier": "all orders k >= 0, triangle and tetrahedron, every function in the space", "why_tests_cant": "unisolvence at every order depends on how the hand-written directions, the extra directions and the normals of the facets span the symmetric matrices together with positivity of integrals; tests only invert finitely many matrices", "anchors": ["symfem/elements/hhj.py:31-121", "symfem/functionals.py:1691-1805", "symfem/moments.py:111-210"]}
{"id": "C130", "title": "HHJ functions mapped to cells that share a facet have equal normal-normal components", "statement": "if two cells share a facet (with its vertices in the same order) and two HHJ functions have the same values of the functionals of the facet, then n^T u n agrees on the whole facet for the functions mapped to the cells with double_contravariant.", "quantifier": "all orders, all pairs of non-degenerate triangles or tetrahedra, all functions, all points of the facet", "why_tests_cant": "tests of continuity use a fixed list of pairs of cells, orders and sampled points", "anchors": ["symfem/elements/hhj.py:70-88", "symfem/mappings.py:169-194", "symfem/functionals.py:1726-1805"]}
{"id": "C131", "title": "Mapped vector elements on quadrilaterals and hexahedra fit together", "statement": "Take two parallelograms (or parallelepipeds) that share a facet whose vertices come in the same order in both, and the basis functions of an H(div) element (RT, BDFM, serendipity H(div), BDDF, trimmed serendipity H(div), Arnold-Boffi-Falk, Huang-Zhang, Arbogast-Correa, TNTdiv) mapped to both with map_to_cell. Combinations with the same coefficients for the DOFs of the shared facet have the same normal component at every point of the facet. For the H(curl) elements (Nedelec, serendipity H(curl), trimmed serendipity H(curl), TNTcurl) the same holds for the tangential component on a shared edge. (Holds for RT, Nedelec, serendipity H(div) and H(curl) and Arbogast-Correa, and at the lowest orders of the others, where there are no interior functionals with another mapping. Violated by BDFM, BDDF, trimmed serendipity H(div) and (on quadrilaterals) trimmed serendipity H(curl) at every order from 2, by Arnold-Boffi-Falk at every order from 1 and by Huang-Zhang and (on quadrilaterals) TNTdiv and TNTcurl at every order, whose interior or tangential functions are mapped in a different way from the facet functions.)", "quantifier": "all orders, all pairs of affine cells, all coefficients, all points of the shared facet or edge", "why_tests_cant": "The continuity tests only map to reflections of the reference cell, where the wrong mapping of the interior functions cannot be seen, and test a few low orders.", "anchors": ["symfem/finite_element.py:CiarletElement.map_to_cell", "symfem/elements/q.py:RaviartThomas", "symfem/elements/q.py:Nedelec", "symfem/elements/bdfm.py:bdfm", "symfem/elements/bddf.py:BDDF", "symfem/elements/serendipity.py:SerendipityDiv", "symfem/elements/serendipity.py:SerendipityCurl", "symfem/elements/trimmed_serendipity.py:193-210", "symfem/elements/trimmed_serendipity.py:99-109", "symfem/elements/abf.py:45-67", "symfem/elements/huang_zhang.py:56-68", "symfem/elements/tnt.py:241-243", "symfem/elements/tnt.py:386-410"]}
{"id": "C132", "title": "Arnold-Boffi-Falk elements are created and unisolvent", "statement": "create_element('quadrilateral', 'ABF', k) succeeds for every order k >= 0: there are 2(k+1)(k+3) functionals and as many basis functions, the basis functions span exactly the fields whose component i has degree at most k+2 in the variable i and at most k in the other, a function all of whose functionals (normal moments, interior moments against the Nedelec element one order lower, moments of the divergence) vanish is zero, and a function whose functionals on an edge vanish has zero normal component on that edge.", "quantifier": "all orders k >= 0, every function in the space, every edge", "why_tests_cant": "unisolvence at every order needs integration by parts and positivity of integrals; tests only invert finitely many matrices", "anchors": ["symfem/elements/abf.py:29-70", "symfem/functionals.py:IntegralOfDivergenceAgainst", "symfem/moments.py:111-210"]}
{"id": "C133", "title": "Huang-Zhang elements are created and unisolvent", "statement": "create_element('quadrilateral', 'HZ', k) succeeds for every order k >= 2: there are 2k(k+1) functionals and as many basis functions, the basis functions span the same space as those of the Raviart-Thomas element of the same order, a function all of whose functionals vanish is zero, and a function whose normal moments on an edge vanish has zero normal component on that edge.", "quantifier": "all orders k >= 2, every function in the space, every edge", "why_tests_cant": "unisolvence at every order is a statement about infinitely many matrices; tests only invert finitely many", "anchors": ["symfem/elements/huang_zhang.py:29-70", "symfem/functionals.py:938-1010", "symfem/moments.py:111-210"]}
{"id": "C134", "title": "Arbogast-Correa elements are created and unisolvent", "statement": "create_element('quadrilateral', 'AC', k) succeeds for every order k >= 0: there are 4 functionals if k = 0 and k^2+4k+5 otherwise and as many basis functions, the basis functions span the Raviart-Thomas space of degree k+1 of the triangle plus the curls of x y^(k+1) and x^(k+1) y, a function all of whose functionals vanish is zero, and a function whose functionals on an edge vanish has zero normal component on that edge.", "quantifier": "all orders k >= 0, every function in the space, every edge", "why_tests_cant": "unisolvence at every order needs a stream function for fields with no divergence and positivity of integrals; tests only invert finitely many matrices", "anchors": ["symfem/elements/ac.py:25-69", "symfem/functionals.py:IntegralAgainst", "symfem/polysets.py:Hdiv_serendipity", "symfem/moments.py:111-210"]}
{"id": "C135", "title": "A basis function that is not computed yet can be used like the function it stands for", "statement": "For an operator among + - * / @ and operands a, b, if a or b is element.get_basis_function(n) (or that with values substituted), then a op b is what it is with get_function() written out, or raises if that raises. The same for dot, shape and norm. (Holds for one basis function and a number, expression, list or function of the same kind, and for dot always. Violated: two basis functions cannot be added, subtracted, multiplied or divided, a TypeError whatever the functions are; a scalar basis function times a vector or matrix, a vector or matrix times or over a scalar basis function and matrix-vector products raise TypeError; norm always raises; shape exists only after substituting.)", "quantifier": "all functions, all operators, all operands, all chains of substitutions", "why_tests_cant": "whether an operator works depends on the classes of both operands and on Python's order of calling their methods, and there are many combinations; tests use get_function() nearly everywhere", "anchors": ["symfem/basis_functions.py:51-170", "symfem/basis_functions.py:243-252", "symfem/basis_functions.py:287-293", "symfem/basis_functions.py:385-418", "symfem/finite_element.py:1243-1270", "symfem/functions.py:550-620", "symfem/functions.py:994-1074", "symfem/functions.py:1425-1587"]}
{"id": "C136", "title": "Enriched Galerkin elements add the constant, or the vector from the midpoint, to a Lagrange element", "statement": "create_element(cell, 'EG', k) has basis functions at every order k >= 1 on every cell it supports. They are the functions of the Lagrange (or Q) element of order k followed by the constant 1, which belongs to the interior of the cell. create_element(cell, 'LFEG', k) has those of the vector Lagrange (or vector Q) element followed by x - midpoint. As functions on one cell they are linearly dependent: in EG the last function is the sum of the others.", "quantifier": "all orders k >= 1; interval, triangle, tetrahedron, quadrilateral and hexahedron (LFEG: all but the interval)", "why_tests_cant": "the statement is about every order, and that the single extra functional takes the value 1 on the extra function is an identity between integrals that the code computes at run time", "anchors": ["symfem/elements/enriched_galerkin.py:18-30", "symfem/elements/vector_enriched_galerkin.py:23-40", "symfem/elements/vector_enriched_galerkin.py:70-80", "symfem/finite_element.py:1080-1140"]}
{"id": "C137", "title": "Bernardi-Raugel elements: the space, unisolvence and continuity of normal components", "statement": "create_element('triangle', 'Bernardi-Raugel', 1) and create_element('tetrahedron', 'Bernardi-Raugel', k) with k = 1, 2 have as many functionals as functions (9, 16 and 37), and the functionals determine the functions. The basis functions span the vector polynomials of degree k, one bubble function for each facet in the direction of its normal, and at order 2 the bubble function of the cell in each direction. Two functions with equal values of the functionals of a shared facet, mapped to the two cells, have equal normal components on the facet. Any other order above 1 raises an exception.", "quantifier": "all functions of the spaces, all pairs of triangles or tetrahedra that share a facet, all coefficients; all orders for the exception", "why_tests_cant": "continuity is about all pairs of cells and all coefficients; unisolvence about all functions of the space", "anchors": ["symfem/elements/bernardi_raugel.py:32-118", "symfem/functionals.py:1456-1495", "symfem/mappings.py:120-160"]}
{"id": "C138", "title": "Rannacher-Turek and Fortin-Soulie elements: the space and unisolvence", "statement": "create_element('quadrilateral' or 'hexahedron', 'Rannacher-Turek', 1) has one functional per facet, the value at its midpoint; the functions are the affine functions plus the differences of squares of coordinates, and those values determine them. create_element('triangle', 'Fortin-Soulie', 2) has six functionals, values at points inside the edge or the cell they are associated with; the functions are all polynomials of degree 2, and the values determine them. Any other order raises an exception.", "quantifier": "all functions of the spaces; all orders for the exception", "why_tests_cant": "unisolvence is about all functions of the space; tests compare a few tabulated values", "anchors": ["symfem/elements/rannacher_turek.py:21-43", "symfem/elements/fortin_soulie.py:23-48"]}
{"id": "C139", "title": "Declared degrees of trimmed serendipity, matrix-valued, enriched and nonconforming elements", "statement": "For Arbogast-Correa, trimmed serendipity H(div) and H(curl), serendipity H(curl), Arnold-Boffi-Falk, Huang-Zhang, Bernardi-Raugel, Rannacher-Turek, Fortin-Soulie, Crouzeix-Raviart (odd orders), Regge (point variant), Hellan-Herrmann-Johnson and enriched Galerkin elements, lagrange_subdegree / polynomial_subdegree are the highest degrees of the Lagrange / polynomial space contained in the element's space, and lagrange_superdegree / polynomial_superdegree the lowest degrees of the spaces containing it. For trimmed serendipity elements this fails: on quadrilaterals the declared lagrange_subdegree (k+1)//3 is the true one exactly when k <= 6 or k = 8, and on hexahedra (H(div)) the declared (k+1)//4 exactly when k <= 9 or k is 11, 12 or 15.", "quantifier": "all orders and all listed elements", "why_tests_cant": "which polynomial spaces an element's space contains, and that no larger one is contained, is a statement about all functions of the spaces at every order; the library's tests check small orders, where the trimmed serendipity formulas happen to be right", "anchors": ["symfem/elements/ac.py:79-95", "symfem/elements/trimmed_serendipity.py:124-137", "symfem/elements/trimmed_serendipity.py:225-238", "symfem/elements/serendipity.py:132-147", "symfem/elements/abf.py:81-94", "symfem/elements/huang_zhang.py:80-93", "symfem/elements/bernardi_raugel.py:121-134", "symfem/elements/rannacher_turek.py:54-67", "symfem/elements/enriched_galerkin.py:33-48", "symfem/elements/vector_enriched_galerkin.py:83-98", "symfem/elements/fortin_soulie.py:51-64", "symfem/elements/crouzeix_raviart.py:84-97", "symfem/elements/regge.py:179-192", "symfem/elements/hhj.py:126-139"]}
{"id": "C140", "title": "Mardal-Tai-Winther elements on triangles", "statement": "Creating a Mardal-Tai-Winther element of order 3 on a triangle succeeds. It has nine functionals, which determine the function, and its functions are exactly the cubic vector fields whose divergence is constant and whose normal component on every edge is affine. Two such elements mapped to triangles that share an edge, with equal functional values on the edge, have equal normal components along it. The declared degrees (sub 1, super 3) are the true ones.", "quantifier": "all vector fields in the space, all pairs of mapped triangles and all shared edges", "why_tests_cant": "unisolvence and the description of the space are about all vector fields; continuity is about all pairs of mapped cells", "anchors": ["symfem/elements/mtw.py:31-91", "symfem/elements/mtw.py:103-117"]}
{"id": "C141", "title": "Hsieh-Clough-Tocher and reduced Hsieh-Clough-Tocher elements", "statement": "Creating an HCT element (order 3, twelve functionals) or an rHCT element (order 3, nine functionals) on the default triangle succeeds and other orders are refused. The functions of the HCT element are exactly the continuously differentiable functions that are cubic on each of the three triangles between an edge and the centre; those of the rHCT element are exactly the ones among them whose derivative across each edge is affine along the edge. In both cases the basis functions are dual to the functionals, and the functionals of an edge and its two vertices determine the value and both derivatives of the function along the edge.", "quantifier": "all piecewise cubic functions on the split triangle, all points of all edges, all orders", "why_tests_cant": "the description of the space and unisolvence are statements about all piecewise functions; tests only evaluate the functions that are listed in the code", "anchors": ["symfem/elements/hct.py:28-130", "symfem/elements/rhct.py:25-103", "symfem/piecewise_functions.py:129-155"]}
{"id": "C142", "title": "Alfeld-Sorokina elements", "statement": "Creating an Alfeld-Sorokina element of order 2 on the default triangle succeeds (fifteen functionals) and other orders are refused. Its functions are exactly the continuous vector fields with continuous divergence that are quadratic on each of the three triangles between an edge and the centre, the basis functions are dual to the functionals, and the functionals of an edge and its two vertices determine the function and its divergence along the edge.", "quantifier": "all piecewise quadratic vector fields on the split triangle, all points of all edges, all orders", "why_tests_cant": "a statement about all piecewise functions, tests only evaluate the listed ones", "anchors": ["symfem/elements/alfeld_sorokina.py:23-126", "symfem/functionals.py:857-896", "symfem/piecewise_functions.py:129-155"]}
{"id": "C143", "title": "Tabulated values have the order that was asked for, also for piecewise vector functions", "statement": "tabulate_basis returns, for an element whose functions have vector values, the values in the order that is asked for, by default one flat list of all components, and raises an error for an order that does not exist.", "quantifier": "all elements with vector values, all points, all orders", "why_tests_cant": "the tests tabulate a few elements only, and no element whose declared dimension of the values differs from the true one", "anchors": ["symfem/finite_element.py:237-276", "symfem/elements/alfeld_sorokina.py:126"]}
{"id": "C144", "title": "Integral functionals of piecewise functions", "statement": "The value of an integral functional (an integral moment, or an integral against a function) for a piecewise function is the integral over the domain of the functional of the product with the function of the functional.", "quantifier": "all piecewise functions whose cells lie in the domain, all functions to integrate against", "why_tests_cant": "a statement about the integrals of all piecewise functions; no test compares such a value with the integral", "anchors": ["symfem/functionals.py:990-1005", "symfem/functionals.py:1280-1296", "symfem/piecewise_functions.py:304-330", "symfem/piecewise_functions.py:443-465", "symfem/elements/p1_macro.py:60"]}
{"id": "C145", "title": "P1 macro and P1-iso-P2 elements", "statement": "Creating a P1 macro element on the default triangle or a P1-iso-P2 element on the default interval, triangle or quadrilateral succeeds for order 1 (4, 3, 6 and 9 functionals) and is refused for other orders. The functions of the element are exactly the continuous functions that are affine (bilinear on quadrilaterals) on each of the cells into which the reference is split, the basis functions are dual to the functionals, and the functionals of the closure of a facet determine the function on the facet.", "quantifier": "all piecewise affine and bilinear functions on the split cells, all points of all facets, all orders", "why_tests_cant": "the description of the space and the continuity are statements about all functions and points", "anchors": ["symfem/elements/p1_macro.py:20-96", "symfem/elements/p1_iso_p2.py:22-231", "symfem/piecewise_functions.py:129-155"]}
{"id": "C146", "title": "Morley-Wang-Xu and Wu-Xu elements", "statement": "Creating a Morley-Wang-Xu element on a default simplex succeeds for orders from 1 to the dimension and is refused for others; a Wu-Xu element is created for the order one more than the dimension only. The functions are all polynomials of degree at most the order, plus, for Wu-Xu, the products of the bubble with linear functions without constant. The functionals (means of values and of derivatives across facets, values and gradients at vertices) determine the functions, the basis functions are dual to them, and the declared degrees are those of the spaces.", "quantifier": "all polynomials of the spaces, all orders, intervals, triangles and tetrahedra", "why_tests_cant": "unisolvence and the degrees are statements about all functions of the space", "anchors": ["symfem/elements/morley_wang_xu.py:26-124", "symfem/elements/wu_xu.py:23-134", "symfem/functionals.py:1120-1175", "symfem/functionals.py:938-1005"]}
{"id": "C147", "title": "Continuity of Morley-Wang-Xu and Wu-Xu elements", "statement": "An element whose continuity is C0 has functions whose values on a facet are determined by the functionals of the closure of the facet, so that functions on neighbouring cells with equal functionals agree on the shared facet.", "quantifier": "all Morley-Wang-Xu and Wu-Xu elements, all functions, all points of all entities", "why_tests_cant": "continuity is a statement about all functions of the space and all points of the facets", "anchors": ["symfem/elements/morley_wang_xu.py:130-131", "symfem/elements/wu_xu.py:140"]}
{"id": "C148", "title": "Arnold-Winther elements", "statement": "For every order, the polynomials of an Arnold-Winther element on the default triangle are independent and span exactly the symmetric matrices of polynomials of degree at most the order whose row divergences have degree at most the order minus two. The functionals can be created; the products of a function with the normal of an edge are determined by the functionals of the edge and its ends. The functionals determine the functions of the space, the basis functions are dual to them, and the declared degrees are those of the space.", "quantifier": "all orders from 3, all functions of the space, all points of all edges", "why_tests_cant": "spans, unisolvence and traces are statements about all functions of an infinite family of spaces", "anchors": ["symfem/elements/aw.py:31-125", "symfem/elements/aw.py:135-153", "symfem/functionals.py:1691-1775", "symfem/functionals.py:676-755"]}
{"id": "C149", "title": "Nonconforming Arnold-Winther element", "statement": "The nonconforming Arnold-Winther element on the default triangle is created, its 15 basis functions span exactly the symmetric matrices of quadratic polynomials whose normal-normal components are linear along every edge, its functionals determine these functions, and the declared degrees are those of the space.", "quantifier": "all functions of the space", "why_tests_cant": "the span and unisolvence are statements about all functions of the space", "anchors": ["symfem/elements/aw.py:162-226", "symfem/elements/aw.py:236-256"]}
{"id": "C150", "title": "Continuity of Arnold-Winther elements", "statement": "An element with the continuity \"integral inner H(div)\" has functions whose normal-normal components have the same integral over a shared edge from both sides when the functions have the same coefficients for the functionals of the edge, on all pairs of triangles.", "quantifier": "both classes, all orders, all pairs of triangles with a common edge, all functions of the spaces", "why_tests_cant": "the claim concerns all pairs of physical cells; the tests use one pair", "anchors": ["symfem/elements/aw.py:154", "symfem/elements/aw.py:256", "symfem/finite_element.py:525-527", "symfem/finite_element.py:783-836"]}
{"id": "C151", "title": "Matrix Lagrange elements", "statement": "On every non-degenerate triangle or tetrahedron and for every order, a matrix Lagrange element has basis functions that span exactly the vectors of tdim**2 polynomials of degree at most the order, a symmetric matrix Lagrange element has basis functions that span exactly the symmetric matrices of such polynomials, the functionals determine these functions, and the declared degrees are those of the spaces.", "quantifier": "all orders, all non-degenerate triangles and tetrahedra", "why_tests_cant": "spans and unisolvence are statements about all functions of an infinite family of spaces on all cells", "anchors": ["symfem/elements/lagrange.py:189-251", "symfem/elements/lagrange.py:254-351", "symfem/functionals.py:770-808", "symfem/functions.py:1682-1698"]}
{"id": "C152", "title": "Variants of vector and matrix elements", "statement": "Every variant that the scalar Lagrange and Q elements accept gives vector and matrix elements with basis functions, since these elements take their functionals from the scalar element.", "quantifier": "all orders, the variants of Lagrange and Q, all cells of the classes", "why_tests_cant": "a failing variant shows only when basis functions are computed for that variant, and no finite list of orders covers all", "anchors": ["symfem/elements/lagrange.py:205-215", "symfem/elements/lagrange.py:275-310", "symfem/elements/q.py:189-203", "symfem/elements/lagrange_prism.py:155-171", "symfem/functionals.py:984-990"]}
{"id": "C153", "title": "Tiniest tensor product elements", "statement": "On quadrilaterals and hexahedra and for every order k from 1, a tiniest tensor product element has basis functions that span exactly the polynomials of degree at most k in every variable and the products of the power k+1 of one variable with polynomials of degree at most 1 in every other variable; the functionals determine these functions, a function of the space vanishes on every entity on which all functionals of the entity and its boundary vanish, and the declared degrees are those of the space.", "quantifier": "all orders k >= 1, quadrilaterals and hexahedra", "why_tests_cant": "the spans, unisolvence and continuity are statements about all functions of an infinite family of spaces; the tests of the project stop at order 1 on hexahedra", "anchors": ["symfem/elements/tnt.py:31-59", "symfem/elements/tnt.py:62-147", "symfem/functionals.py:938-1025", "symfem/functionals.py:1388-1451"]}
{"id": "C154", "title": "Tiniest tensor product elements in H(div) and H(curl)", "statement": "create_element('quadrilateral', 'TNTdiv', k) and create_element('quadrilateral', 'TNTcurl', k) succeed for every order k >= 1 with 2(k+1)^2 + 3 functionals and as many basis functions. With L the Legendre polynomial of degree k, the basis functions of TNTdiv span exactly the fields of degree at most k in each variable, (x^(k+1), 0), (0, y^(k+1)) and (x^(k+1) L(y), L(x) y^(k+1)); those of TNTcurl span the fields of degree at most k, (y^(k+1), 0), (0, x^(k+1)) and (L(x) y^(k+1), -x^(k+1) L(y)). A function all of whose functionals vanish is zero, a function whose functionals on an edge vanish has zero normal (TNTdiv) or tangential (TNTcurl) component on the edge, and the declared degrees are those of the space.", "quantifier": "all orders k >= 1, on quadrilaterals", "why_tests_cant": "the spans, unisolvence and traces are statements about all functions of an infinite family of spaces; tests only invert matrices of a few low orders", "anchors": ["symfem/elements/tnt.py:31-59", "symfem/elements/tnt.py:157-325", "symfem/elements/tnt.py:335-496", "symfem/functionals.py:938-1025"]}
{"id": "C155", "title": "Guzman-Neilan elements on triangles", "statement": "create_element('triangle', 'Guzman-Neilan', 1) succeeds with 11 functionals and 11 basis functions. Its basis functions span exactly the fields in pieces, on the three triangles that join the edges to the midpoint, that are continuous and quadratic, have a constant divergence on each piece, and have affine tangential components on the edges of the triangle. A function all of whose functionals vanish is zero, and a function whose functionals on an edge vanish has zero normal component on the edge.", "quantifier": "all functions of the element, and all points of the edges", "why_tests_cant": "the functions are built from a table of typed-in coefficients; that the combinations have constant divergences, fill a space with an independent description and are determined by the functionals are statements about all functions of a space in pieces, where tests only evaluate the dual matrix", "anchors": ["symfem/elements/guzman_neilan.py:28-155", "symfem/elements/guzman_neilan.py:221-342", "symfem/elements/_guzman_neilan_triangle.py:5-36", "symfem/piecewise_functions.py:443-470", "symfem/references.py:260-300"]}
{"id": "C156", "title": "Positions of functionals", "statement": "dof_point of a functional is a point of the sub-entity the functional is associated with: point evaluations are at their point, integrals at the midpoint, and a moment against a functional of an element on the sub-entity is at the image of that functional's position, to any depth of nesting. dof_plot_positions of an element has one point per functional in order: the point itself for point evaluations, and a point in the relative interior of the sub-entity for integrals. On default references of every cell type, two integrals on different sub-entities are never drawn at the same place, and two moments on one sub-entity only if the functionals they are against have the same position. On a quadrilateral with given vertices this holds if it is a parallelogram.", "quantifier": "all cells, all vertices (straight sub-entities), all functionals built from point evaluations, integrals and nested moments", "why_tests_cant": "the claim is about all cells with any vertices and functionals nested to any depth; the tests check the positions of a list of elements on default references only", "anchors": ["symfem/functionals.py:184-204", "symfem/functionals.py:278-294", "symfem/functionals.py:982-988", "symfem/functionals.py:1066-1072", "symfem/functionals.py:1149-1155", "symfem/functionals.py:1309-1319", "symfem/finite_element.py:637-643", "symfem/moments.py:98-112"]}
{"id": "C157", "title": "Nedelec elements on prisms", "statement": "create_element('prism', 'Nedelec', k) for k = 1 and 2 succeeds; the functionals determine the functions. At order 1 there are 9 functionals and basis functions, which span exactly the fields (a + b z - (p + q z) y, c + d z + (p + q z) x, e + f x + g y). A function whose functional on an edge vanishes has zero tangential component on the edge, and a function whose functionals on the edges of a face vanish has zero tangential components on the face, for the two triangles and the three quadrilaterals. From order 3 the constructor raises an exception.", "quantifier": "all functions of the element, all edges, all faces and all points on them; all orders from 3 for the exception", "why_tests_cant": "that functionals determine tangential components on faces of two shapes is about all functions and points; the tests check the dual matrix", "anchors": ["symfem/elements/nedelec_prism.py:26-94", "symfem/moments.py:98-112"]}
{"id": "C158", "title": "Declared degrees on prisms and pyramids, and of Bernstein and KMV elements", "statement": "lagrange_subdegree, lagrange_superdegree, polynomial_subdegree and polynomial_superdegree of an element are the degrees of the largest spaces of Lagrange elements and of complete polynomials inside the span of its basis functions, and of the smallest around it: for Bernstein elements of every order on the simplices where they can be created, Kong-Mulder-Veldhuizen elements of orders 1 to 3 on triangles and 1 on tetrahedra, Lagrange elements of every order on prisms, and Nedelec elements of order 1 on prisms. For Lagrange elements on pyramids, every polynomial of degree at most the order is a function of the element on the pyramid and this fails for one degree more; and polynomial_superdegree, which is None, is right exactly from order 1: the functions then include ones that are not a polynomial of any degree, while at order 0 they are constants and the degree is 0.", "quantifier": "all orders, variants whose points are available and symmetric, all polynomials, all functions of the elements", "why_tests_cant": "containment between function spaces, and maximality of the degree, quantify over all polynomials of all degrees; that no polynomial of any degree agrees with a rational function on the pyramid cannot be sampled", "anchors": ["symfem/finite_element.py:91-125", "symfem/elements/bernstein.py:237-251", "symfem/elements/kmv.py:232-246", "symfem/elements/lagrange_prism.py:120-134", "symfem/elements/lagrange_pyramid.py:115-129", "symfem/elements/nedelec_prism.py:104-118"]}
{"id": "C159", "title": "Directions of functionals", "statement": "The direction that dof_directions gives for a functional of vector-valued functions is the one the functional sees: a field that is perpendicular to the direction at the point of the functional, or at every point of the entity it integrates over, has the value 0. This holds for point evaluations of the product with a vector, for tangential and normal integral moments on every cell, and for integral moments against the functions of vector Lagrange elements of every order on triangles, tetrahedra and the faces of tetrahedra.", "quantifier": "all points and vectors, all entities with a tangent or normal, all scalar functions in the moments, all orders of the vector Lagrange element and all its functionals, all polynomial fields", "why_tests_cant": "the value is an integral of an arbitrary field; that the direction, which is computed from another functional on another cell, agrees with the basis function that is dual to that functional is a statement about the inverse of the dual matrix of every order", "anchors": ["symfem/functionals.py:157-163", "symfem/functionals.py:818-827", "symfem/functionals.py:1321-1340", "symfem/functionals.py:1547-1553", "symfem/functionals.py:1610-1616", "symfem/finite_element.py:645-651"]}
{"id": "C160", "title": "Caching never changes a dual matrix of an element of the library", "statement": "Two elements of the library have the same cache id only if they are the same element: the same class, cell, vertices, order and options, although several classes have the same name. So, whatever calls of get_dual_matrix are made on whatever elements with one cache directory that is empty at first, every call gives the matrix that would be calculated without the cache.", "quantifier": "all element classes of the library, all cells they exist on with rational vertices in the dimension of the cell, all orders and options, all finite histories of calls", "why_tests_cant": "pairs of elements and histories of calls are unbounded, and a clash of ids shows only when one particular element is used after another one with the same cache directory", "anchors": ["symfem/finite_element.py:676-709", "symfem/finite_element.py:584-585", "symfem/caching.py:24-65"]}
